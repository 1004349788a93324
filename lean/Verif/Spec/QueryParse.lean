import Verif.Spec.Query
/-!
# Specification of written queries
-/
namespace QuerySpec
open Pawpaw Pawpaw.Query

/-- How an axis key is written. -/
def keyText : AxisKey → List Char
  | .root => ['.', '.', '.', '.']
  | .ancestors => ['.', '.', '.']
  | .parent => ['.', '.']
  | .self => ['.']
  | .dedup => ['>', '<']
  | .children => ['*']
  | .descendants => ['*', '*']
  | .leaves => ['*', '*', '*']
  | .preceding => ['<', '<', '<']
  | .priors => ['<', '<']
  | .prior => ['<']
  | .next => ['>']
  | .nexts => ['>', '>']
  | .following => ['>', '>', '>']

/-- How the self option is written. -/
def orSelfText : OrSelf → List Char
  | .no => []
  | .ifEmpty => ['!']
  | .always => ['!', '!']

/-- How an axis is written; a forward axis may be preceded by `+`. -/
def axisText (plus : Bool) (a : Axis) : List Char :=
  (if a.rev then ['-'] else if plus then ['+'] else []) ++ keyText a.key ++ orSelfText a.orSelf

/-- An element of an index list: `a`, `a-b` or `a-`. -/
inductive Idx where
  | one (a : Nat)
  | range (a b : Nat)
  | from (a : Nat)
  deriving DecidableEq, Repr

/-- The positions it stands for. -/
def Idx.Has (k : Nat) : Idx → Prop
  | .one a => k = a
  | .range a b => a ≤ k ∧ k < b
  | .from a => a ≤ k

instance (k : Nat) : (r : Idx) → Decidable (r.Has k)
  | .one _ => inferInstanceAs (Decidable (_ = _))
  | .range _ _ => inferInstanceAs (Decidable (_ ∧ _))
  | .from _ => inferInstanceAs (Decidable (_ ≤ _))

/-- How it is written, in decimal. -/
def Idx.text : Idx → String
  | .one a => toString a
  | .range a b => toString a ++ "-" ++ toString b
  | .from a => toString a ++ "-"

/-- How an index list is written. -/
def idxText (rs : List Idx) : List Char := [','].intercalate (rs.map (fun r => r.text.toList))

/-- `[i:…]` or, with `neg`, `[~i:…]`. -/
def indexFilter (neg : Bool) (rs : List Idx) : List Char :=
  '[' :: ((if neg then ['~'] else []) ++ 'i' :: ':' :: idxText rs) ++ [']']

/-- Elements of a list whose position satisfies `P`, in order. -/
def pick {τ : Type} (P : Nat → Prop) [DecidablePred P] (l : List τ) : List τ :=
  ((List.range l.length).zip l).filterMap (fun p => if P p.1 then some p.2 else none)

end QuerySpec
