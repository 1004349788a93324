import Verif.Spec.Util
/-!
# Specification of the lexical structure of query paths
-/
namespace QuerySpec
open UtilSpec

/-- Number of unescaped opening minus unescaped closing braces before position `k`. -/
def braceDepth (w : List Char) (k : Nat) : Int :=
  (((List.range k).filter (fun j => decide (UnescapedAt ['{'] '\\' w j))).length : Int) -
  (((List.range k).filter (fun j => decide (UnescapedAt ['}'] '\\' w j))).length : Int)

/-- A top-level slash: unescaped, and outside braces. -/
def TopSlash (w : List Char) (k : Nat) : Prop := UnescapedAt ['/'] '\\' w k ∧ braceDepth w k = 0

instance (w : List Char) (k : Nat) : Decidable (TopSlash w k) := inferInstanceAs (Decidable (_ ∧ _))

/-- The escaped form of a character. -/
def escChar (c : Char) : List Char :=
  if c = '\\' ∨ c = '[' ∨ c = ']' ∨ c = '/' ∨ c = ',' ∨ c = '{' ∨ c = '}' then ['\\', c] else [c]

end QuerySpec
