import Verif.Model.QueryText
/-!
# Model of `EcfCombined`, `/repo/pawpaw/query/_query.py:295-376`

`F` is the type of filters, operands are texts.  A filter is evaluated in an environment `E` (the enumerated
Ito, values and predicates) and may raise.
-/
namespace Pawpaw
namespace Ecf

/-- A filter function `(ec, values, predicates) -> bool`. -/
abbrev Filter (E : Type) := E → Except PyErr Bool

/-- `OPERATORS.keys()`, `/repo/pawpaw/query/_query.py:12-17` -/
def operators : List Char := ['~', '&', '^', '|']

/-- The binary operators in order of precedence, `/repo/pawpaw/query/_query.py:12-17`. -/
def diadic : List (Char × (Bool → Bool → Bool)) := [('&', and), ('^', xor), ('|', or)]

/-- `operand.str_partition(c)` for a `c` that occurs: before and after its first occurrence. -/
def partitionChar (c : Char) (s : List Char) : List Char × List Char :=
  (s.takeWhile (fun d => decide (d ≠ c)), (s.dropWhile (fun d => decide (d ≠ c))).drop 1)

/-- `operand.str_rpartition(c)` for a `c` that occurs: before and after its last occurrence. -/
def rpartitionChar (c : Char) (s : List Char) : List Char × List Char :=
  let p := partitionChar c s.reverse
  (p.2.reverse, p.1.reverse)

/-- `_eval`, `/repo/pawpaw/query/_query.py:345-352` -/
def evalOne {E : Type} (operand : List Char) (f : Filter E) (e : E) : Except PyErr Bool :=
  match f e with
  | .error x => .error x
  | .ok rv => .ok (if operand.count '~' % 2 = 1 then !rv else rv)

/-- `[self._eval(self.operands[i], f, …) for i, f in enumerate(self.filters)]`,
`/repo/pawpaw/query/_query.py:365` -/
def evalAll {E : Type} (e : E) : List (List Char) → List (Filter E) → Except PyErr (List Bool)
  | _, [] => .ok []
  | [], _ :: _ => .error .indexError
  | o :: os, f :: fs =>
    match evalOne o f e with
    | .error x => .error x
    | .ok v =>
      match evalAll e os fs with
      | .error x => .error x
      | .ok vs => .ok (v :: vs)

/-- `_highest_precedence_diadic`, `/repo/pawpaw/query/_query.py:354-362`. -/
def highestFrom (ops : List (List Char)) : List (Char × (Bool → Bool → Bool)) →
    Option (Nat × (Bool → Bool → Bool))
  | [] => none
  | (k, f) :: ks =>
    match ops.findIdx? (fun op => decide (k ∈ op)) with
    | some i => some (i, f)
    | none => highestFrom ops ks

/-- The `while len(vals) > 1` loop, `/repo/pawpaw/query/_query.py:368-374`.  Without an operator in any
operand, unpacking `None` raises `TypeError`.  `fuel` is at least the number of values. -/
def reduce : Nat → List Bool → List (List Char) → Except PyErr Bool
  | _, [], _ => .error .indexError
  | _, [v], _ => .ok v
  | 0, _, _ => .error .nonTermination
  | fuel + 1, vals, ops =>
    match highestFrom ops diadic with
    | none => .error .typeError
    | some (i, f) =>
      match vals[i]?, vals[i + 1]? with
      | some a, some b => reduce fuel (vals.take i ++ f a b :: vals.drop (i + 2)) (ops.take i ++ ops.drop (i + 1))
      | _, _ => .error .indexError

/-- `func`, `/repo/pawpaw/query/_query.py:364-376` -/
def func {E : Type} (filters : List (Filter E)) (operands : List (List Char)) : Filter E := fun e =>
  match evalAll e operands filters with
  | .error x => .error x
  | .ok vals => reduce vals.length vals ((operands.drop 1).dropLast)

/-- `next(((i, operands[i]) for i in range(len(operands) - 1, -1, -1) if operands[i].str_find('(') > -1), …)`,
`/repo/pawpaw/query/_query.py:321` -/
def lastOpen (operands : List (List Char)) : Option Nat :=
  (List.range operands.length).reverse.find? (fun i => decide ('(' ∈ operands.getD i []))

/-- `next(((i, operands[i]) for i in range(last_open_i + 1, len(operands)) if …str_find(')') > -1), …)`,
`/repo/pawpaw/query/_query.py:331` -/
def nextClosed (operands : List (List Char)) (lo : Nat) : Option Nat :=
  (List.range' (lo + 1) (operands.length - (lo + 1))).find? (fun i => decide (')' ∈ operands.getD i []))

/-- The `while True` loop of `EcfCombined.__init__`, `/repo/pawpaw/query/_query.py:320-341`.
Each round removes at least one `'('`, so `fuel` = their number is enough.  Simplification: the recursive
`EcfCombined(…)` of line 338 gets operands without parentheses, whose characters were checked, at least two
filters and one more operand, so its constructor checks pass and its own loop does nothing: only its `func`
is modelled. -/
def parens {E : Type} : Nat → List (Filter E) → List (List Char) →
    Except PyErr (List (Filter E) × List (List Char))
  | 0, filters, operands => .ok (filters, operands)
  | fuel + 1, filters, operands =>
    match lastOpen operands with
    | none => .ok (filters, operands)
    | some lo =>
      let (before, tmp) := rpartitionChar '(' (operands.getD lo [])
      if ')' ∈ tmp then .error .valueError
      else
        let operands := operands.set lo before
        match nextClosed operands lo with
        | none => .error .valueError
        | some nc =>
          let (closed, after) := partitionChar ')' (operands.getD nc [])
          let operands := operands.set nc after
          if nc - lo = 1 then parens fuel filters (operands.set lo tmp)
          else
            let sub := func ((filters.take nc).drop lo)
              (tmp :: ((operands.take nc).drop (lo + 1) ++ [closed]))
            parens fuel (filters.take lo ++ sub :: filters.drop nc)
              (operands.take (lo + 1) ++ operands.drop nc)

/-- `EcfCombined.__init__`, `/repo/pawpaw/query/_query.py:299-343`; the result is `(self.filters,
self.operands)`. -/
def combined {E : Type} (filters : List (Filter E)) (operands : List (List Char)) :
    Except PyErr (List (Filter E) × List (List Char)) :=
  if filters.length = 0 then .error .valueError
  else if operands.length ≠ filters.length + 1 then .error .valueError
  else if operands.any (fun op => op.any (fun c => decide (c ∉ operators ∧ c ∉ [' ', '(', ')']))) then
    .error .valueError
  else if (operands.map (fun op => op.count '(')).sum ≠ (operands.map (fun op => op.count ')')).sum then
    .error .valueError
  else parens (operands.map (fun op => op.count '(')).sum filters operands

end Ecf
end Pawpaw
