import Verif.Model.ItoRegex
/-!
# Specification vocabulary for matching in a part of a string
-/
namespace RegexSpec
open Pawpaw.Regex

/-- The pattern does not look back: no `^`, and no assertion that depends on the position. -/
def Ahead : Re → Prop
  | .seq a b => Ahead a ∧ Ahead b
  | .alt a b => Ahead a ∧ Ahead b
  | .star _ a => Ahead a
  | .grp _ a => Ahead a
  | .bos => False
  | .look a => Ahead a
  | .test p => ∀ i j w, p i w = p j w
  | .dep a f => Ahead a ∧ ∀ u, Ahead (f u)
  | _ => True

/-- A match in a text, as a match in a string that has `k` characters before the text. -/
def moved (k : Nat) (f : Found) : Found :=
  ⟨f.start + k, f.stop + k, f.caps.map fun c => (c.1, c.2.1 + k, c.2.2 + k)⟩

/-- `u` lies in the text at place `p`. -/
def At (text u : List Char) (p : Nat) : Prop := ∃ a w, text = a ++ u ++ w ∧ p = a.length

end RegexSpec
