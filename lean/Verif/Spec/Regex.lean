import Verif.Model.Regex
/-!
# The language of a regular expression (textbook definition)

Only for expressions without `^`, `$`, lookahead and other assertions.
-/
namespace RegexSpec
open Pawpaw.Regex

/-- `u` is a concatenation of texts in `L`. -/
inductive Many (L : List Char → Prop) : List Char → Prop
  | nil : Many L []
  | cons {u v : List Char} : L u → Many L v → Many L (u ++ v)

/-- The texts an expression stands for. -/
def Lang : Re → List Char → Prop
  | .eps, u => u = []
  | .chr p, u => ∃ c, p c = true ∧ u = [c]
  | .seq a b, u => ∃ v w, u = v ++ w ∧ Lang a v ∧ Lang b w
  | .alt a b, u => Lang a u ∨ Lang b u
  | .star _ a, u => Many (Lang a) u
  | .grp _ a, u => Lang a u
  | .bos, _ => False
  | .eos, _ => False
  | .look _, _ => False
  | .test _, _ => False
  | .dep a f, u => ∃ v w, u = v ++ w ∧ Lang a v ∧ Lang (f v) w

/-- No `^`, no `$`, no lookahead, no other assertion. -/
def Free : Re → Prop
  | .eps => True
  | .chr _ => True
  | .seq a b => Free a ∧ Free b
  | .alt a b => Free a ∧ Free b
  | .star _ a => Free a
  | .grp _ a => Free a
  | .bos => False
  | .eos => False
  | .look _ => False
  | .test _ => False
  | .dep a f => Free a ∧ ∀ u, Free (f u)

/-- No lookahead. -/
def NoLook : Re → Prop
  | .seq a b => NoLook a ∧ NoLook b
  | .alt a b => NoLook a ∧ NoLook b
  | .star _ a => NoLook a
  | .grp _ a => NoLook a
  | .look _ => False
  | .dep a f => NoLook a ∧ ∀ u, NoLook (f u)
  | _ => True

end RegexSpec
