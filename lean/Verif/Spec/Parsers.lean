import Verif.Model.PatternsMore
/-!
# What a match of the pattern of format directives says

The groups that `__format__` reads from a match (`/repo/pawpaw/ito.py:655-709`), and what it makes of them.
-/
namespace Pawpaw
namespace Patterns
open Regex

/-- `pattern.match(string, start, stop)`, where `w` is `string[start:stop]`. -/
def matchAt (r : Re) (start : Nat) (w : List Char) : Option Found :=
  ((out r ⟨start, w, []⟩).head?).map fun st => ⟨start, st.pos, st.caps⟩

/-- The directive that the groups of the match `m` describe; `w` is the text from `i` on. -/
def Describes (m : Found) (w : List Char) (i : Nat) : Format.Found → Prop
  | .zws => group m "zws" w i ≠ none
  | .int d dirStop => group m "zws" w i = none ∧ group m "dir" w i = some d.name ∧
      (groupSpan m "dir").map (·.2) = some dirStop
  | .str d c wd => group m "zws" w i = none ∧ group m "dir" w i = some d.name ∧
      (match c with
       | none => group m "conv" w i = none
       | some c => group m "conv" w i = some [c.conv] ∧ group m "lslice" w i = c.lslice ∧ group m "rslice" w i = c.rslice) ∧
      (match wd with
       | none => group m "width" w i = none
       | some x => group m "width" w i = some x.width ∧ group m "abbr_pos" w i = x.pos.map (fun p => [p]) ∧
           group m "abbr" w i = x.abbr)

end Patterns
end Pawpaw
