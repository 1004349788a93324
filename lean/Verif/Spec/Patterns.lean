import Verif.Model.ReSyntax
/-!
# What it means that a pattern text is a given expression
-/
namespace Pawpaw
namespace ReSyntax
open Regex

/-- Two expressions match in the same ways: from every state, the same ways of matching in the same order, with the same
captures. -/
def Same (r r' : Re) : Prop := ∀ st, out r st = out r' st

/-- The text is read, to its end, and what it is read as matches in the same ways as `r`. -/
def Denotes (E : Env) (verbose : Bool) (text : List Char) (r : Re) : Prop :=
  ∃ r', compile E verbose text = some r' ∧ Same r' r

end ReSyntax
end Pawpaw
