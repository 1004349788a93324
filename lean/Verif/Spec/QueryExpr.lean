import Verif.Spec.Ecf
import Verif.Spec.EcfLone
/-!
# Boolean expressions over bracketed groups, as texts
-/
namespace EcfSpec

/-- The text of a token list whose atoms are groups in brackets `o … c`, given by what is between the brackets. -/
def written (o c : Char) : List (Tok (List Char)) → List Char
  | [] => []
  | .ch d :: ts => d :: written o c ts
  | .atom b :: ts => o :: (b ++ c :: written o c ts)

end EcfSpec
