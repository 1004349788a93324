import Verif.Model.Errors
/-!
# The names of a type (C127)
-/
namespace Pawpaw
namespace ErrsSpec
open Errs (Ty)

/-- `n` is a name of the type: its qualified name (the whole type for a callable), the name of its bound, of
a member of the union, or its `repr`. -/
inductive Names : Ty → String → Prop where
  | qual {q s} : q ≠ "Callable" → Names (.qual q s) q
  | callable {s} : Names (.qual "Callable" s) s
  | bound {b n} : Names b n → Names (.bound b) n
  | union {args a n} : a ∈ args → Names a n → Names (.union args) n
  | none : Names .none "None"
  | other {r} : Names (.other r) r

end ErrsSpec
end Pawpaw
