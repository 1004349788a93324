import Verif.Model.ValueFunc
/-!
# Specification of value functions

Read off a history (latest event first): how many objects there are, and which function an object's value
is meant to come from.
-/
namespace Pawpaw.ValueSpec
open Value
variable {F : Type}

/-- Is the assignment of `f` one that is accepted? -/
def Accepted (fits : F → Bool) : Option F → Prop
  | none => True
  | some g => fits g = true

instance (fits : F → Bool) (f : Option F) : Decidable (Accepted fits f) := by
  cases f <;> unfold Accepted <;> infer_instance

/-- The number of objects created, latest event first. -/
def count : List (Ev F) → Nat
  | [] => 0
  | .set _ _ :: es => count es
  | _ :: es => count es + 1

/-- The function from which object `i` takes its value, latest event first: the one of the last accepted
assignment; an object made by `clone` starts with the function of the object cloned, all others with none. -/
def current (fits : F → Bool) : List (Ev F) → Nat → Option F
  | [], _ => none
  | .new :: es, i => if i = count es then none else current fits es i
  | .load _ :: es, i => if i = count es then none else current fits es i
  | .clone j :: es, i => if i = count es then current fits es j else current fits es i
  | .set j f :: es, i => if i = j ∧ Accepted fits f then f else current fits es i

/-- A history that only names objects that exist. -/
def Named : List (Ev F) → Prop
  | [] => True
  | .new :: es => Named es
  | .set i _ :: es => i < count es ∧ Named es
  | .clone i :: es => i < count es ∧ Named es
  | .load i :: es => i < count es ∧ Named es

end Pawpaw.ValueSpec
