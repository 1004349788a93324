import Verif.Spec.Tree
import Verif.Model.Axis
/-!
# Specification of the query axes

Only the vocabulary of axes (`AxisKey`, `OrSelf`, `Axis`) is taken from the model.
-/
namespace QuerySpec
open Pawpaw TreeSpec Pawpaw.Query

/-- `q` is one of the nodes the axis is documented to reach from the node `p` of tree `t`
("5. Traversal & Query.md", "Axis Identifiers"); nodes are paths. -/
def Reaches (t : Node) (p : Path) : AxisKey → Path → Prop
  | .root, q => q = [] ∧ p ≠ []
  | .ancestors, q => Desc q p
  | .parent, q => ∃ i, p = q ++ [i]
  | .self, q => q = p
  | .dedup, q => q = p
  | .children, q => IsNode t q ∧ ∃ i, q = p ++ [i]
  | .descendants, q => IsNode t q ∧ Desc p q
  | .leaves, q => IsNode t q ∧ Desc p q ∧ ∀ i, ¬ IsNode t (q ++ [i])
  | .preceding, q => IsNode t q ∧ DocLt q p ∧ ¬ Desc q p
  | .priors, q => ∃ r i j, p = r ++ [i] ∧ q = r ++ [j] ∧ j < i
  | .prior, q => ∃ r j, p = r ++ [j + 1] ∧ q = r ++ [j]
  | .next, q => IsNode t q ∧ ∃ r i, p = r ++ [i] ∧ q = r ++ [i + 1]
  | .nexts, q => IsNode t q ∧ ∃ r i j, p = r ++ [i] ∧ q = r ++ [j] ∧ i < j
  | .following, q => IsNode t q ∧ DocLt p q ∧ ¬ Desc p q

/-- The default order of an axis is from nearest to farthest: against document order for the axes that
lead backwards, and in document order for the others. -/
def backward : AxisKey → Bool
  | .root | .ancestors | .parent | .preceding | .priors | .prior => true
  | _ => false

/-- The listing of a set of nodes in axis order. -/
def InAxisOrder (a : Axis) (ns : List Path) : Prop :=
  ns.Pairwise (fun x y => if backward a.key = a.rev then DocLt x y else DocLt y x)

/-- The self option: `!` adds the current node when the step is empty, `!!` always; it comes first, or
last when the axis is reversed. -/
def addSelf (a : Axis) (p : Path) (ns : List Path) : List Path :=
  match a.orSelf with
  | .no => ns
  | .ifEmpty => if ns = [] then [p] else ns
  | .always => if a.rev then ns ++ [p] else p :: ns

/-- Numbered from 0. -/
def numbered (ns : List Path) : List EIto := (List.range ns.length).zip ns

end QuerySpec
