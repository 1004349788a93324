import Verif.Spec.Json
/-!
# Specification vocabulary: towers of nodes of one span
-/
namespace TreeSpec
open Pawpaw

/-- The descs of the node and of its only child of the same span, and of that child's only child, and so on, from the
outermost to the innermost. -/
def towerDescs : Node → List (Option String)
  | .mk s d _ [k] => if k.span = s then d :: towerDescs k else [d]
  | .mk _ d _ _ => [d]

/-- How many steps of a path go to a child that is not the first. -/
def turns (q : List Nat) : Nat := (q.filter (· ≠ 0)).length

/-- The node at `q` is the outermost of its span: it is the root, or its parent has another span. -/
def Outermost (t : Node) (q : List Nat) : Prop :=
  ∀ q' i n m, q = q' ++ [i] → t.get? q' = some n → t.get? q = some m → n.span ≠ m.span

/-- Wherever the path has an odd number of steps to a child that is not the first, the descs of the nodes of one span
read the same from the outside in and from the inside out. -/
def Mirrored (t : Node) : Prop :=
  ∀ q n, t.get? q = some n → Outermost t q → turns q % 2 = 1 → (towerDescs n).reverse = towerDescs n

end TreeSpec
