import Verif.Spec.Tree
/-!
# Specification vocabulary for serialization
-/
namespace TreeSpec
open Pawpaw

mutual
/-- The tree with all value functions dropped: what serialization can preserve. -/
def bare : Node → Node
  | .mk s d _ ks => .mk s d none (bareAll ks)
def bareAll : List Node → List Node
  | [] => []
  | k :: ks => bare k :: bareAll ks
end

/-- The spans of a tree's nodes, in document order. -/
def spans (t : Node) : List Span := (listing t).map Prod.fst

end TreeSpec
