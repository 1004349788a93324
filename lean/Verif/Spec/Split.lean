import Verif.Spec.Arbor
import Verif.Model.Arbor
/-!
# Specification of what `Split` makes of a node

From the model only the data types (`Node`, `SplitCfg` and its fields).
-/
namespace SplitSpec
open Pawpaw Arbor ArborSpec

/-- The boundaries, with the text before each and after the last as leaves; nothing empty. -/
def mixed (leaf : Span → Node) : Int → Int → List Node → List Node
  | a, b, [] => if a ≠ b then [leaf ⟨a, b⟩] else []
  | a, b, s :: ss => (if a ≠ s.start then [leaf ⟨a, s.start⟩] else []) ++ (if s.start ≠ s.stop then [s] else []) ++
      mixed leaf s.stop b ss

/-- What a `Split` makes of a node of span `⟨a, b⟩` whose boundaries are the nodes `seps`. -/
def pieces (c : SplitCfg) (vf : Option Nat) (a b : Int) (seps : List Node) : List Node :=
  let leaf : Span → Node := fun sp => .mk sp c.desc vf []
  let used := allowed c.limit seps
  let spans := used.map Node.span
  if used = [] then (if c.zeroSplit then [leaf ⟨a, b⟩] else [])
  else match c.retention with
    | .none => (nonEmpty (between a b spans)).map leaf
    | .leading => (nonEmpty (leading b spans)).map leaf
    | .trailing => (nonEmpty (trailing a spans)).map leaf
    | .all => mixed leaf a b used

end SplitSpec
