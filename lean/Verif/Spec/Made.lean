import Verif.Spec.Heap
import Verif.Model.Pipeline
/-!
# Specification: an operation that only makes new trees
-/
namespace HeapSpec
open Pawpaw Pipeline TreeSpec

/-- Memory `h` became `h'`: no object of `h` changed, and `ids` are different new parentless objects on string `s`
which look like the value trees `ts`. `h'` is consistent and acyclic. -/
structure Made (s : String) (h h' : Heap) (ids : List Nat) (ts : List Node) : Prop where
  next : h.next ≤ h'.next
  old : ∀ i < h.next, h'.obj i = h.obj i
  ok : OK h'
  acyclic : Acyclic h'
  fresh : ∀ i ∈ ids, h.next ≤ i ∧ i < h'.next
  root : ∀ i ∈ ids, h'.parent i = none
  str : ∀ i ∈ ids, h'.str i = s
  nodup : ids.Nodup
  looks : LooksAll h' ids ts

/-- In every consistent memory, running `F` to its end on an object that looks like `t` (on string `s`) makes new
trees `us` and changes nothing else. -/
def Makes (s : String) (F : Heap → Nat → Gen) (t : Node) (us : List Node) : Prop :=
  ∀ h x, OK h → Acyclic h → x < h.next → h.str x = s → Looks h x t →
    ∃ h' ids, (F h x).collect = (h', .ok ids) ∧ Made s h h' ids us

/-- As `Makes`, with everything made before anything is yielded. -/
def MakesFirst (s : String) (F : Heap → Nat → Gen) (t : Node) (us : List Node) : Prop :=
  ∀ h x, OK h → Acyclic h → x < h.next → h.str x = s → Looks h x t →
    ∃ h' ids, F h x = Gen.ofList ids h' ∧ Made s h h' ids us

end HeapSpec
