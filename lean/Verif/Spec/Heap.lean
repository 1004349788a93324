import Verif.Model.Heap
import Verif.Spec.Tree
/-!
# Specification vocabulary for object graphs

Only the data types `Heap`/`Obj` and their field accessors are taken from the model.
-/
namespace HeapSpec
open Pawpaw TreeSpec

/-- The object graph is consistent: spans lie in their strings; in every object the children are strictly
ordered by start, do not overlap and lie inside it; they have it as `.parent` and share its string; and
every object with a `.parent` is among that parent's children. -/
structure OK (h : Heap) : Prop where
  span : ∀ x < h.next, 0 ≤ (h.span x).start ∧ (h.span x).start ≤ (h.span x).stop ∧
    (h.span x).stop ≤ (h.str x).length
  kids : ∀ p < h.next, KidsOK (h.span p) ((h.kids p).map h.span)
  kidParent : ∀ p < h.next, ∀ c ∈ h.kids p, c < h.next ∧ h.parent c = some p ∧ h.str c = h.str p
  parentKid : ∀ x < h.next, ∀ p, h.parent x = some p → p < h.next ∧ x ∈ h.kids p ∧ x ≠ p

/-- `a` is a proper ancestor of `x`: reached by following `.parent` one or more times. -/
inductive Anc (h : Heap) : Nat → Nat → Prop
  | parent {x a : Nat} : h.parent x = some a → Anc h a x
  | step {x y a : Nat} : h.parent x = some y → Anc h a y → Anc h a x

/-- No object is its own ancestor. -/
def Acyclic (h : Heap) : Prop := ∀ x < h.next, ¬ Anc h x x

/-- Two heaps hold the same objects with the same parents and children (spans, strings, descs too). -/
def Same (h h' : Heap) : Prop := h'.next = h.next ∧ ∀ x, h'.obj x = h.obj x

mutual
/-- Object `x` and its descendants in heap `h` look like the value tree: spans, descs, value functions and
children, in order. -/
def Looks (h : Heap) (x : Nat) : Node → Prop
  | .mk s d v ks => h.span x = s ∧ (h.obj x).desc = d ∧ (h.obj x).vf = v ∧ LooksAll h (h.kids x) ks
def LooksAll (h : Heap) : List Nat → List Node → Prop
  | [], [] => True
  | x :: xs, k :: ks => Looks h x k ∧ LooksAll h xs ks
  | _, _ => False
end

end HeapSpec
