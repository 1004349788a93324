import Verif.Spec.Heap
/-!
# Specification vocabulary for walks of changing trees
-/
namespace LazySpec
open Pawpaw HeapSpec

/-- A part of a tree that stays as it is: objects, each with its children (`some`), or without saying anything about its
children, which may come and go (`none`). -/
inductive Skel where
  | mk (id : Nat) (kids : Option (List Skel))

def Skel.id : Skel → Nat
  | .mk x _ => x

mutual
/-- In memory `h`, the part is there: the objects have exactly these children, in this order. -/
def Stays (h : Heap) : Skel → Prop
  | .mk _ none => True
  | .mk x (some ss) => h.kids x = ss.map Skel.id ∧ StaysAll h ss
def StaysAll (h : Heap) : List Skel → Prop
  | [] => True
  | s :: ss => Stays h s ∧ StaysAll h ss
end

mutual
/-- The objects below the top, each before its children, with their levels. -/
def below (lvl : Int) : Skel → List (Int × Nat)
  | .mk _ none => []
  | .mk _ (some ss) => belowAll lvl ss
def belowAll (lvl : Int) : List Skel → List (Int × Nat)
  | [] => []
  | s :: ss => (lvl, s.id) :: (below (lvl + 1) s ++ belowAll lvl ss)
end

/-- The ancestors of `x`, nearest first. -/
def Above (h : Heap) : Nat → List Nat → Prop
  | x, [] => h.parent x = none
  | x, a :: as => h.parent x = some a ∧ Above h a as

/-- The object at a path below `x`: child number `i`, then … -/
def objAt (h : Heap) : Nat → List Nat → Option Nat
  | x, [] => some x
  | x, i :: p =>
    match (h.kids x)[i]? with
    | none => none
    | some c => objAt h c p

/-- The two memories differ at most in the descriptors and the value functions of the objects: the same objects, with the
same strings, spans, parents and children. -/
def Alike (h h' : Heap) : Prop :=
  h'.next = h.next ∧ ∀ x, h'.str x = h.str x ∧ h'.span x = h.span x ∧ h'.parent x = h.parent x ∧ h'.kids x = h.kids x

/-- Memories, later ones with no fewer objects. -/
def Grows (hs : List Heap) : Prop := hs.Pairwise (fun h h' => h.next ≤ h'.next)

/-- The elements at odd positions: the second, the fourth, … -/
def odds {α : Type} : List α → List α
  | [] => []
  | [_] => []
  | _ :: b :: l => b :: odds l

end LazySpec
