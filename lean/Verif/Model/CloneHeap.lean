import Verif.Model.Hier
/-!
# Model of `Ito.clone` in memory, `/repo/pawpaw/ito.py:317-337`

`Node.clone` (`Model/Tree.lean`) is the same on values; here the copies are new objects, made in the order in which
the code makes them. `fuel` stands for Python's recursion limit.
-/
namespace Pawpaw
namespace Heap

/-- `self.__class__(self._string, start, stop, desc)` and `rv.value_func = self._value_func`,
`/repo/pawpaw/ito.py:325-333`: a new object, returned as the old `next`. -/
def newLike (h : Heap) (x : Nat) (start stop : Int) (desc : Option String) : Heap :=
  { next := h.next + 1
    obj := fun j => if j = h.next then
        ⟨h.str x, Span.fromIndices (h.str x).length (some start) (some stop), desc, (h.obj x).vf, none, []⟩
      else h.obj j }

/-- `rv.children.add(*clones)` and `return rv`, `/repo/pawpaw/ito.py:335-337`; `r` is what making the clones did. -/
def finishClone (y : Nat) (r : Heap × Except PyErr (List Nat)) : Heap × Except PyErr Nat :=
  match r with
  | (h, .error e) => (h, .error e)
  | (h, .ok cs) =>
    match h.add y cs with
    | (h, .error e) => (h, .error e)
    | (h, .ok ()) => (h, .ok y)

mutual
/-- `x.clone()`, `/repo/pawpaw/ito.py:317-337`. -/
def cloneObj : Nat → Heap → Nat → Heap × Except PyErr Nat
  | 0, h, _ => (h, .error .nonTermination)
  | n + 1, h, x =>
    finishClone h.next (cloneObjs n (h.newLike x (h.span x).start (h.span x).stop (h.obj x).desc) (h.kids x))
/-- `(c.clone() for c in self._children)`, `/repo/pawpaw/ito.py:335`. -/
def cloneObjs : Nat → Heap → List Nat → Heap × Except PyErr (List Nat)
  | _, h, [] => (h, .ok [])
  | 0, h, _ :: _ => (h, .error .nonTermination)
  | n + 1, h, x :: xs =>
    match cloneObj n h x with
    | (h, .error e) => (h, .error e)
    | (h, .ok y) =>
      match cloneObjs n h xs with
      | (h, .error e) => (h, .error e)
      | (h, .ok ys) => (h, .ok (y :: ys))
end

/-- `x.clone(start, stop, desc, clone_children)`, `/repo/pawpaw/ito.py:317-337`; `none` is an argument left to its
default. -/
def cloneObjWith (n : Nat) (h : Heap) (x : Nat) (start stop : Option Int) (desc : Option (Option String))
    (cloneChildren : Bool) : Heap × Except PyErr Nat :=
  let h1 := h.newLike x (start.getD (h.span x).start) (stop.getD (h.span x).stop) (desc.getD (h.obj x).desc)
  if cloneChildren then finishClone h.next (cloneObjs n h1 (h.kids x)) else (h1, .ok h.next)

end Heap
end Pawpaw
