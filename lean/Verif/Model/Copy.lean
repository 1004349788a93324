import Verif.Model.Pickle
/-!
# Model of the standard `copy` module on an `Ito`

`Ito` defines no `__copy__` or `__deepcopy__`; `copy.copy` and `copy.deepcopy` go through
`__reduce_ex__(4)`, that is `__getstate__` (`/repo/pawpaw/ito.py:415-421`), a blank object, and
`__setstate__` (`/repo/pawpaw/ito.py:441-447`).  What the `copy` module itself does is modelled as
documented: `copy.copy` hands the state over as it is, `copy.deepcopy` first copies the state deeply (the
child collection's reference to its owner is answered from the memo, which already holds the blank
object).  Running out of `fuel` stands for Python's recursion limit.
-/
namespace Pawpaw

/-- Objects in memory when two of them may hold the *same* child collection: `coll i` is the object for
which the `ChildItos` found in `i._children` was made (its `__ito`, `/repo/pawpaw/ito.py:1409-1411`). -/
structure Shared where
  heap : Heap
  coll : Nat → Nat

namespace Shared

/-- `list(i.children)` -/
def children (s : Shared) (i : Nat) : List Nat := s.heap.kids (s.coll i)

/-- `i.children.add(*xs)`, `/repo/pawpaw/ito.py:1532-1544`: parents are set to the collection's own Ito. -/
def add (s : Shared) (i : Nat) (xs : List Nat) : Shared × Except PyErr Unit :=
  ({ s with heap := (s.heap.add (s.coll i) xs).1 }, (s.heap.add (s.coll i) xs).2)

/-- `copy.copy(x)`, `/repo/pawpaw/ito.py:415-421`, `:441-447`: `_string`, `_span`, `desc` and the very
collection `_children` are handed to a blank object, which then makes itself the parent of every object in
that collection.  The copy is the old `next`. -/
def copy (s : Shared) (x : Nat) : Shared :=
  { heap := (s.heap.blank.upd s.heap.next (fun _ =>
      ⟨s.heap.str x, s.heap.span x, (s.heap.obj x).desc, none, none, []⟩)).reparent s.heap.next (s.children x)
    coll := fun j => if j = s.heap.next then s.coll x else s.coll j }

end Shared

namespace Heap

mutual
/-- `copy.deepcopy(x)`: the state is read (`/repo/pawpaw/ito.py:415-421`), a blank object made, the
children copied, and `__setstate__` called (`/repo/pawpaw/ito.py:442-447`). -/
def deepcopy : Nat → Heap → Nat → Except PyErr (Heap × Nat)
  | 0, _, _ => .error .nonTermination
  | n + 1, h, x =>
    match deepcopyAll n h.blank (h.kids x) with
    | .error e => .error e
    | .ok r => .ok (r.1.setState h.next (h.str x) (h.span x) (h.obj x).desc r.2, h.next)
/-- Copying the list of children. -/
def deepcopyAll : Nat → Heap → List Nat → Except PyErr (Heap × List Nat)
  | _, h, [] => .ok (h, [])
  | 0, _, _ :: _ => .error .nonTermination
  | n + 1, h, x :: xs =>
    match deepcopy n h x with
    | .error e => .error e
    | .ok r =>
      match deepcopyAll n r.1 xs with
      | .error e => .error e
      | .ok r' => .ok (r'.1, r.2 :: r'.2)
end

end Heap
end Pawpaw
