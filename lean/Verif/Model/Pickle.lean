import Verif.Model.Heap
/-!
# Model of pickling, `/repo/pawpaw/ito.py:415-421`, `:441-447`

What `pickle` itself does is modelled as documented: the object's `__getstate__` dictionary is saved, with
the child collection (a plain object holding the list of children, and its owner) saved recursively;
loading creates the object blank, then its children, then calls `__setstate__`.  Objects are taken to be
reachable once (no cycles): `pickle`'s memo is not modelled.  Running out of `fuel` stands for Python's
recursion limit.
-/
namespace Pawpaw

/-- The saved state of an `Ito`: `_string`, `_span`, `desc`, and the states of the children. -/
inductive PDoc where
  | mk (str : String) (span : Span) (desc : Option String) (kids : List PDoc)

namespace Heap

mutual
/-- `__getstate__` of an object and, recursively, of its children, `/repo/pawpaw/ito.py:415-421`. -/
def pickle : Nat → Heap → Nat → Except PyErr PDoc
  | 0, _, _ => .error .nonTermination
  | n + 1, h, x =>
    match pickleAll n h (h.kids x) with
    | .error e => .error e
    | .ok ds => .ok (.mk (h.str x) (h.span x) (h.obj x).desc ds)
/-- The saved child list. -/
def pickleAll : Nat → Heap → List Nat → Except PyErr (List PDoc)
  | _, _, [] => .ok []
  | 0, _, _ :: _ => .error .nonTermination
  | n + 1, h, x :: xs =>
    match pickle n h x with
    | .error e => .error e
    | .ok d =>
      match pickleAll n h xs with
      | .error e => .error e
      | .ok ds => .ok (d :: ds)
end

/-- `cls.__new__(cls)`: a blank object, returned as the old `next`. -/
def blank (h : Heap) : Heap :=
  { next := h.next + 1, obj := fun j => if j = h.next then ⟨"", ⟨0, 0⟩, none, none, none, []⟩ else h.obj j }

/-- `for child in self.children: child._parent = self`, `/repo/pawpaw/ito.py:446-447` -/
def reparent (h : Heap) (x : Nat) : List Nat → Heap
  | [] => h
  | c :: cs => reparent (h.setParent c (some x)) x cs

/-- `__setstate__`, `/repo/pawpaw/ito.py:442-447` -/
def setState (h : Heap) (x : Nat) (s : String) (sp : Span) (d : Option String) (kids : List Nat) : Heap :=
  (h.upd x (fun _ => ⟨s, sp, d, none, none, kids⟩)).reparent x kids

mutual
/-- `pickle.loads`: the object created. -/
def unpickle (h : Heap) : PDoc → Heap × Nat
  | .mk s sp d ks =>
    let r := unpickleAll h.blank ks
    (r.1.setState h.next s sp d r.2, h.next)
/-- Loading the child list. -/
def unpickleAll (h : Heap) : List PDoc → Heap × List Nat
  | [] => (h, [])
  | k :: ks =>
    let r := unpickle h k
    let r' := unpickleAll r.1 ks
    (r'.1, r.2 :: r'.2)
end

end Heap
end Pawpaw
