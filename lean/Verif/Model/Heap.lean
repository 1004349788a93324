import Verif.Model.Tree
/-!
# Model of `Ito` objects in memory: identities, parent pointers and child stores

An object is a number (its identity, Python's `is`); a heap gives its attributes.  An operation returns
the heap it leaves behind *together with* its outcome, so the effects performed before an exception are
visible.  `desc` and `value_func` are read but never written by these operations.
-/
namespace Pawpaw

/-- Attributes of an `Ito`, `/repo/pawpaw/ito.py:71-96`, and the private list of its `ChildItos`
(`__store`, `/repo/pawpaw/ito.py:1409-1411`). -/
structure Obj where
  str : String
  span : Span
  desc : Option String
  vf : Option Nat
  parent : Option Nat
  kids : List Nat
  deriving DecidableEq

/-- `obj i` for `i < next` are the objects created so far. -/
structure Heap where
  next : Nat
  obj : Nat → Obj

namespace Heap

/-- Overwrite the attributes of one object. -/
def upd (h : Heap) (i : Nat) (f : Obj → Obj) : Heap :=
  { h with obj := fun j => if j = i then f (h.obj j) else h.obj j }

/-- `x._parent = p` -/
def setParent (h : Heap) (x : Nat) (p : Option Nat) : Heap := h.upd x (fun o => { o with parent := p })

/-- Overwrite the store of `p.children`. -/
def setKids (h : Heap) (p : Nat) (ks : List Nat) : Heap := h.upd p (fun o => { o with kids := ks })

/-- `for ito in itos: ito._parent = None`, `/repo/pawpaw/ito.py:1478-1479` -/
def unparent (h : Heap) : List Nat → Heap
  | [] => h
  | x :: xs => unparent (h.setParent x none) xs

/-- `p.children`'s store. -/
def kids (h : Heap) (p : Nat) : List Nat := (h.obj p).kids
/-- `x.parent`, `/repo/pawpaw/ito.py:366-368` -/
def parent (h : Heap) (x : Nat) : Option Nat := (h.obj x).parent
/-- `x.span`, `/repo/pawpaw/ito.py:354-356` -/
def span (h : Heap) (x : Nat) : Span := (h.obj x).span
/-- `x.string`, `/repo/pawpaw/ito.py:343-345` -/
def str (h : Heap) (x : Nat) : String := (h.obj x).str

/-- The spans of the children of `p`, in store order. -/
def kidSpans (h : Heap) (p : Nat) : List Span := (h.kids p).map h.span

/-- Result of an operation that returns `None` or raises. -/
abbrev Res := Heap × Except PyErr Unit

/-- `Ito(src: str, start, stop, desc)`, `/repo/pawpaw/ito.py:71-96`: a new object, returned as the old
`next`. -/
def new (h : Heap) (s : String) (start stop : Option Int) (desc : Option String) : Heap :=
  { next := h.next + 1
    obj := fun j => if j = h.next then
        ⟨s, Span.fromIndices s.length start stop, desc, none, none, []⟩ else h.obj j }

/-- `_set_parent(self, parent)`, `/repo/pawpaw/ito.py:370-377`: does it raise? -/
def setParentRaises (h : Heap) (x p : Nat) : Bool :=
  decide (h.str x ≠ h.str p) || Kids.outside (h.span p) (h.span x) || decide (x = p)

/-- One round of `add`, `/repo/pawpaw/ito.py:1533-1544`. -/
def addOne (h : Heap) (p x : Nat) : Res :=
  if h.parent x ≠ none then (h, .error .valueError)
  else
    let i := Kids.bfindStart (h.kidSpans p) (h.span x)
    if i ≥ 0 then (h, .error .valueError)
    else
      let i := (-i - 1).toNat
      if Kids.notBetween (h.kidSpans p) (h.span x) i i then (h, .error .valueError)
      else if h.setParentRaises x p then (h, .error .valueError)
      else
        let h := h.setParent x (some p)
        (h.setKids p ((h.kids p).insertIdx i x), .ok ())

/-- `p.children.add(*itos)`, `/repo/pawpaw/ito.py:1532-1544`. -/
def add (h : Heap) (p : Nat) : List Nat → Res
  | [] => (h, .ok ())
  | x :: xs =>
    match h.addOne p x with
    | (h', .error e) => (h', .error e)
    | (h', .ok ()) => add h' p xs

/-- Python's normalisation of a list index: `k + len` when negative; `none` out of range. -/
def listIdx (n : Nat) (k : Int) : Option Nat :=
  let j := if k < 0 then k + n else k
  if 0 ≤ j ∧ j < n then some j.toNat else none

/-- `del p.children[k]` for an int, `/repo/pawpaw/ito.py:1474-1480`. -/
def delInt (h : Heap) (p : Nat) (k : Int) : Res :=
  match listIdx (h.kids p).length k with
  | none => (h, .error .indexError)
  | some i =>
    let h := h.unparent ((h.kids p)[i]?.toList)
    (h.setKids p ((h.kids p).eraseIdx i), .ok ())

/-- `del p.children[a:b]`, `/repo/pawpaw/ito.py:1474-1480` (no step); `lo`, `hi` are Python's
normalised slice bounds. -/
def delSlice (h : Heap) (p : Nat) (a b : Option Int) : Res :=
  let sp := Span.fromIndices (h.kids p).length a b
  let lo := sp.start.toNat
  let hi := sp.stop.toNat
  let h := h.unparent (((h.kids p).drop lo).take (hi - lo))
  (h.setKids p ((h.kids p).take lo ++ (h.kids p).drop hi), .ok ())

/-- `p.children.remove(x)`, `/repo/pawpaw/ito.py:1482-1487`. -/
def remove (h : Heap) (p x : Nat) : Res :=
  let i := Kids.bfindStart (h.kidSpans p) (h.span x)
  if i ≥ 0 ∧ (h.kids p)[i.toNat]? = some x then h.delInt p i
  else (h, .error .valueError)

/-- `p.children.pop(i)`, `/repo/pawpaw/ito.py:1489-1492`; the popped object is returned. -/
def pop (h : Heap) (p : Nat) (i : Int) : Heap × Except PyErr Nat :=
  match listIdx (h.kids p).length i with
  | none => (h, .error .indexError)
  | some j =>
    match (h.kids p)[j]? with
    | none => (h, .error .indexError)
    | some rv =>
      match h.delInt p i with
      | (h', .error e) => (h', .error e)
      | (h', .ok ()) => (h', .ok rv)

/-- `p.children.clear()`, `/repo/pawpaw/ito.py:1494-1495`. -/
def clear (h : Heap) (p : Nat) : Res := h.delSlice p none none

/-- `x in p.children`, `/repo/pawpaw/ito.py:1453-1454`. -/
def contains (h : Heap) (p x : Nat) : Bool := decide (Kids.bfindStart (h.kidSpans p) (h.span x) ≥ 0)

/-- The common part of both `__setitem__` branches, `/repo/pawpaw/ito.py:1508-1510`, `:1522-1524`. -/
def insertAt (h : Heap) (p x : Nat) (i : Nat) : Res :=
  if Kids.notBetween (h.kidSpans p) (h.span x) i i then (h, .error .valueError)
  else if h.setParentRaises x p then (h, .error .valueError)
  else
    let h := h.setParent x (some p)
    (h.setKids p ((h.kids p).insertIdx i x), .ok ())

/-- `p.children[k] = x` for an int, `/repo/pawpaw/ito.py:1502-1510`. -/
def setInt (h : Heap) (p : Nat) (k : Int) (x : Nat) : Res :=
  let start := (Span.fromIndices (h.kids p).length (some k) none).start
  match h.delInt p start with
  | (h', .error e) => (h', .error e)
  | (h', .ok ()) => h'.insertAt p x start.toNat

/-- The loop of the slice branch, `/repo/pawpaw/ito.py:1519-1525`. -/
def setSliceLoop (h : Heap) (p : Nat) (start : Nat) : List Nat → Res
  | [] => (h, .ok ())
  | x :: xs =>
    match h.insertAt p x start with
    | (h', .error e) => (h', .error e)
    | (h', .ok ()) => setSliceLoop h' p (start + 1) xs

/-- `p.children[a:b] = itos`, `/repo/pawpaw/ito.py:1513-1525` (no step). -/
def setSlice (h : Heap) (p : Nat) (a b : Option Int) (xs : List Nat) : Res :=
  let start := (Span.fromIndices (h.kids p).length a b).start
  match h.delSlice p a b with
  | (h', .error e) => (h', .error e)
  | (h', .ok ()) => setSliceLoop h' p start.toNat xs

/-- `get_root`, `/repo/pawpaw/ito.py:1321-1325`, iterated at most `n` times (`none`: still climbing). -/
def getRoot (h : Heap) : Nat → Nat → Option Nat
  | 0, _ => none
  | n + 1, x =>
    match h.parent x with
    | none => some x
    | some p => getRoot h n p

/-- `x.descends_from(a)`, `/repo/pawpaw/ito.py:1342-1347`, iterated at most `n` times. -/
def descendsFrom (h : Heap) : Nat → Nat → Nat → Option Bool
  | 0, _, _ => none
  | n + 1, x, a =>
    match h.parent x with
    | none => some false
    | some p => if p = a then some true else descendsFrom h n p a

/-- An operation on the memory of a program using `Ito`s and their child lists. -/
inductive Op where
  | new (s : String) (start stop : Option Int) (desc : Option String)
  | add (p : Nat) (xs : List Nat)
  | remove (p x : Nat)
  | pop (p : Nat) (i : Int)
  | del (p : Nat) (i : Int)
  | delSlice (p : Nat) (a b : Option Int)
  | clear (p : Nat)

/-- The objects an operation mentions. -/
def Op.ids : Op → List Nat
  | .new .. => []
  | .add p xs => p :: xs
  | .remove p x => [p, x]
  | .pop p _ | .del p _ | .delSlice p _ _ | .clear p => [p]

/-- The heap left by an operation, whether it returns or raises. -/
def run (h : Heap) : Op → Heap
  | .new s a b d => h.new s a b d
  | .add p xs => (h.add p xs).1
  | .remove p x => (h.remove p x).1
  | .pop p i => (h.pop p i).1
  | .del p i => (h.delInt p i).1
  | .delSlice p a b => (h.delSlice p a b).1
  | .clear p => (h.clear p).1

/-- The memory before any `Ito` has been created. -/
def empty : Heap := ⟨0, fun _ => ⟨"", ⟨0, 0⟩, none, none, none, []⟩⟩

/-- The heap after a sequence of operations. -/
def runAll (h : Heap) : List Op → Heap
  | [] => h
  | op :: ops => runAll (h.run op) ops

/-- An operation can only mention objects that exist. -/
def Legal (h : Heap) : List Op → Prop
  | [] => True
  | op :: ops => (∀ i ∈ op.ids, i < h.next) ∧ Legal (h.run op) ops

end Heap
end Pawpaw
