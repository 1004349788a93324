import Verif.Model.Heap
/-!
# Model of walks and loops over children that are interleaved with changes of the tree

`walk_descendants_levels` is a generator: between two items the program that consumes it may change the tree.  A walk is
modelled by what CPython keeps of it between two calls of `next`: per active call of the method, the node whose children
are walked and how far the iterator over them has come.  The iterator over `ito.children` is that of the private list
(`/repo/pawpaw/ito.py:1456-1457`), which all operations change in place; it holds the list and the next position.
-/
namespace Pawpaw
namespace Heap

/-- An active call of `node.walk_descendants_levels(lvl)`; `idx` is the position of the list iterator. -/
structure Frame where
  node : Nat
  idx : Nat
  lvl : Int
  deriving DecidableEq

/-- `x.walk_descendants_levels(start)` before the first item; innermost call first. -/
def walkStart (x : Nat) (lvl : Int) : List Frame := [⟨x, 0, lvl⟩]

/-- The next item (level, object) of a walk and what is kept of it, or `none` if it has ended,
`/repo/pawpaw/ito.py:1327-1333` with `reverse=False`. -/
def walkNext (h : Heap) : List Frame → Option ((Int × Nat) × List Frame)
  | [] => none
  | f :: fs =>
    match (h.kids f.node)[f.idx]? with
    | some c => some ((f.lvl, c), ⟨c, 0, f.lvl + 1⟩ :: ⟨f.node, f.idx + 1, f.lvl⟩ :: fs)
    | none => walkNext h fs

/-- The items of a walk, where `hs` are the memories in which its items are asked for, one after the other; and what is
kept of the walk, or `none` if it has ended. -/
def walkRun : List Heap → List Frame → List (Int × Nat) × Option (List Frame)
  | [], w => ([], some w)
  | h :: hs, w =>
    match walkNext h w with
    | none => ([], none)
    | some (y, w') => (y :: (walkRun hs w').1, (walkRun hs w').2)

/-- An active call of `node.walk_descendants_levels(lvl, True)`; `left` is the number of positions the iterator
`reversed(node.children)` has still to go to, `none` before its first item.  (The method of
`collections.abc.Sequence` asks for the length then, and for `self[i]` item by item.) -/
structure RFrame where
  node : Nat
  left : Option Nat
  lvl : Int
  deriving DecidableEq

/-- What the next call of `next` does: give an item, end, or raise. -/
inductive RevOut where
  | item (y : Int × Nat) (w : List RFrame)
  | ended
  | raised (e : PyErr)

/-- The call for `x` has ended: the calling one gives `x` (`/repo/pawpaw/ito.py:1332-1333`). -/
def revPop (x : Nat) : List RFrame → RevOut
  | [] => .ended
  | g :: gs => .item (g.lvl, x) (g :: gs)

/-- The next item of `x.walk_descendants_levels(start, True)`, `/repo/pawpaw/ito.py:1327-1333`: a child is given when the
call for it has ended.  `none` if there is none within `n` descents (which a cyclic tree may need). -/
def revNext (h : Heap) : Nat → List RFrame → Option RevOut
  | 0, _ => none
  | _ + 1, [] => some .ended
  | n + 1, f :: fs =>
    match f.left.getD (h.kids f.node).length with
    | 0 => some (revPop f.node fs)
    | k + 1 =>
      match (h.kids f.node)[k]? with
      | none => some (.raised .indexError)
      | some c => revNext h n (⟨c, none, f.lvl + 1⟩ :: ⟨f.node, some k, f.lvl⟩ :: fs)

/-- How a reverse walk stands: it can go on, has ended, or has raised. -/
inductive RevEnd where
  | on (w : List RFrame)
  | ended
  | raised (e : PyErr)

/-- The items of a reverse walk in the memories `hs`, as `walkRun`; `none` if some item needs more than `n` descents. -/
def revRun (n : Nat) : List Heap → List RFrame → Option (List (Int × Nat) × RevEnd)
  | [], w => some ([], .on w)
  | h :: hs, w =>
    match revNext h n w with
    | none => none
    | some .ended => some ([], .ended)
    | some (.raised e) => some ([], .raised e)
    | some (.item y w') =>
      match revRun n hs w' with
      | none => none
      | some (ys, r) => some (y :: ys, r)

/-- `for c in p.children: body(c)` from position `i`, with the iterator of `/repo/pawpaw/ito.py:1456-1457`; `none` if
the loop has not ended after `n` rounds, an exception of the body ends it. -/
def forKids (body : Heap → Nat → Res) (p : Nat) : Nat → Nat → Heap → Option Res
  | 0, _, _ => none
  | n + 1, i, h =>
    match (h.kids p)[i]? with
    | none => some (h, .ok ())
    | some c =>
      match body h c with
      | (h', .error e) => some (h', .error e)
      | (h', .ok ()) => forKids body p n (i + 1) h'

/-- `for c in reversed(p.children): body(c)`: the method of `collections.abc.Sequence`, which takes the length at the
beginning and then asks for `self[i]`; `i` rounds are left. -/
def forKidsRev (body : Heap → Nat → Res) (p : Nat) : Nat → Heap → Res
  | 0, h => (h, .ok ())
  | i + 1, h =>
    match (h.kids p)[i]? with
    | none => (h, .error .indexError)
    | some c =>
      match body h c with
      | (h', .error e) => (h', .error e)
      | (h', .ok ()) => forKidsRev body p i h'

/-- `for c in [*p.children]: body(c)` -/
def forCopy (body : Heap → Nat → Res) : List Nat → Heap → Res
  | [], h => (h, .ok ())
  | c :: cs, h =>
    match body h c with
    | (h', .error e) => (h', .error e)
    | (h', .ok ()) => forCopy body cs h'

/-- The loop of `p.children[a:b] = (c for c in q.children if pred(c))`, `/repo/pawpaw/ito.py:1519-1525`: the values are
asked for one at a time, after the deletion; `i` is the position of the iterator in `q.children`.  `none` if the loop has
not ended after `n` rounds. -/
def setLazyLoop (pred : Nat → Bool) (q p : Nat) : Nat → Nat → Nat → Heap → Option Res
  | 0, _, _, _ => none
  | n + 1, start, i, h =>
    match (h.kids q)[i]? with
    | none => some (h, .ok ())
    | some x =>
      if pred x then
        match h.insertAt p x start with
        | (h', .error e) => some (h', .error e)
        | (h', .ok ()) => setLazyLoop pred q p n (start + 1) (i + 1) h'
      else setLazyLoop pred q p n start (i + 1) h

/-- `p.children[a:b] = (c for c in q.children if pred(c))`, `/repo/pawpaw/ito.py:1513-1525`; with a `pred` that is
always true this is also `p.children[a:b] = q.children`. -/
def setLazy (n : Nat) (h : Heap) (p : Nat) (a b : Option Int) (q : Nat) (pred : Nat → Bool) : Option Res :=
  match h.delSlice p a b with
  | (h', .error e) => some (h', .error e)
  | (h', .ok ()) => setLazyLoop pred q p n (Span.fromIndices (h.kids p).length a b).start.toNat 0 h'

end Heap
end Pawpaw
