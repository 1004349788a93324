import Verif.Model.Bisect
import Verif.Model.Gaps
/-!
# Model of `Ito` trees as values, and of the `ChildItos` search/insert helpers

All nodes of a tree share one string (`_set_parent` refuses others, `/repo/pawpaw/ito.py:371-372`), so
a `Node` carries no string; functions that call the constructor take `len`, the string's length.
Node identity and parent pointers are modelled in `Model/Heap.lean`; here a node is addressed by its
path (child indices from the root).
-/
namespace Pawpaw

/-- An `Ito` with its descendants: `_span`, `desc`, `_value_func` (identity of the callable), and
`_children`; `/repo/pawpaw/ito.py:71-96`. -/
inductive Node where
  | mk (span : Span) (desc : Option String) (vf : Option Nat) (kids : List Node)

namespace Node
/-- `.span`, `/repo/pawpaw/ito.py:354-356` -/
def span : Node → Span
  | .mk s _ _ _ => s
/-- `.desc`, `/repo/pawpaw/ito.py:91` -/
def desc : Node → Option String
  | .mk _ d _ _ => d
/-- `._value_func`, `/repo/pawpaw/ito.py:93` -/
def vf : Node → Option Nat
  | .mk _ _ v _ => v
/-- `.children`, `/repo/pawpaw/ito.py:379-381` -/
def kids : Node → List Node
  | .mk _ _ _ ks => ks
/-- `.start`, `/repo/pawpaw/ito.py:358-360` -/
def start (n : Node) : Int := n.span.start
/-- `.stop`, `/repo/pawpaw/ito.py:362-364` -/
def stop (n : Node) : Int := n.span.stop
/-- A childless `Ito`. -/
def leaf (s : Span) (d : Option String := none) : Node := .mk s d none []

mutual
/-- Structural equality of trees, decided. (Not Python's `==`, which ignores children.) -/
def beq : Node → Node → Bool
  | .mk s d v ks, .mk s' d' v' ks' => s == s' && d == d' && v == v' && beqList ks ks'
def beqList : List Node → List Node → Bool
  | [], [] => true
  | a :: as, b :: bs => beq a b && beqList as bs
  | _, _ => false
end

mutual
theorem beq_iff : ∀ a b : Node, beq a b = true ↔ a = b
  | .mk s d v ks, .mk s' d' v' ks' => by
    simp only [beq, Bool.and_eq_true, beq_iff_eq, beqList_iff ks ks', Node.mk.injEq, and_assoc]
theorem beqList_iff : ∀ a b : List Node, beqList a b = true ↔ a = b
  | [], [] => by simp [beqList]
  | a :: as, b :: bs => by simp [beqList, beq_iff a b, beqList_iff as bs]
  | [], _ :: _ => by simp [beqList]
  | _ :: _, [] => by simp [beqList]
end

instance : DecidableEq Node := fun a b => decidable_of_iff _ (beq_iff a b)

end Node

/-! ## `ChildItos` helpers, over the spans of the store -/
namespace Kids

/-- `__bfind_start`, `/repo/pawpaw/ito.py:1416-1421`; `~i` is `-i - 1`. -/
def bfindStart (store : List Span) (s : Span) : Int :=
  let i := bisectLeft (store.map Span.start) s.start
  if i = store.length ∨ (store.map Span.start)[i]? ≠ some s.start then -(i : Int) - 1 else i

/-- `__bfind_stop`, `/repo/pawpaw/ito.py:1423-1428`. -/
def bfindStop (store : List Span) (s : Span) : Int :=
  let i := bisectRight (store.map Span.stop) s.stop
  if i = store.length ∨ (store.map Span.stop)[i]? ≠ some s.stop then -(i : Int) - 1 else i

/-- `__is_start_lt_prior_stop`, `/repo/pawpaw/ito.py:1430-1434`. (`store[i-1]`, out of range cannot
happen for `i ≤ len`.) -/
def isStartLtPriorStop (store : List Span) (i : Nat) (s : Span) : Bool :=
  if i = 0 ∨ store.length = 0 then false
  else match store[i - 1]? with
    | some p => decide (s.start < p.stop)
    | none => false

/-- `__is_stop_gt_next_start`, `/repo/pawpaw/ito.py:1436-1440`. -/
def isStopGtNextStart (store : List Span) (i : Nat) (s : Span) : Bool :=
  if i = store.length then false
  else match store[i]? with
    | some p => decide (s.stop > p.start)
    | none => false

/-- `__ensure_between`, `/repo/pawpaw/ito.py:1442-1447`: `true` when it raises `ValueError`. -/
def notBetween (store : List Span) (s : Span) (iStart iEnd : Nat) : Bool :=
  isStartLtPriorStop store iStart s || isStopGtNextStart store iEnd s

/-- The span test of `_set_parent`, `/repo/pawpaw/ito.py:373-374`: `true` when it raises. -/
def outside (parent s : Span) : Bool := decide (s.start < parent.start) || decide (s.stop > parent.stop)

/-- `children.add(x)` for a fresh parentless `x` on the same string, `/repo/pawpaw/ito.py:1532-1544`. -/
def add (parent : Span) (store : List Node) (x : Node) : Except PyErr (List Node) :=
  let sp := store.map Node.span
  let i := bfindStart sp x.span
  if i ≥ 0 then .error .valueError
  else
    let i := (-i - 1).toNat
    if notBetween sp x.span i i then .error .valueError
    else if outside parent x.span then .error .valueError
    else .ok (store.insertIdx i x)

/-- `children.add(*itos)`, `/repo/pawpaw/ito.py:1532-1544`. -/
def addAll (parent : Span) : List Node → List Node → Except PyErr (List Node)
  | store, [] => .ok store
  | store, x :: xs =>
    match add parent store x with
    | .error e => .error e
    | .ok st => addAll parent st xs

end Kids

namespace Node

mutual
/-- `clone()`, `/repo/pawpaw/ito.py:317-337`: rebuilds the node through the constructor and adds the
clones of the children. -/
def clone (len : Nat) : Node → Except PyErr Node
  | .mk s d v ks =>
    match cloneAll len ks with
    | .error e => .error e
    | .ok ks' =>
      match Kids.addAll (Span.fromIndices len (some s.start) (some s.stop)) [] ks' with
      | .error e => .error e
      | .ok ks'' => .ok (.mk (Span.fromIndices len (some s.start) (some s.stop)) d v ks'')
/-- `(c.clone() for c in self._children)` -/
def cloneAll (len : Nat) : List Node → Except PyErr (List Node)
  | [] => .ok []
  | k :: ks =>
    match clone len k with
    | .error e => .error e
    | .ok k' =>
      match cloneAll len ks with
      | .error e => .error e
      | .ok ks' => .ok (k' :: ks')
end

/-- `clone(start, stop, desc, clone_children)`, `/repo/pawpaw/ito.py:317-337`; `none` is an argument
left to its default. -/
def cloneWith (len : Nat) (n : Node) (start stop : Option Int) (desc : Option (Option String) := none)
    (cloneChildren : Bool := true) : Except PyErr Node :=
  let sp := Span.fromIndices len (some (start.getD n.start)) (some (stop.getD n.stop))
  let d := desc.getD n.desc
  if cloneChildren then
    match cloneAll len n.kids with
    | .error e => .error e
    | .ok ks =>
      match Kids.addAll sp [] ks with
      | .error e => .error e
      | .ok ks' => .ok (.mk sp d n.vf ks')
  else .ok (.mk sp d n.vf [])

/-- `strip_to_children()`, `/repo/pawpaw/ito.py:803-815` -/
def stripToChildren (len : Nat) (n : Node) : Except PyErr Node :=
  match n.kids.head?, n.kids.getLast? with
  | some f, some l =>
    if f.start > n.start ∨ l.stop < n.stop then n.cloneWith len (some f.start) (some l.stop)
    else .ok n
  | _, _ => .ok n

/-- The childless part of a node, on string `s`. -/
def flat {α : Type} (s : List α) (n : Node) : FIto α := ⟨s, n.span, n.desc⟩

/-- A new childless node for a flat Ito. -/
def ofFlat {α : Type} (x : FIto α) : Node := .mk x.span x.desc none []

/-- `invert_children(desc)`, `/repo/pawpaw/ito.py:817-841`.  `add(*gaps)` unpacks the generator before
adding anything. -/
def invertChildren {α : Type} [DecidableEq α] (s : List α) (n : Node) (desc : Option String) :
    Except PyErr Node :=
  match n.cloneWith s.length none none none false with
  | .error e => .error e
  | .ok rv =>
    if n.stop - n.start = 0 then .ok rv
    else
      let gaps := fromGaps (.ito (rv.flat s)) (n.kids.map fun k => .ito (k.flat s)) desc false
      match gaps.exc with
      | some e => .error e
      | none =>
        match Kids.addAll rv.span rv.kids (gaps.out.map ofFlat) with
        | .error e => .error e
        | .ok ks => .ok (.mk rv.span rv.desc rv.vf ks)

/-- `str_partition(sep)`, `/repo/pawpaw/ito.py:1139-1151`. -/
def strPartition {α : Type} [DecidableEq α] (s : List α) (n : Node) (sep : List α) :
    Except PyErr (Node × Node × Node) :=
  if sep = [] then .error .valueError
  else do
    let i ← (n.flat s).strFind sep none none
    if i < 0 then
      let b ← n.cloneWith s.length (some n.stop) none
      let c ← n.cloneWith s.length (some n.stop) none
      return (n, b, c)
    else
      let j := i + n.start
      let k := j + sep.length
      let a ← n.cloneWith s.length none (some j) none false
      let b ← n.cloneWith s.length (some j) (some k) none false
      let c ← n.cloneWith s.length (some k) none none false
      return (a, b, c)

/-- `str_rpartition(sep)`, `/repo/pawpaw/ito.py:1153-1165`. -/
def strRpartition {α : Type} [DecidableEq α] (s : List α) (n : Node) (sep : List α) :
    Except PyErr (Node × Node × Node) :=
  if sep = [] then .error .valueError
  else do
    let i ← (n.flat s).strRfind sep none none
    if i < 0 then
      let a ← n.cloneWith s.length (some n.stop) none
      let b ← n.cloneWith s.length (some n.stop) none
      return (a, b, n)
    else
      let j := i + n.start
      let k := j + sep.length
      let a ← n.cloneWith s.length none (some j) none false
      let b ← n.cloneWith s.length (some j) (some k) none false
      let c ← n.cloneWith s.length (some k) none none false
      return (a, b, c)

/-! ## Navigation -/

/-- The descendant at a path of child indices: `self.children[i₀].children[i₁]…`. -/
def get? : Node → List Nat → Option Node
  | n, [] => some n
  | .mk _ _ _ ks, i :: p =>
    match ks[i]? with
    | some k => k.get? p
    | none => none

mutual
/-- `walk_descendants_levels(start, reverse)`, `/repo/pawpaw/ito.py:1327-1333`: level and path of every
node yielded, for the node at path `p`. -/
def walkLevels (rev : Bool) (lvl : Int) (p : List Nat) : Node → List (Int × List Nat)
  | .mk _ _ _ ks => walkLevelsKids rev lvl p 0 ks
/-- The `for child in …` loop, from the child with index `i` on; `reversed(children)` means that the
later children are handled first. -/
def walkLevelsKids (rev : Bool) (lvl : Int) (p : List Nat) (i : Nat) :
    List Node → List (Int × List Nat)
  | [] => []
  | k :: ks =>
    if rev then
      walkLevelsKids rev lvl p (i + 1) ks ++ (walkLevels rev (lvl + 1) (p ++ [i]) k ++ [(lvl, p ++ [i])])
    else
      ((lvl, p ++ [i]) :: walkLevels rev (lvl + 1) (p ++ [i]) k) ++ walkLevelsKids rev lvl p (i + 1) ks
end

/-- `walk_descendants(reverse)`, `/repo/pawpaw/ito.py:1335-1336` -/
def walk (rev : Bool) (p : List Nat) (n : Node) : List (List Nat) :=
  (n.walkLevels rev 0 p).map Prod.snd

end Node
end Pawpaw
