import Verif.Model.Heap
/-!
# Model of `ChildItos.add_hierarchical`, `/repo/pawpaw/ito.py:1546-1615`

The decision where an (emptied) Ito goes depends only on spans and is modelled once, by `place`.  The
operation itself is modelled twice: on values (`Kids.hier`, for results) and in memory
(`Heap.addHier`, for parent pointers and for the effects left behind by an exception).
-/
namespace Pawpaw

namespace Kids

/-- What `add_hierarchical` decides for an Ito of span `s` among children of spans `st`. -/
inductive Place where
  /-- `tmp.children.add_hierarchical(ito)` for the child at this index -/
  | into (k : Nat)
  /-- insert at this index -/
  | insert (i : Nat)
  /-- the child at this index has the same span: `key` decides -/
  | same (k : Nat)
  /-- the children `i ≤ k < j` become children of the new Ito -/
  | absorb (i j : Nat)
  /-- `ValueError`: overlap -/
  | overlap
  deriving DecidableEq, Repr

/-- `/repo/pawpaw/ito.py:1583-1608`, from the computation of `j` on; `i` is already known. -/
def placeEnd (st : List Span) (s : Span) (i : Nat) : Place :=
  let j := bfindStop st s
  let bad :=
    if j ≥ 0 then false
    else
      let j := (-j - 1).toNat
      (if j > 0 then st[j - 1]? else none).any
        (fun tmp => decide (tmp.start < s.start ∧ s.start < tmp.stop)) ||
      st[j]?.any (fun tmp => decide (s.start < tmp.start ∧ tmp.start < s.stop))
  let j := if j ≥ 0 then j.toNat else (-j - 1).toNat
  if bad then .overlap
  else if i = j then .insert i
  else if (j : Int) - i = 1 ∧ st[i]? = some s then .same i
  else .absorb i j

/-- `/repo/pawpaw/ito.py:1566-1608`: where does an Ito of span `s` go? (`st` is not empty) -/
def place (st : List Span) (s : Span) : Place :=
  let i := bfindStart st s
  if i ≥ 0 then
    match st[i.toNat]? with
    | some tmp => if s.stop < tmp.stop then .into i.toNat else placeEnd st s i.toNat
    | none => placeEnd st s i.toNat
  else
    let i := (-i - 1).toNat
    match (if i > 0 then st[i - 1]? else none) with
    | some tmp =>
      if s.stop ≤ tmp.stop then .into (i - 1)
      else if s.start < tmp.stop then .overlap
      else placeEnd st s i
    | none => placeEnd st s i

/-- The optional `key` argument. Simplification: it may read an Ito's span, desc and value_func. -/
abbrev Key := Option (Span → Option String → Option Nat → Int)

/-- `key is None or key(ito) >= key(tmp)`, `/repo/pawpaw/ito.py:1606` -/
def Key.goesUnder (key : Key) (s : Span) (d : Option String) (v : Option Nat) (tmp : Node) : Bool :=
  match key with
  | none => true
  | some f => decide (f s d v ≥ f tmp.span tmp.desc tmp.vf)

/-- `/repo/pawpaw/ito.py:1610-1615`: the children `i ≤ k < j` of an Ito of span `p` are moved under a
childless Ito with attributes `s d v`, which takes their place. -/
def absorbInto (p : Span) (store : List Node) (i j : Nat) (s : Span) (d : Option String)
    (v : Option Nat) : Except PyErr (List Node) :=
  match addAll s [] ((store.drop i).take (j - i)) with
  | .error e => .error e
  | .ok kids =>
    if outside p s then .error .valueError
    else .ok (store.take i ++ .mk s d v kids :: store.drop j)

mutual
/-- `n.children.add_hierarchical(x, key=key)` for a childless parentless `x` with attributes `s d v`,
`/repo/pawpaw/ito.py:1554-1615` (all nodes on one string): the new children of `n`. -/
def hierNode (key : Key) (s : Span) (d : Option String) (v : Option Nat) : Node → Except PyErr (List Node)
  | .mk p _ _ store =>
    if store = [] then
      if outside p s then .error .valueError else .ok [.mk s d v []]
    else
      match place (store.map Node.span) s with
      | .overlap => .error .valueError
      | .into i => hierAt key s d v store i
      | .insert i => if outside p s then .error .valueError else .ok (store.insertIdx i (.mk s d v []))
      | .same i =>
        match store[i]? with
        | none => .error .indexError
        | some tmp =>
          if key.goesUnder s d v tmp then hierAt key s d v store i
          else absorbInto p store i (i + 1) s d v
      | .absorb i j => absorbInto p store i j s d v
/-- `store[i].children.add_hierarchical(x, key=key)`, `/repo/pawpaw/ito.py:1570`, `:1577`, `:1608`: the
store with its `i`-th Ito so updated. -/
def hierAt (key : Key) (s : Span) (d : Option String) (v : Option Nat) :
    List Node → Nat → Except PyErr (List Node)
  | [], _ => .error .indexError
  | k :: ks, 0 =>
    match hierNode key s d v k with
    | .error e => .error e
    | .ok ks' => .ok (.mk k.span k.desc k.vf ks' :: ks)
  | k :: ks, i + 1 =>
    match hierAt key s d v ks i with
    | .error e => .error e
    | .ok ks' => .ok (k :: ks')
end

/-- `add_hierarchical` of a childless Ito among `store`, children of an Ito of span `p`. -/
def hier1 (key : Key) (p : Span) (store : List Node) (s : Span) (d : Option String) (v : Option Nat) :
    Except PyErr (List Node) := hierNode key s d v (.mk p none none store)

mutual
/-- `add_hierarchical(x, key=key)` for any parentless `x`, `/repo/pawpaw/ito.py:1546-1615`: into an empty
store `x` goes whole; otherwise its children are popped from the last to the first and added
hierarchically themselves, before `x`. -/
def hier (key : Key) (p : Span) (store : List Node) :
    Node → Except PyErr (List Node)
  | .mk s d v ks =>
    if store = [] then
      if outside p s then .error .valueError else .ok [.mk s d v ks]
    else
      match hierRev key p store ks with
      | .error e => .error e
      | .ok store' => hier1 key p store' s d v
/-- The `while` loop, `/repo/pawpaw/ito.py:1562-1564`: the last child first. -/
def hierRev (key : Key) (p : Span) (store : List Node) :
    List Node → Except PyErr (List Node)
  | [] => .ok store
  | k :: ks =>
    match hierRev key p store ks with
    | .error e => .error e
    | .ok store' => hier key p store' k
end

/-- `add_hierarchical(*itos, key=key)`, `/repo/pawpaw/ito.py:1546-1615`. -/
def hierAll (key : Key) (p : Span) :
    List Node → List Node → Except PyErr (List Node)
  | store, [] => .ok store
  | store, x :: xs =>
    match hier key p store x with
    | .error e => .error e
    | .ok st => hierAll key p st xs

end Kids

namespace Heap

mutual
/-- `p.children.add_hierarchical(x, key=key)`, `/repo/pawpaw/ito.py:1546-1615`, in memory.  `fuel` bounds
the recursion depth (a real run could exceed Python's); running out is `nonTermination`. -/
def addHier (key : Option (Nat → Int)) : Nat → Heap → Nat → Nat → Res
  | 0, h, _, _ => (h, .error .nonTermination)
  | n + 1, h, p, x =>
    if h.parent x ≠ none then (h, .error .valueError)
    else if h.kids p = [] then
      if h.setParentRaises x p then (h, .error .valueError)
      else
        let h := h.setParent x (some p)
        (h.setKids p (h.kids p ++ [x]), .ok ())
    else
      match flatten key n h p x with
      | (h, .error e) => (h, .error e)
      | (h, .ok ()) =>
        match Kids.place (h.kidSpans p) (h.span x) with
        | .overlap => (h, .error .valueError)
        | .into i =>
          match (h.kids p)[i]? with
          | none => (h, .error .indexError)
          | some tmp => addHier key n h tmp x
        | .insert i =>
          let h := h.setKids p ((h.kids p).insertIdx i x)
          if h.setParentRaises x p then (h, .error .valueError)
          else (h.setParent x (some p), .ok ())
        | .same i =>
          match (h.kids p)[i]? with
          | none => (h, .error .indexError)
          | some tmp =>
            if (match key with | none => true | some f => decide (f x ≥ f tmp)) then addHier key n h tmp x
            else absorb h p x i (i + 1)
        | .absorb i j => absorb h p x i j
/-- `while len(ito.children) > 0`, `/repo/pawpaw/ito.py:1562-1564`. -/
def flatten (key : Option (Nat → Int)) : Nat → Heap → Nat → Nat → Res
  | 0, h, _, _ => (h, .error .nonTermination)
  | n + 1, h, p, x =>
    if h.kids x = [] then (h, .ok ())
    else
      match h.pop x (-1) with
      | (h, .error e) => (h, .error e)
      | (h, .ok child) =>
        match addHier key n h p child with
        | (h, .error e) => (h, .error e)
        | (h, .ok ()) => flatten key n h p x
/-- `/repo/pawpaw/ito.py:1610-1615` -/
def absorb (h : Heap) (p x i j : Nat) : Res :=
  let tmp := ((h.kids p).drop i).take (j - i)
  match h.delSlice p (some (i : Int)) (some (j : Int)) with
  | (h, .error e) => (h, .error e)
  | (h, .ok ()) =>
    match h.add x tmp with
    | (h, .error e) => (h, .error e)
    | (h, .ok ()) =>
      let h := h.setKids p ((h.kids p).insertIdx i x)
      if h.setParentRaises x p then (h, .error .valueError)
      else (h.setParent x (some p), .ok ())
end

/-- `p.children.add_hierarchical(*itos, key=key)`, `/repo/pawpaw/ito.py:1546-1615`: the loop over the
arguments. -/
def addHierArgs (key : Option (Nat → Int)) (n : Nat) (h : Heap) (p : Nat) : List Nat → Res
  | [] => (h, .ok ())
  | x :: xs =>
    match addHier key n h p x with
    | (h', .error e) => (h', .error e)
    | (h', .ok ()) => addHierArgs key n h' p xs

end Heap
end Pawpaw
