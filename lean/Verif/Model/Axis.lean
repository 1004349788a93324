import Verif.Model.Adopt
/-!
# Model of the query axes, `/repo/pawpaw/query/_query.py:83-269`

A query runs inside one tree `t`; a node of it is identified by its path (child indices from the root),
so `.parent` drops the last index.  Generators are modelled by the list they yield.
-/
namespace Pawpaw
namespace Query

/-- A node of the tree: its path from the root. -/
abbrev Path := List Nat

/-- `Types.C_EITO`, `/repo/pawpaw/_type_magic/…`: `(index, ito)`. -/
abbrev EIto := Nat × Path

/-- `.parent`, `/repo/pawpaw/ito.py:366-368` -/
def parent (p : Path) : Option Path := if p = [] then none else some p.dropLast

theorem parent_length {p q : Path} (h : parent p = some q) : q.length < p.length := by
  unfold parent at h
  by_cases hp : p = []
  · rw [if_pos hp] at h; cases h
  · rw [if_neg hp] at h
    cases h
    have : p.length ≠ 0 := fun h => hp (List.eq_nil_of_length_eq_zero h)
    simp only [List.length_dropLast]
    omega

/-- The loop `while (cur := cur.parent) is not None: ancestors.append(cur)`,
`/repo/pawpaw/query/_query.py:156-160`. -/
def ancestors (p : Path) : List Path :=
  match h : parent p with
  | none => []
  | some q => q :: ancestors q
termination_by p.length
decreasing_by exact parent_length h

/-- The loop `while (next_par := root.parent) is not None`, `/repo/pawpaw/query/_query.py:148-150`. -/
def climb (p : Path) : Path :=
  match h : parent p with
  | none => p
  | some q => climb q
termination_by p.length
decreasing_by exact parent_length h

/-- `.children` of the node at `p`, `/repo/pawpaw/ito.py:379-381` -/
def kidsAt (t : Node) (p : Path) : List Node := ((t.get? p).map Node.kids).getD []

/-- The children as paths, in order. -/
def children (t : Node) (p : Path) : List Path := (List.range (kidsAt t p).length).map (fun i => p ++ [i])

/-- `len(ito.children) == 0` -/
def isLeaf (t : Node) (p : Path) : Bool := decide ((kidsAt t p).length = 0)

/-- `walk_descendants(reverse)` of the node at `p`, `/repo/pawpaw/ito.py:1335-1336` -/
def walkAt (t : Node) (rev : Bool) (p : Path) : List Path :=
  match t.get? p with
  | some n => n.walk rev p
  | none => []

/-- What `==` compares, `/repo/pawpaw/ito.py:520-564`. -/
def keyAt (t : Node) (p : Path) : Option (Span × Option Nat × Option String) := (t.get? p).map Node.key

/-- `p.children.index(i)` (`collections.abc.Sequence.index`: first child that is or equals `i`;
`ValueError` if there is none). -/
def childIndex (t : Node) (p i : Path) : Except PyErr Nat :=
  match (children t p).findIdx? (fun c => decide (keyAt t c = keyAt t i)) with
  | some k => .ok k
  | none => .error .valueError

/-- Axis keys, `/repo/pawpaw/query/_query.py:84` -/
inductive AxisKey where
  | root | ancestors | parent | self | dedup | children | descendants | leaves
  | preceding | priors | prior | next | nexts | following
  deriving DecidableEq, Repr

/-- The `or_self` part: nothing, `!` or `!!`. -/
inductive OrSelf where
  | no | ifEmpty | always
  deriving DecidableEq, Repr

/-- `Axis`, `/repo/pawpaw/query/_query.py:83-105`. -/
structure Axis where
  key : AxisKey
  rev : Bool := false
  orSelf : OrSelf := .no
  deriving DecidableEq, Repr

/-- `EITO(e, i)` for `e` from `e0` on. -/
def enumFrom (e : Nat) : List Path → List EIto
  | [] => []
  | p :: ps => (e, p) :: enumFrom (e + 1) ps

/-- `to_ecs(itos, or_self_ito)`, `/repo/pawpaw/query/_query.py:106-140`. -/
def Axis.toEcs (a : Axis) (itos : List Path) (self : Option Path) : List EIto :=
  match self with
  | none => enumFrom 0 itos
  | some s =>
    if a.orSelf = .always ∧ a.rev = false then
      match itos with
      | [] => [(0, s)]
      | first :: rest =>
        if first ≠ s then (0, s) :: (1, first) :: enumFrom 2 rest
        else (0, s) :: enumFrom 1 rest
    else
      match itos with
      | [] => if a.orSelf ≠ .no then [(0, s)] else []
      | _ :: _ =>
        enumFrom 0 itos ++ (if a.orSelf = .always ∧ a.rev = true then [(itos.length, s)] else [])

/-- `dict.fromkeys(itos)`: the first of each set of `==`-equal Itos. -/
def dedup (t : Node) : List Path → List Path → List Path
  | seen, [] => seen
  | seen, p :: ps =>
    if seen.any (fun q => decide (keyAt t q = keyAt t p)) then dedup t seen ps
    else dedup t (seen ++ [p]) ps

/-- The body of the `for i in itos` loop for the axes that have one,
`/repo/pawpaw/query/_query.py:144-191`, `:210-252`: the nodes passed to `to_ecs`. -/
def Axis.step (a : Axis) (t : Node) (i : Path) : Except PyErr (List Path) :=
  match a.key with
  | .root =>
    match Query.parent i with
    | none => .ok []
    | some q => .ok [climb q]
  | .ancestors => .ok (if a.rev then (Query.ancestors i).reverse else Query.ancestors i)
  | .parent =>
    match Query.parent i with
    | none => .ok []
    | some q => .ok [q]
  | .children => .ok (if a.rev then (Query.children t i).reverse else Query.children t i)
  | .descendants => .ok (walkAt t a.rev i)
  | .leaves => .ok ((walkAt t a.rev i).filter (isLeaf t))
  | .priors =>
    match Query.parent i with
    | none => .ok []
    | some p => do
      let idx ← childIndex t p i
      let sliced := (Query.children t p).take idx
      return if a.rev then sliced else sliced.reverse
  | .prior =>
    match Query.parent i with
    | none => .ok []
    | some p => do
      let idx ← childIndex t p i
      return if idx > 0 then ((Query.children t p)[idx - 1]?).toList else []
  | .next =>
    match Query.parent i with
    | none => .ok []
    | some p => do
      let idx ← childIndex t p i
      return if idx + 1 < (Query.children t p).length then ((Query.children t p)[idx + 1]?).toList else []
  | .nexts =>
    match Query.parent i with
    | none => .ok []
    | some p => do
      let idx ← childIndex t p i
      let sliced := (Query.children t p).drop (idx + 1)
      return if a.rev then sliced.reverse else sliced
  | .self | .dedup | .preceding | .following => .ok []

/-- `for i in itos: yield from self.to_ecs(…, i)` -/
def Axis.loop (a : Axis) (t : Node) : List Path → Except PyErr (List EIto)
  | [] => .ok []
  | i :: is =>
    match a.step t i with
    | .error e => .error e
    | .ok ns =>
      match a.loop t is with
      | .error e => .error e
      | .ok es => .ok (a.toEcs ns (some i) ++ es)

/-- `start` of the node at `p`. -/
def startAt (t : Node) (p : Path) : Int := ((t.get? p).map Node.start).getD 0
/-- `stop` of the node at `p`. -/
def stopAt (t : Node) (p : Path) : Int := ((t.get? p).map Node.stop).getD 0

/-- The part of `'<<<'` after its `for` loop, `/repo/pawpaw/query/_query.py:198-208`; `i` is whatever the
loop variable was left at.  `j not in ancestors` compares with `==`. -/
def Axis.precedingTail (a : Axis) (t : Node) (i : Path) : List EIto :=
  let it :=
    if a.rev then (walkAt t false (climb i)).takeWhile (fun j => decide (j ≠ i))
    else ((walkAt t true (climb i)).dropWhile (fun j => decide (j ≠ i))).drop 1
  let anc := Query.ancestors i
  a.toEcs (it.filter (fun j => !anc.any (fun q => decide (keyAt t q = keyAt t j)))) (some i)

/-- The part of `'>>>'` after its `for` loop, `/repo/pawpaw/query/_query.py:259-266`. -/
def Axis.followingTail (a : Axis) (t : Node) (i : Path) : List EIto :=
  let it :=
    if a.rev then (walkAt t true (climb i)).takeWhile (fun j => decide (startAt t j ≥ stopAt t i))
    else (walkAt t false (climb i)).dropWhile (fun j => decide (startAt t j < stopAt t i))
  a.toEcs it (some i)

/-- `'<<<'` and `'>>>'`: the `for` loop only looks for a root (and then stops everything); the work is done
after it, for the last Ito only (`/repo/pawpaw/query/_query.py:192-208`, `:254-266`).  With no Ito at all
the loop variable is unbound. -/
def Axis.outside (a : Axis) (tail : Path → List EIto) (itos : List Path) : Except PyErr (List EIto) :=
  match itos.find? (fun i => decide (Query.parent i = none)) with
  | some r => .ok (a.toEcs [] (some r))
  | none =>
    match itos.getLast? with
    | none => .error .nameError
    | some i => .ok (tail i)

/-- `Axis.find_all(itos)`, `/repo/pawpaw/query/_query.py:142-269`. -/
def Axis.findAll (a : Axis) (t : Node) (itos : List Path) : Except PyErr (List EIto) :=
  match a.key with
  | .self => .ok (a.toEcs itos none)
  | .dedup =>
    let rv := Query.dedup t [] itos
    .ok (a.toEcs (if a.rev then rv.reverse else rv) none)
  | .preceding => a.outside (a.precedingTail t) itos
  | .following => a.outside (a.followingTail t) itos
  | _ => a.loop t itos

end Query
end Pawpaw
