import Verif.Model.CloneHeap
/-!
# Model of itorator pipelines, `/repo/pawpaw/arborform/itorator/itorator.py`

A generator that has been started is a `Gen`: it has ended, raised, or yielded an object; then it goes on from
whatever memory it finds when resumed, so the caller may do anything in between. A generator not yet started is a
function from memory to `Gen`. Generators are finite for every caller (an endless transform is not modelled).

Itorators form a graph `G` (numbered; cycles are possible). `_transform` and the postorator are parameters, as are
the predicates, which may raise but not write. The connections do not change while a pipeline runs. `fuel` bounds the
nesting of `_traverse` calls (Python's recursion limit); running out is `nonTermination`.
-/
namespace Pawpaw
namespace Pipeline

/-- A started generator of objects. -/
inductive Gen where
  | done (h : Heap)
  | raise (h : Heap) (e : PyErr)
  | yield (h : Heap) (r : Nat) (k : Heap → Gen)

namespace Gen

/-- One generator after another: `yield from g` and then the rest. -/
def andThen : Gen → (Heap → Gen) → Gen
  | done h, f => f h
  | raise h e, _ => raise h e
  | yield h r k, f => yield h r (fun h' => (k h').andThen f)

/-- `for x in g: yield from f(x)`. -/
def forEach : Gen → (Heap → Nat → Gen) → Gen
  | done h, _ => done h
  | raise h e, _ => raise h e
  | yield h r k, f => (f h r).andThen (fun h' => (k h').forEach f)

/-- `[*g]`. -/
def collect : Gen → Heap × Except PyErr (List Nat)
  | done h => (h, .ok [])
  | raise h e => (h, .error e)
  | yield h r k =>
    match (k h).collect with
    | (h', .error e) => (h', .error e)
    | (h', .ok rs) => (h', .ok (r :: rs))

/-- A generator over a fixed list. -/
def ofList : List Nat → Heap → Gen
  | [], h => done h
  | x :: xs, h => yield h x (ofList xs)

end Gen

/-- `Connectors`, `/repo/pawpaw/arborform/itorator/itorator.py:33-70` -/
inductive Kind where
  | delegate | recurse | subroutine | add | addHierarchical | replace | delete
  deriving DecidableEq

/-- `Connector`, `/repo/pawpaw/arborform/itorator/itorator.py:11-24` -/
structure Con where
  kind : Kind
  target : Nat
  pred : Heap → Nat → Except PyErr Bool

/-- `Itorator`, `/repo/pawpaw/arborform/itorator/itorator.py:73-116` -/
structure It where
  transform : Heap → Nat → Gen
  cons : List Con := []
  post : Option ((Heap → Gen) → Heap → Gen) := none

/-- `for c in children: ito.children.remove(c)`, `/repo/pawpaw/arborform/itorator/itorator.py:151-152` -/
def removeAll (h : Heap) (p : Nat) : List Nat → Heap.Res
  | [] => (h, .ok ())
  | c :: cs =>
    match h.remove p c with
    | (h, .error e) => (h, .error e)
    | (h, .ok ()) => removeAll h p cs

/-- `p.children.add_hierarchical(*itos)`, `/repo/pawpaw/ito.py:1546-1615` -/
def addHierAll (fuel : Nat) (h : Heap) (p : Nat) : List Nat → Heap.Res
  | [] => (h, .ok ())
  | x :: xs =>
    match Heap.addHier none fuel h p x with
    | (h, .error e) => (h, .error e)
    | (h, .ok ()) => addHierAll fuel h p xs

/-- What a `ChildrenConnector` does with the collected children,
`/repo/pawpaw/arborform/itorator/itorator.py:142-152`. -/
def attach (fuel : Nat) (k : Kind) (h : Heap) (x : Nat) (children : List Nat) : Heap.Res :=
  match k with
  | .replace =>
    match h.clear x with
    | (h, .error e) => (h, .error e)
    | (h, .ok ()) => h.add x children
  | .add => h.add x children
  | .addHierarchical => addHierAll fuel h x children
  | _ => removeAll h x children

/-- `_flow(ito, con_idx)`, `/repo/pawpaw/arborform/itorator/itorator.py:130-168`, from the connections left; `trav` is
`_traverse` of an itorator. -/
def flow (fuel : Nat) (trav : Nat → Heap → Nat → Gen) : List Con → Heap → Nat → Gen
  | [], h, x => .yield h x .done
  | c :: cs, h, x =>
    match c.pred h x with
    | .error e => .raise h e
    | .ok false => flow fuel trav cs h x
    | .ok true =>
      match c.kind with
      | .delegate => trav c.target h x
      | .recurse => (trav c.target h x).forEach (flow fuel trav cs)
      | .subroutine =>
        match (trav c.target h x).collect with
        | (h, .error e) => .raise h e
        | (h, .ok _) => flow fuel trav cs h x
      | k =>
        match (trav c.target h x).collect with
        | (h, .error e) => .raise h e
        | (h, .ok children) =>
          match attach fuel k h x children with
          | (h, .error e) => .raise h e
          | (h, .ok ()) => flow fuel trav cs h x

/-- `_post`, `/repo/pawpaw/arborform/itorator/itorator.py:123-127` -/
def It.posted (it : It) (g : Heap → Gen) : Heap → Gen :=
  match it.post with
  | none => g
  | some f => f g

/-- `_traverse(ito)`, `/repo/pawpaw/arborform/itorator/itorator.py:171-172` -/
def traverse (G : Nat → It) : Nat → Nat → Heap → Nat → Gen
  | 0, _, h, _ => .raise h .nonTermination
  | n + 1, i, h, x =>
    (G i).posted (fun h => ((G i).transform h x).forEach (flow n (traverse G n) (G i).cons)) h

/-- `__call__(ito)`, `/repo/pawpaw/arborform/itorator/itorator.py:174-177` -/
def call (G : Nat → It) (n : Nat) (i : Nat) (h : Heap) (x : Nat) : Gen :=
  match h.cloneObj n x with
  | (h, .error e) => .raise h e
  | (h, .ok y) => traverse G n i h y

/-! ### Some transforms -/

/-- `Reflect._transform`, `/repo/pawpaw/arborform/itorator/reflect.py:14-15` -/
def reflect (h : Heap) (x : Nat) : Gen := .yield h x .done

/-- `Filter._transform`, `/repo/pawpaw/arborform/itorator/filter.py:17-19` -/
def filter (p : Heap → Nat → Except PyErr Bool) (h : Heap) (x : Nat) : Gen :=
  match p h x with
  | .error e => .raise h e
  | .ok true => .yield h x .done
  | .ok false => .done h

/-- `Desc._transform`, `/repo/pawpaw/arborform/itorator/desc.py:20-22` -/
def descT (f : Heap → Nat → Except PyErr (Option String)) (h : Heap) (x : Nat) : Gen :=
  match f h x with
  | .error e => .raise h e
  | .ok d => .yield (h.upd x (fun o => { o with desc := d })) x .done

/-- `ValueFunc._transform`, `/repo/pawpaw/arborform/itorator/value_func.py:17-19` -/
def valueFuncT (f : Option Nat) (h : Heap) (x : Nat) : Gen :=
  .yield (h.upd x (fun o => { o with vf := f })) x .done

/-- The loop of `Split._transform` and the like: new childless Itos on the string of `x`, one after the other. -/
def pieces (x : Nat) : List (Int × Int × Option String) → Heap → Gen
  | [], h => .done h
  | (a, b, d) :: ps, h =>
    .yield (h.newLike x a b d) h.next (pieces x ps)

/-- `Nuco._transform`, `/repo/pawpaw/arborform/itorator/nuco.py:15-23`; `itor(ito)` for each itorator. -/
def nucoT (calls : List (Heap → Nat → Gen)) (h : Heap) (x : Nat) : Gen :=
  match calls with
  | [] => .done h
  | c :: cs =>
    match c h x with
    | .done h => nucoT cs h x
    | .raise h e => .raise h e
    | .yield h r k => .yield h r k

end Pipeline
end Pawpaw
