import Verif.Model.Arbor
import Verif.Model.MatchHeap
import Verif.Model.Pipeline
/-!
# Model of the itorators `Extract` and `Split` on objects

`Model/Arbor.lean` has `Split` on values. Here the pieces are new objects, made while the splitter's generator is
being consumed.
-/
namespace Pawpaw
namespace Pipeline
open Heap Arbor

/-- A compiled pattern with a group filter and a desc function: the matches `finditer` gives on a string from
`span.start` to `span.stop`, each as the (desc, spans) of its selected groups. -/
abbrev Matcher := String → Span → List (List (Option String × List Span))

/-- `Extract._transform`, `/repo/pawpaw/arborform/itorator/extract.py:34-35`: the list is made before anything is
yielded. -/
def extractT (re : Matcher) (limit : Option Int) (h : Heap) (x : Nat) : Gen :=
  match fromReObj h (h.str x) (re (h.str x) (h.span x)) limit with
  | (h, .error e) => .raise h e
  | (h, .ok ids) => .ofList ids h

/-- `start` and `stop` of the next piece, `/repo/pawpaw/arborform/itorator/split.py:114-132`; `x`, `prior` and `cur`
are the spans of `ito`, `prior` and `cur`. -/
def spanBounds (r : Retention) (x : Span) (prior : Option Span) (cur : Span) : Int × Int :=
  match prior with
  | none =>
    match r with
    | .leading => (0, 0)
    | .none | .all => (x.start, cur.start)
    | .trailing => (x.start, cur.stop)
  | some p =>
    match r with
    | .none | .all => (p.stop, cur.start)
    | .leading => (p.start, cur.start)
    | .trailing => (p.stop, cur.stop)

/-- `if start != stop: rv.append(ito.clone(start, stop, self.desc, False))`,
`/repo/pawpaw/arborform/itorator/split.py:136-137,149-150`. -/
def addPiece (desc : Option String) (h : Heap) (x : Nat) (rv : List Nat) (b : Int × Int) : Heap × List Nat :=
  if b.1 ≠ b.2 then (h.newLike x b.1 b.2 desc, rv ++ [h.next]) else (h, rv)

/-- The loop, `/repo/pawpaw/arborform/itorator/split.py:111-142`; `takewhile` fetches one Ito beyond the limit and
drops it. -/
def splitLoop (c : SplitCfg) (x : Nat) :
    Gen → Int → Option Nat → List Nat → Heap × Except PyErr (List Nat × Option Nat)
  | .done h, _, prior, rv => (h, .ok (rv, prior))
  | .raise h e, _, _, _ => (h, .error e)
  | .yield h cur k, count, prior, rv =>
    if c.more count then
      let q := addPiece c.desc h x rv (spanBounds c.retention (h.span x) (prior.map h.span) (h.span cur))
      let rv := if c.retention = .all ∧ (q.1.span cur).start < (q.1.span cur).stop then q.2 ++ [cur] else q.2
      splitLoop c x (k q.1) (count + 1) (some cur) rv
    else (h, .ok (rv, prior))

/-- The piece after the last boundary, `/repo/pawpaw/arborform/itorator/split.py:144-150`. -/
def splitLast (c : SplitCfg) (x : Nat) (h : Heap) (rv : List Nat) : Option Nat → Heap × List Nat
  | none => (h, rv)
  | some p =>
    match c.retention with
    | .trailing => (h, rv)
    | .none | .all => addPiece c.desc h x rv ((h.span p).stop, (h.span x).stop)
    | .leading => addPiece c.desc h x rv ((h.span p).start, (h.span x).stop)

/-- `ito.clone(desc=self.desc, clone_children=False)`, `/repo/pawpaw/arborform/itorator/split.py:106,153`. -/
def wholeClone (c : SplitCfg) (h : Heap) (x : Nat) : Heap :=
  h.newLike x (h.span x).start (h.span x).stop c.desc

/-- `Split._transform`, `/repo/pawpaw/arborform/itorator/split.py:104-155`; `splitter` is `self.splitter(ito)`. -/
def splitT (c : SplitCfg) (splitter : Heap → Nat → Gen) (h : Heap) (x : Nat) : Gen :=
  if c.limit = some 0 ∧ c.zeroSplit then .ofList [h.next] (wholeClone c h x)
  else
    match splitLoop c x (splitter h x) 0 none [] with
    | (h, .error e) => .raise h e
    | (h, .ok (rv, prior)) =>
      let q := splitLast c x h rv prior
      if prior = none ∧ q.2.length = 0 ∧ c.zeroSplit then
        .ofList (q.2 ++ [q.1.next]) (wholeClone c q.1 x)
      else .ofList q.2 q.1

/-- An itorator without connections and postorator, `/repo/pawpaw/arborform/itorator/itorator.py:91-96`. -/
def justT (f : Heap → Nat → Gen) : Nat → It := fun _ => { transform := f }

end Pipeline
end Pawpaw
