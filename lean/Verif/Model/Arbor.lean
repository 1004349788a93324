import Verif.Model.Tree
/-!
# Model of `pawpaw/arborform`: `Split`, `Invert`, `Nuco`, `WindowedJoin`, `StackedReduce`

What a generator yields and how it ends is a `Run`.  The inner itorators, predicates and reduce functions
are parameters.  Calling an inner itorator hands it a clone (`itorator.py:173-176`), so its results are
given as data here; the pipeline machinery itself, with its effects, is in `Model/Pipeline.lean`.
Simplification: predicates do not raise and do not keep or change the list they are given.
-/
namespace Pawpaw
namespace Arbor
variable {α : Type} [DecidableEq α]

/-- `Split.BoundaryRetention`, `/repo/pawpaw/arborform/itorator/split.py:13-18` -/
inductive Retention where
  | none | leading | trailing | all
  deriving DecidableEq

/-- The arguments of `Split`, `/repo/pawpaw/arborform/itorator/split.py:20-28`. -/
structure SplitCfg where
  limit : Option Int := none
  retention : Retention := .none
  zeroSplit : Bool := true
  desc : Option String := none

/-- `self.limit is None or count < self.limit`, `/repo/pawpaw/arborform/itorator/split.py:113` -/
def SplitCfg.more (c : SplitCfg) (count : Int) : Bool :=
  match c.limit with
  | none => true
  | some n => decide (count < n)

/-- `start` and `stop` of the next piece, `/repo/pawpaw/arborform/itorator/split.py:114-132`. -/
def SplitCfg.bounds (c : SplitCfg) (x : FIto α) (prior : Option (FIto α)) (cur : FIto α) : Int × Int :=
  match prior with
  | none =>
    match c.retention with
    | .leading => (0, 0)
    | .none | .all => (x.start, cur.start)
    | .trailing => (x.start, cur.stop)
  | some p =>
    match c.retention with
    | .none | .all => (p.stop, cur.start)
    | .leading => (p.start, cur.start)
    | .trailing => (p.stop, cur.stop)

/-- `if start != stop: rv.append(ito.clone(start, stop, self.desc, False))`,
`/repo/pawpaw/arborform/itorator/split.py:136-137,149-150`. -/
def SplitCfg.piece (c : SplitCfg) (x : FIto α) (b : Int × Int) : List (FIto α) :=
  if b.1 ≠ b.2 then [x.clone (some b.1) (some b.2) (some c.desc)] else []

/-- The loop, `/repo/pawpaw/arborform/itorator/split.py:111-142`: the appended Itos and the last
boundary.  The separators come from the splitter, which may raise. -/
def SplitCfg.loop (c : SplitCfg) (x : FIto α) :
    Int → Option (FIto α) → List (FIto α) → Option PyErr → Except PyErr (List (FIto α) × Option (FIto α))
  | _, prior, [], none => .ok ([], prior)
  | _, _, [], some e => .error e
  | count, prior, cur :: rest, e =>
    if c.more count then
      let p := c.piece x (c.bounds x prior cur)
      let s := if c.retention = .all ∧ cur.start < cur.stop then [cur] else []
      match SplitCfg.loop c x (count + 1) (some cur) rest e with
      | .error e => .error e
      | .ok (rv, prior) => .ok (p ++ s ++ rv, prior)
    else .ok ([], prior)

/-- The piece after the last boundary, `/repo/pawpaw/arborform/itorator/split.py:144-150`. -/
def SplitCfg.last (c : SplitCfg) (x : FIto α) : Option (FIto α) → List (FIto α)
  | none => []
  | some p =>
    match c.retention with
    | .trailing => []
    | .none | .all => c.piece x (p.stop, x.stop)
    | .leading => c.piece x (p.start, x.stop)

/-- `Split._transform(ito)`, `/repo/pawpaw/arborform/itorator/split.py:104-155`; `seps` is what
`self.splitter(ito)` does. -/
def SplitCfg.split (c : SplitCfg) (x : FIto α) (seps : Run (FIto α)) : Except PyErr (List (FIto α)) :=
  if c.limit = some 0 ∧ c.zeroSplit then .ok [x.clone none none (some c.desc)]
  else
    match c.loop x 0 none seps.out seps.exc with
    | .error e => .error e
    | .ok (rv, prior) =>
      let rv := rv ++ c.last x prior
      if prior = none ∧ rv.length = 0 ∧ c.zeroSplit then .ok (rv ++ [x.clone none none (some c.desc)])
      else .ok rv

/-- `Nuco._transform(ito)`, `/repo/pawpaw/arborform/itorator/nuco.py:16-24`; `runs` are what the
itorators do on `ito`. -/
def nuco {τ : Type} : List (Run τ) → Run τ
  | [] => .done
  | r :: rs =>
    match r.out, r.exc with
    | [], none => nuco rs
    | [], some e => .raise e
    | x :: xs, e => ⟨x :: xs, e⟩

/-- The end of `Invert._transform`, `/repo/pawpaw/arborform/itorator/invert.py:27-30`; `last` is the
loop variable `i`, unbound if there were no results (then `start` is `ito.start`). -/
def invertTail (len : Nat) (n : Node) (desc : Option String) (start : Int) (last : Option Span) :
    Run Node :=
  if start = n.start then
    match n.cloneWith len none none (some desc) with
    | .error e => .raise e
    | .ok y => .yield y .done
  else
    match last with
    | none => .raise .nameError
    | some i =>
      if i.stop < n.stop then
        match n.cloneWith len (some i.stop) (some n.stop) (some desc) with
        | .error e => .raise e
        | .ok y => .yield y .done
      else .done

/-- The loop of `Invert._transform`, `/repo/pawpaw/arborform/itorator/invert.py:20-25`; the arguments
are `start`, the last `i`, the spans of the results still to come, and how the inner itorator ends. -/
def invertLoop (len : Nat) (n : Node) (desc : Option String) :
    Int → Option Span → List Span → Option PyErr → Run Node
  | start, last, [], none => invertTail len n desc start last
  | _, _, [], some e => .raise e
  | start, _, i :: is, e =>
    if start < i.start then
      match n.cloneWith len (some start) (some i.start) (some desc) with
      | .error e => .raise e
      | .ok y => .yield y (invertLoop len n desc i.stop (some i) is e)
    else invertLoop len n desc i.stop (some i) is e

/-- `Invert._transform(ito)`, `/repo/pawpaw/arborform/itorator/invert.py:19-30`. -/
def invert (len : Nat) (n : Node) (desc : Option String) (inner : Run Span) : Run Node :=
  invertLoop len n desc n.start none inner.out inner.exc

/-- `yield from window` -/
def Run.append {τ : Type} (xs : List τ) (r : Run τ) : Run τ := ⟨xs ++ r.out, r.exc⟩

/-- The loop of `WindowedJoin._transform`, `/repo/pawpaw/arborform/postorator/windowed_join.py:36-47`;
`size` is `window_size`. -/
def windowedLoop {τ : Type} (size : Nat) (pred : List τ → Bool) (join : List τ → Except PyErr τ) :
    List τ → List τ → Option PyErr → Run τ
  | window, [], none => ⟨window, none⟩
  | _, [], some e => .raise e
  | window, x :: xs, e =>
    let window := window ++ [x]
    if window.length = size then
      if pred window then
        match join window with
        | .error e => .raise e
        | .ok y => .yield y (windowedLoop size pred join [] xs e)
      else
        match window with
        | [] => .raise .indexError
        | w :: ws => .yield w (windowedLoop size pred join ws xs e)
    else windowedLoop size pred join window xs e

/-- `WindowedJoin(window_size, predicate)(itos)`,
`/repo/pawpaw/arborform/postorator/windowed_join.py:18-24,36-47`. -/
def windowedJoin {τ : Type} (size : Int) (pred : List τ → Bool) (join : List τ → Except PyErr τ)
    (itos : Run τ) : Run τ :=
  if size < 2 then .raise .valueError
  else windowedLoop size.toNat pred join [] itos.out itos.exc

/-- The loop of `StackedReduce._transform`,
`/repo/pawpaw/arborform/postorator/stacked_reduce.py:32-49`. -/
def stackedLoop {τ : Type} (reduce : List τ → Except PyErr τ) (push : List τ → τ → Bool)
    (pop : Option (List τ → τ → Bool)) : List τ → List τ → Option PyErr → Run τ
  | stack, [], none =>
    if stack.length > 0 then
      match reduce stack with
      | .error e => .raise e
      | .ok y => .yield y .done
    else .done
  | _, [], some e => .raise e
  | stack, x :: xs, e =>
    -- lines 44-48, with an empty stack
    let fresh : Unit → Run τ := fun _ =>
      if push [] x then stackedLoop reduce push pop [x] xs e
      else .yield x (stackedLoop reduce push pop [] xs e)
    if stack.length > 0 then
      if (match pop with | some p => p stack x | none => false) then
        match reduce stack with
        | .error e => .raise e
        | .ok y => .yield y (fresh ())
      else stackedLoop reduce push pop (stack ++ [x]) xs e
    else fresh ()

/-- `StackedReduce(reduce_func, push_predicate, pop_predicate)(itos)`,
`/repo/pawpaw/arborform/postorator/stacked_reduce.py:32-52`. -/
def stackedReduce {τ : Type} (reduce : List τ → Except PyErr τ) (push : List τ → τ → Bool)
    (pop : Option (List τ → τ → Bool)) (itos : Run τ) : Run τ :=
  stackedLoop reduce push pop [] itos.out itos.exc

end Arbor
end Pawpaw
