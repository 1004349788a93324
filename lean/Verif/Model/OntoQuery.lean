import Verif.Model.Ontology
import Verif.Model.QueryText
import Verif.Model.Query
/-!
# Model of the texts and operations of `/repo/pawpaw/ontology/_query.py`

Keys are texts (`List Char`). The Itos found are of any type with a span.
-/
namespace Pawpaw
namespace OntoQuery
open Ontology

/-- `MUST_ESCAPE_CHARS`, `/repo/pawpaw/ontology/_query.py:20` -/
def mustEscape : List Char := ['\\', ']', '.']

/-- `escape(value)`, `/repo/pawpaw/ontology/_query.py:22-26` -/
def escape (value : List Char) : List Char :=
  (mustEscape.filter (fun e => decide (e ≠ '\\'))).foldl (fun rv c => Query.replaceChar c ['\\', c] rv)
    (Query.replaceChar '\\' ['\\', '\\'] value)

/-- The loop of `descape`, `/repo/pawpaw/ontology/_query.py:29-41`. -/
def descapeLoop : Bool → List Char → List Char → Except PyErr (List Char)
  | esc, rv, [] => if esc then .error .valueError else .ok rv
  | esc, rv, c :: cs =>
    if esc ∨ c ≠ '\\' then descapeLoop false (rv ++ [c]) cs else descapeLoop true rv cs

/-- `descape(value)`, `/repo/pawpaw/ontology/_query.py:28-41` -/
def descape (value : List Char) : Except PyErr (List Char) := descapeLoop false [] value

variable {τ : Type}

/-- `discovery[k]` of a `dict` -/
def get (d : Disc (List Char) τ) (k : List Char) : Except PyErr (Disc (List Char) τ) :=
  match d.kids.find? (fun e => e.1 = k) with
  | some e => .ok e.2
  | none => .error .keyError

/-- The loop over the steps, `/repo/pawpaw/ontology/_query.py:60-61`; `e` is what ends the splitting. -/
def follow (e : Option PyErr) : Disc (List Char) τ → List (FIto Char) → Except PyErr (Disc (List Char) τ)
  | d, [] => match e with | none => .ok d | some e => .error e
  | d, s :: ss =>
    match get d s.text with
    | .error e => .error e
    | .ok d => follow e d ss

/-- What `_Entity(entity)(stack_frame)` yields, `/repo/pawpaw/ontology/_query.py:55-70`. The check of `id` (62-63) is left out: there
is at least one step, and no dict contains itself. -/
def entity (span : τ → Span) (D : Disc (List Char) τ) (start stop : Int) (ent : FIto Char) : Except PyErr (List τ) :=
  let r := Util.splitUnescaped ent '.' '\\' none none
  match follow r.exc D r.out with
  | .error e => .error e
  | .ok d => .ok (d.walk.filter fun i => decide (start ≤ (span i).start) && decide ((span i).stop ≤ stop))

/-- `_Entity`, `_Mul`, `/repo/pawpaw/ontology/_query.py:55-81` -/
inductive QOp where
  | entity (e : FIto Char)
  | mul

/-- `next(r)`; within a generator a `StopIteration` leaves as `RuntimeError` (PEP 479), which is not told apart here. -/
def first (r : Run (List τ)) : Except PyErr (List τ) :=
  match r.out with
  | x :: _ => .ok x
  | [] => match r.exc with | some e => .error e | none => .error .stopIteration

/-- `op(stack_frame)`, `/repo/pawpaw/ontology/_query.py:59-81`; `op_stack` has its last element first. -/
def call (span : τ → Span) (D : Disc (List Char) τ) : List QOp → QOp → Int → Int → Run (List τ)
  | _, .entity e, start, stop =>
    match entity span D start stop e with
    | .error e => .raise e
    | .ok is => .yield is .done
  | it2 :: it1 :: st, .mul, start, stop =>
    match first (call span D st it1 start stop) with
    | .error e => .raise e
    | .ok is => Run.bindList (fun i1 =>
        match first (call span D st it2 (span i1).stop stop) with
        | .error e => .raise e
        | .ok js => ⟨js.map fun i2 => [i1, i2], none⟩) none is
  | _, .mul, _, _ => .raise .valueError

end OntoQuery
end Pawpaw
