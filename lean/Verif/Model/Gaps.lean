import Verif.Model.Flat
/-!
# Model of `Ito.from_spans`, `Ito.from_gaps`, `Ito.from_substrings`, `Ito.join`, `Invert`
-/
namespace Pawpaw

/-- Outcome of running a Python generator to its end: what was yielded, and the exception that ended
it, if any. -/
structure Run (τ : Type) where
  out : List τ
  exc : Option PyErr
  deriving DecidableEq

namespace Run
/-- Normal end of a generator. -/
def done {τ : Type} : Run τ := ⟨[], none⟩
/-- `raise e` inside a generator. -/
def raise {τ : Type} (e : PyErr) : Run τ := ⟨[], some e⟩
/-- `yield x` followed by the rest. -/
def yield {τ : Type} (x : τ) (r : Run τ) : Run τ := ⟨x :: r.out, r.exc⟩
end Run

variable {α : Type} [DecidableEq α]

/-- `src: str | Ito` of `from_gaps`/`from_substrings`: `/repo/pawpaw/ito.py:217-228,302-309`. -/
inductive Src (α : Type) where
  | str (s : List α)
  | ito (x : FIto α)

namespace Src
/-- `basis` -/
def basis : Src α → List α
  | .str s => s
  | .ito x => x.string
/-- `start` (also `offset`, which is `0` for a `str` and `start` for an `Ito`) -/
def start : Src α → Int
  | .str _ => 0
  | .ito x => x.start
/-- `end` -/
def stop : Src α → Int
  | .str s => s.length
  | .ito x => x.stop
end Src

/-- An element of `non_gaps`: a `Span` relative to `src`, or an `Ito` on the same string. -/
inductive NonGap (α : Type) where
  | span (s : Span)
  | ito (x : FIto α)

/-- `next_ng_span` on an element, `/repo/pawpaw/ito.py:232-245`. -/
def NonGap.resolve (src : Src α) : NonGap α → Except PyErr Span
  | .span s => s.offset src.start
  | .ito x => if x.string ≠ src.basis then .error .valueError else .ok x.span

/-- `if last.stop < end: yield cls(basis, last.stop, end)`, `/repo/pawpaw/ito.py:268-269`. -/
def gapsTail (src : Src α) (desc : Option String) (last : Span) : Run (FIto α) :=
  if last.stop < src.stop then
    .yield (FIto.ofStr src.basis (some last.stop) (some src.stop) desc) .done
  else .done

/-- `while last.stop < end: …`, `/repo/pawpaw/ito.py:255-269`. -/
def gapsLoop (src : Src α) (desc : Option String) (zw : Bool) : Span → List (NonGap α) → Run (FIto α)
  | last, [] => gapsTail src desc last
  | last, ng :: rest =>
    if last.stop < src.stop then
      match ng.resolve src with
      | .error e => .raise e
      | .ok cur =>
        if cur.start < last.start then .raise .valueError
        else if cur.start < last.stop then gapsLoop src desc zw cur rest
        else if cur.start = last.stop then
          if zw then
            .yield (FIto.ofStr src.basis (some last.stop) (some cur.start) desc)
              (gapsLoop src desc zw cur rest)
          else gapsLoop src desc zw cur rest
        else if cur.start ≥ src.stop then gapsTail src desc last
        else
          .yield (FIto.ofStr src.basis (some last.stop) (some cur.start) desc)
            (gapsLoop src desc zw cur rest)
    else gapsTail src desc last

/-- `Ito.from_gaps(src, non_gaps, desc, return_zero_widths)`, `/repo/pawpaw/ito.py:196-269`. -/
def fromGaps (src : Src α) (ngs : List (NonGap α)) (desc : Option String) (zw : Bool) :
    Run (FIto α) :=
  match ngs with
  | [] =>
    if src.start < src.stop then
      .yield (FIto.ofStr src.basis (some src.start) (some src.stop) desc) .done
    else .done
  | ng :: rest =>
    match ng.resolve src with
    | .error e => .raise e
    | .ok last =>
      if src.start < last.start then
        .yield (FIto.ofStr src.basis (some src.start) (some (min last.start src.stop)) desc)
          (gapsLoop src desc zw last rest)
      else gapsLoop src desc zw last rest

/-- `Ito.from_spans(src, spans, desc)` with an `Ito` basis, `/repo/pawpaw/ito.py:182-194`. -/
def fromSpans (x : FIto α) (spans : List Span) (desc : Option String) : Run (FIto α) :=
  match spans with
  | [] => .done
  | s :: ss =>
    match x.ofIto (some s.start) (some s.stop) desc with
    | .error e => .raise e
    | .ok y => .yield y (fromSpans x ss desc)

/-- The loop of `from_substrings`, `/repo/pawpaw/ito.py:310-314`; `s.index(sub, i, j)` raises
`ValueError` when absent. -/
def substringsLoop (s : List α) (j : Int) (desc : Option String) : Int → List (List α) → Run (FIto α)
  | _, [] => .done
  | i, sub :: rest =>
    match FIto.pyIndex s sub (some i) (some j) with
    | .error e => .raise e
    | .ok i' =>
      .yield (FIto.ofStr s (some i') (some (i' + sub.length)) desc)
        (substringsLoop s j desc (i' + sub.length) rest)

/-- `Ito.from_substrings(src, *substrings, desc)`, `/repo/pawpaw/ito.py:271-314`. -/
def fromSubstrings (src : Src α) (subs : List (List α)) (desc : Option String) : Run (FIto α) :=
  substringsLoop src.basis src.stop desc src.start subs

/-- The loop of `join`, `/repo/pawpaw/ito.py:789-799`. -/
def joinLoop (string : List α) : Int → Int → List (FIto α) → Except PyErr (Int × Int)
  | start, stop, [] => .ok (start, stop)
  | start, stop, y :: ys =>
    if string ≠ y.string then .error .valueError
    else joinLoop string (min start y.start) (max stop y.stop) ys

/-- `Ito.join(*itos, desc)`, `/repo/pawpaw/ito.py:766-801`; the result has no children. -/
def join (itos : List (FIto α)) (desc : Option String) : Except PyErr (FIto α) :=
  match itos with
  | [] => .error .valueError
  | x :: xs => do
    let r ← joinLoop x.string x.start x.stop xs
    return FIto.ofStr x.string (some r.1) (some r.2) desc

end Pawpaw
