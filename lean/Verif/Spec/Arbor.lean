import Verif.Spec.Spans
/-!
# Specification of splitting, windowed joining and stacked reducing
-/
namespace ArborSpec
open Pawpaw SpanSpec

/-- The spans between boundaries, before the first and after the last included. -/
def between : Int → Int → List Span → List Span
  | a, b, [] => [⟨a, b⟩]
  | a, b, s :: ss => ⟨a, s.start⟩ :: between s.stop b ss

/-- Each boundary with the text after it, up to the next boundary. -/
def leading (b : Int) : List Span → List Span
  | [] => []
  | [s] => [⟨s.start, b⟩]
  | s :: s' :: ss => ⟨s.start, s'.start⟩ :: leading b (s' :: ss)

/-- Each boundary with the text before it, from the previous boundary on. -/
def trailing : Int → List Span → List Span
  | _, [] => []
  | a, s :: ss => ⟨a, s.stop⟩ :: trailing s.stop ss

/-- Empty results are dropped. -/
def nonEmpty (l : List Span) : List Span := l.filter (fun s => decide (s.start ≠ s.stop))

/-- The boundaries a limit allows. -/
def allowed {τ : Type} (limit : Option Int) (l : List τ) : List τ :=
  match limit with
  | none => l
  | some n => l.take n.toNat

/-- Windowed joining of a finite stream: where the next `n` satisfy the predicate they are one group;
otherwise the next one is a group by itself. -/
inductive Windows {τ : Type} (n : Nat) (pred : List τ → Bool) : List τ → List (List τ × Bool) → Prop
  | short {xs} : xs.length < n → Windows n pred xs (xs.map (fun x => ([x], false)))
  | joined {w xs gs} : w.length = n → pred w = true → Windows n pred xs gs →
      Windows n pred (w ++ xs) ((w, true) :: gs)
  | single {x xs gs} : n ≤ (x :: xs).length → pred ((x :: xs).take n) = false → Windows n pred xs gs →
      Windows n pred (x :: xs) (([x], false) :: gs)

/-- Stacked reducing of a finite stream: an element which is not pushed is passed on; one which is pushed
starts a group, and the group takes the following elements until the first one, if any, which pops it. -/
inductive Stacks {τ : Type} (push pop : List τ → τ → Bool) : List τ → List (List τ × Bool) → Prop
  | done : Stacks push pop [] []
  | pass {x xs gs} : push [] x = false → Stacks push pop xs gs →
      Stacks push pop (x :: xs) (([x], false) :: gs)
  | group {x ys zs gs} : push [] x = true →
      (∀ i, (h : i < ys.length) → pop (x :: ys.take i) ys[i] = false) →
      (∀ z, zs.head? = some z → pop (x :: ys) z = true) →
      Stacks push pop zs gs → Stacks push pop (x :: (ys ++ zs)) ((x :: ys, true) :: gs)

/-- What is produced for the groups: those marked `true` are reduced, the others are single and passed
on.  When a reduction raises, what was produced before stays, and the exception ends the stream. -/
def results {τ ε : Type} (f : List τ → Except ε τ) : List (List τ × Bool) → List τ × Option ε
  | [] => ([], none)
  | (g, true) :: gs =>
    match f g with
    | .ok y => (y :: (results f gs).1, (results f gs).2)
    | .error e => ([], some e)
  | (g, false) :: gs => (g ++ (results f gs).1, (results f gs).2)

end ArborSpec
