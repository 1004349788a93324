import Verif.Model.ValueFunc
import Verif.Spec.ValueFunc
/-!
# C110: value functions
-/
set_option linter.unusedSectionVars false
namespace Pawpaw.Props
open Value ValueSpec

variable {F V : Type}

theorem vfrun_append (fits : F → Bool) (es : List (Ev F)) (e : Ev F) (s : Store F) :
    Value.run fits (es ++ [e]) s = ((Value.run fits es s).step fits e).1 := by
  induction es generalizing s with
  | nil => rfl
  | cons a es ih => exact ih _

/-- The store after a history, latest event first. -/
def after (fits : F → Bool) (es : List (Ev F)) : Store F := Value.run fits es.reverse start

theorem after_cons (fits : F → Bool) (e : Ev F) (es : List (Ev F)) :
    after fits (e :: es) = ((after fits es).step fits e).1 := by
  rw [after, List.reverse_cons, vfrun_append]; rfl

/-- What the store holds when the functions are `c`, for `n` objects. -/
def Holds (s : Store F) (n : Nat) (c : Nat → Option F) : Prop :=
  s.next = n ∧ ∀ i < n, (s.slot i).func = c i ∧ (s.slot i).attr = (c i).map (fun g => (g, i))

theorem accepted_iff (fits : F → Bool) (f : Option F) :
    (f.any (fun g => !fits g) = true) ↔ ¬ Accepted fits f := by
  cases f <;> simp [Accepted]

theorem set_holds (fits : F → Bool) {s : Store F} {n : Nat} {c : Nat → Option F} (hs : Holds s n c) {i : Nat}
    (hi : i < n) (f : Option F) :
    (¬ Accepted fits f ∧ s.set fits i f = (s, .error .typeError)) ∨
    (Accepted fits f ∧ (s.set fits i f).2 = .ok () ∧ Holds (s.set fits i f).1 n (fun j => if j = i then f else c j)) := by
  by_cases ha : Accepted fits f
  · right
    refine ⟨ha, ?_⟩
    unfold Store.set
    rw [if_neg (fun h => (accepted_iff fits f).mp h ha)]
    obtain ⟨h1, h2⟩ := hs
    cases f with
    | some g =>
      refine ⟨rfl, h1, fun j hj => ?_⟩
      by_cases e : j = i
      · subst e; simp [Store.put]
      · simp [Store.put, e, h2 j hj]
    | none =>
      dsimp only
      obtain ⟨hf, hattr⟩ := h2 i hi
      cases hc : c i with
      | none =>
        rw [hf, hc]
        simp only [Option.isSome_none, Bool.false_eq_true, if_false]
        refine ⟨trivial, h1, fun j hj => ?_⟩
        by_cases e : j = i
        · subst e; simp [Store.put, hattr, hc]
        · simp [Store.put, e, h2 j hj]
      | some g =>
        rw [hf, hc]
        simp only [Option.isSome_some, if_true, Store.delattr, hattr, hc, Option.map_some]
        refine ⟨trivial, h1, fun j hj => ?_⟩
        by_cases e : j = i
        · subst e; simp [Store.put]
        · simp [Store.put, e, h2 j hj]
  · left
    refine ⟨ha, ?_⟩
    unfold Store.set
    rw [if_pos ((accepted_iff fits f).mpr ha)]

theorem push_holds {s : Store F} {n : Nat} {c : Nat → Option F} (hs : Holds s n c) :
    Holds (s.push ⟨none, none⟩) (n + 1) (fun j => if j = n then none else c j) := by
  obtain ⟨h1, h2⟩ := hs
  refine ⟨by rw [Store.push]; dsimp only; rw [h1], fun j hj => ?_⟩
  by_cases e : j = n
  · subst e; simp [Store.push, h1]
  · have := h2 j (by omega)
    simp [Store.push, h1, e, this]

/-- All functions in use were accepted. -/
theorem current_fits (fits : F → Bool) : ∀ (es : List (Ev F)) (i : Nat) (g : F), current fits es i = some g → fits g = true
  | [], i, g, h => by simp [current] at h
  | .new :: es, i, g, h => by
    rw [current] at h
    split at h
    · cases h
    · exact current_fits fits es i g h
  | .load _ :: es, i, g, h => by
    rw [current] at h
    split at h
    · cases h
    · exact current_fits fits es i g h
  | .clone j :: es, i, g, h => by
    rw [current] at h
    split at h
    · exact current_fits fits es j g h
    · exact current_fits fits es i g h
  | .set j f :: es, i, g, h => by
    rw [current] at h
    split at h
    · rename_i hc
      rw [h] at hc
      exact hc.2
    · exact current_fits fits es i g h

theorem clone_holds (fits : F → Bool) {s : Store F} {n : Nat} {c : Nat → Option F} (hs : Holds s n c) {i : Nat}
    (hi : i < n) (hfit : ∀ g, c i = some g → fits g = true) :
    (s.clone fits i).2 = .ok () ∧ Holds (s.clone fits i).1 (n + 1) (fun j => if j = n then c i else c j) := by
  unfold Store.clone
  have hp := push_holds hs
  have hi' := hs.2 i hi
  rw [hi'.1]
  cases hc : c i with
  | none => exact ⟨rfl, hp⟩
  | some g =>
    dsimp only
    rw [hs.1]
    rcases set_holds fits hp (i := n) (by omega) (some g) with ⟨h, _⟩ | ⟨_, h1, h2⟩
    · exact absurd (hfit g hc) h
    · refine ⟨h1, h2.1, fun j hj => ?_⟩
      have := h2.2 j hj
      dsimp only at this ⊢
      by_cases e : j = n
      · rw [if_pos e] at this ⊢; exact this
      · rw [if_neg e, if_neg e] at this; rw [if_neg e]; exact this

theorem after_holds (fits : F → Bool) : ∀ (es : List (Ev F)), Named es → Holds (after fits es) (count es) (current fits es)
  | [], _ => ⟨rfl, fun i hi => absurd hi (Nat.not_lt_zero i)⟩
  | .new :: es, h => by
    rw [after_cons]
    exact push_holds (after_holds fits es h)
  | .load i :: es, h => by
    rw [after_cons]
    exact push_holds (after_holds fits es h.2)
  | .clone i :: es, h => by
    rw [after_cons]
    exact (clone_holds fits (after_holds fits es h.2) h.1 (fun g => current_fits fits es i g)).2
  | .set i f :: es, h => by
    rw [after_cons]
    have ih := after_holds fits es h.2
    rcases set_holds fits ih h.1 f with ⟨hn, e⟩ | ⟨ha, _, h2⟩
    · rw [Store.step, e]
      refine ⟨ih.1, fun j hj => ?_⟩
      rw [current, if_neg (fun hc => hn hc.2)]
      exact ih.2 j hj
    · refine ⟨h2.1, fun j hj => ?_⟩
      have h3 := h2.2 j hj
      rw [Store.step, current]
      dsimp only at h3
      by_cases e : j = i
      · rw [if_pos e] at h3
        rw [if_pos ⟨e, ha⟩]; exact h3
      · rw [if_neg e] at h3
        rw [if_neg (fun hc => e hc.1)]; exact h3

/-- **C110.**  For every history of creations, assignments (accepted or not), clones and loaded copies, and
every object there is: `value_func` is the function of the last accepted assignment (or the one a clone
started with), and `value()` is that function applied to *this very object*; with none it is `str(self)`. -/
theorem C110_value (fits : F → Bool) (call : F → Nat → V) (text : Nat → V) (es : List (Ev F)) (hn : Named es)
    (i : Nat) (hi : i < count es) :
    (after fits es).valueFunc i = current fits es i ∧
    (after fits es).value call text i = (current fits es i).elim (text i) (fun g => call g i) := by
  obtain ⟨h1, h2⟩ := (after_holds fits es hn).2 i hi
  refine ⟨h1, ?_⟩
  rw [Store.value, h2]
  cases current fits es i <;> rfl

/-- C110: which operations raise, after every history: an assignment raises (a TypeError) exactly when the
function does not fit, and then changes nothing; clearing the function never raises, set or not; cloning and
loading never raise. -/
theorem C110_raises (fits : F → Bool) (es : List (Ev F)) (hn : Named es) (i : Nat) (hi : i < count es) :
    (∀ f : F, fits f = false → (after fits es).set fits i (some f) = (after fits es, .error .typeError)) ∧
    (∀ f : F, fits f = true → ((after fits es).set fits i (some f)).2 = .ok ()) ∧
    ((after fits es).set fits i none).2 = .ok () ∧
    ((after fits es).clone fits i).2 = .ok () := by
  have ih := after_holds fits es hn
  refine ⟨fun f hf => ?_, fun f hf => ?_, ?_, ?_⟩
  · rcases set_holds fits ih hi (some f) with h | h
    · exact h.2
    · rw [show Accepted fits (some f) = (fits f = true) from rfl, hf] at h
      exact absurd h.1 (by simp)
  · rcases set_holds fits ih hi (some f) with h | h
    · exact absurd hf h.1
    · exact h.2.1
  · rcases set_holds fits ih hi none with h | h
    · exact absurd trivial h.1
    · exact h.2.1
  · exact (clone_holds fits ih hi (fun g => current_fits fits es i g)).1

/-- C110: the itorator `ValueFunc` is refused exactly the functions the setter is refused, so one that was
made never raises; it yields the Ito it was given, whose value is from then on the function's. -/
theorem C110_itorator (fits : F → Bool) (call : F → Nat → V) (text : Nat → V) (es : List (Ev F)) (hn : Named es)
    (i : Nat) (hi : i < count es) (f : Option F) :
    (¬ Accepted fits f → itorator fits f = .error .typeError) ∧
    (Accepted fits f → itorator fits f = .ok f ∧ ∃ s', transform fits f (after fits es) i = (s', .ok [i]) ∧
      s' = after fits (.set i f :: es) ∧ s'.valueFunc i = f) := by
  refine ⟨fun h => by rw [itorator, if_pos ((accepted_iff fits f).mpr h)], fun h => ⟨?_, ?_⟩⟩
  · rw [itorator, if_neg (fun hc => (accepted_iff fits f).mp hc h)]
  · rcases set_holds fits (after_holds fits es hn) hi f with h' | ⟨_, h1, h2⟩
    · exact absurd h h'.1
    · refine ⟨((after fits es).set fits i f).1, ?_, ?_, ?_⟩
      · rw [transform]
        generalize (after fits es).set fits i f = r at h1
        obtain ⟨a, b⟩ := r
        dsimp only at h1
        rw [h1]
      · rw [after_cons]; rfl
      · have := (h2.2 i hi).1
        dsimp only at this
        rw [if_pos rfl] at this
        exact this

/-- Non-vacuity: a function is set, the Ito cloned, a wrong one refused, and the original's cleared twice:
the clone still has its own value. -/
example : let es : List (Ev Nat) := [.set 0 none, .set 0 none, .set 0 (some 9), .clone 0, .set 0 (some 4), .new]
    Named es ∧ count es = 2 ∧ current (fun f => decide (f < 5)) es 0 = none ∧
      current (fun f => decide (f < 5)) es 1 = some 4 ∧
      (after (fun f => decide (f < 5)) es).value (fun f i => (f, i)) (fun i => (100, i)) 1 = (4, 1) ∧
      (after (fun f => decide (f < 5)) es).value (fun f i => (f, i)) (fun i => (100, i)) 0 = (100, 0) := by
  refine ⟨by simp [Named, count], by decide, by decide, by decide, by decide, by decide⟩

end Pawpaw.Props
