import Verif.Lemmas.Slice
/-! Shifting occurrence searches from a window to the whole string. -/
set_option linter.unusedSectionVars false
namespace PyStr
variable {α : Type}

theorem find?_range_iff (p : Nat → Bool) (n : Nat) (r : Option Nat) :
    (List.range n).find? p = r ↔
      match r with
      | some i => p i = true ∧ i < n ∧ ∀ j < i, p j = false
      | none => ∀ j < n, p j = false := by
  cases r with
  | some i => simp [List.find?_range_eq_some, List.mem_range]
  | none => simp [List.find?_eq_none, List.mem_range]

theorem find?_reverse_range_iff (p : Nat → Bool) (n : Nat) (r : Option Nat) :
    (List.range n).reverse.find? p = r ↔
      match r with
      | some i => p i = true ∧ i < n ∧ ∀ j, i < j → j < n → p j = false
      | none => ∀ j < n, p j = false := by
  induction n generalizing r with
  | zero => cases r <;> simp
  | succ n ih =>
    rw [List.range_succ, List.reverse_append]
    simp only [List.reverse_cons, List.reverse_nil, List.nil_append, List.singleton_append,
      List.find?_cons]
    cases hp : p n with
    | true =>
      cases r with
      | none => simp only [reduceCtorEq, false_iff]; intro h; have := h n (by omega); simp_all
      | some i =>
        simp only [Option.some.injEq]
        constructor
        · rintro rfl; exact ⟨hp, by omega, fun j h1 h2 => by omega⟩
        · rintro ⟨h1, h2, h3⟩
          rcases Nat.lt_or_ge i n with h | h
          · have := h3 n h (by omega); simp_all
          · omega
    | false =>
      simp only
      rw [ih]
      cases r with
      | none =>
        constructor
        · intro h j hj
          rcases Nat.lt_or_ge j n with h' | h'
          · exact h j h'
          · have : j = n := by omega
            subst this; exact hp
        · intro h j hj; exact h j (by omega)
      | some i =>
        constructor
        · rintro ⟨h1, h2, h3⟩
          refine ⟨h1, by omega, fun j a b => ?_⟩
          rcases Nat.lt_or_ge j n with h' | h'
          · exact h3 j a h'
          · have : j = n := by omega
            subst this; exact hp
        · rintro ⟨h1, h2, h3⟩
          refine ⟨h1, ?_, fun j a b => h3 j a (by omega)⟩
          rcases Nat.lt_or_ge i n with h' | h'
          · exact h'
          · have : i = n := by omega
            subst this; simp_all

/-- Shifted predicates have shifted first elements. -/
theorem find?_range_shift (p q : Nat → Bool) (n m a : Nat)
    (hshift : ∀ i, p (a + i) = q i) (hlow : ∀ j, p j = true → a ≤ j)
    (hp : ∀ j, p j = true → j < n) (hq : ∀ i, q i = true → i < m) :
    (List.range n).find? p = ((List.range m).find? q).map (a + ·) := by
  rw [find?_range_iff]
  cases hr : (List.range m).find? q with
  | none =>
    rw [find?_range_iff] at hr
    simp only [Option.map_none]
    intro j hj
    refine Bool.eq_false_iff.mpr fun hc => ?_
    have := hlow j hc
    have h2 := hshift (j - a)
    rw [show a + (j - a) = j by omega, hc] at h2
    have := hr (j - a) (hq _ h2.symm)
    simp_all
  | some i =>
    rw [find?_range_iff] at hr
    simp only [Option.map_some]
    obtain ⟨h1, h2, h3⟩ := hr
    have hpi : p (a + i) = true := by rw [hshift]; exact h1
    refine ⟨hpi, hp _ hpi, fun j hj => ?_⟩
    refine Bool.eq_false_iff.mpr fun hc => ?_
    have := hlow j hc
    have h4 := hshift (j - a)
    rw [show a + (j - a) = j by omega, hc] at h4
    have := h3 (j - a) (by omega)
    simp_all

/-- Shifted predicates have shifted last elements. -/
theorem find?_reverse_range_shift (p q : Nat → Bool) (n m a : Nat)
    (hshift : ∀ i, p (a + i) = q i) (hlow : ∀ j, p j = true → a ≤ j)
    (hp : ∀ j, p j = true → j < n) (hq : ∀ i, q i = true → i < m) :
    (List.range n).reverse.find? p = ((List.range m).reverse.find? q).map (a + ·) := by
  rw [find?_reverse_range_iff]
  cases hr : (List.range m).reverse.find? q with
  | none =>
    rw [find?_reverse_range_iff] at hr
    simp only [Option.map_none]
    intro j hj
    refine Bool.eq_false_iff.mpr fun hc => ?_
    have := hlow j hc
    have h2 := hshift (j - a)
    rw [show a + (j - a) = j by omega, hc] at h2
    have := hr (j - a) (hq _ h2.symm)
    simp_all
  | some i =>
    rw [find?_reverse_range_iff] at hr
    simp only [Option.map_some]
    obtain ⟨h1, h2, h3⟩ := hr
    have hpi : p (a + i) = true := by rw [hshift]; exact h1
    refine ⟨hpi, hp _ hpi, fun j hj hjn => ?_⟩
    refine Bool.eq_false_iff.mpr fun hc => ?_
    have := hlow j hc
    have h4 := hshift (j - a)
    rw [show a + (j - a) = j by omega, hc] at h4
    have := h3 (j - a) (by omega) (hq _ h4.symm)
    simp_all

variable [DecidableEq α]

theorem occursAt_window (s sub : List α) {a b i : Nat} (hi : a + i + sub.length ≤ b) :
    occursAt ((s.take b).drop a) sub i = occursAt s sub (a + i) := by
  unfold occursAt
  rw [List.drop_drop, List.drop_take, List.take_take]
  rw [Nat.min_eq_left (by omega)]

theorem okAt_lt (s sub : List α) (st en : Option Int) (i : Nat) (h : okAt s sub st en i = true) :
    i < s.length + 1 := by
  unfold okAt at h
  simp only [Bool.and_eq_true, decide_eq_true_eq] at h
  have := Pawpaw.adjEnd_le s.length en
  omega

end PyStr

namespace Pawpaw
open PyStr
variable {α : Type} [DecidableEq α]
namespace FIto

/-- The search window of the receiver, relative to the receiver's own text. -/
theorem okAt_window {x : FIto α} (h : x.Valid) {a b : Nat} (ha : x.start = a) (hb : x.stop = b)
    {w : Span} {st en : Option Int} (hw : x.window st en = .ok w) (sub : List α)
    (hsub : sub ≠ [] ∨ adjStart x.text.length st ≤ adjEnd x.text.length en) :
    (∀ i, okAt x.string sub (some w.start) (some w.stop) (a + i) = okAt x.text sub st en i) ∧
    (∀ j, okAt x.string sub (some w.start) (some w.stop) j = true → a ≤ j) := by
  rw [window_eq h] at hw
  simp only [Except.ok.injEq] at hw
  subst hw
  obtain ⟨a', b', ha', hb', hab, hl⟩ := h.exists_nat
  have haa : a' = a := by rw [ha] at ha'; omega
  have hbb : b' = b := by rw [hb] at hb'; omega
  subst haa; subst hbb
  have htl := text_length ha hb hl
  have hs := adjStart_nonneg x.text.length st
  have he := adjEnd_nonneg x.text.length en
  have hel := adjEnd_le x.text.length en
  have hsl : sub ≠ [] → 0 < sub.length := by
    intro h; exact List.length_pos_iff.mpr h
  rw [ha]
  have hW : ∀ j : Nat, okAt x.string sub
      (some ((a' : Int) + min (x.text.length : Int) (adjStart x.text.length st)))
      (some ((a' : Int) + max (min (x.text.length : Int) (adjStart x.text.length st))
        (adjEnd x.text.length en))) j =
      (decide ((a' : Int) + min (x.text.length : Int) (adjStart x.text.length st) ≤ j) &&
       decide ((j : Int) + sub.length ≤ (a' : Int) +
         max (min (x.text.length : Int) (adjStart x.text.length st))
        (adjEnd x.text.length en)) && occursAt x.string sub j) := by
    intro j
    unfold okAt
    have e1 : adjStart x.string.length
        (some ((a' : Int) + min (x.text.length : Int) (adjStart x.text.length st))) =
        (a' : Int) + min (x.text.length : Int) (adjStart x.text.length st) := by
      unfold adjStart; simp only []; rw [if_neg]; unfold adjStart at hs; omega
    have e2 : adjEnd x.string.length
        (some ((a' : Int) + max (min (x.text.length : Int) (adjStart x.text.length st))
        (adjEnd x.text.length en))) = (a' : Int) + max (min (x.text.length : Int) (adjStart x.text.length st))
        (adjEnd x.text.length en) := by
      generalize adjStart x.text.length st = S at *
      generalize adjEnd x.text.length en = E at *
      unfold adjEnd; simp only []; rw [if_neg (by omega), if_neg (by omega)]
    rw [e1, e2]
  constructor
  · intro i
    rw [hW]
    unfold okAt
    by_cases hi : a' + i + sub.length ≤ b'
    · rw [text_eq ha hb, occursAt_window _ _ hi, ← text_eq ha hb]
      congr 1
      rw [Bool.eq_iff_iff]
      simp only [Bool.and_eq_true, decide_eq_true_eq]
      generalize adjStart x.text.length st = S at *
      generalize adjEnd x.text.length en = E at *
      rcases hsub with hsub | hsub
      · have := hsl hsub; omega
      · omega
    · have h1 : ¬ ((a' + i : Nat) : Int) + sub.length ≤ (a' : Int) +
         max (min (x.text.length : Int) (adjStart x.text.length st))
        (adjEnd x.text.length en) := by omega
      have h2 : ¬ ((i : Int) + sub.length ≤ adjEnd x.text.length en) := by omega
      simp only [h1, h2, decide_false, Bool.and_false, Bool.false_and]
  · intro j hj
    rw [hW] at hj
    simp only [Bool.and_eq_true, decide_eq_true_eq] at hj
    omega

/-- Where the needle is not empty, or the window is not crossed, searching in the receiver's window
is searching in its text. -/
theorem find_window {x : FIto α} (h : x.Valid) {w : Span} {st en : Option Int}
    (hw : x.window st en = .ok w) (sub : List α)
    (hsub : sub ≠ [] ∨ adjStart x.text.length st ≤ adjEnd x.text.length en) :
    PyStr.find x.string sub (some w.start) (some w.stop) =
      (if PyStr.find x.text sub st en = -1 then -1 else PyStr.find x.text sub st en + x.start) ∧
    PyStr.rfind x.string sub (some w.start) (some w.stop) =
      (if PyStr.rfind x.text sub st en = -1 then -1 else PyStr.rfind x.text sub st en + x.start) := by
  obtain ⟨a, b, ha, hb, hab, hl⟩ := h.exists_nat
  obtain ⟨h1, h2⟩ := okAt_window h ha hb hw sub hsub
  constructor
  · unfold PyStr.find
    rw [find?_range_shift _ _ _ (x.text.length + 1) a h1 h2 (fun j => okAt_lt _ _ _ _ j)
      (fun j => okAt_lt _ _ _ _ j)]
    cases (List.range (x.text.length + 1)).find? (okAt x.text sub st en) with
    | none => simp
    | some i => simp only [Option.map_some]; rw [if_neg (by omega), ha]; omega
  · unfold PyStr.rfind
    rw [find?_reverse_range_shift _ _ _ (x.text.length + 1) a h1 h2 (fun j => okAt_lt _ _ _ _ j)
      (fun j => okAt_lt _ _ _ _ j)]
    cases (List.range (x.text.length + 1)).reverse.find? (okAt x.text sub st en) with
    | none => simp
    | some i => simp only [Option.map_some]; rw [if_neg (by omega), ha]; omega

end FIto
end Pawpaw
