import Verif.Lemmas.Find
/-! Lemmas for `str_count`, `str_startswith`, `str_endswith`. -/
set_option linter.unusedSectionVars false
namespace Pawpaw
open PyStr
variable {α : Type} [DecidableEq α]
namespace FIto

theorem window_list {x : FIto α} (h : x.Valid) {w : Span} {st en : Option Int}
    (hw : x.window st en = .ok w) :
    (x.string.take w.stop.toNat).drop w.start.toNat =
      (x.text.take (adjEnd x.text.length en).toNat).drop (adjStart x.text.length st).toNat := by
  obtain ⟨a, b, ha, hb, hab, hl⟩ := h.exists_nat
  have htl := text_length ha hb hl
  rw [window_eq h] at hw
  simp only [Except.ok.injEq] at hw
  subst hw
  have hs := adjStart_nonneg x.text.length st
  have he := adjEnd_nonneg x.text.length en
  have hel := adjEnd_le x.text.length en
  dsimp only
  generalize hL : x.text.length = L at *
  generalize hS : adjStart L st = S at *
  generalize hE : adjEnd L en = E at *
  rw [text_eq ha hb, ha]
  rw [List.take_drop, List.take_take, List.drop_drop]
  apply take_drop_congr
  omega

theorem window_nat {x : FIto α} (h : x.Valid) (st en : Option Int) :
    ∃ i j : Nat, x.window st en = .ok ⟨i, j⟩ ∧ x.start ≤ i ∧ i ≤ j ∧ (j : Int) ≤ x.stop ∧
      j ≤ x.string.length ∧ (x.string.take j).drop i = PyStr.slice x.text st en := by
  have hw := window_eq h st en
  have hwl := window_list h hw
  obtain ⟨a, b, ha, hb, hab, hl⟩ := h.exists_nat
  have htl := text_length ha hb hl
  have hs := adjStart_nonneg x.text.length st
  have he := adjEnd_nonneg x.text.length en
  have hel := adjEnd_le x.text.length en
  rw [← slice_eq_adj] at hwl
  dsimp only at hwl
  refine ⟨_, _, ?_, ?_, ?_, ?_, ?_, hwl⟩
  · rw [hw]; congr 2 <;> omega
  all_goals omega

theorem okAt_nat (s p : List α) (a b : Int) (i : Nat) (ha : 0 ≤ a) (hb : 0 ≤ b)
    (hbl : b ≤ s.length) :
    okAt s p (some a) (some b) i =
      (decide (a ≤ (i : Int)) && decide ((i : Int) + p.length ≤ b) && occursAt s p i) := by
  unfold okAt
  obtain ⟨a, rfl⟩ := Int.eq_ofNat_of_zero_le ha
  obtain ⟨b, rfl⟩ := Int.eq_ofNat_of_zero_le hb
  rw [adjStart_some_nat, adjEnd_some_nat _ _ (by omega)]

/-- When the early-exit block does not fire, the window is not crossed. -/
theorem guard_false {x : FIto α} (h : x.Valid) {st en : Option Int}
    (hg : x.affixGuard st en = false) :
    adjStart x.text.length st ≤ adjEnd x.text.length en := by
  unfold affixGuard at hg
  rw [len_eq_text h] at hg
  unfold adjStart adjEnd
  cases st <;> cases en <;> simp only [] at * <;> (repeat' split at hg) <;>
    (try simp only [decide_eq_false_iff_not, Bool.true_eq_false] at hg) <;>
    (repeat' split) <;> omega

/-- When it fires, Python's answer is `False`, except for an empty affix with `end < -len`. -/
theorem guard_true {x : FIto α} (h : x.Valid) {st en : Option Int}
    (hg : x.affixGuard st en = true) (hen : ∀ e, en = some e → -(x.text.length : Int) ≤ e) :
    adjEnd x.text.length en < adjStart x.text.length st := by
  unfold affixGuard at hg
  rw [len_eq_text h] at hg
  unfold adjStart adjEnd
  cases st with
  | none => simp at hg
  | some st =>
    cases en with
    | none =>
      simp only [] at *
      repeat' split at hg
      all_goals (try simp only [Bool.false_eq_true, decide_eq_true_eq] at hg)
      all_goals (repeat' split) <;> omega
    | some e =>
      have := hen e rfl
      simp only [] at *
      repeat' split at hg
      all_goals (try simp only [Bool.false_eq_true, decide_eq_true_eq] at hg)
      all_goals (repeat' split) <;> omega

theorem guard_true' {x : FIto α} (h : x.Valid) {st en : Option Int}
    (hg : x.affixGuard st en = true) :
    adjEnd x.text.length en ≤ adjStart x.text.length st := by
  unfold affixGuard at hg
  rw [len_eq_text h] at hg
  unfold adjStart adjEnd
  cases st with
  | none => simp at hg
  | some st =>
    cases en with
    | none =>
      simp only [] at *
      repeat' split at hg
      all_goals (try simp only [Bool.false_eq_true, decide_eq_true_eq] at hg)
      all_goals (repeat' split) <;> omega
    | some e =>
      simp only [] at *
      repeat' split at hg
      all_goals (try simp only [Bool.false_eq_true, decide_eq_true_eq] at hg)
      all_goals (repeat' split) <;> omega

theorem startswith_lt {s p : List α} {st en : Option Int}
    (hlt : adjEnd s.length en < adjStart s.length st + p.length) :
    PyStr.startswith s p st en = false := by
  unfold PyStr.startswith okAt
  have := adjStart_nonneg s.length st
  have h1 : ¬ (((adjStart s.length st).toNat : Int) + p.length ≤ adjEnd s.length en) := by omega
  simp only [h1, decide_false, Bool.and_false, Bool.false_and]

theorem endswith_lt {s p : List α} {st en : Option Int}
    (hlt : adjEnd s.length en < adjStart s.length st + p.length) :
    PyStr.endswith s p st en = false := by
  unfold PyStr.endswith okAt
  have := adjStart_nonneg s.length st
  by_cases h0 : 0 ≤ adjEnd s.length en - p.length
  · have h1 : ¬ (adjStart s.length st ≤ ((adjEnd s.length en - p.length).toNat : Int)) := by omega
    simp only [h1, decide_false, Bool.and_false, Bool.false_and]
  · simp only [h0, decide_false, Bool.false_and]

theorem startswith_window {x : FIto α} (h : x.Valid) {w : Span} {st en : Option Int}
    (hw : x.window st en = .ok w) (p : List α)
    (hle : adjStart x.text.length st ≤ adjEnd x.text.length en) :
    PyStr.startswith x.string p (some w.start) (some w.stop) = PyStr.startswith x.text p st en := by
  obtain ⟨a, b, ha, hb, hab, hl⟩ := h.exists_nat
  have h1 := (okAt_window h ha hb hw p (Or.inr hle)).1 (adjStart x.text.length st).toNat
  have hs := adjStart_nonneg x.text.length st
  have hel := adjEnd_le x.text.length en
  unfold PyStr.startswith
  rw [← h1]
  congr 1
  rw [window_eq h] at hw
  simp only [Except.ok.injEq] at hw
  subst hw
  dsimp only
  rw [ha, show (a : Int) + min (x.text.length : Int) (adjStart x.text.length st) =
    ((a + (adjStart x.text.length st).toNat : Nat) : Int) by omega, adjStart_some_nat]
  omega

theorem endswith_window {x : FIto α} (h : x.Valid) {w : Span} {st en : Option Int}
    (hw : x.window st en = .ok w) (p : List α)
    (hle : adjStart x.text.length st ≤ adjEnd x.text.length en) :
    PyStr.endswith x.string p (some w.start) (some w.stop) = PyStr.endswith x.text p st en := by
  obtain ⟨a, b, ha, hb, hab, hl⟩ := h.exists_nat
  have htl := text_length ha hb hl
  obtain ⟨h1, h2⟩ := okAt_window h ha hb hw p (Or.inr hle)
  have hs := adjStart_nonneg x.text.length st
  have hel := adjEnd_le x.text.length en
  unfold PyStr.endswith
  have hwe : adjEnd x.string.length (some w.stop) = a + adjEnd x.text.length en := by
    rw [window_eq h] at hw
    simp only [Except.ok.injEq] at hw
    subst hw
    dsimp only
    rw [ha, show (a : Int) + max (min (x.text.length : Int) (adjStart x.text.length st))
      (adjEnd x.text.length en) = ((a + (adjEnd x.text.length en).toNat : Nat) : Int) by omega,
      adjEnd_some_nat _ _ (by omega)]
    omega
  rw [hwe]
  by_cases h0 : 0 ≤ adjEnd x.text.length en - p.length
  · have h0' : (0 : Int) ≤ a + adjEnd x.text.length en - p.length := by omega
    rw [decide_eq_true h0, decide_eq_true h0', Bool.true_and, Bool.true_and, ← h1]
    congr 1
    omega
  · rw [decide_eq_false h0, Bool.false_and]
    by_cases h0' : (0 : Int) ≤ a + adjEnd x.text.length en - p.length
    · rw [decide_eq_true h0', Bool.true_and]
      refine Bool.eq_false_iff.mpr fun hc => ?_
      have := h2 _ hc
      omega
    · rw [decide_eq_false h0', Bool.false_and]

end FIto
end Pawpaw
