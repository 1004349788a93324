import Verif.Model.Flat
/-! Helper lemmas on slices and windows. -/
set_option linter.unusedSectionVars false
namespace PyStr
variable {α : Type}

theorem filter_zipIdx (lo hi : Int) (s : List α) (k : Nat) :
    ((s.zipIdx k).filter (fun p => decide (lo ≤ (p.2 : Int)) && decide ((p.2 : Int) < hi))).map
      Prod.fst = (s.take (hi - k).toNat).drop (lo - k).toNat := by
  induction s generalizing k with
  | nil => simp
  | cons c t ih =>
    rw [List.zipIdx_cons, List.filter_cons]
    have ih' := ih (k + 1)
    by_cases h2 : (k : Int) < hi
    · have e2 : (hi - k).toNat = (hi - (k + 1 : Nat)).toNat + 1 := by omega
      by_cases h1 : lo ≤ (k : Int)
      · have e1 : (lo - k).toNat = 0 := by omega
        have e1' : (lo - (k + 1 : Nat)).toNat = 0 := by omega
        simp only [h1, h2, decide_true, Bool.and_self, if_true, List.map_cons, ih', e2, e1, e1',
          List.take_succ_cons, List.drop_zero]
      · have e1 : (lo - k).toNat = (lo - (k + 1 : Nat)).toNat + 1 := by omega
        simp only [h1, decide_false, Bool.false_and, Bool.false_eq_true, if_false, ih', e2, e1,
          List.take_succ_cons, List.drop_succ_cons]
    · have e2 : (hi - k).toNat = 0 := by omega
      have e2' : (hi - (k + 1 : Nat)).toNat = 0 := by omega
      simp only [h2, decide_false, Bool.and_false, Bool.false_eq_true, if_false, ih', e2, e2',
          List.take_zero, List.drop_nil]

theorem slice_some_some (s : List α) (a b : Int) :
    slice s (some a) (some b) =
      (s.take (normIndex s.length b).toNat).drop (normIndex s.length a).toNat := by
  unfold slice
  simpa using filter_zipIdx (normIndex s.length a) (normIndex s.length b) s 0

theorem slice_none_left (s : List α) (b : Option Int) :
    slice s none b = slice s (some 0) b := by
  unfold slice
  simp [normIndex]

theorem slice_none_right (s : List α) (a : Option Int) :
    slice s a none = slice s a (some (s.length : Int)) := by
  unfold slice
  congr 1
  apply List.filter_congr
  intro p hp
  have := (List.mem_zipIdx hp).2.1
  have h : ((p.2 : Int) < normIndex s.length (s.length : Int)) := by
    unfold normIndex; split <;> omega
  simp [h]

theorem slice_nat (s : List α) (a b : Nat) :
    slice s (some (a : Int)) (some (b : Int)) = (s.take b).drop a := by
  rw [slice_some_some]
  unfold normIndex
  have ha : ¬ ((a : Int) < 0) := by omega
  have hb : ¬ ((b : Int) < 0) := by omega
  simp [ha, hb]

theorem take_drop_congr (s : List α) {a a' b b' : Nat}
    (h : (a = a' ∧ b = b') ∨ (a = a' ∧ s.length ≤ b ∧ s.length ≤ b') ∨
      ((b ≤ a ∨ s.length ≤ a) ∧ (b' ≤ a' ∨ s.length ≤ a'))) :
    (s.take b).drop a = (s.take b').drop a' := by
  rcases h with ⟨rfl, rfl⟩ | ⟨rfl, h1, h2⟩ | ⟨h1, h2⟩
  · rfl
  · rw [List.take_of_length_le h1, List.take_of_length_le h2]
  · rw [List.drop_eq_nil_of_le, List.drop_eq_nil_of_le] <;> simp <;> omega

end PyStr

namespace Pawpaw
open PyStr
variable {α : Type}

/-- Normal form of `fromIndices` through the C-level adjusted indices. -/
theorem fromIndices_eq (n : Nat) (a b : Option Int) :
    Span.fromIndices n a b =
      ⟨min n (adjStart n a), max (min n (adjStart n a)) (adjEnd n b)⟩ := by
  unfold Span.fromIndices adjStart adjEnd Span.clampIndex
  cases a <;> cases b <;> simp only [Span.mk.injEq] <;> (repeat' split) <;>
    (constructor <;> omega)

theorem adjStart_nonneg (n : Nat) (a : Option Int) : 0 ≤ adjStart n a := by
  unfold adjStart; cases a <;> simp only [] <;> (repeat' split) <;> omega

theorem adjEnd_nonneg (n : Nat) (a : Option Int) : 0 ≤ adjEnd n a := by
  unfold adjEnd; cases a <;> simp only [] <;> (repeat' split) <;> omega

theorem adjEnd_le (n : Nat) (a : Option Int) : adjEnd n a ≤ n := by
  unfold adjEnd; cases a <;> simp only [] <;> (repeat' split) <;> omega

theorem adjStart_some_nat (n m : Nat) : adjStart n (some (m : Int)) = m := by
  unfold adjStart; simp only []; split <;> omega

theorem adjEnd_some_nat (n m : Nat) (h : m ≤ n) : adjEnd n (some (m : Int)) = m := by
  unfold adjEnd; simp only []; split <;> (try split) <;> omega

theorem slice_eq_adj (s : List α) (a b : Option Int) :
    slice s a b = (s.take (adjEnd s.length b).toNat).drop (adjStart s.length a).toNat := by
  have h1 : slice s a b = slice s (some (a.getD 0)) (some (b.getD s.length)) := by
    cases a <;> cases b <;> simp [slice_none_left, slice_none_right]
  rw [h1, slice_some_some]
  apply take_drop_congr
  unfold normIndex adjStart adjEnd
  cases a <;> cases b <;> simp only [Option.getD_some, Option.getD_none] <;> (repeat' split) <;>
    omega

namespace FIto

/-- Python-level representation invariant, `0 ≤ start ≤ stop ≤ len(string)`. -/
def Valid (x : FIto α) : Prop :=
  0 ≤ x.span.start ∧ x.span.start ≤ x.span.stop ∧ x.span.stop ≤ x.string.length

theorem Valid.exists_nat {x : FIto α} (h : x.Valid) :
    ∃ a b : Nat, x.start = a ∧ x.stop = b ∧ a ≤ b ∧ b ≤ x.string.length := by
  obtain ⟨h0, h1, h2⟩ := h
  refine ⟨x.span.start.toNat, x.span.stop.toNat, ?_, ?_, ?_, ?_⟩ <;>
    (try simp only [start, stop]) <;> omega

theorem text_eq {x : FIto α} {a b : Nat} (ha : x.start = a) (hb : x.stop = b) :
    x.text = (x.string.take b).drop a := by
  unfold text; rw [ha, hb, slice_nat]

theorem text_length {x : FIto α} {a b : Nat} (ha : x.start = a) (hb : x.stop = b)
    (hl : b ≤ x.string.length) : x.text.length = b - a := by
  rw [text_eq ha hb, List.length_drop, List.length_take, Nat.min_eq_left hl]

theorem len_eq_text {x : FIto α} (h : x.Valid) : x.len = (x.text.length : Int) := by
  obtain ⟨a, b, ha, hb, hab, hl⟩ := h.exists_nat
  rw [text_length ha hb hl]; unfold len; rw [ha, hb]; omega

/-- The window is the adjusted sub-window, in absolute coordinates, and never raises. -/
theorem window_eq {x : FIto α} (h : x.Valid) (st en : Option Int) :
    x.window st en = .ok ⟨x.start + min (x.text.length : Int) (adjStart x.text.length st),
      x.start + max (min (x.text.length : Int) (adjStart x.text.length st))
        (adjEnd x.text.length en)⟩ := by
  unfold window
  rw [len_eq_text h, fromIndices_eq]
  have hs := adjStart_nonneg x.text.length st
  have he := adjEnd_nonneg x.text.length en
  have h0 : 0 ≤ x.start := h.1
  unfold Span.offset
  dsimp only
  by_cases hz : x.start = 0
  · rw [if_pos hz]
    congr 2 <;> omega
  · rw [if_neg hz, if_neg (by omega)]
    congr 2 <;> omega

theorem ofStr_valid (s : List α) (a b : Option Int) (d : Option String) :
    (ofStr s a b d).Valid := by
  unfold ofStr Valid
  rw [fromIndices_eq]
  have hs := adjStart_nonneg s.length a
  have he := adjEnd_nonneg s.length b
  have hl := adjEnd_le s.length b
  simp only
  omega

theorem clone_span_nat (x : FIto α) {a b : Nat} (hab : a ≤ b) (hb : b ≤ x.string.length) :
    x.clone (some (a : Int)) (some (b : Int)) = ⟨x.string, ⟨a, b⟩, x.desc⟩ := by
  unfold clone ofStr
  rw [fromIndices_eq]
  simp only [Option.getD_some, adjStart_some_nat, adjEnd_some_nat _ _ hb, Option.getD_none,
    FIto.mk.injEq, Span.mk.injEq, true_and, and_true]
  omega

end FIto
end Pawpaw
