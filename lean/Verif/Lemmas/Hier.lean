import Verif.Model.Hier
import Verif.Lemmas.Tree
/-!
# Lemmas about `add_hierarchical`
-/
set_option linter.unusedSectionVars false
namespace Pawpaw
open TreeSpec
namespace Kids

/-- Split a list at the first element failing a test that, once failed, stays failed. -/
theorem exists_split {α : Type} (P : α → Prop) [DecidablePred P] (l : List α)
    (h : l.Pairwise (fun a b => P b → P a)) :
    ∃ m r, l = m ++ r ∧ (∀ a ∈ m, P a) ∧ (∀ b ∈ r, ¬ P b) := by
  induction l with
  | nil => exact ⟨[], [], rfl, by simp, by simp⟩
  | cons a l ih =>
    rw [List.pairwise_cons] at h
    by_cases ha : P a
    · obtain ⟨m, r, e, h1, h2⟩ := ih h.2
      refine ⟨a :: m, r, by rw [e]; rfl, ?_, h2⟩
      intro b hb
      rcases List.mem_cons.mp hb with rfl | hb
      · exact ha
      · exact h1 b hb
    · refine ⟨[], a :: l, rfl, by simp, ?_⟩
      intro b hb hPb
      rcases List.mem_cons.mp hb with rfl | hb
      · exact ha hPb
      · exact ha (h.1 b hb hPb)

theorem bfindStop_append {l r : List Span} {s : Span} (hs : Sorted ((l ++ r).map Span.stop))
    (h1 : ∀ a ∈ l, a.stop ≤ s.stop) (h2 : ∀ b ∈ r, s.stop < b.stop) :
    bfindStop (l ++ r) s = -(l.length : Int) - 1 := by
  have e : bisectRight ((l ++ r).map Span.stop) s.stop = l.length := by
    rw [List.map_append] at hs ⊢
    rw [bisectRight_append hs (by simpa using h1) (by simpa using h2), List.length_map]
  unfold bfindStop
  dsimp only
  rw [e]
  split
  · rfl
  · rename_i hc
    rw [not_or] at hc
    obtain ⟨hc1, hc2⟩ := hc
    cases r with
    | nil => simp at hc1
    | cons b r =>
      have := h2 b (by simp)
      simp only [ne_eq, Decidable.not_not] at hc2
      rw [List.map_append, List.map_cons, List.getElem?_append_right (by simp)] at hc2
      simp at hc2
      omega

/-- What `place` means, when the children are in order. -/
def PlaceSpec (st : List Span) (s : Span) : Place → Prop
  | .into k => ∃ l c r, st = l ++ c :: r ∧ k = l.length ∧ c.start ≤ s.start ∧ s.stop ≤ c.stop ∧
      (∀ a ∈ l, a.start < s.start)
  | .insert i => ∃ l r, st = l ++ r ∧ i = l.length ∧ (∀ a ∈ l, a.start < s.start ∧ a.stop ≤ s.start) ∧
      (∀ b ∈ r, s.start < b.start ∧ s.stop ≤ b.start)
  | .same k => ∃ l r, st = l ++ s :: r ∧ k = l.length
  | .absorb i j => ∃ l m r, st = l ++ m ++ r ∧ i = l.length ∧ j = (l ++ m).length ∧ m ≠ [] ∧ m ≠ [s] ∧
      (∀ a ∈ l, a.start < s.start ∧ a.stop ≤ s.start) ∧
      (∀ c ∈ m, s.start ≤ c.start ∧ c.stop ≤ s.stop) ∧
      (∀ b ∈ r, s.start < b.start ∧ s.stop ≤ b.start)
  | .overlap => ∃ c ∈ st, ¬ Laminar c s

theorem placeEnd_spec {p : Span} {l r : List Span} {s : Span} (hk : KidsOK p (l ++ r))
    (hs : s.start ≤ s.stop) (h1 : ∀ a ∈ l, a.start < s.start ∧ a.stop ≤ s.start)
    (h2 : ∀ b ∈ r, s.start ≤ b.start) (h3 : ∀ b, r.head? = some b → b.start = s.start → b.stop ≤ s.stop) :
    PlaceSpec (l ++ r) s (placeEnd (l ++ r) s l.length) := by
  have hord := hk.ordered
  have hin := hk.inside
  obtain ⟨m, r2, rfl, hm, hr2⟩ := exists_split (fun c : Span => c.stop ≤ s.stop) r (by
    rw [List.pairwise_append] at hord
    refine hord.2.1.imp_of_mem ?_
    intro a b ha hb hab hbs
    have := hin b (by simp [hb])
    omega)
  have hbf : bfindStop (l ++ (m ++ r2)) s = -((l ++ m).length : Int) - 1 := by
    rw [← List.append_assoc] at hk ⊢
    refine bfindStop_append hk.sortedStop ?_ (by intro b hb; have := hr2 b hb; omega)
    intro a ha
    rcases List.mem_append.mp ha with ha | ha
    · have := h1 a ha; omega
    · exact hm a ha
  have hr2' : ∀ b ∈ r2, s.start < b.start := by
    intro b hb
    have hb1 := h2 b (by simp [hb])
    have hb2 := hr2 b hb
    rcases Int.lt_or_eq_of_le hb1 with h | h
    · exact h
    · cases m with
      | nil =>
        cases r2 with
        | nil => simp at hb
        | cons c r2 =>
          rcases List.mem_cons.mp hb with rfl | hb
          · have := h3 b rfl h.symm; omega
          · rw [List.nil_append, List.pairwise_append, List.pairwise_cons] at hord
            have := (hord.2.1.1 b hb).1
            have := h2 c (by simp)
            omega
      | cons c m =>
        rw [List.pairwise_append, List.cons_append, List.pairwise_cons] at hord
        have := (hord.2.1.1 b (by simp [hb])).1
        have := h2 c (by simp)
        omega
  unfold placeEnd
  rw [hbf]
  have hj : (-(-((l ++ m).length : Int) - 1) - 1).toNat = (l ++ m).length := by omega
  have hneg : ¬ (-((l ++ m).length : Int) - 1 ≥ 0) := by omega
  simp only [hneg, if_false, hj]
  have hbad1 : (if (l ++ m).length > 0 then (l ++ (m ++ r2))[(l ++ m).length - 1]? else none).any
        (fun tmp => decide (tmp.start < s.start ∧ s.start < tmp.stop)) = false := by
    rw [← List.append_assoc]
    cases htmp : (if (l ++ m).length > 0 then (l ++ m ++ r2)[(l ++ m).length - 1]? else none) with
    | some tmp =>
      split at htmp
      · rename_i hpos
        rw [List.getElem?_append_left (by omega)] at htmp
        have hmem := List.mem_of_getElem? htmp
        rw [Option.any_some, decide_eq_false_iff_not]
        rcases List.mem_append.mp hmem with ha | ha
        · have := h1 tmp ha; omega
        · have := h2 tmp (by simp [ha]); omega
      · cases htmp
    | none => rfl
  rw [hbad1, Bool.false_or]
  have hget : (l ++ (m ++ r2))[(l ++ m).length]? = r2.head? := by
    rw [← List.append_assoc, List.getElem?_append_right (by omega), Nat.sub_self]
    cases r2 <;> rfl
  rw [hget]
  cases hr : r2.head? with
  | some b =>
    have hbm : b ∈ r2 := List.mem_of_head? hr
    rw [Option.any_some]
    split
    · rename_i hbad
      rw [decide_eq_true_eq] at hbad
      refine ⟨b, by simp [hbm], ?_⟩
      have := hr2 b hbm
      unfold Laminar
      omega
    · rename_i hbad
      rw [decide_eq_true_eq] at hbad
      have hrest : ∀ b ∈ r2, s.start < b.start ∧ s.stop ≤ b.start := by
        intro c hc
        refine ⟨hr2' c hc, ?_⟩
        have hb' := hr2' b hbm
        cases r2 with
        | nil => simp at hr
        | cons d r2 =>
          simp only [List.head?_cons, Option.some.injEq] at hr
          subst hr
          rcases List.mem_cons.mp hc with rfl | hc
          · omega
          · rw [← List.append_assoc, List.pairwise_append, List.pairwise_cons] at hord
            have := (hord.2.1.1 c hc).1
            omega
      split
      · rename_i he
        have : m = [] := by
          rw [List.length_append] at he
          exact List.eq_nil_of_length_eq_zero (by omega)
        subst this
        exact ⟨l, r2, rfl, rfl, h1, hrest⟩
      · rename_i he
        split
        · rename_i hc
          obtain ⟨c1, c2⟩ := hc
          have hm1 : m.length = 1 := by rw [List.length_append] at c1; omega
          obtain ⟨c, rfl⟩ := List.length_eq_one_iff.mp hm1
          rw [List.getElem?_append_right (Nat.le_refl _), Nat.sub_self] at c2
          simp only [List.cons_append, List.nil_append, List.getElem?_cons_zero, Option.some.injEq] at c2
          subst c2
          exact ⟨l, r2, rfl, rfl⟩
        · rename_i hc
          refine ⟨l, m, r2, by simp, rfl, rfl, ?_, ?_, h1, ?_, hrest⟩
          · rintro rfl; simp at he
          · rintro rfl
            apply hc
            refine ⟨by rw [List.length_append, List.length_singleton]; omega, ?_⟩
            rw [List.getElem?_append_right (Nat.le_refl _), Nat.sub_self]
            rfl
          · intro c hc
            exact ⟨h2 c (by simp [hc]), hm c hc⟩
  | none =>
    have hr0 : r2 = [] := by simpa using hr
    subst hr0
    simp only [Option.any_none, Bool.false_eq_true, if_false, List.append_nil]
    split
    · rename_i he
      have : m = [] := by
        rw [List.length_append] at he
        exact List.eq_nil_of_length_eq_zero (by omega)
      subst this
      exact ⟨l, [], by simp, rfl, h1, by simp⟩
    · rename_i he
      split
      · rename_i hc
        obtain ⟨c1, c2⟩ := hc
        have hm1 : m.length = 1 := by rw [List.length_append] at c1; omega
        obtain ⟨c, rfl⟩ := List.length_eq_one_iff.mp hm1
        rw [List.getElem?_append_right (Nat.le_refl _), Nat.sub_self] at c2
        simp only [List.getElem?_cons_zero, Option.some.injEq] at c2
        subst c2
        exact ⟨l, [], rfl, rfl⟩
      · rename_i hc
        refine ⟨l, m, [], by simp, rfl, rfl, ?_, ?_, h1, ?_, by simp⟩
        · rintro rfl; simp at he
        · rintro rfl
          apply hc
          refine ⟨by rw [List.length_append, List.length_singleton]; omega, ?_⟩
          rw [List.getElem?_append_right (Nat.le_refl _), Nat.sub_self]
          rfl
        · intro c hc
          exact ⟨h2 c (by simp [hc]), hm c hc⟩

theorem place_spec {p : Span} {st : List Span} {s : Span} (hk : KidsOK p st) (hs : s.start ≤ s.stop) :
    PlaceSpec st s (place st s) := by
  obtain ⟨l, r, rfl, h1, h2, _⟩ := exists_split_start hk.sortedStart s.start
  have hord := hk.ordered
  by_cases hpres : ∃ b, r.head? = some b ∧ b.start = s.start
  · obtain ⟨b, hb, hbs⟩ := hpres
    cases r with
    | nil => simp at hb
    | cons c r =>
      simp only [List.head?_cons, Option.some.injEq] at hb
      subst hb
      have e := bfindStart_present (s := s) hk.sortedStart h1 hbs
      unfold place
      rw [e]
      have hge : (l.length : Int) ≥ 0 := by omega
      simp only [hge, if_true, Int.toNat_natCast]
      rw [List.getElem?_append_right (Nat.le_refl _), Nat.sub_self]
      simp only [List.getElem?_cons_zero]
      split
      · exact ⟨l, c, r, rfl, rfl, by omega, by omega, h1⟩
      · apply placeEnd_spec hk hs _ h2
        · intro b hb _
          simp only [List.head?_cons, Option.some.injEq] at hb
          subst hb
          omega
        · intro a ha
          rw [List.pairwise_append] at hord
          have := hord.2.2 a ha c (by simp)
          omega
  · have hgt : ∀ b ∈ r, s.start < b.start := by
      intro b hb
      cases r with
      | nil => simp at hb
      | cons c r =>
        have hc : c.start ≠ s.start := fun e => hpres ⟨c, rfl, e⟩
        have hc2 := h2 c (by simp)
        rcases List.mem_cons.mp hb with rfl | hb
        · omega
        · rw [List.pairwise_append, List.pairwise_cons] at hord
          have := (hord.2.1.1 b hb).1
          omega
    have e := bfindStart_absent hk.sortedStart h1 hgt
    unfold place
    rw [e]
    have hj : (-(-(l.length : Int) - 1) - 1).toNat = l.length := by omega
    have hneg : ¬ (-(l.length : Int) - 1 ≥ 0) := by omega
    simp only [hneg, if_false, hj]
    have hhead : ∀ b, r.head? = some b → b.start = s.start → b.stop ≤ s.stop :=
      fun b hb hbs => absurd ⟨b, hb, hbs⟩ hpres
    rcases List.eq_nil_or_concat l with rfl | ⟨l', a, rfl⟩
    · simp only [List.length_nil, Nat.lt_irrefl, if_false]
      exact placeEnd_spec hk hs (by simp) h2 hhead
    · rw [List.concat_eq_append] at *
      have hpos : (l' ++ [a]).length > 0 := by simp
      have hget : ((l' ++ [a]) ++ r)[(l' ++ [a]).length - 1]? = some a := by
        rw [List.getElem?_append_left (by omega)]; simp
      simp only [hpos, if_true, hget]
      split
      · refine ⟨l', a, r, by simp, by simp, ?_, by omega, fun b hb => h1 b (by simp [hb])⟩
        have := h1 a (by simp); omega
      · split
        · refine ⟨a, by simp, ?_⟩
          have := h1 a (by simp)
          unfold Laminar
          omega
        · apply placeEnd_spec hk hs _ h2 hhead
          intro b hb
          refine ⟨h1 b hb, ?_⟩
          rcases List.mem_append.mp hb with hb | hb
          · rw [List.append_assoc, List.pairwise_append] at hord
            have := hord.2.2 b hb a (by simp)
            have := h1 a (by simp)
            omega
          · simp only [List.mem_singleton] at hb; subst hb; omega

end Kids
end Pawpaw
