import Verif.Lemmas.Bisect
import Verif.Spec.Tree
/-!
# `bfind_start`, `ensure_between` and `add` on well-formed child lists
-/
set_option linter.unusedSectionVars false
namespace Pawpaw
open TreeSpec

theorem getD_append_left' {l r : List Int} {i : Nat} (h : i < l.length) :
    (l ++ r).getD i 0 = l[i] := by
  rw [List.getD_eq_getElem?_getD, List.getElem?_append_left h, List.getElem?_eq_getElem h]; rfl

theorem bisectLeft_append {l r : List Int} {x : Int} (hs : Sorted (l ++ r)) (h1 : ∀ a ∈ l, a < x)
    (h2 : ∀ b ∈ r, x ≤ b) : bisectLeft (l ++ r) x = l.length := by
  obtain ⟨a1, a2, a3⟩ := bisectLeft_spec hs x
  rcases Nat.lt_trichotomy (bisectLeft (l ++ r) x) l.length with h | h | h
  · have := a3 _ (Nat.le_refl _) (by simp; omega)
    rw [getD_append_left' h] at this
    have := h1 _ (List.getElem_mem h)
    omega
  · exact h
  · have hl : l.length < (l ++ r).length := by omega
    have := a2 l.length h
    rw [List.getD_eq_getElem?_getD, List.getElem?_append_right (Nat.le_refl _), Nat.sub_self] at this
    cases r with
    | nil => simp at hl
    | cons b r =>
      have hb := h2 b (by simp)
      simp at this
      omega

theorem bisectRight_append {l r : List Int} {x : Int} (hs : Sorted (l ++ r)) (h1 : ∀ a ∈ l, a ≤ x)
    (h2 : ∀ b ∈ r, x < b) : bisectRight (l ++ r) x = l.length := by
  obtain ⟨a1, a2, a3⟩ := bisectRight_spec hs x
  rcases Nat.lt_trichotomy (bisectRight (l ++ r) x) l.length with h | h | h
  · have := a3 _ (Nat.le_refl _) (by simp; omega)
    rw [getD_append_left' h] at this
    have := h1 _ (List.getElem_mem h)
    omega
  · exact h
  · have hl : l.length < (l ++ r).length := by omega
    have := a2 l.length h
    rw [List.getD_eq_getElem?_getD, List.getElem?_append_right (Nat.le_refl _), Nat.sub_self] at this
    cases r with
    | nil => simp at hl
    | cons b r =>
      have hb := h2 b (by simp)
      simp at this
      omega

theorem _root_.TreeSpec.KidsOK.sortedStart {p : Span} {ks : List Span} (h : KidsOK p ks) :
    Sorted (ks.map Span.start) := by
  unfold Sorted
  rw [List.pairwise_map]
  exact h.ordered.imp (fun h => by omega)

theorem _root_.TreeSpec.KidsOK.sortedStop {p : Span} {ks : List Span} (h : KidsOK p ks) :
    Sorted (ks.map Span.stop) := by
  unfold Sorted
  rw [List.pairwise_map]
  refine List.Pairwise.imp_of_mem ?_ h.ordered
  intro a b ha hb hab
  have := h.inside b hb
  omega

/-- A sorted store splits around a key: strictly smaller starts before, others after. -/
theorem exists_split_start {ks : List Span} (hs : Sorted (ks.map Span.start)) (x : Int) :
    ∃ l r, ks = l ++ r ∧ (∀ a ∈ l, a.start < x) ∧ (∀ b ∈ r, x ≤ b.start) ∧
      bisectLeft (ks.map Span.start) x = l.length := by
  obtain ⟨a1, a2, a3⟩ := bisectLeft_spec hs x
  rw [List.length_map] at a1
  refine ⟨ks.take (bisectLeft (ks.map Span.start) x), ks.drop (bisectLeft (ks.map Span.start) x),
    (List.take_append_drop _ _).symm, ?_, ?_, by rw [List.length_take]; omega⟩
  · intro a ha
    obtain ⟨i, hi, rfl⟩ := List.getElem_of_mem ha
    rw [List.length_take] at hi
    have := a2 i (by omega)
    rw [List.getD_eq_getElem?_getD, List.getElem?_map, List.getElem?_eq_getElem (by omega)] at this
    simpa using this
  · intro a ha
    obtain ⟨i, hi, rfl⟩ := List.getElem_of_mem ha
    rw [List.length_drop] at hi
    have := a3 (bisectLeft (ks.map Span.start) x + i) (by omega) (by rw [List.length_map]; omega)
    rw [List.getD_eq_getElem?_getD, List.getElem?_map, List.getElem?_eq_getElem (by omega)] at this
    simpa using this

namespace Kids

theorem bfindStart_absent {l r : List Span} {s : Span} (hs : Sorted ((l ++ r).map Span.start))
    (h1 : ∀ a ∈ l, a.start < s.start) (h2 : ∀ b ∈ r, s.start < b.start) :
    bfindStart (l ++ r) s = -(l.length : Int) - 1 := by
  have e : bisectLeft ((l ++ r).map Span.start) s.start = l.length := by
    rw [List.map_append] at hs ⊢
    rw [bisectLeft_append hs (by simpa using h1)
      (by simp only [List.mem_map, forall_exists_index, and_imp, forall_apply_eq_imp_iff₂];
          exact fun b hb => Int.le_of_lt (h2 b hb)), List.length_map]
  unfold bfindStart
  dsimp only
  rw [e, if_pos]
  cases r with
  | nil => left; simp
  | cons b r =>
    right
    simp only [List.map_append, List.map_cons]
    rw [List.getElem?_append_right (by simp), List.length_map, Nat.sub_self]
    simp only [List.getElem?_cons_zero, ne_eq, Option.some.injEq]
    have := h2 b (by simp)
    omega

theorem bfindStart_present {l r : List Span} {b s : Span}
    (hs : Sorted ((l ++ b :: r).map Span.start))
    (h1 : ∀ a ∈ l, a.start < s.start) (h2 : b.start = s.start) :
    bfindStart (l ++ b :: r) s = l.length := by
  have e : bisectLeft ((l ++ b :: r).map Span.start) s.start = l.length := by
    rw [List.map_append] at hs ⊢
    rw [bisectLeft_append hs (by simpa using h1) ?_, List.length_map]
    have h3 := (List.pairwise_append.mp hs).2.1
    rw [List.map_cons, List.pairwise_cons] at h3
    intro c hc
    rw [List.map_cons, List.mem_cons] at hc
    rcases hc with rfl | hc
    · omega
    · have := h3.1 c hc; omega
  unfold bfindStart
  dsimp only
  rw [e, if_neg]
  simp only [not_or, Decidable.not_not]
  refine ⟨by simp, ?_⟩
  simp only [List.map_append, List.map_cons]
  rw [List.getElem?_append_right (by simp), List.length_map, Nat.sub_self]
  simp [h2]

theorem isStartLtPriorStop_append {l r : List Span} {s : Span} :
    isStartLtPriorStop (l ++ r) l.length s = true ↔ ∃ a, l.getLast? = some a ∧ s.start < a.stop := by
  unfold isStartLtPriorStop
  rcases List.eq_nil_or_concat l with rfl | ⟨l', a, rfl⟩
  · simp
  · rw [if_neg (by simp)]
    rw [List.concat_eq_append, List.getElem?_append_left (by simp)]
    simp

theorem isStopGtNextStart_append {l r : List Span} {s : Span} :
    isStopGtNextStart (l ++ r) l.length s = true ↔ ∃ b, r.head? = some b ∧ b.start < s.stop := by
  unfold isStopGtNextStart
  cases r with
  | nil => simp
  | cons b r =>
    rw [if_neg (by simp), List.getElem?_append_right (by simp)]
    simp

theorem kidsOK_insert_iff {p : Span} {l r : List Span} {s : Span} (h : KidsOK p (l ++ r))
    (hs : s.start ≤ s.stop) (h1 : ∀ a ∈ l, a.start < s.start) (h2 : ∀ b ∈ r, s.start < b.start) :
    KidsOK p (l ++ s :: r) ↔
      ¬ (∃ a, l.getLast? = some a ∧ s.start < a.stop) ∧
      ¬ (∃ b, r.head? = some b ∧ b.start < s.stop) ∧ p.start ≤ s.start ∧ s.stop ≤ p.stop := by
  constructor
  · intro hk
    have hi := hk.inside s (by simp)
    obtain ⟨o1, o2, o3⟩ := List.pairwise_append.mp hk.ordered
    refine ⟨?_, ?_, hi.1, hi.2.2⟩
    · rintro ⟨a, ha, hlt⟩
      have := o3 a (List.mem_of_getLast? ha) s (by simp)
      omega
    · rintro ⟨b, hb, hlt⟩
      have := (List.pairwise_cons.mp o2).1 b (List.mem_of_head? hb)
      omega
  · rintro ⟨n1, n2, n3, n4⟩
    obtain ⟨o1, o2, o3⟩ := List.pairwise_append.mp h.ordered
    have hl : ∀ a ∈ l, a.stop ≤ s.start := by
      intro a ha
      rcases List.eq_nil_or_concat l with rfl | ⟨l', a', rfl⟩
      · simp at ha
      · rw [List.concat_eq_append] at *
        have ha' : a'.stop ≤ s.start := by
          rcases Int.lt_or_le s.start a'.stop with hh | hh
          · exact absurd ⟨a', by simp, hh⟩ n1
          · exact hh
        rw [List.mem_append, List.mem_singleton] at ha
        rcases ha with ha | rfl
        · have := (List.pairwise_append.mp o1).2.2 a ha a' (by simp)
          have := h1 a' (by simp)
          omega
        · exact ha'
    have hr : ∀ b ∈ r, s.stop ≤ b.start := by
      intro b hb
      cases r with
      | nil => simp at hb
      | cons b' r =>
        have hb' : s.stop ≤ b'.start := by
          rcases Int.lt_or_le b'.start s.stop with hh | hh
          · exact absurd ⟨b', by simp, hh⟩ n2
          · exact hh
        rw [List.mem_cons] at hb
        rcases hb with rfl | hb
        · exact hb'
        · have := (List.pairwise_cons.mp o2).1 b hb; omega
    refine ⟨?_, ?_⟩
    · intro c hc
      rw [List.mem_append, List.mem_cons] at hc
      rcases hc with hc | rfl | hc
      · exact h.inside c (by simp [hc])
      · exact ⟨n3, hs, n4⟩
      · exact h.inside c (by simp [hc])
    · rw [List.pairwise_append, List.pairwise_cons]
      refine ⟨o1, ⟨fun b hb => ⟨h2 b hb, hr b hb⟩, o2⟩, ?_⟩
      intro a ha b hb
      rw [List.mem_cons] at hb
      rcases hb with rfl | hb
      · exact ⟨h1 a ha, hl a ha⟩
      · exact o3 a ha b hb

theorem add_absent {p : Span} {l r : List Node} {x : Node}
    (h : KidsOK p ((l ++ r).map Node.span)) (hx : x.start ≤ x.stop)
    (h1 : ∀ a ∈ l, a.start < x.start) (h2 : ∀ b ∈ r, x.start < b.start) :
    (KidsOK p ((l ++ x :: r).map Node.span) ∧ add p (l ++ r) x = .ok (l ++ x :: r)) ∨
    (¬ KidsOK p ((l ++ x :: r).map Node.span) ∧ add p (l ++ r) x = .error .valueError) := by
  have h' := h
  rw [List.map_append] at h'
  have h1' : ∀ a ∈ l.map Node.span, a.start < x.span.start := by simpa [Node.start] using h1
  have h2' : ∀ b ∈ r.map Node.span, x.span.start < b.start := by simpa [Node.start] using h2
  have hi := kidsOK_insert_iff h' hx h1' h2'
  rw [List.map_append, List.map_cons, hi]
  have hb := bfindStart_absent h'.sortedStart h1' h2'
  unfold add
  dsimp only
  rw [List.map_append, hb, List.length_map]
  rw [if_neg (by omega), show (-(-(l.length : Int) - 1) - 1).toNat = l.length by omega]
  have e1 := @isStartLtPriorStop_append (l.map Node.span) (r.map Node.span) x.span
  have e2 := @isStopGtNextStart_append (l.map Node.span) (r.map Node.span) x.span
  rw [List.length_map] at e1 e2
  rw [← e1, ← e2]
  unfold notBetween outside
  have e3 : (l ++ r).insertIdx l.length x = l ++ x :: r := by
    clear e1 e2 hb hi h1' h2' h h' h1 h2
    induction l with
    | nil => simp
    | cons a l ih => simpa using ih
  rw [e3]
  cases isStartLtPriorStop (l.map Node.span ++ r.map Node.span) l.length x.span <;>
  cases isStopGtNextStart (l.map Node.span ++ r.map Node.span) l.length x.span <;>
  simp <;> omega

/-- `add` on a well-formed child list: succeeds exactly when the new node fits somewhere, and then
inserts it there; otherwise raises `ValueError`. -/
theorem add_spec {p : Span} {st : List Node} {x : Node} (h : KidsOK p (st.map Node.span))
    (hx : x.start ≤ x.stop) :
    (∃ l r, st = l ++ r ∧ KidsOK p ((l ++ x :: r).map Node.span) ∧ add p st x = .ok (l ++ x :: r)) ∨
    ((∀ l r, st = l ++ r → ¬ KidsOK p ((l ++ x :: r).map Node.span)) ∧
      add p st x = .error .valueError) := by
  obtain ⟨ls, rs, e, h1, h2, h3⟩ := exists_split_start h.sortedStart x.start
  obtain ⟨l, r, rfl, rfl, rfl⟩ := List.map_eq_append_iff.mp e
  have h1' : ∀ a ∈ l, a.start < x.start := by simpa [Node.start] using h1
  have h2' : ∀ b ∈ r, x.start ≤ b.start := by simpa [Node.start] using h2
  by_cases hp : ∃ b ∈ r, b.start = x.start
  · right
    obtain ⟨b, hb, hbx⟩ := hp
    constructor
    · intro l' r' hlr hk
      obtain ⟨o1, o2, o3⟩ := List.pairwise_append.mp (by simpa using hk.ordered)
      have hb' : b ∈ l' ++ r' := by rw [← hlr]; simp [hb]
      rw [List.mem_append] at hb'
      rcases hb' with hb' | hb'
      · have := o3 b.span (List.mem_map.mpr ⟨b, hb', rfl⟩) x.span (by simp)
        simp only [Node.start] at hbx; omega
      · have := (List.pairwise_cons.mp o2).1 b.span (List.mem_map.mpr ⟨b, hb', rfl⟩)
        simp only [Node.start] at hbx; omega
    · cases r with
      | nil => simp at hb
      | cons b' r =>
        have hs := h.sortedStart
        have hb'x : b'.start = x.start := by
          have g1 := h2' b' (by simp)
          rw [List.mem_cons] at hb
          rcases hb with rfl | hb
          · exact hbx
          · have := (List.pairwise_append.mp (by simpa [Sorted] using hs)).2.1
            have := (List.pairwise_cons.mp this).1 _ (List.mem_map.mpr ⟨b, hb, rfl⟩)
            simp only [Node.start, Function.comp] at *
            omega
        unfold add
        dsimp only
        rw [List.map_append, List.map_cons]
        rw [List.map_append, List.map_cons] at hs
        rw [bfindStart_present hs (by simpa [Node.start] using h1) hb'x, if_pos (by omega)]
  · have h2'' : ∀ b ∈ r, x.start < b.start := fun b hb => by
      have := h2' b hb
      rcases Int.lt_or_le x.start b.start with g | g
      · exact g
      · exact absurd ⟨b, hb, by omega⟩ hp
    rcases add_absent h hx h1' h2'' with ⟨a1, a2⟩ | ⟨a1, a2⟩
    · exact Or.inl ⟨l, r, rfl, a1, a2⟩
    · refine Or.inr ⟨?_, a2⟩
      intro l' r' hlr hk
      -- the split is unique
      have : l' = l ∧ r' = r := by
        have k1 := (List.pairwise_append.mp (by simpa using hk.ordered))
        have l1 : ∀ a ∈ l', a.start < x.start := fun a ha =>
          (k1.2.2 a.span (List.mem_map.mpr ⟨a, ha, rfl⟩) x.span (by simp)).1
        have l2 : ∀ b ∈ r', x.start < b.start := fun b hb =>
          ((List.pairwise_cons.mp k1.2.1).1 b.span (List.mem_map.mpr ⟨b, hb, rfl⟩)).1
        rcases List.append_eq_append_iff.mp hlr with ⟨c, rfl, rfl⟩ | ⟨c, rfl, rfl⟩
        · cases c with
          | nil => simp
          | cons c cs =>
            have := l1 c (by simp)
            have := h2'' c (by simp)
            omega
        · cases c with
          | nil => simp
          | cons c cs =>
            have := h1' c (by simp)
            have := l2 c (by simp)
            omega
      obtain ⟨rfl, rfl⟩ := this
      exact a1 hk

theorem kidsOK_nil (p : Span) : KidsOK p [] := ⟨by simp, by simp⟩

/-- Adding the nodes of a well-formed list one after the other rebuilds the list. -/
theorem addAll_ordered {p : Span} (st xs : List Node) (h : KidsOK p ((st ++ xs).map Node.span)) :
    addAll p st xs = .ok (st ++ xs) := by
  induction xs generalizing st with
  | nil => simp [addAll]
  | cons x xs ih =>
    unfold addAll
    have hpre : KidsOK p ((st ++ [x]).map Node.span) := by
      rw [show st ++ x :: xs = (st ++ [x]) ++ xs by simp, List.map_append] at h
      exact ⟨fun c hc => h.inside c (by simp only [List.mem_append]; exact Or.inl hc),
        (List.pairwise_append.mp h.ordered).1⟩
    have hst : KidsOK p ((st ++ []).map Node.span) := by
      rw [List.map_append] at hpre
      simpa using (⟨fun c hc => hpre.inside c (by simp only [List.mem_append]; exact Or.inl hc),
        (List.pairwise_append.mp hpre.ordered).1⟩ : KidsOK p (st.map Node.span))
    have hlt : ∀ a ∈ st, a.start < x.start := by
      intro a ha
      have := hpre.ordered
      rw [List.map_append] at this
      exact ((List.pairwise_append.mp this).2.2 a.span (List.mem_map.mpr ⟨a, ha, rfl⟩) x.span
        (by simp)).1
    have hx := (hpre.inside x.span (by simp)).2.1
    rcases add_absent hst hx hlt (by simp) with ⟨_, a2⟩ | ⟨a1, _⟩
    · rw [List.append_nil] at a2
      rw [a2]
      dsimp only
      rw [ih (st ++ [x]) (by simpa using h)]
      simp
    · exact absurd (by simpa using hpre) a1

end Kids
end Pawpaw
