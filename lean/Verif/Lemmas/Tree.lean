import Verif.Lemmas.Kids
import Verif.Lemmas.Slice
/-!
# Cloning, walking and navigating trees
-/
set_option linter.unusedSectionVars false
namespace Pawpaw
open TreeSpec

theorem fromIndices_span {len : Nat} {a b : Int} (h0 : 0 ≤ a) (h1 : a ≤ b) (h2 : b ≤ len) :
    Span.fromIndices len (some a) (some b) = ⟨a, b⟩ := by
  unfold Span.fromIndices Span.clampIndex
  dsimp only
  rw [if_pos h0, if_pos (by omega)]
  congr 1 <;> omega

namespace Node

theorem _root_.TreeSpec.WF.start_nonneg {n : Node} (h : WF n) : 0 ≤ n.start := by
  cases h; assumption
theorem _root_.TreeSpec.WF.start_le {n : Node} (h : WF n) : n.start ≤ n.stop := by
  cases h; assumption
theorem _root_.TreeSpec.WF.kidsOK {n : Node} (h : WF n) : KidsOK n.span (n.kids.map Node.span) := by
  cases h; assumption
theorem _root_.TreeSpec.WF.kid {n k : Node} (h : WF n) (hk : k ∈ n.kids) : WF k := by
  cases h; rename_i h; exact h k hk
theorem _root_.TreeSpec.WF.kid_inside {n k : Node} (h : WF n) (hk : k ∈ n.kids) :
    n.start ≤ k.start ∧ k.stop ≤ n.stop := by
  have := h.kidsOK.inside k.span (List.mem_map.mpr ⟨k, hk, rfl⟩)
  exact ⟨this.1, this.2.2⟩

mutual
theorem clone_eq (len : Nat) : ∀ (n : Node), WF n → n.stop ≤ len → clone len n = .ok n
  | .mk s d v ks, h, hl => by
    have h0 := h.start_nonneg
    have h1 := h.start_le
    have hk := h.kidsOK
    simp only [start, stop, span, kids] at h0 h1 hk hl
    have e := cloneAll_eq len ks (fun k hm => h.kid hm) (fun k hm => by
      have := h.kid_inside hm
      simp only [start, stop, span] at this ⊢
      omega)
    unfold clone
    rw [e]
    dsimp only
    rw [fromIndices_span h0 h1 hl, Kids.addAll_ordered [] ks (by simpa using hk)]
    rfl
theorem cloneAll_eq (len : Nat) : ∀ (ks : List Node), (∀ k ∈ ks, WF k) → (∀ k ∈ ks, k.stop ≤ len) →
    cloneAll len ks = .ok ks
  | [], _, _ => rfl
  | k :: ks, h, hl => by
    unfold cloneAll
    rw [clone_eq len k (h k (by simp)) (hl k (by simp)),
      cloneAll_eq len ks (fun k hk => h k (by simp [hk])) (fun k hk => hl k (by simp [hk]))]
end

end Node

namespace Kids

/-- Adding an ordered list to a parent in which one of its elements does not fit raises. -/
theorem addAll_outside {p : Span} (st xs : List Node)
    (hord : ((st ++ xs).map Node.span).Pairwise (fun a b => a.start < b.start ∧ a.stop ≤ b.start))
    (hsp : ∀ x ∈ st ++ xs, x.start ≤ x.stop)
    (hst : ∀ x ∈ st, p.start ≤ x.start ∧ x.stop ≤ p.stop)
    (hout : ∃ x ∈ xs, ¬ (p.start ≤ x.start ∧ x.stop ≤ p.stop)) :
    addAll p st xs = .error .valueError := by
  induction xs generalizing st with
  | nil => simp at hout
  | cons x xs ih =>
    unfold addAll
    have hstOK : KidsOK p ((st ++ []).map Node.span) := by
      refine ⟨?_, ?_⟩
      · intro c hc
        simp only [List.append_nil, List.mem_map] at hc
        obtain ⟨y, hy, rfl⟩ := hc
        exact ⟨(hst y hy).1, hsp y (by simp [hy]), (hst y hy).2⟩
      · rw [List.map_append] at hord
        simpa using (List.pairwise_append.mp hord).1
    have hlt : ∀ a ∈ st, a.start < x.start := by
      intro a ha
      rw [List.map_append] at hord
      exact ((List.pairwise_append.mp hord).2.2 a.span (List.mem_map.mpr ⟨a, ha, rfl⟩) x.span
        (by simp)).1
    have hx := hsp x (by simp)
    rcases add_absent hstOK hx hlt (by simp) with ⟨a1, a2⟩ | ⟨a1, a2⟩
    · rw [List.append_nil] at a2
      rw [a2]
      dsimp only
      have hxin := a1.inside x.span (by simp)
      refine ih (st ++ [x]) (by simpa using hord) (by simpa using hsp) ?_ ?_
      · intro y hy
        rw [List.mem_append, List.mem_singleton] at hy
        rcases hy with hy | rfl
        · exact hst y hy
        · exact ⟨hxin.1, hxin.2.2⟩
      · obtain ⟨y, hy, hny⟩ := hout
        rw [List.mem_cons] at hy
        rcases hy with rfl | hy
        · exact absurd ⟨hxin.1, hxin.2.2⟩ hny
        · exact ⟨y, hy, hny⟩
    · rw [List.append_nil] at a2
      rw [a2]

end Kids

/-! ## Document order -/

theorem docLt_append (p q r : List Nat) : DocLt (p ++ q) (p ++ r) ↔ DocLt q r := by
  induction p with
  | nil => simp
  | cons a p ih => simp [DocLt, ih]

theorem docLt_irrefl (p : List Nat) : ¬ DocLt p p := by
  induction p with
  | nil => exact id
  | cons a p ih => simp [DocLt, ih]

theorem docLt_trans {p q r : List Nat} (h1 : DocLt p q) (h2 : DocLt q r) : DocLt p r := by
  induction p generalizing q r with
  | nil =>
    cases r with
    | nil => cases q <;> exact h2
    | cons c r => trivial
  | cons a p ih =>
    cases q with
    | nil => exact absurd h1 id
    | cons b q =>
      cases r with
      | nil => exact absurd h2 id
      | cons c r =>
        simp only [DocLt] at *
        rcases h1 with h1 | ⟨rfl, h1⟩ <;> rcases h2 with h2 | ⟨rfl, h2⟩
        · left; omega
        · left; exact h1
        · left; exact h2
        · right; exact ⟨rfl, ih h1 h2⟩

theorem docLt_total (p q : List Nat) : DocLt p q ∨ p = q ∨ DocLt q p := by
  induction p generalizing q with
  | nil =>
    cases q with
    | nil => right; left; rfl
    | cons b q => left; trivial
  | cons a p ih =>
    cases q with
    | nil => right; right; trivial
    | cons b q =>
      simp only [DocLt, List.cons.injEq]
      rcases Nat.lt_trichotomy a b with h | h | h
      · exact Or.inl (Or.inl h)
      · rcases ih q with g | g | g
        · exact Or.inl (Or.inr ⟨h, g⟩)
        · exact Or.inr (Or.inl ⟨h, g⟩)
        · exact Or.inr (Or.inr (Or.inr ⟨h.symm, g⟩))
      · exact Or.inr (Or.inr (Or.inl h))

namespace Node

theorem get?_append (n : Node) (p q : List Nat) : n.get? (p ++ q) = (n.get? p).bind (·.get? q) := by
  induction p generalizing n with
  | nil => simp [get?]
  | cons i p ih =>
    cases n with | mk s d v ks =>
    simp only [List.cons_append, get?]
    cases ks[i]? with
    | none => rfl
    | some k => exact ih k

theorem get?_cons (n : Node) (i : Nat) (p : List Nat) :
    n.get? (i :: p) = n.kids[i]?.bind (·.get? p) := by
  cases n with | mk s d v ks =>
  simp only [get?, kids]
  cases ks[i]? <;> rfl

mutual
theorem walkLevels_mem (rev : Bool) (lvl : Int) (p : List Nat) (e : Int × List Nat) :
    ∀ n : Node, e ∈ walkLevels rev lvl p n ↔
      ∃ i r, e.2 = p ++ i :: r ∧ (n.get? (i :: r)).isSome = true ∧ e.1 = lvl + r.length
  | .mk s d v ks => by
    unfold walkLevels
    rw [walkLevelsKids_mem rev lvl p 0 e ks]
    constructor
    · rintro ⟨j, r, k, h1, h2, h3, h4⟩
      refine ⟨j, r, by simpa using h1, ?_, h4⟩
      rw [get?_cons]
      simp only [kids, h2]
      exact h3
    · rintro ⟨j, r, h1, h2, h3⟩
      rw [get?_cons] at h2
      simp only [kids] at h2
      cases hk : ks[j]? with
      | none => rw [hk] at h2; simp at h2
      | some k => rw [hk] at h2; exact ⟨j, r, k, by simpa using h1, hk, h2, h3⟩
theorem walkLevelsKids_mem (rev : Bool) (lvl : Int) (p : List Nat) (i : Nat) (e : Int × List Nat) :
    ∀ ks : List Node, e ∈ walkLevelsKids rev lvl p i ks ↔
      ∃ j r k, e.2 = p ++ (i + j) :: r ∧ ks[j]? = some k ∧ (k.get? r).isSome = true ∧
        e.1 = lvl + r.length
  | [] => by simp [walkLevelsKids]
  | k :: ks => by
    have hk := walkLevels_mem rev (lvl + 1) (p ++ [i]) e k
    have hks := walkLevelsKids_mem rev lvl p (i + 1) e ks
    have step : e ∈ walkLevelsKids rev lvl p i (k :: ks) ↔
        e = (lvl, p ++ [i]) ∨ e ∈ walkLevels rev (lvl + 1) (p ++ [i]) k ∨
        e ∈ walkLevelsKids rev lvl p (i + 1) ks := by
      conv => lhs; unfold walkLevelsKids
      cases rev <;> simp [List.mem_append, or_assoc, or_comm, or_left_comm]
    rw [step, hk, hks]
    constructor
    · rintro (h | ⟨a, r, h1, h2, h3⟩ | ⟨j, r, k', h1, h2, h3, h4⟩)
      · subst h
        exact ⟨0, [], k, by simp, rfl, by simp [get?], by simp⟩
      · exact ⟨0, a :: r, k, by simp [h1], rfl, h2, by simp [h3]; omega⟩
      · exact ⟨j + 1, r, k', by rw [h1]; congr 2; omega, h2, h3, h4⟩
    · rintro ⟨j, r, k', h1, h2, h3, h4⟩
      cases j with
      | zero =>
        simp only [List.getElem?_cons_zero, Option.some.injEq] at h2
        subst h2
        cases r with
        | nil =>
          left
          exact Prod.ext (by simpa using h4) (by simpa using h1)
        | cons a r =>
          right; left
          exact ⟨a, r, by simp [h1], h3, by rw [h4]; simp; omega⟩
      | succ j =>
        right; right
        exact ⟨j, r, k', by rw [h1]; congr 2; omega, by simpa using h2, h3, h4⟩
end

mutual
theorem walkLevels_sorted (lvl : Int) (p : List Nat) :
    ∀ n : Node, (walkLevels false lvl p n).Pairwise (fun a b => DocLt a.2 b.2)
  | .mk s d v ks => by unfold walkLevels; exact walkLevelsKids_sorted lvl p 0 ks
theorem walkLevelsKids_sorted (lvl : Int) (p : List Nat) (i : Nat) :
    ∀ ks : List Node, (walkLevelsKids false lvl p i ks).Pairwise (fun a b => DocLt a.2 b.2)
  | [] => by simp [walkLevelsKids]
  | k :: ks => by
    have h1 := walkLevels_sorted (lvl + 1) (p ++ [i]) k
    have h2 := walkLevelsKids_sorted lvl p (i + 1) ks
    unfold walkLevelsKids
    simp only [Bool.false_eq_true, if_false]
    rw [List.pairwise_append, List.pairwise_cons]
    refine ⟨⟨?_, h1⟩, h2, ?_⟩
    · intro e he
      obtain ⟨a, r, e1, -, -⟩ := (walkLevels_mem false _ _ e k).mp he
      rw [e1, List.append_assoc]
      rw [docLt_append]
      simp [DocLt]
    · intro e he f hf
      obtain ⟨j, r', k', f1, -, -, -⟩ := (walkLevelsKids_mem false _ _ _ f ks).mp hf
      rw [f1]
      rw [List.mem_cons] at he
      rcases he with rfl | he
      · rw [docLt_append]; simp only [DocLt]; left; omega
      · obtain ⟨a, r, e1, -, -⟩ := (walkLevels_mem false _ _ e k).mp he
        rw [e1, List.append_assoc, docLt_append]
        simp only [List.singleton_append, DocLt]; left; omega
end

mutual
theorem walkLevels_rev (lvl : Int) (p : List Nat) :
    ∀ n : Node, walkLevels true lvl p n = (walkLevels false lvl p n).reverse
  | .mk s d v ks => by unfold walkLevels; exact walkLevelsKids_rev lvl p 0 ks
theorem walkLevelsKids_rev (lvl : Int) (p : List Nat) (i : Nat) :
    ∀ ks : List Node, walkLevelsKids true lvl p i ks = (walkLevelsKids false lvl p i ks).reverse
  | [] => by simp [walkLevelsKids]
  | k :: ks => by
    have h1 := walkLevels_rev (lvl + 1) (p ++ [i]) k
    have h2 := walkLevelsKids_rev lvl p (i + 1) ks
    unfold walkLevelsKids
    simp [h1, h2]
end

end Node
end Pawpaw
