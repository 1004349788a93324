import Verif.Lemmas.Hier
/-!
# C28, C29, C30: `add_hierarchical`
-/
set_option linter.unusedSectionVars false
namespace Pawpaw.Props
open TreeSpec Kids

theorem listingAll_append (a b : List Node) : listingAll (a ++ b) = listingAll a ++ listingAll b := by
  induction a with
  | nil => rfl
  | cons k a ih => simp [listingAll, ih]

theorem kidsOK_weaken {p q : Span} {ks : List Span} (h : KidsOK p ks)
    (hi : ∀ c ∈ ks, q.start ≤ c.start ∧ c.stop ≤ q.stop) : KidsOK q ks :=
  ⟨fun c hc => ⟨(hi c hc).1, (h.inside c hc).2.1, (hi c hc).2⟩, h.ordered⟩

theorem not_outside {p s : Span} (h : ¬ outside p s = true) : Inside p s := by
  unfold outside at h
  rw [Bool.or_eq_true, not_or, decide_eq_true_eq, decide_eq_true_eq] at h
  unfold Inside; omega

theorem outside_iff {p s : Span} : outside p s = true ↔ ¬ Inside p s := by
  unfold outside Inside
  rw [Bool.or_eq_true, decide_eq_true_eq, decide_eq_true_eq]
  omega

/-- Moving the children `m` under a new node in their place. -/
theorem absorb_ok {p s : Span} {l m r : List Node} {d : Option String} {v : Option Nat}
    (hf : ForestOK p (l ++ m ++ r)) (h0 : 0 ≤ s.start) (hs : s.start ≤ s.stop)
    (hl : ∀ a ∈ l, a.start < s.start ∧ a.stop ≤ s.start)
    (hm : ∀ c ∈ m, s.start ≤ c.start ∧ c.stop ≤ s.stop)
    (hr : ∀ b ∈ r, s.start < b.start ∧ s.stop ≤ b.start) :
    (absorbInto p (l ++ m ++ r) l.length (l ++ m).length s d v = .error .valueError ∧ ¬ Inside p s) ∨
    (absorbInto p (l ++ m ++ r) l.length (l ++ m).length s d v = .ok (l ++ .mk s d v m :: r) ∧
      ForestOK p (l ++ .mk s d v m :: r)) := by
  obtain ⟨hk, hwf⟩ := hf
  have hkm : KidsOK s (m.map Node.span) := by
    rw [List.map_append, List.map_append] at hk
    refine kidsOK_weaken (p := p) ⟨fun c hc => hk.inside c (by simp [hc]), ?_⟩ ?_
    · have := hk.ordered
      rw [List.append_assoc, List.pairwise_append, List.pairwise_append] at this
      exact this.2.1.1
    · intro c hc
      obtain ⟨n, hn, rfl⟩ := List.mem_map.mp hc
      exact hm n hn
  unfold absorbInto
  have e1 : ((l ++ m ++ r).drop l.length).take ((l ++ m).length - l.length) = m := by
    rw [List.append_assoc, List.drop_left, List.length_append, Nat.add_sub_cancel_left, List.take_left]
  have e2 : (l ++ m ++ r).take l.length = l := by rw [List.append_assoc, List.take_left]
  rw [e1, Kids.addAll_ordered [] m (by simpa using hkm), List.drop_left, e2]
  dsimp only [List.nil_append]
  split
  · rename_i ho; exact Or.inl ⟨rfl, outside_iff.mp ho⟩
  · rename_i ho
    refine Or.inr ⟨rfl, ?_, ?_⟩
    · have hin := not_outside ho
      unfold Inside at hin
      have hord := hk.ordered
      rw [List.map_append, List.map_append, List.append_assoc, List.pairwise_append, List.pairwise_append]
        at hord
      constructor
      · intro c hc
        rw [List.map_append, List.map_cons, List.mem_append, List.mem_cons] at hc
        rcases hc with hc | rfl | hc
        · exact hk.inside c (by rw [List.map_append, List.map_append]; simp only [List.mem_append]; simp [hc])
        · exact ⟨hin.1, hs, hin.2⟩
        · exact hk.inside c (by rw [List.map_append, List.map_append]; simp only [List.mem_append]; simp [hc])
      · rw [List.map_append, List.map_cons, List.pairwise_append, List.pairwise_cons]
        refine ⟨hord.1, ⟨?_, hord.2.1.2.1⟩, ?_⟩
        · intro b hb
          obtain ⟨n, hn, rfl⟩ := List.mem_map.mp hb
          exact hr n hn
        · intro a ha b hb
          rcases List.mem_cons.mp hb with rfl | hb
          · obtain ⟨n, hn, rfl⟩ := List.mem_map.mp ha
            exact hl n hn
          · exact hord.2.2 a ha b (by simp only [List.mem_append]; exact Or.inr hb)
    · intro k hk'
      simp only [List.mem_append, List.mem_cons] at hk'
      rcases hk' with hk' | rfl | hk'
      · exact hwf k (by simp [hk'])
      · exact WF.mk h0 hs hkm (fun c hc => hwf c (by simp [hc]))
      · exact hwf k (by simp [hk'])

theorem insertIdx_append {α : Type} (l r : List α) (x : α) :
    (l ++ r).insertIdx l.length x = l ++ x :: r := by
  induction l with
  | nil => simp
  | cons a l ih => simp [List.insertIdx_succ_cons, ih]

theorem getElem?_mid {α : Type} (l r : List α) (x : α) : (l ++ x :: r)[l.length]? = some x := by simp

/-- What `add_hierarchical` of a childless node does to the children of `n`. -/
def NodePost (s : Span) (d : Option String) (v : Option Nat) (p : Span) (ks : List Node)
    (res : Except PyErr (List Node)) : Prop :=
  (res = .error .valueError ∧ (¬ Inside p s ∨ ∃ c ∈ listingAll ks, ¬ Laminar c.1 s)) ∨
  ∃ ks', res = .ok ks' ∧ ForestOK p ks' ∧ (listingAll ks').Perm ((s, d, v) :: listingAll ks) ∧ ks' ≠ []

theorem listing_self (n : Node) : (n.span, n.desc, n.vf) ∈ listing n := by
  cases n; simp [listing, Node.span, Node.desc, Node.vf]

theorem listingAll_mem {ks : List Node} {n : Node} (h : n ∈ ks) {c} (hc : c ∈ listing n) :
    c ∈ listingAll ks := by
  induction ks with
  | nil => simp at h
  | cons k ks ih =>
    simp only [listingAll, List.mem_append]
    rcases List.mem_cons.mp h with rfl | h
    · exact Or.inl hc
    · exact Or.inr (ih h)

theorem perm_mid {α : Type} (a b c : List α) (x : α) : (a ++ (x :: b ++ c)).Perm (x :: (a ++ b ++ c)) := by
  rw [List.append_assoc]
  exact List.perm_middle

mutual
theorem hierNode_spec (key : Key) {s : Span} (d : Option String) (v : Option Nat) (h0 : 0 ≤ s.start)
    (hs : s.start ≤ s.stop) : ∀ n : Node, WF n →
    NodePost s d v n.span n.kids (hierNode key s d v n)
  | .mk p pd pv store => by
    intro hwf
    have hf : ForestOK p store := by
      cases hwf with
      | mk a b c e => exact ⟨c, e⟩
    unfold hierNode
    simp only [Node.span, Node.kids]
    by_cases hst : store = []
    · subst hst
      rw [if_pos rfl]
      split
      · rename_i ho; exact Or.inl ⟨rfl, Or.inl (outside_iff.mp ho)⟩
      · rename_i ho
        have hin := not_outside ho
        unfold Inside at hin
        refine Or.inr ⟨_, rfl, ⟨⟨?_, by simp⟩, ?_⟩, by simp [listingAll, listing], by simp⟩
        · intro c hc; simp only [List.map_cons, List.map_nil, List.mem_singleton, Node.span] at hc
          subst hc; omega
        · intro k hk; simp only [List.mem_singleton] at hk; subst hk
          exact WF.mk h0 hs (Kids.kidsOK_nil _) (by simp)
    · rw [if_neg hst]
      have hpl := place_spec hf.1 hs
      generalize place (store.map Node.span) s = pl at hpl
      have into : ∀ l c r, store = l ++ c :: r → c.start ≤ s.start ∧ s.stop ≤ c.stop →
          NodePost s d v p store (hierAt key s d v store l.length) := by
        intro l c r e hc
        rcases hierAt_spec key d v h0 hs store l.length hf.2 (by rw [e]; simp) (by
          intro c' hc'
          rw [e, getElem?_mid] at hc'
          cases hc'
          exact hc) with ⟨h1, h2⟩ | ⟨l', c1, c2, r', h1, h2, h3, h4, h5, h6⟩
        · exact Or.inl ⟨h1, Or.inr h2⟩
        · refine Or.inr ⟨_, h3, ⟨?_, ?_⟩, ?_, by simp⟩
          · have := hf.1
            rw [h1] at this
            simpa [h4] using this
          · intro k hk
            simp only [List.mem_append, List.mem_cons] at hk
            rcases hk with hk | rfl | hk
            · exact hf.2 k (by rw [h1]; simp [hk])
            · exact h5
            · exact hf.2 k (by rw [h1]; simp [hk])
          · rw [h1, listingAll_append, listingAll_append]
            simp only [listingAll]
            refine (List.Perm.append_left _ (h6.append_right _)).trans ?_
            exact List.perm_middle
      have absorb : ∀ l m r, store = l ++ m ++ r → m ≠ [] → (∀ a ∈ l, a.start < s.start ∧ a.stop ≤ s.start) →
          (∀ c ∈ m, s.start ≤ c.start ∧ c.stop ≤ s.stop) →
          (∀ b ∈ r, s.start < b.start ∧ s.stop ≤ b.start) →
          NodePost s d v p store (absorbInto p store l.length (l ++ m).length s d v) := by
        intro l m r e hm h1 h2 h3
        have hf' := hf
        rw [e] at hf' ⊢
        rcases absorb_ok (d := d) (v := v) hf' h0 hs h1 h2 h3 with ⟨e1, e2⟩ | ⟨e1, e2⟩
        · exact Or.inl ⟨e1, Or.inl e2⟩
        · refine Or.inr ⟨_, e1, e2, ?_, by simp⟩
          rw [listingAll_append, listingAll_append, listingAll_append]
          simp only [listingAll, listing]
          exact perm_mid _ _ _ _
      cases pl with
      | overlap =>
        obtain ⟨c, hc, hl⟩ := hpl
        obtain ⟨n, hn, rfl⟩ := List.mem_map.mp hc
        exact Or.inl ⟨rfl, Or.inr ⟨_, listingAll_mem hn (listing_self n), hl⟩⟩
      | into k =>
        obtain ⟨l, c, r, e, rfl, h1, h2, _⟩ := hpl
        obtain ⟨l', r', rfl, e1, e2⟩ := List.map_eq_append_iff.mp e
        obtain ⟨c', r'', rfl, rfl, rfl⟩ := List.map_eq_cons_iff.mp e2
        subst e1
        simp only [List.length_map]
        exact into l' c' r'' rfl ⟨h1, h2⟩
      | insert i =>
        obtain ⟨l, r, e, rfl, h1, h2⟩ := hpl
        obtain ⟨l', r', e0, rfl, rfl⟩ := List.map_eq_append_iff.mp e
        dsimp only
        have h1' : ∀ a ∈ l', a.start < s.start ∧ a.stop ≤ s.start :=
          fun a ha => h1 a.span (List.mem_map.mpr ⟨a, ha, rfl⟩)
        have h2' : ∀ b ∈ r', s.start < b.start ∧ s.stop ≤ b.start :=
          fun a ha => h2 a.span (List.mem_map.mpr ⟨a, ha, rfl⟩)
        split
        · rename_i ho; exact Or.inl ⟨rfl, Or.inl (outside_iff.mp ho)⟩
        · rename_i ho
          rw [List.length_map, e0, insertIdx_append]
          have hf' : ForestOK p (l' ++ [] ++ r') := by rw [List.append_nil, ← e0]; exact hf
          rcases absorb_ok (d := d) (v := v) (m := []) hf' h0 hs h1' (by simp) h2' with
            ⟨_, e2⟩ | ⟨_, e2⟩
          · exact absurd (not_outside ho) e2
          · refine Or.inr ⟨_, rfl, e2, ?_, by simp⟩
            rw [listingAll_append, listingAll_append]
            simp only [listingAll, listing]
            exact List.perm_middle
      | same k =>
        obtain ⟨l, r, e, rfl⟩ := hpl
        obtain ⟨l', r', e0, e1, e2⟩ := List.map_eq_append_iff.mp e
        obtain ⟨c', r'', e3, rfl, rfl⟩ := List.map_eq_cons_iff.mp e2
        subst e1
        rw [e3] at e0
        dsimp only
        rw [List.length_map]
        have hget : store[l'.length]? = some c' := by rw [e0, getElem?_mid]
        rw [hget]
        dsimp only
        split
        · exact into l' c' r'' e0 ⟨Int.le_refl _, Int.le_refl _⟩
        · have hord := hf.1.ordered
          have hin := hf.1.inside
          rw [e0] at hord hin
          rw [List.map_append, List.map_cons, List.pairwise_append, List.pairwise_cons] at hord
          have hc' := hin c'.span (by simp)
          have := absorb l' [c'] r'' (by rw [e0]; simp) (by simp) (by
            intro a ha
            exact hord.2.2 a.span (List.mem_map.mpr ⟨a, ha, rfl⟩) c'.span (by simp)) (by
            intro c hc; simp only [List.mem_singleton] at hc; subst hc
            exact ⟨Int.le_refl _, Int.le_refl _⟩) (by
            intro b hb
            have := hord.2.1.1 b.span (List.mem_map.mpr ⟨b, hb, rfl⟩)
            exact this)
          rw [List.length_append, List.length_singleton] at this
          exact this
      | absorb i j =>
        obtain ⟨l, m, r, e, rfl, rfl, h1, h2, h3, h4, h5⟩ := hpl
        obtain ⟨lm, r', e0, e1, rfl⟩ := List.map_eq_append_iff.mp e
        obtain ⟨l', m', rfl, rfl, rfl⟩ := List.map_eq_append_iff.mp e1
        dsimp only
        rw [← List.map_append, List.length_map, List.length_map]
        refine absorb l' m' r' e0 (by rintro rfl; simp at h1) ?_ ?_ ?_
        · exact fun a ha => h3 a.span (List.mem_map.mpr ⟨a, ha, rfl⟩)
        · exact fun a ha => h4 a.span (List.mem_map.mpr ⟨a, ha, rfl⟩)
        · exact fun a ha => h5 a.span (List.mem_map.mpr ⟨a, ha, rfl⟩)
theorem hierAt_spec (key : Key) {s : Span} (d : Option String) (v : Option Nat) (h0 : 0 ≤ s.start)
    (hs : s.start ≤ s.stop) : ∀ (store : List Node) (i : Nat), (∀ k ∈ store, WF k) → i < store.length →
    (∀ c, store[i]? = some c → c.start ≤ s.start ∧ s.stop ≤ c.stop) →
    (hierAt key s d v store i = .error .valueError ∧ ∃ c ∈ listingAll store, ¬ Laminar c.1 s) ∨
    ∃ l c c' r, store = l ++ c :: r ∧ l.length = i ∧ hierAt key s d v store i = .ok (l ++ c' :: r) ∧
      c'.span = c.span ∧ WF c' ∧ (listing c').Perm ((s, d, v) :: listing c)
  | [], i => by intro _ h; simp at h
  | k :: ks, 0 => by
    intro hwf _ hc
    have hc := hc k rfl
    have hk := hwf k (by simp)
    unfold hierAt
    rcases hierNode_spec key d v h0 hs k hk with ⟨e, h⟩ | ⟨ks', e, hf, hp, _⟩
    · rw [e]
      refine Or.inl ⟨rfl, ?_⟩
      rcases h with h | ⟨c, hc', hl⟩
      · exact absurd hc h
      · refine ⟨c, ?_, hl⟩
        cases k
        simp only [listingAll, listing, List.mem_append, List.mem_cons, Node.kids] at hc' ⊢
        exact Or.inl (Or.inr hc')
    · rw [e]
      refine Or.inr ⟨[], k, _, ks, rfl, rfl, rfl, rfl, ?_, ?_⟩
      · exact WF.mk (WF.start_nonneg hk) (WF.start_le hk) hf.1 hf.2
      · cases k
        simp only [listing, Node.span, Node.desc, Node.vf, Node.kids] at hp ⊢
        exact (List.Perm.cons _ hp).trans (List.Perm.swap _ _ _)
  | k :: ks, i + 1 => by
    intro hwf hi hc
    unfold hierAt
    rcases hierAt_spec key d v h0 hs ks i (fun c hc => hwf c (by simp [hc])) (by simpa using hi) (by
      intro c hc'; exact hc c (by simpa using hc')) with ⟨e, c, h1, h2⟩ | ⟨l, c, c', r, h1, h2, e, h3⟩
    · rw [e]
      refine Or.inl ⟨rfl, c, ?_, h2⟩
      simp only [listingAll, List.mem_append]
      exact Or.inr h1
    · rw [e]
      exact Or.inr ⟨k :: l, c, c', r, by rw [h1]; rfl, by simp [h2], rfl, h3⟩
end


/-! ### Nodes with children -/

/-- Some node of `xs` lies outside `p` or crosses a node of `all`. -/
def Obstructed (p : Span) (xs all : List (Span × Option String × Option Nat)) : Prop :=
  ∃ a ∈ xs, ¬ Inside p a.1 ∨ ∃ c ∈ all, ¬ Laminar c.1 a.1

theorem Obstructed.mono {p : Span} {xs ys all all'} (h : Obstructed p xs all) (h1 : xs ⊆ ys)
    (h2 : all ⊆ all') : Obstructed p ys all' := by
  obtain ⟨a, ha, h | ⟨c, hc, h⟩⟩ := h
  · exact ⟨a, h1 ha, Or.inl h⟩
  · exact ⟨a, h1 ha, Or.inr ⟨c, h2 hc, h⟩⟩

mutual
theorem hier_spec (key : Key) {p : Span} (hp0 : 0 ≤ p.start) (hp1 : p.start ≤ p.stop) :
    ∀ (x : Node) (store : List Node), WF x → ForestOK p store →
    (hier key p store x = .error .valueError ∧ Obstructed p (listing x) (listingAll store ++ listing x)) ∨
    ∃ st', hier key p store x = .ok st' ∧ ForestOK p st' ∧
      (listingAll st').Perm (listingAll store ++ listing x) ∧ st' ≠ []
  | .mk s d v ks, store => by
    intro hx hf
    have hk : 0 ≤ s.start ∧ s.start ≤ s.stop ∧ (∀ k ∈ ks, WF k) ∧ KidsOK s (ks.map Node.span) := by
      cases hx with
      | mk a b c e => exact ⟨a, b, e, c⟩
    unfold hier
    by_cases hst : store = []
    · rw [if_pos hst]
      split
      · rename_i ho
        exact Or.inl ⟨rfl, (s, d, v), by simp [listing], Or.inl (outside_iff.mp ho)⟩
      · rename_i ho
        have hin := not_outside ho
        refine Or.inr ⟨_, rfl, ⟨⟨?_, by simp⟩, ?_⟩, by simp [hst, listingAll], by simp⟩
        · intro c hc; simp only [List.map_cons, List.map_nil, List.mem_singleton, Node.span] at hc
          subst hc; exact ⟨hin.1, hk.2.1, hin.2⟩
        · intro k hk'; simp only [List.mem_singleton] at hk'; subst hk'
          exact hx
    · rw [if_neg hst]
      rcases hierRev_spec key hp0 hp1 ks store hk.2.2.1 hf hst with ⟨e, ho⟩ | ⟨st', e, hf', hp, hne⟩
      · rw [e]
        refine Or.inl ⟨rfl, ho.mono ?_ ?_⟩
        · simp [listing]
        · simp only [listing]; intro c hc; simp only [List.mem_append, List.mem_cons] at hc ⊢
          rcases hc with hc | hc
          · exact Or.inl hc
          · exact Or.inr (Or.inr hc)
      · rw [e]
        dsimp only
        unfold hier1
        rcases hierNode_spec key d v hk.1 hk.2.1 (.mk p none none st')
            (WF.mk hp0 hp1 hf'.1 hf'.2) with ⟨e1, ho⟩ | ⟨ks', e1, hf'', hp', hne'⟩
        · refine Or.inl ⟨e1, (s, d, v), by simp [listing], ?_⟩
          rcases ho with ho | ⟨c, hc, hl⟩
          · exact Or.inl ho
          · refine Or.inr ⟨c, ?_, hl⟩
            have := hp.mem_iff.mp hc
            simp only [listing, List.mem_append, List.mem_cons] at this ⊢
            rcases this with h | h
            · exact Or.inl h
            · exact Or.inr (Or.inr h)
        · refine Or.inr ⟨ks', e1, hf'', ?_, hne'⟩
          refine hp'.trans ?_
          simp only [Node.kids, listing]
          refine (List.Perm.cons _ hp).trans ?_
          exact List.perm_middle.symm
theorem hierRev_spec (key : Key) {p : Span} (hp0 : 0 ≤ p.start) (hp1 : p.start ≤ p.stop) :
    ∀ (ks : List Node) (store : List Node), (∀ k ∈ ks, WF k) →
    ForestOK p store → store ≠ [] →
    (hierRev key p store ks = .error .valueError ∧
      Obstructed p (listingAll ks) (listingAll store ++ listingAll ks)) ∨
    ∃ st', hierRev key p store ks = .ok st' ∧ ForestOK p st' ∧
      (listingAll st').Perm (listingAll store ++ listingAll ks) ∧ st' ≠ []
  | [], store => by
    intro _ hf hne
    exact Or.inr ⟨store, rfl, hf, by simp [listingAll], hne⟩
  | k :: ks, store => by
    intro hk hf hne
    unfold hierRev
    rcases hierRev_spec key hp0 hp1 ks store (fun c hc => hk c (by simp [hc])) hf hne with
      ⟨e, ho⟩ | ⟨st1, e, hf1, hp1', hne1⟩
    · rw [e]
      refine Or.inl ⟨rfl, ho.mono ?_ ?_⟩
      · intro c hc; simp only [listingAll, List.mem_append]; exact Or.inr hc
      · intro c hc; simp only [listingAll, List.mem_append] at hc ⊢
        rcases hc with hc | hc
        · exact Or.inl hc
        · exact Or.inr (Or.inr hc)
    · rw [e]
      dsimp only
      rcases hier_spec key hp0 hp1 k st1 (hk k (by simp)) hf1 with ⟨e2, ho⟩ | ⟨st2, e2, hf2, hp2, hne2⟩
      · refine Or.inl ⟨e2, ho.mono ?_ ?_⟩
        · intro c hc; simp only [listingAll, List.mem_append]; exact Or.inl hc
        · intro c hc
          simp only [listingAll, List.mem_append] at hc ⊢
          rcases hc with hc | hc
          · have := hp1'.mem_iff.mp hc
            rw [List.mem_append] at this
            rcases this with h | h
            · exact Or.inl h
            · exact Or.inr (Or.inr h)
          · exact Or.inr (Or.inl hc)
      · refine Or.inr ⟨st2, e2, hf2, ?_, hne2⟩
        refine hp2.trans ?_
        simp only [listingAll]
        refine (hp1'.append_right _).trans ?_
        rw [List.append_assoc]
        exact List.Perm.append_left _ List.perm_append_comm
end

/-- C28: when `add_hierarchical(x)` returns normally, the children are well-formed again: in order,
disjoint, inside their parent, at every depth.  `p` is the parent's span, `store` its children. -/
theorem C28_add_hierarchical_wf (key : Key) {p : Span} (hp0 : 0 ≤ p.start) (hp1 : p.start ≤ p.stop)
    (store : List Node) (hf : ForestOK p store) (x : Node) (hx : WF x) (st' : List Node)
    (h : hier key p store x = .ok st') : ForestOK p st' := by
  rcases hier_spec key hp0 hp1 x store hx hf with ⟨e, _⟩ | ⟨st, e, hf', _, _⟩
  · rw [e] at h; cases h
  · rw [e] at h; cases h; exact hf'

/-- C28 for any number of arguments. -/
theorem C28_add_hierarchical_all_wf (key : Key) {p : Span} (hp0 : 0 ≤ p.start) (hp1 : p.start ≤ p.stop)
    (store : List Node) (hf : ForestOK p store) (xs : List Node) (hx : ∀ x ∈ xs, WF x) (st' : List Node)
    (h : hierAll key p store xs = .ok st') : ForestOK p st' := by
  induction xs generalizing store with
  | nil => cases h; exact hf
  | cons x xs ih =>
    unfold hierAll at h
    cases hh : hier key p store x with
    | error e => rw [hh] at h; cases h
    | ok st =>
      rw [hh] at h
      exact ih st (C28_add_hierarchical_wf key hp0 hp1 store hf x (hx x (by simp)) st hh)
        (fun y hy => hx y (by simp [hy])) h

/-- C29: when `add_hierarchical(x)` returns normally, the nodes of the new children are exactly (as a
multiset of span, desc, value_func) those there before plus `x` and its descendants. -/
theorem C29_add_hierarchical_nodes (key : Key) {p : Span} (hp0 : 0 ≤ p.start) (hp1 : p.start ≤ p.stop)
    (store : List Node) (hf : ForestOK p store) (x : Node) (hx : WF x) (st' : List Node)
    (h : hier key p store x = .ok st') : (listingAll st').Perm (listingAll store ++ listing x) := by
  rcases hier_spec key hp0 hp1 x store hx hf with ⟨e, _⟩ | ⟨st, e, _, hp, _⟩
  · rw [e] at h; cases h
  · rw [e] at h; cases h; exact hp

/-- C29 for any number of arguments. -/
theorem C29_add_hierarchical_all_nodes (key : Key) {p : Span} (hp0 : 0 ≤ p.start) (hp1 : p.start ≤ p.stop)
    (store : List Node) (hf : ForestOK p store) (xs : List Node) (hx : ∀ x ∈ xs, WF x) (st' : List Node)
    (h : hierAll key p store xs = .ok st') : (listingAll st').Perm (listingAll store ++ listingAll xs) := by
  induction xs generalizing store with
  | nil => cases h; simp [listingAll]
  | cons x xs ih =>
    unfold hierAll at h
    cases hh : hier key p store x with
    | error e => rw [hh] at h; cases h
    | ok st =>
      rw [hh] at h
      refine (ih st (C28_add_hierarchical_wf key hp0 hp1 store hf x (hx x (by simp)) st hh)
        (fun y hy => hx y (by simp [hy])) h).trans ?_
      refine ((C29_add_hierarchical_nodes key hp0 hp1 store hf x (hx x (by simp)) st hh).append_right _).trans ?_
      simp [listingAll]

/-! ### Laminarity of well-formed trees, and success -/

mutual
theorem listing_inside : ∀ n : Node, WF n → ∀ c ∈ listing n,
    n.span.start ≤ c.1.start ∧ c.1.start ≤ c.1.stop ∧ c.1.stop ≤ n.span.stop
  | .mk s d v ks => by
    intro h c hc
    cases h with
    | mk a b k e =>
      simp only [listing, List.mem_cons, Node.span] at hc ⊢
      rcases hc with rfl | hc
      · exact ⟨Int.le_refl _, b, Int.le_refl _⟩
      · exact listingAll_inside ks s e k c hc
theorem listingAll_inside : ∀ (ks : List Node) (p : Span), (∀ k ∈ ks, WF k) → KidsOK p (ks.map Node.span) →
    ∀ c ∈ listingAll ks, p.start ≤ c.1.start ∧ c.1.start ≤ c.1.stop ∧ c.1.stop ≤ p.stop
  | [], p => by intro _ _ c hc; simp [listingAll] at hc
  | k :: ks, p => by
    intro hw hk c hc
    simp only [listingAll, List.mem_append] at hc
    rcases hc with hc | hc
    · have h1 := listing_inside k (hw k (by simp)) c hc
      have h2 := hk.inside k.span (by simp)
      omega
    · exact listingAll_inside ks p (fun x hx => hw x (by simp [hx]))
        ⟨fun c hc => hk.inside c (by simp [hc]), (List.pairwise_cons.mp hk.ordered).2⟩ c hc
end

/-- Every node after a given child's subtree starts at or after that child's stop. -/
theorem listingAll_after {p : Span} {k : Node} {ks : List Node} (hf : ForestOK p (k :: ks)) :
    ∀ c ∈ listingAll ks, k.stop ≤ c.1.start ∧ k.start < c.1.start := by
  have : ∀ ks : List Node, (∀ x ∈ ks, WF x ∧ k.stop ≤ x.start ∧ k.start < x.start) → ∀ c ∈ listingAll ks,
      k.stop ≤ c.1.start ∧ k.start < c.1.start := by
    intro ks
    induction ks with
    | nil => intro _ c hc; simp [listingAll] at hc
    | cons x ks ih =>
      intro h c hc
      simp only [listingAll, List.mem_append] at hc
      rcases hc with hc | hc
      · have h1 := listing_inside x (h x (by simp)).1 c hc
        have h2 := h x (by simp)
        simp only [Node.start, Node.stop] at *
        omega
      · exact ih (fun y hy => h y (by simp [hy])) c hc
  refine this ks (fun x hx => ⟨hf.2 x (by simp [hx]), ?_⟩)
  have := hf.1.ordered
  rw [List.map_cons, List.pairwise_cons] at this
  exact ⟨(this.1 x.span (List.mem_map.mpr ⟨x, hx, rfl⟩)).2, (this.1 x.span (List.mem_map.mpr ⟨x, hx, rfl⟩)).1⟩

theorem ForestOK.tail {p : Span} {k : Node} {ks : List Node} (hf : ForestOK p (k :: ks)) : ForestOK p ks :=
  ⟨⟨fun c hc => hf.1.inside c (by simp [hc]), by
    have := hf.1.ordered
    rw [List.map_cons, List.pairwise_cons] at this
    exact this.2⟩, fun x hx => hf.2 x (by simp [hx])⟩

theorem WF.forest {s d v ks} (h : WF (.mk s d v ks)) : ForestOK s ks := by
  cases h with
  | mk a b k e => exact ⟨k, e⟩

/-- Document order of spans: an enclosing or earlier span comes first. -/
def DocOrder (a b : Span) : Prop := a.start ≤ b.start ∧ (b.stop ≤ a.stop ∨ a.stop ≤ b.start)

mutual
theorem listing_order : ∀ n : Node, WF n → (listing n).Pairwise (fun a b => DocOrder a.1 b.1)
  | .mk s d v ks => by
    intro h
    simp only [listing, List.pairwise_cons]
    refine ⟨?_, listingAll_order ks s (WF.forest h)⟩
    intro c hc
    have := listingAll_inside ks s (WF.forest h).2 (WF.forest h).1 c hc
    unfold DocOrder
    omega
theorem listingAll_order : ∀ (ks : List Node) (p : Span), ForestOK p ks →
    (listingAll ks).Pairwise (fun a b => DocOrder a.1 b.1)
  | [], p => by intro _; simp [listingAll]
  | k :: ks, p => by
    intro hf
    simp only [listingAll, List.pairwise_append]
    refine ⟨listing_order k (hf.2 k (by simp)), listingAll_order ks p (ForestOK.tail hf), ?_⟩
    intro a ha b hb
    have h1 := listing_inside k (hf.2 k (by simp)) a ha
    have h2 := listingAll_after hf b hb
    unfold DocOrder
    simp only [Node.start, Node.stop] at *
    omega
end

/-- The nodes of a well-formed tree never cross. -/
theorem listing_laminar {n : Node} (h : WF n) : ∀ a ∈ listing n, ∀ b ∈ listing n, Laminar a.1 b.1 := by
  have key : ∀ l : List (Span × Option String × Option Nat), l.Pairwise (fun a b => DocOrder a.1 b.1) →
      ∀ a ∈ l, ∀ b ∈ l, Laminar a.1 b.1 := by
    intro l
    induction l with
    | nil => simp
    | cons x l ih =>
      intro hp a ha b hb
      rw [List.pairwise_cons] at hp
      rcases List.mem_cons.mp ha with e1 | ha1 <;> rcases List.mem_cons.mp hb with e2 | hb1
      · rw [e1, e2]; unfold Laminar; omega
      · have := hp.1 b hb1; rw [← e1] at this; unfold DocOrder at this; unfold Laminar; omega
      · have := hp.1 a ha1; rw [← e2] at this; unfold DocOrder at this; unfold Laminar; omega
      · exact ih hp.2 a ha1 b hb1
  exact key _ (listing_order n h)

/-- C28: `add_hierarchical(x)` can only fail with `ValueError`, and succeeds whenever `x` lies in the
parent's span and no node of `x` crosses a node already there. -/
theorem C28_add_hierarchical_succeeds (key : Key) {p : Span} (hp0 : 0 ≤ p.start) (hp1 : p.start ≤ p.stop)
    (store : List Node) (hf : ForestOK p store) (x : Node) (hx : WF x) :
    ((∃ st', hier key p store x = .ok st') ∨ hier key p store x = .error .valueError) ∧
    (Inside p x.span → (∀ a ∈ listing x, ∀ c ∈ listingAll store, Laminar c.1 a.1) →
      ∃ st', hier key p store x = .ok st') := by
  rcases hier_spec key hp0 hp1 x store hx hf with ⟨e, ho⟩ | ⟨st, e, _, hp, _⟩
  · refine ⟨Or.inr e, fun hin hl => ?_⟩
    exfalso
    obtain ⟨a, ha, h | ⟨c, hc, h⟩⟩ := ho
    · have := listing_inside x hx a ha
      unfold Inside at *
      omega
    · rcases List.mem_append.mp hc with hc | hc
      · exact h (hl a ha c hc)
      · exact h (listing_laminar hx c hc a ha)
  · exact ⟨Or.inl ⟨st, e⟩, fun _ _ => ⟨st, e⟩⟩

/-! ### Insertion order -/

/-- Positive-width nodes only. -/
def AllWide (l : List (Span × Option String × Option Nat)) : Prop := ∀ c ∈ l, c.1.start < c.1.stop

theorem takeWhile_append_split {α : Type} (P : α → Bool) (a b a' b' : List α) (h : a ++ b = a' ++ b')
    (ha : ∀ x ∈ a, P x = true) (ha' : ∀ x ∈ a', P x = true) (hb : ∀ x ∈ b, P x = false)
    (hb' : ∀ x ∈ b', P x = false) : a = a' ∧ b = b' := by
  have key : ∀ a b : List α, (∀ x ∈ a, P x = true) → (∀ x ∈ b, P x = false) →
      (a ++ b).takeWhile P = a := by
    intro a b ha hb
    rw [List.takeWhile_append_of_pos ha]
    cases b with
    | nil => simp
    | cons x b => simp [hb x (by simp)]
  have : a = a' := by rw [← key a b ha hb, ← key a' b' ha' hb', h]
  subst this
  exact ⟨rfl, List.append_cancel_left h⟩

/-- A well-formed forest of positive-width nodes is determined by its listing. -/
theorem listingAll_inj : ∀ (t u : List Node) (p q : Span), ForestOK p t → ForestOK q u →
    AllWide (listingAll t) → listingAll t = listingAll u → t = u
  | [], [], _, _ => by intros; rfl
  | [], .mk s d v ks :: u, _, _ => by intro _ _ _ h; simp [listingAll, listing] at h
  | .mk s d v ks :: t, [], _, _ => by intro _ _ _ h; simp [listingAll, listing] at h
  | .mk s d v ks :: t, .mk s' d' v' ks' :: u, p, q => by
    intro ht hu hw h
    simp only [listingAll, listing, List.cons_append, List.cons.injEq, Prod.mk.injEq] at h
    obtain ⟨⟨rfl, rfl, rfl⟩, h⟩ := h
    have hsw : s.start < s.stop := hw (s, d, v) (by simp [listingAll, listing])
    have hwt := WF.forest (ht.2 _ (List.mem_cons_self ..))
    have hwu := WF.forest (hu.2 _ (List.mem_cons_self ..))
    obtain ⟨e1, e2⟩ := takeWhile_append_split (fun c => decide (c.1.start < s.stop)) _ _ _ _ h
      (by
        intro c hc
        have := listingAll_inside ks s hwt.2 hwt.1 c hc
        have := hw c (by simp [listingAll, listing, hc])
        simp; omega)
      (by
        intro c hc
        have h1 := listingAll_inside ks' s hwu.2 hwu.1 c hc
        have h2 : c ∈ listingAll ks ++ listingAll t := by rw [h]; simp [hc]
        have := hw c (by simp only [listingAll, listing, List.cons_append, List.mem_cons]; exact Or.inr h2)
        simp; omega)
      (by
        intro c hc
        have := (listingAll_after ht c hc).1
        simp only [Node.stop, Node.span] at this
        simp; omega)
      (by
        intro c hc
        have := (listingAll_after hu c hc).1
        simp only [Node.stop, Node.span] at this
        simp; omega)
    rw [listingAll_inj ks ks' s s hwt hwu (fun c hc => hw c (by simp [listingAll, listing, hc])) e1,
      listingAll_inj t u p q (ForestOK.tail ht) (ForestOK.tail hu)
        (fun c hc => hw c (by simp [listingAll, listing, hc])) e2]

/-- Two well-formed forests with the same nodes, of positive width and distinct spans, are equal. -/
theorem forest_unique {p : Span} {t u : List Node} (ht : ForestOK p t) (hu : ForestOK p u)
    (hw : AllWide (listingAll t)) (hd : ((listingAll t).map Prod.fst).Nodup)
    (hp : (listingAll t).Perm (listingAll u)) : t = u := by
  apply listingAll_inj t u p p ht hu hw
  apply hp.eq_of_pairwise (le := fun a b => DocOrder a.1 b.1) _ (listingAll_order t p ht)
    (listingAll_order u p hu)
  intro a b ha hb h1 h2
  have hb' := hp.mem_iff.mpr hb
  have e : a.1 = b.1 := by
    have w1 := hw a ha
    have w2 := hw b hb'
    unfold DocOrder at h1 h2
    rcases h3 : a.1 with ⟨s, e⟩
    rcases h4 : b.1 with ⟨s', e'⟩
    rw [h3, h4] at h1 h2
    rw [h3] at w1
    rw [h4] at w2
    simp only at h1 h2 w1 w2
    simp only [Span.mk.injEq]
    omega
  clear h1 h2 hp hw hb
  generalize listingAll t = l at *
  induction l with
  | nil => simp at ha
  | cons x l ih =>
    rw [List.map_cons, List.nodup_cons] at hd
    rcases List.mem_cons.mp ha with e1 | ha1 <;> rcases List.mem_cons.mp hb' with e2 | hb1
    · rw [e1, e2]
    · exact absurd (List.mem_map.mpr ⟨b, hb1, by rw [← e, e1]⟩) hd.1
    · exact absurd (List.mem_map.mpr ⟨a, ha1, by rw [e, e2]⟩) hd.1
    · exact ih hd.2 ha1 hb1

theorem listingAll_perm {xs ys : List Node} (h : xs.Perm ys) : (listingAll xs).Perm (listingAll ys) := by
  induction h with
  | nil => exact List.Perm.refl _
  | cons x _ ih => simp only [listingAll]; exact ih.append_left _
  | swap x y l =>
    simp only [listingAll, ← List.append_assoc]
    exact List.perm_append_comm.append_right _
  | trans _ _ h1 h2 => exact h1.trans h2

/-- C28 for any number of arguments: success whenever everything fits. -/
theorem C28_add_hierarchical_all_succeeds (key : Key) {p : Span} (hp0 : 0 ≤ p.start) (hp1 : p.start ≤ p.stop)
    (store : List Node) (hf : ForestOK p store) (xs : List Node) (hx : ∀ x ∈ xs, WF x)
    (hin : ∀ x ∈ xs, Inside p x.span)
    (hl : ∀ a ∈ listingAll xs, ∀ c ∈ listingAll store ++ listingAll xs, Laminar c.1 a.1) :
    ∃ st', hierAll key p store xs = .ok st' := by
  induction xs generalizing store with
  | nil => exact ⟨_, rfl⟩
  | cons x xs ih =>
    obtain ⟨st, e⟩ := (C28_add_hierarchical_succeeds key hp0 hp1 store hf x (hx x (by simp))).2
      (hin x (by simp)) (by
        intro a ha c hc
        exact hl a (by simp [listingAll, ha]) c (by simp [hc]))
    unfold hierAll
    rw [e]
    refine ih st (C28_add_hierarchical_wf key hp0 hp1 store hf x (hx x (by simp)) st e)
      (fun y hy => hx y (by simp [hy])) (fun y hy => hin y (by simp [hy])) ?_
    intro a ha c hc
    refine hl a (by simp [listingAll, ha]) c ?_
    have hp := C29_add_hierarchical_nodes key hp0 hp1 store hf x (hx x (by simp)) st e
    rcases List.mem_append.mp hc with h | h
    · rcases List.mem_append.mp (hp.mem_iff.mp h) with h | h
      · simp [h]
      · simp [listingAll, h]
    · simp [listingAll, h]

/-- C30, for argument trees of any shape: if all the nodes involved have positive width, distinct spans
and never cross, the order of the arguments does not matter. -/
theorem C30_order_independent_trees (key : Key) {p : Span} (hp0 : 0 ≤ p.start) (hp1 : p.start ≤ p.stop)
    (store : List Node) (hf : ForestOK p store) (xs ys : List Node) (hperm : xs.Perm ys)
    (hx : ∀ x ∈ xs, WF x) (hin : ∀ x ∈ xs, Inside p x.span)
    (hw : AllWide (listingAll store ++ listingAll xs))
    (hd : ((listingAll store ++ listingAll xs).map Prod.fst).Nodup)
    (hl : ∀ a ∈ listingAll xs, ∀ c ∈ listingAll store ++ listingAll xs, Laminar c.1 a.1) :
    ∃ st', hierAll key p store xs = .ok st' ∧ hierAll key p store ys = .ok st' := by
  have hmem : ∀ c, c ∈ listingAll ys ↔ c ∈ listingAll xs := fun c => (listingAll_perm hperm).symm.mem_iff
  have hx' : ∀ x ∈ ys, WF x := fun x h => hx x (hperm.mem_iff.mpr h)
  obtain ⟨st, e⟩ := C28_add_hierarchical_all_succeeds key hp0 hp1 store hf xs hx hin hl
  obtain ⟨st', e'⟩ := C28_add_hierarchical_all_succeeds key hp0 hp1 store hf ys hx'
    (fun x h => hin x (hperm.mem_iff.mpr h)) (by
      intro a ha c hc
      refine hl a ((hmem a).mp ha) c ?_
      rcases List.mem_append.mp hc with h | h
      · simp [h]
      · simp [(hmem c).mp h])
  have p1 := C29_add_hierarchical_all_nodes key hp0 hp1 store hf xs hx st e
  have p2 := C29_add_hierarchical_all_nodes key hp0 hp1 store hf ys hx' st' e'
  have : st = st' := by
    apply forest_unique (C28_add_hierarchical_all_wf key hp0 hp1 store hf xs hx st e)
      (C28_add_hierarchical_all_wf key hp0 hp1 store hf ys hx' st' e')
    · intro c hc; exact hw c (p1.mem_iff.mp hc)
    · exact (p1.map Prod.fst).nodup_iff.mpr hd
    · exact p1.trans ((((listingAll_perm hperm)).append_left _).trans p2.symm)
  subst this
  exact ⟨st, e, e'⟩

theorem listingAll_leaves (l : List (Span × Option String × Option Nat)) :
    listingAll (l.map (fun a => Node.mk a.1 a.2.1 a.2.2 [])) = l := by
  induction l with
  | nil => rfl
  | cons a l ih => simp [listingAll, listing, ih]

/-- C30: childless Itos of positive width inside `p`, with distinct spans pairwise nested or disjoint:
`add_hierarchical` in any order succeeds and gives the same well-formed tree with exactly those nodes. -/
theorem C30_order_independent (key : Key) {p : Span} (hp0 : 0 ≤ p.start) (hp1 : p.start ≤ p.stop)
    (l : List (Span × Option String × Option Nat))
    (hw : ∀ a ∈ l, a.1.start < a.1.stop) (hin : ∀ a ∈ l, Inside p a.1)
    (hd : (l.map Prod.fst).Nodup) (hl : ∀ a ∈ l, ∀ b ∈ l, Laminar a.1 b.1) :
    ∃ st', (∀ l' : List (Span × Option String × Option Nat), l'.Perm l →
        hierAll key p [] (l'.map (fun a => Node.mk a.1 a.2.1 a.2.2 [])) = .ok st') ∧
      ForestOK p st' ∧ (listingAll st').Perm l := by
  have hx : ∀ x ∈ l.map (fun a => Node.mk a.1 a.2.1 a.2.2 []), WF x := by
    intro x hx
    obtain ⟨a, ha, rfl⟩ := List.mem_map.mp hx
    have h1 := hw a ha
    have h2 := hin a ha
    unfold Inside at h2
    exact WF.mk (by omega) (by omega) ⟨by simp, by simp⟩ (by simp)
  have h0 : ForestOK p [] := ⟨⟨by simp, by simp⟩, by simp⟩
  have hin' : ∀ x ∈ l.map (fun a => Node.mk a.1 a.2.1 a.2.2 []), Inside p x.span := by
    intro x hx
    obtain ⟨a, ha, rfl⟩ := List.mem_map.mp hx
    exact hin a ha
  obtain ⟨st, e⟩ := C28_add_hierarchical_all_succeeds key hp0 hp1 [] h0 _ hx hin' (by
    rw [listingAll_leaves]
    intro a ha c hc
    exact hl c (by simpa [listingAll] using hc) a ha)
  refine ⟨st, ?_, C28_add_hierarchical_all_wf key hp0 hp1 [] h0 _ hx st e, ?_⟩
  · intro l' hp
    obtain ⟨st', e1, e2⟩ := C30_order_independent_trees key hp0 hp1 [] h0 _ _
      (hp.symm.map (fun a => Node.mk a.1 a.2.1 a.2.2 [])) hx hin'
      (by rw [listingAll_leaves]; exact hw) (by rw [listingAll_leaves]; exact hd)
      (by
        rw [listingAll_leaves]
        intro a ha c hc
        exact hl c (by simpa [listingAll] using hc) a ha)
    rw [e] at e1
    cases e1
    exact e2
  · have := C29_add_hierarchical_all_nodes key hp0 hp1 [] h0 _ hx st e
    rwa [listingAll_leaves] at this

theorem get?_span_inside : ∀ (q : List Nat) (n m : Node), WF n → n.get? q = some m →
    WF m ∧ n.start ≤ m.start ∧ m.stop ≤ n.stop
  | [], n, m, h, e => by
    simp only [Node.get?, Option.some.injEq] at e
    subst e
    exact ⟨h, by omega, by omega⟩
  | i :: q, n, m, h, e => by
    rw [Node.get?_cons] at e
    cases hk : n.kids[i]? with
    | none => rw [hk] at e; cases e
    | some k =>
      rw [hk] at e
      have hm := List.mem_of_getElem? hk
      obtain ⟨a, b, c⟩ := get?_span_inside q k m (h.kid hm) e
      have := h.kid_inside hm
      exact ⟨a, by omega, by omega⟩

/-- C30: in any well-formed tree, a node lies below every other node whose span strictly contains its own
(positive) span; with distinct spans the nesting of the nodes is exactly the nesting of their spans. -/
theorem C30_nesting : ∀ (p q : List Nat) (t a b : Node), WF t → t.get? p = some a → t.get? q = some b →
    b.start < b.stop → Inside a.span b.span → a.span ≠ b.span → Desc p q
  | [], [], t, a, b, h, ea, eb => by
    intro _ _ hne
    simp only [Node.get?, Option.some.injEq] at ea eb
    exact absurd (by rw [← ea, ← eb]) hne
  | [], j :: q, t, a, b, h, ea, eb => by
    intro _ _ _
    exact ⟨j, q, rfl⟩
  | i :: p, [], t, a, b, h, ea, eb => by
    intro hw hin hne
    exfalso
    obtain ⟨_, h1, h2⟩ := get?_span_inside _ t a h ea
    simp only [Node.get?, Option.some.injEq] at eb
    subst eb
    unfold Inside at hin
    apply hne
    unfold Node.start Node.stop at *
    rcases h3 : a.span with ⟨s, e⟩
    rcases h4 : t.span with ⟨s', e'⟩
    rw [h3, h4] at h1 h2 hin
    simp only at h1 h2 hin
    simp only [Span.mk.injEq]
    omega
  | i :: p, j :: q, t, a, b, h, ea, eb => by
    intro hw hin hne
    rw [Node.get?_cons] at ea eb
    cases hi : t.kids[i]? with
    | none => rw [hi] at ea; cases ea
    | some k =>
    cases hj : t.kids[j]? with
    | none => rw [hj] at eb; cases eb
    | some k' =>
    rw [hi] at ea
    rw [hj] at eb
    simp only [Option.bind_some] at ea eb
    have hk := List.mem_of_getElem? hi
    have hk' := List.mem_of_getElem? hj
    by_cases hij : i = j
    · subst hij
      rw [hi] at hj
      cases hj
      obtain ⟨x, r, e⟩ := C30_nesting p q k a b (h.kid hk) ea eb hw hin hne
      exact ⟨x, r, by rw [e]; rfl⟩
    · exfalso
      obtain ⟨_, h1, h2⟩ := get?_span_inside _ k a (h.kid hk) ea
      obtain ⟨_, h3, h4⟩ := get?_span_inside _ k' b (h.kid hk') eb
      have ho := h.kidsOK.ordered
      rw [List.pairwise_iff_getElem] at ho
      obtain ⟨li, gi⟩ := List.getElem?_eq_some_iff.mp hi
      obtain ⟨lj, gj⟩ := List.getElem?_eq_some_iff.mp hj
      unfold Inside at hin
      unfold Node.start Node.stop at *
      rcases Nat.lt_or_ge i j with hlt | hge
      · have := ho i j (by simpa using li) (by simpa using lj) hlt
        simp only [List.getElem_map, gi, gj] at this
        omega
      · have := ho j i (by simpa using lj) (by simpa using li) (by omega)
        simp only [List.getElem_map, gi, gj] at this
        omega

/-! ## C68: equal spans -/

/-- A chain of Itos of the same span: each the only child of the one before. -/
def chain (s : Span) : List (Option String × Option Nat) → List Node
  | [] => []
  | a :: l => [.mk s a.1 a.2 (chain s l)]

theorem place_same (s : Span) : place [s] s = .same 0 := by
  have h1 : bfindStart [s] s = 0 := by simp [bfindStart, bisectLeft, bisectLeftLoop]
  have h2 : bfindStop [s] s = -2 := by simp [bfindStop, bisectRight, bisectRightLoop]
  unfold place placeEnd
  rw [h1, h2]
  simp

theorem outside_self (s : Span) : outside s s = false := by simp [outside]

/-- What the new one's place in the chain is: below everything whose key is not greater. -/
def chainInsert (le : (Option String × Option Nat) → (Option String × Option Nat) → Bool)
    (x : Option String × Option Nat) : List (Option String × Option Nat) → List (Option String × Option Nat)
  | [] => [x]
  | a :: l => if le a x then a :: chainInsert le x l else x :: a :: l

/-- The order of a `key`. -/
def keyLe (key : Key) (s : Span) (a b : Option String × Option Nat) : Bool :=
  match key with
  | none => true
  | some f => decide (f s a.1 a.2 ≤ f s b.1 b.2)

theorem hierNode_chain (key : Key) (s : Span) (x : Option String × Option Nat)
    (l : List (Option String × Option Nat)) : ∀ (p : Span) (d : Option String) (v : Option Nat),
    outside p s = false →
    hierNode key s x.1 x.2 (.mk p d v (chain s l)) = .ok (chain s (chainInsert (keyLe key s) x l)) := by
  induction l with
  | nil =>
    intro p d v hp
    unfold hierNode
    rw [if_pos (show chain s [] = [] from rfl), if_neg (by simp [hp])]
    rfl
  | cons a l ih =>
    intro p d v hp
    have hg : Key.goesUnder key s x.1 x.2 (.mk s a.1 a.2 (chain s l)) = keyLe key s a x := by
      cases key with
      | none => rfl
      | some f => simp [Key.goesUnder, keyLe, Node.span, Node.desc, Node.vf]
    unfold hierNode
    rw [if_neg (show ¬ (chain s (a :: l) = []) by simp [chain])]
    simp only [chain, List.map_cons, List.map_nil, Node.span, place_same, List.getElem?_cons_zero, hg]
    unfold chainInsert
    cases hk : keyLe key s a x with
    | true =>
      simp only [if_true]
      have hh := ih s a.1 a.2 (outside_self s)
      rw [hierAt, hh]
      rfl
    | false =>
      simp only [Bool.false_eq_true, if_false]
      unfold absorbInto
      simp [addAll, add, Node.span, outside_self, hp, chain, bfindStart, bisectLeft, bisectLeftLoop,
        notBetween, isStartLtPriorStop, isStopGtNextStart]

theorem hier_chain (key : Key) (p s : Span) (hp : outside p s = false) (x : Option String × Option Nat)
    (l : List (Option String × Option Nat)) :
    hier key p (chain s l) (.mk s x.1 x.2 []) = .ok (chain s (chainInsert (keyLe key s) x l)) := by
  have := hierNode_chain key s x l p none none hp
  unfold hier
  cases l with
  | nil => rw [if_pos (show chain s [] = [] from rfl), if_neg (by simp [hp])]; rfl
  | cons a l =>
    rw [if_neg (by simp [chain])]
    simp only [hierRev, hier1]
    exact this

theorem chainInsert_perm (le : (Option String × Option Nat) → (Option String × Option Nat) → Bool)
    (x : Option String × Option Nat) (l : List (Option String × Option Nat)) :
    (chainInsert le x l).Perm (x :: l) := by
  induction l with
  | nil => exact List.Perm.refl _
  | cons a l ih =>
    unfold chainInsert
    split
    · exact (List.Perm.cons a ih).trans (List.Perm.swap x a l)
    · exact List.Perm.refl _

theorem hierAll_chain (key : Key) (p s : Span) (hp : outside p s = false) (xs l : List (Option String × Option Nat)) :
    hierAll key p (chain s l) (xs.map (fun a => Node.mk s a.1 a.2 [])) =
      .ok (chain s (xs.foldl (fun l x => chainInsert (keyLe key s) x l) l)) := by
  induction xs generalizing l with
  | nil => rfl
  | cons x xs ih =>
    rw [List.map_cons, hierAll, hier_chain key p s hp x l]
    exact ih _

theorem chainInsert_end (x : Option String × Option Nat) (l : List (Option String × Option Nat)) :
    chainInsert (fun _ _ => true) x l = l ++ [x] := by
  induction l with
  | nil => rfl
  | cons a l ih => simp [chainInsert, ih]

/-- C68: Itos with one and the same span, added hierarchically without a `key`, become children of one
another in the order of the arguments. -/
theorem C68_same_span_sequence (p s : Span) (hp : Inside p s) (xs : List (Option String × Option Nat)) :
    hierAll none p [] (xs.map (fun a => Node.mk s a.1 a.2 [])) = .ok (chain s xs) := by
  have ho : outside p s = false := by
    unfold Inside at hp
    simp [outside]; omega
  have := hierAll_chain none p s ho xs []
  rw [show chain s [] = [] from rfl] at this
  rw [this]
  congr 2
  clear this
  have h : ∀ l, xs.foldl (fun l x => chainInsert (keyLe none s) x l) l = l ++ xs := by
    induction xs with
    | nil => intro l; simp
    | cons x xs ih =>
      intro l
      rw [List.foldl_cons, ih]
      have : keyLe none s = fun _ _ => true := rfl
      rw [this, chainInsert_end]
      simp
  rw [h]
  rfl

theorem chainInsert_sorted (f : (Option String × Option Nat) → Int) (x : Option String × Option Nat)
    (l : List (Option String × Option Nat)) (h : l.Pairwise (fun a b => f a ≤ f b)) :
    (chainInsert (fun a b => decide (f a ≤ f b)) x l).Pairwise (fun a b => f a ≤ f b) := by
  induction l with
  | nil => simp [chainInsert]
  | cons a l ih =>
    rw [List.pairwise_cons] at h
    unfold chainInsert
    by_cases hk : f a ≤ f x
    · rw [if_pos (decide_eq_true hk), List.pairwise_cons]
      refine ⟨?_, ih h.2⟩
      intro b hb
      rcases List.mem_cons.mp ((chainInsert_perm _ x l).mem_iff.mp hb) with rfl | hb
      · exact hk
      · exact h.1 b hb
    · rw [if_neg (by simpa using hk), List.pairwise_cons]
      refine ⟨?_, List.pairwise_cons.mpr h⟩
      intro b hb
      rcases List.mem_cons.mp hb with rfl | hb
      · omega
      · have := h.1 b hb
        omega

theorem chainInsert_stable (f : (Option String × Option Nat) → Int) (x : Option String × Option Nat) (c : Int)
    (l : List (Option String × Option Nat)) (h : l.Pairwise (fun a b => f a ≤ f b)) :
    (chainInsert (fun a b => decide (f a ≤ f b)) x l).filter (fun a => decide (f a = c)) =
      (l ++ [x]).filter (fun a => decide (f a = c)) := by
  induction l with
  | nil => rfl
  | cons a l ih =>
    rw [List.pairwise_cons] at h
    unfold chainInsert
    by_cases hk : f a ≤ f x
    · rw [if_pos (decide_eq_true hk), List.cons_append, List.filter_cons, List.filter_cons, ih h.2]
    · rw [if_neg (by simpa using hk), List.filter_cons]
      by_cases hc : f x = c
      · have : (a :: l).filter (fun a => decide (f a = c)) = [] := by
          rw [List.filter_eq_nil_iff]
          intro b hb
          have : f a ≤ f b := by
            rcases List.mem_cons.mp hb with rfl | hb
            · exact Int.le_refl _
            · exact h.1 b hb
          simp only [decide_eq_true_eq]
          omega
        rw [if_pos (decide_eq_true hc), List.filter_append, this]
        simp [hc]
      · rw [if_neg (by simpa using hc), List.filter_append]
        simp [hc]

/-- C68: with a `key` they are nested by ascending key, equal keys in the order of the arguments: the
genealogy `r` has the same members, its keys do not decrease, and the members of each key are in their
original order (which determines `r`). -/
theorem C68_same_span_key (f : Span → Option String → Option Nat → Int) (p s : Span) (hp : Inside p s)
    (xs : List (Option String × Option Nat)) :
    ∃ r, hierAll (some f) p [] (xs.map (fun a => Node.mk s a.1 a.2 [])) = .ok (chain s r) ∧ r.Perm xs ∧
      r.Pairwise (fun a b => f s a.1 a.2 ≤ f s b.1 b.2) ∧
      ∀ c, r.filter (fun a => decide (f s a.1 a.2 = c)) = xs.filter (fun a => decide (f s a.1 a.2 = c)) := by
  have ho : outside p s = false := by
    unfold Inside at hp
    simp [outside]; omega
  refine ⟨_, hierAll_chain (some f) p s ho xs [], ?_⟩
  have key : ∀ l : List (Option String × Option Nat), l.Pairwise (fun a b => f s a.1 a.2 ≤ f s b.1 b.2) →
      (xs.foldl (fun l x => chainInsert (keyLe (some f) s) x l) l).Perm (l ++ xs) ∧
      (xs.foldl (fun l x => chainInsert (keyLe (some f) s) x l) l).Pairwise (fun a b => f s a.1 a.2 ≤ f s b.1 b.2) ∧
      ∀ c, (xs.foldl (fun l x => chainInsert (keyLe (some f) s) x l) l).filter
          (fun a => decide (f s a.1 a.2 = c)) = (l ++ xs).filter (fun a => decide (f s a.1 a.2 = c)) := by
    induction xs with
    | nil => intro l hl; simp [hl]
    | cons x xs ih =>
      intro l hl
      rw [List.foldl_cons]
      obtain ⟨h1, h2, h3⟩ := ih (chainInsert (keyLe (some f) s) x l)
        (chainInsert_sorted (fun a => f s a.1 a.2) x l hl)
      refine ⟨h1.trans ?_, h2, ?_⟩
      · refine ((chainInsert_perm _ x l).append_right xs).trans ?_
        rw [show l ++ x :: xs = (l ++ [x]) ++ xs by simp]
        exact (List.perm_append_comm (l₁ := [x]) (l₂ := l)).append_right xs
      · intro c
        rw [h3 c, List.filter_append]
        have := chainInsert_stable (fun a => f s a.1 a.2) x c l hl
        have e : keyLe (some f) s = fun a b => decide (f s a.1 a.2 ≤ f s b.1 b.2) := rfl
        rw [e, this, ← List.filter_append]
        simp
  have := key [] List.Pairwise.nil
  simpa using this

/-! ### Concrete cases -/

/-- Six Itos, added in two different orders, over a string of length 10: one tree. -/
example :
    let l : List (Span × Option String × Option Nat) :=
      [(⟨2, 3⟩, some "a", none), (⟨0, 6⟩, some "b", none), (⟨7, 9⟩, none, none), (⟨2, 5⟩, some "c", some 1),
        (⟨3, 5⟩, none, none), (⟨7, 8⟩, some "d", none)]
    (∀ a ∈ l, a.1.start < a.1.stop) ∧ (∀ a ∈ l, Inside ⟨0, 10⟩ a.1) ∧ (l.map Prod.fst).Nodup ∧
    (∀ a ∈ l, ∀ b ∈ l, Laminar a.1 b.1) ∧
    hierAll none ⟨0, 10⟩ [] (l.map (fun a => Node.mk a.1 a.2.1 a.2.2 [])) =
      .ok [.mk ⟨0, 6⟩ (some "b") none
            [.mk ⟨2, 5⟩ (some "c") (some 1) [.leaf ⟨2, 3⟩ (some "a"), .leaf ⟨3, 5⟩]],
          .mk ⟨7, 9⟩ none none [.leaf ⟨7, 8⟩ (some "d")]] := by decide

/-- An argument with children, added to a store that is not empty, ends up nested (C28, C29). -/
example : hier none ⟨0, 9⟩ [.leaf ⟨1, 2⟩, .leaf ⟨4, 5⟩] (.mk ⟨0, 8⟩ none none [.leaf ⟨4, 7⟩]) =
    .ok [.mk ⟨0, 8⟩ none none [.leaf ⟨1, 2⟩, .mk ⟨4, 7⟩ none none [.leaf ⟨4, 5⟩]]] := by decide

/-- `key` decides between equal spans. -/
example : hier (some fun _ d _ => if d = some "x" then 1 else 2) ⟨0, 9⟩ [.leaf ⟨1, 2⟩]
      (.leaf ⟨1, 2⟩ (some "x")) = .ok [.mk ⟨1, 2⟩ (some "x") none [.leaf ⟨1, 2⟩]] ∧
    hier none ⟨0, 9⟩ [.leaf ⟨1, 2⟩] (.leaf ⟨1, 2⟩ (some "x")) =
      .ok [.mk ⟨1, 2⟩ none none [.leaf ⟨1, 2⟩ (some "x")]] := by decide

/-- A crossing argument is refused. -/
example : hier none ⟨0, 9⟩ [.leaf ⟨1, 4⟩] (.leaf ⟨2, 6⟩) = .error .valueError := by decide

end Pawpaw.Props
