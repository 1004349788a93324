import Verif.Props.HierHeap
/-!
# C28, C29, C30 in memory: what `add_hierarchical` does to the object graph
-/
set_option linter.unusedSectionVars false
set_option linter.unusedSimpArgs false
namespace Pawpaw.Props
open TreeSpec HeapSpec Heap

/-! ## Trees of identities in a consistent heap -/

mutual
theorem exists_is {h : Heap} (hok : OK h) (s : String) : ∀ (t : Node) (x : Nat), x < h.next → h.str x = s →
    Looks h x t → ∃ t', Is h s (h.parent x) x t' ∧ WF t' ∧ t'.kids.map Node.span = (h.kids x).map h.span
  | .mk sp d v ks, x, hx, hs, hl => by
    rw [Looks] at hl
    obtain ⟨ks', h1, h2⟩ := exists_isAll hok s ks (some x) (h.kids x) (fun c hc => by
      obtain ⟨a, b, e⟩ := hok.kidParent x hx c hc
      exact ⟨a, b, e.trans hs⟩) hl.2.2.2
    have hsp := hok.span x hx
    refine ⟨.mk (h.span x) none (some x) ks', ?_, ?_, (isAll_spans h1).symm⟩
    · rw [Is]; exact ⟨rfl, hs, rfl, rfl, h1⟩
    · refine WF.mk hsp.1 hsp.2.1 ?_ h2
      rw [← isAll_spans h1]
      exact hok.kids x hx
theorem exists_isAll {h : Heap} (hok : OK h) (s : String) : ∀ (ts : List Node) (par : Option Nat) (xs : List Nat),
    (∀ c ∈ xs, c < h.next ∧ h.parent c = par ∧ h.str c = s) → LooksAll h xs ts →
    ∃ ts', IsAll h s par xs ts' ∧ ∀ k ∈ ts', WF k
  | [], _, [], _, _ => ⟨[], by simp [IsAll], by simp⟩
  | [], _, _ :: _, _, hl => by simp [LooksAll] at hl
  | _ :: _, _, [], _, hl => by simp [LooksAll] at hl
  | t :: ts, par, x :: xs, hxs, hl => by
    rw [LooksAll] at hl
    obtain ⟨x1, x2, x3⟩ := hxs x (by simp)
    obtain ⟨t', h1, h2, _⟩ := exists_is hok s t x x1 x3 hl.1
    obtain ⟨ts', h3, h4⟩ := exists_isAll hok s ts par xs (fun c hc => hxs c (by simp [hc])) hl.2
    refine ⟨t' :: ts', ?_, ?_⟩
    · rw [IsAll]; rw [x2] at h1; exact ⟨h1, h3⟩
    · intro k hk
      rcases List.mem_cons.mp hk with rfl | hk
      · exact h2
      · exact h4 k hk
end

mutual
theorem is_anc {h : Heap} {s : String} : ∀ (t : Node) (x : Nat) (par : Option Nat), Is h s par x t →
    ∀ y ∈ ids t, y = x ∨ Anc h x y
  | .mk sp d v ks, x, par, hi, y, hy => by
    rw [Is] at hi
    obtain ⟨_, _, _, rfl, h5⟩ := hi
    rw [ids, List.mem_cons] at hy
    rcases hy with hy | hy
    · exact Or.inl hy
    · exact Or.inr (isAll_anc ks x _ h5 y hy)
theorem isAll_anc {h : Heap} {s : String} : ∀ (ts : List Node) (q : Nat) (xs : List Nat),
    IsAll h s (some q) xs ts → ∀ y ∈ idsAll ts, Anc h q y
  | [], _, _, _, y, hy => by simp [idsAll] at hy
  | t :: ts, q, xs, hi, y, hy => by
    obtain ⟨c, cs, rfl, h1, h2⟩ := isAll_cons hi
    rw [idsAll, List.mem_append] at hy
    rcases hy with hy | hy
    · have hpar : h.parent c = some q := by cases t; rw [Is] at h1; exact h1.1
      rcases is_anc t c _ h1 y hy with rfl | ha
      · exact .parent hpar
      · exact Anc.trans (.parent hpar) ha
    · exact isAll_anc ts q cs h2 y hy
end

mutual
/-- Inside such a tree: every object's children are its children in the tree. -/
theorem is_kids {h : Heap} {s : String} : ∀ (t : Node) (x : Nat) (par : Option Nat), Is h s par x t → WF t →
    ∀ q ∈ ids t, KidsOK (h.span q) ((h.kids q).map h.span) ∧
      ∀ c ∈ h.kids q, c ∈ ids t ∧ h.parent c = some q ∧ h.str c = s ∧ h.str q = s
  | .mk sp d v ks, x, par, hi, hw, q, hq => by
    rw [Is] at hi
    obtain ⟨_, h2, h3, rfl, h5⟩ := hi
    have hwk : KidsOK sp (ks.map Node.span) ∧ ∀ k ∈ ks, WF k := by
      cases hw with
      | mk a b c e => exact ⟨c, e⟩
    obtain ⟨f1, f2⟩ := isAll_kids ks (some x) _ h5 hwk.2
    rw [ids, List.mem_cons] at hq
    rcases hq with hq | hq
    · simp only [Option.getD_some] at hq
      subst hq
      refine ⟨by rw [isAll_spans h5, h3]; exact hwk.1, fun c hc => ?_⟩
      have := f1 c hc
      exact ⟨by simp [ids, this.1], this.2.1, this.2.2, h2⟩
    · obtain ⟨g1, g2⟩ := f2 q hq
      refine ⟨g1, fun c hc => ?_⟩
      have := g2 c hc
      exact ⟨by simp [ids, this.1], this.2⟩
theorem isAll_kids {h : Heap} {s : String} : ∀ (ts : List Node) (par : Option Nat) (xs : List Nat),
    IsAll h s par xs ts → (∀ k ∈ ts, WF k) →
    (∀ c ∈ xs, c ∈ idsAll ts ∧ h.parent c = par ∧ h.str c = s) ∧
    ∀ q ∈ idsAll ts, KidsOK (h.span q) ((h.kids q).map h.span) ∧
      ∀ c ∈ h.kids q, c ∈ idsAll ts ∧ h.parent c = some q ∧ h.str c = s ∧ h.str q = s
  | [], _, xs, hi, _ => by
    have := isAll_nil hi
    subst this
    exact ⟨by simp, by simp [idsAll]⟩
  | t :: ts, par, xs, hi, hw => by
    obtain ⟨c, cs, rfl, h1, h2⟩ := isAll_cons hi
    have ht := is_kids t c par h1 (hw t (by simp))
    obtain ⟨g1, g2⟩ := isAll_kids ts par cs h2 (fun k hk => hw k (by simp [hk]))
    constructor
    · intro c' hc'
      rcases List.mem_cons.mp hc' with rfl | hc'
      · refine ⟨by simp [idsAll, is_mem h1], ?_⟩
        cases t; rw [Is] at h1; exact ⟨h1.1, h1.2.1⟩
      · have := g1 c' hc'
        exact ⟨by simp [idsAll, this.1], this.2⟩
    · intro q hq
      rw [idsAll, List.mem_append] at hq
      rcases hq with hq | hq
      · obtain ⟨e1, e2⟩ := ht q hq
        refine ⟨e1, fun c' hc' => ?_⟩
        have := e2 c' hc'
        exact ⟨by simp [idsAll, this.1], this.2⟩
      · obtain ⟨e1, e2⟩ := g2 q hq
        refine ⟨e1, fun c' hc' => ?_⟩
        have := e2 c' hc'
        exact ⟨by simp [idsAll, this.1], this.2⟩
end

mutual
/-- Inside such a tree: every object but the root is a child of another. -/
theorem is_parent {h : Heap} {s : String} : ∀ (t : Node) (x : Nat) (par : Option Nat), Is h s par x t →
    ∀ y ∈ ids t, y = x ∨ ∃ z ∈ ids t, h.parent y = some z ∧ y ∈ h.kids z
  | .mk sp d v ks, x, par, hi, y, hy => by
    rw [Is] at hi
    obtain ⟨_, _, _, rfl, h5⟩ := hi
    rw [ids, List.mem_cons] at hy
    rcases hy with hy | hy
    · exact Or.inl hy
    · right
      rcases isAll_parent ks (some x) _ h5 y hy with ⟨h1, h2⟩ | ⟨z, h1, h2⟩
      · exact ⟨x, by simp [ids], h2, h1⟩
      · exact ⟨z, by simp [ids, h1], h2⟩
theorem isAll_parent {h : Heap} {s : String} : ∀ (ts : List Node) (par : Option Nat) (xs : List Nat),
    IsAll h s par xs ts → ∀ y ∈ idsAll ts, (y ∈ xs ∧ h.parent y = par) ∨
      ∃ z ∈ idsAll ts, h.parent y = some z ∧ y ∈ h.kids z
  | [], _, _, _, y, hy => by simp [idsAll] at hy
  | t :: ts, par, xs, hi, y, hy => by
    obtain ⟨c, cs, rfl, h1, h2⟩ := isAll_cons hi
    rw [idsAll, List.mem_append] at hy
    rcases hy with hy | hy
    · rcases is_parent t c par h1 y hy with rfl | ⟨z, e1, e2⟩
      · left
        refine ⟨by simp, ?_⟩
        cases t; rw [Is] at h1; exact h1.1
      · exact Or.inr ⟨z, by simp [idsAll, e1], e2⟩
    · rcases isAll_parent ts par cs h2 y hy with ⟨e1, e2⟩ | ⟨z, e1, e2⟩
      · exact Or.inl ⟨by simp [e1], e2⟩
      · exact Or.inr ⟨z, by simp [idsAll, e1], e2⟩
end

/-- The chain of parents ends. -/
inductive Roots (h : Heap) : Nat → Prop
  | root {x : Nat} : h.parent x = none → Roots h x
  | step {x q : Nat} : h.parent x = some q → Roots h q → Roots h x

theorem roots_of_climb {h : Heap} : ∀ (n x : Nat) (c : List Nat), climb h n x = some c → Roots h x
  | 0, x, c, hc => by simp [climb] at hc
  | n + 1, x, c, hc => by
    cases hp : h.parent x with
    | none => exact .root hp
    | some q =>
      simp only [climb, hp, Option.map_eq_some_iff] at hc
      obtain ⟨c', hc', _⟩ := hc
      exact .step hp (roots_of_climb n q c' hc')

theorem roots_of_acyclic {h : Heap} (hok : OK h) (hac : Acyclic h) {x : Nat} (hx : x < h.next) : Roots h x := by
  obtain ⟨c, hc⟩ := climb_of_acyclic hok hac h.next x hx [] (by simp) (by simp) (by simp)
  exact roots_of_climb _ _ _ hc

theorem not_anc_self {h : Heap} {x : Nat} (hr : Roots h x) : ¬ Anc h x x := by
  induction hr with
  | root hp =>
    intro ha
    cases ha with
    | parent e => rw [hp] at e; cases e
    | step e _ => rw [hp] at e; cases e
  | step hp _ ih =>
    intro ha
    cases ha with
    | parent e =>
      rw [hp] at e
      cases e
      exact ih (.parent hp)
    | step e ha' =>
      rw [hp] at e
      cases e
      exact ih (Anc.trans (.parent hp) ha')

mutual
theorem is_roots {h : Heap} {s : String} : ∀ (t : Node) (x : Nat) (par : Option Nat), Is h s par x t →
    Roots h x → ∀ y ∈ ids t, Roots h y
  | .mk sp d v ks, x, par, hi, hr, y, hy => by
    rw [Is] at hi
    obtain ⟨_, _, _, rfl, h5⟩ := hi
    rw [ids, List.mem_cons] at hy
    rcases hy with hy | hy
    · rw [hy]; exact hr
    · exact isAll_roots ks x _ h5 hr y hy
theorem isAll_roots {h : Heap} {s : String} : ∀ (ts : List Node) (q : Nat) (xs : List Nat),
    IsAll h s (some q) xs ts → Roots h q → ∀ y ∈ idsAll ts, Roots h y
  | [], _, _, _, _, y, hy => by simp [idsAll] at hy
  | t :: ts, q, xs, hi, hr, y, hy => by
    obtain ⟨c, cs, rfl, h1, h2⟩ := isAll_cons hi
    rw [idsAll, List.mem_append] at hy
    rcases hy with hy | hy
    · have hpar : h.parent c = some q := by cases t; rw [Is] at h1; exact h1.1
      exact is_roots t c _ h1 (.step hpar hr) y hy
    · exact isAll_roots ts q cs h2 hr y hy
end

/-- Two objects above the same one are comparable. -/
theorem anc_linear {h : Heap} {a b y : Nat} (ha : Anc h a y) (hb : Anc h b y) :
    a = b ∨ Anc h a b ∨ Anc h b a := by
  induction ha with
  | parent e =>
    cases hb with
    | parent e' => rw [e] at e'; cases e'; exact Or.inl rfl
    | step e' hb' => rw [e] at e'; cases e'; exact Or.inr (Or.inr hb')
  | step e ha' ih =>
    cases hb with
    | parent e' => rw [e] at e'; cases e'; exact Or.inr (Or.inl ha')
    | step e' hb' => rw [e] at e'; cases e'; exact ih hb'

mutual
theorem is_nodup {h : Heap} {s : String} : ∀ (t : Node) (x : Nat) (par : Option Nat), Is h s par x t →
    (h.kids x).Nodup → (∀ y ∈ ids t, (h.kids y).Nodup) → Roots h x → (ids t).Nodup
  | .mk sp d v ks, x, par, hi, hn, hk, hr => by
    have hi' := hi
    rw [Is] at hi'
    obtain ⟨_, _, _, rfl, h5⟩ := hi'
    rw [ids, List.nodup_cons]
    refine ⟨fun hm => not_anc_self hr (isAll_anc ks x _ h5 _ hm), ?_⟩
    exact isAll_nodup ks x _ h5 hn (fun y hy => hk y (by simp [ids, hy])) hr
theorem isAll_nodup {h : Heap} {s : String} : ∀ (ts : List Node) (q : Nat) (xs : List Nat),
    IsAll h s (some q) xs ts → xs.Nodup → (∀ y ∈ idsAll ts, (h.kids y).Nodup) → Roots h q → (idsAll ts).Nodup
  | [], _, _, _, _, _, _ => by simp [idsAll]
  | t :: ts, q, xs, hi, hn, hk, hr => by
    obtain ⟨c, cs, rfl, h1, h2⟩ := isAll_cons hi
    rw [List.nodup_cons] at hn
    have hpar : h.parent c = some q := by cases t; rw [Is] at h1; exact h1.1
    have hrc : Roots h c := .step hpar hr
    rw [idsAll]
    refine nodup_of_disjoint (is_nodup t c _ h1 (hk c (by simp [idsAll, is_mem h1]))
      (fun y hy => hk y (by simp [idsAll, hy])) hrc)
      (isAll_nodup ts q cs h2 hn.2 (fun y hy => hk y (by simp [idsAll, hy])) hr) ?_
    intro y hy hy'
    -- `y` lies below `c` and below another child of `q`
    obtain ⟨c', hc', hpc', hy''⟩ : ∃ c' ∈ cs, h.parent c' = some q ∧ (y = c' ∨ Anc h c' y) := by
      clear hn hk hrc h1 hi
      induction ts generalizing cs with
      | nil => simp [idsAll] at hy'
      | cons t' ts ih =>
        obtain ⟨c', cs', rfl, g1, g2⟩ := isAll_cons h2
        rw [idsAll, List.mem_append] at hy'
        rcases hy' with hy' | hy'
        · refine ⟨c', by simp, by cases t'; rw [Is] at g1; exact g1.1, is_anc t' c' _ g1 y hy'⟩
        · obtain ⟨c'', e1, e2⟩ := ih cs' g2 hy'
          exact ⟨c'', by simp [e1], e2⟩
    have hne : c ≠ c' := by rintro rfl; exact hn.1 hc'
    have key : ∀ a b, h.parent a = some q → h.parent b = some q → ¬ Anc h a b := by
      intro a b ea eb hab
      cases hab with
      | parent e =>
        rw [eb] at e
        cases e
        exact not_anc_self hr (.parent ea)
      | step e ha =>
        rw [eb] at e
        cases e
        exact not_anc_self hr (Anc.trans (.parent ea) ha)
    have hyc := is_anc t c _ h1 y hy
    rcases hyc with rfl | hyc
    · rcases hy'' with e | e
      · exact hne e
      · exact key _ _ hpc' hpar e
    · rcases hy'' with rfl | e
      · exact key _ _ hpar hpc' hyc
      · rcases anc_linear hyc e with e' | e' | e'
        · exact hne e'
        · exact key _ _ hpar hpc' e'
        · exact key _ _ hpc' hpar e'
end

/-- Every object below another belongs to its tree. -/
theorem is_of_anc {h : Heap} (hok : OK h) {s : String} {q : Nat} {T : List Nat}
    (htop : ∀ c ∈ h.kids q, c ∈ T) (hcl : ∀ z ∈ T, ∀ c ∈ h.kids z, c ∈ T) {y : Nat} (ha : Anc h q y)
    (hy : y < h.next) : y ∈ T := by
  induction ha with
  | parent e => exact htop _ (hok.parentKid _ hy _ e).2.1
  | step e _ ih =>
    obtain ⟨h1, h2, _⟩ := hok.parentKid _ hy _ e
    exact hcl _ (ih htop h1) _ h2

mutual
theorem is_lt {h : Heap} (hok : OK h) {s : String} : ∀ (t : Node) (x : Nat) (par : Option Nat), Is h s par x t →
    x < h.next → ∀ y ∈ ids t, y < h.next
  | .mk sp d v ks, x, par, hi, hx, y, hy => by
    rw [Is] at hi
    obtain ⟨_, _, _, rfl, h5⟩ := hi
    rw [ids, List.mem_cons] at hy
    rcases hy with hy | hy
    · rw [hy]; exact hx
    · exact isAll_lt hok ks _ _ h5 (fun c hc => (hok.kidParent x hx c hc).1) y hy
theorem isAll_lt {h : Heap} (hok : OK h) {s : String} : ∀ (ts : List Node) (par : Option Nat) (xs : List Nat),
    IsAll h s par xs ts → (∀ c ∈ xs, c < h.next) → ∀ y ∈ idsAll ts, y < h.next
  | [], _, _, _, _, y, hy => by simp [idsAll] at hy
  | t :: ts, par, xs, hi, hxs, y, hy => by
    obtain ⟨c, cs, rfl, h1, h2⟩ := isAll_cons hi
    rw [idsAll, List.mem_append] at hy
    rcases hy with hy | hy
    · exact is_lt hok t c par h1 (hxs c (by simp)) y hy
    · exact isAll_lt hok ts par cs h2 (fun c hc => hxs c (by simp [hc])) y hy
end

/-- What a successful `p.children.add_hierarchical(x)` leaves: a consistent, acyclic object graph in which
the objects below `p` are those that were there before, `x`, and those that were below `x`; attributes are
as before, and so are the parents and children of all other objects (but for the children of `p`). -/
structure Grown (h h' : Heap) (p x : Nat) : Prop where
  ok : OK h'
  acyclic : Acyclic h'
  data : SameData h h'
  below : ∀ y, y < h.next → (Anc h' p y ↔ Anc h p y ∨ y = x ∨ Anc h x y)
  rest : ∀ y, y < h.next → ¬ Anc h p y → ¬ Anc h x y → y ≠ x →
    h'.parent y = h.parent y ∧ (y ≠ p → h'.kids y = h.kids y)

theorem grown_of_after {h h' : Heap} (hok : OK h) (hac : Acyclic h) {p x : Nat} (hp : p < h.next)
    (hx : x < h.next) (hpar : h.parent x = none) (hne : x ≠ p) (hanc : ¬ Anc h x p) {s : String} (hsp : h.str p = s)
    {store : List Node} {tx : Node} {ks : List Node} (hst : IsAll h s (some p) (h.kids p) store)
    (hwst : ∀ k ∈ store, WF k) (htx : Is h s none x tx) (hwtx : WF tx)
    (hperm : (idsAll ks).Perm (idsAll store ++ ids tx)) (hks : ForestOK (h.span p) ks)
    (ha : After h h' s p ks (ids tx ++ idsAll store)) : Grown h h' p x := by
  obtain ⟨s1, s2⟩ := isAll_kids store (some p) _ hst hwst
  have s3 := is_kids tx x none htx hwtx
  have hTs : ∀ y, y < h.next → (y ∈ idsAll store ↔ Anc h p y) := by
    intro y hy
    refine ⟨isAll_anc store p _ hst y, fun hA => ?_⟩
    exact is_of_anc hok (s := s) (fun c hc => (s1 c hc).1) (fun z hz c hc => ((s2 z hz).2 c hc).1) hA hy
  have hTx : ∀ y, y < h.next → (y ∈ ids tx ↔ y = x ∨ Anc h x y) := by
    intro y hy
    refine ⟨is_anc tx x _ htx y, ?_⟩
    rintro (rfl | hA)
    · exact is_mem htx
    · exact is_of_anc hok (s := s) (fun c hc => ((s3 x (is_mem htx)).2 c hc).1)
        (fun z hz c hc => ((s3 z hz).2 c hc).1) hA hy
  have hmem : ∀ y, y ∈ idsAll ks ↔ y ∈ idsAll store ∨ y ∈ ids tx := by
    intro y; rw [hperm.mem_iff, List.mem_append]
  have hlt : ∀ y, y ∈ idsAll ks → y < h.next := by
    intro y hy
    rcases (hmem y).mp hy with hy | hy
    · exact isAll_lt hok store _ _ hst (fun c hc => (hok.kidParent p hp c hc).1) y hy
    · exact is_lt hok tx x _ htx hx y hy
  have hdat := ha.data
  have hspan' : h'.span = h.span := funext fun y => (hdat.2 y).1
  obtain ⟨k1, k2⟩ := isAll_kids ks (some p) _ ha.kids hks.2
  have k3 := isAll_parent ks (some p) _ ha.kids
  have hfr : ∀ y, y ∉ idsAll ks → h'.parent y = h.parent y ∧ (y ≠ p → h'.kids y = h.kids y) := by
    intro y hy
    rw [hmem, not_or] at hy
    exact ha.frame y (by rw [List.mem_append, not_or]; exact ⟨hy.2, hy.1⟩)
  have hpT : p ∉ idsAll ks := by
    rw [hmem, hTs p hp, hTx p hp]
    rintro (hA | rfl | hA)
    · exact hac p hp hA
    · exact hne rfl
    · exact hanc hA
  -- an object outside has its parent outside
  have hout : ∀ y, y < h.next → y ∉ idsAll ks → ∀ q, h.parent y = some q → q ∉ idsAll ks := by
    intro y hy hyT q hq hqT
    obtain ⟨_, e2, _⟩ := hok.parentKid y hy q hq
    apply hyT
    rw [hmem] at hqT ⊢
    rcases hqT with hq' | hq'
    · exact Or.inl ((s2 q hq').2 y e2).1
    · exact Or.inr ((s3 q hq').2 y e2).1
  have hrootsOut : ∀ y, Roots h y → y < h.next → y ∉ idsAll ks → Roots h' y := by
    intro y hr
    induction hr with
    | root e => intro hy hyT; exact .root (by rw [(hfr _ hyT).1, e])
    | step e _ ih =>
      intro hy hyT
      exact .step (by rw [(hfr _ hyT).1, e]) (ih (hok.parentKid _ hy _ e).1 (hout _ hy hyT _ e))
  have hroots : ∀ y, y < h.next → Roots h' y := by
    intro y hy
    by_cases hyT : y ∈ idsAll ks
    · exact isAll_roots ks p _ ha.kids (hrootsOut p (roots_of_acyclic hok hac hp) hp hpT) y hyT
    · exact hrootsOut y (roots_of_acyclic hok hac hy) hy hyT
  have hac' : Acyclic h' := fun y hy => not_anc_self (hroots y (by rw [← hdat.1]; exact hy))
  have hok' : OK h' := by
    refine ⟨fun y hy => ?_, fun q hq => ?_, fun q hq c hc => ?_, fun y hy q hq => ?_⟩
    · rw [hdat.1] at hy
      rw [(hdat.2 y).1, (hdat.2 y).2.1]
      exact hok.span y hy
    · rw [hdat.1] at hq
      by_cases hqp : q = p
      · subst hqp
        rw [isAll_spans ha.kids, hspan']
        exact hks.1
      · by_cases hqT : q ∈ idsAll ks
        · exact (k2 q hqT).1
        · rw [hspan', (hfr q hqT).2 hqp]; exact hok.kids q hq
    · rw [hdat.1] at hq ⊢
      by_cases hqp : q = p
      · subst hqp
        have := k1 c hc
        exact ⟨hlt c this.1, this.2.1, by rw [this.2.2, (hdat.2 q).2.1, hsp]⟩
      · by_cases hqT : q ∈ idsAll ks
        · have := (k2 q hqT).2 c hc
          exact ⟨hlt c this.1, this.2.1, by rw [this.2.2.1, this.2.2.2]⟩
        · rw [(hfr q hqT).2 hqp] at hc
          obtain ⟨c1, c2, c3⟩ := hok.kidParent q hq c hc
          have hcT : c ∉ idsAll ks := by
            intro hcT
            rw [hmem] at hcT
            rcases hcT with hcT | hcT
            · rcases isAll_parent store _ _ hst c hcT with ⟨_, e⟩ | ⟨z, hz, e, _⟩
              · rw [c2] at e; cases e; exact hqp rfl
              · rw [c2] at e; cases e; exact hqT ((hmem q).mpr (Or.inl hz))
            · rcases is_parent tx x _ htx c hcT with rfl | ⟨z, hz, e, _⟩
              · rw [hpar] at c2; cases c2
              · rw [c2] at e; cases e; exact hqT ((hmem q).mpr (Or.inr hz))
          exact ⟨c1, by rw [(hfr c hcT).1, c2], by rw [(hdat.2 c).2.1, (hdat.2 q).2.1, c3]⟩
    · rw [hdat.1] at hy ⊢
      have hself : y ≠ q := by
        rintro rfl
        exact not_anc_self (hroots y hy) (.parent hq)
      by_cases hyT : y ∈ idsAll ks
      · rcases k3 y hyT with ⟨e1, e2⟩ | ⟨z, hz, e1, e2⟩
        · rw [hq] at e2; cases e2; exact ⟨hp, e1, hself⟩
        · rw [hq] at e1; cases e1; exact ⟨hlt q hz, e2, hself⟩
      · rw [(hfr y hyT).1] at hq
        obtain ⟨q1, q2, _⟩ := hok.parentKid y hy q hq
        have hqT := hout y hy hyT q hq
        have hqp : q ≠ p := by
          rintro rfl
          exact hyT ((hmem y).mpr (Or.inl (s1 y q2).1))
        exact ⟨q1, by rw [(hfr q hqT).2 hqp]; exact q2, hself⟩
  refine ⟨hok', hac', hdat, fun y hy => ?_, fun y hy h1 h2 h3 => ?_⟩
  · have : Anc h' p y ↔ y ∈ idsAll ks := by
      refine ⟨fun hA => ?_, isAll_anc ks p _ ha.kids y⟩
      exact is_of_anc hok' (s := s) (fun c hc => (k1 c hc).1) (fun z hz c hc => ((k2 z hz).2 c hc).1) hA
        (by rw [hdat.1]; exact hy)
    rw [this, hmem, hTs y hy, hTx y hy]
  · refine hfr y ?_
    rw [hmem, hTs y hy, hTx y hy]
    rintro (e | e | e)
    · exact h1 e
    · exact h3 e
    · exact h2 e

mutual
theorem is_listing {h : Heap} {s : String} : ∀ (t : Node) (x : Nat) (par : Option Nat), Is h s par x t →
    ∀ c ∈ listing t, ∃ y ∈ ids t, c.2.2 = some y ∧ c.1 = h.span y
  | .mk sp d v ks, x, par, hi, c, hc => by
    rw [Is] at hi
    obtain ⟨_, _, h3, rfl, h5⟩ := hi
    rw [listing, List.mem_cons] at hc
    rcases hc with rfl | hc
    · exact ⟨x, by simp [ids], rfl, h3.symm⟩
    · obtain ⟨y, h1, h2⟩ := isAll_listing ks _ _ h5 c hc
      exact ⟨y, by simp [ids, h1], h2⟩
theorem isAll_listing {h : Heap} {s : String} : ∀ (ts : List Node) (par : Option Nat) (xs : List Nat),
    IsAll h s par xs ts → ∀ c ∈ listingAll ts, ∃ y ∈ idsAll ts, c.2.2 = some y ∧ c.1 = h.span y
  | [], _, _, _, c, hc => by simp [listingAll] at hc
  | t :: ts, par, xs, hi, c, hc => by
    obtain ⟨z, cs, rfl, h1, h2⟩ := isAll_cons hi
    rw [listingAll, List.mem_append] at hc
    rcases hc with hc | hc
    · obtain ⟨y, e1, e2⟩ := is_listing t z par h1 c hc
      exact ⟨y, by simp [idsAll, e1], e2⟩
    · obtain ⟨y, e1, e2⟩ := isAll_listing ts par cs h2 c hc
      exact ⟨y, by simp [idsAll, e1], e2⟩
end

theorem listing_laminarAll {p : Span} {ks : List Node} (hp0 : 0 ≤ p.start) (hp1 : p.start ≤ p.stop)
    (h : ForestOK p ks) : ∀ a ∈ listingAll ks, ∀ b ∈ listingAll ks, Laminar a.1 b.1 := by
  have := listing_laminar (n := .mk p none none ks) (WF.mk hp0 hp1 h.1 h.2)
  intro a ha b hb
  exact this a (by simp [listing, ha]) b (by simp [listing, hb])

/-- C28 in memory: in a consistent acyclic object graph, for an object `x` without parent, on the string of
`p`, that is neither `p` nor above it, and any `key`: `p.children.add_hierarchical(x, key=key)` terminates
(from some recursion limit on, always with the same result); it returns normally exactly when `x` lies in the
span of `p` and neither `x` nor anything below it crosses anything below `p`, and raises `ValueError`
otherwise; and if it returns normally, the graph is consistent and acyclic again, below `p` are the
objects that were below it, `x`, and the objects that were below `x`, no object has changed its span,
string, desc or value function, and no other object has changed its parent or children. -/
theorem C28_add_hierarchical_objects (key : Option (Nat → Int)) {h : Heap} (hok : OK h) (hac : Acyclic h)
    {p x : Nat} (hp : p < h.next) (hx : x < h.next) (hpar : h.parent x = none) (hne : x ≠ p)
    (hanc : ¬ Anc h x p) (hs : h.str x = h.str p) :
    ∃ h' r, (∃ N, ∀ n, N ≤ n → addHier key n h p x = (h', r)) ∧
      (r = .ok () ∨ r = .error .valueError) ∧
      (r = .ok () ↔ Inside (h.span p) (h.span x) ∧
        ∀ a, a < h.next → (a = x ∨ Anc h x a) → ∀ c, c < h.next → Anc h p c →
          Laminar (h.span c) (h.span a)) ∧
      (r = .ok () → Grown h h' p x) := by
  obtain ⟨tp0, hlp⟩ := exists_tree hok hac p hp
  obtain ⟨tx0, hlx⟩ := exists_tree hok hac x hx
  obtain ⟨tp, hip, hwp, _⟩ := exists_is hok _ tp0 p hp rfl hlp
  obtain ⟨tx, hix, hwx, _⟩ := exists_is hok _ tx0 x hx hs hlx
  rw [hpar] at hix
  obtain ⟨psp, pd, pv, store⟩ := tp
  have hip' := hip
  rw [Is] at hip'
  obtain ⟨_, _, h3, h4, hst⟩ := hip'
  have hfor : ForestOK (h.span p) store := by
    rw [h3]
    cases hwp with
    | mk a b c e => exact ⟨c, e⟩
  have hsp := hok.span p hp
  have hnodup : ∀ y, y < h.next → (h.kids y).Nodup := fun y hy => kidsOK_nodup (hok.kids y hy)
  have hltp := is_lt hok _ p _ hip hp
  have hltx := is_lt hok tx x _ hix hx
  have hnp := is_nodup _ p _ hip (hnodup p hp) (fun y hy => hnodup y (hltp y hy)) (roots_of_acyclic hok hac hp)
  have hnx := is_nodup tx x _ hix (hnodup x hx) (fun y hy => hnodup y (hltx y hy)) (roots_of_acyclic hok hac hx)
  rw [ids, List.nodup_cons, h4] at hnp
  have hancp := isAll_anc store p _ hst
  have hancx := is_anc tx x _ hix
  obtain ⟨s1, s2⟩ := isAll_kids store (some p) _ hst hfor.2
  have s3 := is_kids tx x none hix hwx
  have hTs : ∀ y, y < h.next → Anc h p y → y ∈ idsAll store := fun y hy hA =>
    is_of_anc hok (s := h.str p) (fun c hc => (s1 c hc).1) (fun z hz c hc => ((s2 z hz).2 c hc).1) hA hy
  have hTx : ∀ y, y < h.next → y = x ∨ Anc h x y → y ∈ ids tx := by
    rintro y hy (rfl | hA)
    · exact is_mem hix
    · exact is_of_anc hok (s := h.str p) (fun c hc => ((s3 x (is_mem hix)).2 c hc).1)
        (fun z hz c hc => ((s3 z hz).2 c hc).1) hA hy
  have hsite : Site h (h.str p) p store := ⟨rfl, hst, hfor, hnp.1, hnp.2⟩
  have hpx : p ∉ ids tx := by
    intro hm
    rcases hancx p hm with e | e
    · exact hne e.symm
    · exact hanc e
  have hdis : ∀ y ∈ ids tx, y ∉ idsAll store := by
    intro y hy hy'
    have ha := hancp y hy'
    have no : ∀ a, h.parent x = none → ¬ Anc h a x := by
      intro a e hA
      cases hA with
      | parent e' => rw [e] at e'; cases e'
      | step e' _ => rw [e] at e'; cases e'
    rcases hancx y hy with rfl | hb
    · exact no _ hpar ha
    · rcases anc_linear ha hb with e | e | e
      · exact hne e.symm
      · exact no _ hpar e
      · exact hanc e
  have hsim := sim_any key hsp.1 hsp.2.1 tx h x store rfl hix hwx hsite hpx hnx hdis
  -- what the conditions say about the trees
  have hxspan : tx.span = h.span x := is_span hix
  have hids : ∀ {ts : List Node} {y : Nat}, y ∈ idsAll ts → ∃ c ∈ listingAll ts, c.2.2.getD 0 = y := by
    intro ts y hy
    rw [idsAll_listing, List.mem_map] at hy
    exact hy
  have hids1 : ∀ {y : Nat}, y ∈ ids tx → ∃ c ∈ listing tx, c.2.2.getD 0 = y := by
    intro y hy
    rw [ids_listing, List.mem_map] at hy
    exact hy
  rcases hier_spec (keyN key) hsp.1 hsp.2.1 tx store hwx hfor with ⟨e, ho⟩ | ⟨st', e, hf', hperm, _⟩
  · rw [e] at hsim
    obtain ⟨h', hN⟩ := hsim
    refine ⟨h', _, hN, Or.inr rfl, ?_, by intro hr; cases hr⟩
    constructor
    · intro hr; cases hr
    · rintro ⟨hin, hl⟩
      exfalso
      have hsucc := (C28_add_hierarchical_succeeds (keyN key) hsp.1 hsp.2.1 store hfor tx hwx).2
        (by rw [hxspan]; exact hin) (by
          intro a ha c hc
          obtain ⟨y, y1, _, y2⟩ := is_listing tx x _ hix a ha
          obtain ⟨z, z1, _, z2⟩ := isAll_listing store _ _ hst c hc
          rw [y2, z2]
          exact hl y (hltx y y1) (hancx y y1) z (hltp z (by simp [ids, z1])) (hancp z z1))
      obtain ⟨st', e'⟩ := hsucc
      rw [e] at e'
      cases e'
  · rw [e] at hsim
    obtain ⟨h', hN, ha⟩ := hsim
    have hidp : (idsAll st').Perm (idsAll store ++ ids tx) := by
      rw [idsAll_listing, idsAll_listing, ids_listing, ← List.map_append]
      exact hperm.map _
    refine ⟨h', _, hN, Or.inl rfl, ?_, fun _ => ?_⟩
    · constructor
      · intro _
        have hmem : ∀ c, c ∈ listingAll store ∨ c ∈ listing tx → c ∈ listingAll st' := by
          intro c hc
          rw [hperm.mem_iff, List.mem_append]
          exact hc
        constructor
        · have := listingAll_inside st' (h.span p) hf'.2 hf'.1 _ (hmem _ (Or.inr (listing_self tx)))
          dsimp only at this
          rw [hxspan] at this
          exact ⟨this.1, this.2.2⟩
        · intro a ha' hxa c hc hpc
          obtain ⟨ca, ca1, ca2⟩ := hids1 (hTx a ha' hxa)
          obtain ⟨cc, cc1, cc2⟩ := hids (hTs c hc hpc)
          obtain ⟨y, y1, y3, y2⟩ := is_listing tx x _ hix ca ca1
          obtain ⟨z, z1, z3, z2⟩ := isAll_listing store _ _ hst cc cc1
          rw [y3, Option.getD_some] at ca2
          rw [z3, Option.getD_some] at cc2
          subst ca2 cc2
          rw [← y2, ← z2]
          exact listing_laminarAll hsp.1 hsp.2.1 hf' cc (hmem cc (Or.inl cc1)) ca (hmem ca (Or.inr ca1))
      · intro _; rfl
    · exact grown_of_after hok hac hp hx hpar hne hanc rfl hst hfor.2 hix hwx hidp hf' ha

/-! ## Nesting -/

mutual
theorem is_nesting {h : Heap} (hok : OK h) {s : String} {y z : Nat}
    (hw : (h.span z).start < (h.span z).stop) (hin : Inside (h.span y) (h.span z)) (hne : h.span y ≠ h.span z) :
    ∀ (t : Node) (x : Nat) (par : Option Nat), Is h s par x t → x < h.next → y ∈ ids t → z ∈ ids t → Anc h y z
  | .mk sp d v ks, x, par, hi, hx, hy, hz => by
    have hlt := is_lt hok _ x par hi hx
    have hanc := is_anc _ x par hi
    have hi' := hi
    rw [Is] at hi'
    obtain ⟨_, _, _, rfl, h5⟩ := hi'
    rcases hanc y hy with rfl | ay
    · rcases hanc z hz with rfl | az
      · exact absurd rfl hne
      · exact az
    · rcases hanc z hz with rfl | az
      · exfalso
        have := Anc.span hok ay (hlt y hy)
        apply hne
        unfold Inside at hin
        cases ey : h.span y; cases ez : h.span z
        rw [ey, ez] at this hin
        simp only [Span.mk.injEq]
        dsimp only at this hin
        omega
      · rw [ids, List.mem_cons] at hy hz
        have hself : ∀ y, Anc h x y → y = x → h.span y = h.span x := fun _ _ e => by rw [e]
        rcases hy with hy | hy
        · simp only [Option.getD_some] at hy; subst hy; exact az
        · rcases hz with hz | hz
          · simp only [Option.getD_some] at hz
            subst hz
            exfalso
            have := Anc.span hok ay (hlt y (by simp [ids, hy]))
            apply hne
            unfold Inside at hin
            cases ey : h.span y; cases ez : h.span z
            rw [ey, ez] at this hin
            simp only [Span.mk.injEq]
            dsimp only at this hin
            omega
          · refine isAll_nesting hok hw hin hne ks _ _ h5 (fun c hc => (hok.kidParent x hx c hc).1) ?_ hy hz
            have := (hok.kids x hx).ordered
            rw [List.pairwise_map] at this
            exact this
theorem isAll_nesting {h : Heap} (hok : OK h) {s : String} {y z : Nat}
    (hw : (h.span z).start < (h.span z).stop) (hin : Inside (h.span y) (h.span z)) (hne : h.span y ≠ h.span z) :
    ∀ (ts : List Node) (par : Option Nat) (xs : List Nat), IsAll h s par xs ts → (∀ c ∈ xs, c < h.next) →
    xs.Pairwise (fun a b => (h.span a).start < (h.span b).start ∧ (h.span a).stop ≤ (h.span b).start) →
    y ∈ idsAll ts → z ∈ idsAll ts → Anc h y z
  | [], _, _, _, _, _, hy, _ => by simp [idsAll] at hy
  | t :: ts, par, xs, hi, hxs, hord, hy, hz => by
    obtain ⟨c, cs, rfl, h1, h2⟩ := isAll_cons hi
    rw [List.pairwise_cons] at hord
    have inside1 : ∀ u ∈ ids t, (h.span c).start ≤ (h.span u).start ∧ (h.span u).stop ≤ (h.span c).stop := by
      intro u hu
      rcases is_anc t c _ h1 u hu with rfl | e
      · exact ⟨Int.le_refl _, Int.le_refl _⟩
      · exact Anc.span hok e (is_lt hok t c _ h1 (hxs c (by simp)) u hu)
    have inside2 : ∀ u ∈ idsAll ts, (h.span c).stop ≤ (h.span u).start := by
      intro u hu
      obtain ⟨c', hc', hu'⟩ := isAll_under ts par cs h2 u hu
      have ho := (hord.1 c' hc').2
      rcases hu' with rfl | e
      · exact ho
      · have := Anc.span hok e (isAll_lt hok ts par cs h2 (fun c hc => hxs c (by simp [hc])) u hu)
        omega
    rw [idsAll, List.mem_append] at hy hz
    unfold Inside at hin
    rcases hy with hy | hy
    · rcases hz with hz | hz
      · exact is_nesting hok hw hin hne t c _ h1 (hxs c (by simp)) hy hz
      · exfalso
        have a1 := inside1 y hy
        have a2 := inside2 z hz
        omega
    · rcases hz with hz | hz
      · exfalso
        have a1 := inside1 z hz
        have a2 := inside2 y hy
        omega
      · exact isAll_nesting hok hw hin hne ts par cs h2 (fun c hc => hxs c (by simp [hc])) hord.2 hy hz
theorem isAll_under {h : Heap} {s : String} : ∀ (ts : List Node) (par : Option Nat) (xs : List Nat),
    IsAll h s par xs ts → ∀ y ∈ idsAll ts, ∃ c ∈ xs, y = c ∨ Anc h c y
  | [], _, _, _, y, hy => by simp [idsAll] at hy
  | t :: ts, par, xs, hi, y, hy => by
    obtain ⟨c, cs, rfl, h1, h2⟩ := isAll_cons hi
    rw [idsAll, List.mem_append] at hy
    rcases hy with hy | hy
    · exact ⟨c, by simp, is_anc t c _ h1 y hy⟩
    · obtain ⟨c', e1, e2⟩ := isAll_under ts par cs h2 y hy
      exact ⟨c', by simp [e1], e2⟩
end

/-- C30 in memory: in a consistent acyclic object graph — such as `add_hierarchical` leaves — the spans of the
objects below one decide who descends from whom: `y` is an ancestor of `z` (of another span, not empty)
exactly when the span of `z` lies in the span of `y`. -/
theorem C30_nesting_objects {h : Heap} (hok : OK h) (hac : Acyclic h) {p y z : Nat} (hp : p < h.next)
    (hy : y < h.next) (hz : z < h.next) (hpy : Anc h p y) (hpz : Anc h p z)
    (hw : (h.span z).start < (h.span z).stop) (hne : h.span y ≠ h.span z) :
    Anc h y z ↔ Inside (h.span y) (h.span z) := by
  constructor
  · intro hA
    have := Anc.span hok hA hz
    exact this
  · intro hin
    obtain ⟨tp0, hlp⟩ := exists_tree hok hac p hp
    obtain ⟨tp, hip, hwp, _⟩ := exists_is hok _ tp0 p hp rfl hlp
    have s3 := is_kids tp p _ hip hwp
    have hT : ∀ y, y < h.next → Anc h p y → y ∈ ids tp := fun y hy hA =>
      is_of_anc hok (s := h.str p) (fun c hc => ((s3 p (is_mem hip)).2 c hc).1)
        (fun z hz c hc => ((s3 z hz).2 c hc).1) hA hy
    exact is_nesting hok hw hin hne tp p _ hip hp (hT y hy hpy) (hT z hz hpz)

/-! ## Several arguments -/

theorem no_anc_of_root {h : Heap} {a x : Nat} (hx : h.parent x = none) : ¬ Anc h a x := by
  intro hA
  cases hA with
  | parent e' => rw [hx] at e'; cases e'
  | step e' _ => rw [hx] at e'; cases e'

/-- The trees that are not involved stay as they were. -/
theorem Grown.other {h h' : Heap} {p x : Nat} (g : Grown h h' p x) (hok : OK h) (hac : Acyclic h) (hp : p < h.next)
    (hx : x < h.next) (hpar : h.parent x = none) (hne : x ≠ p) (hanc : ¬ Anc h x p) {w : Nat} (hw : w < h.next)
    (hwpar : h.parent w = none) (hwx : w ≠ x) (hwp : w ≠ p) (hwanc : ¬ Anc h w p) :
    h'.parent w = none ∧ ¬ Anc h' w p ∧ ∀ y, y < h.next → (Anc h' w y ↔ Anc h w y) := by
  have hup : ∀ y, y < h.next → ¬ Anc h p y → ¬ Anc h x y → y ≠ x → ∀ z, h.parent y = some z →
      z < h.next ∧ ¬ Anc h p z ∧ ¬ Anc h x z := by
    intro y hy h1 h2 _ z hz
    exact ⟨(hok.parentKid y hy z hz).1, fun e => h1 (.step hz e), fun e => h2 (.step hz e)⟩
  -- an untouched object keeps its ancestors
  have keep : ∀ a y, Anc h' a y → y < h.next → ¬ Anc h p y → ¬ Anc h x y → y ≠ x → Anc h a y := by
    intro a y hA
    induction hA with
    | parent e =>
      intro hy h1 h2 h3
      rw [(g.rest _ hy h1 h2 h3).1] at e
      exact .parent e
    | step e _ ih =>
      intro hy h1 h2 h3
      rw [(g.rest _ hy h1 h2 h3).1] at e
      obtain ⟨z1, z2, z3⟩ := hup _ hy h1 h2 h3 _ e
      refine .step e (ih z1 z2 z3 ?_)
      rintro rfl
      exact h2 (.parent e)
  have hunt : ∀ u, Anc h w u → ¬ Anc h p u ∧ ¬ Anc h x u ∧ u ≠ x := by
    intro u hwu
    refine ⟨fun hpy => ?_, fun hpy => ?_, ?_⟩
    · rcases anc_linear hpy hwu with e' | e' | e'
      · exact hwp e'.symm
      · exact no_anc_of_root hwpar e'
      · exact hwanc e'
    · rcases anc_linear hpy hwu with e' | e' | e'
      · exact hwx e'.symm
      · exact no_anc_of_root hwpar e'
      · exact no_anc_of_root hpar e'
    · rintro rfl; exact no_anc_of_root hpar hwu
  have keep0 : ∀ a y, Anc h a y → (∀ u, Anc h a u → ¬ Anc h p u ∧ ¬ Anc h x u ∧ u ≠ x) → y < h.next → Anc h' a y := by
    intro a y hA
    induction hA with
    | parent e =>
      intro hu hy
      obtain ⟨h1, h2, h3⟩ := hu _ (.parent e)
      exact .parent (by rw [(g.rest _ hy h1 h2 h3).1, e])
    | step e hA ih =>
      intro hu hy
      obtain ⟨h1, h2, h3⟩ := hu _ (.step e hA)
      exact .step (by rw [(g.rest _ hy h1 h2 h3).1, e]) (ih hu (hok.parentKid _ hy _ e).1)
  have keep' : ∀ y, Anc h w y → y < h.next → Anc h' w y := fun y hA hy => keep0 w y hA hunt hy
  have hwpar' : h'.parent w = none := by
    rw [(g.rest w hw (no_anc_of_root hwpar) (no_anc_of_root hwpar) hwx).1, hwpar]
  have hnp : ¬ Anc h' w p := fun hA => hwanc (keep w p hA hp (hac p hp) hanc (fun e => hne e.symm))
  refine ⟨hwpar', hnp, fun y hy => ⟨fun hA => ?_, fun hA => keep' y hA hy⟩⟩
  by_cases hpy : Anc h' p y
  · exfalso
    rcases anc_linear hpy hA with e' | e' | e'
    · exact hwp e'.symm
    · exact no_anc_of_root hwpar' e'
    · exact hnp e'
  · rw [g.below y hy, not_or, not_or] at hpy
    exact keep w y hA hy hpy.1 hpy.2.2 hpy.2.1

/-- C28 in memory, several arguments: distinct parentless objects on the string of `p`, none of them `p` or
above it, all inside the span of `p`, none of them (or of the objects below them) crossing each other or
anything below `p`, are all added: `p.children.add_hierarchical(*xs, key=key)` returns normally, the graph is
consistent and acyclic, and below `p` are the objects that were below it, the `xs` and what was below them. -/
theorem C28_add_hierarchical_all_objects (key : Option (Nat → Int)) {p : Nat} : ∀ (xs : List Nat) (h : Heap),
    OK h → Acyclic h → p < h.next → xs.Nodup →
    (∀ x ∈ xs, x < h.next ∧ h.parent x = none ∧ x ≠ p ∧ ¬ Anc h x p ∧ h.str x = h.str p ∧
      Inside (h.span p) (h.span x)) →
    (∀ a, a < h.next → (∃ x ∈ xs, a = x ∨ Anc h x a) → ∀ c, c < h.next →
      (Anc h p c ∨ ∃ x ∈ xs, c = x ∨ Anc h x c) → Laminar (h.span c) (h.span a)) →
    ∃ h', (∃ N, ∀ n, N ≤ n → addHierArgs key n h p xs = (h', .ok ())) ∧ OK h' ∧ Acyclic h' ∧ SameData h h' ∧
      ∀ y, y < h.next → (Anc h' p y ↔ Anc h p y ∨ ∃ x ∈ xs, y = x ∨ Anc h x y)
  | [], h, hok, hac, _, _, _, _ =>
    ⟨h, ⟨0, fun _ _ => rfl⟩, hok, hac, .refl h, fun y _ => by simp⟩
  | x :: xs, h, hok, hac, hp, hnd, hxs, hlam => by
    obtain ⟨x1, x2, x3, x4, x5, x6⟩ := hxs x (by simp)
    rw [List.nodup_cons] at hnd
    obtain ⟨h1, r, ⟨N, hN⟩, _, hiff, hgrow⟩ := C28_add_hierarchical_objects key hok hac hp x1 x2 x3 x4 x5
    have hr : r = .ok () := hiff.mpr ⟨x6, fun a ha hxa c hc hpc =>
      hlam a ha ⟨x, by simp, hxa⟩ c hc (Or.inl hpc)⟩
    have g := hgrow hr
    have hn := g.data.1
    have hoth : ∀ w ∈ xs, h1.parent w = none ∧ ¬ Anc h1 w p ∧ ∀ y, y < h.next → (Anc h1 w y ↔ Anc h w y) := by
      intro w hw
      obtain ⟨w1, w2, w3, w4, _, _⟩ := hxs w (by simp [hw])
      exact g.other hok hac hp x1 x2 x3 x4 w1 w2 (by rintro rfl; exact hnd.1 hw) w3 w4
    obtain ⟨h', ⟨M, hM⟩, g1, g2, g3, g4⟩ := C28_add_hierarchical_all_objects key xs h1 g.ok g.acyclic
      (by rw [hn]; exact hp) hnd.2 (by
        intro w hw
        obtain ⟨w1, w2, w3, w4, w5, w6⟩ := hxs w (by simp [hw])
        obtain ⟨o1, o2, _⟩ := hoth w hw
        exact ⟨by rw [hn]; exact w1, o1, w3, o2, by rw [(g.data.2 w).2.1, (g.data.2 p).2.1]; exact w5,
          by rw [(g.data.2 w).1, (g.data.2 p).1]; exact w6⟩) (by
        intro a ha hxa c hc hpc
        rw [hn] at ha hc
        rw [(g.data.2 a).1, (g.data.2 c).1]
        obtain ⟨w, hw, hwa⟩ := hxa
        refine hlam a ha ⟨w, by simp [hw], ?_⟩ c hc ?_
        · rcases hwa with e | e
          · exact Or.inl e
          · exact Or.inr (((hoth w hw).2.2 a ha).mp e)
        · rcases hpc with e | ⟨w', hw', e⟩
          · rcases (g.below c hc).mp e with e | e
            · exact Or.inl e
            · exact Or.inr ⟨x, by simp, e⟩
          · refine Or.inr ⟨w', by simp [hw'], ?_⟩
            rcases e with e | e
            · exact Or.inl e
            · exact Or.inr (((hoth w' hw').2.2 c hc).mp e))
    refine ⟨h', ⟨N + M, fun n hn => ?_⟩, g1, g2, g.data.trans g3, fun y hy => ?_⟩
    · rw [addHierArgs, hN n (by omega), hr]
      exact hM n (by omega)
    · rw [g4 y (by rw [hn]; exact hy), g.below y hy]
      constructor
      · rintro ((e | e) | ⟨w, hw, e⟩)
        · exact Or.inl e
        · exact Or.inr ⟨x, by simp, e⟩
        · refine Or.inr ⟨w, by simp [hw], ?_⟩
          rcases e with e | e
          · exact Or.inl e
          · exact Or.inr (((hoth w hw).2.2 y hy).mp e)
      · rintro (e | ⟨w, hw, e⟩)
        · exact Or.inl (Or.inl e)
        · rcases List.mem_cons.mp hw with rfl | hw
          · exact Or.inl (Or.inr e)
          · refine Or.inr ⟨w, hw, ?_⟩
            rcases e with e | e
            · exact Or.inl e
            · exact Or.inr (((hoth w hw).2.2 y hy).mpr e)

/-! ## A concrete case -/

/-- `0` has the children `1` and `2`; `3` (which has the child `4`) is to be added to `0`. -/
def exHierOps : List Op :=
  [.new "abcdefghij" none none none, .new "abcdefghij" (some 1) (some 2) none, .new "abcdefghij" (some 4) (some 5) none,
   .new "abcdefghij" (some 0) (some 8) none, .new "abcdefghij" (some 4) (some 7) none, .add 0 [1, 2], .add 3 [4]]
/-- The memory before the call. -/
def exHier : Heap := empty.runAll exHierOps

theorem exHier_legal : Legal empty exHierOps := by simp [exHierOps, Legal, Op.ids]; decide
theorem exHier_ok : OK exHier := C24_children_invariant _ exHier_legal
theorem exHier_acyclic : Acyclic exHier :=
  C25_acyclic_partial _ exHier_legal (by simp [exHierOps, Guarded, OpGuard]; decide)

/-- The hypotheses of `C28_add_hierarchical_objects` hold of it, and what the call does. -/
example : OK exHier ∧ Acyclic exHier ∧ 0 < exHier.next ∧ 3 < exHier.next ∧ exHier.parent 3 = none ∧ 3 ≠ 0 ∧
    ¬ Anc exHier 3 0 ∧ exHier.str 3 = exHier.str 0 :=
  ⟨exHier_ok, exHier_acyclic, by decide, by decide, by decide, by decide, no_anc_of_root (by decide), by decide⟩
example : (addHier none 9 exHier 0 3).2 = .ok () ∧ (addHier none 9 exHier 0 3).1.kids 0 = [3] ∧
    (addHier none 9 exHier 0 3).1.kids 3 = [1, 4] ∧ (addHier none 9 exHier 0 3).1.kids 4 = [2] ∧
    (addHier none 9 exHier 0 3).1.parent 2 = some 4 := by decide
/-- So in that memory the spans decide who descends from whom. -/
example (h' : Heap) (g : Grown exHier h' 0 3) : Anc h' 4 2 := by
  have e : ∀ y, h'.span y = exHier.span y := fun y => (g.data.2 y).1
  have hn : h'.next = 5 := g.data.1
  have b : ∀ y, y < 5 → (Anc exHier 0 y ∨ y = 3 ∨ Anc exHier 3 y) → Anc h' 0 y := fun y hy => (g.below y hy).mpr
  refine (C30_nesting_objects g.ok g.acyclic (p := 0) (by omega) (by omega) (by omega)
    (b 4 (by omega) (Or.inr (Or.inr (.parent (by decide))))) (b 2 (by omega) (Or.inl (.parent (by decide))))
    (by rw [e]; decide) (by rw [e, e]; decide)).mpr (by rw [e, e]; decide)
/-- Several arguments: two loose objects added to a third one at once. -/
example : ∃ h', (∃ N, ∀ n, N ≤ n → addHierArgs none n (empty.runAll (exHierOps.take 5)) 3 [2, 4] = (h', .ok ())) ∧
    Anc h' 3 2 ∧ Anc h' 3 4 := by
  have hl : Legal empty (exHierOps.take 5) := by simp [exHierOps, Legal, Op.ids]
  have hroot : ∀ a y, y < 5 → ¬ Anc (empty.runAll (exHierOps.take 5)) a y := by
    intro a y hy
    refine no_anc_of_root ?_
    have : y = 0 ∨ y = 1 ∨ y = 2 ∨ y = 3 ∨ y = 4 := by omega
    rcases this with rfl | rfl | rfl | rfl | rfl <;> decide
  obtain ⟨h', h1, _, _, _, h5⟩ := C28_add_hierarchical_all_objects none (p := 3) [2, 4]
    (empty.runAll (exHierOps.take 5)) (C24_children_invariant _ hl)
    (fun y hy => hroot y y hy) (by decide) (by decide) (by
      intro x hx
      simp only [List.mem_cons, List.not_mem_nil, or_false] at hx
      rcases hx with rfl | rfl
      · exact ⟨by decide, by decide, by decide, hroot _ _ (by decide), by decide, by decide⟩
      · exact ⟨by decide, by decide, by decide, hroot _ _ (by decide), by decide, by decide⟩) (by
      intro a ha hxa c hc hpc
      have hA : a = 2 ∨ a = 4 := by
        obtain ⟨x, hx, e | e⟩ := hxa
        · subst e; simpa using hx
        · exact absurd e (hroot _ _ ha)
      have hC : c = 2 ∨ c = 4 := by
        rcases hpc with e | ⟨x, hx, e | e⟩
        · exact absurd e (hroot _ _ hc)
        · subst e; simpa using hx
        · exact absurd e (hroot _ _ hc)
      rcases hA with rfl | rfl <;> rcases hC with rfl | rfl <;> decide)
  exact ⟨h', h1, (h5 2 (by decide)).mpr (Or.inr ⟨2, by simp, Or.inl rfl⟩),
    (h5 4 (by decide)).mpr (Or.inr ⟨4, by simp, Or.inl rfl⟩)⟩

end Pawpaw.Props
