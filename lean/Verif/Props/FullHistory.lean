import Verif.Props.HierHistory
import Verif.Props.Step
/-!
# C24, C25: histories with every operation on child lists
-/
set_option linter.unusedSectionVars false
namespace Pawpaw.Props
open TreeSpec HeapSpec Heap

/-- Insertion of Itos that fit, between children of positive width, keeps the children in order. -/
theorem fits_wide {h : Heap} {p : Nat} {r : List Nat} : ∀ (ys l : List Nat), KidsOK (h.span p) ((l ++ r).map h.span) →
    (∀ c ∈ l ++ r, Wide h c) → (∀ y ∈ ys, Wide h y) → (∀ us y vs, ys = us ++ y :: vs → Fits h p y (l ++ us) r) →
    KidsOK (h.span p) ((l ++ ys ++ r).map h.span)
  | [], l, hk, _, _, _ => by simpa using hk
  | y :: ys, l, hk, hw, hwy, hf => by
    have f := hf [] y ys rfl
    rw [List.append_nil] at f
    have h1 : KidsOK (h.span p) (((l ++ [y]) ++ r).map h.span) := by
      rw [List.map_append] at hk
      have := kidsOK_between (s := h.span y) hk (by
        intro c hc
        obtain ⟨z, hz, rfl⟩ := List.mem_map.mp hc
        exact hw z (by simp [hz])) (hwy y (by simp)) (by
        rintro ⟨a, ha, hlt⟩
        rw [List.getLast?_map, Option.map_eq_some_iff] at ha
        obtain ⟨c, hc, rfl⟩ := ha
        have := f.left c hc
        omega) (by
        rintro ⟨a, ha, hlt⟩
        rw [List.head?_map, Option.map_eq_some_iff] at ha
        obtain ⟨c, hc, rfl⟩ := ha
        have := f.right c hc
        omega) f.inside
      simpa using this
    have := fits_wide ys (l ++ [y]) h1 (by
      intro c hc
      simp only [List.mem_append, List.mem_singleton] at hc
      rcases hc with (hc | rfl) | hc
      · exact hw c (by simp [hc])
      · exact hwy c (by simp)
      · exact hw c (by simp [hc])) (fun z hz => hwy z (by simp [hz])) (by
      intro us z vs e
      have := hf (y :: us) z vs (by rw [e]; rfl)
      simpa using this)
    simpa using this

/-- Giving Itos that are not `p` or above it the parent `p`, and taking others' parents away, makes no cycle. -/
theorem acyclic_swapped {h g : Heap} {p : Nat} {l m ys r : List Nat} (hac : Acyclic h)
    (hys : ∀ y ∈ ys, y ≠ p ∧ ¬ Anc h y p) (hsw : Swapped h g p l m ys r) : Acyclic g := by
  obtain ⟨⟨hn, _⟩, _, hpar⟩ := hsw
  have edge : ∀ z w, g.parent z = some w → (z ∈ ys ∧ w = p) ∨ h.parent z = some w := by
    intro z w e
    rw [hpar] at e
    split at e
    · rename_i hz; cases e; exact Or.inl ⟨hz, rfl⟩
    · split at e
      · cases e
      · exact Or.inr e
  have key : ∀ a z, Anc g a z → (z = p ∨ Anc h z p) → Anc h a z := by
    intro a z hz
    induction hz with
    | @parent z a e' =>
      intro hzp
      rcases edge _ _ e' with ⟨h1, _⟩ | h1
      · rcases hzp with hzp | hzp
        · exact absurd hzp (hys z h1).1
        · exact absurd hzp (hys z h1).2
      · exact .parent h1
    | @step z w a e' _ ih =>
      intro hzp
      rcases edge _ _ e' with ⟨h1, _⟩ | h1
      · rcases hzp with hzp | hzp
        · exact absurd hzp (hys z h1).1
        · exact absurd hzp (hys z h1).2
      · refine .step h1 (ih (Or.inr ?_))
        rcases hzp with rfl | hzp
        · exact .parent h1
        · exact Anc.trans (.parent h1) hzp
  have claim : ∀ a z, Anc g a z → Anc h a z ∨ (a = p ∨ Anc h a p) ∧ ∃ y ∈ ys, y = z ∨ Anc g y z := by
    intro a z hz
    induction hz with
    | @parent z a e' =>
      rcases edge _ _ e' with ⟨h1, h2⟩ | h1
      · exact Or.inr ⟨Or.inl h2, z, h1, Or.inl rfl⟩
      · exact Or.inl (.parent h1)
    | @step z w a e' hw ih =>
      rcases edge _ _ e' with ⟨h1, rfl⟩ | h1
      · exact Or.inr ⟨Or.inr (key a w hw (Or.inl rfl)), z, h1, Or.inl rfl⟩
      · rcases ih with ih | ⟨i1, y, i2, i3⟩
        · exact Or.inl (.step h1 ih)
        · refine Or.inr ⟨i1, y, i2, Or.inr ?_⟩
          rcases i3 with rfl | i3
          · exact .parent e'
          · exact .step e' i3
  intro x hx hxx
  rcases claim x x hxx with h1 | ⟨h1, y, hy, h2⟩
  · exact hac x (by omega) h1
  · have hyx : y = x ∨ Anc h y x := h2.imp_right (fun h2 => key y x h2 h1)
    rcases h1 with rfl | h1
    · rcases hyx with e | e
      · exact (hys y hy).1 e
      · exact (hys y hy).2 e
    · rcases hyx with rfl | e
      · exact (hys y hy).2 h1
      · exact (hys y hy).2 (Anc.trans e h1)

/-- The values of an assignment to `p.children` are proper: they exist, have no parent, are not `p`'s ancestors, and
they and the children of `p` have positive width. -/
structure Proper (h : Heap) (p : Nat) (xs : List Nat) : Prop where
  lt : ∀ x ∈ xs, x < h.next
  free : ∀ x ∈ xs, h.parent x = none
  anc : ∀ x ∈ xs, ¬ Anc h x p
  wide : ∀ x ∈ xs, Wide h x
  kids : ∀ c ∈ h.kids p, Wide h c

/-- The memories a program can reach with `Ito(...)` and with all operations on child lists: `add`, `remove`, `pop`, `del`
of items and of slices with or without step, `clear`, assignment of proper values to items and to slices with or
without step — each returning or raising —, and calls of `add_hierarchical` that return; as long as no Ito is handed
to a child list of itself or of one of its own descendants. -/
inductive Reachable : Heap → Prop
  | start : Reachable empty
  | op {h : Heap} (o : Op) : Reachable h → (∀ i ∈ o.ids, i < h.next) →
      (∀ p xs, o = .add p xs → ∀ x ∈ xs, ¬ Anc h x p) → Reachable (h.run o)
  | hier {h h' : Heap} (key : Option (Nat → Int)) (n p x : Nat) : Reachable h → p < h.next → x < h.next → x ≠ p →
      ¬ Anc h x p → addHier key n h p x = (h', .ok ()) → Reachable h'
  | delStep {h : Heap} (p : Nat) (a b : Option Int) (s : Int) : Reachable h → p < h.next →
      Reachable (h.delStep p a b s).1
  | setInt {h : Heap} (p : Nat) (k : Int) (x : Nat) : Reachable h → p < h.next → Proper h p [x] →
      Reachable (h.setInt p k x).1
  | setSlice {h : Heap} (p : Nat) (a b : Option Int) (xs : List Nat) : Reachable h → p < h.next → Proper h p xs →
      Reachable (h.setSlice p a b xs).1
  | setStep {h : Heap} (p : Nat) (a b : Option Int) (s : Int) (xs : List Nat) : Reachable h → p < h.next →
      Proper h p xs → Reachable (h.setStep p a b s xs).1

theorem swapped_ok {h g : Heap} {p : Nat} {l m ys r kept : List Nat} (hok : OK h) (hac : Acyclic h) (hp : p < h.next)
    (hpr : Proper h p ys) (hkept : kept.Sublist (h.kids p)) (hk : kept = l ++ r)
    (hfit : ∀ us y vs, ys = us ++ y :: vs → Fits h p y (l ++ us) r) (hsw : Swapped h g p l m ys r)
    (hiff : OK g ↔ (∀ y ∈ ys, h.parent y = none ∨ y ∈ m) ∧ KidsOK (h.span p) ((l ++ ys ++ r).map h.span)) :
    OK g ∧ Acyclic g := by
  refine ⟨hiff.mpr ⟨fun y hy => Or.inl (hpr.free y hy), ?_⟩, acyclic_swapped hac ?_ hsw⟩
  · refine fits_wide ys l ?_ ?_ hpr.wide hfit
    · rw [← hk]; exact kidsOK_sublist (hok.kids p hp) (hkept.map _)
    · intro c hc; rw [← hk] at hc; exact hpr.kids c (hkept.subset hc)
  · intro y hy
    refine ⟨?_, hpr.anc y hy⟩
    obtain ⟨us, vs, e⟩ := List.append_of_mem hy
    exact (hfit us y vs e).ne

theorem proper_sub {h : Heap} {p : Nat} {ys zs : List Nat} (hp : Proper h p (ys ++ zs)) : Proper h p ys :=
  ⟨fun y hy => hp.lt y (by simp [hy]), fun y hy => hp.free y (by simp [hy]), fun y hy => hp.anc y (by simp [hy]),
   fun y hy => hp.wide y (by simp [hy]), hp.kids⟩

theorem sublist_of_map {ks js is : List Nat} (h : is.map some = js.map (fun j => ks[j]?)) (hj : js.Pairwise (· < ·)) :
    is.Sublist ks := by
  have key : ∀ (js is : List Nat) (n : Nat), is.map some = js.map (fun j => ks[j]?) → js.Pairwise (· < ·) →
      (∀ j ∈ js, n ≤ j) → is.Sublist (ks.drop n) := by
    intro js
    induction js with
    | nil => intro is n h _ _; cases is with
      | nil => exact List.nil_sublist _
      | cons i is => simp at h
    | cons j js ih =>
      intro is n h hp hn
      cases is with
      | nil => exact List.nil_sublist _
      | cons i is =>
        simp only [List.map_cons, List.cons.injEq] at h
        rw [List.pairwise_cons] at hp
        have := ih is (j + 1) h.2 hp.2 (fun k hk => hp.1 k hk)
        obtain ⟨hlt, hi⟩ := List.getElem?_eq_some_iff.mp h.1.symm
        have e : ks.drop j = i :: ks.drop (j + 1) := by rw [List.drop_eq_getElem_cons hlt, hi]
        have h2 : (i :: is).Sublist (ks.drop j) := by rw [e]; exact this.cons₂ i
        refine h2.trans ?_
        have hnj := hn j (by simp)
        rw [show j = n + (j - n) by omega, ← List.drop_drop]
        exact List.drop_sublist _ _
  simpa using key js is 0 h hj (fun _ _ => Nat.zero_le _)

/-- C24, C25 for all operations: in every memory reached by such a history every object's children are ordered, disjoint,
inside it and have it as parent, an object with a parent is among that parent's children, and no object is its own
ancestor. -/
theorem C24_full_history {h : Heap} (hr : Reachable h) : OK h ∧ Acyclic h := by
  induction hr with
  | start => exact ⟨empty_ok, fun x hx => absurd hx (Nat.not_lt_zero _)⟩
  | @op h o _ hl hg ih =>
    refine ⟨run_ok ih.1 hl, ?_⟩
    cases o with
    | add p xs =>
      exact add_acyclic_of xs ih.1 (hl p (by simp [Op.ids])) (fun x hx => hl x (by simp [Op.ids, hx])) ih.2
        (hg p xs rfl)
    | new s a b d => exact run_acyclic ih.1 hl ih.2 trivial
    | remove p x => exact run_acyclic ih.1 hl ih.2 trivial
    | pop p i => exact run_acyclic ih.1 hl ih.2 trivial
    | del p i => exact run_acyclic ih.1 hl ih.2 trivial
    | delSlice p a b => exact run_acyclic ih.1 hl ih.2 trivial
    | clear p => exact run_acyclic ih.1 hl ih.2 trivial
  | hier key n p x _ hp hx hne hanc hr ih =>
    have g := addHier_grown ih.1 ih.2 hp hx hne hanc hr
    exact ⟨g.ok, g.acyclic⟩
  | @delStep h p a b s _ hp ih =>
    by_cases hs : s = 0
    · rw [(C103_del_step ih.1 hp a b s).1 hs]; exact ih
    · obtain ⟨_, _, _, _, _, _, _, _, _, h1, h2⟩ := (C103_del_step ih.1 hp a b s).2 hs
      exact ⟨h1, h2 ih.2⟩
  | @setInt h p k x _ hp hpr ih =>
    rcases C26_set_int_exact ih.1 hp (hpr.lt x (by simp)) k with ⟨_, e⟩ | ⟨l, c, r, e1, _, e2⟩
    · rw [e]; exact ih
    · have hsub : (l ++ r).Sublist (h.kids p) := by
        rw [e1]; exact (List.Sublist.refl l).append (List.sublist_cons_self c r)
      rcases e2 with ⟨e2, _, e3, e4⟩ | ⟨_, _, e3, e4⟩
      · refine swapped_ok ih.1 ih.2 hp hpr hsub rfl ?_ e3 ?_
        · intro us y vs e
          cases us with
          | nil => simp only [List.nil_append, List.cons.injEq] at e; rw [← e.1]; simpa using e2
          | cons u us => simp at e
        · rw [e4]; simp
      · exact ⟨e4, acyclic_swapped ih.2 (by simp) e3⟩
  | @setSlice h p a b xs _ hp hpr ih =>
    obtain ⟨l, m, r, ys, zs, e1, _, e2, e3, e4, _, e5⟩ := C26_set_slice_exact ih.1 hp hpr.lt a b
    refine swapped_ok ih.1 ih.2 hp (proper_sub (e2 ▸ hpr)) (kept := l ++ r) ?_ rfl e4 e3 e5
    rw [e1]
    exact (List.sublist_append_left l m).append (List.Sublist.refl r)
  | @setStep h p a b s xs _ hp hpr ih =>
    by_cases hs : s = 0
    · have : h.setStep p a b s xs = (h, .error .valueError) := by
        unfold Heap.setStep; rw [(C103_del_step ih.1 hp a b s).1 hs]
      rw [this]; exact ih
    · obtain ⟨js, ks, cs, h1, h2, h3, h4, h5⟩ := C104_set_step_exact ih.1 hp hpr.lt a b hs
      have hsub := sublist_of_map h3 h2
      rcases h5 with ⟨_, _, _, s1, s2⟩ | ⟨_, _, _, s1, s2⟩ | ⟨l, r, ys, zs, i1, i2, i3, i4, i5, i6, i7⟩
      · exact ⟨s2, acyclic_swapped ih.2 (by simp) s1⟩
      · exact ⟨s2, acyclic_swapped ih.2 (by simp) s1⟩
      · exact swapped_ok ih.1 ih.2 hp (proper_sub (i3 ▸ hpr)) hsub i1 i5 i4 i7

/-- A history with an assignment to a stepped slice. -/
example : Reachable ((empty.runAll exStep).setStep 0 none none 2 [5, 6]).1 := by
  exact Reachable.setStep 0 none none 2 [5, 6]
    (.op (.add 0 [1, 2, 3, 4]) (.op (.new "abcdef" (some 2) (some 3) none) (.op (.new "abcdef" (some 0) (some 1) none)
      (.op (.new "abcdef" (some 3) (some 4) none) (.op (.new "abcdef" (some 2) (some 3) none)
      (.op (.new "abcdef" (some 1) (some 2) none) (.op (.new "abcdef" (some 0) (some 1) none)
      (.op (.new "abcdef" none none none) .start (by simp [Op.ids]) (by simp)) (by simp [Op.ids]) (by simp))
      (by simp [Op.ids]) (by simp)) (by simp [Op.ids]) (by simp)) (by simp [Op.ids]) (by simp)) (by simp [Op.ids])
      (by simp)) (by simp [Op.ids]) (by simp)) (by decide) (by
        intro p xs e x _
        injection e with e1 e2
        subst e1
        exact no_anc_of_root (by decide)))
    (by decide)
    ⟨by decide, by decide, by
      intro x _
      exact no_anc_of_root (by decide), by unfold Wide; decide, by unfold Wide; decide⟩

end Pawpaw.Props
