import Verif.Props.CloneHeap
import Verif.Props.Index
/-!
# C23: `x.clone(start, stop, desc, clone_children)` in memory
-/
set_option linter.unusedSectionVars false
set_option linter.unusedSimpArgs false
namespace Pawpaw.Props
open TreeSpec HeapSpec Heap

/-- `add` of objects one of which does not lie inside raises; other objects stay as they are. -/
theorem add_before_outside {p : Nat} : ∀ (xs : List Nat) (h : Heap),
    KidsOK (h.span p) ((h.kids p).map h.span) →
    ((h.kids p ++ xs).map h.span).Pairwise (fun a b => a.start < b.start ∧ a.stop ≤ b.start) →
    (∀ x ∈ xs, h.parent x = none ∧ h.str x = h.str p ∧ x ≠ p ∧ (h.span x).start ≤ (h.span x).stop) →
    (∃ x ∈ xs, ¬ ((h.span p).start ≤ (h.span x).start ∧ (h.span x).stop ≤ (h.span p).stop)) →
    (h.add p xs).2 = .error .valueError ∧ ∀ y, y ≠ p → y ∉ xs → (h.add p xs).1.obj y = h.obj y
  | [], _, _, _, _, ⟨_, hx, _⟩ => by cases hx
  | x :: xs, h, hk, ho, hx, hbad => by
    by_cases hin : (h.span p).start ≤ (h.span x).start ∧ (h.span x).stop ≤ (h.span p).stop
    · have hord : KidsOK (h.span p) ((h.kids p ++ [x]).map h.span) := by
        constructor
        · intro c hc
          simp only [List.map_append, List.map_cons, List.map_nil, List.mem_append, List.mem_singleton] at hc
          rcases hc with hc | rfl
          · exact hk.inside c hc
          · exact ⟨hin.1, (hx x (by simp)).2.2.2, hin.2⟩
        · refine ho.sublist ?_
          rw [show h.kids p ++ x :: xs = (h.kids p ++ [x]) ++ xs by simp, List.map_append (l₁ := h.kids p ++ [x])]
          exact List.sublist_append_left _ _
      obtain ⟨h1, a1, a2, a3⟩ := add_after [x] h hord (fun y hy => by
        rw [List.mem_singleton.1 hy]
        have := hx x (by simp)
        exact ⟨this.1, this.2.1, this.2.2.1⟩)
      have hone : h.addOne p x = (h1, .ok ()) := by
        rw [Heap.add] at a1
        generalize h.addOne p x = r at *
        obtain ⟨g, r⟩ := r
        cases r with
        | error e => simp at a1
        | ok u => cases u; simpa [Heap.add] using a1
      have hnd : (h.kids p ++ x :: xs).Nodup := by
        have h2 := List.pairwise_map.1 ho
        exact h2.imp (fun hab e => by subst e; omega)
      have hxn : x ∉ xs := by
        rw [List.nodup_append] at hnd
        exact (List.nodup_cons.mp hnd.2.1).1
      have hsp : h1.span = h.span := by funext y; unfold Heap.span; rw [a3]
      have hst : ∀ y, h1.str y = h.str y := fun y => by unfold Heap.str; rw [a3]
      have hkp : h1.kids p = h.kids p ++ [x] := by
        have := a3 p
        unfold Heap.kids
        rw [this, if_pos rfl]
        rfl
      obtain ⟨b1, b2⟩ := add_before_outside xs h1 (by rw [hkp, hsp]; exact hord) (by
          rw [hkp, hsp, List.append_assoc]; exact ho) (fun y hy => by
          have := hx y (by simp [hy])
          rw [hst, hst, hsp]
          refine ⟨?_, this.2⟩
          unfold Heap.parent
          rw [a3]
          dsimp only
          rw [if_neg (by simp; rintro rfl; exact hxn hy)]
          exact this.1) (by
          obtain ⟨y, hy, hb⟩ := hbad
          rw [hsp]
          rcases List.mem_cons.1 hy with rfl | hy
          · exact absurd hin hb
          · exact ⟨y, hy, hb⟩)
      rw [Heap.add, hone]
      refine ⟨b1, fun y hy hm => ?_⟩
      simp only [List.mem_cons, not_or] at hm
      rw [b2 y hy hm.2, a3]
      simp [hm.1, hy]
    · have hr : h.setParentRaises x p = true := by
        unfold setParentRaises Kids.outside
        simp only [Bool.or_eq_true, decide_eq_true_eq]
        left; right
        omega
      have hone : h.addOne p x = (h, .error .valueError) := by
        unfold addOne
        dsimp only
        rw [hr]
        split
        · rfl
        · split
          · rfl
          · split
            · rfl
            · rw [if_pos rfl]
      rw [Heap.add, hone]
      exact ⟨rfl, fun _ _ _ => rfl⟩

/-- C23: `x.clone(start, stop, desc)`, any argument of which may be left out. The span is that of
`string[start:stop]` as Python slices (C01), `start`, `stop` and `desc` being those of `x` where they are left out. If every
child of `x` lies inside it the clone is a new parentless object on the same string, with that span and desc, the value
function of `x` and copies of the children of `x`, all of them new; otherwise the call raises `ValueError`. No existing
object changes. -/
theorem C23_clone_arguments {h : Heap} (hok : OK h) (hac : Acyclic h) {x : Nat} (hx : x < h.next) (start stop : Option Int)
    (desc : Option (Option String)) :
    ∃ ks, LooksAll h (h.kids x) ks ∧ ∃ n, ∀ m, n ≤ m → ∀ sp,
      sp = Span.fromIndices (h.str x).length (some (start.getD (h.span x).start)) (some (stop.getD (h.span x).stop)) →
      ((∀ c ∈ h.kids x, sp.start ≤ (h.span c).start ∧ (h.span c).stop ≤ sp.stop) →
        ∃ h' y, h.cloneObjWith m x start stop desc true = (h', .ok y) ∧
          Looks h' y (.mk sp (desc.getD (h.obj x).desc) (h.obj x).vf ks) ∧ h'.parent y = none ∧ h'.str y = h.str x ∧
          OK h' ∧ Acyclic h' ∧ (∀ i < h.next, h'.obj i = h.obj i) ∧ h.next ≤ y ∧ (∀ i < h'.next, Anc h' y i → h.next ≤ i)) ∧
      ((∃ c ∈ h.kids x, ¬ (sp.start ≤ (h.span c).start ∧ (h.span c).stop ≤ sp.stop)) →
        (h.cloneObjWith m x start stop desc true).2 = .error .valueError ∧
        ∀ i < h.next, (h.cloneObjWith m x start stop desc true).1.obj i = h.obj i) := by
  obtain ⟨t, ht⟩ := exists_tree hok hac x hx
  obtain ⟨hw, hl⟩ := looks_wf hok t x hx ht
  obtain ⟨s0, d0, v0, ks⟩ := t
  rw [Looks] at ht
  obtain ⟨l1, l2, l3, l4⟩ := ht
  refine ⟨ks, l4, needAll ks, fun m hm sp hsp => ?_⟩
  have hb := C01_from_indices_bounds (h.str x).length (some (start.getD (h.span x).start)) (some (stop.getD (h.span x).stop))
  rw [← hsp] at hb
  unfold cloneObjWith
  simp only [if_true]
  generalize hg : h.newLike x (start.getD (h.span x).start) (stop.getD (h.span x).stop) (desc.getD (h.obj x).desc) = h1
  have g1 : ∀ i, i ≠ h.next → h1.obj i = h.obj i := by
    intro i hi; rw [← hg]; simp [newLike, hi]
  have g2 : h1.obj h.next = ⟨h.str x, sp, desc.getD (h.obj x).desc, (h.obj x).vf, none, []⟩ := by
    rw [← hg]; simp only [newLike, if_true, ← hsp]
  have g3 : h1.next = h.next + 1 := by rw [← hg]; rfl
  obtain ⟨cs, c1, c2⟩ := cloneObjs_built hok (h.str x) ks (h.kids x) h1 (fun i hi => g1 i (by omega)) (by omega)
    (fun c hc => (hok.kidParent x hx c hc).1)
    (fun c hc => (hok.kidParent x hx c hc).2.2) l4
    (fun k hk => hw.kid hk) (fun k hk => by
      have := (hw.kid_inside hk).2
      simp only [Node.stop, Node.span] at this hl ⊢; omega) m hm
  generalize cloneObjs m h1 (h.kids x) = r at *
  obtain ⟨h2, r⟩ := r
  simp only at c1 c2
  subst c1
  have hnx : h.next < h1.next := by omega
  have k0 : h2.obj h.next = ⟨h.str x, sp, desc.getD (h.obj x).desc, (h.obj x).vf, none, []⟩ := by rw [c2.old _ hnx, g2]
  have k1 : h2.span h.next = sp := by unfold Heap.span; rw [k0]
  have k2 : h2.kids h.next = [] := by unfold Heap.kids; rw [k0]
  have k3 : h2.str h.next = h.str x := by unfold Heap.str; rw [k0]; rfl
  have hspans : cs.map h2.span = (h.kids x).map h.span :=
    (looksAll_spans _ _ c2.looks).symm.trans (looksAll_spans _ _ l4)
  have hkx := hok.kids x hx
  have htop : ∀ c ∈ cs, h2.parent c = none ∧ h2.str c = h2.str h.next ∧ c ≠ h.next := fun c hc => by
    have := c2.tops c hc
    refine ⟨this.2.2, ?_, by omega⟩
    rw [k3]; exact c2.str c this.1 this.2.1
  have hnot : h.next ∉ cs := fun hm => (htop _ hm).2.2 rfl
  constructor
  · intro hin
    have hkok : KidsOK sp (ks.map Node.span) := by
      rw [looksAll_spans _ _ l4]
      refine ⟨?_, hkx.ordered⟩
      intro c hc
      obtain ⟨k, hk, rfl⟩ := List.mem_map.1 hc
      exact ⟨(hin k hk).1, (hkx.inside _ (List.mem_map.2 ⟨k, hk, rfl⟩)).2.1, (hin k hk).2⟩
    obtain ⟨h3, a1, a2, a3⟩ := add_after (p := h.next) cs h2 (by
        rw [k1, k2, List.nil_append, ← looksAll_spans _ _ c2.looks]
        exact hkok) htop
    have : finishClone h.next (h2, .ok cs) = (h3, .ok h.next) := by
      unfold finishClone; dsimp only; rw [a1]
    rw [this]
    have b : Built (h.str x) h h3 [h.next] [.mk sp (desc.getD (h.obj x).desc) (h.obj x).vf ks] :=
      built_over g3 (fun i hi => g1 i (by omega)) c2 hb hkok (fun y => by
        rw [a3]
        by_cases e : y = h.next
        · subst e; rw [k0, if_pos rfl, if_pos rfl, if_neg hnot, k2]; rfl
        · rw [if_neg e, if_neg e]) a2
    obtain ⟨d1, d2, d3⟩ := b.consistent hok hac
    have hy := b.tops h.next (by simp)
    have hlk := b.looks
    rw [LooksAll] at hlk
    exact ⟨_, h.next, rfl, hlk.1, hy.2.2, b.str _ hy.1 hy.2.1, d1, d2, b.old, hy.1, d3⟩
  · rintro ⟨c, hc, hbad⟩
    obtain ⟨e1, e2⟩ := add_before_outside (p := h.next) cs h2 (by rw [k2]; exact ⟨by simp, by simp⟩)
      (by rw [k2, List.nil_append, hspans]; exact hkx.ordered)
      (fun y hy => by
        obtain ⟨y1, y2, y3⟩ := htop y hy
        refine ⟨y1, y2, y3, ?_⟩
        have : h2.span y ∈ (h.kids x).map h.span := by rw [← hspans]; exact List.mem_map.2 ⟨y, hy, rfl⟩
        exact (hkx.inside _ this).2.1)
      (by
        have : h.span c ∈ cs.map h2.span := by rw [hspans]; exact List.mem_map.2 ⟨c, hc, rfl⟩
        obtain ⟨y, hy, hye⟩ := List.mem_map.1 this
        exact ⟨y, hy, by rw [k1, hye]; exact hbad⟩)
    have hf : finishClone h.next (h2, .ok cs) = ((h2.add h.next cs).1, .error .valueError) := by
      unfold finishClone
      dsimp only
      generalize h2.add h.next cs = r at *
      obtain ⟨g, r⟩ := r
      simp only at e1
      subst e1
      rfl
    rw [hf]
    refine ⟨rfl, fun i hi => ?_⟩
    dsimp only
    rw [e2 i (by omega) (fun hm => by have := (c2.tops _ hm).1; omega), c2.old i (by omega), g1 i (by omega)]

/-- C23: `x.clone(start, stop, desc, clone_children=False)` always succeeds: one new object, without parent or children,
on the same string, with the span of `string[start:stop]`, the desc asked for and the value function of `x`; nothing else
changes, and memory stays consistent. -/
theorem C23_clone_childless {h : Heap} (hok : OK h) (hac : Acyclic h) {x : Nat} (n : Nat) (start stop : Option Int)
    (desc : Option (Option String)) :
    ∃ h', h.cloneObjWith n x start stop desc false = (h', .ok h.next) ∧ h'.next = h.next + 1 ∧
      h'.obj h.next = ⟨h.str x, Span.fromIndices (h.str x).length (some (start.getD (h.span x).start)) (some (stop.getD (h.span x).stop)),
        desc.getD (h.obj x).desc, (h.obj x).vf, none, []⟩ ∧
      (∀ i, i ≠ h.next → h'.obj i = h.obj i) ∧ OK h' ∧ Acyclic h' := by
  have hb := C01_from_indices_bounds (h.str x).length (some (start.getD (h.span x).start)) (some (stop.getD (h.span x).stop))
  unfold cloneObjWith
  simp only [Bool.false_eq_true, if_false]
  generalize hg : h.newLike x (start.getD (h.span x).start) (stop.getD (h.span x).stop) (desc.getD (h.obj x).desc) = h1
  have g1 : ∀ i, i ≠ h.next → h1.obj i = h.obj i := by
    intro i hi; rw [← hg]; simp [newLike, hi]
  have g2 : h1.obj h.next = ⟨h.str x, Span.fromIndices (h.str x).length (some (start.getD (h.span x).start)) (some (stop.getD (h.span x).stop)),
      desc.getD (h.obj x).desc, (h.obj x).vf, none, []⟩ := by
    rw [← hg]; simp only [newLike, if_true]
  have g3 : h1.next = h.next + 1 := by rw [← hg]; rfl
  have b0 : Built (h.str x) h1 h1 [] [] := ⟨Nat.le_refl _, fun _ _ => rfl, by simp, by intro i a b; omega,
    by intro i a b; omega, by intro i a b; omega, by intro i a b; omega, by intro i a b; omega, by simp [LooksAll]⟩
  have b := built_over (h2 := h1) g3 (fun i hi => g1 i (by omega)) b0 hb (sp := Span.fromIndices _ _ _) ⟨by simp, by simp⟩
    (d := desc.getD (h.obj x).desc) (v := (h.obj x).vf) (fun y => by
      by_cases e : y = h.next
      · subst e; rw [g2, if_pos rfl]
      · rw [if_neg e]; simp) rfl
  obtain ⟨d1, d2, _⟩ := b.consistent hok hac
  exact ⟨h1, rfl, g3, g2, g1, d1, d2⟩

/-- Non-vacuity: a parent with a child, cloned with and without the child, and with a span that leaves it out. -/
example : ∃ h, OK h ∧ Acyclic h ∧ 0 < h.next ∧ h.kids 0 = [1] ∧
    (h.cloneObjWith 9 0 none (some (-1)) (some (some "q")) true).2 = .ok 2 ∧
    (h.cloneObjWith 9 0 none (some (-1)) (some (some "q")) true).1.kids 2 = [3] ∧
    (h.cloneObjWith 9 0 (some 1) none none true).2 = .error .valueError ∧
    (h.cloneObjWith 9 0 (some 1) none none false).1.span 2 = ⟨1, 2⟩ := by
  let ops : List Op := [.new "ab" none none (some "p"), .new "ab" (some 0) (some 1) none, .add 0 [1]]
  have hl : Legal empty ops := by refine ⟨by simp [Op.ids], by simp [Op.ids], by decide, trivial⟩
  refine ⟨empty.runAll ops, C24_children_invariant ops hl, ?_, by decide, by decide, by decide, by decide, by decide, by decide⟩
  exact C25_acyclic_partial ops hl ⟨trivial, trivial, fun x hx => by
    rw [List.mem_singleton.mp hx]; exact Or.inr (by decide), trivial⟩

end Pawpaw.Props
