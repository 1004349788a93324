import Verif.Props.HierObjects
/-!
# C27: when a failing `add_hierarchical` changes nothing
-/
set_option linter.unusedSectionVars false
namespace Pawpaw.Props
open TreeSpec HeapSpec Heap

/-- C27 (what holds of `add_hierarchical`): for a childless argument that lies inside the parent's span (on
the same string, another object), a call that raises leaves every object as it was — whatever the `key`,
the depth at which it fails and even when the recursion limit is hit. -/
theorem C27_add_hierarchical_childless_partial (key : Option (Nat → Int)) {h : Heap} (hok : OK h) {x : Nat}
    (hx : x < h.next) (hxk : h.kids x = []) : ∀ (n p : Nat), p < h.next → x ≠ p → h.str x = h.str p →
    Inside (h.span p) (h.span x) → ∀ e, (addHier key n h p x).2 = .error e → (addHier key n h p x).1 = h
  | 0, p, _, _, _, _, e, _ => rfl
  | n + 1, p, hp, hne, hs, hin, e, he => by
    by_cases hpar : h.parent x = none
    · have hout : Kids.outside (h.span p) (h.span x) = false := by
        cases ho : Kids.outside (h.span p) (h.span x) with
        | false => rfl
        | true => exact absurd hin (outside_iff.mp ho)
      have hraise : h.setParentRaises x p = false := by rw [setParentRaises_eq hs hne, hout]
      by_cases hk : h.kids p = []
      · rw [addHier, if_neg (by simp [hpar]), if_pos hk, hraise] at he
        simp at he
      · cases n with
        | zero =>
          rw [addHier, if_neg (by simp [hpar]), if_neg hk, flatten]
        | succ n =>
          have hrun := addHier_placed key hpar hxk hk n
          have hpl := Kids.place_spec (hok.kids p hp) (hok.span x hx).2.1
          change Kids.PlaceSpec (h.kidSpans p) (h.span x) (Kids.place (h.kidSpans p) (h.span x)) at hpl
          generalize Kids.place (h.kidSpans p) (h.span x) = pl at hpl hrun
          have down : ∀ l c r, h.kidSpans p = l ++ c :: r → c.start ≤ (h.span x).start →
              (h.span x).stop ≤ c.stop → ∃ y, (h.kids p)[l.length]? = some y ∧
              ∀ e, (addHier key (n + 1) h y x).2 = .error e → (addHier key (n + 1) h y x).1 = h := by
            intro l c r el e1 e2
            obtain ⟨l', r', e0, e3, e4⟩ := List.map_eq_append_iff.mp el
            obtain ⟨y, r'', e5, e6, e7⟩ := List.map_eq_cons_iff.mp e4
            have hmem : y ∈ h.kids p := by rw [e0, e5]; simp
            obtain ⟨y1, y2, y3⟩ := hok.kidParent p hp y hmem
            refine ⟨y, by rw [e0, e5, ← e3, List.length_map, getElem?_mid], ?_⟩
            refine C27_add_hierarchical_childless_partial key hok hx hxk (n + 1) y y1 ?_ (by rw [hs, y3]) ?_
            · rintro rfl; rw [hpar] at y2; cases y2
            · rw [e6]; exact ⟨e1, e2⟩
          have slide : ∀ l m r, h.kidSpans p = l ++ m ++ r →
              (∀ c ∈ m, (h.span x).start ≤ c.start ∧ c.stop ≤ (h.span x).stop) →
              ∃ h', absorb h p x l.length (l ++ m).length = (h', .ok ()) := by
            intro l m r el hm
            obtain ⟨lm, xr, e0, e1, e2⟩ := List.map_eq_append_iff.mp el
            obtain ⟨xl, xm, e3, e4, e5⟩ := List.map_eq_append_iff.mp e1
            have hkk : h.kids p = xl ++ xm ++ xr := by rw [e0, e3]
            have hko := hok.kids p hp
            rw [hkk, List.map_append, List.map_append] at hko
            obtain ⟨_, c2⟩ := absorb_run (x := x) hkk hxk hne hs (by
              refine kidsOK_weaken (p := h.span p) ⟨fun c hc => hko.inside c (by simp [hc]), ?_⟩ (by rw [e5]; exact hm)
              have := hko.ordered
              rw [List.append_assoc, List.pairwise_append, List.pairwise_append] at this
              exact this.2.1.1) (by
              intro y hy
              obtain ⟨_, y2, y3⟩ := hok.kidParent p hp y (by rw [hkk]; simp [hy])
              refine ⟨by rw [hs, y3], ?_⟩
              rintro rfl; rw [hpar] at y2; cases y2)
            obtain ⟨h', e6, _⟩ := c2 hout
            refine ⟨h', ?_⟩
            rw [← e4, ← e5, ← List.map_append, List.length_map, List.length_map]
            exact e6
          rw [hrun] at he ⊢
          cases pl with
          | overlap => rfl
          | into i =>
            obtain ⟨l, c, r, el, rfl, e1, e2, _⟩ := hpl
            obtain ⟨y, hy, hrec⟩ := down l c r el e1 e2
            dsimp only at he ⊢
            rw [hy] at he ⊢
            exact hrec e he
          | insert i =>
            dsimp only at he
            have hd3 : SameData h (h.setKids p ((h.kids p).insertIdx i x)) := sameData_setKids _ _ _
            have : (h.setKids p ((h.kids p).insertIdx i x)).setParentRaises x p = false := by
              rw [setParentRaises_eq (by rw [(hd3.2 x).2.1, (hd3.2 p).2.1]; exact hs) hne, (hd3.2 x).1, (hd3.2 p).1,
                hout]
            rw [this] at he
            simp at he
          | same i =>
            obtain ⟨l, r, el, rfl⟩ := hpl
            obtain ⟨y, hy, hrec⟩ := down l _ r el (Int.le_refl _) (Int.le_refl _)
            dsimp only at he ⊢
            rw [hy] at he ⊢
            dsimp only at he ⊢
            cases hb : goesUnder key x y with
            | true =>
              simp only [hb, if_true] at he ⊢
              exact hrec e he
            | false =>
              simp only [hb, Bool.false_eq_true, if_false] at he ⊢
              obtain ⟨h', e6⟩ := slide l [h.span x] r (by rw [el]; simp) (by
                intro c hc
                rw [List.mem_singleton] at hc
                subst hc
                exact ⟨Int.le_refl _, Int.le_refl _⟩)
              rw [List.length_append, List.length_singleton] at e6
              rw [e6] at he
              cases he
          | absorb i j =>
            obtain ⟨l, m, r, el, rfl, rfl, _, _, _, hm, _⟩ := hpl
            obtain ⟨h', e6⟩ := slide l m r el hm
            dsimp only at he
            rw [e6] at he
            cases he
    · rw [addHier, if_pos hpar]

/-- A concrete case: `(3, 6)` crosses `(4, 7)`, two levels down; the call fails and nothing has changed. -/
example : ∃ h : Heap, OK h ∧ h.kids 5 = [] ∧ h.str 5 = h.str 3 ∧ Inside (h.span 3) (h.span 5) ∧
    (addHier none 9 h 3 5).2 = .error .valueError ∧ (addHier none 9 h 3 5).1 = h := by
  have hl : Legal empty (exHierOps ++ [.new "abcdefghij" (some 3) (some 6) none]) := by
    simp [exHierOps, Legal, Op.ids]; decide
  refine ⟨empty.runAll (exHierOps ++ [.new "abcdefghij" (some 3) (some 6) none]), C24_children_invariant _ hl,
    by decide, by decide, by decide, by decide, ?_⟩
  exact C27_add_hierarchical_childless_partial none (C24_children_invariant _ hl) (x := 5) (by decide) (by decide) 9 3
    (by decide) (by decide) (by decide) (by decide) .valueError (by decide)

end Pawpaw.Props
