import Verif.Model.CloneHeap
import Verif.Props.Pickle
/-!
# C23: a clone consists of new objects
-/
set_option linter.unusedSectionVars false
set_option linter.unusedSimpArgs false
namespace Pawpaw.Props
open TreeSpec HeapSpec Heap

theorem bfind_end {l : List Span} {s : Span} (h : l.Pairwise (fun a b => a.start < b.start ∧ a.stop ≤ b.start))
    (h1 : ∀ a ∈ l, a.start < s.start) : Kids.bfindStart l s = -(l.length : Int) - 1 := by
  have hs : Sorted ((l ++ []).map Span.start) := by
    rw [List.append_nil]
    unfold Sorted
    rw [List.pairwise_map]
    exact h.imp (fun hab => by omega)
  have := @Kids.bfindStart_absent l [] s hs h1 (by simp)
  simpa using this

/-- `add` of objects that fit, in order, after those already there. -/
theorem add_after {p : Nat} : ∀ (xs : List Nat) (h : Heap),
    KidsOK (h.span p) ((h.kids p ++ xs).map h.span) →
    (∀ x ∈ xs, h.parent x = none ∧ h.str x = h.str p ∧ x ≠ p) →
    ∃ h', h.add p xs = (h', .ok ()) ∧ h'.next = h.next ∧
      ∀ y, h'.obj y = { h.obj y with
        parent := if y ∈ xs then some p else (h.obj y).parent
        kids := if y = p then h.kids p ++ xs else (h.obj y).kids }
  | [], h, _, _ => by
    refine ⟨h, rfl, rfl, fun y => ?_⟩
    by_cases e : y = p
    · subst e; simp [Heap.kids]
    · simp [e]
  | x :: xs, h, hk, hx => by
    obtain ⟨x1, x2, x3⟩ := hx x (by simp)
    have hk' : KidsOK (h.span p) (((h.kids p).map h.span) ++ h.span x :: xs.map h.span) := by simpa using hk
    obtain ⟨o1, o2, o3⟩ := List.pairwise_append.mp hk'.ordered
    have hlt : ∀ a ∈ (h.kids p).map h.span, a.start < (h.span x).start := fun a ha => (o3 a ha _ (by simp)).1
    have hb := bfind_end o1 hlt
    have hin := hk'.inside (h.span x) (by simp)
    have hone : h.addOne p x = ((h.setParent x (some p)).setKids p (h.kids p ++ [x]), .ok ()) := by
      unfold addOne
      rw [if_neg (by simp [x1])]
      dsimp only
      unfold kidSpans
      rw [hb, List.length_map, if_neg (by omega),
        show (-(-((h.kids p).length : Int) - 1) - 1).toNat = (h.kids p).length by omega]
      have e1 : Kids.notBetween ((h.kids p).map h.span) (h.span x) (h.kids p).length (h.kids p).length = false := by
        have a1 := @Kids.isStartLtPriorStop_append ((h.kids p).map h.span) [] (h.span x)
        have a2 := @Kids.isStopGtNextStart_append ((h.kids p).map h.span) [] (h.span x)
        rw [List.append_nil, List.length_map] at a1 a2
        unfold Kids.notBetween
        rw [Bool.or_eq_false_iff]
        constructor
        · rw [← Bool.not_eq_true, a1]
          rintro ⟨a, ha, hlt⟩
          have := (o3 a (List.mem_of_getLast? ha) (h.span x) (by simp)).2
          omega
        · rw [← Bool.not_eq_true, a2]
          rintro ⟨b, hb, _⟩
          simp at hb
      rw [e1, if_neg (by simp)]
      have e2 : h.setParentRaises x p = false := by
        unfold setParentRaises Kids.outside
        simp [x2, x3]
        omega
      rw [e2, if_neg (by simp), kids_setParent]
      have : (h.kids p).insertIdx (h.kids p).length x = h.kids p ++ [x] := by
        rw [insertIdx_take_drop x (Nat.le_refl _)]; simp
      rw [this]
    rw [Heap.add, hone]
    dsimp only
    generalize hg : (h.setParent x (some p)).setKids p (h.kids p ++ [x]) = h1
    have f1 : h1.kids p = h.kids p ++ [x] := by rw [← hg, kids_setKids]; simp
    have f2 : h1.span = h.span := by rw [← hg]; simp
    have hnd : (h.kids p ++ x :: xs).Nodup := kidsOK_nodup hk
    have hxn : x ∉ xs := by
      rw [List.nodup_append] at hnd
      exact (List.nodup_cons.mp hnd.2.1).1
    have f3 : ∀ y, h1.parent y = if y = x then some p else h.parent y := by
      intro y; rw [← hg, parent_setKids, parent_setParent]
    have f4 : ∀ y, h1.str y = h.str y := by intro y; rw [← hg]; simp
    obtain ⟨h', g1, g2, g3⟩ := add_after xs h1 (by rw [f1, f2]; simpa using hk) (fun y hy => by
      obtain ⟨y1, y2, y3⟩ := hx y (by simp [hy])
      refine ⟨?_, ?_, y3⟩
      · rw [f3, if_neg (by rintro rfl; exact hxn hy)]; exact y1
      · rw [f4, f4]; exact y2)
    refine ⟨h', g1, by rw [g2, ← hg]; rfl, fun y => ?_⟩
    rw [g3, f1]
    have f5 : h1.obj y = { h.obj y with
        parent := if y = x then some p else (h.obj y).parent
        kids := if y = p then h.kids p ++ [x] else (h.obj y).kids } := by
      rw [← hg]
      unfold setKids setParent upd
      dsimp only
      by_cases e1 : y = p
      · by_cases e2 : y = x
        · rw [if_pos e1, if_pos e2, if_pos e1, if_pos e2]
        · rw [if_pos e1, if_neg e2, if_pos e1, if_neg e2]
      · by_cases e2 : y = x
        · rw [if_neg e1, if_pos e2, if_neg e1, if_pos e2]
        · rw [if_neg e1, if_neg e2, if_neg e1, if_neg e2]
    rw [f5]
    by_cases e1 : y = p
    · subst e1
      by_cases e2 : y ∈ xs
      · simp [e2]
      · by_cases e3 : y = x <;> simp [e2, e3]
    · by_cases e2 : y ∈ xs
      · simp [e2, e1]
      · by_cases e3 : y = x <;> simp [e2, e3, e1, x3]

mutual
theorem cloneObj_built {h0 : Heap} (hok : OK h0) (s : String) : ∀ (t : Node) (x : Nat) (h : Heap),
    (∀ i < h0.next, h.obj i = h0.obj i) → h0.next ≤ h.next → x < h0.next → h0.str x = s → Looks h0 x t →
    WF t → t.stop ≤ s.length → ∀ n, need t ≤ n →
    (cloneObj n h x).2 = .ok h.next ∧ Built s h (cloneObj n h x).1 [h.next] [t]
  | .mk sp d v ks, x, h, hold, hle, hx, hs, hl, hw, hst, n, hn => by
    rw [Looks] at hl
    obtain ⟨l1, l2, l3, l4⟩ := hl
    rw [need] at hn
    obtain ⟨n, rfl⟩ : ∃ m, n = m + 1 := ⟨n - 1, by omega⟩
    have ho := hold x hx
    have e1 : h.span x = sp := by unfold Heap.span; rw [ho]; exact l1
    have e2 : (h.obj x).desc = d := by rw [ho]; exact l2
    have e3 : (h.obj x).vf = v := by rw [ho]; exact l3
    have e4 : h.kids x = h0.kids x := by unfold Heap.kids; rw [ho]
    have e5 : h.str x = s := by unfold Heap.str; rw [ho]; exact hs
    rw [cloneObj, e1, e2, e4]
    generalize hg : h.newLike x sp.start sp.stop d = h1
    have h0' := hw.start_nonneg
    have h1' := hw.start_le
    simp only [Node.start, Node.stop, Node.span] at h0' h1' hst
    have g1 : ∀ i, i ≠ h.next → h1.obj i = h.obj i := by
      intro i hi; rw [← hg]; simp [newLike, hi]
    have g2 : h1.obj h.next = ⟨s, sp, d, v, none, []⟩ := by
      rw [← hg]; simp only [newLike, if_true, e5, e3]
      rw [fromIndices_span h0' h1' hst]
    have g3 : h1.next = h.next + 1 := by rw [← hg]; rfl
    obtain ⟨cs, c1, c2⟩ := cloneObjs_built hok s ks (h0.kids x) h1 (fun i hi => by
        rw [g1 i (by omega)]; exact hold i hi) (by omega)
      (fun c hc => (hok.kidParent x hx c hc).1)
      (fun c hc => by rw [(hok.kidParent x hx c hc).2.2]; exact hs) l4
      (fun k hk => hw.kid hk) (fun k hk => by
        have := (hw.kid_inside hk).2
        simp only [Node.stop, Node.span] at this ⊢; omega) n (by omega)
    generalize cloneObjs n h1 (h0.kids x) = r at *
    obtain ⟨h2, r⟩ := r
    simp only at c1 c2
    subst c1
    have hnx : h.next < h1.next := by omega
    have k0 : h2.obj h.next = ⟨s, sp, d, v, none, []⟩ := by rw [c2.old _ hnx, g2]
    have k1 : h2.span h.next = sp := by unfold Heap.span; rw [k0]
    have k2 : h2.kids h.next = [] := by unfold Heap.kids; rw [k0]
    have k3 : h2.str h.next = s := by unfold Heap.str; rw [k0]
    obtain ⟨h3, a1, a2, a3⟩ := add_after (p := h.next) cs h2 (by
        rw [k1, k2, List.nil_append, ← looksAll_spans _ _ c2.looks]
        exact hw.kidsOK) (fun c hc => by
        have := c2.tops c hc
        refine ⟨this.2.2, ?_, by omega⟩
        rw [k3]; exact c2.str c this.1 this.2.1)
    have hnot : h.next ∉ cs := fun hm => by have := (c2.tops _ hm).1; omega
    have : finishClone h.next (h2, .ok cs) = (h3, .ok h.next) := by
      unfold finishClone; dsimp only; rw [a1]
    rw [this]
    refine ⟨rfl, built_over g3 (fun i hi => g1 i (by omega)) c2 ⟨h0', h1', hst⟩ hw.kidsOK (fun y => ?_) a2⟩
    rw [a3]
    by_cases e : y = h.next
    · subst e; rw [k0, if_pos rfl, if_pos rfl, if_neg hnot, k2]; rfl
    · rw [if_neg e, if_neg e]
theorem cloneObjs_built {h0 : Heap} (hok : OK h0) (s : String) : ∀ (ts : List Node) (xs : List Nat) (h : Heap),
    (∀ i < h0.next, h.obj i = h0.obj i) → h0.next ≤ h.next → (∀ x ∈ xs, x < h0.next) → (∀ x ∈ xs, h0.str x = s) →
    LooksAll h0 xs ts → (∀ t ∈ ts, WF t) → (∀ t ∈ ts, t.stop ≤ s.length) → ∀ n, needAll ts ≤ n →
    ∃ ys, (cloneObjs n h xs).2 = .ok ys ∧ Built s h (cloneObjs n h xs).1 ys ts
  | [], xs, h, _, _, _, _, hl, _, _, n, _ => by
    cases xs with
    | cons x xs => simp [LooksAll] at hl
    | nil =>
      refine ⟨[], by simp [cloneObjs], ?_⟩
      rw [show cloneObjs n h [] = (h, .ok []) by cases n <;> rfl]
      exact ⟨Nat.le_refl _, fun _ _ => rfl, by simp, by intro i a b; dsimp only at b; omega,
        by intro i a b; dsimp only at b; omega, by intro i a b; dsimp only at b; omega,
        by intro i a b; dsimp only at b; omega, by intro i a b; dsimp only at b; omega, by simp [LooksAll]⟩
  | t :: ts, xs, h, hold, hle, hx, hs, hl, hw, hst, n, hn => by
    cases xs with
    | nil => simp [LooksAll] at hl
    | cons x xs =>
      rw [LooksAll] at hl
      rw [needAll] at hn
      obtain ⟨n, rfl⟩ : ∃ m, n = m + 1 := ⟨n - 1, by omega⟩
      obtain ⟨a1, a2⟩ := cloneObj_built hok s t x h hold hle (hx x (by simp)) (hs x (by simp)) hl.1 (hw t (by simp))
        (hst t (by simp)) n (by omega)
      rw [cloneObjs]
      generalize cloneObj n h x = r at *
      obtain ⟨h1, r⟩ := r
      simp only at a1 a2
      subst a1
      dsimp only
      have := a2.next
      obtain ⟨ys, b1, b2⟩ := cloneObjs_built hok s ts xs h1 (fun i hi => by
          rw [a2.old i (by omega)]; exact hold i hi) (by omega) (fun y hy => hx y (by simp [hy]))
        (fun y hy => hs y (by simp [hy])) hl.2 (fun y hy => hw y (by simp [hy])) (fun y hy => hst y (by simp [hy]))
        n (by omega)
      generalize cloneObjs n h1 xs = r at *
      obtain ⟨h2, r⟩ := r
      simp only at b1 b2
      subst b1
      exact ⟨h.next :: ys, rfl, built_cons a2 b2⟩
end

/-- C23: cloning any object of a consistent acyclic memory works given enough stack: it gives a new parentless object
on the same string whose tree looks like the original's, value functions included; no existing object changes, every
object of the copy is new, and memory stays consistent and acyclic. -/
theorem C23_clone_fresh {h : Heap} (hok : OK h) (hac : Acyclic h) {x : Nat} (hx : x < h.next) :
    ∃ t, Looks h x t ∧ ∃ n, ∀ m, n ≤ m → ∃ h' y, h.cloneObj m x = (h', .ok y) ∧
      Looks h' y t ∧ h'.parent y = none ∧ h'.str y = h.str x ∧ OK h' ∧ Acyclic h' ∧
      (∀ i < h.next, h'.obj i = h.obj i) ∧ h.next ≤ y ∧ (∀ i < h'.next, Anc h' y i → h.next ≤ i) := by
  obtain ⟨t, ht⟩ := exists_tree hok hac x hx
  obtain ⟨hw, hl⟩ := looks_wf hok t x hx ht
  refine ⟨t, ht, need t, fun m hm => ?_⟩
  obtain ⟨a, b⟩ := cloneObj_built hok (h.str x) t x h (fun _ _ => rfl) (Nat.le_refl _) hx rfl ht hw hl m hm
  obtain ⟨c1, c2, c3⟩ := b.consistent hok hac
  have hy := b.tops h.next (by simp)
  have hlk := b.looks
  rw [LooksAll] at hlk
  refine ⟨_, h.next, Prod.ext rfl a, hlk.1, hy.2.2, b.str _ hy.1 hy.2.1, c1, c2, b.old, hy.1, c3⟩

/-- Non-vacuity: a parent with a child, made by the API, and its clone. -/
example : ∃ h, OK h ∧ Acyclic h ∧ 0 < h.next ∧ h.kids 0 = [1] ∧
    (h.cloneObj 9 0).1.kids 2 = [3] ∧ (h.cloneObj 9 0).1.parent 3 = some 2 := by
  let ops : List Op := [.new "ab" none none (some "p"), .new "ab" (some 0) (some 1) none, .add 0 [1]]
  have hl : Legal empty ops := by refine ⟨by simp [Op.ids], by simp [Op.ids], by decide, trivial⟩
  refine ⟨empty.runAll ops, C24_children_invariant ops hl, ?_, by decide, by decide, by decide, by decide⟩
  exact C25_acyclic_partial ops hl ⟨trivial, trivial, fun x hx => by
    rw [List.mem_singleton.mp hx]; exact Or.inr (by decide), trivial⟩

end Pawpaw.Props
