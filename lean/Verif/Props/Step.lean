import Verif.Props.SetExact
import Verif.Model.Step
/-!
# C103, C104: slices with a step on child lists
-/
set_option linter.unusedSectionVars false
namespace Pawpaw.Props
open TreeSpec HeapSpec Heap

theorem lt_rangeLen_pos {i j s : Int} (hs : 0 < s) (k : Nat) : k < rangeLen i j s ↔ i + k * s < j := by
  unfold rangeLen
  rw [if_pos hs]
  by_cases hij : i < j
  · rw [if_pos hij]
    have h0 : 0 ≤ (j - i - 1) / s := Int.ediv_nonneg (by omega) (by omega)
    have h1 : (k : Int) ≤ (j - i - 1) / s ↔ (k : Int) * s ≤ j - i - 1 := Int.le_ediv_iff_mul_le hs
    constructor
    · intro h
      have := h1.mp (by omega)
      omega
    · intro h
      have := h1.mpr (by omega)
      omega
  · rw [if_neg hij]
    have : 0 ≤ (k : Int) * s := Int.mul_nonneg (by omega) (by omega)
    omega

theorem lt_rangeLen_neg {i j s : Int} (hs : s < 0) (k : Nat) : k < rangeLen i j s ↔ j < i + k * s := by
  have := lt_rangeLen_pos (i := -i) (j := -j) (s := -s) (by omega) k
  have e : rangeLen (-i) (-j) (-s) = rangeLen i j s := by
    unfold rangeLen
    rw [if_pos (by omega : -s > 0), if_neg (by omega : ¬ s > 0)]
    by_cases hij : j < i
    · rw [if_pos (by omega : -i < -j), if_pos hij]
      congr 3
      omega
    · rw [if_neg (by omega : ¬ -i < -j), if_neg hij]
  rw [e] at this
  rw [this, Int.mul_neg]
  omega

theorem mem_stepIdx {n : Nat} {a b : Option Int} {s : Int} (hs : s ≠ 0) (i : Nat) :
    i ∈ stepIdx n a b s ↔ Selected n a b s i := by
  unfold stepIdx Selected
  simp only [List.mem_map, List.mem_range]
  rcases Int.lt_or_gt_of_ne hs with hs | hs
  · -- counting down
    have e1 : stepStart n a s = max (-1) (min ((n : Int) - 1) (if a.getD (-1) < 0 then a.getD (-1) + n else a.getD (-1))) := by
      unfold stepStart adjust
      cases a with
      | none => simp only [Option.getD_none]; rw [if_neg (by omega)]; omega
      | some k =>
        simp only [Option.getD_some]
        rw [if_neg (by omega)]
        (repeat' split) <;> omega
    have e2 : ∀ x : Int, 0 ≤ x → x < n → (stepStop n b s < x ↔ ∀ k, b = some k → (if k < 0 then k + n else k) < x) := by
      intro x hx hxn
      unfold stepStop adjust
      cases b with
      | none => dsimp only; rw [if_neg (by omega)]; simp; omega
      | some k =>
        dsimp only
        rw [if_neg (by omega)]
        simp only [Option.some.injEq, forall_eq']
        (repeat' split) <;> omega
    have e3 : -1 ≤ stepStop n b s := by
      unfold stepStop adjust
      cases b with
      | none => dsimp only; rw [if_neg (by omega)]; omega
      | some k => dsimp only; rw [if_neg (by omega)]; (repeat' split) <;> omega
    generalize (if a.getD (-1) < 0 then a.getD (-1) + n else a.getD (-1) : Int) = A at *
    constructor
    · rintro ⟨k, hk, rfl⟩
      rw [lt_rangeLen_neg hs] at hk
      have hm : (k : Int) * s ≤ 0 := Int.mul_nonpos_of_nonneg_of_nonpos (by omega) (by omega)
      have hle : stepStart n a s ≤ (n : Int) - 1 := by omega
      have hpos : 0 ≤ stepStart n a s + k * s := by omega
      have hA : stepStart n a s = min ((n : Int) - 1) A := by omega
      refine ⟨by omega, fun h => absurd h (by omega), fun _ => ⟨by omega, ?_, k, by omega⟩⟩
      rw [← e2 _ (by omega) (by omega)]
      omega
    · rintro ⟨h1, -, h2'⟩
      obtain ⟨h2, h3, m, h4⟩ := h2' hs
      clear h2'
      have hA : stepStart n a s = min ((n : Int) - 1) A := by omega
      have hm : 0 ≤ m := by
        rcases Int.lt_or_le m 0 with hm | hm
        · have := Int.mul_pos_of_neg_of_neg hm hs
          omega
        · exact hm
      refine ⟨m.toNat, ?_, ?_⟩
      · rw [lt_rangeLen_neg hs, Int.toNat_of_nonneg hm]
        rw [← e2 _ (by omega) (by omega)] at h3
        omega
      · rw [Int.toNat_of_nonneg hm]
        omega
  · -- counting up
    have hs : 0 < s := hs
    have e1 : stepStart n a s = min (n : Int) (max 0 (if a.getD 0 < 0 then a.getD 0 + n else a.getD 0)) := by
      unfold stepStart adjust
      cases a with
      | none => simp only [Option.getD_none]; rw [if_pos hs]; omega
      | some k =>
        simp only [Option.getD_some]
        rw [if_pos hs]
        (repeat' split) <;> omega
    have e2 : ∀ x : Int, 0 ≤ x → x < n → (x < stepStop n b s ↔ ∀ k, b = some k → x < (if k < 0 then k + n else k)) := by
      intro x hx hxn
      unfold stepStop adjust
      cases b with
      | none => dsimp only; rw [if_pos hs]; simp; omega
      | some k =>
        dsimp only
        rw [if_pos hs]
        simp only [Option.some.injEq, forall_eq']
        (repeat' split) <;> omega
    have e3 : stepStop n b s ≤ n := by
      unfold stepStop adjust
      cases b with
      | none => dsimp only; rw [if_pos hs]; omega
      | some k => dsimp only; rw [if_pos hs]; (repeat' split) <;> omega
    generalize (if a.getD 0 < 0 then a.getD 0 + n else a.getD 0 : Int) = A at *
    constructor
    · rintro ⟨k, hk, rfl⟩
      rw [lt_rangeLen_pos hs] at hk
      have hm : 0 ≤ (k : Int) * s := Int.mul_nonneg (by omega) (by omega)
      have hge : 0 ≤ stepStart n a s := by omega
      have hA : stepStart n a s = max 0 A := by omega
      refine ⟨by omega, fun _ => ⟨by omega, ?_, k, by omega⟩, fun h => absurd h (by omega)⟩
      rw [← e2 _ (by omega) (by omega)]
      omega
    · rintro ⟨h1, h2', -⟩
      obtain ⟨h2, h3, m, h4⟩ := h2' hs
      clear h2'
      have hA : stepStart n a s = max 0 A := by omega
      have hm : 0 ≤ m := by
        rcases Int.lt_or_le m 0 with hm | hm
        · have := Int.mul_neg_of_neg_of_pos hm hs
          omega
        · exact hm
      refine ⟨m.toNat, ?_, ?_⟩
      · rw [lt_rangeLen_pos hs, Int.toNat_of_nonneg hm]
        rw [← e2 _ (by omega) (by omega)] at h3
        omega
      · rw [Int.toNat_of_nonneg hm]
        omega

/-- The selected positions come in order of the slice. -/
theorem stepIdx_order {n : Nat} {a b : Option Int} {s : Int} :
    (0 < s → (stepIdx n a b s).Pairwise (· < ·)) ∧ (s < 0 → (stepIdx n a b s).Pairwise (· > ·)) := by
  have key : ∀ k < rangeLen (stepStart n a s) (stepStop n b s) s, s ≠ 0 → 0 ≤ stepStart n a s + k * s := by
    intro k hk hs
    rcases Int.lt_or_gt_of_ne hs with hs | hs
    · rw [lt_rangeLen_neg hs] at hk
      have : -1 ≤ stepStop n b s := by
        unfold stepStop adjust
        cases b with
        | none => dsimp only; rw [if_neg (by omega)]; omega
        | some k => dsimp only; rw [if_neg (by omega)]; (repeat' split) <;> omega
      omega
    · have hs : 0 < s := hs
      have : 0 ≤ (k : Int) * s := Int.mul_nonneg (by omega) (by omega)
      have : 0 ≤ stepStart n a s := by
        unfold stepStart adjust
        cases a with
        | none => dsimp only; rw [if_pos hs]; omega
        | some k => dsimp only; rw [if_pos hs]; (repeat' split) <;> omega
      omega
  have hr : (List.range (rangeLen (stepStart n a s) (stepStop n b s) s)).Pairwise (fun i j => i < j ∧
      j < rangeLen (stepStart n a s) (stepStop n b s) s) := by
    rw [List.pairwise_iff_getElem]
    intro i j hi hj hij
    simp only [List.getElem_range]
    simp only [List.length_range] at hj
    omega
  unfold stepIdx
  constructor
  · intro hs
    rw [List.pairwise_map]
    refine hr.imp ?_
    rintro i j ⟨h1, h2⟩
    have k1 := key i (by omega) (by omega)
    have k2 := key j h2 (by omega)
    have : (i : Int) * s < j * s := Int.mul_lt_mul_of_pos_right (by omega) hs
    omega
  · intro hs
    rw [List.pairwise_map]
    refine hr.imp ?_
    rintro i j ⟨h1, h2⟩
    have k1 := key i (by omega) (by omega)
    have k2 := key j h2 (by omega)
    have : (j : Int) * s < i * s := Int.mul_lt_mul_of_neg_right (by omega) hs
    omega

theorem filterMap_get {ks : List Nat} : ∀ {is : List Nat}, (∀ i ∈ is, i < ks.length) →
    (is.filterMap (fun i => ks[i]?)).map some = is.map (fun i => ks[i]?)
  | [], _ => rfl
  | i :: is, h => by
    have hi := h i (by simp)
    rw [List.filterMap_cons, List.getElem?_eq_getElem hi]
    have ih := filterMap_get (is := is) (fun j hj => h j (List.mem_cons_of_mem _ hj))
    simp only [List.map_cons, List.getElem?_eq_getElem hi, ih]

/-- C103: `children[a:b:s]` are the children at the positions Python's slice selects, in its order (from right to left
for a negative step); a step of 0 raises `ValueError`. -/
theorem C103_get_step (h : Heap) (p : Nat) (a b : Option Int) (s : Int) :
    (s = 0 → h.getStep p a b s = .error .valueError) ∧
    (s ≠ 0 → ∃ is cs : List Nat, h.getStep p a b s = .ok cs ∧ (∀ i, i ∈ is ↔ Selected (h.kids p).length a b s i) ∧
      (0 < s → is.Pairwise (· < ·)) ∧ (s < 0 → is.Pairwise (· > ·)) ∧ cs.map some = is.map (fun i => (h.kids p)[i]?)) := by
  unfold getStep
  refine ⟨fun hs => by rw [if_pos hs], fun hs => ?_⟩
  rw [if_neg hs]
  exact ⟨_, _, rfl, mem_stepIdx hs, stepIdx_order.1, stepIdx_order.2,
    filterMap_get (fun i hi => ((mem_stepIdx hs i).mp hi).1)⟩

theorem dropIdx_eq (is : List Nat) : ∀ (ks : List Nat) (i : Nat),
    (dropIdx is i ks).map some = ((List.range ks.length).filter (fun j => decide (j + i ∉ is))).map (fun j => ks[j]?)
  | [], _ => rfl
  | k :: ks, i => by
    have ih := dropIdx_eq is ks (i + 1)
    have e : ((List.range ks.length).map Nat.succ).filter (fun j => decide (j + i ∉ is)) =
        ((List.range ks.length).filter (fun j => decide (j + (i + 1) ∉ is))).map Nat.succ := by
      rw [List.filter_map]
      congr 2
      funext j
      simp only [Function.comp, Nat.succ_eq_add_one]
      rw [show j + 1 + i = j + (i + 1) by omega]
    have e' : (List.map Nat.succ (List.filter (fun j => decide (j + (i + 1) ∉ is)) (List.range ks.length))).map
        (fun j => (k :: ks)[j]?) = (dropIdx is (i + 1) ks).map some := by
      rw [ih, List.map_map]
      rfl
    rw [List.length_cons, List.range_succ_eq_map, List.filter_cons, Nat.zero_add, e, dropIdx]
    by_cases hi : i ∈ is
    · rw [if_pos hi, if_neg (by simp [hi]), e']
    · rw [if_neg hi, if_pos (by simp [hi]), List.map_cons, List.map_cons, e']
      rfl

theorem dropIdx_sublist (is : List Nat) : ∀ (ks : List Nat) (i : Nat), (dropIdx is i ks).Sublist ks
  | [], _ => .slnil
  | k :: ks, i => by
    rw [dropIdx]
    split
    · exact (dropIdx_sublist is ks (i + 1)).cons k
    · exact (dropIdx_sublist is ks (i + 1)).cons₂ k

theorem mem_dropIdx {is ks : List Nat} {c : Nat} : c ∈ dropIdx is 0 ks ↔ ∃ j, ks[j]? = some c ∧ j ∉ is := by
  have h := dropIdx_eq is ks 0
  have h2 : c ∈ dropIdx is 0 ks ↔ some c ∈ (dropIdx is 0 ks).map some := by simp
  rw [h2, h]
  simp only [Nat.add_zero, List.mem_map, List.mem_filter, List.mem_range, decide_eq_true_eq]
  constructor
  · rintro ⟨j, ⟨_, h1⟩, h2⟩; exact ⟨j, h2, h1⟩
  · rintro ⟨j, h1, h2⟩
    have : j < ks.length := by
      rcases Nat.lt_or_ge j ks.length with h | h
      · exact h
      · rw [List.getElem?_eq_none h] at h1; cases h1
    exact ⟨j, ⟨this, h2⟩, h1⟩

theorem delStep_spec {h : Heap} {p : Nat} (hok : OK h) (hp : p < h.next) (a b : Option Int) {s : Int} (hs : s ≠ 0) :
    ∃ is cs, h.getStep p a b s = .ok cs ∧ is = stepIdx (h.kids p).length a b s ∧
      cs.map some = is.map (fun i => (h.kids p)[i]?) ∧
      h.delStep p a b s = ((h.unparent cs).setKids p (dropIdx is 0 (h.kids p)), .ok ()) ∧
      OK ((h.unparent cs).setKids p (dropIdx is 0 (h.kids p))) := by
  have hget : h.getStep p a b s =
      .ok ((stepIdx (h.kids p).length a b s).filterMap (fun i => (h.kids p)[i]?)) := by
    unfold getStep; rw [if_neg hs]
  have hnd := kidsOK_nodup (hok.kids p hp)
  refine ⟨_, _, hget, rfl, filterMap_get (fun i hi => ((mem_stepIdx hs i).mp hi).1), ?_, ?_⟩
  · unfold delStep
    rw [hget]
    simp
  · refine ok_delete hok hp ?_ (dropIdx_sublist _ _ _) ?_ ?_
    · intro x hx
      obtain ⟨i, _, h2⟩ := List.mem_filterMap.mp hx
      exact List.mem_of_getElem? h2
    · intro c hc
      obtain ⟨i, hi⟩ := List.getElem?_of_mem hc
      by_cases hm : i ∈ stepIdx (h.kids p).length a b s
      · exact Or.inl (List.mem_filterMap.mpr ⟨i, hm, hi⟩)
      · exact Or.inr (mem_dropIdx.mpr ⟨i, hi, hm⟩)
    · intro c hc hc'
      obtain ⟨i, h1, h2⟩ := List.mem_filterMap.mp hc
      obtain ⟨j, h3, h4⟩ := mem_dropIdx.mp hc'
      have hi : i < (h.kids p).length := ((mem_stepIdx hs i).mp h1).1
      have : i = j := (List.getElem?_inj hi hnd).mp (h2.trans h3.symm)
      subst this
      exact h4 h1

/-- C103: from every consistent object graph `del children[a:b:s]` removes exactly the children the slice selects: they
have no parent afterwards, the others remain, in their order, nothing else changes, and the object graph is consistent
(and acyclic if it was).  A step of 0 raises `ValueError` without any effect. -/
theorem C103_del_step {h : Heap} (hok : OK h) {p : Nat} (hp : p < h.next) (a b : Option Int) (s : Int) :
    (s = 0 → h.delStep p a b s = (h, .error .valueError)) ∧
    (s ≠ 0 → ∃ js ks cs : List Nat, (∀ j, j ∈ js ↔ j < (h.kids p).length ∧ ¬ Selected (h.kids p).length a b s j) ∧
      js.Pairwise (· < ·) ∧ ks.map some = js.map (fun j => (h.kids p)[j]?) ∧
      (∀ c, c ∈ cs ↔ ∃ i, Selected (h.kids p).length a b s i ∧ (h.kids p)[i]? = some c) ∧
      (h.delStep p a b s).2 = .ok () ∧ Swapped h (h.delStep p a b s).1 p ks cs [] [] ∧ OK (h.delStep p a b s).1 ∧
      (Acyclic h → Acyclic (h.delStep p a b s).1)) := by
  constructor
  · intro hs
    unfold delStep getStep
    rw [if_pos hs]
  · intro hs
    obtain ⟨is, cs, e1, e2, e3, e4, e5⟩ := delStep_spec hok hp a b hs
    have hmem : ∀ i, i ∈ is ↔ Selected (h.kids p).length a b s i := by rw [e2]; exact mem_stepIdx hs
    rw [e4]
    refine ⟨(List.range (h.kids p).length).filter (fun j => decide (j + 0 ∉ is)), dropIdx is 0 (h.kids p), cs, ?_, ?_,
      dropIdx_eq is (h.kids p) 0, ?_, rfl, ⟨?_, ?_, ?_⟩, e5, ?_⟩
    · intro j
      rw [List.mem_filter, List.mem_range, decide_eq_true_eq, Nat.add_zero, hmem]
    · exact List.pairwise_lt_range.filter _
    · intro c
      have : c ∈ cs ↔ some c ∈ cs.map some := by simp
      rw [this, e3, List.mem_map]
      constructor
      · rintro ⟨i, h1, h2⟩; exact ⟨i, (hmem i).mp h1, h2⟩
      · rintro ⟨i, h1, h2⟩; exact ⟨i, (hmem i).mpr h1, h2⟩
    · exact (sameData_unparent h cs).trans (sameData_setKids _ p _)
    · intro q
      rw [kids_setKids]
      split
      · simp
      · rw [kids_unparent]
    · intro y
      rw [parent_setKids, parent_unparent]
      simp
    · intro hac
      refine acyclic_unlink (h := h) (by simp) ?_ hac
      intro x q
      simp only [parent_setKids, parent_unparent]
      split
      · intro h; cases h
      · exact id

theorem insertAt_length {h g : Heap} {p x i : Nat} (hi : i ≤ (h.kids p).length) (hr : h.insertAt p x i = (g, .ok ())) :
    (g.kids p).length = (h.kids p).length + 1 := by
  unfold insertAt at hr
  split at hr
  · cases hr
  · split at hr
    · cases hr
    · cases hr
      rw [kids_setKids, if_pos rfl, kids_setParent, List.length_insertIdx, if_pos hi]

theorem setStepLoop_eq (xs : List Nat) : ∀ {h : Heap} {p i : Nat}, i ≤ (h.kids p).length →
    h.setStepLoop p i xs = h.setSliceLoop p i xs := by
  induction xs with
  | nil => intros; rfl
  | cons x xs ih =>
    intro h p i hi
    rw [setStepLoop, setSliceLoop, if_neg (by omega)]
    cases hq : h.insertAt p x i with
    | mk g o =>
      cases o with
      | error e => rfl
      | ok u =>
        have := insertAt_length (g := g) hi hq
        exact ih (by omega)

/-- C104, exactly: `children[a:b:s] = xs` removes the children the stepped slice selects; then the
values are inserted one after the other at position `a` (clamped) **of the children that are left**, not in the places of
the removed ones.  If fewer children than that are left, and there is a value to insert, it raises `IndexError`.
Otherwise as for slices without step (`C26_set_slice_exact`): the longest part of `xs` that fits is inserted. -/
theorem C104_set_step_exact {h : Heap} (hok : OK h) {p : Nat} (hp : p < h.next) {xs : List Nat}
    (hx : ∀ x ∈ xs, x < h.next) (a b : Option Int) {s : Int} (hs : s ≠ 0) :
    ∃ js ks cs : List Nat, (∀ j, j ∈ js ↔ j < (h.kids p).length ∧ ¬ Selected (h.kids p).length a b s j) ∧
      js.Pairwise (· < ·) ∧ ks.map some = js.map (fun j => (h.kids p)[j]?) ∧
      (∀ c, c ∈ cs ↔ ∃ i, Selected (h.kids p).length a b s i ∧ (h.kids p)[i]? = some c) ∧
      let pos := (Span.fromIndices (h.kids p).length a none).start.toNat
      ((ks.length < pos ∧ xs ≠ [] ∧ (h.setStep p a b s xs).2 = .error .indexError ∧
          Swapped h (h.setStep p a b s xs).1 p ks cs [] [] ∧ OK (h.setStep p a b s xs).1) ∨
        (ks.length < pos ∧ xs = [] ∧ (h.setStep p a b s xs).2 = .ok () ∧
          Swapped h (h.setStep p a b s xs).1 p ks cs [] [] ∧ OK (h.setStep p a b s xs).1) ∨
        ∃ l r ys zs, ks = l ++ r ∧ l.length = pos ∧ xs = ys ++ zs ∧
          Swapped h (h.setStep p a b s xs).1 p l cs ys r ∧
          (∀ us y vs, ys = us ++ y :: vs → Fits h p y (l ++ us) r) ∧
          (zs = [] ∧ (h.setStep p a b s xs).2 = .ok () ∨
            ∃ z zs', zs = z :: zs' ∧ ¬ Fits h p z (l ++ ys) r ∧ (h.setStep p a b s xs).2 = .error .valueError) ∧
          (OK (h.setStep p a b s xs).1 ↔
            (∀ y ∈ ys, h.parent y = none ∨ y ∈ cs) ∧ KidsOK (h.span p) ((l ++ ys ++ r).map h.span))) := by
  obtain ⟨is, cs, e1, e2, e3, e4, e5⟩ := delStep_spec hok hp a b hs
  have hmem : ∀ i, i ∈ is ↔ Selected (h.kids p).length a b s i := by rw [e2]; exact mem_stepIdx hs
  have hpos : (Span.fromIndices (h.kids p).length a b).start = (Span.fromIndices (h.kids p).length a none).start := rfl
  refine ⟨(List.range (h.kids p).length).filter (fun j => decide (j + 0 ∉ is)), dropIdx is 0 (h.kids p), cs, ?_, ?_,
    dropIdx_eq is (h.kids p) 0, ?_, ?_⟩
  · intro j
    rw [List.mem_filter, List.mem_range, decide_eq_true_eq, Nat.add_zero, hmem]
  · exact List.pairwise_lt_range.filter _
  · intro c
    have : c ∈ cs ↔ some c ∈ cs.map some := by simp
    rw [this, e3, List.mem_map]
    constructor
    · rintro ⟨i, h1, h2⟩; exact ⟨i, (hmem i).mp h1, h2⟩
    · rintro ⟨i, h1, h2⟩; exact ⟨i, (hmem i).mpr h1, h2⟩
  · dsimp only
    generalize hks : dropIdx is 0 (h.kids p) = ks at *
    unfold setStep
    rw [e4, hpos]
    dsimp only
    generalize (Span.fromIndices (h.kids p).length a none).start.toNat = pos
    have hk' : ((h.unparent cs).setKids p ks).kids p = ks := by rw [kids_setKids, if_pos rfl]
    have hsw : Swapped h ((h.unparent cs).setKids p ks) p ks cs [] [] := by
      refine ⟨(sameData_unparent h cs).trans (sameData_setKids _ p _), ?_, ?_⟩
      · intro q
        rw [kids_setKids]
        split
        · simp
        · rw [kids_unparent]
      · intro y
        rw [parent_setKids, parent_unparent]
        simp
    rcases Nat.lt_or_ge ks.length pos with hlt | hge
    · cases xs with
      | nil => exact Or.inr (Or.inl ⟨hlt, rfl, rfl, hsw, e5⟩)
      | cons x xs =>
        left
        rw [setStepLoop, if_pos (by rw [hk']; exact hlt)]
        exact ⟨hlt, by simp, rfl, hsw, e5⟩
    · right; right
      rw [setStepLoop_eq xs (by rw [hk']; exact hge)]
      have e5' : OK ((h.unparent cs).setKids p (ks.take pos ++ ks.drop pos)) := by rw [List.take_append_drop]; exact e5
      obtain ⟨ys, zs, i⟩ := swap (xs := xs) (start := pos) hp hx e5' (by simp; omega)
      rw [List.take_append_drop] at i
      exact ⟨_, _, ys, zs, (List.take_append_drop pos ks).symm, by simp; omega, i⟩

theorem selected_all {n : Nat} {s : Int} (hs : 0 < s) (i : Nat) :
    Selected n none none s i ↔ i < n ∧ ∃ m : Int, (i : Int) = m * s := by
  unfold Selected
  constructor
  · rintro ⟨h1, h2, _⟩
    obtain ⟨_, _, m, h3⟩ := h2 hs
    simp only [Option.getD_none, Int.lt_irrefl, if_false] at h3
    exact ⟨h1, m, by omega⟩
  · rintro ⟨h1, m, h2⟩
    refine ⟨h1, fun _ => ⟨?_, by simp, m, ?_⟩, fun h => absurd h (by omega)⟩
    · simp only [Option.getD_none, Int.lt_irrefl, if_false]; omega
    · simp only [Option.getD_none, Int.lt_irrefl, if_false]; omega

/-- C104 is false: unlike for Python's lists, every `s`-th child can never be replaced in place: for every consistent object graph,
every step of at least 2 and at least two values with the very spans of the children they are to replace,
`children[::s] = xs` raises `ValueError` (after removing the children). -/
theorem C104_in_place_violated {h : Heap} (hok : OK h) {p : Nat} (hp : p < h.next) {xs : List Nat}
    (hx : ∀ x ∈ xs, x < h.next) {s : Nat} (hs : 2 ≤ s) (hlen : 2 ≤ xs.length)
    (hsp : ∀ i x, xs[i]? = some x → ∃ c, (h.kids p)[i * s]? = some c ∧ h.span x = h.span c) :
    (h.setStep p none none s xs).2 = .error .valueError := by
  obtain ⟨js, ks, cs, h1, h2, h3, h4, h5⟩ := C104_set_step_exact hok hp hx none none (s := (s : Int)) (by omega)
  have hpos : (Span.fromIndices (h.kids p).length none none).start.toNat = 0 := rfl
  dsimp only at h5
  rw [hpos] at h5
  rcases h5 with h5 | h5 | ⟨l, r, ys, zs, i1, i2, i3, i4, i5, i6, i7⟩
  · omega
  · omega
  · rcases i6 with ⟨rfl, _⟩ | ⟨z, zs', _, _, i6⟩
    · exfalso
      rw [List.append_nil] at i3
      subst i3
      match xs, hlen with
      | x0 :: x1 :: xs', _ =>
        have hl : l = [] := List.length_eq_zero_iff.mp i2
        subst hl
        have hf := i5 [x0] x1 xs' rfl
        obtain ⟨c, c1, c2⟩ := hsp 1 x1 rfl
        rw [Nat.one_mul] at c1
        have hslen : s < (h.kids p).length := (List.getElem?_eq_some_iff.mp c1).1
        -- the first child left is the one at position 1
        have m1 : 1 ∈ js := by
          rw [h1]
          refine ⟨by omega, ?_⟩
          rw [selected_all (by omega)]
          rintro ⟨_, m, hm⟩
          have hm1 : 0 < m := by
            rcases Int.lt_or_le 0 m with h | h
            · exact h
            · have := Int.mul_nonpos_of_nonpos_of_nonneg h (Int.natCast_nonneg s)
              omega
          have : (1 : Int) * s ≤ m * s := Int.mul_le_mul_of_nonneg_right (by omega) (by omega)
          omega
        have m0 : 0 ∉ js := by
          rw [h1]
          rintro ⟨_, hn⟩
          apply hn
          rw [selected_all (by omega)]
          exact ⟨by omega, 0, by simp⟩
        obtain ⟨js', hjs⟩ : ∃ js', js = 1 :: js' := by
          cases js with
          | nil => cases m1
          | cons j js' =>
            rw [List.pairwise_cons] at h2
            rcases List.mem_cons.mp m1 with rfl | hm
            · exact ⟨js', rfl⟩
            · have := h2.1 1 hm
              have : j = 0 := by omega
              subst this
              exact absurd (List.mem_cons_self ..) m0
        obtain ⟨d, hd⟩ : ∃ d, (h.kids p)[1]? = some d := ⟨_, List.getElem?_eq_getElem (by omega)⟩
        have hr : r.head? = some d := by
          rw [hjs, List.map_cons, hd] at h3
          rw [i1, List.nil_append] at h3
          cases r with
          | nil => simp at h3
          | cons y r => simp only [List.map_cons, List.cons.injEq, Option.some.injEq] at h3; simp [h3.1]
        have hright := hf.right d hr
        have hko := hok.kids p hp
        have hord := hko.ordered
        rw [List.pairwise_map, List.pairwise_iff_getElem] at hord
        obtain ⟨d1, d2⟩ := List.getElem?_eq_some_iff.mp hd
        obtain ⟨c3, c4⟩ := List.getElem?_eq_some_iff.mp c1
        have ho := hord 1 s d1 c3 (by omega)
        rw [d2, c4] at ho
        have hin := hko.inside (h.span c) (List.mem_map.mpr ⟨c, List.mem_of_getElem? c1, rfl⟩)
        rw [c2] at hright
        omega
    · exact i6

/-- A root over "abcdef" with children (0,1) … (3,4), and Itos with the spans of the first and third. -/
def exStep : List Op :=
  [.new "abcdef" none none none, .new "abcdef" (some 0) (some 1) none, .new "abcdef" (some 1) (some 2) none,
   .new "abcdef" (some 2) (some 3) none, .new "abcdef" (some 3) (some 4) none, .new "abcdef" (some 0) (some 1) none,
   .new "abcdef" (some 2) (some 3) none, .add 0 [1, 2, 3, 4]]
theorem exStep_legal : Legal empty exStep := by
  refine ⟨by simp [Op.ids], by simp [Op.ids], by simp [Op.ids], by simp [Op.ids], by simp [Op.ids], by simp [Op.ids],
    by simp [Op.ids], ?_, trivial⟩
  decide
example : OK (empty.runAll exStep) := C24_children_invariant _ exStep_legal
/-- `children[::2]`, `children[::-1]`, `children[3:0:-2]` and `children[-1:7:3]`. -/
example : (empty.runAll exStep).getStep 0 none none 2 = .ok [1, 3] ∧
    (empty.runAll exStep).getStep 0 none none (-1) = .ok [4, 3, 2, 1] ∧
    (empty.runAll exStep).getStep 0 (some 3) (some 0) (-2) = .ok [4, 2] ∧
    (empty.runAll exStep).getStep 0 (some (-1)) (some 7) 3 = .ok [4] := by decide
example : ((empty.runAll exStep).delStep 0 none none 2).1.kids 0 = [2, 4] := by decide
/-- The hypotheses of `C104_in_place_violated` are met; the children are lost. -/
example : (∀ i x, [5, 6][i]? = some x → ∃ c, ((empty.runAll exStep).kids 0)[i * 2]? = some c ∧
      (empty.runAll exStep).span x = (empty.runAll exStep).span c) ∧
    ((empty.runAll exStep).setStep 0 none none 2 [5, 6]).1.kids 0 = [5, 2, 4] := by
  refine ⟨?_, by decide⟩
  intro i x hx
  match i, hx with
  | 0, hx => cases hx; exact ⟨1, by decide, by decide⟩
  | 1, hx => cases hx; exact ⟨3, by decide, by decide⟩
/-- `children[3:0:-1] = [x]` raises `IndexError`: one child is left, and the position is 3. -/
example : ((empty.runAll exStep).setStep 0 (some 3) (some 0) (-1) [6]).2 = .error .indexError ∧
    ((empty.runAll exStep).setStep 0 (some 3) (some 0) (-1) [6]).1.kids 0 = [1] := by decide

end Pawpaw.Props
