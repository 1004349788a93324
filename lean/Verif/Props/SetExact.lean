import Verif.Props.Heap
import Verif.Spec.SetItem
import Verif.Model.Step
/-!
# C26: what an assignment to an item or a slice of a child list does, exactly
-/
set_option linter.unusedSectionVars false
namespace Pawpaw.Props
open TreeSpec HeapSpec Heap

theorem fits_congr {h g : Heap} (hd : SameData h g) {p x : Nat} {l r : List Nat} : Fits g p x l r ↔ Fits h p x l r := by
  have e1 : g.span = h.span := funext fun y => (hd.2 y).1
  have e2 : g.str = h.str := funext fun y => (hd.2 y).2.1
  constructor
  · rintro ⟨a, b, c, d, e⟩
    rw [e1] at c d e; rw [e2] at a
    exact ⟨a, b, c, d, e⟩
  · rintro ⟨a, b, c, d, e⟩
    constructor
    · rw [e2]; exact a
    · exact b
    · rw [e1]; exact c
    · rw [e1]; exact d
    · rw [e1]; exact e

/-- One insertion: done if the Ito fits, refused without any effect if it does not. -/
theorem insertAt_fits {h : Heap} {p x : Nat} {l r : List Nat} (hk : h.kids p = l ++ r) :
    (Fits h p x l r → h.insertAt p x l.length = ((h.setParent x (some p)).setKids p (l ++ x :: r), .ok ())) ∧
    (¬ Fits h p x l r → h.insertAt p x l.length = (h, .error .valueError)) := by
  have hL := @Kids.isStartLtPriorStop_append (l.map h.span) (r.map h.span) (h.span x)
  have hR := @Kids.isStopGtNextStart_append (l.map h.span) (r.map h.span) (h.span x)
  rw [List.length_map, ← List.map_append, ← hk] at hL hR
  have hins : (h.kids p).insertIdx l.length x = l ++ x :: r := by
    rw [insertIdx_take_drop x (by rw [hk]; simp), hk]; simp
  have key : Fits h p x l r ↔ Kids.notBetween (h.kidSpans p) (h.span x) l.length l.length = false ∧
      h.setParentRaises x p = false := by
    unfold Kids.notBetween kidSpans setParentRaises Kids.outside
    rw [Bool.or_eq_false_iff, ← Bool.not_eq_true, ← Bool.not_eq_true, hL, hR]
    simp only [Bool.or_eq_false_iff, decide_eq_false_iff_not, Decidable.not_not, List.getLast?_map, List.head?_map,
      Option.map_eq_some_iff]
    constructor
    · intro f
      refine ⟨⟨?_, ?_⟩, ⟨f.str, ?_, ?_⟩, f.ne⟩
      · rintro ⟨_, ⟨c, hc, rfl⟩, h2⟩
        have := f.left c hc
        omega
      · rintro ⟨_, ⟨c, hc, rfl⟩, h2⟩
        have := f.right c hc
        omega
      · have := f.inside; omega
      · have := f.inside; omega
    · rintro ⟨⟨h1, h2⟩, ⟨h3, h4, h5⟩, h6⟩
      refine ⟨h3, h6, by omega, ?_, ?_⟩
      · intro c hc
        refine Int.not_lt.mp fun hlt => h1 ⟨h.span c, ⟨c, hc, rfl⟩, hlt⟩
      · intro c hc
        refine Int.not_lt.mp fun hlt => h2 ⟨h.span c, ⟨c, hc, rfl⟩, hlt⟩
  constructor
  · intro hf
    obtain ⟨k1, k2⟩ := key.mp hf
    unfold insertAt
    rw [k1, k2]
    dsimp only
    rw [kids_setParent, hins]
    simp
  · intro hf
    unfold insertAt
    split
    · rfl
    · rename_i h1
      split
      · rfl
      · rename_i h2
        exact absurd (key.mpr ⟨by simpa using h1, by simpa using h2⟩) hf

/-- What the insertion of `ys` between the children `l` and `r` of `p` makes of the heap: nothing but the parents of
`ys` and the children of `p` changes. -/
structure Put (h g : Heap) (p : Nat) (l ys r : List Nat) : Prop where
  data : SameData h g
  kids : ∀ q, g.kids q = if q = p then l ++ ys ++ r else h.kids q
  parent : ∀ y, g.parent y = if y ∈ ys then some p else h.parent y

/-- The loop: a longest sequence of values that fit is inserted. -/
theorem setSliceLoop_exact : ∀ (xs : List Nat) {h : Heap} {p : Nat} {l r : List Nat}, h.kids p = l ++ r →
    ∃ ys zs, xs = ys ++ zs ∧ Put h (h.setSliceLoop p l.length xs).1 p l ys r ∧
      (∀ us y vs, ys = us ++ y :: vs → Fits h p y (l ++ us) r) ∧
      (zs = [] ∧ (h.setSliceLoop p l.length xs).2 = .ok () ∨
        ∃ z zs', zs = z :: zs' ∧ ¬ Fits h p z (l ++ ys) r ∧ (h.setSliceLoop p l.length xs).2 = .error .valueError)
  | [], h, p, l, r, hk => by
    refine ⟨[], [], rfl, ⟨.refl h, ?_, ?_⟩, ?_, Or.inl ⟨rfl, rfl⟩⟩
    · intro q; split
      · rename_i e; subst e; simpa [setSliceLoop] using hk
      · rfl
    · intro y; simp [setSliceLoop]
    · intro us y vs e; simp at e
  | x :: xs, h, p, l, r, hk => by
    obtain ⟨i1, i2⟩ := insertAt_fits (x := x) hk
    unfold setSliceLoop
    by_cases hf : Fits h p x l r
    · rw [i1 hf]
      dsimp only
      have hk' : ((h.setParent x (some p)).setKids p (l ++ x :: r)).kids p = (l ++ [x]) ++ r := by
        rw [kids_setKids, if_pos rfl]; simp
      obtain ⟨ys, zs, e, hput, hfit, hout⟩ := setSliceLoop_exact xs hk'
      rw [show (l ++ [x]).length = l.length + 1 by simp] at hput hout
      have hfits : ∀ {y l' r'}, Fits ((h.setParent x (some p)).setKids p (l ++ x :: r)) p y l' r' ↔ Fits h p y l' r' := by
        intro y l' r'
        exact fits_congr ((sameData_setParent h x _).trans (sameData_setKids _ p _))
      refine ⟨x :: ys, zs, by rw [e]; rfl, ⟨?_, ?_, ?_⟩, ?_, ?_⟩
      · exact ((sameData_setParent h x _).trans (sameData_setKids _ p _)).trans hput.data
      · intro q
        rw [hput.kids q]
        split
        · simp
        · rename_i hq
          rw [kids_setKids, if_neg hq, kids_setParent]
      · intro y
        rw [hput.parent y]
        by_cases hy : y ∈ ys
        · simp [hy]
        · rw [if_neg hy, parent_setKids, parent_setParent]
          by_cases hyx : y = x
          · simp [hyx]
          · simp [hy, hyx]
      · intro us y vs he
        cases us with
        | nil =>
          simp only [List.nil_append, List.cons.injEq] at he
          rw [List.append_nil, ← he.1]; exact hf
        | cons u us =>
          simp only [List.cons_append, List.cons.injEq] at he
          have := hfits.mp (hfit us y vs he.2)
          rw [← he.1]
          simpa using this
      · rcases hout with ⟨z1, z2⟩ | ⟨z, zs', z1, z2, z3⟩
        · exact Or.inl ⟨z1, z2⟩
        · refine Or.inr ⟨z, zs', z1, ?_, z3⟩
          intro hc
          apply z2
          rw [hfits]
          simpa using hc
    · rw [i2 hf]
      dsimp only
      refine ⟨[], x :: xs, rfl, ⟨.refl h, ?_, ?_⟩, ?_, Or.inr ⟨x, xs, rfl, by simpa using hf, rfl⟩⟩
      · intro q; split
        · rename_i e; subst e; simpa using hk
        · rfl
      · intro y; simp
      · intro us y vs e; simp at e

/-- When the insertion leaves a consistent object graph. -/
theorem put_ok {h g : Heap} {p : Nat} {l ys r : List Nat} (hok : OK h) (hp : p < h.next) (hk : h.kids p = l ++ r)
    (hys : ∀ y ∈ ys, y < h.next) (hfit : ∀ us y vs, ys = us ++ y :: vs → Fits h p y (l ++ us) r)
    (hput : Put h g p l ys r) :
    OK g ↔ (∀ y ∈ ys, h.parent y = none) ∧ KidsOK (h.span p) ((l ++ ys ++ r).map h.span) := by
  obtain ⟨⟨hn, hd⟩, hkids, hpar⟩ := hput
  have hspan : g.span = h.span := funext fun y => (hd y).1
  have hfit' : ∀ y ∈ ys, h.str y = h.str p ∧ y ≠ p := by
    intro y hy
    obtain ⟨us, vs, e⟩ := List.append_of_mem hy
    exact ⟨(hfit us y vs e).str, (hfit us y vs e).ne⟩
  constructor
  · intro hg
    have hko := hg.kids p (by omega)
    rw [hkids, if_pos rfl, hspan] at hko
    refine ⟨?_, hko⟩
    intro y hy
    cases hq : h.parent y with
    | none => rfl
    | some q =>
      exfalso
      obtain ⟨q1, q2, q3⟩ := hok.parentKid y (hys y hy) q hq
      by_cases e : q = p
      · subst e
        have hnd := kidsOK_nodup hko
        rw [hk] at q2
        rw [List.append_assoc, List.nodup_append] at hnd
        obtain ⟨_, n2, n3⟩ := hnd
        rw [List.nodup_append] at n2
        rcases List.mem_append.mp q2 with hm | hm
        · exact n3 _ hm _ (List.mem_append.mpr (Or.inl hy)) rfl
        · exact n2.2.2 _ hy _ hm rfl
      · have := (hg.kidParent q (by omega) y (by rw [hkids, if_neg e]; exact q2)).2.1
        rw [hpar, if_pos hy] at this
        exact e (Option.some.inj this).symm
  · rintro ⟨hfree, hko⟩
    constructor
    · intro y hy
      rw [hspan, (hd y).2.1]
      exact hok.span y (by omega)
    · intro q hq
      rw [hspan, hkids]
      split
      · rename_i e; subst e; exact hko
      · exact hok.kids q (by omega)
    · intro q hq c hc
      rw [hkids] at hc
      rw [(hd c).2.1, (hd q).2.1, hpar]
      split at hc
      · rename_i e; subst e
        by_cases hcy : c ∈ ys
        · exact ⟨by have := hys c hcy; omega, by rw [if_pos hcy], (hfit' c hcy).1⟩
        · have hc' : c ∈ h.kids q := by
            rw [hk]
            simp only [List.mem_append] at hc ⊢
            rcases hc with (hc | hc) | hc
            · exact Or.inl hc
            · exact absurd hc hcy
            · exact Or.inr hc
          obtain ⟨c1, c2, c3⟩ := hok.kidParent q hp c hc'
          exact ⟨by omega, by rw [if_neg hcy]; exact c2, c3⟩
      · rename_i e
        obtain ⟨c1, c2, c3⟩ := hok.kidParent q (by omega) c hc
        refine ⟨by omega, ?_, c3⟩
        rw [if_neg]
        · exact c2
        · intro hcy
          rw [hfree c hcy] at c2
          cases c2
    · intro y hy q hq
      rw [hpar] at hq
      rw [hkids]
      by_cases hyy : y ∈ ys
      · rw [if_pos hyy] at hq
        cases hq
        exact ⟨by omega, by rw [if_pos rfl]; simp [hyy], (hfit' y hyy).2⟩
      · rw [if_neg hyy] at hq
        obtain ⟨q1, q2, q3⟩ := hok.parentKid y (by omega) q hq
        refine ⟨by omega, ?_, q3⟩
        split
        · rename_i e; subst e
          rw [hk] at q2
          simp only [List.mem_append] at q2 ⊢
          rcases q2 with q2 | q2
          · exact Or.inl (Or.inl q2)
          · exact Or.inr q2
        · exact q2

/-- Removing `m` from the children of `p` and inserting `ys` in the gap. -/
structure Swapped (h g : Heap) (p : Nat) (l m ys r : List Nat) : Prop where
  data : SameData h g
  kids : ∀ q, g.kids q = if q = p then l ++ ys ++ r else h.kids q
  parent : ∀ y, g.parent y = if y ∈ ys then some p else if y ∈ m then none else h.parent y

theorem swap {h : Heap} {p : Nat} {l m r xs : List Nat} {start : Nat} (hp : p < h.next) (hx : ∀ x ∈ xs, x < h.next)
    (hok' : OK ((h.unparent m).setKids p (l ++ r))) (hst : start = l.length) :
    ∃ ys zs, xs = ys ++ zs ∧
      Swapped h (setSliceLoop ((h.unparent m).setKids p (l ++ r)) p start xs).1 p l m ys r ∧
      (∀ us y vs, ys = us ++ y :: vs → Fits h p y (l ++ us) r) ∧
      (zs = [] ∧ (setSliceLoop ((h.unparent m).setKids p (l ++ r)) p start xs).2 = .ok () ∨
        ∃ z zs', zs = z :: zs' ∧ ¬ Fits h p z (l ++ ys) r ∧
          (setSliceLoop ((h.unparent m).setKids p (l ++ r)) p start xs).2 = .error .valueError) ∧
      (OK (setSliceLoop ((h.unparent m).setKids p (l ++ r)) p start xs).1 ↔
        (∀ y ∈ ys, h.parent y = none ∨ y ∈ m) ∧ KidsOK (h.span p) ((l ++ ys ++ r).map h.span)) := by
  subst hst
  have hfits : ∀ {y l' r'}, Fits ((h.unparent m).setKids p (l ++ r)) p y l' r' ↔ Fits h p y l' r' := by
    intro y l' r'
    exact fits_congr ((sameData_unparent h m).trans (sameData_setKids _ p _))
  have hk' : ((h.unparent m).setKids p (l ++ r)).kids p = l ++ r := by rw [kids_setKids, if_pos rfl]
  obtain ⟨ys, zs, e, hput, hfit, hout⟩ := setSliceLoop_exact xs hk'
  have hiff := put_ok hok' (by simpa using hp) hk' (by
    intro y hy; simpa using hx y (by rw [e]; simp [hy])) hfit hput
  refine ⟨ys, zs, e, ⟨?_, ?_, ?_⟩, ?_, ?_, ?_⟩
  · exact ((sameData_unparent h m).trans (sameData_setKids _ p _)).trans hput.data
  · intro q
    rw [hput.kids q]
    split
    · rfl
    · rename_i hq; rw [kids_setKids, if_neg hq, kids_unparent]
  · intro y
    rw [hput.parent y, parent_setKids, parent_unparent]
  · intro us y vs he; exact hfits.mp (hfit us y vs he)
  · rcases hout with h1 | ⟨z, zs', z1, z2, z3⟩
    · exact Or.inl h1
    · exact Or.inr ⟨z, zs', z1, fun hc => z2 (hfits.mpr hc), z3⟩
  · rw [hiff]
    simp only [parent_setKids, parent_unparent, span_setKids', span_unparent']
    refine and_congr_left fun _ => forall_congr' fun y => forall_congr' fun _ => ?_
    by_cases hy : y ∈ m <;> simp [hy]

/-- C26, exactly, for slices: from every consistent object graph and for any values — with or without parents, of any
width, repeated or not — `children[a:b] = xs` first removes the children the slice selects; then it inserts, in
place, the longest part `ys` of `xs` each of which fits; it returns normally if and only if all of them do, and
raises `ValueError` otherwise (the removed children stay removed).  What it leaves is consistent if and only if none
of the inserted Itos has a parent (other than as a removed child) and the new children are strictly ordered and
disjoint. -/
theorem C26_set_slice_exact {h : Heap} (hok : OK h) {p : Nat} (hp : p < h.next) {xs : List Nat}
    (hx : ∀ x ∈ xs, x < h.next) (a b : Option Int) :
    ∃ l m r ys zs, h.kids p = l ++ m ++ r ∧ m = PyStr.slice (h.kids p) a b ∧ xs = ys ++ zs ∧
      Swapped h (h.setSlice p a b xs).1 p l m ys r ∧
      (∀ us y vs, ys = us ++ y :: vs → Fits h p y (l ++ us) r) ∧
      (zs = [] ∧ (h.setSlice p a b xs).2 = .ok () ∨
        ∃ z zs', zs = z :: zs' ∧ ¬ Fits h p z (l ++ ys) r ∧ (h.setSlice p a b xs).2 = .error .valueError) ∧
      (OK (h.setSlice p a b xs).1 ↔
        (∀ y ∈ ys, h.parent y = none ∨ y ∈ m) ∧ KidsOK (h.span p) ((l ++ ys ++ r).map h.span)) := by
  obtain ⟨l, m, r, e1, e2, e3, e4, e5⟩ := delSlice_spec hok hp a b
  obtain ⟨ys, zs, i⟩ := swap (xs := xs) hp hx e5 e2.symm
  refine ⟨l, m, r, ys, zs, e1, ?_, ?_⟩
  · rw [← C01_ito_text_is_slice (h.kids p) a b none]
    unfold FIto.text FIto.ofStr FIto.start FIto.stop
    obtain ⟨b1, b2, b3⟩ := C01_from_indices_bounds (h.kids p).length a b
    dsimp only
    rw [show (Span.fromIndices (h.kids p).length a b).start = (l.length : Int) by omega,
      show (Span.fromIndices (h.kids p).length a b).stop = ((l ++ m).length : Int) by omega, PyStr.slice_nat, e1,
      List.take_left, List.drop_left]
  · unfold setSlice
    rw [e4]
    exact i

/-- C26, exactly, for items: `children[k] = x` raises `IndexError` without any effect if the (clamped) position is past
the last child; otherwise the child `c` there is removed, and `x` takes its place if it fits; if it does not,
`ValueError` is raised (and `c` stays removed).  In the first case what it leaves is consistent if and only if `x` had
no parent (or was `c` itself) and the new children are strictly ordered and disjoint; in the second always. -/
theorem C26_set_int_exact {h : Heap} (hok : OK h) {p x : Nat} (hp : p < h.next) (hx : x < h.next) (k : Int) :
    (((h.kids p).length ≤ k ∨ h.kids p = []) ∧ h.setInt p k x = (h, .error .indexError)) ∨
    ∃ l c r, h.kids p = l ++ c :: r ∧
      (l.length : Int) = (if k < 0 then max 0 (k + (h.kids p).length) else k) ∧
      ((Fits h p x l r ∧ (h.setInt p k x).2 = .ok () ∧ Swapped h (h.setInt p k x).1 p l [c] [x] r ∧
          (OK (h.setInt p k x).1 ↔ (h.parent x = none ∨ x = c) ∧ KidsOK (h.span p) ((l ++ [x] ++ r).map h.span))) ∨
        (¬ Fits h p x l r ∧ (h.setInt p k x).2 = .error .valueError ∧ Swapped h (h.setInt p k x).1 p l [c] [] r ∧
          OK (h.setInt p k x).1)) := by
  obtain ⟨b1, b2, b3⟩ := C01_from_indices_bounds (h.kids p).length (some k) none
  have hst : (Span.fromIndices (h.kids p).length (some k) none).start =
      if k ≥ 0 then min ((h.kids p).length : Int) k else max 0 ((h.kids p).length + k) := by
    unfold Span.fromIndices Span.clampIndex; rfl
  unfold setInt
  dsimp only
  generalize hsp : (Span.fromIndices (h.kids p).length (some k) none).start = st at *
  rcases delInt_spec hok hp st with ⟨e, e2⟩ | ⟨i, c, l, r, e1, e2, e3, e4, e5⟩
  · left
    rw [e]
    have : st = (h.kids p).length := by
      have h1 : ¬ st < (h.kids p).length := by
        intro hlt
        have := listIdx_nat (n := (h.kids p).length) (k := st.toNat) (by omega)
        rw [show ((st.toNat : Nat) : Int) = st by omega, e2] at this
        cases this
      omega
    refine ⟨?_, rfl⟩
    by_cases h0 : h.kids p = []
    · exact Or.inr h0
    · left
      have := List.length_pos_iff.mpr h0
      split at hst <;> omega
  · right
    have hi : (i : Int) = st := by
      have hlt := listIdx_lt e1
      have h1 : st < (h.kids p).length := by
        rcases Int.lt_or_le st (h.kids p).length with h1 | h1
        · exact h1
        · unfold listIdx at e1
          have h2 : ¬ st < 0 := by omega
          simp only [h2, if_false] at e1
          rw [if_neg (by omega)] at e1
          cases e1
      have := listIdx_nat (n := (h.kids p).length) (k := st.toNat) (by omega)
      rw [show ((st.toNat : Nat) : Int) = st by omega, e1] at this
      have := Option.some.inj this
      omega
    have hlen := listIdx_lt e1
    refine ⟨l, c, r, e3, ?_, ?_⟩
    · rw [← e2, hi, hst]
      have hst' : st < (h.kids p).length := by omega
      split <;> split <;> omega
    · rw [e4]
      dsimp only
      have e5' : OK ((h.unparent [c]).setKids p (l ++ r)) := e5
      obtain ⟨ys, zs, i1, i2, i3, i4, i5⟩ := swap (xs := [x]) (start := st.toNat) hp
        (by intro y hy; rw [List.mem_singleton] at hy; rw [hy]; exact hx) e5' (by omega)
      have hone : ∀ g : Heap, setSliceLoop g p st.toNat [x] = g.insertAt p x st.toNat := by
        intro g
        rw [setSliceLoop]
        cases hq : g.insertAt p x st.toNat with
        | mk g' o => cases o <;> simp [setSliceLoop]
      rw [hone] at i2 i4 i5
      change Swapped h (insertAt ((h.setParent c none).setKids p (l ++ r)) p x st.toNat).1 p l [c] ys r at i2
      rcases i4 with ⟨rfl, i4⟩ | ⟨z, zs', rfl, i4, i6⟩
      · rw [List.append_nil] at i1
        subst i1
        refine Or.inl ⟨by simpa using i3 [] x [] rfl, i4, i2, ?_⟩
        rw [show (h.setParent c none) = h.unparent [c] from rfl, i5]
        simp
      · have : ys = [] ∧ z = x := by
          cases ys with
          | nil => simp at i1; exact ⟨rfl, i1.1.symm⟩
          | cons y ys => simp at i1
        obtain ⟨rfl, rfl⟩ := this
        refine Or.inr ⟨by simpa using i4, i6, i2, ?_⟩
        rw [show (h.setParent c none) = h.unparent [c] from rfl, i5]
        refine ⟨by simp, ?_⟩
        have := e5.kids p hp
        rw [kids_setKids, if_pos rfl] at this
        simpa using this

/-- The hypotheses are met by an Ito that is another's child, and the result is not consistent. -/
example : ∃ h : Heap, OK h ∧ 0 < h.next ∧ 3 < h.next ∧ h.parent 3 = some 1 ∧ (h.setInt 0 0 3).2 = .ok () := by
  refine ⟨empty.runAll [.new "abcd" none none none, .new "abcd" none none none, .new "abcd" (some 0) (some 2) none,
    .new "abcd" (some 0) (some 2) none, .add 0 [2], .add 1 [3]], C24_children_invariant _
    ⟨by simp [Op.ids], by simp [Op.ids], by simp [Op.ids], by simp [Op.ids], by decide, by decide, trivial⟩,
    by decide, by decide, by decide, by decide⟩

end Pawpaw.Props
