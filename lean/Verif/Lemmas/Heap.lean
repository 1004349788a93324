import Verif.Spec.Heap
import Verif.Lemmas.Tree
/-!
# Lemmas about heaps
-/
set_option linter.unusedSectionVars false
namespace Pawpaw
open TreeSpec HeapSpec
namespace Heap

@[simp] theorem upd_next (h : Heap) (i f) : (h.upd i f).next = h.next := rfl
@[simp] theorem setParent_next (h : Heap) (x p) : (h.setParent x p).next = h.next := rfl
@[simp] theorem setKids_next (h : Heap) (x ks) : (h.setKids x ks).next = h.next := rfl

theorem parent_setParent (h : Heap) (x p y) : (h.setParent x p).parent y = if y = x then p else h.parent y := by
  unfold setParent upd parent; dsimp only; split <;> rfl
@[simp] theorem kids_setParent (h : Heap) (x p y) : (h.setParent x p).kids y = h.kids y := by
  unfold setParent upd kids; dsimp only; split <;> rfl
@[simp] theorem span_setParent (h : Heap) (x p y) : (h.setParent x p).span y = h.span y := by
  unfold setParent upd span; dsimp only; split <;> rfl
@[simp] theorem str_setParent (h : Heap) (x p y) : (h.setParent x p).str y = h.str y := by
  unfold setParent upd str; dsimp only; split <;> rfl
theorem kids_setKids (h : Heap) (x ks y) : (h.setKids x ks).kids y = if y = x then ks else h.kids y := by
  unfold setKids upd kids; dsimp only; split <;> rfl
@[simp] theorem parent_setKids (h : Heap) (x ks y) : (h.setKids x ks).parent y = h.parent y := by
  unfold setKids upd parent; dsimp only; split <;> rfl
@[simp] theorem span_setKids (h : Heap) (x ks y) : (h.setKids x ks).span y = h.span y := by
  unfold setKids upd span; dsimp only; split <;> rfl
@[simp] theorem str_setKids (h : Heap) (x ks y) : (h.setKids x ks).str y = h.str y := by
  unfold setKids upd str; dsimp only; split <;> rfl

@[simp] theorem unparent_next (h : Heap) (xs) : (h.unparent xs).next = h.next := by
  induction xs generalizing h with
  | nil => rfl
  | cons x xs ih => unfold unparent; rw [ih]; rfl
@[simp] theorem kids_unparent (h : Heap) (xs y) : (h.unparent xs).kids y = h.kids y := by
  induction xs generalizing h with
  | nil => rfl
  | cons x xs ih => unfold unparent; rw [ih]; simp
@[simp] theorem span_unparent (h : Heap) (xs y) : (h.unparent xs).span y = h.span y := by
  induction xs generalizing h with
  | nil => rfl
  | cons x xs ih => unfold unparent; rw [ih]; simp
@[simp] theorem str_unparent (h : Heap) (xs y) : (h.unparent xs).str y = h.str y := by
  induction xs generalizing h with
  | nil => rfl
  | cons x xs ih => unfold unparent; rw [ih]; simp
theorem parent_unparent (h : Heap) (xs y) :
    (h.unparent xs).parent y = if y ∈ xs then none else h.parent y := by
  induction xs generalizing h with
  | nil => simp [unparent]
  | cons x xs ih =>
    unfold unparent
    rw [ih, parent_setParent]
    by_cases h1 : y ∈ xs
    · simp [h1]
    · by_cases h2 : y = x <;> simp [h1, h2]

@[simp] theorem span_setParent' (h : Heap) (x p) : (h.setParent x p).span = h.span := funext (by simp)
@[simp] theorem span_setKids' (h : Heap) (x p) : (h.setKids x p).span = h.span := funext (by simp)
@[simp] theorem span_unparent' (h : Heap) (xs) : (h.unparent xs).span = h.span := funext (by simp)

/-- Everything but parents and children. -/
def SameData (h h' : Heap) : Prop :=
  h'.next = h.next ∧ ∀ x, h'.span x = h.span x ∧ h'.str x = h.str x ∧
    (h'.obj x).desc = (h.obj x).desc ∧ (h'.obj x).vf = (h.obj x).vf

theorem SameData.refl (h : Heap) : SameData h h := ⟨rfl, fun _ => ⟨rfl, rfl, rfl, rfl⟩⟩
theorem SameData.trans {a b c : Heap} (h1 : SameData a b) (h2 : SameData b c) : SameData a c :=
  ⟨h2.1.trans h1.1, fun x => ⟨(h2.2 x).1.trans (h1.2 x).1, (h2.2 x).2.1.trans (h1.2 x).2.1,
    (h2.2 x).2.2.1.trans (h1.2 x).2.2.1, (h2.2 x).2.2.2.trans (h1.2 x).2.2.2⟩⟩
theorem sameData_setParent (h : Heap) (x p) : SameData h (h.setParent x p) := by
  refine ⟨rfl, fun y => ⟨by simp, by simp, ?_, ?_⟩⟩ <;>
  · unfold setParent upd; dsimp only; split <;> rfl
theorem sameData_setKids (h : Heap) (x ks) : SameData h (h.setKids x ks) := by
  refine ⟨rfl, fun y => ⟨by simp, by simp, ?_, ?_⟩⟩ <;>
  · unfold setKids upd; dsimp only; split <;> rfl
theorem sameData_unparent (h : Heap) (xs) : SameData h (h.unparent xs) := by
  induction xs generalizing h with
  | nil => exact .refl h
  | cons x xs ih => exact (sameData_setParent h x none).trans (ih _)

theorem map_insertIdx {α β : Type} (f : α → β) (l : List α) (i : Nat) (a : α) :
    (l.insertIdx i a).map f = (l.map f).insertIdx i (f a) := by
  induction i generalizing l with
  | zero => simp
  | succ i ih =>
    cases l with
    | nil => simp
    | cons b l => simp [List.insertIdx_succ_cons, ih]

/-- Inserting a span where `add` puts it. -/
theorem insert_spans {p s : Span} {st : List Span} (hk : KidsOK p st) (hs : s.start ≤ s.stop)
    (h1 : ¬ Kids.bfindStart st s ≥ 0)
    (h2 : Kids.notBetween st s (-(Kids.bfindStart st s) - 1).toNat (-(Kids.bfindStart st s) - 1).toNat = false)
    (h3 : Kids.outside p s = false) :
    KidsOK p (st.insertIdx (-(Kids.bfindStart st s) - 1).toNat s) := by
  have e : ∀ l : List Span, (l.map Node.leaf).map Node.span = l := by
    intro l; rw [List.map_map]; exact List.map_id'' (fun _ => rfl) l
  have e' : (st.map Node.leaf).map Node.span = st := e st
  have hadd : Kids.add p (st.map Node.leaf) (Node.leaf s) =
      .ok ((st.map Node.leaf).insertIdx (-(Kids.bfindStart st s) - 1).toNat (Node.leaf s)) := by
    unfold Kids.add
    rw [e']
    dsimp only [Node.leaf, Node.span]
    simp only [if_neg h1, h2, h3, Bool.false_eq_true, if_false]
  rcases Kids.add_spec (p := p) (st := st.map Node.leaf) (x := Node.leaf s) (by rw [e']; exact hk) hs with
    ⟨l, r, _, h5, h6⟩ | ⟨_, h6⟩
  · rw [hadd] at h6
    simp only [Except.ok.injEq] at h6
    rw [← h6] at h5
    rw [map_insertIdx, e'] at h5
    exact h5
  · rw [hadd] at h6; cases h6

theorem kidsOK_nodup {p : Span} {ks : List Nat} {f : Nat → Span} (h : KidsOK p (ks.map f)) : ks.Nodup := by
  have := h.ordered
  rw [List.pairwise_map] at this
  exact this.imp (fun hab e => by subst e; omega)

theorem kidsOK_sublist {p : Span} {ks ks' : List Span} (h : KidsOK p ks) (hs : ks'.Sublist ks) :
    KidsOK p ks' :=
  ⟨fun c hc => h.inside c (hs.subset hc), h.ordered.sublist hs⟩


theorem bfindStart_idx {st : List Span} {s : Span} (hs : Sorted (st.map Span.start)) :
    (-(Kids.bfindStart st s) - 1).toNat ≤ st.length := by
  unfold Kids.bfindStart
  have := (bisectLeft_spec hs s.start).1
  rw [List.length_map] at this
  dsimp only
  split <;> omega


theorem insertIdx_take_drop {α : Type} {l : List α} {i : Nat} (x : α) (h : i ≤ l.length) :
    l.insertIdx i x = l.take i ++ x :: l.drop i := by
  induction i generalizing l with
  | zero => simp
  | succ i ih =>
    cases l with
    | nil => simp at h
    | cons b l => simp [List.insertIdx_succ_cons, ih (by simpa using h)]

theorem listIdx_lt {n i : Nat} {k : Int} (h : listIdx n k = some i) : i < n := by
  unfold listIdx at h
  simp only at h
  split at h <;> (split at h <;> first | (cases h; omega) | (simp at h))

theorem listIdx_nat {n k : Nat} (h : k < n) : listIdx n (k : Int) = some k := by
  unfold listIdx
  have : ¬ ((k : Int) < 0) := by omega
  simp only [this, if_false]
  rw [if_pos (by omega)]
  simp


theorem count_nodup {l : List Nat} {x : Nat} (h : l.Nodup) (hx : x ∈ l) : l.count x = 1 := by
  obtain ⟨a, b, rfl⟩ := List.append_of_mem hx
  rw [List.nodup_append, List.nodup_cons] at h
  obtain ⟨_, ⟨h2, _⟩, h3⟩ := h
  have h1 : x ∉ a := fun hm => h3 x hm x (by simp) rfl
  rw [List.count_append, List.count_cons_self, List.count_eq_zero.mpr h1, List.count_eq_zero.mpr h2]

theorem length_le_of_nodup (n : Nat) (l : List Nat) (h : l.Nodup) (hn : ∀ x ∈ l, x < n) :
    l.length ≤ n := by
  induction n generalizing l with
  | zero =>
    cases l with
    | nil => simp
    | cons a l => exact absurd (hn a (by simp)) (by omega)
  | succ n ih =>
    by_cases hm : n ∈ l
    · obtain ⟨a, b, rfl⟩ := List.append_of_mem hm
      have hs : (a ++ b).Sublist (a ++ n :: b) := List.Sublist.append_left (List.sublist_cons_self n b) a
      have h' := h
      rw [List.nodup_append, List.nodup_cons] at h'
      obtain ⟨_, ⟨h2, _⟩, h3⟩ := h'
      have := ih (a ++ b) (h.sublist hs) (by
        intro x hx
        have := hn x (hs.subset hx)
        have : x ≠ n := by
          rintro rfl
          rw [List.mem_append] at hx
          rcases hx with hx | hx
          · exact h3 x hx x (by simp) rfl
          · exact h2 hx
        omega)
      simp only [List.length_append, List.length_cons] at this ⊢
      omega
    · have := ih l h (fun x hx => by
        have := hn x hx
        have : x ≠ n := by rintro rfl; exact hm hx
        omega)
      omega

end Heap
end Pawpaw
