import Verif.Lemmas.Heap
import Verif.Props.Index
import Verif.Model.Hier
/-!
# C24, C25, C26, C27, C31: child-list operations on objects in memory
-/
set_option linter.unusedSectionVars false
namespace Pawpaw.Props
open TreeSpec HeapSpec Heap

/-! ## The two mutations every operation is made of -/

theorem ok_insert {h : Heap} {p x i : Nat} (hok : OK h) (hp : p < h.next) (hx : x < h.next)
    (hpar : h.parent x = none) (hi : i ≤ (h.kids p).length) (hs : h.str x = h.str p) (hne : x ≠ p)
    (hk : KidsOK (h.span p) (((h.kids p).insertIdx i x).map h.span)) :
    OK ((h.setParent x (some p)).setKids p ((h.kids p).insertIdx i x)) := by
  constructor
  · intro y hy; simpa using hok.span y hy
  · intro q hq
    simp only [setKids_next, setParent_next] at hq
    rw [kids_setKids]
    by_cases e : q = p
    · subst e; simpa using hk
    · simpa [e] using hok.kids q hq
  · intro q hq c hc
    simp only [setKids_next, setParent_next, kids_setKids, parent_setKids, parent_setParent,
      str_setKids, str_setParent, kids_setParent] at *
    by_cases e : q = p
    · subst e
      rw [if_pos rfl, List.mem_insertIdx hi] at hc
      rcases hc with rfl | hc
      · exact ⟨hx, by simp, hs⟩
      · obtain ⟨a, b, c'⟩ := hok.kidParent q hq c hc
        refine ⟨a, ?_, c'⟩
        rw [if_neg (by rintro rfl; rw [hpar] at b; cases b)]
        exact b
    · rw [if_neg e] at hc
      obtain ⟨a, b, c'⟩ := hok.kidParent q hq c hc
      refine ⟨a, ?_, c'⟩
      rw [if_neg (by rintro rfl; rw [hpar] at b; cases b)]
      exact b
  · intro y hy q hq
    simp only [setKids_next, setParent_next, kids_setKids, parent_setKids, parent_setParent,
      kids_setParent] at *
    by_cases e : y = x
    · rw [if_pos e] at hq
      cases hq
      subst e
      refine ⟨hp, ?_, hne⟩
      rw [if_pos rfl, List.mem_insertIdx hi]
      exact Or.inl rfl
    · rw [if_neg e] at hq
      obtain ⟨a, b, c⟩ := hok.parentKid y hy q hq
      refine ⟨a, ?_, c⟩
      by_cases e' : q = p
      · subst e'; rw [if_pos rfl, List.mem_insertIdx hi]; exact Or.inr b
      · rw [if_neg e']; exact b

theorem ok_delete {h : Heap} {p : Nat} {xs ks : List Nat} (hok : OK h) (hp : p < h.next)
    (hxs : ∀ x ∈ xs, x ∈ h.kids p) (hks : ks.Sublist (h.kids p))
    (hall : ∀ c ∈ h.kids p, c ∈ xs ∨ c ∈ ks) (hdis : ∀ c ∈ xs, c ∉ ks) :
    OK ((h.unparent xs).setKids p ks) := by
  constructor
  · intro y hy; simpa using hok.span y (by simpa using hy)
  · intro q hq
    simp only [setKids_next, unparent_next] at hq
    rw [kids_setKids]
    by_cases e : q = p
    · subst e; simpa using kidsOK_sublist (hok.kids q hq) (hks.map _)
    · simpa [e] using hok.kids q hq
  · intro q hq c hc
    simp only [setKids_next, unparent_next, kids_setKids, parent_setKids, parent_unparent,
      str_setKids, str_unparent, kids_unparent] at *
    by_cases e : q = p
    · subst e
      rw [if_pos rfl] at hc
      obtain ⟨a, b, c'⟩ := hok.kidParent q hq c (hks.subset hc)
      refine ⟨a, ?_, c'⟩
      rw [if_neg (fun hx => hdis c hx hc)]
      exact b
    · rw [if_neg e] at hc
      obtain ⟨a, b, c'⟩ := hok.kidParent q hq c hc
      refine ⟨a, ?_, c'⟩
      rw [if_neg]
      · exact b
      · intro hx
        have := (hok.kidParent p hp c (hxs c hx)).2.1
        rw [b] at this
        exact e (Option.some.inj this)
  · intro y hy q hq
    simp only [setKids_next, unparent_next, kids_setKids, parent_setKids, parent_unparent,
      kids_unparent] at *
    by_cases e : y ∈ xs
    · rw [if_pos e] at hq; cases hq
    · rw [if_neg e] at hq
      obtain ⟨a, b, c⟩ := hok.parentKid y hy q hq
      refine ⟨a, ?_, c⟩
      by_cases e' : q = p
      · subst e'; rw [if_pos rfl]
        exact (hall y b).resolve_left e
      · rw [if_neg e']; exact b

theorem ok_new {h : Heap} (hok : OK h) (s : String) (a b : Option Int) (d : Option String) :
    OK (h.new s a b d) := by
  have other : ∀ y, y < h.next → (h.new s a b d).obj y = h.obj y := by
    intro y hy; unfold new; dsimp only; rw [if_neg (by omega)]
  have this' : (h.new s a b d).obj h.next =
      ⟨s, Span.fromIndices s.length a b, d, none, none, []⟩ := by
    unfold new; simp
  have lt : ∀ y, y < (h.new s a b d).next → y < h.next ∨ y = h.next := by
    intro y hy; unfold new at hy; simp only at hy; omega
  have nx : (h.new s a b d).next = h.next + 1 := rfl
  have kd : ∀ y < h.next, ∀ c ∈ h.kids y, c < h.next := fun y hy c hc => (hok.kidParent y hy c hc).1
  constructor
  · intro y hy
    rcases lt y hy with hy | rfl
    · simpa [span, str, other y hy] using hok.span y hy
    · simp only [span, str, this']
      exact C01_from_indices_bounds s.length a b
  · intro q hq
    rcases lt q hq with hq | rfl
    · have : (h.kids q).map (h.new s a b d).span = (h.kids q).map h.span := by
        apply List.map_congr_left
        intro c hc
        simp [span, other c (kd q hq c hc)]
      have hk := hok.kids q hq
      rw [← this] at hk
      simpa [kids, span, other q hq] using hk
    · simp only [kids, this', List.map_nil]
      exact Kids.kidsOK_nil _
  · intro q hq c hc
    rcases lt q hq with hq | rfl
    · simp only [kids, other q hq] at hc
      obtain ⟨h1, h2, h3⟩ := hok.kidParent q hq c hc
      refine ⟨by omega, ?_, ?_⟩
      · simpa [parent, other c h1] using h2
      · simpa [str, other c h1, other q hq] using h3
    · simp [kids, this'] at hc
  · intro y hy q hq
    rcases lt y hy with hy | rfl
    · simp only [parent, other y hy] at hq
      obtain ⟨h1, h2, h3⟩ := hok.parentKid y hy q hq
      refine ⟨by omega, ?_, h3⟩
      simpa [kids, other q h1] using h2
    · simp [parent, this'] at hq

/-! ## What each operation does -/

/-- `add` of one object: raises leaving the heap as it was, or links the object at its place. -/
theorem addOne_spec {h : Heap} {p x : Nat} (hok : OK h) (hp : p < h.next) (hx : x < h.next) :
    h.addOne p x = (h, .error .valueError) ∨
    (h.parent x = none ∧ x ≠ p ∧ h.str x = h.str p ∧ ∃ l r, h.kids p = l ++ r ∧
      KidsOK (h.span p) ((l ++ x :: r).map h.span) ∧
      h.addOne p x = ((h.setParent x (some p)).setKids p (l ++ x :: r), .ok ()) ∧
      OK ((h.setParent x (some p)).setKids p (l ++ x :: r))) := by
  unfold addOne
  split
  · exact Or.inl rfl
  · rename_i hpar
    have hpar : h.parent x = none := by simpa using hpar
    dsimp only
    split
    · exact Or.inl rfl
    · rename_i h1
      split
      · exact Or.inl rfl
      · rename_i h2
        split
        · exact Or.inl rfl
        · rename_i h3
          right
          simp only [setParentRaises, Bool.or_eq_true, decide_eq_true_eq, not_or, Bool.not_eq_true] at h3
          obtain ⟨⟨e1, e2⟩, e3⟩ := h3
          have hk := hok.kids p hp
          have hidx := bfindStart_idx (s := h.span x) hk.sortedStart
          have hkk := insert_spans hk (hok.span x hx).2.1 h1 (by
            rw [Bool.not_eq_true] at h2; exact h2) e2
          rw [List.length_map] at hidx
          refine ⟨hpar, e3, by simpa using e1, (h.kids p).take _, (h.kids p).drop _,
            (List.take_append_drop (-(Kids.bfindStart (h.kidSpans p) (h.span x)) - 1).toNat _).symm, ?_⟩
          change (-(Kids.bfindStart (h.kidSpans p) (h.span x)) - 1).toNat ≤ _ at hidx
          rw [← insertIdx_take_drop x hidx]
          rw [kids_setParent]
          refine ⟨?_, rfl, ?_⟩
          · rw [map_insertIdx]; exact hkk
          · apply ok_insert hok hp hx hpar hidx (by simpa using e1) e3
            rw [map_insertIdx]; exact hkk

theorem delInt_spec {h : Heap} {p : Nat} (hok : OK h) (hp : p < h.next) (k : Int) :
    (h.delInt p k = (h, .error .indexError) ∧ listIdx (h.kids p).length k = none) ∨
    ∃ i c l r, listIdx (h.kids p).length k = some i ∧ i = l.length ∧ h.kids p = l ++ c :: r ∧
      h.delInt p k = ((h.setParent c none).setKids p (l ++ r), .ok ()) ∧
      OK ((h.setParent c none).setKids p (l ++ r)) := by
  unfold delInt
  cases hi : listIdx (h.kids p).length k with
  | none => exact Or.inl ⟨rfl, rfl⟩
  | some i =>
    right
    have hlt : i < (h.kids p).length := listIdx_lt hi
    have hsplit : h.kids p = (h.kids p).take i ++ (h.kids p)[i] :: (h.kids p).drop (i + 1) := by simp
    have hnd := kidsOK_nodup (hok.kids p hp)
    refine ⟨i, (h.kids p)[i], (h.kids p).take i, (h.kids p).drop (i + 1), rfl, by simp; omega, hsplit, ?_, ?_⟩
    · simp only [List.getElem?_eq_getElem hlt, Option.toList_some, unparent, kids_setParent,
        List.eraseIdx_eq_take_drop_succ]
    · have := ok_delete (xs := [(h.kids p)[i]]) (ks := (h.kids p).take i ++ (h.kids p).drop (i + 1))
        hok hp (by simp) (by
          rw [← List.eraseIdx_eq_take_drop_succ]; exact List.eraseIdx_sublist ..) (by
          intro c hc
          rw [hsplit] at hc
          simp only [List.mem_append, List.mem_cons] at hc ⊢
          rcases hc with hc | hc | hc
          · exact Or.inr (Or.inl hc)
          · exact Or.inl (by simp [hc])
          · exact Or.inr (Or.inr hc)) (by
          intro c hc
          rw [List.mem_singleton] at hc
          rw [hsplit] at hnd
          rw [List.nodup_append] at hnd
          obtain ⟨_, n2, n3⟩ := hnd
          rw [List.nodup_cons] at n2
          rw [List.mem_append, not_or, hc]
          exact ⟨fun hm => n3 _ hm _ (List.mem_cons_self ..) rfl, n2.1⟩)
      exact this

theorem delSlice_spec {h : Heap} {p : Nat} (hok : OK h) (hp : p < h.next) (a b : Option Int) :
    ∃ l m r, h.kids p = l ++ m ++ r ∧
      l.length = (Span.fromIndices (h.kids p).length a b).start.toNat ∧
      (l ++ m).length = (Span.fromIndices (h.kids p).length a b).stop.toNat ∧
      h.delSlice p a b = ((h.unparent m).setKids p (l ++ r), .ok ()) ∧
      OK ((h.unparent m).setKids p (l ++ r)) := by
  unfold delSlice
  obtain ⟨b1, b2, b3⟩ := C01_from_indices_bounds (h.kids p).length a b
  generalize Span.fromIndices (h.kids p).length a b = sp at *
  have e : h.kids p = (h.kids p).take sp.start.toNat ++
      ((h.kids p).drop sp.start.toNat).take (sp.stop.toNat - sp.start.toNat) ++ (h.kids p).drop sp.stop.toNat := by
    rw [List.append_assoc]
    have : (h.kids p).drop sp.stop.toNat =
        ((h.kids p).drop sp.start.toNat).drop (sp.stop.toNat - sp.start.toNat) := by
      rw [List.drop_drop]; congr 1; omega
    rw [this, List.take_append_drop, List.take_append_drop]
  have hnd := kidsOK_nodup (hok.kids p hp)
  refine ⟨_, _, _, e, by simp; omega, by simp; omega, by simp, ?_⟩
  refine ok_delete hok hp ?_ ?_ ?_ ?_
  · intro x hx; exact List.mem_of_mem_drop (List.mem_of_mem_take hx)
  · refine (List.Sublist.append_right (List.sublist_append_left _
      (((h.kids p).drop sp.start.toNat).take (sp.stop.toNat - sp.start.toNat))) _).trans ?_
    rw [← e]
    exact List.Sublist.refl _
  · intro c hc
    rw [e] at hc
    simp only [List.mem_append] at hc ⊢
    rcases hc with (hc | hc) | hc
    · exact Or.inr (Or.inl hc)
    · exact Or.inl hc
    · exact Or.inr (Or.inr hc)
  · intro c hc hc'
    rw [e, List.append_assoc, List.nodup_append] at hnd
    obtain ⟨_, n2, n3⟩ := hnd
    rw [List.nodup_append] at n2
    rw [List.mem_append] at hc'
    rcases hc' with hc' | hc'
    · exact n3 _ hc' _ (List.mem_append.mpr (Or.inl hc)) rfl
    · exact n2.2.2 _ hc _ hc' rfl

theorem add_ok {h : Heap} {p : Nat} {xs : List Nat} (hok : OK h) (hp : p < h.next)
    (hx : ∀ x ∈ xs, x < h.next) : OK (h.add p xs).1 ∧ (h.add p xs).1.next = h.next := by
  induction xs generalizing h with
  | nil => exact ⟨hok, rfl⟩
  | cons x xs ih =>
    unfold add
    rcases addOne_spec hok hp (hx x (by simp)) with e | ⟨_, _, _, l, r, _, _, e, hok'⟩
    · rw [e]; exact ⟨hok, rfl⟩
    · rw [e]
      exact ih hok' hp (fun y hy => hx y (by simp [hy]))

theorem remove_spec {h : Heap} {p x : Nat} (hok : OK h) (hp : p < h.next) (hx : x < h.next) :
    (x ∉ h.kids p ∧ h.remove p x = (h, .error .valueError)) ∨
    ∃ l r, h.kids p = l ++ x :: r ∧ h.remove p x = ((h.setParent x none).setKids p (l ++ r), .ok ()) ∧
      OK ((h.setParent x none).setKids p (l ++ r)) := by
  by_cases hm : x ∈ h.kids p
  · right
    obtain ⟨l, r, e⟩ := List.append_of_mem hm
    have hk := hok.kids p hp
    rw [e] at hk
    have hord := hk.ordered
    have hb : Kids.bfindStart (h.kidSpans p) (h.span x) = l.length := by
      unfold kidSpans
      rw [e, List.map_append, List.map_cons]
      have := Kids.bfindStart_present (l := l.map h.span) (r := r.map h.span) (b := h.span x)
        (s := h.span x) (by simpa using hk.sortedStart) (by
          intro a ha
          rw [List.map_append, List.pairwise_append] at hord
          exact (hord.2.2 a ha (h.span x) (by simp)).1) rfl
      rw [this, List.length_map]
    have hnd := kidsOK_nodup hk
    unfold remove
    dsimp only
    rw [hb, if_pos ⟨by omega, by rw [e]; simp⟩]
    rcases delInt_spec hok hp (l.length : Int) with ⟨_, e2⟩ | ⟨i, c, l', r', e1, e2, e3, e4, e5⟩
    · rw [listIdx_nat (by rw [e]; simp)] at e2
      cases e2
    · rw [listIdx_nat (by rw [e]; simp)] at e1
      have hl : l.length = l'.length := by simpa [e2] using e1
      rw [e] at e3
      obtain ⟨rfl, e6⟩ := List.append_inj e3 hl
      cases e6
      exact ⟨l, r, e, e4, e5⟩
  · left
    refine ⟨hm, ?_⟩
    unfold remove
    dsimp only
    rw [if_neg]
    rintro ⟨_, h2⟩
    exact hm (List.mem_of_getElem? h2)

theorem pop_fst (h : Heap) (p : Nat) (i : Int) : (h.pop p i).1 = (h.delInt p i).1 := by
  unfold pop
  cases hi : listIdx (h.kids p).length i with
  | none => simp [delInt, hi]
  | some j =>
    dsimp only
    have : j < (h.kids p).length := listIdx_lt hi
    rw [List.getElem?_eq_getElem this]
    dsimp only
    split <;> simp_all

theorem run_ok {h : Heap} {op : Op} (hok : OK h) (hl : ∀ i ∈ op.ids, i < h.next) : OK (h.run op) := by
  have del : ∀ p < h.next, ∀ i, OK (h.delInt p i).1 := by
    intro p hp i
    rcases delInt_spec hok hp i with ⟨e, _⟩ | ⟨_, _, _, _, _, _, _, e, e'⟩
    · rw [e]; exact hok
    · rw [e]; exact e'
  cases op with
  | new s a b d => exact ok_new hok s a b d
  | add p xs => exact (add_ok hok (hl p (by simp [Op.ids])) (fun x hx => hl x (by simp [Op.ids, hx]))).1
  | remove p x =>
    simp only [run]
    rcases remove_spec hok (hl p (by simp [Op.ids])) (hl x (by simp [Op.ids])) with ⟨_, e⟩ | ⟨_, _, _, e, e'⟩
    · rw [e]; exact hok
    · rw [e]; exact e'
  | pop p i => simp only [run]; rw [pop_fst]; exact del p (hl p (by simp [Op.ids])) i
  | del p i => exact del p (hl p (by simp [Op.ids])) i
  | delSlice p a b =>
    obtain ⟨_, _, _, _, _, _, e, e'⟩ := delSlice_spec hok (hl p (by simp [Op.ids])) a b
    simp only [run]; rw [e]; exact e'
  | clear p =>
    obtain ⟨_, _, _, _, _, _, e, e'⟩ := delSlice_spec hok (hl p (by simp [Op.ids])) none none
    simp only [run, clear]; rw [e]; exact e'

theorem empty_ok : OK empty :=
  ⟨fun x hx => absurd hx (Nat.not_lt_zero _), fun x hx => absurd hx (Nat.not_lt_zero _),
   fun x hx => absurd hx (Nat.not_lt_zero _), fun x hx => absurd hx (Nat.not_lt_zero _)⟩

/-- C24: after any sequence of creations, `add`, `remove`, `pop`, `del` (int or slice) and `clear`, each
succeeding or raising, every object's children are strictly ordered, disjoint, inside it and have it as
`.parent`, and an object with a `.parent` is among that parent's children. -/
theorem C24_children_invariant (ops : List Op) (hl : Legal empty ops) : OK (empty.runAll ops) := by
  have : ∀ (ops : List Op) (h : Heap), OK h → Legal h ops → OK (h.runAll ops) := by
    intro ops
    induction ops with
    | nil => intro h hok _; exact hok
    | cons op ops ih =>
      intro h hok hl
      exact ih _ (run_ok hok hl.1) hl.2
  exact this ops empty empty_ok hl

/-- C24: in a consistent object graph, an object with a parent occurs exactly once in its parent's
children, and in no other object's. -/
theorem C24_exactly_one_parent {h : Heap} (hok : OK h) {x p : Nat} (hx : x < h.next)
    (hp : h.parent x = some p) :
    (h.kids p).count x = 1 ∧ ∀ q < h.next, x ∈ h.kids q → q = p := by
  obtain ⟨a, b, _⟩ := hok.parentKid x hx p hp
  refine ⟨count_nodup (kidsOK_nodup (hok.kids p a)) b, ?_⟩
  intro q hq hm
  have := (hok.kidParent q hq x hm).2.1
  rw [hp] at this
  exact (Option.some.inj this).symm

/-- A history with a nested tree, a failing `add`, and removals. -/
def exOps : List Op :=
  [.new "abcdef" none none none, .new "abcdef" (some 1) (some 5) none, .new "abcdef" (some 2) (some 3) none,
   .new "abcdef" (some 3) (some 5) none, .new "abcdef" (some 4) (some 6) none,
   .add 0 [1], .add 1 [2, 3], .add 0 [4], .remove 1 2, .add 0 [2], .pop 0 (-1), .add 1 [2]]
example : Legal empty exOps := by simp [exOps, Legal, Op.ids]; decide
example : (empty.runAll exOps).kids 0 = [] ∧ (empty.runAll exOps).kids 1 = [2, 3] ∧
    (empty.runAll exOps).parent 1 = none ∧ (empty.runAll exOps).parent 3 = some 1 := by decide

/-! ## C25 -/

/-- C25 is false as stated: after creating two Itos on the same span and adding each to the other's
children, both calls succeed and each Ito is its own ancestor. -/
theorem C25_cycle_violated :
    ∃ ops, Legal empty ops ∧ OK (empty.runAll ops) ∧
      ((empty.runAll (ops.take 2)).add 0 [1]).2 = .ok () ∧
      ((empty.runAll (ops.take 3)).add 1 [0]).2 = .ok () ∧
      Anc (empty.runAll ops) 0 0 ∧ ¬ Acyclic (empty.runAll ops) := by
  have hl : Legal empty [.new "ab" none none none, .new "ab" none none none, .add 0 [1], .add 1 [0]] := by
    refine ⟨by simp [Op.ids], by simp [Op.ids], ?_, ?_, trivial⟩ <;> decide
  have ha : Anc (empty.runAll [.new "ab" none none none, .new "ab" none none none, .add 0 [1], .add 1 [0]])
      0 0 := .step (y := 1) (by decide) (.parent (by decide))
  exact ⟨_, hl, C24_children_invariant _ hl, by decide, by decide, ha, fun h => h 0 (by decide) ha⟩

theorem Anc.trans {h : Heap} {a b c : Nat} (h1 : Anc h a b) (h2 : Anc h b c) : Anc h a c := by
  induction h2 with
  | parent e => exact .step e h1
  | step e _ ih => exact .step e (ih h1)

theorem Anc.lt {h : Heap} (hok : OK h) {a x : Nat} (ha : Anc h a x) (hx : x < h.next) : a < h.next := by
  induction ha with
  | parent e => exact (hok.parentKid _ hx _ e).1
  | step e _ ih => exact ih (hok.parentKid _ hx _ e).1

/-- An ancestor's span contains its descendants'. -/
theorem Anc.span {h : Heap} (hok : OK h) {a x : Nat} (ha : Anc h a x) (hx : x < h.next) :
    (h.span a).start ≤ (h.span x).start ∧ (h.span x).stop ≤ (h.span a).stop := by
  have one : ∀ x < h.next, ∀ a, h.parent x = some a →
      (h.span a).start ≤ (h.span x).start ∧ (h.span x).stop ≤ (h.span a).stop := by
    intro x hx a e
    obtain ⟨h1, h2, _⟩ := hok.parentKid x hx a e
    have := (hok.kids a h1).inside (h.span x) (List.mem_map.mpr ⟨x, h2, rfl⟩)
    omega
  induction ha with
  | parent e => exact one _ hx _ e
  | step e _ ih =>
    have := one _ hx _ e
    have := ih (hok.parentKid _ hx _ e).1
    omega

/-- C25: whatever the history, an Ito that is its own ancestor has the same span as everything on the
cycle: a cycle is only possible among Itos of equal span. -/
theorem C25_cycle_same_span {h : Heap} (hok : OK h) {x y : Nat} (hx : x < h.next) (h1 : Anc h y x)
    (h2 : Anc h x y) : h.span x = h.span y := by
  have hy := Anc.lt hok h1 hx
  have a := Anc.span hok h1 hx
  have b := Anc.span hok h2 hy
  rcases h3 : h.span x with ⟨s, e⟩
  rcases h4 : h.span y with ⟨s', e'⟩
  simp only [h3, h4] at a b
  simp only [Span.mk.injEq]
  omega

/-- Removing links keeps the ancestors a subset. -/
theorem anc_mono {h h' : Heap} (hp : ∀ x p, h'.parent x = some p → h.parent x = some p) {a x : Nat}
    (ha : Anc h' a x) : Anc h a x := by
  induction ha with
  | parent e => exact .parent (hp _ _ e)
  | step e _ ih => exact .step (hp _ _ e) ih

theorem acyclic_insert {h : Heap} {p x : Nat} {ks : List Nat} (hac : Acyclic h) (hne : x ≠ p)
    (hna : ¬ Anc h x p) : Acyclic ((h.setParent x (some p)).setKids p ks) := by
  -- along the new links: an old ancestor, or (x or an old descendant of x) below (p or an ancestor of p)
  have key : ∀ a z, Anc ((h.setParent x (some p)).setKids p ks) a z →
      Anc h a z ∨ ((z = x ∨ Anc h x z) ∧ (a = p ∨ Anc h a p)) := by
    intro a z haz
    induction haz with
    | @parent z a e =>
      simp only [parent_setKids, parent_setParent] at e
      split at e
      · cases e; subst z; exact Or.inr ⟨Or.inl rfl, Or.inl rfl⟩
      · exact Or.inl (.parent e)
    | @step z w a e _ ih =>
      simp only [parent_setKids, parent_setParent] at e
      split at e
      · cases e
        subst z
        rcases ih with ih | ⟨h1, h2⟩
        · exact Or.inr ⟨Or.inl rfl, Or.inr ih⟩
        · exact Or.inr ⟨Or.inl rfl, h2⟩
      · rcases ih with ih | ⟨h1, h2⟩
        · exact Or.inl (.step e ih)
        · refine Or.inr ⟨Or.inr ?_, h2⟩
          rcases h1 with rfl | h1
          · exact .parent e
          · exact .step e h1
  intro y hlt hy
  rcases key y y hy with h1 | ⟨h1, h2⟩
  · exact hac y hlt h1
  · rcases h1 with rfl | h1
    · rcases h2 with h2 | h2
      · exact hne h2
      · exact hna h2
    · rcases h2 with rfl | h2
      · exact hna h1
      · exact hna (Anc.trans h1 h2)

/-- The operation, if it is an `add(p, …)`, adds only Itos whose span differs from `p`'s or which have
no children. -/
def OpGuard (h : Heap) : Op → Prop
  | .add p xs => ∀ x ∈ xs, h.span x ≠ h.span p ∨ h.kids x = []
  | _ => True

/-- Every operation of the history satisfies `OpGuard` at the time it is called. -/
def Guarded (h : Heap) : List Op → Prop
  | [] => True
  | op :: ops => OpGuard h op ∧ Guarded (h.run op) ops

theorem anc_kids {h : Heap} (hok : OK h) {a x : Nat} (ha : Anc h a x) (hx : x < h.next) :
    h.kids a ≠ [] := by
  induction ha with
  | parent e =>
    intro hk
    have := (hok.parentKid _ hx _ e).2.1
    rw [hk] at this
    simp at this
  | step e _ ih => exact ih (hok.parentKid _ hx _ e).1

theorem addOne_acyclic {h : Heap} {p x : Nat} (hok : OK h) (hp : p < h.next) (hx : x < h.next)
    (hac : Acyclic h) (hg : h.span x ≠ h.span p ∨ h.kids x = []) : Acyclic (h.addOne p x).1 := by
  rcases addOne_spec hok hp hx with e | ⟨h1, h2, _, l, r, h4, h5, e, _⟩
  · rw [e]; exact hac
  · rw [e]
    apply acyclic_insert hac h2
    intro ha
    rcases hg with hg | hg
    · apply hg
      have h6 := Anc.span hok ha hp
      have h7 := h5.inside (h.span x) (by simp)
      rcases h3 : h.span x with ⟨s, e⟩
      rcases h4 : h.span p with ⟨s', e'⟩
      simp only [h3, h4] at h6 h7
      simp only [Span.mk.injEq]
      omega
    · exact anc_kids hok ha hp hg

theorem acyclic_unlink {h h' : Heap} (hn : h'.next = h.next)
    (hp : ∀ x p, h'.parent x = some p → h.parent x = some p) (hac : Acyclic h) : Acyclic h' :=
  fun x hx ha => hac x (hn ▸ hx) (anc_mono hp ha)

theorem add_acyclic {h : Heap} {p : Nat} {xs : List Nat} (hok : OK h) (hp : p < h.next)
    (hx : ∀ x ∈ xs, x < h.next) (hac : Acyclic h)
    (hg : ∀ x ∈ xs, h.span x ≠ h.span p ∨ h.kids x = [] ∨ x = p) : Acyclic (h.add p xs).1 := by
  induction xs generalizing h with
  | nil => exact hac
  | cons x xs ih =>
    unfold add
    rcases addOne_spec hok hp (hx x (by simp)) with e | ⟨h1, h2, h3, l, r, h4, h5, e, hok'⟩
    · rw [e]; exact hac
    · have hg' : h.span x ≠ h.span p ∨ h.kids x = [] := by
        have := hg x (by simp)
        rcases this with h' | h' | h'
        · exact Or.inl h'
        · exact Or.inr h'
        · exact absurd h' h2
      have := addOne_acyclic hok hp (hx x (by simp)) hac hg'
      rw [e] at this ⊢
      refine ih hok' hp (fun y hy => hx y (by simp [hy])) this ?_
      intro y hy
      have := hg y (by simp [hy])
      simp only [span_setKids, span_setParent, kids_setKids, kids_setParent]
      by_cases hyp : y = p
      · exact Or.inr (Or.inr hyp)
      · rw [if_neg hyp]; exact this

theorem run_acyclic {h : Heap} {op : Op} (hok : OK h) (hl : ∀ i ∈ op.ids, i < h.next) (hac : Acyclic h)
    (hg : OpGuard h op) : Acyclic (h.run op) := by
  have del : ∀ p < h.next, ∀ i, Acyclic (h.delInt p i).1 := by
    intro p hp i
    rcases delInt_spec hok hp i with ⟨e, _⟩ | ⟨_, c, _, _, _, _, _, e, e'⟩
    · rw [e]; exact hac
    · rw [e]
      refine acyclic_unlink (h := h) rfl ?_ hac
      intro x p
      simp only [parent_setKids, parent_setParent]
      split
      · intro h; cases h
      · exact id
  have dels : ∀ p < h.next, ∀ a b, Acyclic (h.delSlice p a b).1 := by
    intro p hp a b
    obtain ⟨_, m, _, _, _, _, e, e'⟩ := delSlice_spec hok hp a b
    rw [e]
    refine acyclic_unlink (h := h) (by simp) ?_ hac
    intro x p
    simp only [parent_setKids, parent_unparent]
    split
    · intro h; cases h
    · exact id
  cases op with
  | new s a b d =>
    intro x hx ha
    have hpar : ∀ y < h.next, (h.new s a b d).parent y = h.parent y := by
      intro y hy; unfold new parent; dsimp only; rw [if_neg (by omega)]
    have hpar' : (h.new s a b d).parent h.next = none := by unfold new parent; simp
    have hx' : x < h.next ∨ x = h.next := by
      have : (h.run (.new s a b d)).next = h.next + 1 := rfl
      omega
    have key : ∀ z, Anc (h.new s a b d) x z → z < h.next → Anc h x z := by
      intro z hz
      induction hz with
      | parent e => intro hz; rw [hpar _ hz] at e; exact .parent e
      | step e _ ih =>
        intro hz; rw [hpar _ hz] at e
        exact .step e (ih hx ‹_› hx' (hok.parentKid _ hz _ e).1)
    rcases hx' with hx' | rfl
    · exact hac x hx' (key x ha hx')
    · cases ha with
      | parent e => rw [show (h.run (.new s a b d)) = h.new s a b d from rfl, hpar'] at e; cases e
      | step e _ => rw [show (h.run (.new s a b d)) = h.new s a b d from rfl, hpar'] at e; cases e
  | add p xs =>
    exact add_acyclic hok (hl p (by simp [Op.ids])) (fun x hx => hl x (by simp [Op.ids, hx])) hac
      (fun x hx => (hg x hx).imp_right Or.inl)
  | remove p x =>
    simp only [run]
    rcases remove_spec hok (hl p (by simp [Op.ids])) (hl x (by simp [Op.ids])) with ⟨_, e⟩ | ⟨_, _, _, e, e'⟩
    · rw [e]; exact hac
    · rw [e]
      refine acyclic_unlink (h := h) rfl ?_ hac
      intro x p
      simp only [parent_setKids, parent_setParent]
      split
      · intro h; cases h
      · exact id
  | pop p i => simp only [run]; rw [pop_fst]; exact del p (hl p (by simp [Op.ids])) i
  | del p i => exact del p (hl p (by simp [Op.ids])) i
  | delSlice p a b => exact dels p (hl p (by simp [Op.ids])) a b
  | clear p => exact dels p (hl p (by simp [Op.ids])) none none

/-- C25 (what holds): parenthood stays acyclic through any history in which an Ito with children is never
added to an Ito of the same span.  Missing: the other histories, where it is false. -/
theorem C25_acyclic_partial (ops : List Op) (hl : Legal empty ops) (hg : Guarded empty ops) :
    Acyclic (empty.runAll ops) := by
  have : ∀ (ops : List Op) (h : Heap), OK h → Legal h ops → Acyclic h → Guarded h ops →
      Acyclic (h.runAll ops) := by
    intro ops
    induction ops with
    | nil => intro h _ _ hac _; exact hac
    | cons op ops ih =>
      intro h hok hl hac hg
      exact ih _ (run_ok hok hl.1) hl.2 (run_acyclic hok hl.1 hac hg.1) hg.2
  exact this ops empty empty_ok hl (fun x hx => absurd hx (Nat.not_lt_zero _)) hg

example : Guarded empty exOps := by simp [exOps, Guarded, OpGuard]; decide

/-- The list of ancestors obtained by climbing at most `n` times. -/
def climb (h : Heap) : Nat → Nat → Option (List Nat)
  | 0, _ => none
  | n + 1, x =>
    match h.parent x with
    | none => some []
    | some p => (climb h n p).map (p :: ·)

theorem climb_of_acyclic {h : Heap} (hok : OK h) (hac : Acyclic h) (n : Nat) (x : Nat) (hx : x < h.next)
    (seen : List Nat) (hs : seen.Nodup) (hsx : ∀ y ∈ seen, Anc h x y ∧ y < h.next)
    (hn : h.next ≤ n + seen.length) : ∃ c, climb h n x = some c := by
  induction n generalizing x seen with
  | zero =>
    have hx' : x ∉ seen := fun hm => hac x hx (hsx x hm).1
    have := length_le_of_nodup h.next (x :: seen) (List.nodup_cons.mpr ⟨hx', hs⟩) (by
      intro y hy
      rcases List.mem_cons.mp hy with rfl | hy
      · exact hx
      · exact (hsx y hy).2)
    simp at this
    omega
  | succ n ih =>
    unfold climb
    cases hp : h.parent x with
    | none => exact ⟨[], rfl⟩
    | some p =>
      have hx' : x ∉ seen := fun hm => hac x hx (hsx x hm).1
      obtain ⟨c, hc⟩ := ih p (hok.parentKid x hx p hp).1 (x :: seen) (List.nodup_cons.mpr ⟨hx', hs⟩) (by
        intro y hy
        rcases List.mem_cons.mp hy with rfl | hy
        · exact ⟨.parent hp, hx⟩
        · exact ⟨Anc.trans (.parent hp) (hsx y hy).1, (hsx y hy).2⟩) (by simp; omega)
      exact ⟨p :: c, by simp [hc]⟩

theorem climb_anc {h : Heap} {n x : Nat} {c : List Nat} (hc : climb h n x = some c) (a : Nat) :
    a ∈ c ↔ Anc h a x := by
  induction n generalizing x c with
  | zero => cases hc
  | succ n ih =>
    unfold climb at hc
    cases hp : h.parent x with
    | none =>
      rw [hp] at hc
      cases hc
      constructor
      · intro h; cases h
      · intro ha
        cases ha with
        | parent e => rw [hp] at e; cases e
        | step e _ => rw [hp] at e; cases e
    | some p =>
      rw [hp] at hc
      simp only [Option.map_eq_some_iff] at hc
      obtain ⟨c', hc', rfl⟩ := hc
      rw [List.mem_cons, ih hc']
      constructor
      · rintro (rfl | h1)
        · exact .parent hp
        · exact .step hp h1
      · intro ha
        cases ha with
        | parent e => rw [hp] at e; cases e; exact Or.inl rfl
        | step e h1 => rw [hp] at e; cases e; exact Or.inr h1

theorem getRoot_climb {h : Heap} {n x : Nat} {c : List Nat} (hc : climb h n x = some c) :
    ∃ r, h.getRoot n x = some r ∧ h.parent r = none ∧ (r = x ∨ Anc h r x) := by
  induction n generalizing x c with
  | zero => cases hc
  | succ n ih =>
    unfold climb at hc
    unfold getRoot
    cases hp : h.parent x with
    | none => exact ⟨x, rfl, hp, Or.inl rfl⟩
    | some p =>
      rw [hp] at hc
      simp only [Option.map_eq_some_iff] at hc
      obtain ⟨c', hc', rfl⟩ := hc
      obtain ⟨r, h1, h2, h3⟩ := ih hc'
      refine ⟨r, h1, h2, Or.inr ?_⟩
      rcases h3 with rfl | h3
      · exact .parent hp
      · exact .step hp h3

/-- C25: where parenthood is acyclic, `get_root` terminates (within as many steps as there are objects)
and returns a parentless Ito that is the Ito itself or one of its ancestors. -/
theorem C25_get_root {h : Heap} (hok : OK h) (hac : Acyclic h) {x : Nat} (hx : x < h.next) :
    ∃ r, h.getRoot h.next x = some r ∧ h.parent r = none ∧ (r = x ∨ Anc h r x) := by
  obtain ⟨c, hc⟩ := climb_of_acyclic hok hac h.next x hx [] List.nodup_nil (by simp) (by simp)
  exact getRoot_climb hc

theorem descendsFrom_climb {h : Heap} {n x a : Nat} {c : List Nat} (hc : climb h n x = some c) :
    h.descendsFrom n x a = some (decide (a ∈ c)) := by
  induction n generalizing x c with
  | zero => cases hc
  | succ n ih =>
    unfold climb at hc
    unfold descendsFrom
    cases hp : h.parent x with
    | none => rw [hp] at hc; cases hc; simp
    | some p =>
      rw [hp] at hc
      simp only [Option.map_eq_some_iff] at hc
      obtain ⟨c', hc', rfl⟩ := hc
      dsimp only
      split
      · subst a; simp
      · rename_i hne
        rw [ih hc']
        have : ¬ a = p := fun e => hne e.symm
        simp [this]

open Classical in
/-- C25: where parenthood is acyclic, `x.descends_from(a)` terminates and is true exactly when `a` is an
ancestor of `x`. -/
theorem C25_descends_from {h : Heap} (hok : OK h) (hac : Acyclic h) {x : Nat} (hx : x < h.next) (a : Nat) :
    h.descendsFrom h.next x a = some (decide (Anc h a x)) := by
  obtain ⟨c, hc⟩ := climb_of_acyclic hok hac h.next x hx [] List.nodup_nil (by simp) (by simp)
  rw [descendsFrom_climb hc]
  simp [climb_anc hc a]

/-- On the cycle of `C25_cycle_violated`, `get_root` never ends. -/
theorem C25_get_root_loops_violated :
    ∃ ops, Legal empty ops ∧ ∀ n, (empty.runAll ops).getRoot n 0 = none := by
  refine ⟨[.new "ab" none none none, .new "ab" none none none, .add 0 [1], .add 1 [0]],
    ⟨by simp [Op.ids], by simp [Op.ids], by decide, by decide, trivial⟩, ?_⟩
  have : ∀ n, (empty.runAll [.new "ab" none none none, .new "ab" none none none, .add 0 [1],
      .add 1 [0]]).getRoot n 0 = none ∧ (empty.runAll [.new "ab" none none none, .new "ab" none none none,
      .add 0 [1], .add 1 [0]]).getRoot n 1 = none := by
    intro n
    induction n with
    | zero => exact ⟨rfl, rfl⟩
    | succ n ih =>
      unfold getRoot
      rw [show (empty.runAll [.new "ab" none none none, .new "ab" none none none, .add 0 [1],
        .add 1 [0]]).parent 0 = some 1 by decide, show (empty.runAll [.new "ab" none none none,
        .new "ab" none none none, .add 0 [1], .add 1 [0]]).parent 1 = some 0 by decide]
      exact ⟨ih.2, ih.1⟩
  exact fun n => (this n).1

/-! ## C27: failed additions -/

/-- C27: when `children.add(x)` raises, nothing has changed. -/
theorem C27_add_atomic (h : Heap) (p x : Nat) (e : PyErr) (he : (h.add p [x]).2 = .error e) :
    Same h (h.add p [x]).1 := by
  unfold add at he ⊢
  have key : h.addOne p x = (h, .error .valueError) ∨ (h.addOne p x).2 = .ok () := by
    unfold addOne
    split
    · exact Or.inl rfl
    · dsimp only
      split
      · exact Or.inl rfl
      · split
        · exact Or.inl rfl
        · split
          · exact Or.inl rfl
          · exact Or.inr rfl
  rcases key with k | k
  · rw [k]; exact ⟨rfl, fun _ => rfl⟩
  · cases hr : h.addOne p x with
    | mk h' r =>
      rw [hr] at k he
      simp only at k
      subst k
      simp [add] at he

/-- C27: `children.add(*itos)` that raises has added exactly the arguments before the offending one. -/
theorem C27_add_prefix (h : Heap) (p : Nat) (xs : List Nat) (e : PyErr) (he : (h.add p xs).2 = .error e) :
    ∃ ys x zs, xs = ys ++ x :: zs ∧ (h.add p ys).2 = .ok () ∧
      (h.add p ys).1 = (h.add p xs).1 ∧ ((h.add p ys).1.add p [x]).2 = .error e := by
  induction xs generalizing h with
  | nil => cases he
  | cons x xs ih =>
    cases hr : h.addOne p x with
    | mk h' r =>
      cases r with
      | error e' =>
        refine ⟨[], x, xs, rfl, rfl, ?_, ?_⟩
        · have h1 : (h.add p [x]).2 = .error e' := by simp [add, hr]
          have h2 := C27_add_atomic h p x e' h1
          have h3 : (h.add p [x]).1 = h' := by simp [add, hr]
          have h4 : (h.add p (x :: xs)).1 = h' := by simp [add, hr]
          rw [h4, ← h3]
          obtain ⟨a, b⟩ := h2
          cases hh : (h.add p [x]).1
          rw [hh] at a b
          simp only at a b
          subst a
          show h = _
          cases h
          congr 1
          exact (funext b).symm
        · have : (h.add p (x :: xs)).2 = .error e' := by simp [add, hr]
          rw [this] at he
          simp only [add, hr, he]
      | ok u =>
        have h1 : h.add p (x :: xs) = h'.add p xs := by simp [add, hr]
        rw [h1] at he
        obtain ⟨ys, y, zs, a, b, c, d⟩ := ih h' he
        refine ⟨x :: ys, y, zs, by rw [a]; rfl, ?_, ?_, ?_⟩
        · simpa [add, hr] using b
        · simpa [add, hr] using c
        · simpa [add, hr] using d

/-! ## C31: membership and removal -/

/-- C31: `children.remove(x)` removes exactly `x` (its parent becomes `None`; every other link stays) when
`x` is a child, and otherwise raises `ValueError` and changes nothing. -/
theorem C31_remove {h : Heap} (hok : OK h) {p x : Nat} (hp : p < h.next) (hx : x < h.next) :
    (x ∈ h.kids p → (h.remove p x).2 = .ok () ∧ (h.remove p x).1.kids p = (h.kids p).erase x ∧
      (h.remove p x).1.parent x = none ∧
      (∀ q, q ≠ p → (h.remove p x).1.kids q = h.kids q) ∧
      (∀ y, y ≠ x → (h.remove p x).1.parent y = h.parent y)) ∧
    (x ∉ h.kids p → h.remove p x = (h, .error .valueError)) := by
  rcases remove_spec hok hp hx with ⟨h1, h2⟩ | ⟨l, r, h1, h2, _⟩
  · exact ⟨fun h => absurd h h1, fun _ => h2⟩
  · refine ⟨fun _ => ?_, fun h => absurd (by rw [h1]; simp) h⟩
    have hnd := kidsOK_nodup (hok.kids p hp)
    rw [h1, List.nodup_append] at hnd
    have hxl : x ∉ l := fun hm => hnd.2.2 x hm x (by simp) rfl
    rw [h2]
    refine ⟨rfl, ?_, ?_, ?_, ?_⟩
    · rw [kids_setKids, if_pos rfl, h1, List.erase_append_right _ hxl, List.erase_cons_head]
    · simp [parent_setParent]
    · intro q hq; rw [kids_setKids, if_neg hq, kids_setParent]
    · intro y hy; rw [parent_setKids, parent_setParent, if_neg hy]

/-- C31 (what holds): `x in children` is true exactly when some child *starts where `x` starts*; so every
child is found.  Missing: Itos that are not children, with a child at the same start. -/
theorem C31_contains_partial {h : Heap} (hok : OK h) {p x : Nat} (hp : p < h.next) :
    (h.contains p x = true ↔ ∃ c ∈ h.kids p, (h.span c).start = (h.span x).start) ∧
    (x ∈ h.kids p → h.contains p x = true) := by
  have key : h.contains p x = true ↔ ∃ c ∈ h.kids p, (h.span c).start = (h.span x).start := by
    unfold contains
    rw [decide_eq_true_eq]
    have hk := hok.kids p hp
    obtain ⟨l, r, e, h1, h2, h3⟩ := exists_split_start hk.sortedStart (h.span x).start
    by_cases hex : ∃ c ∈ h.kids p, (h.span c).start = (h.span x).start
    · refine ⟨fun _ => hex, fun _ => ?_⟩
      obtain ⟨c, hc, hcs⟩ := hex
      obtain ⟨l', r', e'⟩ := List.append_of_mem hc
      unfold kidSpans
      rw [e', List.map_append, List.map_cons]
      rw [e'] at hk
      have hord := hk.ordered
      rw [Kids.bfindStart_present (by simpa using hk.sortedStart) (by
        intro a ha
        rw [List.map_append, List.pairwise_append] at hord
        have := (hord.2.2 a ha (h.span c) (by simp)).1
        omega) hcs]
      omega
    · refine ⟨fun hge => absurd hge ?_, fun h => absurd h hex⟩
      unfold kidSpans
      rw [e, Kids.bfindStart_absent (by rw [← e]; exact hk.sortedStart) h1 (by
        intro b hb
        have hne : b.start ≠ (h.span x).start := by
          intro hbe
          have : b ∈ (h.kids p).map h.span := by rw [e]; simp [hb]
          obtain ⟨c, hc, rfl⟩ := List.mem_map.mp this
          exact hex ⟨c, hc, hbe⟩
        have := h2 b hb
        omega)]
      omega
  exact ⟨key, fun hm => key.mpr ⟨x, hm, rfl⟩⟩

/-- C31 is false for `in`: an Ito of span (0,2) is reported `in` children holding only an Ito of span
(0,1), although it is not among them. -/
theorem C31_contains_violated :
    ∃ ops, Legal empty ops ∧ (empty.runAll ops).contains 0 2 = true ∧ 2 ∉ (empty.runAll ops).kids 0 ∧
      (empty.runAll ops).parent 2 = none := by
  refine ⟨[.new "abc" none none none, .new "abc" (some 0) (some 1) none, .new "abc" (some 0) (some 2) none,
    .add 0 [1]], ⟨by simp [Op.ids], by simp [Op.ids], by simp [Op.ids], by decide, trivial⟩, ?_⟩
  decide

/-! ## C26: item and slice assignment -/

/-- Inserting between neighbours of positive width. -/
theorem kidsOK_between {p s : Span} {l r : List Span} (hk : KidsOK p (l ++ r))
    (hpos : ∀ c ∈ l, c.start < c.stop) (hs : s.start < s.stop)
    (h1 : ¬ ∃ a, l.getLast? = some a ∧ s.start < a.stop) (h2 : ¬ ∃ b, r.head? = some b ∧ b.start < s.stop)
    (h3 : p.start ≤ s.start ∧ s.stop ≤ p.stop) : KidsOK p (l ++ s :: r) := by
  refine (Kids.kidsOK_insert_iff hk (by omega) ?_ ?_).mpr ⟨h1, h2, h3⟩
  · intro a ha
    rcases List.eq_nil_or_concat l with rfl | ⟨l', b, rfl⟩
    · simp at ha
    · have hb := hpos b (by simp)
      have : ¬ s.start < b.stop := fun hc => h1 ⟨b, by simp, hc⟩
      have hord := hk.ordered
      rw [List.concat_eq_append, List.append_assoc, List.pairwise_append] at hord
      rw [List.concat_eq_append, List.mem_append] at ha
      rcases ha with ha | ha
      · have := (hord.2.2 a ha b (by simp)).1
        omega
      · simp only [List.mem_singleton] at ha; subst ha; omega
  · intro b hb
    cases r with
    | nil => simp at hb
    | cons c r =>
      have : ¬ c.start < s.stop := fun hc => h2 ⟨c, rfl, hc⟩
      have hord := hk.ordered
      rw [List.pairwise_append, List.pairwise_cons] at hord
      rcases List.mem_cons.mp hb with rfl | hb
      · omega
      · have := (hord.2.1.1 b hb).1
        omega

/-- An Ito of positive width. -/
def Wide (h : Heap) (x : Nat) : Prop := (h.span x).start < (h.span x).stop

theorem insertAt_spec {h : Heap} {p x : Nat} {l r : List Nat} (hok : OK h) (hp : p < h.next)
    (hx : x < h.next) (hpar : h.parent x = none) (hkids : h.kids p = l ++ r)
    (hw : ∀ c ∈ h.kids p, Wide h c) (hwx : Wide h x) :
    h.insertAt p x l.length = (h, .error .valueError) ∨
    (h.insertAt p x l.length = ((h.setParent x (some p)).setKids p (l ++ x :: r), .ok ()) ∧
      OK ((h.setParent x (some p)).setKids p (l ++ x :: r))) := by
  unfold insertAt
  split
  · exact Or.inl rfl
  · rename_i h1
    split
    · exact Or.inl rfl
    · rename_i h2
      right
      simp only [setParentRaises, Bool.or_eq_true, decide_eq_true_eq, not_or, Bool.not_eq_true] at h2
      obtain ⟨⟨e1, e2⟩, e3⟩ := h2
      have hidx : l.length ≤ (h.kids p).length := by rw [hkids]; simp
      have hins : (h.kids p).insertIdx l.length x = l ++ x :: r := by
        rw [insertIdx_take_drop x hidx, hkids]; simp
      dsimp only
      rw [kids_setParent, hins]
      refine ⟨rfl, ?_⟩
      rw [← hins]
      refine ok_insert hok hp hx hpar hidx (by simpa using e1) e3 ?_
      rw [hins, List.map_append, List.map_cons]
      have hk := hok.kids p hp
      rw [hkids, List.map_append] at hk
      unfold Kids.notBetween kidSpans at h1
      rw [Bool.or_eq_true, not_or] at h1
      rw [hkids, List.map_append, ← List.length_map (f := h.span) (as := l)] at h1
      rw [Kids.isStartLtPriorStop_append, Kids.isStopGtNextStart_append] at h1
      refine kidsOK_between hk ?_ hwx h1.1 h1.2 ?_
      · intro c hc
        obtain ⟨y, hy, rfl⟩ := List.mem_map.mp hc
        exact hw y (by rw [hkids]; simp [hy])
      · unfold Kids.outside at e2
        simp only [Bool.or_eq_false_iff, decide_eq_false_iff_not] at e2
        omega

/-- C26 (what holds, item): for a parentless Ito and children of positive width, `children[k] = x`
either raises `IndexError` and changes nothing; or puts `x` in the place of the child at (clamped)
position `k`, leaving a consistent object graph; or raises `ValueError`.
Missing: in the last case the old child at `k` has already been removed (see
`C26_set_int_nonatomic_violated`); a value that already has a parent; zero-width Itos. -/
theorem C26_set_int_partial {h : Heap} (hok : OK h) {p x : Nat} (hp : p < h.next) (hx : x < h.next)
    (hpar : h.parent x = none) (hw : ∀ c ∈ h.kids p, Wide h c) (hwx : Wide h x) (k : Int) :
    (h.setInt p k x = (h, .error .indexError) ∧ (h.kids p).length ≤ k ∨ h.kids p = [] ∧
      h.setInt p k x = (h, .error .indexError)) ∨
    ∃ l c r, h.kids p = l ++ c :: r ∧
      (l.length : Int) = (if k < 0 then max 0 (k + (h.kids p).length) else k) ∧
      ((h.setInt p k x).2 = .ok () ∧ OK (h.setInt p k x).1 ∧ (h.setInt p k x).1.kids p = l ++ x :: r ∧
          (h.setInt p k x).1.parent c = none ∨
        (h.setInt p k x).2 = .error .valueError ∧ OK (h.setInt p k x).1 ∧
          (h.setInt p k x).1.kids p = l ++ r) := by
  obtain ⟨b1, b2, b3⟩ := C01_from_indices_bounds (h.kids p).length (some k) none
  have hst : (Span.fromIndices (h.kids p).length (some k) none).start =
      if k ≥ 0 then min ((h.kids p).length : Int) k else max 0 ((h.kids p).length + k) := by
    unfold Span.fromIndices Span.clampIndex; rfl
  unfold setInt
  dsimp only
  generalize hsp : (Span.fromIndices (h.kids p).length (some k) none).start = st at *
  rcases delInt_spec hok hp st with ⟨e, e2⟩ | ⟨i, c, l, r, e1, e2, e3, e4, e5⟩
  · left
    rw [e]
    have : st = (h.kids p).length := by
      have h1 : ¬ st < (h.kids p).length := by
        intro hlt
        have := listIdx_nat (n := (h.kids p).length) (k := st.toNat) (by omega)
        rw [show ((st.toNat : Nat) : Int) = st by omega, e2] at this
        cases this
      omega
    by_cases h0 : h.kids p = []
    · exact Or.inr ⟨h0, rfl⟩
    · left
      refine ⟨rfl, ?_⟩
      have := List.length_pos_iff.mpr h0
      split at hst <;> omega
  · right
    have hi : (i : Int) = st := by
      have hlt := listIdx_lt e1
      have h1 : st < (h.kids p).length := by
        rcases Int.lt_or_le st (h.kids p).length with h1 | h1
        · exact h1
        · unfold listIdx at e1
          have h2 : ¬ st < 0 := by omega
          simp only [h2, if_false] at e1
          rw [if_neg (by omega)] at e1
          cases e1
      have := listIdx_nat (n := (h.kids p).length) (k := st.toNat) (by omega)
      rw [show ((st.toNat : Nat) : Int) = st by omega, e1] at this
      have := Option.some.inj this
      omega
    have hlen := listIdx_lt e1
    refine ⟨l, c, r, e3, ?_, ?_⟩
    · rw [← e2, hi, hst]
      have hst' : st < (h.kids p).length := by omega
      split <;> split <;> omega
    · rw [e4]
      have hk' : ((h.setParent c none).setKids p (l ++ r)).kids p = l ++ r := by
        rw [kids_setKids, if_pos rfl]
      have hcx : ((h.setParent c none).setKids p (l ++ r)).parent x = none := by
        rw [parent_setKids, parent_setParent]; split
        · rfl
        · exact hpar
      have hcne : c ≠ x := by
        rintro rfl
        have := (hok.kidParent p hp c (by rw [e3]; simp)).2.1
        rw [hpar] at this; cases this
      rcases insertAt_spec (l := l) (r := r) (x := x) e5 hp hx hcx hk' (by
        intro y hy
        rw [hk'] at hy
        unfold Wide
        rw [span_setKids, span_setParent]
        exact hw y (by rw [e3]; simp only [List.mem_append, List.mem_cons] at hy ⊢; rcases hy with hy | hy
                       · exact Or.inl hy
                       · exact Or.inr (Or.inr hy))) (by
        unfold Wide; rw [span_setKids, span_setParent]; exact hwx) with e6 | ⟨e6, e7⟩
      · right
        rw [show st.toNat = l.length by omega]
        dsimp only
        rw [e6]
        exact ⟨rfl, e5, hk'⟩
      · left
        rw [show st.toNat = l.length by omega]
        dsimp only
        rw [e6]
        refine ⟨rfl, e7, ?_, ?_⟩
        · rw [kids_setKids, if_pos rfl]
        · rw [parent_setKids, parent_setParent, if_neg hcne, parent_setKids, parent_setParent, if_pos rfl]

theorem setSliceLoop_spec {h : Heap} {p : Nat} {l r : List Nat} (xs : List Nat) (hok : OK h)
    (hp : p < h.next) (hx : ∀ x ∈ xs, x < h.next) (hpar : ∀ x ∈ xs, h.parent x = none) (hnd : xs.Nodup)
    (hkids : h.kids p = l ++ r) (hw : ∀ c ∈ h.kids p, Wide h c) (hwx : ∀ x ∈ xs, Wide h x) :
    OK (h.setSliceLoop p l.length xs).1 ∧
    ((h.setSliceLoop p l.length xs).2 = .ok () ∧ (h.setSliceLoop p l.length xs).1.kids p = l ++ xs ++ r ∨
     (h.setSliceLoop p l.length xs).2 = .error .valueError ∧
      ∃ ys x zs, xs = ys ++ x :: zs ∧ (h.setSliceLoop p l.length xs).1.kids p = l ++ ys ++ r) := by
  induction xs generalizing h l with
  | nil => exact ⟨hok, Or.inl ⟨rfl, by simpa [setSliceLoop] using hkids⟩⟩
  | cons x xs ih =>
    unfold setSliceLoop
    rw [List.nodup_cons] at hnd
    rcases insertAt_spec hok hp (hx x (by simp)) (hpar x (by simp)) hkids hw (hwx x (by simp)) with
      e | ⟨e, e'⟩
    · rw [e]
      exact ⟨hok, Or.inr ⟨rfl, [], x, xs, rfl, by simpa using hkids⟩⟩
    · rw [e]
      dsimp only
      have hk' : ((h.setParent x (some p)).setKids p (l ++ x :: r)).kids p = (l ++ [x]) ++ r := by
        rw [kids_setKids, if_pos rfl]; simp
      have := ih (l := l ++ [x]) e' hp (fun y hy => hx y (by simp [hy])) (by
        intro y hy
        rw [parent_setKids, parent_setParent, if_neg (by rintro rfl; exact hnd.1 hy)]
        exact hpar y (by simp [hy])) hnd.2 hk' (by
        intro y hy
        rw [hk'] at hy
        unfold Wide
        rw [span_setKids, span_setParent]
        simp only [List.mem_append, List.mem_singleton] at hy
        rcases hy with (hy | rfl) | hy
        · exact hw y (by rw [hkids]; simp [hy])
        · exact hwx y (by simp)
        · exact hw y (by rw [hkids]; simp [hy])) (by
        intro y hy
        unfold Wide
        rw [span_setKids, span_setParent]
        exact hwx y (by simp [hy]))
      rw [show (l ++ [x]).length = l.length + 1 by simp] at this
      refine ⟨this.1, ?_⟩
      rcases this.2 with ⟨a, b⟩ | ⟨a, ys, z, zs, b, c⟩
      · exact Or.inl ⟨a, by rw [b]; simp⟩
      · exact Or.inr ⟨a, x :: ys, z, zs, by rw [b]; rfl, by rw [c]; simp⟩

/-- C26 (what holds, slice): for distinct parentless Itos and children, all of positive width,
`children[a:b] = itos` leaves a consistent object graph; when it returns, the addressed children have been
replaced by exactly `itos`; when it raises `ValueError`, they have been removed and only the itos before
the offending one inserted.  Missing: leaving everything unchanged when raising; values that already have
a parent; zero-width Itos; stepped slices. -/
theorem C26_set_slice_partial {h : Heap} (hok : OK h) {p : Nat} {xs : List Nat} (hp : p < h.next)
    (hx : ∀ x ∈ xs, x < h.next) (hpar : ∀ x ∈ xs, h.parent x = none) (hnd : xs.Nodup)
    (hw : ∀ c ∈ h.kids p, Wide h c) (hwx : ∀ x ∈ xs, Wide h x) (a b : Option Int) :
    ∃ l m r, h.kids p = l ++ m ++ r ∧ m = PyStr.slice (h.kids p) a b ∧ OK (h.setSlice p a b xs).1 ∧
    ((h.setSlice p a b xs).2 = .ok () ∧ (h.setSlice p a b xs).1.kids p = l ++ xs ++ r ∨
     (h.setSlice p a b xs).2 = .error .valueError ∧
      ∃ ys x zs, xs = ys ++ x :: zs ∧ (h.setSlice p a b xs).1.kids p = l ++ ys ++ r) := by
  obtain ⟨l, m, r, e1, e2, e3, e4, e5⟩ := delSlice_spec hok hp a b
  refine ⟨l, m, r, e1, ?_, ?_⟩
  · rw [← C01_ito_text_is_slice (h.kids p) a b none]
    unfold FIto.text FIto.ofStr FIto.start FIto.stop
    obtain ⟨b1, b2, b3⟩ := C01_from_indices_bounds (h.kids p).length a b
    dsimp only
    rw [show (Span.fromIndices (h.kids p).length a b).start = (l.length : Int) by omega,
      show (Span.fromIndices (h.kids p).length a b).stop = ((l ++ m).length : Int) by omega, PyStr.slice_nat, e1,
      List.take_left, List.drop_left]
  · unfold setSlice
    rw [e4]
    dsimp only
    have hk' : ((h.unparent m).setKids p (l ++ r)).kids p = l ++ r := by rw [kids_setKids, if_pos rfl]
    rw [← e2]
    exact setSliceLoop_spec xs e5 (by simpa using hp) (by simpa using hx) (by
      intro x hxm
      rw [parent_setKids, parent_unparent]
      split
      · rfl
      · exact hpar x hxm) hnd hk' (by
      intro y hy
      rw [hk'] at hy
      unfold Wide
      rw [span_setKids, span_unparent]
      refine hw y ?_
      rw [e1]
      simp only [List.mem_append] at hy ⊢
      rcases hy with hy | hy
      · exact Or.inl (Or.inl hy)
      · exact Or.inr hy) (by
      intro y hy
      unfold Wide
      rw [span_setKids, span_unparent]
      exact hwx y hy)


/-- A root over "abcdef" with children (0,2), (3,5), and a spare Ito (1,4). -/
def exSet : List Op :=
  [.new "abcdef" none none none, .new "abcdef" (some 0) (some 2) none, .new "abcdef" (some 3) (some 5) none,
   .new "abcdef" (some 1) (some 4) none, .new "abcdef" (some 2) (some 3) none, .add 0 [1, 2]]
theorem exSet_legal : Legal empty exSet := by
  refine ⟨by simp [Op.ids], by simp [Op.ids], by simp [Op.ids], by simp [Op.ids], by simp [Op.ids], ?_, trivial⟩
  decide
/-- The hypotheses of `C26_set_int_partial` and `C26_set_slice_partial` are met. -/
example : (∀ c ∈ (empty.runAll exSet).kids 0, Wide (empty.runAll exSet) c) ∧ Wide (empty.runAll exSet) 4 ∧
    (empty.runAll exSet).parent 4 = none ∧ OK (empty.runAll exSet) :=
  ⟨by unfold Wide; decide, by unfold Wide; decide, by decide, C24_children_invariant _ exSet_legal⟩
example : ((empty.runAll exSet).setInt 0 0 4).2 = .ok () ∧
    ((empty.runAll exSet).setInt 0 0 4).1.kids 0 = [4, 2] := by decide
example : ((empty.runAll exSet).setSlice 0 (some 1) (some 1) [4]).2 = .ok () ∧
    ((empty.runAll exSet).setSlice 0 (some 1) (some 1) [4]).1.kids 0 = [1, 4, 2] := by decide

/-- C26 is false: `children[0] = x` with an overlapping `x` raises, but the old child is gone. -/
theorem C26_set_int_nonatomic_violated :
    ∃ ops p k x, Legal empty ops ∧ ((empty.runAll ops).setInt p k x).2 = .error .valueError ∧
      (empty.runAll ops).kids p = [1, 2] ∧ ((empty.runAll ops).setInt p k x).1.kids p = [2] ∧
      ¬ Same (empty.runAll ops) ((empty.runAll ops).setInt p k x).1 := by
  refine ⟨exSet, 0, 0, 3, exSet_legal, by decide, by decide, by decide, ?_⟩
  intro h
  have h1 : ((empty.runAll exSet).setInt 0 0 3).1.kids 0 = (empty.runAll exSet).kids 0 := by
    unfold kids; rw [h.2 0]
  revert h1
  decide

/-- C26 is false: assigning an Ito that already is a child elsewhere succeeds and leaves it in two
Itos' children at once. -/
theorem C26_set_int_stolen_violated :
    ∃ ops p k x q, Legal empty ops ∧ ((empty.runAll ops).setInt p k x).2 = .ok () ∧ p ≠ q ∧
      x ∈ ((empty.runAll ops).setInt p k x).1.kids p ∧ x ∈ ((empty.runAll ops).setInt p k x).1.kids q ∧
      ¬ OK ((empty.runAll ops).setInt p k x).1 := by
  refine ⟨[.new "abcd" none none none, .new "abcd" none none none, .new "abcd" (some 0) (some 2) none,
    .new "abcd" (some 0) (some 2) none, .add 0 [2], .add 1 [3]], 0, 0, 3, 1,
    ⟨by simp [Op.ids], by simp [Op.ids], by simp [Op.ids], by simp [Op.ids], by decide, by decide, trivial⟩,
    by decide, by decide, by decide, by decide, ?_⟩
  intro h
  have h1 := (h.kidParent 1 (by decide) 3 (by decide)).2.1
  revert h1
  decide

/-- C26 is false: with a zero-width neighbour, `children[1] = x` succeeds although `x` starts where the
previous child starts, so the children are not strictly ordered (and `remove` cannot find one of them). -/
theorem C26_set_int_zero_width_violated :
    ∃ ops p k x, Legal empty ops ∧ ((empty.runAll ops).setInt p k x).2 = .ok () ∧
      ¬ OK ((empty.runAll ops).setInt p k x).1 ∧
      x ∈ ((empty.runAll ops).setInt p k x).1.kids p ∧
      (((empty.runAll ops).setInt p k x).1.remove p x).2 = .error .valueError := by
  refine ⟨[.new "abcd" none none none, .new "abcd" (some 1) (some 1) none, .new "abcd" (some 2) (some 3) none,
    .new "abcd" (some 1) (some 3) none, .add 0 [1, 2]], 0, 1, 3,
    ⟨by simp [Op.ids], by simp [Op.ids], by simp [Op.ids], by simp [Op.ids], by decide, trivial⟩,
    by decide, ?_, by decide, by decide⟩
  intro h
  have h1 := (h.kids 0 (by decide)).ordered
  revert h1
  decide

/-- C26: a key below `-len` does not raise `IndexError` as Python's lists do; it replaces the first child. -/
theorem C26_set_int_negative_violated :
    ∃ ops p x, Legal empty ops ∧ ((empty.runAll ops).kids p).length = 2 ∧
      ((empty.runAll ops).setInt p (-7) x).2 = .ok () :=
  ⟨exSet, 0, 4, exSet_legal, by decide, by decide⟩

/-! ## C27 for `add_hierarchical` -/

/-- C27 is false for `add_hierarchical`: adding (6,8) under an Ito of span (2,5) that has a child (2,3)
raises `ValueError`, but the Ito is left in the children, with no parent. -/
theorem C27_add_hierarchical_violated :
    ∃ ops p x, Legal empty ops ∧ OK (empty.runAll ops) ∧
      (addHier none 10 (empty.runAll ops) p x).2 = .error .valueError ∧
      x ∈ (addHier none 10 (empty.runAll ops) p x).1.kids p ∧
      (addHier none 10 (empty.runAll ops) p x).1.parent x = none ∧
      ¬ Same (empty.runAll ops) (addHier none 10 (empty.runAll ops) p x).1 := by
  have hl : Legal empty [.new "abcdefgh" (some 2) (some 5) none, .new "abcdefgh" (some 2) (some 3) none,
      .new "abcdefgh" (some 6) (some 8) none, .add 0 [1]] :=
    ⟨by simp [Op.ids], by simp [Op.ids], by simp [Op.ids], by decide, trivial⟩
  refine ⟨_, 0, 2, hl, C24_children_invariant _ hl, by decide, by decide, by decide, ?_⟩
  intro h
  have h1 := congrArg Obj.kids (h.2 0)
  revert h1
  decide

end Pawpaw.Props
