import Verif.Model.Family
import Verif.Lemmas.LazyQuery
import Verif.Props.Pickle
/-!
# C124: `descends_from`, `has_descendant`, `walk_descendants` and `get_root` agree
-/
namespace Pawpaw.Props
open Pawpaw Heap HeapSpec LazyQuery TreeSpec Query

section
variable {h : Heap} {r : Nat} {t : Node} (H : Holds h r t)
include H

/-- What descends from the root has a place in the tree. -/
theorem path_of_anc {y : Nat} (hy : y < h.next) (ha : Anc h r y) : ∃ p, IsNode t p ∧ ob h r p = y := by
  have key : ∀ z a, Anc h a z → a = r → z < h.next → ∃ p, IsNode t p ∧ ob h r p = z := by
    intro z a ha
    induction ha with
    | parent e =>
      intro hr hz
      rw [hr] at e
      have hm := (H.ok.parentKid _ hz _ e).2.1
      have hk := ob_kids H (p := []) (by rw [isNode_iff]; exact ⟨t, rfl⟩)
      rw [ob_nil H] at hk
      rw [hk] at hm
      obtain ⟨p, hp, hpe⟩ := List.mem_map.1 hm
      exact ⟨p, ((mem_children (t := t) (n := t) (p := []) rfl p).1 hp).1, hpe⟩
    | step e _ ih =>
      intro hr hz
      obtain ⟨hl, hm, _⟩ := H.ok.parentKid _ hz _ e
      obtain ⟨p, hp, hpe⟩ := ih hr hl
      subst hpe
      rw [ob_kids H hp] at hm
      obtain ⟨q, hq, hqe⟩ := List.mem_map.1 hm
      obtain ⟨n, hn⟩ := isNode_iff.mp hp
      exact ⟨q, ((mem_children hn q).1 hq).1, hqe⟩
  exact key y r ha rfl hy

/-- Ancestors are what is above in the tree. -/
theorem anc_desc {p q : Path} (hp : IsNode t p) (hq : IsNode t q) : Anc h (ob h r p) (ob h r q) ↔ Desc p q := by
  constructor
  · intro ha
    have key : ∀ z a, Anc h a z → ∀ q, IsNode t q → ob h r q = z → ob h r p = a → Desc p q := by
      intro z a ha
      induction ha with
      | parent e =>
        intro q hq hz hpa
        subst hz
        rw [ob_parent H hq] at e
        rcases path_cases q with rfl | ⟨s, i, rfl⟩
        · cases e
        · rw [parent_snoc, Option.map_some, Option.some.injEq, ← hpa] at e
          rw [← ob_inj H (isNode_parent hq) hp e]
          exact ⟨i, [], rfl⟩
      | step e _ ih =>
        intro q hq hz hpa
        subst hz
        rw [ob_parent H hq] at e
        rcases path_cases q with rfl | ⟨s, i, rfl⟩
        · cases e
        · rw [parent_snoc, Option.map_some, Option.some.injEq] at e
          obtain ⟨j, u, hju⟩ := ih s (isNode_parent hq) e hpa
          exact ⟨j, u ++ [i], by rw [hju]; simp⟩
    exact key _ _ ha q hq rfl rfl
  · rintro ⟨i, s, rfl⟩
    revert hq
    refine Query.snoc_induction (P := fun s => IsNode t (p ++ i :: s) → Anc h (ob h r p) (ob h r (p ++ i :: s))) ?_ ?_ s
    · intro hq
      have := ob_parent H hq
      rw [parent_snoc] at this
      exact .parent this
    · intro s j ih hq
      have e : p ++ i :: (s ++ [j]) = (p ++ i :: s) ++ [j] := by simp
      rw [e] at hq ⊢
      have := ob_parent H hq
      rw [parent_snoc] at this
      exact .step this (ih (isNode_parent hq))

end

/-- An Ito walks through exactly the Itos that descend from it, each once, and backwards in the reverse order; the walk ends.
`descends_from` and `has_descendant` say the same. -/
theorem C124_walk {h : Heap} (hok : OK h) (hac : Acyclic h) {x : Nat} (hx : x < h.next) :
    ∃ ys, Gen (fun n => Walk.next n h) (.start false x) ys none ∧ Gen (fun n => Walk.next n h) (.start true x) ys.reverse none ∧
      ys.Nodup ∧ ∀ y < h.next, (y ∈ ys ↔ h.descendsFrom h.next y x = some true) ∧
        (y ∈ ys ↔ h.hasDescendant h.next x y = some true) ∧ (y ∉ ys ↔ h.hasDescendant h.next x y = some false) := by
  obtain ⟨r, hr, hroot, hra⟩ := C25_get_root hok hac hx
  have hrl : r < h.next := by
    rcases hra with rfl | ha
    · exact hx
    · exact Anc.lt hok ha hx
  obtain ⟨t, ht⟩ := exists_tree hok hac r hrl
  have H : Holds h r t := ⟨hok, hrl, hroot, ht⟩
  obtain ⟨p, hp, rfl⟩ : ∃ p, IsNode t p ∧ ob h r p = x := by
    rcases hra with rfl | ha
    · exact ⟨[], isNode_iff.mpr ⟨t, rfl⟩, rfl⟩
    · exact path_of_anc H hx ha
  obtain ⟨n, hn⟩ := isNode_iff.mp hp
  have hmem : ∀ y < h.next, y ∈ (walkAt t false p).map (ob h r) ↔ Anc h (ob h r p) y := by
    intro y hy
    rw [List.mem_map]
    constructor
    · rintro ⟨q, hq, rfl⟩
      obtain ⟨hq1, hq2⟩ := (mem_walkAt hn false q).1 hq
      exact (anc_desc H hp hq1).2 hq2
    · intro ha
      have har : Anc h r y := by
        rcases hra with e | hra
        · rw [e]; exact ha
        · exact Anc.trans hra ha
      obtain ⟨q, hq, rfl⟩ := path_of_anc H hy har
      exact ⟨q, (mem_walkAt hn false q).2 ⟨hq, (anc_desc H hp hq).1 ha⟩, rfl⟩
  refine ⟨(walkAt t false p).map (ob h r), walk_gen H hp false, ?_, ?_, fun y hy => ?_⟩
  · have := walk_gen H hp true
    rw [walkAt_rev, List.map_reverse] at this
    exact this
  · refine ob_map_inj H (fun q hq => isNode_walkAt H hp hq) ?_
    refine (walkAt_sorted t p).imp (fun {a b} hab => ?_)
    rintro rfl
    exact docLt_irrefl a hab
  · unfold hasDescendant
    rw [C25_descends_from hok hac hy, hmem y hy]
    simp

/-- Two Itos have the same root exactly if they belong to the same tree: one walk from that root comes to both (or it is that root). -/
theorem C124_root {h : Heap} (hok : OK h) (hac : Acyclic h) {x r : Nat} (hx : x < h.next) (hr : r < h.next) :
    h.getRoot h.next x = some r ↔ h.parent r = none ∧ (x = r ∨ h.hasDescendant h.next r x = some true) := by
  unfold hasDescendant
  rw [C25_descends_from hok hac hx]
  obtain ⟨r', h1, h2, h3⟩ := C25_get_root hok hac hx
  constructor
  · intro e
    rw [h1] at e
    obtain rfl := Option.some.inj e
    refine ⟨h2, ?_⟩
    rcases h3 with rfl | h3
    · exact .inl rfl
    · exact .inr (by simp [h3])
  · rintro ⟨hp, ha⟩
    rw [h1]
    congr 1
    have top : ∀ a b y, h.parent a = none → h.parent b = none → (a = y ∨ Anc h a y) → (b = y ∨ Anc h b y) → a = b := by
      intro a b y pa pb ha hb
      rcases ha with rfl | ha
      · rcases hb with rfl | hb
        · rfl
        · cases hb with
          | parent e => rw [pa] at e; cases e
          | step e _ => rw [pa] at e; cases e
      · induction ha with
        | parent e =>
          rcases hb with rfl | hb
          · rw [pb] at e; cases e
          · cases hb with
            | parent e' => rw [e] at e'; exact Option.some.inj e'
            | step e' hb =>
              rw [e] at e'
              obtain rfl := Option.some.inj e'
              cases hb with
              | parent e => rw [pa] at e; cases e
              | step e _ => rw [pa] at e; cases e
        | step e _ ih =>
          rcases hb with rfl | hb
          · rw [pb] at e; cases e
          · cases hb with
            | parent e' => rw [e] at e'; exact ih pa (.inl (Option.some.inj e').symm)
            | step e' hb =>
              rw [e] at e'
              obtain rfl := Option.some.inj e'
              exact ih pa (.inr hb)
    refine top r' r x h2 hp h3 ?_
    rcases ha with rfl | ha
    · exact .inl rfl
    · exact .inr (by simpa using ha)

/-! Non-vacuity: a parent with a child, made by the API. -/

example : ∃ h, OK h ∧ Acyclic h ∧ 1 < h.next ∧ h.hasDescendant h.next 0 1 = some true ∧ h.hasDescendant h.next 1 0 = some false ∧
    h.getRoot h.next 1 = some 0 := by
  let ops : List Heap.Op := [.new "ab" none none (some "p"), .new "ab" (some 0) (some 1) none, .add 0 [1]]
  have hl : Legal empty ops := by refine ⟨by simp [Heap.Op.ids], by simp [Heap.Op.ids], by decide, trivial⟩
  refine ⟨empty.runAll ops, C24_children_invariant ops hl, ?_, by decide, by decide, by decide, by decide⟩
  exact C25_acyclic_partial ops hl ⟨trivial, trivial, fun x hx => by
    rw [List.mem_singleton.mp hx]; exact Or.inr (by decide), trivial⟩

end Pawpaw.Props
