import Verif.Lemmas.Axis
import Verif.Props.Tree
import Verif.Props.Hier
/-!
# C34–C36: query axes
-/
set_option linter.unusedSectionVars false
namespace Pawpaw.Props
open TreeSpec QuerySpec Query

theorem docLt_ne {p q : Path} (h : DocLt p q) : p ≠ q := by
  rintro rfl; exact docLt_irrefl p h

theorem docLt_asymm {p q : Path} (h : DocLt p q) : ¬ DocLt q p :=
  fun h' => docLt_irrefl p (docLt_trans h h')

theorem pairwise_flip {ns : List Path} {R : Path → Path → Prop} (h : ns.Pairwise R) :
    ns.reverse.Pairwise (fun x y => R y x) := List.pairwise_reverse.mpr h

theorem reaches_ne {t : Node} {p q : Path} {k : AxisKey} (hk : k ≠ .self) (hk' : k ≠ .dedup)
    (h : Reaches t p k q) : q ≠ p := by
  rintro rfl
  have dirr : ¬ Desc q q := fun h => docLt_irrefl q (desc_docLt h)
  cases k <;> simp only [Reaches] at h
  · exact h.2 h.1
  · exact dirr h
  · obtain ⟨i, h⟩ := h; simp at h
  · exact hk rfl
  · exact hk' rfl
  · obtain ⟨_, i, h⟩ := h; simp at h
  · exact dirr h.2
  · exact dirr h.2.1
  · exact docLt_irrefl _ h.2.1
  · obtain ⟨r, i, j, h1, h2, h3⟩ := h
    rw [h1] at h2; simp at h2; omega
  · obtain ⟨r, j, h1, h2⟩ := h
    rw [h1] at h2; simp at h2
  · obtain ⟨_, r, j, h1, h2⟩ := h
    rw [h1] at h2; simp at h2
  · obtain ⟨_, r, i, j, h1, h2, h3⟩ := h
    rw [h1] at h2; simp at h2; omega
  · exact docLt_irrefl _ h.2.1

/-- What the body of the axis loop collects. -/
theorem axisStep_spec {t : Node} (hw : WF t) {p : Path} (hp : IsNode t p) (a : Axis)
    (hk : a.key ≠ .self ∧ a.key ≠ .dedup ∧ a.key ≠ .preceding ∧ a.key ≠ .following) :
    ∃ ns, a.step t p = .ok ns ∧ (∀ q, q ∈ ns ↔ Reaches t p a.key q) ∧ InAxisOrder a ns := by
  obtain ⟨n, hn⟩ := isNode_iff.mp hp
  rcases a with ⟨key, rev, orSelf⟩
  simp only at hk
  unfold Axis.step InAxisOrder
  cases key with
  | root =>
    rcases path_cases p with rfl | ⟨r, i, rfl⟩
    · exact ⟨[], rfl, by simp [Reaches], List.Pairwise.nil⟩
    · refine ⟨[climb r], by simp [parent_snoc], ?_, by simp⟩
      intro q; simp [climb_eq, Reaches]
  | ancestors =>
    refine ⟨_, rfl, ?_, ?_⟩
    · intro q
      cases rev <;> simp [ancestors_mem, Reaches]
    · cases rev
      · simpa [backward] using ancestors_sorted p
      · simpa [backward] using pairwise_flip (ancestors_sorted p)
  | parent =>
    rcases path_cases p with rfl | ⟨r, i, rfl⟩
    · refine ⟨[], rfl, by simp [Reaches], List.Pairwise.nil⟩
    · refine ⟨[r], by simp [parent_snoc], ?_, by simp⟩
      intro q
      simp only [List.mem_singleton, Reaches]
      constructor
      · rintro rfl; exact ⟨i, rfl⟩
      · rintro ⟨j, h⟩; exact ((List.append_inj' h (by simp)).1).symm
  | self => exact absurd rfl hk.1
  | dedup => exact absurd rfl hk.2.1
  | preceding => exact absurd rfl hk.2.2.1
  | following => exact absurd rfl hk.2.2.2
  | children =>
    refine ⟨_, rfl, ?_, ?_⟩
    · intro q
      cases rev <;> simp [mem_children hn, Reaches]
    · cases rev
      · simpa [backward] using children_sorted t p
      · simpa [backward] using pairwise_flip (children_sorted t p)
  | descendants =>
    refine ⟨_, rfl, ?_, ?_⟩
    · intro q
      simp [mem_walkAt hn, Reaches]
    · cases rev
      · simpa [backward] using walkAt_sorted t p
      · simpa [backward, walkAt_rev] using pairwise_flip (walkAt_sorted t p)
  | leaves =>
    refine ⟨_, rfl, ?_, ?_⟩
    · intro q
      rw [List.mem_filter, mem_walkAt hn]
      simp only [Reaches]
      constructor
      · rintro ⟨⟨h1, h2⟩, h3⟩; exact ⟨h1, h2, (isLeaf_iff h1).mp h3⟩
      · rintro ⟨h1, h2, h3⟩; exact ⟨⟨h1, h2⟩, (isLeaf_iff h1).mpr h3⟩
    · cases rev
      · simpa [backward] using (walkAt_sorted t p).filter _
      · simpa [backward, walkAt_rev] using (pairwise_flip (walkAt_sorted t p)).filter (isLeaf t)
  | priors =>
    rcases path_cases p with rfl | ⟨r, i, rfl⟩
    · refine ⟨[], rfl, by simp [Reaches], List.Pairwise.nil⟩
    · obtain ⟨m, hm⟩ := isNode_iff.mp (isNode_parent hp)
      have hi := (isNode_snoc hm i).mp hp
      have hmem : ∀ q, q ∈ (Query.children t r).take i ↔ Reaches t (r ++ [i]) .priors q := by
        intro q
        simp only [Reaches, Query.children, kidsAt_eq hm, ← List.map_take, List.take_range, List.mem_map,
          List.mem_range]
        constructor
        · rintro ⟨j, hj, rfl⟩; exact ⟨r, i, j, rfl, rfl, by omega⟩
        · rintro ⟨r', i', j, h1, rfl, h3⟩
          have := List.append_inj' h1 (by simp)
          obtain ⟨rfl, h⟩ := this
          simp only [List.cons.injEq, and_true] at h
          exact ⟨j, by omega, rfl⟩
      refine ⟨_, by simp only [parent_snoc, childIndex_eq hw hp]; rfl, ?_, ?_⟩
      · intro q; cases rev <;> simp [hmem]
      · have := (children_sorted t r).sublist (List.take_sublist i _)
        cases rev
        · simpa [backward] using pairwise_flip this
        · simpa [backward] using this
  | prior =>
    rcases path_cases p with rfl | ⟨r, i, rfl⟩
    · refine ⟨[], rfl, by simp [Reaches], List.Pairwise.nil⟩
    · obtain ⟨m, hm⟩ := isNode_iff.mp (isNode_parent hp)
      have hi := (isNode_snoc hm i).mp hp
      refine ⟨if i > 0 then [r ++ [i - 1]] else [], ?_, ?_, ?_⟩
      · simp only [parent_snoc, childIndex_eq hw hp]
        by_cases h : i > 0
        · simp only [if_pos h, Query.children, kidsAt_eq hm, List.getElem?_map, bind, Except.bind, pure, Except.pure]
          rw [List.getElem?_range (by omega)]
          rfl
        · simp only [if_neg h, bind, Except.bind, pure, Except.pure]
      · intro q
        simp only [Reaches]
        by_cases h : i > 0
        · rw [if_pos h, List.mem_singleton]
          constructor
          · rintro rfl; exact ⟨r, i - 1, by congr 2; omega, rfl⟩
          · rintro ⟨r', j, h1, rfl⟩
            obtain ⟨rfl, h⟩ := List.append_inj' h1 (by simp)
            simp only [List.cons.injEq, and_true] at h
            subst h; simp
        · rw [if_neg h]
          simp only [List.not_mem_nil, false_iff]
          rintro ⟨r', j, h1, rfl⟩
          obtain ⟨rfl, h⟩ := List.append_inj' h1 (by simp)
          simp only [List.cons.injEq, and_true] at h
          omega
      · by_cases h : i > 0 <;> simp [h]
  | next =>
    rcases path_cases p with rfl | ⟨r, i, rfl⟩
    · refine ⟨[], rfl, by simp [Reaches], List.Pairwise.nil⟩
    · obtain ⟨m, hm⟩ := isNode_iff.mp (isNode_parent hp)
      have hi := (isNode_snoc hm i).mp hp
      refine ⟨if i + 1 < m.kids.length then [r ++ [i + 1]] else [], ?_, ?_, ?_⟩
      · simp only [parent_snoc, childIndex_eq hw hp, Query.children, kidsAt_eq hm, List.length_map,
          List.length_range, bind, Except.bind, pure, Except.pure]
        by_cases h : i + 1 < m.kids.length
        · simp only [if_pos h, List.getElem?_map]
          rw [List.getElem?_range (by omega)]
          rfl
        · simp only [if_neg h]
      · intro q
        simp only [Reaches]
        by_cases h : i + 1 < m.kids.length
        · rw [if_pos h, List.mem_singleton]
          constructor
          · rintro rfl; exact ⟨(isNode_snoc hm _).mpr h, r, i, rfl, rfl⟩
          · rintro ⟨_, r', j, h1, rfl⟩
            obtain ⟨rfl, h⟩ := List.append_inj' h1 (by simp)
            simp only [List.cons.injEq, and_true] at h
            subst h; rfl
        · rw [if_neg h]
          simp only [List.not_mem_nil, false_iff]
          rintro ⟨hq, r', j, h1, rfl⟩
          obtain ⟨rfl, h'⟩ := List.append_inj' h1 (by simp)
          simp only [List.cons.injEq, and_true] at h'
          subst h'
          exact h ((isNode_snoc hm _).mp hq)
      · by_cases h : i + 1 < m.kids.length <;> simp [h]
  | nexts =>
    rcases path_cases p with rfl | ⟨r, i, rfl⟩
    · refine ⟨[], rfl, by simp [Reaches], List.Pairwise.nil⟩
    · obtain ⟨m, hm⟩ := isNode_iff.mp (isNode_parent hp)
      have hi := (isNode_snoc hm i).mp hp
      have hmem : ∀ q, q ∈ (Query.children t r).drop (i + 1) ↔ Reaches t (r ++ [i]) .nexts q := by
        intro q
        simp only [Reaches, Query.children, kidsAt_eq hm, ← List.map_drop, List.mem_map,
          List.mem_drop_iff_getElem, List.getElem_range, List.length_range]
        constructor
        · rintro ⟨j, ⟨k, hk, rfl⟩, rfl⟩
          exact ⟨(isNode_snoc hm _).mpr (by omega), r, i, _, rfl, rfl, by omega⟩
        · rintro ⟨hq, r', i', j, h1, rfl, h3⟩
          have := List.append_inj' h1 (by simp)
          obtain ⟨rfl, h⟩ := this
          simp only [List.cons.injEq, and_true] at h
          have := (isNode_snoc hm _).mp hq
          exact ⟨j, ⟨j - (i + 1), by omega, by omega⟩, rfl⟩
      refine ⟨_, by simp only [parent_snoc, childIndex_eq hw hp]; rfl, ?_, ?_⟩
      · intro q; cases rev <;> simp [hmem]
      · have := (children_sorted t r).sublist (List.drop_sublist (i + 1) _)
        cases rev
        · simpa [backward] using this
        · simpa [backward] using pairwise_flip this

/-- C34: from a node `p` of any well-formed tree, every axis but `<<<`, `>>>` (see C35), `.` and `><` yields
exactly the documented nodes, each once, in the documented order (nearest first, `-` reverses), with
`!`/`!!` adding the node itself as documented, numbered from 0. -/
theorem C34_axis {t : Node} (hw : WF t) {p : Path} (hp : IsNode t p) (a : Axis)
    (hk : a.key ≠ .self ∧ a.key ≠ .dedup ∧ a.key ≠ .preceding ∧ a.key ≠ .following) :
    ∃ ns, a.findAll t [p] = .ok (numbered (addSelf a p ns)) ∧ (∀ q, q ∈ ns ↔ Reaches t p a.key q) ∧
      InAxisOrder a ns := by
  obtain ⟨ns, e, hm, ho⟩ := axisStep_spec hw hp a hk
  refine ⟨ns, ?_, hm, ho⟩
  have hnp : p ∉ ns := fun h => reaches_ne hk.1 hk.2.1 ((hm p).mp h) rfl
  rw [← toEcs_eq a p ns hnp]
  have : a.loop t [p] = .ok (a.toEcs ns (some p)) := by simp [Axis.loop, e]
  rw [← this]
  unfold Axis.findAll
  rcases a with ⟨key, rev, orSelf⟩
  cases key <;> first | rfl | (simp at hk)

/-- C34: from several nodes, these axes yield the results of each, one after the other. -/
theorem C34_axis_many {t : Node} (hw : WF t) (ps : List Path) (hp : ∀ p ∈ ps, IsNode t p) (a : Axis)
    (hk : a.key ≠ .self ∧ a.key ≠ .dedup ∧ a.key ≠ .preceding ∧ a.key ≠ .following) :
    ∃ es : List (List EIto), a.findAll t ps = .ok es.flatten ∧
      es.map Except.ok = ps.map (fun p => a.findAll t [p]) := by
  have hf : ∀ ps, a.findAll t ps = a.loop t ps := by
    intro ps
    unfold Axis.findAll
    rcases a with ⟨key, rev, orSelf⟩
    cases key <;> first | rfl | (simp at hk)
  simp only [hf]
  induction ps with
  | nil => exact ⟨[], rfl, rfl⟩
  | cons p ps ih =>
    obtain ⟨es, e1, e2⟩ := ih (fun q hq => hp q (by simp [hq]))
    obtain ⟨ns, e, _⟩ := axisStep_spec hw (hp p (by simp)) a hk
    refine ⟨a.toEcs ns (some p) :: es, ?_, ?_⟩
    · simp [Axis.loop, e, e1]
    · simp [Axis.loop, e, e2]

/-- C34: `.` yields the nodes it is given, whatever the order and self options, numbered from 0. -/
theorem C34_self (t : Node) (ps : List Path) (rev : Bool) (o : OrSelf) :
    ({ key := .self, rev := rev, orSelf := o } : Axis).findAll t ps = .ok (numbered ps) := by
  rw [numbered_eq]
  rfl

/-- The hypotheses hold of a concrete tree, and the axes do what they say. -/
example : IsNode exTree [0] ∧
    ({ key := .nexts } : Axis).findAll exTree [[0]] = .ok [(0, [1]), (1, [2])] ∧
    ({ key := .priors } : Axis).findAll exTree [[2]] = .ok [(0, [1]), (1, [0])] ∧
    ({ key := .priors, rev := true, orSelf := .always } : Axis).findAll exTree [[2]] =
      .ok [(0, [0]), (1, [1]), (2, [2])] ∧
    ({ key := .ancestors } : Axis).findAll exTree [[0, 0], [1]] = .ok [(0, [0]), (1, []), (0, [])] ∧
    ({ key := .leaves } : Axis).findAll exTree [[]] = .ok [(0, [0, 0]), (1, [1]), (2, [2])] ∧
    ({ key := .prior, orSelf := .ifEmpty } : Axis).findAll exTree [[0]] = .ok [(0, [0])] := by
  refine ⟨by decide, by decide, by decide, by decide, ?_, by decide, by decide⟩
  have h := ancestors_snoc [0] 0
  have h1 := ancestors_snoc [] 0
  have h2 := ancestors_snoc [] 1
  simp only [ancestors_nil, List.nil_append, List.cons_append] at h h1 h2
  rw [h1] at h
  simp [Axis.findAll, Axis.loop, Axis.step, Axis.toEcs, h, h2, enumFrom]

/-! ## C35 -/

theorem docLt_spans : ∀ (p q : Path) (t a b : Node), WF t → t.get? p = some a → t.get? q = some b →
    DocLt p q → a.start ≤ b.start ∧ (Desc p q ∨ a.stop ≤ b.start)
  | [], [], t, a, b, _, _, _, h => by simp [DocLt] at h
  | [], j :: q, t, a, b, h, ea, eb, _ => by
    simp only [Node.get?, Option.some.injEq] at ea
    subst ea
    obtain ⟨_, h1, h2⟩ := get?_span_inside _ t b h eb
    exact ⟨h1, Or.inl ⟨j, q, rfl⟩⟩
  | i :: p, [], t, a, b, _, _, _, h => by simp [DocLt] at h
  | i :: p, j :: q, t, a, b, h, ea, eb, hlt => by
    rw [Node.get?_cons] at ea eb
    cases hi : t.kids[i]? with
    | none => rw [hi] at ea; cases ea
    | some k =>
    cases hj : t.kids[j]? with
    | none => rw [hj] at eb; cases eb
    | some k' =>
    rw [hi] at ea
    rw [hj] at eb
    simp only [Option.bind_some] at ea eb
    have hk := List.mem_of_getElem? hi
    have hk' := List.mem_of_getElem? hj
    rcases hlt with hlt | ⟨rfl, hlt⟩
    · obtain ⟨wa, h1, h2⟩ := get?_span_inside _ k a (h.kid hk) ea
      obtain ⟨_, h3, h4⟩ := get?_span_inside _ k' b (h.kid hk') eb
      have hle := wa.start_le
      have ho := h.kidsOK.ordered
      rw [List.pairwise_iff_getElem] at ho
      obtain ⟨li, gi⟩ := List.getElem?_eq_some_iff.mp hi
      obtain ⟨lj, gj⟩ := List.getElem?_eq_some_iff.mp hj
      have := ho i j (by simpa using li) (by simpa using lj) hlt
      simp only [List.getElem_map, gi, gj] at this
      unfold Node.start Node.stop at *
      exact ⟨by omega, Or.inr (by omega)⟩
    · rw [hi] at hj
      cases hj
      obtain ⟨h1, h2⟩ := docLt_spans p q k a b (h.kid hk) ea eb hlt
      refine ⟨h1, ?_⟩
      rcases h2 with ⟨x, r, e⟩ | h2
      · exact Or.inl ⟨x, r, by rw [e]; rfl⟩
      · exact Or.inr h2

theorem dropWhile_mono {α : Type} (P : α → Bool) : ∀ l : List α,
    l.Pairwise (fun x y => P y = true → P x = true) → l.dropWhile P = l.filter (fun x => !P x)
  | [], _ => rfl
  | x :: l, h => by
    rw [List.pairwise_cons] at h
    by_cases hx : P x = true
    · rw [List.dropWhile_cons_of_pos hx, List.filter_cons_of_neg (by simp [hx])]
      exact dropWhile_mono P l h.2
    · have hall : ∀ y ∈ x :: l, (!P y) = true := by
        intro y hy
        rcases List.mem_cons.mp hy with e | hy
        · simp [e, hx]
        · cases hpy : P y with
          | false => rfl
          | true => exact absurd (h.1 y hy hpy) hx
      rw [List.dropWhile_cons_of_neg (by simp [hx]), List.filter_eq_self.mpr hall]

theorem takeWhile_mono {α : Type} (P : α → Bool) : ∀ l : List α,
    l.Pairwise (fun x y => P y = true → P x = true) → l.takeWhile P = l.filter P
  | [], _ => rfl
  | x :: l, h => by
    rw [List.pairwise_cons] at h
    by_cases hx : P x = true
    · rw [List.takeWhile_cons_of_pos hx, List.filter_cons_of_pos hx, takeWhile_mono P l h.2]
    · rw [List.takeWhile_cons_of_neg hx]
      symm
      rw [List.filter_eq_nil_iff]
      intro y hy hpy
      rcases List.mem_cons.mp hy with e | hy
      · exact hx (e ▸ hpy)
      · exact hx (h.1 y hy hpy)

theorem startAt_eq {t a : Node} {p : Path} (h : t.get? p = some a) : startAt t p = a.start := by
  simp [startAt, h]
theorem stopAt_eq {t a : Node} {p : Path} (h : t.get? p = some a) : stopAt t p = a.stop := by
  simp [stopAt, h]

theorem get?_root (t : Node) : t.get? [] = some t := by simp [Node.get?]

theorem mem_walk_root (t : Node) (rev : Bool) (q : Path) : q ∈ walkAt t rev [] ↔ IsNode t q ∧ q ≠ [] := by
  rw [mem_walkAt (get?_root t)]
  constructor
  · rintro ⟨h, i, r, rfl⟩; exact ⟨h, by simp⟩
  · rintro ⟨h, hne⟩
    cases q with
    | nil => exact absurd rfl hne
    | cons i r => exact ⟨h, i, r, rfl⟩

theorem outside_one (a : Axis) (tail : Path → List EIto) (p : Path) (hp : p ≠ []) :
    a.outside tail [p] = .ok (tail p) := by
  have : Query.parent p ≠ none := by simp [Query.parent, hp]
  simp [Axis.outside, this]

theorem outside_root (a : Axis) (tail : Path → List EIto) :
    a.outside tail [[]] = .ok (numbered (addSelf a [] [])) := by
  rw [← toEcs_eq a [] [] (by simp)]
  rfl

/-- C35: from one node `p`, `>>>` yields exactly the nodes after it in document order that are not its
descendants, in order (reversed by `-`), if neither `p` nor a descendant of it starts where `p` stops
(true when these are not of zero width).  What is missing: other nodes (false,
`C35_following_zero_width_violated`), and several start nodes (false, `C35_many_violated`). -/
theorem C35_following_partial {t : Node} (hw : WF t) {p : Path} {n : Node} (hn : t.get? p = some n)
    (hz : ∀ q b, (q = p ∨ Desc p q) → t.get? q = some b → b.start < n.stop) (a : Axis)
    (hk : a.key = .following) :
    ∃ ns, a.findAll t [p] = .ok (numbered (addSelf a p ns)) ∧
      (∀ q, q ∈ ns ↔ Reaches t p .following q) ∧ InAxisOrder a ns := by
  have hf : ∀ ps, a.findAll t ps = a.outside (a.followingTail t) ps := by
    intro ps; unfold Axis.findAll; rw [hk]
  rw [hf]
  by_cases hp : p = []
  · subst hp
    refine ⟨[], outside_root a _, ?_, List.Pairwise.nil⟩
    intro q
    simp only [List.not_mem_nil, Reaches, false_iff, not_and, Classical.not_not]
    intro _ h
    cases q with
    | nil => simp [DocLt] at h
    | cons i r => exact ⟨i, r, rfl⟩
  · have hsort := walkAt_sorted t []
    have hmono : (walkAt t false []).Pairwise (fun x y => startAt t x ≤ startAt t y) := by
      have hin : ∀ x ∈ walkAt t false [], IsNode t x := fun x hx => ((mem_walk_root t false x).mp hx).1
      refine List.Pairwise.imp_of_mem ?_ hsort
      intro x y hx hy hxy
      obtain ⟨b, hb⟩ := isNode_iff.mp (hin x hx)
      obtain ⟨c, hc⟩ := isNode_iff.mp (hin y hy)
      rw [startAt_eq hb, startAt_eq hc]
      exact (docLt_spans x y t b c hw hb hc hxy).1
    have hmem : ∀ q, q ∈ (walkAt t false []).filter (fun j => decide (startAt t j ≥ stopAt t p)) ↔
        Reaches t p .following q := by
      intro q
      rw [List.mem_filter, mem_walk_root]
      simp only [Reaches, decide_eq_true_eq, stopAt_eq hn]
      constructor
      · rintro ⟨⟨hq, hne⟩, hs⟩
        obtain ⟨b, hb⟩ := isNode_iff.mp hq
        rw [startAt_eq hb] at hs
        refine ⟨hq, ?_, ?_⟩
        · rcases docLt_total p q with h | h | h
          · exact h
          · have := hz q b (Or.inl h.symm) hb; omega
          · have h1 := (docLt_spans q p t b n hw hb hn h).1
            have h2 := hz p n (Or.inl rfl) hn
            omega
        · intro hd
          have := hz q b (Or.inr hd) hb
          omega
      · rintro ⟨hq, hlt, hnd⟩
        obtain ⟨b, hb⟩ := isNode_iff.mp hq
        refine ⟨⟨hq, ?_⟩, ?_⟩
        · rintro rfl; cases p <;> simp [DocLt] at hlt
        · rw [startAt_eq hb]
          rcases (docLt_spans p q t n b hw hn hb hlt).2 with h | h
          · exact absurd h hnd
          · exact h
    have hns : ∀ ns : List Path, (∀ q, q ∈ ns ↔ Reaches t p .following q) → p ∉ ns := fun ns hm h =>
      reaches_ne (by decide) (by decide) ((hm p).mp h) rfl
    cases hr : a.rev with
    | false =>
      refine ⟨_, ?_, hmem, ?_⟩
      · rw [outside_one a _ p hp, ← toEcs_eq a p _ (hns _ hmem)]
        unfold Axis.followingTail
        rw [hr, climb_eq]
        simp only [Bool.false_eq_true, if_false]
        rw [dropWhile_mono]
        · congr 3
          funext j
          by_cases h : startAt t j < stopAt t p
          · have h' : ¬ startAt t j ≥ stopAt t p := by omega
            simp only [decide_eq_true h, decide_eq_false h']; rfl
          · have h' : startAt t j ≥ stopAt t p := by omega
            simp only [decide_eq_false h, decide_eq_true h']; rfl
        · exact hmono.imp (fun h => by simp only [decide_eq_true_eq]; omega)
      · unfold InAxisOrder
        rw [hk, hr]
        simp only [backward, if_true]
        exact hsort.filter _
    | true =>
      refine ⟨((walkAt t false []).filter (fun j => decide (startAt t j ≥ stopAt t p))).reverse, ?_,
        fun q => by rw [List.mem_reverse, hmem q], ?_⟩
      · rw [outside_one a _ p hp, ← toEcs_eq a p _ (by
          rw [List.mem_reverse]; exact hns _ hmem)]
        unfold Axis.followingTail
        rw [hr, climb_eq, walkAt_rev]
        simp only [if_true]
        rw [takeWhile_mono, List.filter_reverse]
        have := pairwise_flip hmono
        exact this.imp (fun h => by simp only [decide_eq_true_eq]; omega)
      · unfold InAxisOrder
        rw [hk, hr]
        simp only [backward]
        exact pairwise_flip (hsort.filter _)

theorem takeWhile_ne_sorted (l : List Path) (p : Path) (hs : l.Pairwise DocLt) (hp : p ∈ l) :
    l.takeWhile (fun j => decide (j ≠ p)) = l.filter (fun j => decide (DocLt j p)) ∧
    (l.reverse.dropWhile (fun j => decide (j ≠ p))).drop 1 =
      (l.filter (fun j => decide (DocLt j p))).reverse := by
  obtain ⟨x, y, rfl⟩ := List.append_of_mem hp
  rw [List.pairwise_append, List.pairwise_cons] at hs
  have h1 : ∀ j ∈ x, DocLt j p := fun j hj => hs.2.2 j hj p (by simp)
  have h2 : ∀ j ∈ y, DocLt p j := hs.2.1.1
  have hf : (x ++ p :: y).filter (fun j => decide (DocLt j p)) = x := by
    rw [List.filter_append, List.filter_eq_self.mpr (by intro j hj; simp [h1 j hj]),
      List.filter_eq_nil_iff.mpr, List.append_nil]
    intro j hj
    rcases List.mem_cons.mp hj with e | hj
    · subst e; simp [docLt_irrefl]
    · simp [docLt_asymm (h2 j hj)]
  rw [hf]
  constructor
  · rw [List.takeWhile_append_of_pos (by intro j hj; simp [docLt_ne (h1 j hj)])]
    simp
  · rw [List.reverse_append, List.reverse_cons, List.append_assoc,
      List.dropWhile_append_of_pos (by
        intro j hj
        rw [List.mem_reverse] at hj
        simp [(docLt_ne (h2 j hj)).symm])]
    simp

/-- C35: from one node `p` of positive width, `<<<` yields exactly the nodes before it in document order
that are not its ancestors, nearest first (reversed by `-`).  What is missing: nodes of zero width (false,
`C35_preceding_zero_width_violated`), and several start nodes (false, `C35_many_violated`). -/
theorem C35_preceding_partial {t : Node} (hw : WF t) {p : Path} {n : Node} (hn : t.get? p = some n)
    (hz : n.start < n.stop) (a : Axis) (hk : a.key = .preceding) :
    ∃ ns, a.findAll t [p] = .ok (numbered (addSelf a p ns)) ∧
      (∀ q, q ∈ ns ↔ Reaches t p .preceding q) ∧ InAxisOrder a ns := by
  have hf : ∀ ps, a.findAll t ps = a.outside (a.precedingTail t) ps := by
    intro ps; unfold Axis.findAll; rw [hk]
  rw [hf]
  by_cases hp : p = []
  · subst hp
    refine ⟨[], outside_root a _, ?_, List.Pairwise.nil⟩
    intro q
    simp only [List.not_mem_nil, Reaches, false_iff, not_and]
    intro _ h
    cases q <;> simp [DocLt] at h
  · have hsort := walkAt_sorted t []
    have hpm : p ∈ walkAt t false [] := (mem_walk_root t false p).mpr ⟨isNode_iff.mpr ⟨n, hn⟩, hp⟩
    obtain ⟨k1, k2⟩ := takeWhile_ne_sorted _ p hsort hpm
    have hmem : ∀ q, q ∈ ((walkAt t false []).filter (fun j => decide (DocLt j p))).filter
          (fun j => !(Query.ancestors p).any (fun q => decide (keyAt t q = keyAt t j))) ↔
        Reaches t p .preceding q := by
      intro q
      rw [List.mem_filter, List.mem_filter, mem_walk_root]
      simp only [Reaches, decide_eq_true_eq]
      constructor
      · rintro ⟨⟨⟨hq, hne⟩, hlt⟩, hany⟩
        refine ⟨hq, hlt, ?_⟩
        intro hd
        rw [Bool.not_eq_true', List.any_eq_false] at hany
        exact hany q ((ancestors_mem p q).mpr hd) (by simp)
      · rintro ⟨hq, hlt, hnd⟩
        refine ⟨⟨⟨hq, ?_⟩, hlt⟩, ?_⟩
        · rintro rfl
          apply hnd
          cases p with
          | nil => exact absurd rfl hp
          | cons i r => exact ⟨i, r, rfl⟩
        · rw [Bool.not_eq_true', List.any_eq_false]
          intro c hc
          rw [decide_eq_true_eq]
          intro e
          have hcd := (ancestors_mem p c).mp hc
          obtain ⟨b, hb⟩ := isNode_iff.mp hq
          obtain ⟨i, r, hcr⟩ := hcd
          have hcn : IsNode t c := isNode_parent (q := i :: r) (hcr ▸ isNode_iff.mpr ⟨n, hn⟩)
          obtain ⟨d, hd⟩ := isNode_iff.mp hcn
          simp only [keyAt, hb, hd, Option.map_some, Option.some.injEq, Node.key, Prod.mk.injEq] at e
          have h1 : b.stop ≤ n.start := by
            rcases (docLt_spans q p t b n hw hb hn hlt).2 with h | h
            · exact absurd h hnd
            · exact h
          have h2 : n.stop ≤ d.stop := by
            have : d.get? (i :: r) = some n := by
              have := hn
              rw [hcr, Node.get?_append, hd] at this
              exact this
            exact (get?_span_inside _ d n (get?_WF c t d hw hd) this).2.2
          unfold Node.start Node.stop at *
          rw [e.1] at h2
          omega
    have hns : ∀ ns : List Path, (∀ q, q ∈ ns ↔ Reaches t p .preceding q) → p ∉ ns := fun ns hm h =>
      reaches_ne (by decide) (by decide) ((hm p).mp h) rfl
    cases hr : a.rev with
    | false =>
      refine ⟨(((walkAt t false []).filter (fun j => decide (DocLt j p))).filter
          (fun j => !(Query.ancestors p).any (fun q => decide (keyAt t q = keyAt t j)))).reverse, ?_,
        fun q => by rw [List.mem_reverse, hmem q], ?_⟩
      · rw [outside_one a _ p hp, ← toEcs_eq a p _ (by
          rw [List.mem_reverse]; exact hns _ hmem)]
        unfold Axis.precedingTail
        rw [hr, climb_eq, walkAt_rev]
        simp only [Bool.false_eq_true, if_false]
        rw [k2, List.filter_reverse]
      · unfold InAxisOrder
        rw [hk, hr]
        simp only [backward]
        exact pairwise_flip ((hsort.filter _).filter _)
    | true =>
      refine ⟨_, ?_, hmem, ?_⟩
      · rw [outside_one a _ p hp, ← toEcs_eq a p _ (hns _ hmem)]
        unfold Axis.precedingTail
        rw [hr, climb_eq]
        simp only [if_true]
        rw [k1]
      · unfold InAxisOrder
        rw [hk, hr]
        simp only [backward]
        exact (hsort.filter _).filter _

/-- C35 is false for several start nodes: `<<<` and `>>>` ignore every start node but the last (for all
trees and starts other than the root), stop at the first root, and fail with `NameError` when there is no
start node at all. -/
theorem C35_many_violated (t : Node) (a : Axis) (hk : a.key = .preceding ∨ a.key = .following) :
    (∀ ps p, (∀ q ∈ ps ++ [p], q ≠ []) → a.findAll t (ps ++ [p]) = a.findAll t [p]) ∧
    (∀ ps qs, a.findAll t (ps ++ [] :: qs) = a.findAll t [[]]) ∧
    a.findAll t [] = .error .nameError := by
  have hf : ∃ tail, ∀ ps, a.findAll t ps = a.outside tail ps := by
    rcases hk with hk | hk
    · exact ⟨_, fun ps => by unfold Axis.findAll; rw [hk]⟩
    · exact ⟨_, fun ps => by unfold Axis.findAll; rw [hk]⟩
  obtain ⟨tail, hf⟩ := hf
  refine ⟨?_, ?_, ?_⟩
  · intro ps p h
    rw [hf, hf, outside_one a tail p (h p (by simp))]
    unfold Axis.outside
    have : (ps ++ [p]).find? (fun i => decide (Query.parent i = none)) = none := by
      rw [List.find?_eq_none]
      intro q hq
      simp [Query.parent, h q hq]
    rw [this]
    simp
  · intro ps qs
    rw [hf, hf, outside_root]
    unfold Axis.outside
    have : (ps ++ [] :: qs).find? (fun i => decide (Query.parent i = none)) = some [] := by
      rw [List.find?_append]
      cases h : ps.find? (fun i => decide (Query.parent i = none)) with
      | none => simp [Query.parent]
      | some x =>
        have := List.find?_some h
        simp only [Query.parent, decide_eq_true_eq] at this
        by_cases hx : x = []
        · rw [hx]; rfl
        · simp [hx] at this
    rw [this]
    simp only
    rw [toEcs_eq a [] [] (by simp)]
  · rw [hf]; rfl

/-- C35 fails for two start nodes of a tree of positive-width nodes: `>>>` from `(0,1)` and `(2,3)` misses
`(2,3)`, which follows `(0,1)`. -/
theorem C35_union_violated :
    ∃ t, WF t ∧ IsNode t [0] ∧ IsNode t [1] ∧ IsNode t [2] ∧ Reaches t [0] .following [1] ∧
      ({ key := .following } : Axis).findAll t [[0], [1]] = .ok [(0, [2])] := by
  refine ⟨.mk ⟨0, 6⟩ none none [.leaf ⟨0, 1⟩, .leaf ⟨2, 3⟩, .leaf ⟨4, 5⟩], ?_, by decide, by decide, by decide,
    ⟨by decide, by decide, ?_⟩, ?_⟩
  · refine .mk (by decide) (by decide) ⟨by decide, by decide⟩ ?_
    intro k hk
    simp only [List.mem_cons, List.not_mem_nil, or_false] at hk
    rcases hk with rfl | rfl | rfl <;> exact .mk (by decide) (by decide) ⟨by decide, by decide⟩ (by simp)
  · rintro ⟨i, r, h⟩; simp at h
  · simp only [Axis.findAll, Axis.outside, Axis.followingTail, climb_eq]
    decide

/-- C35 fails with zero-width nodes: `>>>` from `(0,2)` yields its own descendant `(2,2)`, and `>>>` from
`(2,2)` yields `(2,2)` itself. -/
theorem C35_following_zero_width_violated :
    ∃ t, WF t ∧ IsNode t [0] ∧ IsNode t [0, 0] ∧ Desc [0] [0, 0] ∧
      ({ key := .following } : Axis).findAll t [[0]] = .ok [(0, [0, 0]), (1, [1])] ∧
      ({ key := .following } : Axis).findAll t [[0, 0]] = .ok [(0, [0, 0]), (1, [1])] := by
  refine ⟨.mk ⟨0, 4⟩ none none [.mk ⟨0, 2⟩ none none [.leaf ⟨2, 2⟩], .leaf ⟨2, 4⟩], ?_, by decide, by decide,
    ⟨0, [], rfl⟩, ?_, ?_⟩
  · refine .mk (by decide) (by decide) ⟨by decide, by decide⟩ ?_
    intro k hk
    simp only [List.mem_cons, List.not_mem_nil, or_false] at hk
    rcases hk with rfl | rfl
    · refine .mk (by decide) (by decide) ⟨by decide, by decide⟩ ?_
      intro k hk
      simp only [List.mem_cons, List.not_mem_nil, or_false] at hk
      subst hk
      exact .mk (by decide) (by decide) ⟨by decide, by decide⟩ (by simp)
    · exact .mk (by decide) (by decide) ⟨by decide, by decide⟩ (by simp)
  · simp only [Axis.findAll, Axis.outside, Axis.followingTail, climb_eq]
    decide
  · simp only [Axis.findAll, Axis.outside, Axis.followingTail, climb_eq]
    decide

/-- C35 fails with zero-width nodes: `<<<` from `(3,3)` misses its prior sibling `(0,3)`, which is equal
(`==`) to their parent `(0,3)`. -/
theorem C35_preceding_zero_width_violated :
    ∃ t, WF t ∧ IsNode t [1] ∧ Reaches t [1] .preceding [0] ∧
      ({ key := .preceding } : Axis).findAll t [[1]] = .ok [] := by
  refine ⟨.mk ⟨0, 3⟩ none none [.leaf ⟨0, 3⟩, .leaf ⟨3, 3⟩], ?_, by decide, ⟨by decide, by decide, ?_⟩, ?_⟩
  · refine .mk (by decide) (by decide) ⟨by decide, by decide⟩ ?_
    intro k hk
    simp only [List.mem_cons, List.not_mem_nil, or_false] at hk
    rcases hk with rfl | rfl <;> exact .mk (by decide) (by decide) ⟨by decide, by decide⟩ (by simp)
  · rintro ⟨i, r, h⟩; simp at h
  · have h1 := ancestors_snoc [] 1
    simp only [ancestors_nil, List.nil_append] at h1
    simp only [Axis.findAll, outside_one _ _ [1] (by simp), Axis.precedingTail, climb_eq, h1]
    decide

/-- The hypotheses of the two partial theorems on a concrete node. -/
example : exTree.get? [0] = some (.mk ⟨1, 4⟩ (some "b") (some 7) [.leaf ⟨2, 3⟩]) ∧
    ({ key := .following } : Axis).findAll exTree [[0]] = .ok [(0, [1]), (1, [2])] ∧
    ({ key := .following, rev := true } : Axis).findAll exTree [[0]] = .ok [(0, [2]), (1, [1])] ∧
    ({ key := .preceding } : Axis).findAll exTree [[2]] = .ok [(0, [1]), (1, [0, 0]), (2, [0])] := by
  have h1 := ancestors_snoc [] 2
  simp only [ancestors_nil, List.nil_append] at h1
  simp only [Axis.findAll, outside_one _ _ [0] (by simp), outside_one _ _ [2] (by simp), Axis.followingTail,
    Axis.precedingTail, climb_eq, h1]
  decide

/-! ## C36 -/

/-- C36, on the documented axes: every node of the tree is in exactly one of ancestors, preceding, self,
descendants and following of `p`. -/
theorem axes_exhaustive (t : Node) (p q : Path) (hp : IsNode t p) (hq : IsNode t q) :
    Reaches t p .ancestors q ∨ Reaches t p .preceding q ∨ Reaches t p .self q ∨ Reaches t p .descendants q ∨
      Reaches t p .following q := by
  simp only [Reaches]
  rcases docLt_total p q with h | h | h
  · by_cases hd : Desc p q
    · exact Or.inr (Or.inr (Or.inr (Or.inl ⟨hq, hd⟩)))
    · exact Or.inr (Or.inr (Or.inr (Or.inr ⟨hq, h, hd⟩)))
  · exact Or.inr (Or.inr (Or.inl h.symm))
  · by_cases hd : Desc q p
    · exact Or.inl hd
    · exact Or.inr (Or.inl ⟨hq, h, hd⟩)

/-- C36: for every node `p` of positive width (no descendant of which starts where `p` stops), the results
of `...`, `<<<`, `.`, `**` and `>>>` together are all the nodes of the tree, each exactly once.  What is
missing: zero-width nodes (false, by `C35_*_zero_width_violated`). -/
theorem C36_axes_partition_partial {t : Node} (hw : WF t) {p : Path} {n : Node} (hn : t.get? p = some n)
    (hz : ∀ q b, (q = p ∨ Desc p q) → t.get? q = some b → b.start < n.stop) :
    ∃ anc prec desc foll, ({ key := .ancestors } : Axis).findAll t [p] = .ok anc ∧
      ({ key := .preceding } : Axis).findAll t [p] = .ok prec ∧
      ({ key := .self } : Axis).findAll t [p] = .ok [(0, p)] ∧
      ({ key := .descendants } : Axis).findAll t [p] = .ok desc ∧
      ({ key := .following } : Axis).findAll t [p] = .ok foll ∧
      (∀ q, q ∈ (anc ++ prec ++ [(0, p)] ++ desc ++ foll).map Prod.snd ↔ IsNode t q) ∧
      ((anc ++ prec ++ [(0, p)] ++ desc ++ foll).map Prod.snd).Nodup := by
  have hp : IsNode t p := isNode_iff.mpr ⟨n, hn⟩
  have hsnd : ∀ ns : List Path, (numbered ns).map Prod.snd = ns := by
    intro ns
    unfold numbered
    rw [List.map_snd_zip]
    simp
  obtain ⟨A, a1, a2, a3⟩ := C34_axis hw hp { key := .ancestors } (by decide)
  obtain ⟨D, d1, d2, d3⟩ := C34_axis hw hp { key := .descendants } (by decide)
  obtain ⟨B, b1, b2, b3⟩ := C35_preceding_partial hw hn (hz p n (Or.inl rfl) hn) { key := .preceding } rfl
  obtain ⟨F, f1, f2, f3⟩ := C35_following_partial hw hn hz { key := .following } rfl
  refine ⟨_, _, _, _, a1, b1, C34_self t [p] false .no, d1, f1, ?_, ?_⟩
  · intro q
    simp only [List.map_append, hsnd, addSelf, List.mem_append, a2, b2, d2, f2, List.map_cons, List.map_nil,
      List.mem_singleton]
    constructor
    · rintro ((((h | h) | h) | h) | h)
      · obtain ⟨i, r, e⟩ := h
        exact isNode_parent (q := i :: r) (e ▸ hp)
      · exact h.1
      · exact h ▸ hp
      · exact h.1
      · exact h.1
    · intro hq
      rcases axes_exhaustive t p q hp hq with h | h | h | h | h
      · exact Or.inl (Or.inl (Or.inl (Or.inl h)))
      · exact Or.inl (Or.inl (Or.inl (Or.inr h)))
      · exact Or.inl (Or.inl (Or.inr h))
      · exact Or.inl (Or.inr h)
      · exact Or.inr h
  · simp only [List.map_append, hsnd, addSelf, List.map_cons, List.map_nil]
    have nd : ∀ {R : Path → Path → Prop} {l : List Path}, (∀ x y, R x y → x ≠ y) → l.Pairwise R → l.Nodup :=
      fun h hp => hp.imp (fun {x y} => h x y)
    have hA : A.Nodup := nd (fun x y h => (docLt_ne (p := y) (q := x) (by simpa [backward] using h)).symm) a3
    have hB : B.Nodup := nd (fun x y h => (docLt_ne (p := y) (q := x) (by simpa [backward] using h)).symm) b3
    have hD : D.Nodup := nd (fun x y h => docLt_ne (p := x) (q := y) (by simpa [backward] using h)) d3
    have hF : F.Nodup := nd (fun x y h => docLt_ne (p := x) (q := y) (by simpa [backward] using h)) f3
    have kA : ∀ q ∈ A, DocLt q p := fun q hq => desc_docLt ((a2 q).mp hq)
    have kB : ∀ q ∈ B, DocLt q p := fun q hq => ((b2 q).mp hq).2.1
    have kD : ∀ q ∈ D, DocLt p q := fun q hq => desc_docLt ((d2 q).mp hq).2
    have kF : ∀ q ∈ F, DocLt p q := fun q hq => ((f2 q).mp hq).2.1
    rw [List.nodup_append, List.nodup_append, List.nodup_append, List.nodup_append]
    refine ⟨⟨⟨⟨hA, hB, ?_⟩, by simp, ?_⟩, hD, ?_⟩, hF, ?_⟩
    · rintro x hx y hy rfl
      exact ((b2 x).mp hy).2.2 ((a2 x).mp hx)
    · intro x hx y hy
      rw [List.mem_singleton] at hy
      rw [hy]
      rcases List.mem_append.mp hx with h | h
      · exact docLt_ne (kA x h)
      · exact docLt_ne (kB x h)
    · rintro x hx y hy rfl
      rcases List.mem_append.mp hx with h | h
      · rcases List.mem_append.mp h with h | h
        · exact docLt_asymm (kA x h) (kD x hy)
        · exact docLt_asymm (kB x h) (kD x hy)
      · rw [List.mem_singleton] at h
        exact docLt_irrefl p (h ▸ kD x hy)
    · rintro x hx y hy rfl
      rcases List.mem_append.mp hx with h | h
      · rcases List.mem_append.mp h with h | h
        · rcases List.mem_append.mp h with h | h
          · exact docLt_asymm (kA x h) (kF x hy)
          · exact docLt_asymm (kB x h) (kF x hy)
        · rw [List.mem_singleton] at h
          exact docLt_irrefl p (h ▸ kF x hy)
      · exact ((f2 x).mp hy).2.2 ((d2 x).mp h).2

/-- C36 fails around zero-width nodes: `**` and `>>>` overlap. -/
theorem C36_overlap_violated :
    ∃ t p q, WF t ∧ IsNode t p ∧ (∃ ds, ({ key := .descendants } : Axis).findAll t [p] = .ok ds ∧
      q ∈ ds.map Prod.snd) ∧
      ∃ fs, ({ key := .following } : Axis).findAll t [p] = .ok fs ∧ q ∈ fs.map Prod.snd := by
  obtain ⟨t, h1, h2, h3, h4, h5, _⟩ := C35_following_zero_width_violated
  refine ⟨t, [0], [0, 0], h1, h2, ?_, _, h5, by simp⟩
  obtain ⟨ns, e, hm, _⟩ := C34_axis h1 h2 { key := .descendants } (by decide)
  refine ⟨_, e, ?_⟩
  have : (numbered ns).map Prod.snd = ns := by
    unfold numbered
    rw [List.map_snd_zip]
    simp
  simp only [addSelf, this]
  exact (hm _).mpr ⟨h3, h4⟩

end Pawpaw.Props
