import Verif.Props.Axis
/-!
# C35, C36: exactly which nodes `<<<` and `>>>` give, in every tree, and exactly when that is right
-/
set_option linter.unusedSectionVars false
namespace Pawpaw.Props
open TreeSpec QuerySpec Query

theorem toEcs_no (a : Axis) (hs : a.orSelf = .no) (p : Path) (ns : List Path) : a.toEcs ns (some p) = numbered ns := by
  rw [numbered_eq]
  unfold Axis.toEcs
  rcases a with ⟨key, rev, orSelf⟩
  dsimp only at hs
  subst hs
  cases ns <;> simp [enumFrom]

theorem followingTail_eq {t : Node} (hw : WF t) (a : Axis) (p : Path) (hs : a.orSelf = .no) :
    a.followingTail t p = numbered (if a.rev then ((walkAt t false []).filter fun j => decide (startAt t j ≥ stopAt t p)).reverse
      else (walkAt t false []).filter fun j => decide (startAt t j ≥ stopAt t p)) := by
  have hmono : (walkAt t false []).Pairwise (fun x y => startAt t x ≤ startAt t y) := by
    have hin : ∀ x ∈ walkAt t false [], IsNode t x := fun x hx => ((mem_walk_root t false x).mp hx).1
    refine List.Pairwise.imp_of_mem ?_ (walkAt_sorted t [])
    intro x y hx hy hxy
    obtain ⟨b, hb⟩ := isNode_iff.mp (hin x hx)
    obtain ⟨c, hc⟩ := isNode_iff.mp (hin y hy)
    rw [startAt_eq hb, startAt_eq hc]
    exact (docLt_spans x y t b c hw hb hc hxy).1
  unfold Axis.followingTail
  dsimp only
  rw [toEcs_no a hs]
  congr 1
  cases hr : a.rev with
  | false =>
    simp only [Bool.false_eq_true, if_false]
    rw [climb_eq, dropWhile_mono]
    · congr 1
      funext j
      by_cases h : startAt t j < stopAt t p
      · have h' : ¬ startAt t j ≥ stopAt t p := by omega
        simp only [decide_eq_true h, decide_eq_false h']; rfl
      · have h' : startAt t j ≥ stopAt t p := by omega
        simp only [decide_eq_false h, decide_eq_true h']; rfl
    · exact hmono.imp (fun h => by simp only [decide_eq_true_eq]; omega)
  | true =>
    simp only [if_true]
    rw [climb_eq, walkAt_rev, takeWhile_mono, List.filter_reverse]
    have := pairwise_flip hmono
    exact this.imp (fun h => by simp only [decide_eq_true_eq]; omega)

/-- C35, exactly: from a node `p` that is not the root, `>>>` gives the nodes other than the root that start
at or after the stop of `p`; that is the nodes after `p` in document order that are not its descendants if
and only if neither `p` nor a descendant of `p` starts where `p` stops. -/
theorem C35_following_exact {t : Node} (hw : WF t) {p : Path} {n : Node} (hn : t.get? p = some n) (hp : p ≠ [])
    (a : Axis) (hk : a.key = .following) (hs : a.orSelf = .no) :
    ∃ ns, a.findAll t [p] = .ok (numbered ns) ∧ InAxisOrder a ns ∧
      (∀ q, q ∈ ns ↔ q ≠ [] ∧ ∃ b, t.get? q = some b ∧ n.stop ≤ b.start) ∧
      ((∀ q, q ∈ ns ↔ Reaches t p .following q) ↔
        ∀ q b, (q = p ∨ Desc p q) → t.get? q = some b → b.start < n.stop) := by
  have hf : a.findAll t [p] = .ok (a.followingTail t p) := by
    unfold Axis.findAll; rw [hk]
    exact outside_one a _ p hp
  rw [hf, followingTail_eq hw a p hs]
  have hmem : ∀ q, q ∈ (walkAt t false []).filter (fun j => decide (startAt t j ≥ stopAt t p)) ↔
      q ≠ [] ∧ ∃ b, t.get? q = some b ∧ n.stop ≤ b.start := by
    intro q
    rw [List.mem_filter, mem_walk_root]
    simp only [decide_eq_true_eq, stopAt_eq hn]
    constructor
    · rintro ⟨⟨hq, hne⟩, hs⟩
      obtain ⟨b, hb⟩ := isNode_iff.mp hq
      rw [startAt_eq hb] at hs
      exact ⟨hne, b, hb, hs⟩
    · rintro ⟨hne, b, hb, hs⟩
      rw [startAt_eq hb]
      exact ⟨⟨isNode_iff.mpr ⟨b, hb⟩, hne⟩, hs⟩
  have hmem' : ∀ q, q ∈ (if a.rev then ((walkAt t false []).filter fun j => decide (startAt t j ≥ stopAt t p)).reverse
      else (walkAt t false []).filter fun j => decide (startAt t j ≥ stopAt t p)) ↔
      q ≠ [] ∧ ∃ b, t.get? q = some b ∧ n.stop ≤ b.start := by
    intro q
    split
    · rw [List.mem_reverse, hmem]
    · exact hmem q
  refine ⟨_, rfl, ?_, hmem', ?_⟩
  · unfold InAxisOrder
    rw [hk]
    have hsort := (walkAt_sorted t []).filter (fun j => decide (startAt t j ≥ stopAt t p))
    cases hr : a.rev with
    | false => simpa [backward] using hsort
    | true =>
      simp only [backward, if_true]
      exact pairwise_flip hsort
  · constructor
    · intro h q b hq hb
      refine Decidable.byContradiction fun hlt => ?_
      have hqn : q ≠ [] := by
        rintro rfl
        rcases hq with e | ⟨i, r, e⟩
        · exact hp e.symm
        · simp at e
      have hr := (h q).mp ((hmem' q).mpr ⟨hqn, b, hb, by omega⟩)
      rcases hq with rfl | hd
      · exact docLt_irrefl _ hr.2.1
      · exact hr.2.2 hd
    · intro hz q
      obtain ⟨ns, h1, h2, _⟩ := C35_following_partial hw hn hz a hk
      have hns : addSelf a p ns = ns := by unfold addSelf; rw [hs]
      rw [hns, hf, followingTail_eq hw a p hs] at h1
      have : ∀ l m : List Path, numbered l = numbered m → l = m := by
        intro l m e
        have := congrArg (List.map Prod.snd) e
        unfold numbered at this
        rwa [List.map_snd_zip (by simp), List.map_snd_zip (by simp)] at this
      have := this _ _ (by injection h1)
      rw [this]
      exact h2 q

/-- C35, exactly: from a node `p` that is not the root, `<<<` gives the nodes before `p` in document order
that are not its ancestors — except those equal (`==`) to one of its ancestors; so it is right if and only
if no node before `p` is equal to an ancestor of `p` without being one. -/
theorem C35_preceding_exact {t : Node} {p : Path} {n : Node} (hn : t.get? p = some n) (hp : p ≠ [])
    (a : Axis) (hk : a.key = .preceding) (hs : a.orSelf = .no) :
    ∃ ns, a.findAll t [p] = .ok (numbered ns) ∧ InAxisOrder a ns ∧
      (∀ q, q ∈ ns ↔ Reaches t p .preceding q ∧ ∀ r, Desc r p → keyAt t r ≠ keyAt t q) ∧
      ((∀ q, q ∈ ns ↔ Reaches t p .preceding q) ↔
        ∀ q, Reaches t p .preceding q → ∀ r, Desc r p → keyAt t r ≠ keyAt t q) := by
  have hf : a.findAll t [p] = .ok (a.precedingTail t p) := by
    unfold Axis.findAll; rw [hk]
    exact outside_one a _ p hp
  have hsort := walkAt_sorted t []
  have hpm : p ∈ walkAt t false [] := (mem_walk_root t false p).mpr ⟨isNode_iff.mpr ⟨n, hn⟩, hp⟩
  obtain ⟨k1, k2⟩ := takeWhile_ne_sorted _ p hsort hpm
  have hmem : ∀ q, q ∈ ((walkAt t false []).filter (fun j => decide (DocLt j p))).filter
        (fun j => !(Query.ancestors p).any (fun q => decide (keyAt t q = keyAt t j))) ↔
      Reaches t p .preceding q ∧ ∀ r, Desc r p → keyAt t r ≠ keyAt t q := by
    intro q
    rw [List.mem_filter, List.mem_filter, mem_walk_root, Bool.not_eq_true', List.any_eq_false]
    simp only [Reaches, decide_eq_true_eq]
    constructor
    · rintro ⟨⟨⟨hq, hne⟩, hlt⟩, hany⟩
      exact ⟨⟨hq, hlt, fun hd => hany q ((ancestors_mem p q).mpr hd) rfl⟩,
        fun r hr => hany r ((ancestors_mem p r).mpr hr)⟩
    · rintro ⟨⟨hq, hlt, hnd⟩, hany⟩
      refine ⟨⟨⟨hq, ?_⟩, hlt⟩, fun r hr => hany r ((ancestors_mem p r).mp hr)⟩
      rintro rfl
      apply hnd
      cases p with
      | nil => exact absurd rfl hp
      | cons i r => exact ⟨i, r, rfl⟩
  have hmem' : ∀ q, q ∈ (if a.rev then (((walkAt t false []).filter (fun j => decide (DocLt j p))).filter
        (fun j => !(Query.ancestors p).any (fun q => decide (keyAt t q = keyAt t j)))) else
        (((walkAt t false []).filter (fun j => decide (DocLt j p))).filter
        (fun j => !(Query.ancestors p).any (fun q => decide (keyAt t q = keyAt t j)))).reverse) ↔
      Reaches t p .preceding q ∧ ∀ r, Desc r p → keyAt t r ≠ keyAt t q := by
    intro q
    split
    · exact hmem q
    · rw [List.mem_reverse, hmem]
  refine ⟨_, ?_, ?_, hmem', ?_⟩
  · rw [hf]
    unfold Axis.precedingTail
    dsimp only
    rw [toEcs_no a hs]
    congr 2
    cases hr : a.rev with
    | false =>
      simp only [Bool.false_eq_true, if_false]
      rw [climb_eq, walkAt_rev, k2, List.filter_reverse]
    | true =>
      simp only [if_true]
      rw [climb_eq, k1]
  · unfold InAxisOrder
    rw [hk]
    have h2 := (hsort.filter (fun j => decide (DocLt j p))).filter
        (fun j => !(Query.ancestors p).any (fun q => decide (keyAt t q = keyAt t j)))
    cases hr : a.rev with
    | false =>
      simp only [backward, Bool.false_eq_true, if_false]
      exact pairwise_flip h2
    | true => simpa [backward] using h2
  · constructor
    · intro h q hq
      exact ((hmem' q).mp ((h q).mpr hq)).2
    · intro h q
      rw [hmem']
      exact ⟨fun h => h.1, fun hq => ⟨hq, h q hq⟩⟩

/-- C36, exactly: for a node `p` that is not the root, the results of `...`, `<<<`, `.`, `**` and `>>>`
together are all the nodes of the tree, each exactly once, if and only if neither `p` nor a descendant of
`p` starts where `p` stops. -/
theorem C36_partition_exact {t : Node} (hw : WF t) {p : Path} {n : Node} (hn : t.get? p = some n) (hp : p ≠ []) :
    ∃ anc prec desc foll, ({ key := .ancestors } : Axis).findAll t [p] = .ok anc ∧
      ({ key := .preceding } : Axis).findAll t [p] = .ok prec ∧
      ({ key := .self } : Axis).findAll t [p] = .ok [(0, p)] ∧
      ({ key := .descendants } : Axis).findAll t [p] = .ok desc ∧
      ({ key := .following } : Axis).findAll t [p] = .ok foll ∧
      (((∀ q, q ∈ (anc ++ prec ++ [(0, p)] ++ desc ++ foll).map Prod.snd ↔ IsNode t q) ∧
        ((anc ++ prec ++ [(0, p)] ++ desc ++ foll).map Prod.snd).Nodup) ↔
        ∀ q b, (q = p ∨ Desc p q) → t.get? q = some b → b.start < n.stop) := by
  have hpn : IsNode t p := isNode_iff.mpr ⟨n, hn⟩
  obtain ⟨A, a1, a2, _⟩ := C34_axis hw hpn { key := .ancestors } (by decide)
  obtain ⟨D, d1, d2, _⟩ := C34_axis hw hpn { key := .descendants } (by decide)
  obtain ⟨B, b1, _, b2, _⟩ := C35_preceding_exact hn hp { key := .preceding } rfl rfl
  obtain ⟨F, f1, _, f2, _⟩ := C35_following_exact hw hn hp { key := .following } rfl rfl
  refine ⟨_, _, _, _, a1, b1, C34_self t [p] false .no, d1, f1, ?_⟩
  constructor
  · rintro ⟨_, hnd⟩ q b hq hb
    refine Decidable.byContradiction fun hlt => ?_
    have hsnd : ∀ ns : List Path, (numbered ns).map Prod.snd = ns := by
      intro ns
      unfold numbered
      rw [List.map_snd_zip]
      simp
    have hqn : q ≠ [] := by
      rintro rfl
      rcases hq with e | ⟨i, r, e⟩
      · exact hp e.symm
      · simp at e
    have hqF : q ∈ F := (f2 q).mpr ⟨hqn, b, hb, by omega⟩
    simp only [List.map_append, hsnd, addSelf, List.map_cons, List.map_nil] at hnd
    rw [List.nodup_append] at hnd
    refine hnd.2.2 q ?_ q hqF rfl
    rcases hq with rfl | hd
    · simp
    · refine List.mem_append_right _ ?_
      exact (d2 q).mpr ⟨isNode_iff.mpr ⟨b, hb⟩, hd⟩
  · intro hz
    obtain ⟨anc, prec, desc, foll, e1, e2, _, e4, e5, h⟩ := C36_axes_partition_partial hw hn hz
    rw [a1] at e1
    rw [b1] at e2
    rw [d1] at e4
    rw [f1] at e5
    injection e1 with e1
    injection e2 with e2
    injection e4 with e4
    injection e5 with e5
    rw [e1, e2, e4, e5]
    exact h

/-- From the root the partition always holds, whatever the widths: everything else is a descendant. -/
theorem C36_root {t : Node} (a : Axis) (hk : a.key = .preceding ∨ a.key = .following) (hs : a.orSelf = .no) :
    a.findAll t [[]] = .ok [] ∧ ∀ q, IsNode t q → q = [] ∨ Desc [] q := by
  refine ⟨?_, ?_⟩
  · have : ∀ tail, a.outside tail [[]] = .ok [] := by
      intro tail
      rw [outside_root]
      unfold addSelf
      rw [hs]
      rfl
    unfold Axis.findAll
    rcases hk with hk | hk <;> rw [hk] <;> exact this _
  · intro q _
    cases q with
    | nil => exact Or.inl rfl
    | cons i r => exact Or.inr ⟨i, r, rfl⟩

/-- Both sides of the criterion occur: in `exTree` it holds for `[0]`; in the tree of
`C35_following_zero_width_violated` it fails for `[0]`. -/
example : exTree.get? [0] = some (.mk ⟨1, 4⟩ (some "b") (some 7) [.leaf ⟨2, 3⟩]) ∧ ([0] : Path) ≠ [] := by decide
example : Desc [0] [0, 0] ∧ (Node.mk ⟨0, 4⟩ none none [.mk ⟨0, 2⟩ none none [.leaf ⟨2, 2⟩], .leaf ⟨2, 4⟩]).get? [0, 0] =
    some (.leaf ⟨2, 2⟩) := ⟨⟨0, [], rfl⟩, by decide⟩

end Pawpaw.Props
