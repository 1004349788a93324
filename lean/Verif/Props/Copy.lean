import Verif.Model.Copy
import Verif.Props.Pickle
/-!
# C109, C111: the `copy` module
-/
set_option linter.unusedSectionVars false
namespace Pawpaw.Props
open TreeSpec HeapSpec Heap Shared

/-! ## `copy.deepcopy` -/

/-- `h'` holds the objects of `h`, unchanged, and maybe more. -/
def Extends (h h' : Heap) : Prop := h.next ≤ h'.next ∧ ∀ i < h.next, h'.obj i = h.obj i

theorem Extends.refl (h : Heap) : Extends h h := ⟨Nat.le_refl _, fun _ _ => rfl⟩

theorem Extends.trans {h1 h2 h3 : Heap} (a : Extends h1 h2) (b : Extends h2 h3) : Extends h1 h3 :=
  ⟨Nat.le_trans a.1 b.1, fun i hi => by rw [b.2 i (by have := a.1; omega), a.2 i hi]⟩

theorem blank_extends (h : Heap) : Extends h h.blank :=
  ⟨Nat.le_succ _, fun i hi => by simp [blank, Nat.ne_of_lt hi]⟩

mutual
theorem unpickle_extends : ∀ (d : PDoc) (h : Heap), Extends h (h.unpickle d).1 ∧ h.next ≤ (h.unpickle d).2
  | .mk s sp dd ks, h => by
    have hb := unpickleAll_extends ks h.blank
    rw [unpickle]
    dsimp only
    refine ⟨⟨?_, fun i hi => ?_⟩, Nat.le_refl _⟩
    · rw [setState_next]
      exact Nat.le_trans (Nat.le_succ _) hb.1.1
    · rw [setState_obj, if_neg (Nat.ne_of_lt hi)]
      have hm : i ∉ (h.blank.unpickleAll ks).2 := fun hc => by
        have := hb.2 i hc
        simp only [blank] at this
        omega
      rw [if_neg hm, hb.1.2 i (by simp only [blank]; omega), (blank_extends h).2 i hi]
theorem unpickleAll_extends : ∀ (ds : List PDoc) (h : Heap), Extends h (h.unpickleAll ds).1 ∧
    ∀ i ∈ (h.unpickleAll ds).2, h.next ≤ i
  | [], h => by rw [unpickleAll]; exact ⟨Extends.refl h, by simp⟩
  | d :: ds, h => by
    rw [unpickleAll]
    have h1 := unpickle_extends d h
    have h2 := unpickleAll_extends ds (h.unpickle d).1
    refine ⟨h1.1.trans h2.1, fun i hi => ?_⟩
    rcases List.mem_cons.mp hi with rfl | hi
    · exact h1.2
    · exact Nat.le_trans h1.1.1 (h2.2 i hi)
end

/-- Copying deeply is saving and loading, whatever else has been created meanwhile. -/
theorem deepcopy_pickle {h0 : Heap} (hok : OK h0) : ∀ (n : Nat),
    (∀ (h : Heap) (x : Nat), Extends h0 h → x < h0.next →
      h.deepcopy n x = (h0.pickle n x).map h.unpickle) ∧
    (∀ (h : Heap) (xs : List Nat), Extends h0 h → (∀ x ∈ xs, x < h0.next) →
      h.deepcopyAll n xs = (h0.pickleAll n xs).map h.unpickleAll) := by
  intro n
  induction n with
  | zero =>
    refine ⟨fun h x _ _ => by simp [deepcopy, pickle, Except.map], fun h xs _ _ => ?_⟩
    cases xs <;> simp [deepcopyAll, pickleAll, Except.map, unpickleAll]
  | succ n ih =>
    refine ⟨fun h x he hx => ?_, fun h xs he hxs => ?_⟩
    · rw [deepcopy, pickle]
      have ho := he.2 x hx
      have hk : h.kids x = h0.kids x := by rw [kids, kids, ho]
      rw [hk, ih.2 h.blank (h0.kids x) (he.trans (blank_extends h)) (fun c hc => (hok.kidParent x hx c hc).1)]
      cases h0.pickleAll n (h0.kids x) with
      | error e => rfl
      | ok ds => simp [Except.map, unpickle, str, span, ho]
    · cases xs with
      | nil => simp [deepcopyAll, pickleAll, Except.map, unpickleAll]
      | cons x xs =>
        rw [deepcopyAll, pickleAll, ih.1 h x he (hxs x (by simp))]
        cases h0.pickle n x with
        | error e => rfl
        | ok d =>
          simp only [Except.map]
          rw [ih.2 (h.unpickle d).1 xs (he.trans (unpickle_extends d h).1) (fun y hy => hxs y (by simp [hy]))]
          cases h0.pickleAll n xs with
          | error e => rfl
          | ok ds => simp [Except.map, unpickleAll]

/-- **C109 (deepcopy).**  In every consistent object graph without cycles, `copy.deepcopy(x)` succeeds
(given recursion enough) and returns a new parentless Ito over the same string, whose tree looks like that
of `x` but for the value functions, made of new objects only; every object there was is unchanged, and the
graph is consistent and acyclic. -/
theorem C109_deepcopy {h : Heap} (hok : OK h) (hac : Acyclic h) {x : Nat} (hx : x < h.next) :
    ∃ t, Looks h x t ∧ ∃ n, ∀ m, n ≤ m → ∃ h' y, h.deepcopy m x = .ok (h', y) ∧
      Looks h' y (bare t) ∧ h'.parent y = none ∧ h'.str y = h.str x ∧ OK h' ∧ Acyclic h' ∧
      (∀ i < h.next, h'.obj i = h.obj i) ∧
      h.next ≤ y ∧ (∀ z < h'.next, Anc h' y z → h.next ≤ z) := by
  obtain ⟨t, ht, n, hn⟩ := C45_pickle_round_trip hok hac hx
  refine ⟨t, ht, n, fun m hm => ?_⟩
  obtain ⟨d, e, h1⟩ := hn m hm
  exact ⟨(h.unpickle d).1, (h.unpickle d).2, by
    rw [(deepcopy_pickle hok m).1 h x (Extends.refl h) hx, e]; rfl, h1⟩

/-! ## `copy.copy` -/

/-- Every object has the collection made for it: what the constructor leaves. -/
def Shared.of (h : Heap) : Shared := ⟨h, id⟩

theorem copy_obj (h : Heap) (x y : Nat) : ((Shared.of h).copy x).heap.obj y =
    if y = h.next then ⟨h.str x, h.span x, (h.obj x).desc, none, if h.next ∈ h.kids x then some h.next else none, []⟩
    else { h.obj y with parent := if y ∈ h.kids x then some h.next else (h.obj y).parent } := by
  simp only [Shared.of, Shared.copy, Shared.children, id, reparent_obj]
  by_cases e : y = h.next
  · subst e; simp [upd]
  · simp [upd, e, blank]

@[simp] theorem copy_next (h : Heap) (x : Nat) : ((Shared.of h).copy x).heap.next = h.next + 1 := by
  simp [Shared.of, Shared.copy, upd, blank]

/-- **C111 (what `copy.copy` does).**  The copy is a new parentless Ito with the string, span and desc of
`x`, no value function, and the children of `x`; `x` and every other object keep all they had but for the
`.parent` of the children of `x`, which is now the copy. -/
theorem C111_copy_exact {h : Heap} (hok : OK h) {x : Nat} (hx : x < h.next) :
    let s := (Shared.of h).copy x
    s.heap.str h.next = h.str x ∧ s.heap.span h.next = h.span x ∧ (s.heap.obj h.next).desc = (h.obj x).desc ∧
    (s.heap.obj h.next).vf = none ∧ s.heap.parent h.next = none ∧ s.children h.next = h.kids x ∧
    (∀ i < h.next, s.children i = h.kids i ∧ s.heap.str i = h.str i ∧ s.heap.span i = h.span i ∧
      (s.heap.obj i).desc = (h.obj i).desc ∧ (s.heap.obj i).vf = (h.obj i).vf ∧
      s.heap.parent i = if h.parent i = some x then some h.next else h.parent i) := by
  have hn : h.next ∉ h.kids x := fun hc => by
    have := (hok.kidParent x hx _ hc).1
    omega
  have hxn : x ≠ h.next := by omega
  dsimp only
  refine ⟨?_, ?_, ?_, ?_, ?_, ?_, fun i hi => ?_⟩
  · simp [str, copy_obj]
  · simp [span, copy_obj]
  · simp [copy_obj]
  · simp [copy_obj]
  · simp [parent, copy_obj, hn]
  · have : ((Shared.of h).copy x).coll h.next = x := by simp [Shared.copy, Shared.of]
    rw [Shared.children, this, kids, copy_obj, if_neg hxn]
    rfl
  · have hin : i ≠ h.next := by omega
    have hc : ((Shared.of h).copy x).coll i = i := by simp [Shared.copy, Shared.of, hin]
    have hm : i ∈ h.kids x ↔ h.parent i = some x :=
      ⟨fun hc => (hok.kidParent x hx i hc).2.1, fun hp => (hok.parentKid i hi x hp).2.1⟩
    refine ⟨?_, ?_, ?_, ?_, ?_, ?_⟩
    · rw [Shared.children, hc, kids, copy_obj, if_neg hin]; rfl
    · simp [str, copy_obj, hin]
    · simp [span, copy_obj, hin]
    · simp [copy_obj, hin]
    · simp [copy_obj, hin]
    · rw [parent, copy_obj, if_neg hin]
      dsimp only
      by_cases hp : h.parent i = some x
      · rw [if_pos hp, if_pos (hm.mpr hp)]
      · rw [if_neg hp, if_neg (fun hc => hp (hm.mp hc))]; rfl

/-- C111 is false, for every Ito with children: each child, still listed by `x.children`,
now has the copy as its parent, and the copy as its only ancestor (`x` and everything above `x` is lost to
it).  So the object graph is no longer consistent. -/
theorem C111_copy_steals_children_violated {h : Heap} (hok : OK h) {x c : Nat} (hx : x < h.next)
    (hc : c ∈ h.kids x) :
    let s := (Shared.of h).copy x
    c ∈ s.children x ∧ s.heap.parent c = some h.next ∧ h.next ≠ x ∧
    (∀ a, Anc s.heap a c ↔ a = h.next) ∧ ¬ OK s.heap := by
  obtain ⟨h1, h2, h3⟩ := hok.kidParent x hx c hc
  have ex := C111_copy_exact hok hx
  dsimp only at ex ⊢
  obtain ⟨_, _, _, _, e5, e6, e7⟩ := ex
  have hp : ((Shared.of h).copy x).heap.parent c = some h.next := by
    rw [(e7 c h1).2.2.2.2.2, if_pos h2]
  refine ⟨by rw [(e7 x hx).1]; exact hc, hp, by omega, fun a => ⟨fun ha => ?_, fun e => by rw [e]; exact .parent hp⟩, ?_⟩
  · have key : ∀ b z, Anc ((Shared.of h).copy x).heap b z → z = h.next → False := by
      intro b z hz
      induction hz with
      | parent hq => intro e; rw [e, e5] at hq; cases hq
      | step hq _ _ => intro e; rw [e, e5] at hq; cases hq
    cases ha with
    | parent hq => rw [hp] at hq; exact (Option.some.inj hq).symm
    | step hq hr =>
      rw [hp] at hq
      exact (key _ _ hr (Option.some.inj hq).symm).elim
  · intro hk
    have hkx : ((Shared.of h).copy x).heap.kids x = h.kids x := by
      rw [kids, copy_obj, if_neg (by omega : x ≠ h.next)]; rfl
    have := (hk.kidParent x (by rw [copy_next]; omega) c (by rw [hkx]; exact hc)).2.1
    rw [hp] at this
    have := Option.some.inj this
    omega

/-- C111 is false, for every Ito: the copy and the original share one child collection, so
whatever is added to the copy's children (one Ito here) turns up among the original's, with the *original*
as its parent. -/
theorem C111_copy_shares_children_violated {h : Heap} (hok : OK h) {x z : Nat} (hx : x < h.next)
    (hz : z < h.next) {s' : Shared}
    (hadd : ((Shared.of h).copy x).add h.next [z] = (s', .ok ())) :
    z ∈ s'.children x ∧ z ∈ s'.children h.next ∧ s'.heap.parent z = some x ∧ z ∉ h.kids x := by
  have hxn : x ≠ h.next := by omega
  have hcn : ((Shared.of h).copy x).coll h.next = x := by simp [Shared.copy, Shared.of]
  have hcx : ((Shared.of h).copy x).coll x = x := by simp [Shared.copy, Shared.of, hxn]
  have ex := C111_copy_exact hok hx
  dsimp only at ex
  obtain ⟨_, _, _, _, e5, e6, e7⟩ := ex
  rw [Shared.add, hcn] at hadd
  simp only [Prod.mk.injEq] at hadd
  obtain ⟨ea, eb⟩ := hadd
  rw [Heap.add] at ea eb
  generalize hg : ((Shared.of h).copy x).heap = g at ea eb e7
  have hpz : g.parent z = none := by
    rw [addOne] at eb
    by_cases hp : g.parent z = none
    · exact hp
    · rw [if_pos hp] at eb; cases eb
  have hnz : z ∉ h.kids x := by
    intro hk
    rw [(e7 z hz).2.2.2.2.2, if_pos (hok.kidParent x hx z hk).2.1] at hpz
    cases hpz
  -- the outcome of the one round of `add`
  have key : ∃ k : List Nat, z ∈ k ∧ g.addOne x z = ((g.setParent z (some x)).setKids x k, .ok ()) := by
    rw [addOne] at eb ⊢
    rw [if_neg (by simpa using hpz)] at eb ⊢
    dsimp only at eb ⊢
    by_cases c1 : Kids.bfindStart (g.kidSpans x) (g.span z) ≥ 0
    · rw [if_pos c1] at eb; cases eb
    · rw [if_neg c1] at eb ⊢
      by_cases c2 : Kids.notBetween (g.kidSpans x) (g.span z) (-Kids.bfindStart (g.kidSpans x) (g.span z) - 1).toNat
          (-Kids.bfindStart (g.kidSpans x) (g.span z) - 1).toNat = true
      · rw [if_pos c2] at eb; cases eb
      · rw [if_neg c2] at eb ⊢
        by_cases c3 : g.setParentRaises z x = true
        · rw [if_pos c3] at eb; cases eb
        · rw [if_neg c3]
          refine ⟨_, ?_, rfl⟩
          have hkk : g.kids x = h.kids x := by
            rw [← hg, kids, copy_obj, if_neg hxn]; rfl
          have hks : g.kidSpans x = (h.kids x).map h.span := by
            rw [kidSpans, hkk]
            apply List.map_congr_left
            intro c hc
            exact (e7 c (hok.kidParent x hx c hc).1).2.2.1
          have hidx := bfindStart_idx (s := g.span z) (hok.kids x hx).sortedStart
          rw [List.length_map, ← hks] at hidx
          rw [kids_setParent, hkk]
          exact (List.mem_insertIdx hidx).mpr (Or.inl rfl)
  obtain ⟨k, hk, e⟩ := key
  rw [e] at ea
  dsimp only [Heap.add] at ea
  have hcoll : s'.coll = ((Shared.of h).copy x).coll := by rw [← ea]
  have hheap : s'.heap = (g.setParent z (some x)).setKids x k := by rw [← ea]
  have hz' : z ∈ s'.children x := by
    rw [Shared.children, hcoll, hcx, hheap]
    simpa [kids, setKids, upd] using hk
  refine ⟨hz', ?_, ?_, hnz⟩
  · rw [Shared.children, hcoll, hcn]
    rw [Shared.children, hcoll, hcx] at hz'
    exact hz'
  · rw [hheap, parent_setKids]
    simp [parent, setParent, upd]

/-- Non-vacuity: an Ito with a child, made by the API; copying it leaves the child with the copy as its
parent, and a further Ito added to the copy's children goes to the original. -/
example : ∃ h : Heap, OK h ∧ Acyclic h ∧ 0 < h.next ∧ h.kids 0 = [1] ∧ h.next = 3 ∧
    ((Shared.of h).copy 0).children 3 = [1] ∧ ((Shared.of h).copy 0).heap.parent 1 = some 3 ∧
    (((Shared.of h).copy 0).add 3 [2]).2 = .ok () ∧
    (((Shared.of h).copy 0).add 3 [2]).1.children 0 = [1, 2] ∧
    (((Shared.of h).copy 0).add 3 [2]).1.heap.parent 2 = some 0 := by
  let ops : List Op := [.new "ab" none none (some "p"), .new "ab" (some 0) (some 1) none,
    .new "ab" (some 1) (some 2) none, .add 0 [1]]
  have hl : Legal empty ops := by
    refine ⟨by simp [Op.ids], by simp [Op.ids], by simp [Op.ids], by decide, trivial⟩
  refine ⟨empty.runAll ops, ?_, ?_, by decide, by decide, by decide, by decide, by decide, by decide, by decide, by decide⟩
  · exact C24_children_invariant ops hl
  · exact C25_acyclic_partial ops hl ⟨trivial, trivial, trivial, fun x hx => by
      rw [List.mem_singleton.mp hx]; exact Or.inr (by decide), trivial⟩

end Pawpaw.Props
