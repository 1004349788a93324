import Verif.Props.HierAtomic
/-!
# C24, C25 for histories with `add_hierarchical`; when adding makes a cycle; a call that never returns
-/
set_option linter.unusedSectionVars false
namespace Pawpaw.Props
open TreeSpec HeapSpec Heap

/-! ## One more unit of fuel changes nothing once the call has ended -/

mutual
theorem addHier_step (key : Option (Nat → Int)) : ∀ (n : Nat) (h : Heap) (p x : Nat),
    (addHier key n h p x).2 ≠ .error .nonTermination → addHier key (n + 1) h p x = addHier key n h p x
  | 0, h, p, x, hne => by simp [addHier] at hne
  | n + 1, h, p, x, hne => by
    rw [addHier] at hne ⊢
    conv => rhs; rw [addHier]
    by_cases h1 : h.parent x ≠ none
    · rw [if_pos h1, if_pos h1]
    · rw [if_neg h1] at hne ⊢
      rw [if_neg h1]
      by_cases h2 : h.kids p = []
      · rw [if_pos h2, if_pos h2]
      · rw [if_neg h2] at hne ⊢
        rw [if_neg h2]
        have hf : (flatten key n h p x).2 ≠ .error .nonTermination := by
          intro hf
          cases hfl : flatten key n h p x with
          | mk g r =>
            rw [hfl] at hf hne
            dsimp only at hf
            subst hf
            exact hne rfl
        rw [flatten_step key n h p x hf]
        cases hfl : flatten key n h p x with
        | mk g r =>
          rw [hfl] at hne
          cases r with
          | error e => rfl
          | ok u =>
            dsimp only at hne ⊢
            cases hp : Kids.place (g.kidSpans p) (g.span x) with
            | overlap => rfl
            | insert i => rfl
            | absorb i j => rfl
            | into i =>
              rw [hp] at hne
              dsimp only at hne ⊢
              cases hk : (g.kids p)[i]? with
              | none => rfl
              | some tmp =>
                rw [hk] at hne
                exact addHier_step key n g tmp x hne
            | same i =>
              rw [hp] at hne
              dsimp only at hne ⊢
              cases hk : (g.kids p)[i]? with
              | none => rfl
              | some tmp =>
                rw [hk] at hne
                dsimp only at hne ⊢
                cases key with
                | none => exact addHier_step none n g tmp x hne
                | some f =>
                  dsimp only at hne ⊢
                  by_cases hb : f x ≥ f tmp
                  · simp only [hb, decide_true, if_true] at hne ⊢
                    exact addHier_step (some f) n g tmp x hne
                  · simp only [hb, decide_false, if_false]; rfl
theorem flatten_step (key : Option (Nat → Int)) : ∀ (n : Nat) (h : Heap) (p x : Nat),
    (flatten key n h p x).2 ≠ .error .nonTermination → flatten key (n + 1) h p x = flatten key n h p x
  | 0, h, p, x, hne => by simp [flatten] at hne
  | n + 1, h, p, x, hne => by
    rw [flatten] at hne ⊢
    conv => rhs; rw [flatten]
    by_cases h1 : h.kids x = []
    · rw [if_pos h1, if_pos h1]
    · rw [if_neg h1] at hne ⊢
      rw [if_neg h1]
      cases hpop : h.pop x (-1) with
      | mk g r =>
        rw [hpop] at hne
        cases r with
        | error e => rfl
        | ok c =>
          dsimp only at hne ⊢
          have ha : (addHier key n g p c).2 ≠ .error .nonTermination := by
            intro ha
            cases hfl : addHier key n g p c with
            | mk g' r =>
              rw [hfl] at ha hne
              dsimp only at ha
              subst ha
              exact hne rfl
          rw [addHier_step key n g p c ha]
          cases hfl : addHier key n g p c with
          | mk g' r =>
            rw [hfl] at hne
            cases r with
            | error e => rfl
            | ok u => exact flatten_step key n g' p x hne
end

theorem addHier_stays {key : Option (Nat → Int)} {n : Nat} {h : Heap} {p x : Nat}
    (hne : (addHier key n h p x).2 ≠ .error .nonTermination) : ∀ k, addHier key (n + k) h p x = addHier key n h p x
  | 0 => rfl
  | k + 1 => by
    have ih := addHier_stays hne k
    rw [← Nat.add_assoc, addHier_step key (n + k) h p x (by rw [ih]; exact hne), ih]

theorem addHier_final {key : Option (Nat → Int)} {n N : Nat} {h : Heap} {p x : Nat} {res : Res}
    (hN : ∀ n, N ≤ n → addHier key n h p x = res) (hne : (addHier key n h p x).2 ≠ .error .nonTermination) :
    addHier key n h p x = res := by
  rw [← addHier_stays hne N]
  exact hN _ (by omega)

/-! ## A call that returns had an argument on the same string -/

theorem sameData_delSlice (h : Heap) (p : Nat) (a b : Option Int) : SameData h (h.delSlice p a b).1 := by
  unfold delSlice
  dsimp only
  exact (sameData_unparent ..).trans (sameData_setKids ..)

theorem sameData_add (p : Nat) : ∀ (xs : List Nat) (h : Heap), SameData h (h.add p xs).1
  | [], h => .refl h
  | x :: xs, h => by
    have h1 : SameData h (h.addOne p x).1 := by
      unfold addOne
      dsimp only
      repeat' split
      all_goals first | exact .refl h | exact (sameData_setParent ..).trans (sameData_setKids ..)
    rw [add]
    cases ha : h.addOne p x with
    | mk g r =>
      rw [ha] at h1
      cases r with
      | error e => exact h1
      | ok u => exact h1.trans (sameData_add p xs g)

mutual
theorem addHier_str (key : Option (Nat → Int)) : ∀ (n : Nat) {h : Heap}, OK h → ∀ {p x : Nat}, p < h.next → x < h.next →
    h.str x ≠ h.str p → (addHier key n h p x).2 ≠ .ok ()
  | 0, h, _, p, x, _, _, _ => by simp [addHier]
  | n + 1, h, hok, p, x, hp, hx, hs => by
    have hraise : ∀ (g : Heap) (q : Nat), g.str x ≠ g.str q → g.setParentRaises x q = true := by
      intro g q hq
      unfold setParentRaises
      simp [hq]
    rw [addHier]
    split
    · simp
    · split
      · rw [hraise h p hs]; simp
      · by_cases hk : h.kids x = []
        · cases n with
          | zero => simp [flatten]
          | succ n =>
            have hfl : flatten key (n + 1) h p x = (h, .ok ()) := by rw [flatten, if_pos hk]
            rw [hfl]
            dsimp only
            cases hpl : Kids.place (h.kidSpans p) (h.span x) with
            | overlap => simp
            | insert i => dsimp only; rw [hraise (h.setKids p _) p (by rw [str_setKids, str_setKids]; exact hs)]; simp
            | absorb i j => exact absorb_str hok hs i j
            | into i =>
              dsimp only
              cases hki : (h.kids p)[i]? with
              | none => simp
              | some tmp =>
                obtain ⟨a, _, b⟩ := hok.kidParent p hp tmp (List.mem_of_getElem? hki)
                exact addHier_str key (n + 1) hok a hx (by rw [b]; exact hs)
            | same i =>
              dsimp only
              cases hki : (h.kids p)[i]? with
              | none => simp
              | some tmp =>
                obtain ⟨a, _, b⟩ := hok.kidParent p hp tmp (List.mem_of_getElem? hki)
                dsimp only
                have r1 := addHier_str key (n + 1) hok a hx (by rw [b]; exact hs)
                have r2 := absorb_str hok hs i (i + 1)
                split
                · exact r1
                · split
                  · exact r1
                  · exact r2
        · have : (flatten key n h p x).2 ≠ .ok () := flatten_str key n hok hp hx hs hk
          cases hfl : flatten key n h p x with
          | mk g r =>
            rw [hfl] at this
            cases r with
            | error e => simp
            | ok u => exact absurd rfl this
theorem flatten_str (key : Option (Nat → Int)) : ∀ (n : Nat) {h : Heap}, OK h → ∀ {p x : Nat}, p < h.next → x < h.next →
    h.str x ≠ h.str p → h.kids x ≠ [] → (flatten key n h p x).2 ≠ .ok ()
  | 0, h, _, p, x, _, _, _, _ => by simp [flatten]
  | n + 1, h, hok, p, x, hp, hx, hs, hk => by
    rw [flatten, if_neg hk]
    obtain ⟨l, c, hc⟩ : ∃ l c, h.kids x = l ++ [c] := ⟨_, _, (List.dropLast_concat_getLast hk).symm⟩
    rw [pop_last hc]
    dsimp only
    obtain ⟨c1, _, c2⟩ := hok.kidParent x hx c (by rw [hc]; simp)
    have hok' : OK ((h.setParent c none).setKids x l) := by
      have hd := delInt_spec hok hx (-1)
      have hi : (h.delInt x (-1)).1 = ((h.setParent c none).setKids x l) := by rw [← pop_fst, pop_last hc]
      rcases hd with ⟨e, e'⟩ | ⟨_, _, _, _, _, _, _, e, e'⟩
      · exfalso
        rw [hc] at e'
        unfold listIdx at e'
        simp only [List.length_append, List.length_cons, List.length_nil] at e'
        rw [if_pos (by omega), if_pos (by omega)] at e'
        cases e'
      · rw [e] at hi; dsimp only at hi; rw [← hi]; exact e'
    have := addHier_str key n hok' (p := p) (x := c) hp c1 (by
      rw [str_setKids, str_setKids, str_setParent, str_setParent, c2]; exact hs)
    cases hfl : addHier key n ((h.setParent c none).setKids x l) p c with
    | mk g r =>
      rw [hfl] at this
      cases r with
      | error e => simp
      | ok u => exact absurd rfl this
theorem absorb_str {h : Heap} (hok : OK h) {p x : Nat} (hs : h.str x ≠ h.str p) (i j : Nat) :
    (absorb h p x i j).2 ≠ .ok () := by
  have key : ∀ g : Heap, SameData h g → g.setParentRaises x p = true := by
    intro g hg
    unfold setParentRaises
    rw [(hg.2 x).2.1, (hg.2 p).2.1]
    simp [hs]
  unfold absorb
  dsimp only
  cases hd : h.delSlice p (some (i : Int)) (some (j : Int)) with
  | mk g r =>
    have s1 : SameData h g := by have := sameData_delSlice h p (some (i : Int)) (some (j : Int)); rw [hd] at this; exact this
    cases r with
    | error e => simp
    | ok u =>
      dsimp only
      cases ha : g.add x (((h.kids p).drop i).take (j - i)) with
      | mk g' r =>
        have s2 : SameData g g' := by have := sameData_add x (((h.kids p).drop i).take (j - i)) g; rw [ha] at this; exact this
        cases r with
        | error e => simp
        | ok u =>
          dsimp only
          rw [key _ ((s1.trans s2).trans (sameData_setKids ..))]
          simp
end

/-! ## Cycles -/

/-- C25 (exactly when a cycle arises): in a consistent acyclic memory, a call `p.children.add(x)` that
returns leaves parenthood acyclic if and only if `x` was not an ancestor of `p`. -/
theorem C25_add_exact {h : Heap} (hok : OK h) (hac : Acyclic h) {p x : Nat} (hp : p < h.next) (hx : x < h.next)
    (hr : (h.add p [x]).2 = .ok ()) : Acyclic (h.add p [x]).1 ↔ ¬ Anc h x p := by
  rcases addOne_spec hok hp hx with e | ⟨h1, h2, _, l, r, _, _, e, _⟩
  · rw [add, e] at hr; cases hr
  · have he : (h.add p [x]).1 = (h.setParent x (some p)).setKids p (l ++ x :: r) := by rw [add, e]; rfl
    rw [he]
    constructor
    · intro hac' ha
      have up : ∀ a y, Anc h a y → Anc ((h.setParent x (some p)).setKids p (l ++ x :: r)) a y := by
        intro a y hy
        induction hy with
        | @parent y a ey =>
          refine .parent ?_
          rw [parent_setKids, parent_setParent]
          split
          · rename_i hyx; subst hyx; rw [h1] at ey; cases ey
          · exact ey
        | @step y z a ey _ ih =>
          refine .step (y := z) ?_ ih
          rw [parent_setKids, parent_setParent]
          split
          · rename_i hyx; subst hyx; rw [h1] at ey; cases ey
          · exact ey
      refine hac' x hx (.step (y := p) ?_ (up x p ha))
      rw [parent_setKids, parent_setParent, if_pos rfl]
    · exact fun ha => acyclic_insert hac h2 ha

theorem add_acyclic_of {p : Nat} : ∀ (xs : List Nat) {h : Heap}, OK h → p < h.next → (∀ x ∈ xs, x < h.next) → Acyclic h →
    (∀ x ∈ xs, ¬ Anc h x p) → Acyclic (h.add p xs).1
  | [], h, _, _, _, hac, _ => hac
  | x :: xs, h, hok, hp, hx, hac, hg => by
    unfold add
    rcases addOne_spec hok hp (hx x (by simp)) with e | ⟨h1, h2, h3, l, r, h4, h5, e, hok'⟩
    · rw [e]; exact hac
    · rw [e]
      refine add_acyclic_of xs hok' hp (fun y hy => hx y (by simp [hy])) (acyclic_insert hac h2 (hg x (by simp))) ?_
      intro y hy ha
      have key : ∀ a z, Anc ((h.setParent x (some p)).setKids p (l ++ x :: r)) a z → (z = p ∨ Anc h z p) → Anc h a z := by
        intro a z hz
        induction hz with
        | @parent z a e' =>
          intro hzp
          rw [parent_setKids, parent_setParent] at e'
          split at e'
          · rename_i hzx
            subst hzx
            rcases hzp with hzp | hzp
            · exact absurd hzp h2
            · exact absurd hzp (hg z (by simp))
          · exact .parent e'
        | @step z w a e' _ ih =>
          intro hzp
          rw [parent_setKids, parent_setParent] at e'
          split at e'
          · rename_i hzx
            subst hzx
            rcases hzp with hzp | hzp
            · exact absurd hzp h2
            · exact absurd hzp (hg z (by simp))
          · refine .step e' (ih (Or.inr ?_))
            rcases hzp with rfl | hzp
            · exact .parent e'
            · exact Anc.trans (.parent e') hzp
      exact hg y (by simp [hy]) (key y p ha (Or.inl rfl))

/-! ## Histories -/

/-- The memories a program can reach with `Ito(...)`, `children.add` (and `remove`, `pop`, `del`, `clear`),
each returning or raising, and with calls of `children.add_hierarchical` that return, as long as no Ito is
handed to a child list of itself or of one of its own descendants. -/
inductive Reached : Heap → Prop
  | start : Reached empty
  | op {h : Heap} (o : Op) : Reached h → (∀ i ∈ o.ids, i < h.next) →
      (∀ p xs, o = .add p xs → ∀ x ∈ xs, ¬ Anc h x p) → Reached (h.run o)
  | hier {h h' : Heap} (key : Option (Nat → Int)) (n p x : Nat) : Reached h → p < h.next → x < h.next → x ≠ p →
      ¬ Anc h x p → addHier key n h p x = (h', .ok ()) → Reached h'

theorem addHier_grown {key : Option (Nat → Int)} {n : Nat} {h h' : Heap} (hok : OK h) (hac : Acyclic h) {p x : Nat}
    (hp : p < h.next) (hx : x < h.next) (hne : x ≠ p) (hanc : ¬ Anc h x p)
    (hr : addHier key n h p x = (h', .ok ())) : Grown h h' p x := by
  have hpar : h.parent x = none := by
    cases n with
    | zero => simp [addHier] at hr
    | succ n =>
      rw [addHier] at hr
      by_cases h1 : h.parent x ≠ none
      · rw [if_pos h1] at hr; cases hr
      · exact Decidable.not_not.mp h1
  have hs : h.str x = h.str p := Decidable.byContradiction fun hs => addHier_str key n hok hp hx hs (by rw [hr])
  obtain ⟨g, r, ⟨N, hN⟩, _, _, h4⟩ := C28_add_hierarchical_objects key hok hac hp hx hpar hne hanc hs
  have := addHier_final hN (n := n) (by rw [hr]; simp)
  rw [hr] at this
  cases this
  exact h4 rfl

/-- C24, C25 with `add_hierarchical`: in every memory reached by such a history every object's children are
ordered, disjoint, inside it and have it as parent, an object with a parent is among that parent's children,
and no object is its own ancestor. -/
theorem C24_hierarchical_history {h : Heap} (hr : Reached h) : OK h ∧ Acyclic h := by
  induction hr with
  | start => exact ⟨empty_ok, fun x hx => absurd hx (Nat.not_lt_zero _)⟩
  | @op h o _ hl hg ih =>
    refine ⟨run_ok ih.1 hl, ?_⟩
    cases o with
    | add p xs =>
      exact add_acyclic_of xs ih.1 (hl p (by simp [Op.ids])) (fun x hx => hl x (by simp [Op.ids, hx])) ih.2
        (hg p xs rfl)
    | new s a b d => exact run_acyclic ih.1 hl ih.2 trivial
    | remove p x => exact run_acyclic ih.1 hl ih.2 trivial
    | pop p i => exact run_acyclic ih.1 hl ih.2 trivial
    | del p i => exact run_acyclic ih.1 hl ih.2 trivial
    | delSlice p a b => exact run_acyclic ih.1 hl ih.2 trivial
    | clear p => exact run_acyclic ih.1 hl ih.2 trivial
  | hier key n p x _ hp hx hne hanc hr ih =>
    have g := addHier_grown ih.1 ih.2 hp hx hne hanc hr
    exact ⟨g.ok, g.acyclic⟩

/-! ## A call that never returns -/

theorem kids_of_anc {h : Heap} (hok : OK h) {p y : Nat} (hy : y < h.next) (ha : Anc h p y) : h.kids p ≠ [] := anc_kids hok ha hy

theorem flatten_self (key : Option (Nat → Int)) : ∀ (n : Nat) {h : Heap}, OK h → Acyclic h → ∀ {p : Nat}, p < h.next →
    h.parent p = none → h.kids p ≠ [] → (flatten key n h p p).2 = .error .nonTermination
  | 0, h, _, _, p, _, _, _ => rfl
  | n + 1, h, hok, hac, p, hp, hpar, hk => by
    rw [flatten, if_neg hk]
    obtain ⟨l, c, hc⟩ : ∃ l c, h.kids p = l ++ [c] := ⟨_, _, (List.dropLast_concat_getLast hk).symm⟩
    rw [pop_last hc]
    dsimp only
    obtain ⟨c1, c2, c3⟩ := hok.kidParent p hp c (by rw [hc]; simp)
    have hcp : c ≠ p := (hok.parentKid c c1 p c2).2.2
    have hpop : (h.pop p (-1)).1 = (h.setParent c none).setKids p l := by rw [pop_last hc]
    generalize hg : (h.setParent c none).setKids p l = g at hpop ⊢
    have hokg : OK g := by rw [← hpop]; exact run_ok (op := .pop p (-1)) hok (by simpa [Op.ids] using hp)
    have hacg : Acyclic g := by
      rw [← hpop]; exact run_acyclic (op := .pop p (-1)) hok (by simpa [Op.ids] using hp) hac trivial
    have gpar : ∀ y, g.parent y = if y = c then none else h.parent y := by
      intro y; rw [← hg, parent_setKids, parent_setParent]
    have gspan : ∀ y, g.span y = h.span y := by intro y; rw [← hg]; simp
    have gnext : g.next = h.next := by rw [← hg]; rfl
    have gstr : ∀ y, g.str y = h.str y := by intro y; rw [← hg]; simp
    have gp : g.parent p = none := by rw [gpar, if_neg (Ne.symm hcp), hpar]
    have gc : g.parent c = none := by rw [gpar, if_pos rfl]
    have back : ∀ {a y}, Anc g a y → Anc h a y := by
      intro a y hay
      refine anc_mono (fun x q hq => ?_) hay
      rw [gpar] at hq
      split at hq
      · cases hq
      · exact hq
    obtain ⟨g', r, ⟨N, hN⟩, _, h3, h4⟩ := C28_add_hierarchical_objects key hokg hacg (p := p) (x := c) (by omega) (by omega)
      gc hcp (no_anc_of_root gp) (by rw [gstr, gstr, c3])
    have hrok : r = .ok () := by
      rw [h3]
      refine ⟨?_, ?_⟩
      · rw [gspan, gspan]
        have := (hok.kids p hp).inside (h.span c) (List.mem_map.mpr ⟨c, by rw [hc]; simp, rfl⟩)
        exact ⟨this.1, this.2.2⟩
      · intro a ha hca b hb hpb
        rw [gspan, gspan]
        -- `b` stays below `p`, `a` is `c` or below it: in `h` they are under different children of `p`
        have hb' : ∃ d, d ∈ l ∧ (b = d ∨ Anc h d b) := by
          have : ∀ p y, Anc g p y → y < g.next → ∃ d, d ∈ g.kids p ∧ (y = d ∨ Anc g d y) := by
            intro p y hy
            induction hy with
            | @parent y p e => exact fun hy => ⟨y, (hokg.parentKid y hy p e).2.1, Or.inl rfl⟩
            | @step y z p e _ ih =>
              intro hy
              obtain ⟨d, hd, hh⟩ := ih (hokg.parentKid y hy z e).1
              refine ⟨d, hd, Or.inr ?_⟩
              rcases hh with rfl | hh
              · exact .parent e
              · exact .step e hh
          obtain ⟨d, hd, hh⟩ := this p b hpb hb
          have hkg : g.kids p = l := by rw [← hg]; simp [kids_setKids]
          rw [hkg] at hd
          exact ⟨d, hd, hh.imp_right back⟩
        obtain ⟨d, hd, hdb⟩ := hb'
        have ha' : a = c ∨ Anc h c a := hca.imp_right back
        have hdc : (h.span d).stop ≤ (h.span c).start := by
          have hpw := (hok.kids p hp).ordered
          rw [hc, List.map_append, List.pairwise_append] at hpw
          exact (hpw.2.2 (h.span d) (List.mem_map.mpr ⟨d, hd, rfl⟩) (h.span c) (by simp)).2
        have hb1 : (h.span b).stop ≤ (h.span d).stop := by
          rcases hdb with rfl | hdb
          · exact Int.le_refl _
          · exact (Anc.span hok hdb (by omega)).2
        have ha1 : (h.span c).start ≤ (h.span a).start := by
          rcases ha' with rfl | ha'
          · exact Int.le_refl _
          · exact (Anc.span hok ha' (by omega)).1
        exact Or.inl (by omega)
    have hgrown := h4 hrok
    have hend : (addHier key n g p c).2 = .error .nonTermination ∨ addHier key n g p c = (g', .ok ()) := by
      by_cases hne : (addHier key n g p c).2 = .error .nonTermination
      · exact Or.inl hne
      · exact Or.inr (by rw [addHier_final hN hne, hrok])
    rcases hend with hend | hend
    · cases hfl : addHier key n g p c with
      | mk g2 r2 =>
        rw [hfl] at hend
        dsimp only at hend
        subst hend
        rfl
    · rw [hend]
      dsimp only
      have hn' : g'.next = g.next := hgrown.data.1
      refine flatten_self key n hgrown.ok hgrown.acyclic (by omega) ?_ ?_
      · rw [(hgrown.rest p (by omega) (no_anc_of_root gp) (no_anc_of_root gp) (Ne.symm hcp)).1, gp]
      · exact kids_of_anc hgrown.ok (y := c) (by omega) ((hgrown.below c (by omega)).mpr (Or.inr (Or.inl rfl)))

/-- C25, C28: `x.children.add_hierarchical(x)` never returns, for every Ito `x` without parent that has
children (for every amount of fuel the recursion or the `while` loop is cut off). -/
theorem C28_self_argument_loops (key : Option (Nat → Int)) {h : Heap} (hok : OK h) (hac : Acyclic h) {p : Nat}
    (hp : p < h.next) (hpar : h.parent p = none) (hk : h.kids p ≠ []) (n : Nat) :
    (addHier key n h p p).2 = .error .nonTermination := by
  cases n with
  | zero => rfl
  | succ n =>
    rw [addHier, if_neg (by simp [hpar]), if_neg hk]
    have := flatten_self key n hok hac hp hpar hk
    cases hfl : flatten key n h p p with
    | mk g r =>
      rw [hfl] at this
      dsimp only at this
      subst this
      rfl

/-! ## The hypotheses are met -/

/-- `exHier` after `0.children.add_hierarchical(3)` is reached by such a history. -/
example : Reached (addHier none 9 exHier 0 3).1 := by
  have step : ∀ {h : Heap}, Reached h → ∀ s a b d, Reached (h.new s a b d) :=
    fun hr s a b d => .op (.new s a b d) hr (by simp [Op.ids]) (fun p xs e => by cases e)
  have h5 : Reached (empty.runAll (exHierOps.take 5)) := step (step (step (step (step .start _ _ _ _) _ _ _ _) _ _ _ _) _ _ _ _) _ _ _ _
  have h6 : Reached (empty.runAll (exHierOps.take 6)) := .op (.add 0 [1, 2]) h5 (by decide) (by
    intro p xs e x _
    cases e
    exact no_anc_of_root (by decide))
  have h7 : Reached exHier := .op (.add 3 [4]) h6 (by decide) (by
    intro p xs e x _
    cases e
    exact no_anc_of_root (by decide))
  exact .hier none 9 0 3 h7 (by decide) (by decide) (by decide) (no_anc_of_root (by decide))
    (Prod.ext rfl (by decide))
/-- `C25_add_exact` distinguishes: adding 1 to 0 is fine, adding 0 to its child 1 of the same span is not. -/
example : ((empty.runAll [.new "ab" none none none, .new "ab" none none none, .add 0 [1]]).add 1 [0]).2 = .ok () ∧
    Anc (empty.runAll [.new "ab" none none none, .new "ab" none none none, .add 0 [1]]) 0 1 :=
  ⟨by decide, .parent (by decide)⟩
/-- A parentless Ito with children, added to itself. -/
example : exHier.parent 0 = none ∧ exHier.kids 0 ≠ [] ∧ (addHier none 30 exHier 0 0).2 = .error .nonTermination :=
  ⟨by decide, by decide, C28_self_argument_loops none exHier_ok exHier_acyclic (by decide) (by decide) (by decide) 30⟩

end Pawpaw.Props
