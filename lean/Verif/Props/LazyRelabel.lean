import Verif.Props.LazyQuery
import Verif.Props.Pickle
/-!
# C115: changing the descriptors of what a query finds, while it runs
-/
set_option linter.unusedSectionVars false
namespace Pawpaw
namespace Props
open Heap Query HeapSpec TreeSpec LazySpec LazyQuery QuerySpec

/-! ### What a phrase reads of the memory -/

/-- Filters that look at the children only. -/
def PlainSieve : Sieve → Prop
  | .all | .leaf => True
  | .until _ | .since _ => False

/-- Candidates found by looking at the children only. -/
def PlainCand : Cand → Prop
  | .walk _ s anc => PlainSieve s ∧ anc = []
  | _ => True

def PlainEcs : Ecs → Prop
  | .start c | .held _ c | .on _ c => PlainCand c
  | .fin => True

theorem walkNext_same {h h' : Heap} (hk : ∀ x, h'.kids x = h.kids x) : ∀ w : List Frame, walkNext h' w = walkNext h w
  | [] => rfl
  | f :: fs => by rw [walkNext, walkNext, hk, walkNext_same hk fs]

theorem revNext_same {h h' : Heap} (hk : ∀ x, h'.kids x = h.kids x) : ∀ (n : Nat) (w : List RFrame),
    revNext h' n w = revNext h n w
  | 0, _ => rfl
  | n + 1, [] => rfl
  | n + 1, f :: fs => by
    rw [revNext, revNext, hk]
    cases f.left.getD (h.kids f.node).length with
    | zero => rfl
    | succ k =>
      dsimp only
      cases (h.kids f.node)[k]? with
      | none => rfl
      | some c => exact revNext_same hk n _

theorem walk_same {h h' : Heap} (hk : ∀ x, h'.kids x = h.kids x) (n : Nat) : ∀ w : Walk, w.next n h' = w.next n h
  | .fwd w => by rw [Walk.next, Walk.next, walkNext_same hk]
  | .rev w => by rw [Walk.next, Walk.next, revNext_same hk]

theorem sieve_same {h h' : Heap} (hk : ∀ x, h'.kids x = h.kids x) (j : Nat) : ∀ s : Sieve, PlainSieve s →
    s.pass h' j = s.pass h j ∧ (s.pass h j = .skip ∨ ∃ s', s.pass h j = .give s' ∧ PlainSieve s')
  | .all, _ => ⟨rfl, .inr ⟨.all, rfl, trivial⟩⟩
  | .leaf, _ => by
    rw [Sieve.pass, Sieve.pass, hk]
    refine ⟨rfl, ?_⟩
    split
    · exact .inr ⟨.leaf, rfl, trivial⟩
    · exact .inl rfl

theorem cand_same {h h' : Heap} (hk : ∀ x, h'.kids x = h.kids x) : ∀ (n : Nat) (c : Cand), PlainCand c →
    Cand.next n h' c = Cand.next n h c ∧ ∀ y c', Cand.next n h c = some (.item y c') → PlainCand c'
  | 0, c, _ => ⟨rfl, fun y c' hc => by cases hc⟩
  | n + 1, .list [], _ => ⟨rfl, fun y c' hc => by cases hc⟩
  | n + 1, .list (x :: xs), _ => ⟨rfl, fun y c' hc => by
      simp only [Cand.next, Option.some.injEq, Out.item.injEq] at hc
      rw [← hc.2]; trivial⟩
  | n + 1, .kids p i, _ => by
    refine ⟨by rw [Cand.next, Cand.next, hk], fun y c' hc => ?_⟩
    rw [Cand.next] at hc
    cases hg : (h.kids p)[i]? with
    | none => rw [hg] at hc; cases hc
    | some c =>
      rw [hg] at hc
      simp only [Option.some.injEq, Out.item.injEq] at hc
      rw [← hc.2]; trivial
  | n + 1, .kidsRev p left, _ => by
    refine ⟨by rw [Cand.next, Cand.next, hk], fun y c' hc => ?_⟩
    rw [Cand.next] at hc
    cases hl : left.getD (h.kids p).length with
    | zero => rw [hl] at hc; cases hc
    | succ k =>
      rw [hl] at hc
      dsimp only at hc
      cases hg : (h.kids p)[k]? with
      | none => rw [hg] at hc; cases hc
      | some c =>
        rw [hg] at hc
        simp only [Option.some.injEq, Out.item.injEq] at hc
        rw [← hc.2]; trivial
  | n + 1, .walk w s anc, hp => by
    obtain ⟨hs, rfl⟩ := hp
    rw [Cand.next, Cand.next, walk_same hk]
    cases hw : w.next n h with
    | none => exact ⟨rfl, fun y c' hc => by cases hc⟩
    | some o =>
      cases o with
      | ended => exact ⟨rfl, fun y c' hc => by cases hc⟩
      | raised e => exact ⟨rfl, fun y c' hc => by cases hc⟩
      | item j w' =>
        dsimp only
        obtain ⟨h1, h2⟩ := sieve_same hk j s hs
        rw [h1]
        rcases h2 with h2 | ⟨s', h2, h3⟩
        · rw [h2]
          exact cand_same hk n (.walk w' s []) ⟨hs, rfl⟩
        · rw [h2]
          refine ⟨rfl, fun y c' hc => ?_⟩
          simp only [List.any_nil, Bool.false_eq_true, if_false, Option.some.injEq, Out.item.injEq] at hc
          rw [← hc.2]; exact ⟨h3, rfl⟩

theorem loop_same {h h' : Heap} (hk : ∀ x, h'.kids x = h.kids x) {a : Axis} {s n e : Nat} {c : Cand} (hp : PlainCand c) :
    Ecs.next.loop a s n h' e c = Ecs.next.loop a s n h e c ∧
    ∀ y s', Ecs.next.loop a s n h e c = some (.item y s') → PlainEcs s' := by
  obtain ⟨h1, h2⟩ := cand_same hk n c hp
  rw [Ecs.next.loop, Ecs.next.loop, h1]
  refine ⟨rfl, fun y s' hc => ?_⟩
  cases hn : Cand.next n h c with
  | none => rw [hn] at hc; cases hc
  | some o =>
    rw [hn] at hc
    cases o with
    | ended =>
      dsimp only at hc
      split at hc
      · split at hc
        · simp only [Option.some.injEq, Out.item.injEq] at hc
          rw [← hc.2]; trivial
        · cases hc
      · split at hc
        · simp only [Option.some.injEq, Out.item.injEq] at hc
          rw [← hc.2]; trivial
        · cases hc
    | raised e => cases hc
    | item x c' =>
      simp only [Option.some.injEq, Out.item.injEq] at hc
      rw [← hc.2]
      exact h2 x c' hn

theorem ecs_same {h h' : Heap} (hk : ∀ x, h'.kids x = h.kids x) {a : Axis} {s n : Nat} : ∀ st : Ecs, PlainEcs st →
    st.next a s n h' = st.next a s n h ∧ ∀ y s', st.next a s n h = some (.item y s') → PlainEcs s'
  | .start c, hp => by
    obtain ⟨h1, h2⟩ := cand_same hk n c hp
    rw [Ecs.next, Ecs.next]
    by_cases hc : a.orSelf = .always ∧ a.rev = false
    · rw [if_pos hc, if_pos hc, h1]
      refine ⟨rfl, fun y s' hh => ?_⟩
      cases hn : Cand.next n h c with
      | none => rw [hn] at hh; cases hh
      | some o =>
        rw [hn] at hh
        cases o with
        | ended =>
          simp only [Option.some.injEq, Out.item.injEq] at hh
          rw [← hh.2]; trivial
        | raised e => cases hh
        | item x c' =>
          simp only [Option.some.injEq, Out.item.injEq] at hh
          rw [← hh.2]
          exact h2 x c' hn
    · rw [if_neg hc, if_neg hc]
      exact loop_same hk hp
  | .held first c, hp => by
    rw [Ecs.next, Ecs.next]
    split
    · refine ⟨rfl, fun y s' hh => ?_⟩
      simp only [Option.some.injEq, Out.item.injEq] at hh
      rw [← hh.2]; exact hp
    · exact loop_same hk hp
  | .on e c, hp => loop_same hk hp
  | .fin, _ => ⟨rfl, fun y s' hh => by cases hh⟩

theorem cands_plain {n : Nat} {h : Heap} {a : Axis} {i : Nat} {c : Cand} (hc : cands n h a i = some (.ok c)) :
    PlainCand c := by
  unfold cands at hc
  have L : ∀ {o : Option (List Nat)} {f : List Nat → List Nat},
      o.map (fun l => (Except.ok (Cand.list (f l)) : Except PyErr Cand)) = some (.ok c) → PlainCand c := by
    intro o f ho
    cases o with
    | none => cases ho
    | some l =>
      simp only [Option.map_some, Option.some.injEq, Except.ok.injEq] at ho
      rw [← ho]; trivial
  have S : ∀ {xs : List Nat}, some (.ok (Cand.list xs) : Except PyErr Cand) = some (.ok c) → PlainCand c := by
    intro xs hh
    simp only [Option.some.injEq, Except.ok.injEq] at hh
    rw [← hh]; trivial
  split at hc
  · split at hc
    · exact S hc
    · rename_i q _
      cases hg : h.getRoot n q with
      | none => rw [hg] at hc; cases hc
      | some x => rw [hg] at hc; exact S hc
  · exact L hc
  · exact S hc
  · simp only [Option.some.injEq, Except.ok.injEq] at hc
    rw [← hc]
    split <;> trivial
  · simp only [Option.some.injEq, Except.ok.injEq] at hc
    rw [← hc]; exact ⟨trivial, rfl⟩
  · simp only [Option.some.injEq, Except.ok.injEq] at hc
    rw [← hc]; exact ⟨trivial, rfl⟩
  all_goals first
    | exact S hc
    | (split at hc
       · exact S hc
       · split at hc
         · cases hc
         · exact S hc)

/-! ### The loop -/

/-- What a loop with body `body` visits, how it ends, and the memory it leaves. -/
inductive Loops (body : Heap → Nat → Res) : Heap → Search → List Nat → Option PyErr → Heap → Prop
  | ended {h : Heap} {c : Search} : Ev (fun n => pull n h c) .ended → Loops body h c [] none h
  | raised {h : Heap} {c : Search} {e : PyErr} : Ev (fun n => pull n h c) (.raised e) → Loops body h c [] (some e) h
  | item {h h' h'' : Heap} {c c' : Search} {y : Nat} {ys : List Nat} {e : Option PyErr} :
      Ev (fun n => pull n h c) (.item y c') → body h y = (h', .ok ()) → Loops body h' c' ys e h'' →
      Loops body h c (y :: ys) e h''

theorem Loops.stepEv {body : Heap → Nat → Res} {h h' : Heap} {c c' : Search} {ys : List Nat} {e : Option PyErr} {α : Type}
    {f : Nat → Option α} {r : α} (hg : Loops body h c' ys e h') (hf : Ev f r)
    (hs : ∀ n, f n = some r → pull (n + 1) h c = pull n h c') : Loops body h c ys e h' := by
  cases hg with
  | ended h' => exact .ended (hf.both h' (fun n h1 h2 => by rw [hs n h1]; exact h2))
  | raised h' => exact .raised (hf.both h' (fun n h1 h2 => by rw [hs n h1]; exact h2))
  | item h' hb hr => exact .item (hf.both h' (fun n h1 h2 => by rw [hs n h1]; exact h2)) hb hr

theorem loops_ev {body : Heap → Nat → Res} {h h' : Heap} {c : Search} {ys : List Nat} {e : Option PyErr}
    (hg : Loops body h c ys e h') : Ev (fun n => forFound body n h c) (ys, e, h') := by
  induction hg with
  | ended h' => exact h'.bind (fun n hn => by rw [forFound]; rw [hn])
  | raised h' => exact h'.bind (fun n hn => by rw [forFound]; rw [hn])
  | item h' hb _ ih => exact h'.both ih (fun n h1 h2 => by rw [forFound, h1]; dsimp only; rw [hb]; dsimp only; rw [h2])

/-- The candidates that pass, up to an exception. -/
def picked (f : Nat → Nat → Except PyErr Bool) : List (Nat × Nat) → List Nat × Option PyErr
  | [] => ([], none)
  | (e, x) :: xs =>
    match f e x with
    | .error err => ([], some err)
    | .ok true => (x :: (picked f xs).1, (picked f xs).2)
    | .ok false => picked f xs

theorem picked_mem {f : Nat → Nat → Except PyErr Bool} : ∀ (xs : List (Nat × Nat)) (y : Nat), y ∈ (picked f xs).1 →
    y ∈ xs.map Prod.snd
  | [], y, hy => by cases hy
  | (e, x) :: xs, y, hy => by
    rw [List.map_cons]
    rw [picked] at hy
    cases hf : f e x with
    | error err => rw [hf] at hy; cases hy
    | ok b =>
      rw [hf] at hy
      cases b with
      | true =>
        rcases List.mem_cons.mp hy with rfl | hy
        · exact List.mem_cons_self
        · exact List.mem_cons_of_mem _ (picked_mem xs y hy)
      | false => exact List.mem_cons_of_mem _ (picked_mem xs y hy)

theorem alike_refl (h : Heap) : Alike h h := ⟨rfl, fun _ => ⟨rfl, rfl, rfl, rfl⟩⟩

theorem relabel_cur {h : Heap} {ph : LPhrase} {body : Heap → Nat → Res}
    (hbody : ∀ h' y, Alike h h' → (body h' y).2 = .ok () ∧ Alike h (body h' y).1 ∧ ∀ z, z ≠ y → (body h' y).1.obj z = h'.obj z)
    (hlocal : ∀ h' e y, Alike h h' → h'.obj y = h.obj y → ph.test h' e y = ph.test h e y) {i : Nat} :
    ∀ (xs : List (Nat × Nat)) (s : Ecs) (h' : Heap), Alike h h' → (∀ y ∈ xs, h'.obj y.2 = h.obj y.2) →
    (xs.map Prod.snd).Nodup → PlainEcs s → Gen (fun n => Ecs.next ph.axis i n h) s xs none →
    Loops body h' (.loop ph (.list []) (some (i, s))) (picked (ph.test h) xs).1 (picked (ph.test h) xs).2
      ((picked (ph.test h) xs).1.foldl (fun m y => (body m y).1) h')
  | [], s, h', ha, _, _, hp, hg => by
    have hk := fun x => (ha.2 x).2.2.2
    cases hg with
    | ended hn =>
      have h1 : Loops body h' (.loop ph (.list []) none) [] none h' := by
        refine .ended ⟨2, fun n hn => ?_⟩
        obtain ⟨m, rfl⟩ : ∃ m, n = m + 1 + 1 := ⟨n - 2, by omega⟩
        rfl
      refine h1.stepEv hn (fun n e => ?_)
      rw [← (ecs_same hk (n := n) s hp).1] at e
      rw [pull, e]
  | (e, x) :: xs, s, h', ha, hsame, hnd, hp, hg => by
    have hk := fun x => (ha.2 x).2.2.2
    rw [List.map_cons, List.nodup_cons] at hnd
    cases hg with
    | @item _ s' _ _ _ hn hr =>
      have hp' : PlainEcs s' := by
        obtain ⟨N, hN⟩ := hn
        exact (ecs_same hk (n := N) s hp).2 _ _ (hN N (Nat.le_refl _))
      have ht := hlocal h' e x ha (hsame _ List.mem_cons_self)
      rw [picked]
      cases hb : ph.test h e x with
      | error err =>
        rw [hb] at ht
        refine .raised (hn.bind (fun n e1 => ?_))
        rw [← (ecs_same hk (n := n) s hp).1] at e1
        rw [pull, e1]; dsimp only; rw [ht]
      | ok b =>
        rw [hb] at ht
        cases b with
        | true =>
          obtain ⟨b1, b2, b3⟩ := hbody h' x ha
          have ih := relabel_cur hbody hlocal xs s' (body h' x).1 b2 (by
            intro y hy
            rw [b3 y.2 (by
              rintro e1
              exact hnd.1 (List.mem_map.mpr ⟨y, hy, e1⟩))]
            exact hsame y (List.mem_cons_of_mem _ hy)) hnd.2 hp' hr
          refine .item (h' := (body h' x).1) (hn.bind (fun n e1 => ?_)) (by rw [← b1]) ih
          rw [← (ecs_same hk (n := n) s hp).1] at e1
          rw [pull, e1]; dsimp only; rw [ht]
        | false =>
          have ih := relabel_cur hbody hlocal xs s' h' ha (fun y hy => hsame y (List.mem_cons_of_mem _ hy)) hnd.2 hp' hr
          refine ih.stepEv hn (fun n e1 => ?_)
          rw [← (ecs_same hk (n := n) s hp).1] at e1
          rw [pull, e1]; dsimp only; rw [ht]

theorem one_nodup (p : Path) : [p].Nodup := List.nodup_cons.mpr ⟨(by intro h; cases h), List.nodup_nil⟩

theorem numbered_nodup {a : Axis} {p : Path} {ns : List Path} (hn : ns.Nodup) (hp : p ∉ ns) :
    ((numbered (addSelf a p ns)).map Prod.snd).Nodup := by
  have e : (numbered (addSelf a p ns)).map Prod.snd = addSelf a p ns := by
    unfold numbered
    rw [List.map_snd_zip (by rw [List.length_range]; exact Nat.le_refl _)]
  rw [e]
  unfold addSelf
  split
  · exact hn
  · split
    · exact one_nodup p
    · exact hn
  · split
    · rw [List.nodup_append]
      exact ⟨hn, one_nodup p, by
        intro a ha b hb e
        rw [List.mem_singleton] at hb
        exact hp (by rw [← hb, ← e]; exact ha)⟩
    · exact List.nodup_cons.mpr ⟨hp, hn⟩

/-- A loop over what one phrase finds may set the descriptor and the value function of each Ito as it is found: it visits
the Itos that `[*query.find_all(x)]` would have collected before the loop, in the same order, and then raises what that
raises; and it leaves the memory as the loop over that list would.  `ph` is a phrase with one of the axes whose candidates
are found Ito by Ito, and a test that looks at no other Ito's descriptor or value function. -/
theorem C115_relabel_partial {h : Heap} {r x : Nat} {t : Node} {p : Path} (hok : OK h) (hr : r < h.next)
    (hroot : h.parent r = none) (hl : Looks h r t) (hx : objAt h r p = some x) (ph : LPhrase)
    (hk : ph.axis.key ≠ .self ∧ ph.axis.key ≠ .dedup ∧ ph.axis.key ≠ .preceding ∧ ph.axis.key ≠ .following)
    (hlocal : ∀ h' e y, Alike h h' → h'.obj y = h.obj y → ph.test h' e y = ph.test h e y)
    (body : Heap → Nat → Res)
    (hbody : ∀ h' y, Alike h h' → (body h' y).2 = .ok () ∧ Alike h (body h' y).1 ∧
      ∀ z, z ≠ y → (body h' y).1.obj z = h'.obj z) :
    ∃ (xs : List Nat) (e : Option PyErr) (N : Nat), ∀ n, N ≤ n →
      listFound n h (begin [ph] x) = some (xs, e) ∧
      forFound body n h (begin [ph] x) = some (xs, e, xs.foldl (fun m y => (body m y).1) h) := by
  have H : Holds h r t := ⟨hok, hr, hroot, hl⟩
  have hp := objAt_isNode hl hx
  have ex : ob h r p = x := by rw [ob, hx]; rfl
  have hw := (looks_wf hok t r hr hl).1
  obtain ⟨ns, hst, hmem, hord⟩ := axisStep_spec hw hp ph.axis hk
  have hc := cands_ev H ph.axis hp hk
  rw [hst, ex] at hc
  obtain ⟨hns, c, h1, h2⟩ := hc
  have hnd : ns.Nodup := by
    refine List.Pairwise.imp ?_ hord
    intro a b hab e
    subst e
    split at hab <;> exact docLt_irrefl _ hab
  have hnp : p ∉ ns := fun hm => reaches_ne hk.1 hk.2.1 ((hmem p).mp hm) rfl
  have hecs := ecs_gen (a := ph.axis) (s := x) h2
  rw [← ex, ecsList_ob H ph.axis hp hns, ex] at hecs
  have hplain : PlainCand c := by
    obtain ⟨N, hN⟩ := h1
    exact cands_plain (hN N (Nat.le_refl _))
  have hnodup : (((ph.axis.toEcs ns (some p)).map (fun y => (y.1, ob h r y.2))).map Prod.snd).Nodup := by
    have e : ((ph.axis.toEcs ns (some p)).map (fun y => (y.1, ob h r y.2))).map Prod.snd =
        ((ph.axis.toEcs ns (some p)).map Prod.snd).map (ob h r) := by
      rw [List.map_map, List.map_map]; rfl
    rw [e]
    refine ob_map_inj H ?_ ?_
    · intro q hq
      obtain ⟨y, hy, rfl⟩ := List.mem_map.mp hq
      exact toEcs_nodes H ph.axis hp hns y hy
    · rw [toEcs_eq ph.axis p ns hnp]
      exact numbered_nodup hnd hnp
  generalize (ph.axis.toEcs ns (some p)).map (fun y => (y.1, ob h r y.2)) = cs at hecs hnodup
  have key : ∀ b : Heap → Nat → Res, (∀ h' y, Alike h h' → (b h' y).2 = .ok () ∧ Alike h (b h' y).1 ∧
      ∀ z, z ≠ y → (b h' y).1.obj z = h'.obj z) → Ev (fun n => forFound b n h (begin [ph] x))
      ((picked (ph.test h) cs).1, (picked (ph.test h) cs).2, (picked (ph.test h) cs).1.foldl (fun m y => (b m y).1) h) := by
    intro b hb
    have hloop := relabel_cur hb hlocal (i := x) cs (.start c) h (alike_refl h) (fun _ _ => rfl) hnodup hplain hecs
    have hb0 : begin [ph] x = .loop ph (.list [x]) none := by
      unfold begin
      rw [List.foldl_cons, List.foldl_nil]
      unfold enter
      cases hkey : ph.axis.key <;> first | rfl | (exfalso; rw [hkey] at hk; simp at hk)
    rw [hb0]
    refine loops_ev (hloop.stepEv (f := fun n => match n with | 0 => none | m + 1 => cands (m + 1) h ph.axis x)
      (r := .ok c) ?_ ?_)
    · obtain ⟨N, hN⟩ := h1
      refine ⟨N + 1, fun n hn => ?_⟩
      obtain ⟨m, rfl⟩ : ∃ m, n = m + 1 := ⟨n - 1, by omega⟩
      exact hN (m + 1) (by omega)
    · intro n hn
      cases n with
      | zero => cases hn
      | succ m =>
        dsimp only at hn
        rw [pull]
        have : pull (m + 1) h (.list [x]) = some (.item x (.list [])) := rfl
        rw [this]
        dsimp only
        rw [hn]
  obtain ⟨N, hN⟩ := key body hbody
  obtain ⟨M, hM⟩ := key (fun h _ => (h, .ok ())) (fun h' y ha => ⟨rfl, ha, fun _ _ => rfl⟩)
  refine ⟨_, _, N + M, fun n hn => ⟨?_, hN n (by omega)⟩⟩
  have := hM n (by omega)
  dsimp only at this
  rw [listFound, this]; rfl

/-! ### Where the loop and the list differ -/

/-- A chain 0 – 1 – 2 – 3; 1 has the descriptor `a`. -/
def exDeepOps : List Op := [.new "abcdef" none none none, .new "abcdef" (some 0) (some 4) (some "a"),
  .new "abcdef" (some 0) (some 3) none, .new "abcdef" (some 0) (some 2) none, .add 0 [1], .add 1 [2], .add 2 [3]]

/-- `axis[d:a]` -/
def descPhrase (a : Axis) (d : String) : LPhrase := ⟨a, fun h _ y => .ok (decide ((h.obj y).desc = some d))⟩

/-- `axis` without filters -/
def anyPhrase (a : Axis) : LPhrase := ⟨a, fun _ _ _ => .ok true⟩

/-- `**[d:a]/*` on this chain: collected before the loop it is `[2]`; the loop `for x in …: x.desc = 'a'` visits 3 as
well, since 2 passes the filter of the first phrase when that looks at it.  (Two phrases.) -/
theorem C115_relabel_violated :
    listFound 20 (empty.runAll exDeepOps) (begin [descPhrase ⟨.descendants, false, .no⟩ "a", anyPhrase ⟨.children, false, .no⟩] 0)
      = some ([2], none) ∧
    (forFound (setDesc (some "a")) 20 (empty.runAll exDeepOps)
      (begin [descPhrase ⟨.descendants, false, .no⟩ "a", anyPhrase ⟨.children, false, .no⟩] 0)).map (fun r => (r.1, r.2.1))
      = some ([2, 3], none) := by
  constructor <;> rfl

/-- `*` on a node with the children 1 and 4: collected before the loop it is `[1, 4]`; the loop `for x in …: parent.children.remove(x)`
visits 1 only.  (Children that go.) -/
theorem C115_remove_violated :
    listFound 20 (empty.runAll exLazyOps) (begin [anyPhrase ⟨.children, false, .no⟩] 0) = some ([1, 4], none) ∧
    (forFound (fun h x => h.remove 0 x) 20 (empty.runAll exLazyOps) (begin [anyPhrase ⟨.children, false, .no⟩] 0)).map
      (fun r => (r.1, r.2.1)) = some ([1], none) := by
  constructor <;> rfl

/-! ### Examples -/

/-- The tree of `exDeepOps`. -/
def exDeepTree : Node := .mk ⟨0, 6⟩ none none [.mk ⟨0, 4⟩ (some "a") none [.mk ⟨0, 3⟩ none none [.mk ⟨0, 2⟩ none none []]]]

theorem exDeep_ok : OK (empty.runAll exDeepOps) := C24_children_invariant exDeepOps (by
  unfold exDeepOps; simp only [Legal]; decide)

theorem exDeep_looks : Looks (empty.runAll exDeepOps) 0 exDeepTree := by
  unfold exDeepTree
  have k0 : (empty.runAll exDeepOps).kids 0 = [1] := by decide +kernel
  have k1 : (empty.runAll exDeepOps).kids 1 = [2] := by decide +kernel
  have k2 : (empty.runAll exDeepOps).kids 2 = [3] := by decide +kernel
  have k3 : (empty.runAll exDeepOps).kids 3 = [] := by decide +kernel
  simp only [Looks, k0, k1, k2, k3, LooksAll, and_true]
  decide +kernel

/-- The hypotheses of `C115_relabel_partial` for `for x in root.find_all('**[d:a]'): x.desc = 'b'`. -/
example : ∃ (xs : List Nat) (e : Option PyErr) (N : Nat), ∀ n, N ≤ n →
    listFound n (empty.runAll exDeepOps) (begin [descPhrase ⟨.descendants, false, .no⟩ "a"] 0) = some (xs, e) ∧
    forFound (setDesc (some "b")) n (empty.runAll exDeepOps) (begin [descPhrase ⟨.descendants, false, .no⟩ "a"] 0) =
      some (xs, e, xs.foldl (fun m y => (setDesc (some "b") m y).1) (empty.runAll exDeepOps)) := by
  refine C115_relabel_partial (p := []) exDeep_ok (by decide +kernel) (by decide +kernel) exDeep_looks rfl _
    (by decide) ?_ _ ?_
  · intro h' e y _ he
    dsimp only [descPhrase]
    rw [he]
  · intro h' y ha
    refine ⟨rfl, ⟨ha.1, fun z => ?_⟩, fun z hz => ?_⟩
    · obtain ⟨a1, a2, a3, a4⟩ := ha.2 z
      refine ⟨?_, ?_, ?_, ?_⟩
      · rw [← a1]; show (if z = y then _ else _ : Obj).str = _; split <;> rfl
      · rw [← a2]; show (if z = y then _ else _ : Obj).span = _; split <;> rfl
      · rw [← a3]; show (if z = y then _ else _ : Obj).parent = _; split <;> rfl
      · rw [← a4]; show (if z = y then _ else _ : Obj).kids = _; split <;> rfl
    · show (if z = y then _ else _ : Obj) = _
      rw [if_neg hz]

/-- What it visits. -/
example : (forFound (setDesc (some "b")) 20 (empty.runAll exDeepOps) (begin [descPhrase ⟨.descendants, false, .no⟩ "a"] 0)).map
    (fun r => (r.1, r.2.1)) = some ([1], none) := by rfl

/-- The world of a query on that tree. -/
def exDeepEnv : Env Nat := ⟨exDeepTree, "abcdef".toList, fun _ => .ok 0, none, none⟩

/-- `**[d:a]` and `*` as phrases on the tree. -/
def exDeepPhrases : List (LPhrase × Phrase Nat) :=
  [(descPhrase ⟨.descendants, false, .no⟩ "a",
      ⟨⟨.descendants, false, .no⟩, fun x => .ok (decide ((x.1.tree.get? x.2.2).bind Node.desc = some "a")), tautology⟩),
   (anyPhrase ⟨.children, false, .no⟩, ⟨⟨.children, false, .no⟩, tautology, tautology⟩)]

/-- The hypotheses of `C115_quiet` for `**[d:a]/*` on it, and what is found. -/
example : (∃ (xs : List Nat) (N : Nat), (∀ n, N ≤ n → listFound n (empty.runAll exDeepOps)
      (begin (exDeepPhrases.map Prod.fst) 0) = some (xs, (runPhrases exDeepEnv (exDeepPhrases.map Prod.snd) ⟨[[]], none⟩).exc)) ∧
    xs.map some = (runPhrases exDeepEnv (exDeepPhrases.map Prod.snd) ⟨[[]], none⟩).out.map (objAt (empty.runAll exDeepOps) 0)) ∧
    (runPhrases exDeepEnv (exDeepPhrases.map Prod.snd) ⟨[[]], none⟩).out = [[0, 0]] := by
  refine ⟨C115_quiet (p := []) exDeep_ok (by decide +kernel) (by decide +kernel) exDeep_looks exDeepEnv rfl
    exDeepPhrases ?_ ?_ rfl, rfl⟩
  · intro q hq
    simp only [exDeepPhrases, List.mem_cons, List.not_mem_nil, or_false] at hq
    rcases hq with rfl | rfl <;> rfl
  · intro q hq e p' y hy
    simp only [exDeepPhrases, List.mem_cons, List.not_mem_nil, or_false] at hq
    rcases hq with rfl | rfl
    · obtain ⟨n, hn⟩ := isNode_iff.mp (objAt_isNode exDeep_looks hy)
      obtain ⟨y', hy', hl⟩ := looks_objAt p' 0 exDeepTree n exDeep_looks hn
      rw [hy, Option.some.injEq] at hy'
      subst hy'
      obtain ⟨s, d, v, ks⟩ := n
      rw [Looks] at hl
      have e1 : ((empty.runAll exDeepOps).obj y).desc = d := hl.2.1
      simp only [descPhrase, Phrase.combined, exDeepEnv, hn, e1, Option.bind_some, Node.desc, tautology]
      cases decide (d = some "a") <;> rfl
    · rfl

end Props
end Pawpaw
