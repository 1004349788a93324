import Verif.Props.Match
/-!
# C18: the forest `from_match` returns, exactly
-/
set_option linter.unusedSectionVars false
namespace Pawpaw.Props
open Pawpaw TreeSpec Match

/-- A tree in which no node is inside an earlier sibling (so that the nesting can be read off the spans), and
without value functions. -/
inductive Canon : Node → Prop
  | mk {s : Span} {d : Option String} {ks : List Node} (h0 : 0 ≤ s.start) (h1 : s.start ≤ s.stop)
      (hk : KidsOK s (ks.map Node.span)) (hn : (ks.map Node.span).Pairwise (fun a b => a.stop < b.stop))
      (h : ∀ k ∈ ks, Canon k) : Canon (.mk s d none ks)

/-- The stack part `S` is the rightmost path of `n`, whose other parts are complete. -/
structure MClosed (S : List Frame) (n : Node) : Prop where
  pop : ∀ (s : Span) (base : List Frame) (roots : List Node), s.start < n.span.start ∨ s.stop > n.span.stop →
    popWhile s none (S ++ base) roots = popWhile s (some n) base roots
  close : ∀ (base : List Frame) (roots : List Node), closeAll none (S ++ base) roots = closeAll (some n) base roots

theorem step_push {len : Nat} {e : Entry} {st rest : List Frame} {roots roots' : List Node} {sp : Span}
    {d : Option String} {l : List Node} (h0 : 0 ≤ e.1.start) (h1 : e.1.start ≤ e.1.stop) (h2 : e.1.stop ≤ len)
    (hp : popWhile e.1 none st roots = (⟨sp, d, l, []⟩ :: rest, roots'))
    (hk : KidsOK sp (l.map Node.span ++ [e.1])) :
    step len e st roots = .ok (⟨e.1, e.2, [], []⟩ :: ⟨sp, d, l, []⟩ :: rest, roots') := by
  unfold step
  dsimp only
  rw [fromIndices_span h0 h1 h2, show (⟨e.1.start, e.1.stop⟩ : Span) = e.1 from rfl, hp]
  dsimp only
  have ho := hk.ordered
  rw [List.pairwise_append] at ho
  have hlt : ∀ a ∈ l.map Node.span, a.start < e.1.start := fun a ha => (ho.2.2 a ha e.1 (by simp)).1
  have hko : KidsOK sp (l.map Node.span) := ⟨fun c hc => hk.inside c (by simp only [List.mem_append]; exact Or.inl hc), ho.1⟩
  have hi := hk.inside e.1 (by simp)
  rw [List.append_nil, bfindStart_end hko hlt, if_neg (by omega),
    show (-(-((l.map Node.span).length : Int) - 1) - 1).toNat = (l.map Node.span).length by omega]
  have hb : Kids.notBetween (l.map Node.span) e.1 (l.map Node.span).length (l.map Node.span).length = false := by
    have := (Kids.kidsOK_insert_iff (p := sp) (l := l.map Node.span) (r := []) (s := e.1) (by simpa using hko) h1 hlt
      (by simp)).mp hk
    cases hx : Kids.notBetween (l.map Node.span) e.1 (l.map Node.span).length (l.map Node.span).length with
    | false => rfl
    | true =>
      exfalso
      unfold Kids.notBetween at hx
      rw [Bool.or_eq_true] at hx
      rcases hx with hx | hx
      · have h3 := (Kids.isStartLtPriorStop_append (l := l.map Node.span) (r := []) (s := e.1)).mp
          (by rw [List.append_nil]; exact hx)
        exact this.1 h3
      · unfold Kids.isStopGtNextStart at hx
        simp at hx
  rw [hb]
  simp only [Bool.false_eq_true, if_false]
  have hout : Kids.outside sp e.1 = false := by
    unfold Kids.outside
    rw [Bool.or_eq_false_iff, decide_eq_false_iff_not, decide_eq_false_iff_not]
    omega
  rw [hout]
  simp

theorem step_root {len : Nat} {e : Entry} {st : List Frame} {roots roots' : List Node}
    (h0 : 0 ≤ e.1.start) (h1 : e.1.start ≤ e.1.stop) (h2 : e.1.stop ≤ len)
    (hp : popWhile e.1 none st roots = ([], roots')) :
    step len e st roots = .ok ([⟨e.1, e.2, [], []⟩], roots') := by
  unfold step
  dsimp only
  rw [fromIndices_span h0 h1 h2, show (⟨e.1.start, e.1.stop⟩ : Span) = e.1 from rfl, hp]

theorem step_congr {len : Nat} {e : Entry} {st st' : List Frame} {roots roots' : List Node}
    (h0 : 0 ≤ e.1.start) (h1 : e.1.start ≤ e.1.stop) (h2 : e.1.stop ≤ len)
    (hp : popWhile e.1 none st roots = popWhile e.1 none st' roots') : step len e st roots = step len e st' roots' := by
  unfold step
  dsimp only
  rw [fromIndices_span h0 h1 h2, show (⟨e.1.start, e.1.stop⟩ : Span) = e.1 from rfl, hp]

theorem loop_congr {len : Nat} {e : Entry} {es : List Entry} {st st' : List Frame} {roots roots' : List Node}
    (h0 : 0 ≤ e.1.start) (h1 : e.1.start ≤ e.1.stop) (h2 : e.1.stop ≤ len)
    (hp : popWhile e.1 none st roots = popWhile e.1 none st' roots') :
    loop len (e :: es) st roots = loop len (e :: es) st' roots' := by
  rw [loop, loop, step_congr h0 h1 h2 hp]

theorem closes_frame (sp : Span) (d : Option String) (l : List Node) :
    MClosed [⟨sp, d, l, []⟩] (.mk sp d none l) := by
  refine ⟨fun s base roots h => ?_, fun base roots => ?_⟩
  · show popWhile s none (⟨sp, d, l, []⟩ :: base) roots = _
    rw [popWhile]
    dsimp only [Frame.absorb]
    rw [if_pos (show s.start < sp.start ∨ s.stop > sp.stop from h)]
    simp [Frame.close]
  · show closeAll none (⟨sp, d, l, []⟩ :: base) roots = _
    rw [closeAll]
    simp [Frame.close, Frame.absorb]

theorem closes_last {S : List Frame} {k : Node} (h : MClosed S k) (sp : Span) (d : Option String) (l : List Node)
    (h1 : sp.start ≤ k.span.start) (h2 : k.span.stop ≤ sp.stop) :
    MClosed (S ++ [⟨sp, d, l, []⟩]) (.mk sp d none (l ++ [k])) := by
  refine ⟨fun s base roots hs => ?_, fun base roots => ?_⟩
  · have hs' : s.start < sp.start ∨ s.stop > sp.stop := hs
    rw [List.append_assoc, h.pop _ _ _ (by omega)]
    show popWhile s (some k) (⟨sp, d, l, []⟩ :: base) roots = _
    rw [popWhile]
    dsimp only [Frame.absorb]
    rw [if_pos hs']
    simp [Frame.close]
  · rw [List.append_assoc, h.close]
    show closeAll (some k) (⟨sp, d, l, []⟩ :: base) roots = _
    rw [closeAll]
    simp [Frame.close, Frame.absorb]

theorem Canon.bounds {n : Node} (h : Canon n) : 0 ≤ n.span.start ∧ n.span.start ≤ n.span.stop := by
  cases h with
  | mk h0 h1 => exact ⟨h0, h1⟩

mutual
theorem node_builds (len : Nat) : ∀ (n : Node), Canon n → n.span.stop ≤ len →
    ∃ S, MClosed S n ∧ ∀ es base roots,
      loop len (preorderAll n.kids ++ es) (⟨n.span, n.desc, [], []⟩ :: base) roots = loop len es (S ++ base) roots
  | .mk s d v ks, h, hl => by
    cases h with
    | mk h0 h1 hk hn h =>
      exact kids_builds len ks s d [] h0 hl (by simpa using hk) (by simpa using hn) h
theorem kids_builds (len : Nat) : ∀ (ks : List Node) (sp : Span) (d : Option String) (left : List Node),
    0 ≤ sp.start → sp.stop ≤ len → KidsOK sp ((left ++ ks).map Node.span) →
    ((left ++ ks).map Node.span).Pairwise (fun a b => a.stop < b.stop) → (∀ k ∈ ks, Canon k) →
    ∃ S, MClosed S (.mk sp d none (left ++ ks)) ∧ ∀ es base roots,
      loop len (preorderAll ks ++ es) (⟨sp, d, left, []⟩ :: base) roots = loop len es (S ++ base) roots
  | [], sp, d, left, _, _, _, _, _ =>
    ⟨[⟨sp, d, left, []⟩], by rw [List.append_nil]; exact closes_frame _ _ _, fun es base roots => rfl⟩
  | k :: ks, sp, d, left, h0, hl, hk, hn, hc => by
    have hki := hk.inside k.span (by simp)
    have hkb := (hc k (by simp)).bounds
    obtain ⟨Sk, hSk, hrun⟩ := node_builds len k (hc k (by simp)) (by omega)
    have hkk : KidsOK sp (left.map Node.span ++ [k.span]) := by
      refine ⟨fun c hc => hk.inside c ?_, hk.ordered.sublist ?_⟩
      · simp only [List.map_append, List.map_cons, List.mem_append, List.mem_cons, List.not_mem_nil, or_false] at hc ⊢
        rcases hc with hc | hc
        · exact Or.inl hc
        · exact Or.inr (Or.inl hc)
      · simp
    have hstep : ∀ base roots, step len (k.span, k.desc) (⟨sp, d, left, []⟩ :: base) roots =
        .ok (⟨k.span, k.desc, [], []⟩ :: ⟨sp, d, left, []⟩ :: base, roots) := by
      intro base roots
      refine step_push (rest := base) (roots' := roots) (by dsimp only; omega) hkb.2 (by dsimp only; omega) ?_ hkk
      rw [popWhile]
      dsimp only [Frame.absorb]
      rw [if_neg (by omega)]
    have hhead : ∀ es base roots, loop len (preorderAll (k :: ks) ++ es) (⟨sp, d, left, []⟩ :: base) roots =
        loop len (preorderAll ks ++ es) (Sk ++ ⟨sp, d, left, []⟩ :: base) roots := by
      intro es base roots
      have hpk : preorder k = (k.span, k.desc) :: preorderAll k.kids := by cases k; rfl
      rw [preorderAll, hpk, List.append_assoc, List.cons_append, loop, hstep]
      dsimp only
      rw [hrun]
    cases ks with
    | nil =>
      refine ⟨Sk ++ [⟨sp, d, left, []⟩], closes_last hSk sp d left (by omega) (by omega), ?_⟩
      intro es base roots
      rw [hhead]
      simp [preorderAll]
    | cons k2 ks =>
      obtain ⟨S, hS, hS'⟩ := kids_builds len (k2 :: ks) sp d (left ++ [k]) h0 hl (by simpa using hk) (by simpa using hn)
        (fun c h => hc c (by simp only [List.mem_cons] at h ⊢; exact Or.inr h))
      refine ⟨S, by simpa using hS, ?_⟩
      intro es base roots
      rw [hhead, ← hS']
      have hpk : preorder k2 = (k2.span, k2.desc) :: preorderAll k2.kids := by cases k2; rfl
      rw [preorderAll, hpk, List.append_assoc, List.cons_append]
      have hk2 := hk.inside k2.span (by simp)
      have hk2b := (hc k2 (by simp)).bounds
      have hlt : k.span.stop < k2.span.stop := by
        rw [List.map_append, List.pairwise_append] at hn
        exact (List.pairwise_cons.1 hn.2.1).1 k2.span (by simp)
      apply loop_congr (by dsimp only; omega) hk2b.2 (by dsimp only; omega)
      dsimp only
      rw [hSk.pop _ _ _ (by omega), popWhile, popWhile]
      dsimp only [Frame.absorb]
end

theorem forest_builds (len : Nat) : ∀ (F : List Node) (S : List Frame) (c : Option Node) (roots : List Node),
    ((c.toList ++ F).map Node.span).Pairwise (fun a b => a.start < b.start ∧ a.stop < b.stop) →
    (∀ k ∈ F, Canon k ∧ k.span.stop ≤ len) →
    (∀ s : Span, (∀ n ∈ c, s.stop > n.span.stop) → popWhile s none S roots = popWhile s c [] roots) →
    closeAll none S roots = closeAll c [] roots →
    loop len (preorderAll F) S roots = .ok (roots ++ c.toList ++ F)
  | [], S, c, roots, _, _, _, hcl => by
    rw [preorderAll, loop, hcl, closeAll, List.append_nil]
  | k :: F, S, c, roots, hp, hF, hpop, hcl => by
    obtain ⟨hk, hl⟩ := hF k (by simp)
    have hkb := hk.bounds
    obtain ⟨Sk, hSk, hrun⟩ := node_builds len k hk hl
    have hpk : preorder k = (k.span, k.desc) :: preorderAll k.kids := by cases k; rfl
    have h1 : popWhile k.span none S roots = ([], roots ++ c.toList) := by
      rw [hpop k.span, popWhile]
      intro n hn
      have hn' : n ∈ c.toList := by simpa using hn
      rw [List.map_append, List.pairwise_append] at hp
      exact (hp.2.2 n.span (List.mem_map_of_mem hn') k.span (by simp)).2
    have hs := step_root (len := len) (e := (k.span, k.desc)) hkb.1 hkb.2 hl h1
    rw [preorderAll, hpk, List.cons_append, loop, hs]
    dsimp only
    rw [hrun, List.append_nil]
    have := forest_builds len F Sk (some k) (roots ++ c.toList)
      (hp.sublist (List.Sublist.map _ (by
        show List.Sublist (k :: F) (c.toList ++ k :: F)
        exact List.sublist_append_right _ _)))
      (fun x hx => hF x (by simp only [List.mem_cons]; exact Or.inr hx))
      (fun s h => by
        have := hSk.pop s [] (roots ++ c.toList) (Or.inr (h k rfl))
        rwa [List.append_nil] at this)
      (by have := hSk.close [] (roots ++ c.toList); rwa [List.append_nil] at this)
    rw [this]
    simp

theorem insertEntry_le {x : Entry} : ∀ {l : List Entry}, (∀ y ∈ l, Before x.1 y.1) → insertEntry x l = x :: l
  | [], _ => rfl
  | y :: ys, h => by
    rw [insertEntry, if_pos ((keyLe_iff x y).2 (h y (by simp)))]

theorem sortEntries_id : ∀ {l : List Entry}, l.Pairwise (fun a b => Before a.1 b.1) → sortEntries l = l
  | [], _ => rfl
  | x :: xs, h => by
    obtain ⟨h1, h2⟩ := List.pairwise_cons.1 h
    rw [sortEntries, sortEntries_id h2, insertEntry_le h1]

/-- Two sorted listings of the same captures, with the same order among equal spans, are equal. -/
theorem sorted_unique : ∀ {a b : List Entry}, a.Perm b → a.Pairwise (fun x y => Before x.1 y.1) →
    b.Pairwise (fun x y => Before x.1 y.1) →
    (∀ s : Span, a.filter (fun e => e.1 == s) = b.filter (fun e => e.1 == s)) → a = b
  | [], b, hp, _, _, _ => by rw [List.nil_perm.1 hp]
  | x :: a, [], hp, _, _, _ => by simp at hp
  | x :: a, y :: b, hp, ha, hb, hf => by
    obtain ⟨a1, a2⟩ := List.pairwise_cons.1 ha
    obtain ⟨b1, b2⟩ := List.pairwise_cons.1 hb
    have hxy : Before x.1 y.1 := by
      have := hp.mem_iff.2 (show y ∈ y :: b by simp)
      rcases List.mem_cons.1 this with h | h
      · subst h; unfold Before; omega
      · exact a1 y h
    have hyx : Before y.1 x.1 := by
      have := hp.mem_iff.1 (show x ∈ x :: a by simp)
      rcases List.mem_cons.1 this with h | h
      · subst h; unfold Before; omega
      · exact b1 x h
    have hspan : x.1 = y.1 := by
      unfold Before at hxy hyx
      have e1 : x.1.start = y.1.start := by omega
      have e2 : x.1.stop = y.1.stop := by omega
      generalize x.1 = s at *
      generalize y.1 = t at *
      cases s; cases t; simp_all
    have h0 := hf x.1
    rw [List.filter_cons_of_pos (by simp), List.filter_cons_of_pos (by simp [hspan])] at h0
    obtain ⟨hx, _⟩ := List.cons.inj h0
    subst hx
    congr 1
    refine sorted_unique ((List.perm_cons x).1 hp) a2 b2 ?_
    intro s
    have := hf s
    rw [List.filter_cons, List.filter_cons] at this
    split at this
    · exact (List.cons.inj this).2
    · exact this

/-- **C18.** `from_match` returns the forest whose listing is that of the captures: if `F` is a well-formed forest
whose pre-order listing is the captures in order of start, then decreasing stop, then group, and no node of `F`
lies within an earlier sibling, then `F` is what `from_match` returns. -/
theorem C18_from_match_exact (len : Nat) (groups : List (Option String × List Span)) (F : List Node)
    (hF : ∀ n ∈ F, Canon n ∧ n.stop ≤ len)
    (hs : (F.map Node.span).Pairwise (fun a b => a.start < b.start ∧ a.stop < b.stop))
    (hp : (preorderAll F).Perm (groups.flatMap fun g => g.2.map fun s => (s, g.1)))
    (ho : (preorderAll F).Pairwise (fun a b => a.1.start < b.1.start ∨ (a.1.start = b.1.start ∧ b.1.stop ≤ a.1.stop)))
    (hf : ∀ s : Span, (preorderAll F).filter (fun e => e.1 == s) =
      (groups.flatMap fun g => g.2.map fun s => (s, g.1)).filter (fun e => e.1 == s)) :
    fromMatch len groups = .ok F := by
  unfold fromMatch
  have e : sortEntries (entries groups) = preorderAll F := by
    refine sorted_unique ((sortEntries_perm _).trans hp.symm) (sortEntries_sorted _) ho ?_
    intro s
    rw [sortEntries_stable, hf]
    rfl
  rw [e]
  have := forest_builds len F [] none [] (by simpa using hs) hF (fun s _ => rfl) rfl
  simpa using this

/-- The case in which the groups list the captures in that order already. -/
theorem fromMatch_listed (len : Nat) (groups : List (Option String × List Span)) (F : List Node)
    (hF : ∀ n ∈ F, Canon n ∧ n.stop ≤ len)
    (hs : (F.map Node.span).Pairwise (fun a b => a.start < b.start ∧ a.stop < b.stop))
    (he : (groups.flatMap fun g => g.2.map fun s => (s, g.1)) = preorderAll F)
    (ho : (preorderAll F).Pairwise (fun a b => Before a.1 b.1)) : fromMatch len groups = .ok F :=
  C18_from_match_exact len groups F hF hs (by rw [he]) ho (by intro s; rw [he])

example : Canon (.mk ⟨0, 4⟩ (some "w") none [.leaf ⟨0, 2⟩ (some "a"), .leaf ⟨2, 4⟩ (some "b")]) :=
  .mk (by decide) (by decide) ⟨by decide, by decide⟩ (by decide) (fun k hk => by
    simp only [List.mem_cons, List.not_mem_nil, or_false] at hk
    rcases hk with rfl | rfl
    · exact .mk (by decide) (by decide) ⟨by decide, by decide⟩ (by decide) (by simp)
    · exact .mk (by decide) (by decide) ⟨by decide, by decide⟩ (by decide) (by simp))

end Pawpaw.Props
