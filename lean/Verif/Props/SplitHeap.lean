import Verif.Model.SplitHeap
import Verif.Spec.Split
import Verif.Props.MatchHeap
import Verif.Props.Pipeline
import Verif.Props.Arbor
/-!
# C50, C51: `Extract` and `Split` on objects
-/
set_option linter.unusedSectionVars false
set_option linter.unusedSimpArgs false
namespace Pawpaw.Props
open TreeSpec HeapSpec PipeSpec Heap Pipeline Arbor ArborSpec SpanSpec SplitSpec

theorem _root_.HeapSpec.MakesFirst.makes {s F t us} (a : MakesFirst s F t us) : Makes s F t us := by
  intro h x h1 h2 h3 h4 h5
  obtain ⟨h', ids, e, m⟩ := a h x h1 h2 h3 h4 h5
  exact ⟨h', ids, by rw [e, collect_ofList], m⟩

theorem looks_span {h : Heap} {x : Nat} {t : Node} (hl : Looks h x t) : h.span x = t.span := by
  cases t; rw [Looks] at hl; exact hl.1

theorem extract_makes {s : String} {re : Matcher} {limit : Option Int} {t : Node} {us : List Node}
    (hr : Match.fromRe s.length (re s t.span) limit = .ok us) : MakesFirst s (extractT re limit) t us := by
  intro h x h1 h2 h3 h4 h5
  unfold extractT
  rw [h4, looks_span h5]
  rcases C19_from_re_objects h1 h2 s (re s t.span) limit with ⟨e, hh, e1, e2⟩ | ⟨ts, hh, ids, e1, e2, m⟩
  · rw [hr] at e1; cases e1
  · rw [hr] at e1; cases e1
    rw [e2]
    exact ⟨hh, ids, rfl, m⟩

theorem Built.made {s : String} {h h' : Heap} {y : Nat} {t : Node} (b : Built s h h' [y] [t]) (hok : OK h)
    (hac : Acyclic h) : Made s h h' [y] [t] := by
  obtain ⟨c1, c2, -⟩ := Built.consistent b hok hac
  exact {
    next := b.next
    old := b.old
    ok := c1
    acyclic := c2
    fresh := fun i hi => ⟨(b.tops i hi).1, (b.tops i hi).2.1⟩
    root := fun i hi => (b.tops i hi).2.2
    str := fun i hi => b.str i (b.tops i hi).1 (b.tops i hi).2.1
    nodup := by simp
    looks := b.looks }

/-- Making something, and something more, but keeping only the latter. -/
theorem _root_.HeapSpec.Made.after {s s' : String} {h h1 h2 : Heap} {xs ys : List Nat} {ts us : List Node}
    (a : Made s h h1 xs ts) (b : Made s' h1 h2 ys us) : Made s' h h2 ys us where
  next := Nat.le_trans a.next b.next
  old i hi := by rw [b.old i (Nat.lt_of_lt_of_le hi a.next), a.old i hi]
  ok := b.ok
  acyclic := b.acyclic
  fresh i hi := by have := a.next; have := b.fresh i hi; omega
  root := b.root
  str := b.str
  nodup := b.nodup
  looks := b.looks

theorem clone_made {s : String} {h : Heap} {x n : Nat} {t : Node} (h1 : OK h) (h2 : Acyclic h) (h3 : x < h.next)
    (h4 : h.str x = s) (h5 : Looks h x t) (hn : need t ≤ n) :
    ∃ h' y, h.cloneObj n x = (h', .ok y) ∧ Made s h h' [y] [t] := by
  obtain ⟨hw, hl⟩ := looks_wf h1 t x h3 h5
  rw [h4] at hl
  obtain ⟨a, b⟩ := cloneObj_built h1 s t x h (fun _ _ => rfl) (Nat.le_refl _) h3 h4 h5 hw hl n hn
  exact ⟨_, h.next, Prod.ext rfl a, b.made h1 h2⟩

theorem call_makesFirst {s : String} {G : Nat → It} {n i : Nat} {t : Node} {us : List Node}
    (hF : MakesFirst s (traverse G n i) t us) (hn : need t ≤ n) : MakesFirst s (call G n i) t us := by
  intro h x h1 h2 h3 h4 h5
  obtain ⟨h', y, e, m⟩ := clone_made h1 h2 h3 h4 h5 hn
  have hl := m.looks
  rw [LooksAll] at hl
  obtain ⟨h'', ids, e2, m2⟩ := hF h' y m.ok m.acyclic (m.fresh y (by simp)).2 (m.str y (by simp)) hl.1
  refine ⟨h'', ids, ?_, m.after m2⟩
  unfold call
  rw [e]
  exact e2

theorem call_makes {s : String} {G : Nat → It} {n i : Nat} {t : Node} {us : List Node}
    (hF : Makes s (traverse G n i) t us) (hn : need t ≤ n) : Makes s (call G n i) t us := by
  intro h x h1 h2 h3 h4 h5
  obtain ⟨h', y, e, m⟩ := clone_made h1 h2 h3 h4 h5 hn
  have hl := m.looks
  rw [LooksAll] at hl
  obtain ⟨h'', ids, e2, m2⟩ := hF h' y m.ok m.acyclic (m.fresh y (by simp)).2 (m.str y (by simp)) hl.1
  refine ⟨h'', ids, ?_, m.after m2⟩
  unfold call
  rw [e]
  exact e2

/-- A new childless object like `x`. -/
theorem newLike_made {h : Heap} (h1 : OK h) (h2 : Acyclic h) (x : Nat) {a b : Int} (d : Option String)
    (ha : 0 ≤ a) (hab : a ≤ b) (hb : b ≤ (h.str x).length) :
    Made (h.str x) h (h.newLike x a b d) [h.next] [.mk ⟨a, b⟩ d (h.obj x).vf []] := by
  have e : Span.fromIndices (h.str x).length (some a) (some b) = ⟨a, b⟩ := fromIndices_span ha hab hb
  have nl : (h.newLike x a b d).next = h.next + 1 := rfl
  have o1 : (h.newLike x a b d).obj h.next = ⟨h.str x, ⟨a, b⟩, d, (h.obj x).vf, none, []⟩ := by
    simp [newLike, e]
  have o2 : ∀ i, i ≠ h.next → (h.newLike x a b d).obj i = h.obj i := fun i hi => by simp [newLike, hi]
  have refl1 : Built (h.str x) (h.newLike x a b d) (h.newLike x a b d) [] [] :=
    ⟨Nat.le_refl _, fun _ _ => rfl, by simp, by intro i a b; omega, by intro i a b; omega, by intro i a b; omega,
      by intro i a b; omega, by intro i a b; omega, by simp [LooksAll]⟩
  refine (built_over (sp := ⟨a, b⟩) (d := d) (v := (h.obj x).vf) nl (fun i hi => o2 i (by omega)) refl1 ⟨ha, hab, hb⟩
    (Kids.kidsOK_nil _) (fun y => ?_) rfl).made h1 h2
  by_cases e : y = h.next
  · subst e; rw [o1, if_pos rfl]
  · rw [if_neg e]; simp

/-! ## The loop of `Split` on values -/

def leafOr (leaf : Span → Node) (b : Int × Int) : List Node := if b.1 ≠ b.2 then [leaf ⟨b.1, b.2⟩] else []

/-- The nodes the loop of `Split` adds, and the last boundary. -/
def loopNodes (c : SplitCfg) (leaf : Span → Node) (x : Span) : Int → Option Span → List Node → List Node × Option Span
  | _, p, [] => ([], p)
  | n, p, cur :: rest =>
    if c.more n then
      (leafOr leaf (spanBounds c.retention x p cur.span) ++
        (if c.retention = .all ∧ cur.span.start < cur.span.stop then [cur] else []) ++
        (loopNodes c leaf x (n + 1) (some cur.span) rest).1, (loopNodes c leaf x (n + 1) (some cur.span) rest).2)
    else ([], p)

def lastNodes (r : Retention) (leaf : Span → Node) (b : Int) : Option Span → List Node
  | none => []
  | some p =>
    match r with
    | .trailing => []
    | .none | .all => leafOr leaf (p.stop, b)
    | .leading => leafOr leaf (p.start, b)

theorem leafOr_eq (leaf : Span → Node) (b : Int × Int) : leafOr leaf b = (nonEmpty [⟨b.1, b.2⟩]).map leaf := by
  unfold leafOr nonEmpty
  by_cases e : b.1 = b.2 <;> simp [e]

theorem nonEmpty_cons_append (s : Span) (l : List Span) : nonEmpty (s :: l) = nonEmpty [s] ++ nonEmpty l := by
  unfold nonEmpty
  rw [← List.filter_append]; rfl

/-- The loop with a limit is the loop without on the boundaries the limit allows. -/
theorem loopNodes_limit (c : SplitCfg) (leaf : Span → Node) (x : Span) : ∀ (seps : List Node) (n : Int) (p : Option Span),
    loopNodes c leaf x n p seps =
      loopNodes { c with limit := none } leaf x 0 p (allowed (c.limit.map (· - n)) seps)
  | [], n, p => by
    cases hl : c.limit <;> simp [allowed, loopNodes]
  | cur :: rest, n, p => by
    have hn : ∀ (n : Int) (p : Option Span) (l : List Node), loopNodes { c with limit := none } leaf x n p l =
        loopNodes { c with limit := none } leaf x 0 p l := by
      intro n p l
      have : ∀ (l : List Node) (n m : Int) (p : Option Span), loopNodes { c with limit := none } leaf x n p l =
          loopNodes { c with limit := none } leaf x m p l := by
        intro l
        induction l with
        | nil => intro n m p; simp [loopNodes]
        | cons a l ih =>
          intro n m p
          simp only [loopNodes, SplitCfg.more, if_true]
          rw [ih (n + 1) (m + 1)]
      exact this l n 0 p
    rw [loopNodes, loopNodes_limit c leaf x rest (n + 1) (some cur.span)]
    cases hl : c.limit with
    | none =>
      simp only [SplitCfg.more, hl, if_true, Option.map_none, allowed]
      conv => rhs; rw [loopNodes]
      simp only [SplitCfg.more, if_true]
      rw [hn (0 + 1)]
    | some k =>
      simp only [SplitCfg.more, hl, Option.map_some, allowed]
      by_cases hk : n < k
      · have e : (k - n).toNat = (k - (n + 1)).toNat + 1 := by omega
        rw [if_pos (by simpa using hk), e, List.take_succ_cons]
        conv => rhs; rw [loopNodes]
        simp only [SplitCfg.more, if_true]
        rw [hn (0 + 1)]
      · have e : (k - n).toNat = 0 := by omega
        rw [if_neg (by simpa using hk), e]
        simp [loopNodes]

theorem ifeq (cur : Node) (h : (cur.span.start < cur.span.stop) ↔ (cur.start ≠ cur.stop)) :
    (if cur.span.start < cur.span.stop then [cur] else []) = (if cur.start ≠ cur.stop then [cur] else []) := by
  by_cases e : cur.start = cur.stop
  · rw [if_neg (by rw [h]; simp [e]), if_neg (by simp [e])]
  · rw [if_pos (by rw [h]; exact e), if_pos e]

/-- The results of a `Split` that had at least one boundary before `used`. -/
theorem loopNodes_some (c : SplitCfg) (hc : c.limit = none) (leaf : Span → Node) (x : Span) :
    ∀ (used : List Node) (n : Int) (p : Span), OrderedIn p.stop x.stop (used.map Node.span) →
    (loopNodes c leaf x n (some p) used).1 ++ lastNodes c.retention leaf x.stop (loopNodes c leaf x n (some p) used).2 =
      match c.retention with
      | .none => (nonEmpty (between p.stop x.stop (used.map Node.span))).map leaf
      | .leading => (nonEmpty (leading x.stop (p :: used.map Node.span))).map leaf
      | .trailing => (nonEmpty (trailing p.stop (used.map Node.span))).map leaf
      | .all => mixed leaf p.stop x.stop used
  | [], n, p, _ => by
    rw [loopNodes]
    cases c.retention with
    | none => simp [lastNodes, leafOr_eq, between]
    | leading => simp [lastNodes, leafOr_eq, leading]
    | trailing => simp [lastNodes, leafOr_eq, trailing, nonEmpty]
    | all => simp [lastNodes, leafOr, mixed]
  | cur :: rest, n, p, ho => by
    rw [loopNodes, if_pos (by simp [SplitCfg.more, hc])]
    dsimp only
    rw [List.map_cons] at ho
    have ih := loopNodes_some c hc leaf x rest (n + 1) cur.span ho.2.2
    rw [List.append_assoc, ih]
    cases c.retention with
    | none =>
      simp only [spanBounds, leafOr_eq, List.map_cons, between]
      by_cases e : p.stop = cur.span.start <;> simp [nonEmpty, e]
    | leading =>
      simp only [spanBounds, leafOr_eq, List.map_cons, leading]
      by_cases e : p.start = cur.span.start <;> simp [nonEmpty, e]
    | trailing =>
      simp only [spanBounds, leafOr_eq, List.map_cons, trailing]
      by_cases e : p.stop = cur.span.stop <;> simp [nonEmpty, e]
    | all =>
      simp only [spanBounds, leafOr, mixed, true_and]
      have : (cur.span.start < cur.span.stop) ↔ (cur.start ≠ cur.stop) := by
        have := ho.2.1
        simp only [Node.start, Node.stop]; omega
      exact congrArg (fun l => _ ++ l ++ _) (ifeq cur this)

theorem loopNodes_none (c : SplitCfg) (hc : c.limit = none) (leaf : Span → Node) (x : Span) (cur : Node)
    (rest : List Node) (n : Int) (ho : OrderedIn x.start x.stop ((cur :: rest).map Node.span)) :
    (loopNodes c leaf x n none (cur :: rest)).1 ++
        lastNodes c.retention leaf x.stop (loopNodes c leaf x n none (cur :: rest)).2 =
      match c.retention with
      | .none => (nonEmpty (between x.start x.stop ((cur :: rest).map Node.span))).map leaf
      | .leading => (nonEmpty (leading x.stop ((cur :: rest).map Node.span))).map leaf
      | .trailing => (nonEmpty (trailing x.start ((cur :: rest).map Node.span))).map leaf
      | .all => mixed leaf x.start x.stop (cur :: rest) := by
  rw [loopNodes, if_pos (by simp [SplitCfg.more, hc])]
  dsimp only
  rw [List.map_cons] at ho
  have ih := loopNodes_some c hc leaf x rest (n + 1) cur.span ho.2.2
  rw [List.append_assoc, ih]
  cases c.retention with
  | none =>
    simp only [spanBounds, leafOr_eq, List.map_cons, between]
    by_cases e : x.start = cur.span.start <;> simp [nonEmpty, e]
  | leading =>
    simp only [spanBounds, leafOr_eq, List.map_cons]
    simp [nonEmpty]
  | trailing =>
    simp only [spanBounds, leafOr_eq, List.map_cons, trailing]
    by_cases e : x.start = cur.span.stop <;> simp [nonEmpty, e]
  | all =>
    simp only [spanBounds, leafOr, mixed, true_and]
    have : (cur.span.start < cur.span.stop) ↔ (cur.start ≠ cur.stop) := by
      have := ho.2.1
      simp only [Node.start, Node.stop]; omega
    exact congrArg (fun l => _ ++ l ++ _) (ifeq cur this)

/-! ## The loop of `Split` on objects -/

/-- Adding freshly made trees in the middle of the list. -/
theorem _root_.HeapSpec.Made.insert {s : String} {h h1 h2 : Heap} {xs ys ps : List Nat} {ts us qs : List Node}
    (a : Made s h h1 (xs ++ ys) (ts ++ us)) (hlen : xs.length = ts.length) (b : Made s h1 h2 ps qs) :
    Made s h h2 (xs ++ ps ++ ys) (ts ++ qs ++ us) where
  next := (a.append b).next
  old := (a.append b).old
  ok := b.ok
  acyclic := b.acyclic
  fresh i hi := (a.append b).fresh i (by
    simp only [List.mem_append] at hi ⊢
    rcases hi with (hi | hi) | hi <;> simp [hi])
  root i hi := (a.append b).root i (by
    simp only [List.mem_append] at hi ⊢
    rcases hi with (hi | hi) | hi <;> simp [hi])
  str i hi := (a.append b).str i (by
    simp only [List.mem_append] at hi ⊢
    rcases hi with (hi | hi) | hi <;> simp [hi])
  nodup := by
    have := (a.append b).nodup
    rw [List.append_assoc] at this ⊢
    exact (List.Perm.append_left xs List.perm_append_comm).nodup_iff.mp this
  looks := by
    have l := (a.append b).looks
    have l1 := looksAll_take xs.length l
    have l2 := looksAll_drop xs.length l
    have e1 : ((xs ++ ys) ++ ps).take xs.length = xs := by simp
    have e2 : ((ts ++ us) ++ qs).take xs.length = ts := by rw [hlen]; simp
    have e3 : ((xs ++ ys) ++ ps).drop xs.length = ys ++ ps := by simp
    have e4 : ((ts ++ us) ++ qs).drop xs.length = us ++ qs := by rw [hlen]; simp
    rw [e1, e2] at l1
    rw [e3, e4] at l2
    have hlen2 : ys.length = us.length := by
      have := looksAll_length a.looks
      simp only [List.length_append] at this; omega
    have l3 := looksAll_take ys.length l2
    have l4 := looksAll_drop ys.length l2
    have e5 : (ys ++ ps).take ys.length = ys := by simp
    have e6 : (us ++ qs).take ys.length = us := by rw [hlen2]; simp
    have e7 : (ys ++ ps).drop ys.length = ps := by simp
    have e8 : (us ++ qs).drop ys.length = qs := by rw [hlen2]; simp
    rw [e5, e6] at l3
    rw [e7, e8] at l4
    exact looksAll_append (looksAll_append l1 l4) l3

/-- Forgetting one of the trees. -/
theorem _root_.HeapSpec.Made.forget {s : String} {h h1 : Heap} {xs ys : List Nat} {y : Nat} {ts us : List Node}
    {u : Node} (a : Made s h h1 (xs ++ y :: ys) (ts ++ u :: us)) (hlen : xs.length = ts.length) :
    Made s h h1 (xs ++ ys) (ts ++ us) where
  next := a.next
  old := a.old
  ok := a.ok
  acyclic := a.acyclic
  fresh i hi := a.fresh i (by simp only [List.mem_append, List.mem_cons] at hi ⊢; rcases hi with hi | hi <;> simp [hi])
  root i hi := a.root i (by simp only [List.mem_append, List.mem_cons] at hi ⊢; rcases hi with hi | hi <;> simp [hi])
  str i hi := a.str i (by simp only [List.mem_append, List.mem_cons] at hi ⊢; rcases hi with hi | hi <;> simp [hi])
  nodup := a.nodup.sublist (List.Sublist.append_left (List.sublist_cons_self _ _) _)
  looks := by
    have l1 := looksAll_take xs.length a.looks
    have l2 := looksAll_drop xs.length a.looks
    have e1 : (xs ++ y :: ys).take xs.length = xs := by simp
    have e2 : (ts ++ u :: us).take xs.length = ts := by rw [hlen]; simp
    have e3 : (xs ++ y :: ys).drop xs.length = y :: ys := by simp
    have e4 : (ts ++ u :: us).drop xs.length = u :: us := by rw [hlen]; simp
    rw [e1, e2] at l1
    rw [e3, e4, LooksAll] at l2
    exact looksAll_append l1 l2.2

/-- One piece. -/
theorem addPiece_made {s : String} {h0 h : Heap} {x : Nat} (hx : x < h0.next) {xs ys : List Nat} {ts us : List Node}
    (m : Made s h0 h (xs ++ ys) (ts ++ us)) (hlen : xs.length = ts.length) (hs : h0.str x = s) (d : Option String)
    {b : Int × Int} (h1 : b.1 ≠ b.2 → 0 ≤ b.1 ∧ b.1 ≤ b.2 ∧ b.2 ≤ s.length) :
    Made s h0 (addPiece d h x xs b).1 ((addPiece d h x xs b).2 ++ ys)
      ((ts ++ leafOr (fun sp => .mk sp d (h0.obj x).vf []) b) ++ us) ∧
    (addPiece d h x xs b).2.length = (ts ++ leafOr (fun sp => .mk sp d (h0.obj x).vf []) b).length ∧
    h.next ≤ (addPiece d h x xs b).1.next ∧ ∀ i < h.next, (addPiece d h x xs b).1.obj i = h.obj i := by
  unfold addPiece leafOr
  by_cases e : b.1 ≠ b.2
  · rw [if_pos e, if_pos e]
    obtain ⟨a1, a2, a3⟩ := h1 e
    have ox := m.old x hx
    have hstr : h.str x = s := by unfold Heap.str at *; rw [ox]; exact hs
    have nm := newLike_made m.ok m.acyclic x d a1 a2 (by rw [hstr]; exact a3)
    rw [hstr, ox] at nm
    exact ⟨m.insert hlen nm, by simp [hlen], nm.next, nm.old⟩
  · rw [if_neg e, if_neg e]
    exact ⟨by simpa using m, by simpa using hlen, Nat.le_refl _, fun _ _ => rfl⟩

theorem splitLoop_made {s : String} {h0 : Heap} {x : Nat} (hx : x < h0.next) (hs : h0.str x = s) (c : SplitCfg)
    (hb0 : 0 ≤ (h0.span x).start) (hb1 : (h0.span x).stop ≤ s.length) :
    ∀ (ids : List Nat) (seps : List Node) (h : Heap) (rv : List Nat) (rt : List Node) (n : Int) (prior : Option Nat)
      (ps : Option Span), Made s h0 h (rv ++ ids) (rt ++ seps) → rv.length = rt.length →
      prior.map h.span = ps → (∀ p, prior = some p → p < h.next) →
      (∀ p, ps = some p → 0 ≤ p.start ∧ p.start ≤ p.stop) →
      OrderedIn ((ps.map Span.stop).getD (h0.span x).start) (h0.span x).stop (seps.map Node.span) →
      ∃ h' rv' prior', splitLoop c x (Gen.ofList ids h) n prior rv = (h', .ok (rv', prior')) ∧
        Made s h0 h' rv' (rt ++ (loopNodes c (fun sp => .mk sp c.desc (h0.obj x).vf []) (h0.span x) n ps seps).1) ∧
        prior'.map h'.span = (loopNodes c (fun sp => .mk sp c.desc (h0.obj x).vf []) (h0.span x) n ps seps).2 ∧
        (∀ p, prior' = some p → p < h'.next) ∧
        (∀ p, (loopNodes c (fun sp => .mk sp c.desc (h0.obj x).vf []) (h0.span x) n ps seps).2 = some p →
          0 ≤ p.start ∧ p.start ≤ p.stop ∧ p.stop ≤ (h0.span x).stop)
  | [], seps, h, rv, rt, n, prior, ps, m, hlen, hp, hpl, hpb, ho => by
    have : seps = [] := by
      have := looksAll_length m.looks
      simp at this
      cases seps with
      | nil => rfl
      | cons a l => simp at this; omega
    subst this
    refine ⟨h, rv, prior, rfl, by simpa [loopNodes] using m, by simpa [loopNodes] using hp, hpl, ?_⟩
    intro p hq
    rw [loopNodes] at hq
    dsimp only at hq
    have := hpb p hq
    rw [hq] at ho
    simp [OrderedIn] at ho
    omega
  | cur :: ids, seps, h, rv, rt, n, prior, ps, m, hlen, hp, hpl, hpb, ho => by
    cases seps with
    | nil =>
      have := looksAll_length m.looks
      simp at this; omega
    | cons sep seps =>
      rw [Gen.ofList, splitLoop, loopNodes]
      have hlast : ∀ p, ps = some p → 0 ≤ p.start ∧ p.start ≤ p.stop ∧ p.stop ≤ (h0.span x).stop := by
        intro p hq
        have := hpb p hq
        have := orderedIn_le ho
        rw [hq] at this
        simp at this; omega
      by_cases hm : c.more n = true
      · rw [if_pos hm, if_pos hm]
        dsimp only
        have ox := m.old x hx
        have hspx : h.span x = h0.span x := by unfold Heap.span; rw [ox]
        -- the boundary's span
        have hl2 := looksAll_drop rv.length m.looks
        have e3 : (rv ++ cur :: ids).drop rv.length = cur :: ids := by simp
        have e4 : (rt ++ sep :: seps).drop rv.length = sep :: seps := by rw [hlen]; simp
        rw [e3, e4, LooksAll] at hl2
        have hcs : h.span cur = sep.span := looks_span hl2.1
        have hcl : cur < h.next := (m.fresh cur (by simp)).2
        rw [hspx, hp, hcs]
        rw [List.map_cons] at ho
        obtain ⟨o1, o2, o3⟩ := ho
        have o4 := orderedIn_le o3
        have hlo : 0 ≤ (ps.map Span.stop).getD (h0.span x).start := by
          cases ps with
          | none => simpa using hb0
          | some p => have := hpb p rfl; simp; omega
        obtain ⟨q1, q2, q3, q4⟩ := addPiece_made hx m hlen hs c.desc
          (b := spanBounds c.retention (h0.span x) ps sep.span) (by
            cases ps with
            | none =>
              simp only [Option.map_none, Option.getD_none] at o1 hlo
              cases c.retention <;> simp only [spanBounds] <;> omega
            | some p =>
              simp only [Option.map_some, Option.getD_some] at o1 hlo
              have := hpb p rfl
              cases c.retention <;> simp only [spanBounds] <;> omega)
        generalize addPiece c.desc h x rv (spanBounds c.retention (h0.span x) ps sep.span) = q at *
        obtain ⟨h1, rv1⟩ := q
        dsimp only at *
        generalize leafOr (fun sp => Node.mk sp c.desc (h0.obj x).vf []) (spanBounds c.retention (h0.span x) ps sep.span)
          = pt at *
        have hcs1 : h1.span cur = sep.span := by
          unfold Heap.span at *; rw [q4 cur hcl]; exact hcs
        rw [hcs1]
        have key : ∀ rv2 rt2, Made s h0 h1 (rv2 ++ ids) (rt2 ++ seps) → rv2.length = rt2.length → _ :=
          fun rv2 rt2 mm hh => splitLoop_made hx hs c hb0 hb1 ids seps h1 rv2 rt2 (n + 1) (some cur) (some sep.span)
            mm hh (by simp [hcs1]) (by intro p hp; cases hp; omega)
            (by intro p hp; cases hp; constructor <;> omega) (by simpa using o3)
        by_cases hall : c.retention = .all ∧ sep.span.start < sep.span.stop
        · rw [if_pos hall, if_pos hall]
          obtain ⟨h', rv', prior', k1, k2, k3, k4, k5⟩ := key (rv1 ++ [cur]) (rt ++ pt ++ [sep]) (by simpa using q1)
            (by simp only [List.length_append, List.length_cons, List.length_nil] at q2 ⊢; omega)
          exact ⟨h', rv', prior', k1, by simpa using k2, k3, k4, k5⟩
        · rw [if_neg hall, if_neg hall]
          obtain ⟨h', rv', prior', k1, k2, k3, k4, k5⟩ := key rv1 (rt ++ pt) (by simpa using q1.forget q2) q2
          exact ⟨h', rv', prior', k1, by simpa using k2, k3, k4, k5⟩
      · rw [if_neg hm, if_neg hm]
        refine ⟨h, rv, prior, rfl, ?_, hp, hpl, hlast⟩
        have := m.take rv.length
        have e1 : (rv ++ cur :: ids).take rv.length = rv := by simp
        have e2 : (rt ++ sep :: seps).take rv.length = rt := by rw [hlen]; simp
        rw [e1, e2] at this
        simpa using this

theorem loopNodes_prior (c : SplitCfg) (leaf : Span → Node) (x : Span) (seps : List Node) (n : Int) (p : Option Span) :
    (loopNodes c leaf x n p seps).2 = none ↔ p = none ∧ allowed (c.limit.map (· - n)) seps = [] := by
  rw [loopNodes_limit]
  generalize allowed (c.limit.map (· - n)) seps = l
  have : ∀ (l : List Node) (m : Int) (q : Span), (loopNodes { c with limit := none } leaf x m (some q) l).2 ≠ none := by
    intro l
    induction l with
    | nil => intro m q; simp [loopNodes]
    | cons a l ih => intro m q; rw [loopNodes, if_pos (by simp [SplitCfg.more])]; exact ih _ _
  cases l with
  | nil => simp [loopNodes]
  | cons a l =>
    rw [loopNodes, if_pos (by simp [SplitCfg.more])]
    simp [this]

/-- C50 on objects: if the splitter makes the boundaries `seps` (in order, disjoint, inside) of an object, `Split`
makes, besides these, new childless objects, and what it yields looks like `SplitSpec.pieces`; nothing that existed
changes. -/
theorem C50_split_objects {s : String} {splitter : Heap → Nat → Gen} {t : Node} {seps : List Node} (c : SplitCfg)
    (hsp : MakesFirst s splitter t seps) (ho : OrderedIn t.start t.stop (seps.map Node.span)) :
    MakesFirst s (splitT c splitter) t (pieces c t.vf t.start t.stop seps) := by
  intro h x h1 h2 h3 h4 h5
  obtain ⟨hw, hl⟩ := looks_wf h1 t x h3 h5
  have w0 := hw.start_nonneg
  have w1 := hw.start_le
  rw [h4] at hl
  have hspan := looks_span h5
  have hvf : (h.obj x).vf = t.vf := by cases t; rw [Looks] at h5; exact h5.2.2.1
  unfold splitT
  have hwhole : ∀ {h' : Heap}, OK h' → Acyclic h' → h'.obj x = h.obj x →
      Made s h' (wholeClone c h' x) [h'.next] [.mk ⟨t.start, t.stop⟩ c.desc t.vf []] := by
    intro h' a b e
    unfold wholeClone
    have e1 : h'.span x = t.span := by unfold Heap.span at *; rw [e]; exact hspan
    have e2 : h'.str x = s := by unfold Heap.str at *; rw [e]; exact h4
    rw [e1]
    have := newLike_made a b x (a := t.start) (b := t.stop) c.desc w0 w1 (by rw [e2]; exact hl)
    rw [e2, e, hvf] at this
    exact this
  by_cases hz : c.limit = some 0 ∧ c.zeroSplit = true
  · rw [if_pos hz]
    refine ⟨_, _, rfl, ?_⟩
    have : pieces c t.vf t.start t.stop seps = [.mk ⟨t.start, t.stop⟩ c.desc t.vf []] := by
      simp [SplitSpec.pieces, allowed, hz.1, hz.2]
    rw [this]
    exact hwhole h1 h2 rfl
  · rw [if_neg hz]
    obtain ⟨h', ids, e, m⟩ := hsp h x h1 h2 h3 h4 h5
    rw [e]
    obtain ⟨h'', rv, prior, k1, k2, k3, k4, k5⟩ := splitLoop_made h3 h4 c (by rw [hspan]; exact w0)
      (by rw [hspan]; exact hl) ids seps h' [] [] 0 none none (by simpa using m) rfl rfl (by simp) (by simp)
      (by rw [hspan]; exact ho)
    rw [k1]
    dsimp only
    rw [hspan, hvf] at k2 k3 k5
    rw [List.nil_append] at k2
    generalize hleaf : (fun sp => Node.mk sp c.desc t.vf []) = leaf at *
    have ox := k2.old x h3
    have hsp2 : h''.span x = t.span := by unfold Heap.span at *; rw [ox]; exact hspan
    have hlast : Made s h (splitLast c x h'' rv prior).1 (splitLast c x h'' rv prior).2
        ((loopNodes c leaf t.span 0 none seps).1 ++
          lastNodes c.retention leaf t.stop (loopNodes c leaf t.span 0 none seps).2) := by
      cases prior with
      | none =>
        simp only [Option.map_none] at k3
        rw [← k3]
        simpa [splitLast, lastNodes] using k2
      | some p =>
        simp only [Option.map_some] at k3
        rw [← k3]
        have kb := k5 _ k3.symm
        have hb : (t.span).stop ≤ s.length := hl
        have hlen := looksAll_length k2.looks
        have k2' : Made s h h'' (rv ++ []) ((loopNodes c leaf t.span 0 none seps).1 ++ []) := by simpa using k2
        unfold splitLast lastNodes
        dsimp only
        cases c.retention with
        | trailing => simpa using k2
        | none =>
          dsimp only
          rw [hsp2]
          have := (addPiece_made h3 k2' hlen h4 c.desc (b := ((h''.span p).stop, t.span.stop)) (by
            intro _; simp only; omega)).1
          rw [hvf, hleaf] at this
          simpa [Node.stop] using this
        | all =>
          dsimp only
          rw [hsp2]
          have := (addPiece_made h3 k2' hlen h4 c.desc (b := ((h''.span p).stop, t.span.stop)) (by
            intro _; simp only; omega)).1
          rw [hvf, hleaf] at this
          simpa [Node.stop] using this
        | leading =>
          dsimp only
          rw [hsp2]
          have := (addPiece_made h3 k2' hlen h4 c.desc (b := ((h''.span p).start, t.span.stop)) (by
            intro _; simp only; omega)).1
          rw [hvf, hleaf] at this
          simpa [Node.stop] using this
    have hpn : prior = none ↔ allowed c.limit seps = [] := by
      have e1 : prior = none ↔ (loopNodes c leaf t.span 0 none seps).2 = none := by
        rw [← k3]; cases prior <;> simp
      rw [e1, loopNodes_prior]
      have : c.limit.map (· - 0) = c.limit := by cases c.limit <;> simp
      rw [this]; simp
    have hnodes : allowed c.limit seps ≠ [] → (loopNodes c leaf t.span 0 none seps).1 ++
        lastNodes c.retention leaf t.stop (loopNodes c leaf t.span 0 none seps).2 =
        pieces c t.vf t.start t.stop seps := by
      intro hne
      have : c.limit.map (· - 0) = c.limit := by cases c.limit <;> simp
      rw [loopNodes_limit, this]
      unfold SplitSpec.pieces
      dsimp only
      rw [if_neg hne]
      cases hu : allowed c.limit seps with
      | nil => exact absurd hu hne
      | cons a l =>
        have ho' : OrderedIn t.start t.stop ((a :: l).map Node.span) := by
          have := orderedIn_allowed c.limit ho
          rw [← hu]
          have e : allowed c.limit (seps.map Node.span) = (allowed c.limit seps).map Node.span := by
            unfold allowed; cases c.limit with
            | none => rfl
            | some n => simp [List.map_take]
          rw [← e]; exact this
        rw [hleaf]
        exact loopNodes_none { c with limit := none } rfl leaf t.span a l 0 ho'
    have hempty : allowed c.limit seps = [] → (loopNodes c leaf t.span 0 none seps).1 ++
        lastNodes c.retention leaf t.stop (loopNodes c leaf t.span 0 none seps).2 = [] := by
      intro he
      have : c.limit.map (· - 0) = c.limit := by cases c.limit <;> simp
      rw [loopNodes_limit, this, he]
      simp [loopNodes, lastNodes]
    by_cases hu : allowed c.limit seps = []
    · have hpr := hpn.mpr hu
      rw [hempty hu] at hlast
      have hl0 : (splitLast c x h'' rv prior).2 = [] := by
        have := looksAll_length hlast.looks
        simpa using this
      have hp : pieces c t.vf t.start t.stop seps =
          if c.zeroSplit = true then [.mk ⟨t.start, t.stop⟩ c.desc t.vf []] else [] := by
        unfold SplitSpec.pieces; dsimp only; rw [if_pos hu]
      rw [hp]
      by_cases hzs : c.zeroSplit = true
      · rw [if_pos ⟨hpr, by rw [hl0]; rfl, hzs⟩, if_pos hzs, hl0]
        rw [hl0] at hlast
        refine ⟨_, _, rfl, ?_⟩
        exact hlast.after (hwhole hlast.ok hlast.acyclic (hlast.old x h3))
      · rw [if_neg (fun hh => hzs hh.2.2), if_neg hzs]
        exact ⟨_, _, rfl, hlast⟩
    · rw [if_neg (fun hh => hu (hpn.mp hh.1))]
      rw [hnodes hu] at hlast
      exact ⟨_, _, rfl, hlast⟩

/-! ## With a pattern -/

theorem fromMatch_single {len : Nat} {d : Option String} {m : Span} (h0 : 0 ≤ m.start) (h1 : m.start ≤ m.stop)
    (h2 : m.stop ≤ len) : Match.fromMatch len [(d, [m])] = .ok [.mk m d none []] := by
  have e : Span.fromIndices len (some m.start) (some m.stop) = m := fromIndices_span h0 h1 h2
  simp [Match.fromMatch, Match.entries, Match.sortEntries, Match.insertEntry, Match.loop, Match.step, e,
    Match.popWhile, Match.closeAll, Match.Frame.close, Match.Frame.absorb]

theorem orderedIn_mem : ∀ {l : List Span} {a b : Int}, OrderedIn a b l → ∀ m ∈ l, a ≤ m.start ∧ m.start ≤ m.stop ∧ m.stop ≤ b
  | [], _, _, _ => by simp
  | s :: ss, a, b, ⟨h1, h2, h3⟩ => by
    intro m hm
    have := orderedIn_le h3
    rcases List.mem_cons.mp hm with rfl | hm
    · omega
    · have := orderedIn_mem h3 m hm; omega

/-- A pattern of which only one group is selected: one leaf per match. -/
theorem fromRe_single {len : Nat} (d : Option String) {a b : Int} {ms : List Span} (ho : OrderedIn a b ms) (ha : 0 ≤ a)
    (hb : b ≤ len) : Match.fromRe len (ms.map (fun m => [(d, [m])])) none = .ok (ms.map (fun m => .mk m d none [])) := by
  rw [C19_from_re_concat]
  refine ⟨ms.map (fun m => [.mk m d none []]), ?_, ?_⟩
  · rw [List.map_map, List.map_map]
    apply List.map_congr_left
    intro m hm
    have := orderedIn_mem ho m hm
    exact fromMatch_single (by omega) this.2.1 (by omega)
  · clear ho
    induction ms with
    | nil => rfl
    | cons m ms ih => rw [List.map_cons, List.map_cons, List.flatten_cons, ← ih]; rfl

theorem just_makes {s : String} {f : Heap → Nat → Gen} {n i : Nat} {t : Node} {us : List Node} (hf : MakesFirst s f t us)
    (hn : need t ≤ n) : MakesFirst s (call (justT f) n i) t us := by
  refine call_makesFirst ?_ hn
  cases n with
  | zero => cases t; simp [need] at hn
  | succ n =>
    intro h x
    rw [C51_no_connections (justT f) n i h x rfl rfl]
    exact hf h x

/-- C50 on objects, with a pattern as splitter (an `Extract` of its group 0): whatever the text, if the matches found
in the Ito are in order and disjoint, as a regex engine's are, `Split` never raises and makes `SplitSpec.pieces`. -/
theorem C50_split_by_pattern {s : String} {t : Node} (c : SplitCfg) (re : String → Span → List Span) (n : Nat)
    (hn : need t ≤ n) (ho : OrderedIn t.start t.stop (re s t.span)) :
    MakesFirst s (splitT c (call (justT (extractT (fun s sp => (re s sp).map (fun m => [(none, [m])])) none)) n 0)) t
      (SplitSpec.pieces c t.vf t.start t.stop ((re s t.span).map (fun m => .mk m none none []))) := by
  intro h x h1 h2 h3 h4 h5
  obtain ⟨hw, hl⟩ := looks_wf h1 t x h3 h5
  rw [h4] at hl
  refine C50_split_objects c (just_makes (extract_makes ?_) hn) ?_ h x h1 h2 h3 h4 h5
  · exact fromRe_single none ho hw.start_nonneg hl
  · rw [List.map_map]
    have : (Node.span ∘ fun m => Node.mk m none none []) = id := rfl
    rw [this, List.map_id]; exact ho

/-- Non-vacuity: `a, b` split at `, ` keeping the boundary with what precedes it. -/
example : SplitSpec.pieces ⟨none, .trailing, true, some "w"⟩ none 0 4 [.mk ⟨1, 3⟩ none none []] =
    [.mk ⟨0, 3⟩ (some "w") none []] ∧
    (splitT ⟨none, .trailing, true, some "w"⟩ (call (justT (extractT (fun _ _ => [[(none, [⟨1, 3⟩])]]) none)) 9 0)
      (empty.new "a, b" none none none) 0).collect.2.toOption = some [3] := by
  constructor
  · rfl
  · decide

end Pawpaw.Props
