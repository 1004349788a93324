import Verif.Props.SplitHeap
/-!
# C51: what `Add` and `Delegate` connections make of each piece
-/
set_option linter.unusedSectionVars false
namespace Pawpaw.Props
open TreeSpec HeapSpec PipeSpec Heap Pipeline

/-- Two lists of equal length whose elements are pairwise related. -/
inductive Pairs {α β : Type} (R : α → β → Prop) : List α → List β → Prop
  | nil : Pairs R [] []
  | cons {a : α} {b : β} {as : List α} {bs : List β} : R a b → Pairs R as bs → Pairs R (a :: as) (b :: bs)

/-- As `Made`, but object `x` may have been changed, and be among the results. -/
structure Turned (s : String) (h h' : Heap) (x : Nat) (ids : List Nat) (us : List Node) : Prop where
  next : h.next ≤ h'.next
  old : ∀ i < h.next, i ≠ x → h'.obj i = h.obj i
  ok : OK h'
  acyclic : Acyclic h'
  fresh : ∀ i ∈ ids, (i = x ∨ h.next ≤ i) ∧ i < h'.next
  root : ∀ i ∈ ids, h'.parent i = none
  str : ∀ i ∈ ids, h'.str i = s
  nodup : ids.Nodup
  looks : LooksAll h' ids us

/-- In every consistent memory, running `F` to its end on a parentless object that looks like `t` gives trees `us`,
and changes no other object that existed. -/
def Turns (s : String) (F : Heap → Nat → Gen) (t : Node) (us : List Node) : Prop :=
  ∀ h x, OK h → Acyclic h → x < h.next → h.parent x = none → h.str x = s → Looks h x t →
    ∃ h' ids, (F h x).collect = (h', .ok ids) ∧ Turned s h h' x ids us

theorem looksAll_other {h h' : Heap} {x : Nat} (hok : OK h) (hx : h.parent x = none)
    (hobj : ∀ y < h.next, y ≠ x → h'.obj y = h.obj y) {xs : List Nat} {ts : List Node}
    (hl : ∀ i ∈ xs, i < h.next ∧ i ≠ x) (hh : LooksAll h xs ts) : LooksAll h' xs ts := by
  refine looksAll_frame (fun p => p < h.next ∧ p ≠ x) ?_ ?_ ts xs hl hh
  · intro p hp c hc
    obtain ⟨a, b, -⟩ := hok.kidParent p hp.1 c hc
    refine ⟨a, ?_⟩
    rintro rfl
    rw [hx] at b; cases b
  · intro p hp
    have := hobj p hp.1 hp.2
    simp [Heap.span, Heap.kids, this]

theorem turns_nil (s : String) (fuel : Nat) (trav : Nat → Heap → Nat → Gen) (t : Node) :
    Turns s (flow fuel trav []) t [t] := by
  intro h x h1 h2 h3 h4 h5 h6
  refine ⟨h, [x], rfl, ⟨Nat.le_refl _, fun _ _ _ => rfl, h1, h2, ?_, ?_, ?_, by simp, ?_⟩⟩
  · intro i hi; simp at hi; subst hi; exact ⟨.inl rfl, h3⟩
  · intro i hi; simp at hi; subst hi; exact h4
  · intro i hi; simp at hi; subst hi; exact h5
  · simp [LooksAll, h6]

theorem turns_skip {s : String} {fuel : Nat} {trav : Nat → Heap → Nat → Gen} {c : Con} {cs : List Con} {t : Node}
    {us : List Node} (hp : ∀ h x, Looks h x t → c.pred h x = .ok false) (hF : Turns s (flow fuel trav cs) t us) :
    Turns s (flow fuel trav (c :: cs)) t us := by
  intro h x h1 h2 h3 h4 h5 h6
  rw [flow, hp h x h6]
  exact hF h x h1 h2 h3 h4 h5 h6

theorem turns_delegate {s : String} {fuel : Nat} {trav : Nat → Heap → Nat → Gen} {c : Con} {cs : List Con} {t : Node}
    {us : List Node} (hp : ∀ h x, Looks h x t → c.pred h x = .ok true) (hk : c.kind = .delegate)
    (hF : Makes s (trav c.target) t us) : Turns s (flow fuel trav (c :: cs)) t us := by
  intro h x h1 h2 h3 h4 h5 h6
  rw [flow, hp h x h6]
  dsimp only
  rw [hk]
  dsimp only
  obtain ⟨h', ids, e, m⟩ := hF h x h1 h2 h3 h5 h6
  exact ⟨h', ids, e, m.next, fun i hi _ => m.old i hi, m.ok, m.acyclic,
    fun i hi => ⟨.inr (m.fresh i hi).1, (m.fresh i hi).2⟩, m.root, m.str, m.nodup, m.looks⟩

/-- Making parentless objects children of a parentless one makes no cycle. -/
theorem relinked_acyclic {h h' : Heap} {p : Nat} {xs : List Nat} (hac : Acyclic h) (hn : h'.next = h.next)
    (hp : h'.parent p = none) (hpar : ∀ y, h'.parent y = if y ∈ xs then some p else h.parent y) : Acyclic h' := by
  have root : ∀ a, ¬ Anc h' a p := by
    intro a ha
    cases ha with
    | parent e => rw [hp] at e; cases e
    | step e _ => rw [hp] at e; cases e
  have key : ∀ a x, Anc h' a x → a ≠ p → Anc h a x := by
    intro a x ha
    induction ha with
    | parent e =>
      intro hap
      rw [hpar] at e
      split at e
      · cases e; exact absurd rfl hap
      · exact .parent e
    | @step x y a e ha ih =>
      intro hap
      rw [hpar] at e
      split at e
      · cases e; exact absurd ha (root a)
      · exact .step e (ih hap)
  intro x hx ha
  by_cases e : x = p
  · subst e; exact root _ ha
  · exact hac x (by rw [← hn]; exact hx) (key x x ha e)

/-- `add` of new parentless trees to a childless parentless object. -/
theorem add_made {s : String} {h h1 : Heap} {x : Nat} {ids : List Nat} {us : List Node} {sp : Span} {d : Option String}
    {vf : Option Nat} (h3 : x < h.next) (h4 : h.parent x = none) (h5 : h.str x = s) (h6 : Looks h x (.mk sp d vf []))
    (m : Made s h h1 ids us) (hk : KidsOK sp (us.map Node.span)) :
    ∃ h2, h1.add x ids = (h2, .ok ()) ∧ h2.next = h1.next ∧ OK h2 ∧ Acyclic h2 ∧ h2.parent x = none ∧ h2.str x = s ∧
      Looks h2 x (.mk sp d vf us) ∧ ∀ i < h.next, i ≠ x → h2.obj i = h.obj i := by
  have ox := m.old x h3
  rw [Looks] at h6
  obtain ⟨l1, l2, l3, l4⟩ := h6
  have l4' : h.kids x = [] := by
    have := looksAll_length l4
    simpa using this
  have kx : h1.kids x = [] := by unfold Heap.kids at *; rw [ox]; exact l4'
  have sx : h1.span x = sp := by unfold Heap.span at *; rw [ox]; exact l1
  have strx : h1.str x = s := by unfold Heap.str at *; rw [ox]; exact h5
  have parx : h1.parent x = none := by unfold Heap.parent at *; rw [ox]; exact h4
  have hxid : x ∉ ids := fun hm => by have := (m.fresh x hm).1; omega
  have hid : ∀ y ∈ ids, h1.parent y = none ∧ h1.str y = h1.str x ∧ y ≠ x := fun y hy =>
    ⟨m.root y hy, by rw [m.str y hy, strx], fun e => hxid (e ▸ hy)⟩
  obtain ⟨h2, a1, a2, a3⟩ := add_after ids h1 (p := x) (by
    rw [kx, List.nil_append, sx, ← looksAll_spans _ _ m.looks]; exact hk) hid
  have hx1 : x < h1.next := Nat.lt_of_lt_of_le h3 m.next
  have ok2 := (add_ok (xs := ids) m.ok hx1 (fun y hy => (m.fresh y hy).2)).1
  rw [a1] at ok2
  have par2 : ∀ y, h2.parent y = if y ∈ ids then some x else h1.parent y := by
    intro y; simp only [Heap.parent, a3 y]
  have px2 : h2.parent x = none := by rw [par2, if_neg hxid]; exact parx
  refine ⟨h2, a1, a2, ok2, relinked_acyclic m.acyclic a2 px2 par2, px2, ?_, ?_, ?_⟩
  · rw [← strx]; simp only [Heap.str, a3 x]
  · rw [Looks]
    have k2 : h2.kids x = ids := by
      simp only [Heap.kids, a3 x, if_true]
      have := kx
      unfold Heap.kids at this
      rw [this]; rfl
    refine ⟨?_, ?_, ?_, ?_⟩
    · rw [← sx]; simp only [Heap.span, a3 x]
    · rw [a3 x]; rw [ox]; exact l2
    · rw [a3 x]; rw [ox]; exact l3
    · rw [k2]
      refine looksAll_frame (fun p => p < h1.next ∧ p ≠ x) ?_ ?_ us ids (fun i hi => ⟨(m.fresh i hi).2, (hid i hi).2.2⟩)
        m.looks
      · intro p hp c hc
        obtain ⟨a, b, -⟩ := m.ok.kidParent p hp.1 c hc
        refine ⟨a, ?_⟩
        rintro rfl
        rw [parx] at b; cases b
      · intro p hp
        simp [Heap.span, Heap.kids, a3 p, hp.2]
  · intro i hi hix
    have hni : i ∉ ids := fun hm => by have := (m.fresh i hm).1; omega
    rw [a3 i, if_neg hni, if_neg hix, m.old i hi]

theorem turns_add {s : String} {fuel : Nat} {trav : Nat → Heap → Nat → Gen} {c : Con} {cs : List Con} {sp : Span}
    {d : Option String} {vf : Option Nat} {us vs : List Node}
    (hp : ∀ h x, Looks h x (.mk sp d vf []) → c.pred h x = .ok true) (hkind : c.kind = .add)
    (hF : Makes s (trav c.target) (.mk sp d vf []) us) (hk : KidsOK sp (us.map Node.span))
    (hR : Turns s (flow fuel trav cs) (.mk sp d vf us) vs) :
    Turns s (flow fuel trav (c :: cs)) (.mk sp d vf []) vs := by
  intro h x h1 h2 h3 h4 h5 h6
  rw [flow, hp h x h6]
  dsimp only
  rw [hkind]
  dsimp only
  obtain ⟨h', ids, e, m⟩ := hF h x h1 h2 h3 h5 h6
  rw [e]
  dsimp only [attach]
  obtain ⟨g, a1, a2, a3, a4, a5, a6, a7, a8⟩ := add_made h3 h4 h5 h6 m hk
  rw [a1]
  dsimp only
  obtain ⟨g', ids', e', m'⟩ := hR g x a3 a4 (by have := m.next; omega) a5 a6 a7
  have nx := m.next
  have nx' := m'.next
  refine ⟨g', ids', e', by omega, ?_, m'.ok, m'.acyclic, ?_, m'.root, m'.str, m'.nodup, m'.looks⟩
  · intro i hi hix
    rw [m'.old i (by omega) hix, a8 i hi hix]
  · intro i hi
    obtain ⟨b1, b2⟩ := m'.fresh i hi
    exact ⟨by omega, b2⟩

/-- One of the pieces a transform has made is turned by the connections. -/
theorem turn_step {s : String} {F : Heap → Nat → Gen} {h0 h : Heap} {ids todo : List Nat} {x : Nat} {us ts o : List Node}
    {t : Node} (m : Made s h0 h (ids ++ x :: todo) (us ++ t :: ts)) (hlen : ids.length = us.length)
    (ht : Turns s F t o) :
    ∃ h1 os, (F h x).collect = (h1, .ok os) ∧ Made s h0 h1 ((ids ++ os) ++ todo) ((us ++ o) ++ ts) ∧
      (ids ++ os).length = (us ++ o).length := by
  have hl := looksAll_drop ids.length m.looks
  rw [List.drop_left] at hl
  rw [hlen, List.drop_left, LooksAll] at hl
  have hm : x ∈ ids ++ x :: todo := by simp
  obtain ⟨h1, os, e, k⟩ := ht h x m.ok m.acyclic (m.fresh x hm).2 (m.root x hm) (m.str x hm) hl.1
  have nd := m.nodup
  rw [List.nodup_append] at nd
  obtain ⟨nd1, nd2, nd3⟩ := nd
  rw [List.nodup_cons] at nd2
  have other : ∀ i ∈ ids ++ todo, i < h.next ∧ i ≠ x := by
    intro i hi
    refine ⟨(m.fresh i ?_).2, ?_⟩
    · simp only [List.mem_append, List.mem_cons] at hi ⊢
      rcases hi with hi | hi <;> simp [hi]
    · rintro rfl
      rcases List.mem_append.mp hi with hi | hi
      · exact nd3 i hi i (by simp) rfl
      · exact nd2.1 hi
  have sub : ∀ i ∈ ids ++ todo, i ∈ ids ++ x :: todo := by
    intro i hi
    simp only [List.mem_append, List.mem_cons] at hi ⊢
    rcases hi with hi | hi <;> simp [hi]
  have hxf := m.fresh x hm
  have nx := m.next
  have kx := k.next
  have l1 : LooksAll h1 ids us := looksAll_other m.ok (m.root x hm) k.old (fun i hi => other i (by simp [hi])) (by
    have := looksAll_take ids.length m.looks
    rw [List.take_left, hlen, List.take_left] at this
    exact this)
  have l2 : LooksAll h1 todo ts := looksAll_other m.ok (m.root x hm) k.old (fun i hi => other i (by simp [hi])) hl.2
  have m1 : Made s h0 h1 ((ids ++ os) ++ todo) ((us ++ o) ++ ts) := {
    next := by omega
    old := fun i hi => by rw [k.old i (by omega) (by omega), m.old i hi]
    ok := k.ok
    acyclic := k.acyclic
    fresh := fun i hi => by
      simp only [List.mem_append] at hi
      rcases hi with (hi | hi) | hi
      · have := m.fresh i (sub i (by simp [hi])); omega
      · have := k.fresh i hi; omega
      · have := m.fresh i (sub i (by simp [hi])); omega
    root := fun i hi => by
      simp only [List.mem_append] at hi
      rcases hi with (hi | hi) | hi
      · have a := other i (by simp [hi])
        unfold Heap.parent; rw [k.old i a.1 a.2]; exact m.root i (sub i (by simp [hi]))
      · exact k.root i hi
      · have a := other i (by simp [hi])
        unfold Heap.parent; rw [k.old i a.1 a.2]; exact m.root i (sub i (by simp [hi]))
    str := fun i hi => by
      simp only [List.mem_append] at hi
      rcases hi with (hi | hi) | hi
      · have a := other i (by simp [hi])
        unfold Heap.str; rw [k.old i a.1 a.2]; exact m.str i (sub i (by simp [hi]))
      · exact k.str i hi
      · have a := other i (by simp [hi])
        unfold Heap.str; rw [k.old i a.1 a.2]; exact m.str i (sub i (by simp [hi]))
    nodup := by
      have hos : ∀ i ∈ os, i ∉ ids ++ todo := by
        intro i hi hm'
        have a := other i hm'
        have b := (k.fresh i hi).1
        omega
      rw [List.append_assoc]
      refine List.nodup_append.mpr ⟨nd1, List.nodup_append.mpr ⟨k.nodup, nd2.2, ?_⟩, ?_⟩
      · rintro a ha b hb rfl; exact hos a ha (by simp [hb])
      · rintro a ha b hb rfl
        rcases List.mem_append.mp hb with hb | hb
        · exact hos a hb (by simp [ha])
        · exact nd3 a ha a (by simp [hb]) rfl
    looks := looksAll_append (looksAll_append l1 k.looks) l2 }
  exact ⟨h1, os, e, m1, by have := looksAll_length k.looks; simp [hlen, this]⟩

/-- The pieces a transform has made, each turned by the connections. -/
theorem forEach_made {s : String} {F : Heap → Nat → Gen} {h0 : Heap} : ∀ (todo : List Nat) (ts : List Node)
    (outs : List (List Node)) (h : Heap) (ids : List Nat) (us : List Node),
    Made s h0 h (ids ++ todo) (us ++ ts) → ids.length = us.length → Pairs (fun t us => Turns s F t us) ts outs →
    ∃ h' ids', ((Gen.ofList todo h).forEach F).collect = (h', .ok ids') ∧ Made s h0 h' (ids ++ ids') (us ++ outs.flatten)
  | [], ts, outs, h, ids, us, m, hlen, hf => by
    have : ts = [] := by
      have := looksAll_length m.looks
      simp [hlen] at this
      exact this
    subst this
    cases hf
    exact ⟨h, [], rfl, by simpa using m⟩
  | x :: todo, ts, outs, h, ids, us, m, hlen, hf => by
    cases hf with
    | nil =>
      have := looksAll_length m.looks
      simp at this; omega
    | @cons t o ts outs ht hf =>
      obtain ⟨h1, os, e, m1, hl1⟩ := turn_step m hlen ht
      obtain ⟨h', ids', e2, m2⟩ := forEach_made todo ts outs h1 (ids ++ os) (us ++ o) m1 hl1 hf
      refine ⟨h', os ++ ids', ?_, by simpa using m2⟩
      rw [Gen.ofList, Gen.forEach, collect_andThen, e]
      dsimp only
      rw [e2]

/-- C51: if the transform of an itorator makes the pieces `ts` and its connections turn each into trees, the itorator
makes these trees, in order. -/
theorem traverse_makes {s : String} {G : Nat → It} {n i : Nat} {t : Node} {ts : List Node} {outs : List (List Node)}
    (hp : (G i).post = none) (hT : MakesFirst s (G i).transform t ts)
    (hF : Pairs (fun t us => Turns s (flow n (traverse G n) (G i).cons) t us) ts outs) :
    Makes s (traverse G (n + 1) i) t outs.flatten := by
  intro h x h1 h2 h3 h4 h5
  obtain ⟨h', ids, e, m⟩ := hT h x h1 h2 h3 h4 h5
  rw [traverse, It.posted, hp]
  dsimp only
  rw [e]
  obtain ⟨g, ids', e2, m2⟩ := forEach_made (F := flow n (traverse G n) (G i).cons) ids ts outs h' [] []
    (by simpa using m) rfl hF
  exact ⟨g, ids', e2, by simpa using m2⟩

/-! ## Failing -/

/-- In every consistent memory, running `F` to its end on an object that looks like `t` raises `ValueError`. -/
def Fails (s : String) (F : Heap → Nat → Gen) (t : Node) : Prop :=
  ∀ h x, OK h → Acyclic h → x < h.next → h.str x = s → Looks h x t → ∃ h', (F h x).collect = (h', .error .valueError)

/-- The same for parentless objects. -/
def FailsTop (s : String) (F : Heap → Nat → Gen) (t : Node) : Prop :=
  ∀ h x, OK h → Acyclic h → x < h.next → h.parent x = none → h.str x = s → Looks h x t →
    ∃ h', (F h x).collect = (h', .error .valueError)

/-- The first piece that is not turned into trees makes `F` fail. -/
inductive FailsAt (s : String) (F : Heap → Nat → Gen) : List Node → Prop
  | here {t : Node} {ts : List Node} : FailsTop s F t → FailsAt s F (t :: ts)
  | later {t : Node} {ts us : List Node} : Turns s F t us → FailsAt s F ts → FailsAt s F (t :: ts)

theorem forEach_fails {s : String} {F : Heap → Nat → Gen} {h0 : Heap} {ts : List Node} (hf : FailsAt s F ts) :
    ∀ (todo : List Nat) (h : Heap) (ids : List Nat) (us : List Node),
    Made s h0 h (ids ++ todo) (us ++ ts) → ids.length = us.length →
    ∃ h', ((Gen.ofList todo h).forEach F).collect = (h', .error .valueError) := by
  induction hf with
  | @here t ts ht =>
    intro todo h ids us m hlen
    cases todo with
    | nil =>
      have := looksAll_length m.looks
      simp at this; omega
    | cons x todo =>
      have hl := looksAll_drop ids.length m.looks
      rw [List.drop_left] at hl
      rw [hlen, List.drop_left, LooksAll] at hl
      have hm : x ∈ ids ++ x :: todo := by simp
      obtain ⟨h', e⟩ := ht h x m.ok m.acyclic (m.fresh x hm).2 (m.root x hm) (m.str x hm) hl.1
      refine ⟨h', ?_⟩
      rw [Gen.ofList, Gen.forEach, collect_andThen, e]
  | @later t ts o ht hf ih =>
    intro todo h ids us m hlen
    cases todo with
    | nil =>
      have := looksAll_length m.looks
      simp at this; omega
    | cons x todo =>
      obtain ⟨h1, os, e, m1, hl1⟩ := turn_step m hlen ht
      obtain ⟨h', e2⟩ := ih todo h1 (ids ++ os) (us ++ o) m1 hl1
      refine ⟨h', ?_⟩
      rw [Gen.ofList, Gen.forEach, collect_andThen, e]
      dsimp only
      rw [e2]

theorem traverse_fails {s : String} {G : Nat → It} {n i : Nat} {t : Node} {ts : List Node}
    (hp : (G i).post = none) (hT : MakesFirst s (G i).transform t ts)
    (hF : FailsAt s (flow n (traverse G n) (G i).cons) ts) : Fails s (traverse G (n + 1) i) t := by
  intro h x h1 h2 h3 h4 h5
  obtain ⟨h', ids, e, m⟩ := hT h x h1 h2 h3 h4 h5
  rw [traverse, It.posted, hp]
  dsimp only
  rw [e]
  exact forEach_fails hF ids h' [] [] (by simpa using m) rfl

theorem fails_skip {s : String} {fuel : Nat} {trav : Nat → Heap → Nat → Gen} {c : Con} {cs : List Con} {t : Node}
    (hp : ∀ h x, Looks h x t → c.pred h x = .ok false) (hF : FailsTop s (flow fuel trav cs) t) :
    FailsTop s (flow fuel trav (c :: cs)) t := by
  intro h x h1 h2 h3 h4 h5 h6
  rw [flow, hp h x h6]
  exact hF h x h1 h2 h3 h4 h5 h6

/-- An `Add` whose itorator fails. -/
theorem fails_add {s : String} {fuel : Nat} {trav : Nat → Heap → Nat → Gen} {c : Con} {cs : List Con} {t : Node}
    (hp : ∀ h x, Looks h x t → c.pred h x = .ok true) (hk : c.kind = .add) (hF : Fails s (trav c.target) t) :
    FailsTop s (flow fuel trav (c :: cs)) t := by
  intro h x h1 h2 h3 h4 h5 h6
  rw [flow, hp h x h6]
  dsimp only
  rw [hk]
  dsimp only
  obtain ⟨h', e⟩ := hF h x h1 h2 h3 h5 h6
  rw [e]
  exact ⟨h', rfl⟩

theorem add_error {h' : Heap} {p : Nat} {e : PyErr} : ∀ {xs : List Nat} {h : Heap}, OK h → p < h.next →
    (∀ x ∈ xs, x < h.next) → h.add p xs = (h', .error e) → e = .valueError
  | [], h, _, _, _, hh => by rw [Heap.add] at hh; cases hh
  | x :: xs, h, hok, hp, hx, hh => by
    rw [Heap.add] at hh
    rcases addOne_spec hok hp (hx x (by simp)) with e1 | ⟨q1, q2, q3, l, r, q4, q5, e1, q6⟩
    · rw [e1] at hh; cases hh; rfl
    · rw [e1] at hh
      exact add_error q6 hp (fun y hy => hx y (by simp [hy])) hh

/-- An `Add` of something that overlaps a child. -/
theorem fails_overlap {s : String} {fuel : Nat} {trav : Nat → Heap → Nat → Gen} {c : Con} {cs : List Con} {t : Node}
    {us : List Node} (hp : ∀ h x, Looks h x t → c.pred h x = .ok true) (hk : c.kind = .add)
    (hF : Makes s (trav c.target) t us)
    (ho : ∃ k ∈ t.kids, ∃ u ∈ us, k.start < u.stop ∧ u.start < k.stop) :
    FailsTop s (flow fuel trav (c :: cs)) t := by
  intro h x h1 h2 h3 h4 h5 h6
  rw [flow, hp h x h6]
  dsimp only
  rw [hk]
  dsimp only
  obtain ⟨h', ids, e, m⟩ := hF h x h1 h2 h3 h5 h6
  rw [e]
  dsimp only [attach]
  have hx1 : x < h'.next := Nat.lt_of_lt_of_le h3 m.next
  cases hq : h'.add x ids with
  | mk g q =>
    cases q with
    | error e' =>
      have := add_error m.ok hx1 (fun y hy => (m.fresh y hy).2) hq
      subst this
      exact ⟨g, rfl⟩
    | ok _ =>
      exfalso
      obtain ⟨a1, -, -, ks, a4, a5, a6⟩ := add_spec ids m.ok hx1 (fun y hy => (m.fresh y hy).2) hq
      obtain ⟨k, hk, u, hu, o1, o2⟩ := ho
      have hko := a1.kids x (by rw [a5]; exact hx1)
      have kx : g.kids x = ks := by simp [Heap.kids, a6 x]
      have sp : ∀ i, g.span i = h'.span i := fun i => by simp [Heap.span, a6 i]
      rw [kx, show ks.map g.span = ks.map h'.span from List.map_congr_left (fun i _ => sp i)] at hko
      have ox := m.old x h3
      have hkx : h'.kids x = h.kids x := by unfold Heap.kids; rw [ox]
      -- the spans of the child and of the new one
      have e1 : k.span ∈ (h'.kids x).map h'.span := by
        have hl : LooksAll h (h.kids x) t.kids := by
          cases t; rw [Looks] at h6; exact h6.2.2.2
        have : (h'.kids x).map h'.span = t.kids.map Node.span := by
          rw [looksAll_spans _ _ hl, hkx]
          refine List.map_congr_left (fun i hi => ?_)
          unfold Heap.span; rw [m.old i (h1.kidParent x h3 i hi).1]
        rw [this]; exact List.mem_map_of_mem hk
      have e2 : u.span ∈ ids.map h'.span := by
        rw [← looksAll_spans _ _ m.looks]; exact List.mem_map_of_mem hu
      have sh : ((ks.map h'.span)).Pairwise (fun a b => a.stop ≤ b.start ∨ b.stop ≤ a.start) :=
        hko.ordered.imp (fun hab => Or.inl hab.2)
      have sh2 : ((h'.kids x ++ ids).map h'.span).Pairwise (fun a b => a.stop ≤ b.start ∨ b.stop ≤ a.start) :=
        (a4.map h'.span).pairwise sh (fun {a b} hab => hab.symm)
      rw [List.map_append] at sh2
      have := (List.pairwise_append.mp sh2).2.2 _ e1 _ e2
      unfold Node.start Node.stop at *
      omega

theorem call_fails {s : String} {G : Nat → It} {n i : Nat} {t : Node} (hF : Fails s (traverse G n i) t)
    (hn : need t ≤ n) : Fails s (call G n i) t := by
  intro h x h1 h2 h3 h4 h5
  obtain ⟨h', y, e, m⟩ := clone_made h1 h2 h3 h4 h5 hn
  have hl := m.looks
  rw [LooksAll] at hl
  obtain ⟨h'', e2⟩ := hF h' y m.ok m.acyclic (m.fresh y (by simp)).2 (m.str y (by simp)) hl.1
  refine ⟨h'', ?_⟩
  unfold call
  rw [e]
  exact e2

end Pawpaw.Props
