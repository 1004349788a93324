import Verif.Spec.Pipeline
import Verif.Props.CloneHeap
/-!
# C51: itorator pipelines
-/
set_option linter.unusedSectionVars false
set_option linter.unusedSimpArgs false
namespace Pawpaw.Props
open TreeSpec HeapSpec PipeSpec Heap Pipeline

/-! ## Promises compose -/

/-- What a promise must satisfy to be compositional. -/
structure Promise.Lawful (P : Promise) : Prop where
  refl : ∀ h, P.step h h
  trans : ∀ {a b c}, P.step a b → P.step b c → P.step a c
  mono : ∀ {a b}, P.step a b → a.next ≤ b.next

theorem untouched_lawful (b : Nat) : Promise.Lawful (untouched b) where
  refl _ := ⟨Nat.le_refl _, fun _ _ => rfl⟩
  trans h1 h2 := ⟨Nat.le_trans h1.1 h2.1, fun i hi => (h2.2 i hi).trans (h1.2 i hi)⟩
  mono h := h.1

theorem consistent_lawful : Promise.Lawful consistent where
  refl _ := Nat.le_refl _
  trans h1 h2 := Nat.le_trans h1 h2
  mono h := h

variable {P : Promise}

theorem Own.mono {h h' : Heap} {x : Nat} (hx : P.Own h x) (hn : h.next ≤ h'.next) : P.Own h' x :=
  ⟨hx.1, Nat.lt_of_lt_of_le hx.2 hn⟩

theorem Keeps.before (L : Promise.Lawful P) {h0 h : Heap} {g : Gen} (h1 : P.step h0 h) (h2 : Keeps P h g) : Keeps P h0 g := by
  cases h2 with
  | done a b => exact .done (L.trans h1 a) b
  | raise a b => exact .raise (L.trans h1 a) b
  | yield a b c d => exact .yield (L.trans h1 a) b c d

theorem keeps_andThen (L : Promise.Lawful P) {h : Heap} {g : Gen} (hg : Keeps P h g) {f : Heap → Gen}
    (hf : ∀ h', P.inv h' → h.next ≤ h'.next → Keeps P h' (f h')) : Keeps P h (g.andThen f) := by
  induction hg with
  | done a b => exact Keeps.before L a (hf _ b (L.mono a))
  | raise a b => exact .raise a b
  | yield a b c d ih =>
    have := L.mono a
    exact .yield a b c (fun h'' i n => ih h'' i n (fun h3 i3 n3 => hf h3 i3 (by omega)))

theorem keeps_forEach (L : Promise.Lawful P) {h : Heap} {g : Gen} (hg : Keeps P h g) {f : Heap → Nat → Gen}
    (hf : KeepsT P f) : Keeps P h (g.forEach f) := by
  induction hg with
  | done a b => exact .done a b
  | raise a b => exact .raise a b
  | yield a b c d ih =>
    exact Keeps.before L a (keeps_andThen L (hf _ _ b c) (fun h'' i n => ih h'' i n))

theorem keeps_collect (L : Promise.Lawful P) {h : Heap} {g : Gen} (hg : Keeps P h g) :
    P.step h g.collect.1 ∧ P.inv g.collect.1 ∧ ∀ rs, g.collect.2 = .ok rs → ∀ r ∈ rs, P.Own g.collect.1 r := by
  induction hg with
  | done a b => exact ⟨a, b, by simp [Gen.collect]⟩
  | raise a b => exact ⟨a, b, by simp [Gen.collect]⟩
  | @yield h h' r k a b c d ih =>
    obtain ⟨i1, i2, i3⟩ := ih h' b (Nat.le_refl _)
    rw [Gen.collect]
    generalize (k h').collect = q at *
    obtain ⟨hq, q⟩ := q
    cases q with
    | error e => exact ⟨L.trans a i1, i2, by simp⟩
    | ok rs =>
      refine ⟨L.trans a i1, i2, ?_⟩
      intro rs' hrs r' hr'
      cases hrs
      rcases List.mem_cons.mp hr' with rfl | hr'
      · exact Own.mono c (L.mono i1)
      · exact i3 rs rfl r' hr'

/-- Attaching collected objects to a node keeps the promise. -/
def KeepsAttach (P : Promise) (k : Kind) : Prop := ∀ fuel h x cs, P.inv h → P.Own h x → (∀ c ∈ cs, P.Own h c) →
    P.step h (attach fuel k h x cs).1 ∧ P.inv (attach fuel k h x cs).1

theorem keeps_flow (L : Promise.Lawful P) (fuel : Nat) {trav : Nat → Heap → Nat → Gen} (ht : ∀ i, KeepsT P (trav i)) :
    ∀ cs : List Con, (∀ c ∈ cs, KeepsAttach P c.kind) → KeepsT P (flow fuel trav cs)
  | [], _ => fun h x hi hx => by
    rw [flow]
    exact .yield (L.refl h) hi hx (fun h'' i _ => .done (L.refl _) i)
  | c :: cs, ha => fun h x hi hx => by
    have ih := keeps_flow L fuel ht cs (fun c hc => ha c (by simp [hc]))
    rw [flow]
    cases c.pred h x with
    | error e => exact .raise (L.refl h) hi
    | ok b =>
      cases b with
      | false => exact ih h x hi hx
      | true =>
        dsimp only
        have hA := ha c (by simp)
        have hc := keeps_collect L (ht c.target h x hi hx)
        have key : Keeps P h (match (trav c.target h x).collect with
            | (h, .error e) => .raise h e
            | (h, .ok children) =>
              match attach fuel c.kind h x children with
              | (h, .error e) => .raise h e
              | (h, .ok ()) => flow fuel trav cs h x) := by
          generalize (trav c.target h x).collect = q at *
          obtain ⟨h1, q⟩ := q
          obtain ⟨c1, c2, c3⟩ := hc
          cases q with
          | error e => exact .raise c1 c2
          | ok rs =>
            dsimp only at *
            have hx1 := Own.mono hx (L.mono c1)
            obtain ⟨a1, a2⟩ := hA fuel h1 x rs c2 hx1 (c3 rs rfl)
            generalize attach fuel c.kind h1 x rs = q at *
            obtain ⟨h2, q⟩ := q
            cases q with
            | error e => exact .raise (L.trans c1 a1) a2
            | ok u =>
              exact Keeps.before L (L.trans c1 a1) (ih h2 x a2 (Own.mono hx1 (L.mono a1)))
        cases hk : c.kind with
        | delegate => exact ht c.target h x hi hx
        | recurse => exact keeps_forEach L (ht c.target h x hi hx) ih
        | subroutine =>
          dsimp only
          generalize (trav c.target h x).collect = q at *
          obtain ⟨h1, q⟩ := q
          obtain ⟨c1, c2, c3⟩ := hc
          cases q with
          | error e => exact .raise c1 c2
          | ok rs => exact Keeps.before L c1 (ih h1 x c2 (Own.mono hx (L.mono c1)))
        | add => rw [hk] at key; exact key
        | addHierarchical => rw [hk] at key; exact key
        | replace => rw [hk] at key; exact key
        | delete => rw [hk] at key; exact key

theorem keeps_traverse (L : Promise.Lawful P) {G : Nat → It} (hG : KeepsAll P G)
    (hA : ∀ i, ∀ c ∈ (G i).cons, KeepsAttach P c.kind) : ∀ n i, KeepsT P (traverse G n i)
  | 0, _ => fun h x hi hx => .raise (L.refl h) hi
  | n + 1, i => fun h x hi hx => by
    have ih := keeps_traverse L hG hA n
    have key : ∀ h', P.inv h' → h.next ≤ h'.next →
        Keeps P h' (((G i).transform h' x).forEach (flow n (traverse G n) (G i).cons)) := fun h' i' n' =>
      keeps_forEach L ((hG i).1 h' x i' (Own.mono hx n')) (keeps_flow L n ih _ (hA i))
    rw [traverse]
    unfold It.posted
    cases hp : (G i).post with
    | none => exact key h hi (Nat.le_refl _)
    | some f => exact (hG i).2 f hp _ h hi key

/-! ## Primitive operations leave older objects alone -/

/-- Shorthand: `h` may become `h'` under the promise `untouched b`. -/
def Fr (b : Nat) (h h' : Heap) : Prop := (untouched b).step h h' ∧ Closed b h'

theorem Fr.refl {b : Nat} {h : Heap} (hc : Closed b h) : Fr b h h := ⟨(untouched_lawful b).refl h, hc⟩
theorem Fr.trans {b : Nat} {h h1 h2 : Heap} (a : Fr b h h1) (c : Fr b h1 h2) : Fr b h h2 :=
  ⟨(untouched_lawful b).trans a.1 c.1, c.2⟩

theorem fr_setParent {b : Nat} {h : Heap} (hc : Closed b h) {x : Nat} (hx : b ≤ x) (q : Option Nat) :
    Fr b h (h.setParent x q) := by
  refine ⟨⟨Nat.le_refl _, fun i hi => ?_⟩, hc.1, fun y hy hy' => ?_⟩
  · unfold setParent upd; dsimp only; rw [if_neg (by omega)]
  · rw [kids_setParent]; exact hc.2 y hy hy'

theorem fr_upd {b : Nat} {h : Heap} (hc : Closed b h) {x : Nat} (hx : b ≤ x) {f : Obj → Obj}
    (hf : (f (h.obj x)).kids = (h.obj x).kids) : Fr b h (h.upd x f) := by
  refine ⟨⟨Nat.le_refl _, fun i hi => ?_⟩, hc.1, fun y hy hy' => ?_⟩
  · unfold upd; dsimp only; rw [if_neg (by omega)]
  · have : (h.upd x f).kids y = h.kids y := by
      unfold upd Heap.kids; dsimp only
      split
      · subst y; exact hf
      · rfl
    rw [this]; exact hc.2 y hy hy'

theorem fr_setKids {b : Nat} {h : Heap} (hc : Closed b h) {p : Nat} (hp : b ≤ p) {ks : List Nat}
    (hk : ∀ c ∈ ks, b ≤ c ∧ c < h.next) : Fr b h (h.setKids p ks) := by
  refine ⟨⟨Nat.le_refl _, fun i hi => ?_⟩, hc.1, fun y hy hy' => ?_⟩
  · unfold setKids upd; dsimp only; rw [if_neg (by omega)]
  · rw [kids_setKids]
    split
    · exact hk
    · exact hc.2 y hy hy'

theorem fr_unparent {b : Nat} : ∀ (xs : List Nat) {h : Heap}, Closed b h → (∀ x ∈ xs, b ≤ x) →
    Fr b h (h.unparent xs)
  | [], h, hc, _ => Fr.refl hc
  | x :: xs, h, hc, hx => by
    have a := fr_setParent hc (hx x (by simp)) none
    exact a.trans (fr_unparent xs a.2 (fun y hy => hx y (by simp [hy])))

theorem mem_insertIdx_or {l : List Nat} {i x c : Nat} (hm : c ∈ l.insertIdx i x) : c = x ∨ c ∈ l := by
  induction l generalizing i with
  | nil => cases i <;> simp_all [List.insertIdx]
  | cons a l ih =>
    cases i with
    | zero => simpa using hm
    | succ i =>
      rw [List.insertIdx_succ_cons, List.mem_cons] at hm
      rcases hm with rfl | hm
      · exact Or.inr (by simp)
      · rcases ih hm with e | e
        · exact Or.inl e
        · exact Or.inr (by simp [e])

theorem fr_addOne {b : Nat} {h : Heap} (hc : Closed b h) {p x : Nat} (hp : b ≤ p ∧ p < h.next)
    (hx : b ≤ x ∧ x < h.next) : Fr b h (h.addOne p x).1 := by
  unfold addOne
  split
  · exact Fr.refl hc
  · dsimp only
    split
    · exact Fr.refl hc
    · split
      · exact Fr.refl hc
      · split
        · exact Fr.refl hc
        · have a := fr_setParent hc hx.1 (some p)
          refine a.trans (fr_setKids a.2 hp.1 ?_)
          intro c hm
          rcases mem_insertIdx_or hm with rfl | hm
          · exact hx
          · rw [kids_setParent] at hm; exact hc.2 p hp.1 hp.2 c hm

theorem fr_add {b : Nat} : ∀ (xs : List Nat) {h : Heap}, Closed b h → ∀ {p : Nat}, b ≤ p ∧ p < h.next →
    (∀ x ∈ xs, b ≤ x ∧ x < h.next) → Fr b h (h.add p xs).1
  | [], h, hc, _, _, _ => Fr.refl hc
  | x :: xs, h, hc, p, hp, hx => by
    have a := fr_addOne hc hp (hx x (by simp))
    rw [Heap.add]
    generalize h.addOne p x = q at *
    obtain ⟨h1, q⟩ := q
    cases q with
    | error e => exact a
    | ok u =>
      have := a.1.1
      exact a.trans (fr_add xs a.2 ⟨hp.1, by omega⟩ (fun y hy => by have := hx y (by simp [hy]); omega))

theorem fr_delInt {b : Nat} {h : Heap} (hc : Closed b h) {p : Nat} (hp : b ≤ p ∧ p < h.next) (k : Int) :
    Fr b h (h.delInt p k).1 := by
  unfold delInt
  split
  · exact Fr.refl hc
  · rename_i i _
    dsimp only
    have hkid := hc.2 p hp.1 hp.2
    have a := fr_unparent ((h.kids p)[i]?.toList) hc (fun x hx => by
      rw [Option.mem_toList] at hx; exact (hkid x (List.mem_of_getElem? hx)).1)
    refine a.trans (fr_setKids a.2 hp.1 ?_)
    intro c hm
    rw [kids_unparent] at hm
    rw [unparent_next]
    exact hkid c (List.mem_of_mem_eraseIdx hm)

theorem fr_delSlice {b : Nat} {h : Heap} (hc : Closed b h) {p : Nat} (hp : b ≤ p ∧ p < h.next) (s t : Option Int) :
    Fr b h (h.delSlice p s t).1 := by
  unfold delSlice
  dsimp only
  have hkid := hc.2 p hp.1 hp.2
  generalize Span.fromIndices (h.kids p).length s t = sp
  have a := fr_unparent (((h.kids p).drop sp.start.toNat).take (sp.stop.toNat - sp.start.toNat)) hc (fun x hx =>
    (hkid x (List.mem_of_mem_drop (List.mem_of_mem_take hx))).1)
  refine a.trans (fr_setKids a.2 hp.1 ?_)
  intro c hm
  rw [kids_unparent, List.mem_append] at hm
  rw [unparent_next]
  rcases hm with hm | hm
  · exact hkid c (List.mem_of_mem_take hm)
  · exact hkid c (List.mem_of_mem_drop hm)

theorem fr_remove {b : Nat} {h : Heap} (hc : Closed b h) {p : Nat} (hp : b ≤ p ∧ p < h.next) (x : Nat) :
    Fr b h (h.remove p x).1 := by
  unfold remove
  dsimp only
  split
  · exact fr_delInt hc hp _
  · exact Fr.refl hc

theorem fr_removeAll {b : Nat} : ∀ (xs : List Nat) {h : Heap}, Closed b h → ∀ {p : Nat}, b ≤ p ∧ p < h.next →
    Fr b h (removeAll h p xs).1
  | [], h, hc, _, _ => Fr.refl hc
  | x :: xs, h, hc, p, hp => by
    have a := fr_remove hc hp x
    rw [removeAll]
    generalize h.remove p x = q at *
    obtain ⟨h1, q⟩ := q
    cases q with
    | error e => exact a
    | ok u =>
      have := a.1.1
      exact a.trans (fr_removeAll xs a.2 ⟨hp.1, by omega⟩)

theorem fr_pop {b : Nat} {h : Heap} (hc : Closed b h) {p : Nat} (hp : b ≤ p ∧ p < h.next) (i : Int) :
    Fr b h (h.pop p i).1 ∧ ∀ y, (h.pop p i).2 = .ok y → b ≤ y ∧ y < (h.pop p i).1.next := by
  have a := fr_delInt hc hp i
  refine ⟨by rw [pop_fst]; exact a, ?_⟩
  rw [pop_fst]
  unfold pop
  split
  · intro y hy; simp at hy
  · split
    · intro y hy; simp at hy
    · rename_i rv hrv
      have h1 := hc.2 p hp.1 hp.2 rv (List.mem_of_getElem? hrv)
      have := a.1.1
      intro y hy
      generalize h.delInt p i = q at *
      obtain ⟨h1, q⟩ := q
      cases q with
      | error e => simp at hy
      | ok u => simp at hy; subst hy; dsimp only at *; omega

theorem fr_absorb {b : Nat} {h : Heap} (hc : Closed b h) {p x : Nat} (hp : b ≤ p ∧ p < h.next)
    (hx : b ≤ x ∧ x < h.next) (i j : Nat) : Fr b h (absorb h p x i j).1 := by
  unfold absorb
  dsimp only
  have a := fr_delSlice hc hp (some (i : Int)) (some (j : Int))
  have n1 := a.1.1
  generalize hq : h.delSlice p (some (i : Int)) (some (j : Int)) = q at *
  obtain ⟨h1, q⟩ := q
  cases q with
  | error e => exact a
  | ok u =>
    dsimp only at *
    have a2 := fr_add (((h.kids p).drop i).take (j - i)) a.2 (p := x) ⟨hx.1, by omega⟩ (fun y hy => by
      have := hc.2 p hp.1 hp.2 y (List.mem_of_mem_drop (List.mem_of_mem_take hy)); omega)
    have n2 := a2.1.1
    generalize h1.add x (((h.kids p).drop i).take (j - i)) = q at *
    obtain ⟨h2, q⟩ := q
    cases q with
    | error e => exact a.trans a2
    | ok u =>
      dsimp only at *
      have a3 := fr_setKids (ks := (h2.kids p).insertIdx i x) a2.2 hp.1 (by
        intro c hm
        rcases mem_insertIdx_or hm with rfl | hm
        · omega
        · exact a2.2.2 p hp.1 (by omega) c hm)
      split
      · exact (a.trans a2).trans a3
      · exact ((a.trans a2).trans a3).trans (fr_setParent a3.2 hx.1 _)

mutual
theorem fr_addHier {b : Nat} (key : Option (Nat → Int)) : ∀ (n : Nat) {h : Heap}, Closed b h →
    ∀ {p x : Nat}, b ≤ p ∧ p < h.next → b ≤ x ∧ x < h.next → Fr b h (addHier key n h p x).1
  | 0, h, hc, p, x, hp, hx => by rw [addHier]; exact Fr.refl hc
  | n + 1, h, hc, p, x, hp, hx => by
    rw [addHier]
    split
    · exact Fr.refl hc
    · split
      · split
        · exact Fr.refl hc
        · have a := fr_setParent hc hx.1 (some p)
          refine a.trans (fr_setKids a.2 hp.1 ?_)
          intro c hm
          rw [kids_setParent, List.mem_append, List.mem_singleton] at hm
          rcases hm with hm | rfl
          · exact hc.2 p hp.1 hp.2 c hm
          · exact hx
      · have a := fr_flatten key n hc hp hx
        have n1 := a.1.1
        generalize flatten key n h p x = q at *
        obtain ⟨h1, q⟩ := q
        cases q with
        | error e => exact a
        | ok u =>
          dsimp only at *
          have hp1 : b ≤ p ∧ p < h1.next := by omega
          have hx1 : b ≤ x ∧ x < h1.next := by omega
          have hkid := a.2.2 p hp1.1 hp1.2
          split
          · exact a
          · split
            · exact a
            · rename_i tmp htmp
              exact a.trans (fr_addHier key n a.2 (hkid tmp (List.mem_of_getElem? htmp)) hx1)
          · rename_i i _
            have a3 := fr_setKids (ks := (h1.kids p).insertIdx i x) a.2 hp.1 (by
              intro c hm
              rcases mem_insertIdx_or hm with rfl | hm
              · exact hx1
              · exact hkid c hm)
            split
            · exact a.trans a3
            · exact (a.trans a3).trans (fr_setParent a3.2 hx.1 _)
          · split
            · exact a
            · rename_i tmp htmp
              split
              · split
                · exact a.trans (fr_addHier _ n a.2 (hkid tmp (List.mem_of_getElem? htmp)) hx1)
                · exact a.trans (fr_absorb a.2 hp1 hx1 _ _)
              · split
                · exact a.trans (fr_addHier _ n a.2 (hkid tmp (List.mem_of_getElem? htmp)) hx1)
                · exact a.trans (fr_absorb a.2 hp1 hx1 _ _)
          · exact a.trans (fr_absorb a.2 hp1 hx1 _ _)
theorem fr_flatten {b : Nat} (key : Option (Nat → Int)) : ∀ (n : Nat) {h : Heap}, Closed b h →
    ∀ {p x : Nat}, b ≤ p ∧ p < h.next → b ≤ x ∧ x < h.next → Fr b h (flatten key n h p x).1
  | 0, h, hc, p, x, hp, hx => by rw [flatten]; exact Fr.refl hc
  | n + 1, h, hc, p, x, hp, hx => by
    rw [flatten]
    split
    · exact Fr.refl hc
    · obtain ⟨a, a'⟩ := fr_pop hc hx (-1)
      have n1 := a.1.1
      generalize h.pop x (-1) = q at *
      obtain ⟨h1, q⟩ := q
      cases q with
      | error e => exact a
      | ok y =>
        dsimp only at *
        have c := fr_addHier key n a.2 (p := p) (x := y) (by omega) (a' y rfl)
        have n2 := c.1.1
        generalize addHier key n h1 p y = q at *
        obtain ⟨h2, q⟩ := q
        cases q with
        | error e => exact a.trans c
        | ok u =>
          dsimp only at *
          exact (a.trans c).trans (fr_flatten key n c.2 (by omega) (by omega))
end

theorem fr_addHierAll {b : Nat} (n : Nat) : ∀ (xs : List Nat) {h : Heap}, Closed b h → ∀ {p : Nat},
    b ≤ p ∧ p < h.next → (∀ x ∈ xs, b ≤ x ∧ x < h.next) → Fr b h (addHierAll n h p xs).1
  | [], h, hc, _, _, _ => Fr.refl hc
  | x :: xs, h, hc, p, hp, hx => by
    have a := fr_addHier none n hc hp (hx x (by simp))
    rw [addHierAll]
    generalize addHier none n h p x = q at *
    obtain ⟨h1, q⟩ := q
    cases q with
    | error e => exact a
    | ok u =>
      have := a.1.1
      exact a.trans (fr_addHierAll n xs a.2 ⟨hp.1, by omega⟩ (fun y hy => by have := hx y (by simp [hy]); omega))

theorem keepsAttach_untouched (b : Nat) (k : Kind) : KeepsAttach (untouched b) k := by
  intro fuel h x cs hc hx hcs
  have key : ∀ {q : Heap.Res}, Fr b h q.1 → (untouched b).step h q.1 ∧ (untouched b).inv q.1 := fun a => a
  apply key
  unfold attach
  cases k with
  | add => exact fr_add cs hc hx hcs
  | addHierarchical => exact fr_addHierAll fuel cs hc hx hcs
  | replace =>
    dsimp only
    have a := fr_delSlice hc hx none none
    have n1 := a.1.1
    rw [show h.clear x = h.delSlice x none none from rfl]
    generalize h.delSlice x none none = q at *
    obtain ⟨h1, q⟩ := q
    cases q with
    | error e => exact a
    | ok u =>
      dsimp only at *
      exact a.trans (fr_add cs a.2 ⟨hx.1, Nat.lt_of_lt_of_le hx.2 n1⟩
        (fun c hc' => ⟨(hcs c hc').1, Nat.lt_of_lt_of_le (hcs c hc').2 n1⟩))
  | delete => exact fr_removeAll cs hc hx
  | delegate => exact fr_removeAll cs hc hx
  | recurse => exact fr_removeAll cs hc hx
  | subroutine => exact fr_removeAll cs hc hx

theorem fr_newLike {b : Nat} {h : Heap} (hc : Closed b h) (x : Nat) (s t : Int) (d : Option String) :
    Fr b h (h.newLike x s t d) := by
  have hb := hc.1
  refine ⟨⟨by unfold newLike; dsimp only; omega, fun i hi => ?_⟩, by unfold newLike; dsimp only; omega, ?_⟩
  · unfold newLike; dsimp only; rw [if_neg (by omega)]
  · intro y hy hy' c hm
    unfold newLike Heap.kids at *
    dsimp only at *
    split at hm
    · simp at hm
    · have := hc.2 y hy (by omega) c hm
      omega

mutual
theorem fr_cloneObj {b : Nat} : ∀ (n : Nat) {h : Heap}, Closed b h → ∀ (x : Nat),
    Fr b h (cloneObj n h x).1 ∧ ∀ y, (cloneObj n h x).2 = .ok y → b ≤ y ∧ h.next ≤ y ∧ y < (cloneObj n h x).1.next
  | 0, h, hc, x => by rw [cloneObj]; exact ⟨Fr.refl hc, by simp⟩
  | n + 1, h, hc, x => by
    rw [cloneObj]
    have a := fr_newLike hc x (h.span x).start (h.span x).stop (h.obj x).desc
    have n1 : (h.newLike x (h.span x).start (h.span x).stop (h.obj x).desc).next = h.next + 1 := rfl
    generalize h.newLike x (h.span x).start (h.span x).stop (h.obj x).desc = h1 at *
    obtain ⟨c1, c2⟩ := fr_cloneObjs n a.2 (h.kids x)
    have n2 := c1.1.1
    generalize cloneObjs n h1 (h.kids x) = q at *
    obtain ⟨h2, q⟩ := q
    unfold finishClone
    cases q with
    | error e => exact ⟨a.trans c1, by simp⟩
    | ok cs =>
      dsimp only at *
      have := hc.1
      have e := fr_add cs c1.2 (p := h.next) (by omega) (fun y hy => by have := c2 cs rfl y hy; omega)
      have n3 := e.1.1
      generalize h2.add h.next cs = q at *
      obtain ⟨h3, q⟩ := q
      cases q with
      | error e' => exact ⟨(a.trans c1).trans e, by simp⟩
      | ok u =>
        refine ⟨(a.trans c1).trans e, ?_⟩
        intro y hy
        simp only [Except.ok.injEq] at hy
        subst hy
        dsimp only at *
        omega
theorem fr_cloneObjs {b : Nat} : ∀ (n : Nat) {h : Heap}, Closed b h → ∀ (xs : List Nat),
    Fr b h (cloneObjs n h xs).1 ∧ ∀ ys, (cloneObjs n h xs).2 = .ok ys →
      ∀ y ∈ ys, b ≤ y ∧ h.next ≤ y ∧ y < (cloneObjs n h xs).1.next
  | n, h, hc, [] => by
    rw [show cloneObjs n h [] = (h, .ok []) by cases n <;> rfl]
    refine ⟨Fr.refl hc, ?_⟩
    intro ys hys; simp at hys; subst hys; simp
  | 0, h, hc, x :: xs => by rw [cloneObjs]; exact ⟨Fr.refl hc, by simp⟩
  | n + 1, h, hc, x :: xs => by
    rw [cloneObjs]
    obtain ⟨a1, a2⟩ := fr_cloneObj n hc x
    have n1 := a1.1.1
    generalize cloneObj n h x = q at *
    obtain ⟨h1, q⟩ := q
    cases q with
    | error e => exact ⟨a1, by simp⟩
    | ok y =>
      dsimp only at *
      obtain ⟨c1, c2⟩ := fr_cloneObjs n a1.2 xs
      have n2 := c1.1.1
      generalize cloneObjs n h1 xs = q at *
      obtain ⟨h2, q⟩ := q
      cases q with
      | error e => exact ⟨a1.trans c1, by simp⟩
      | ok ys =>
        refine ⟨a1.trans c1, ?_⟩
        intro zs hzs z hz
        simp only [Except.ok.injEq] at hzs
        subst hzs
        dsimp only at *
        rcases List.mem_cons.mp hz with rfl | hz
        · have := a2 z rfl; omega
        · have := c2 ys rfl z hz; omega
end

/-! ## The transforms of the library -/

theorem keepsT_reflect (L : Promise.Lawful P) : KeepsT P reflect := fun h _ hi hx =>
  .yield (L.refl h) hi hx (fun h'' i _ => .done (L.refl h'') i)

theorem keepsT_filter (L : Promise.Lawful P) (p : Heap → Nat → Except PyErr Bool) : KeepsT P (filter p) := by
  intro h x hi hx
  unfold Pipeline.filter
  cases p h x with
  | error e => exact .raise (L.refl h) hi
  | ok b =>
    cases b with
    | true => exact .yield (L.refl h) hi hx (fun h'' i _ => .done (L.refl h'') i)
    | false => exact .done (L.refl h) hi

theorem keepsT_desc (b : Nat) (f : Heap → Nat → Except PyErr (Option String)) : KeepsT (untouched b) (descT f) := by
  intro h x hi hx
  unfold descT
  cases f h x with
  | error e => exact .raise ((untouched_lawful b).refl h) hi
  | ok d =>
    have a := fr_upd (f := fun o => { o with desc := d }) hi hx.1 rfl
    exact .yield a.1 a.2 hx (fun h'' i _ => .done ((untouched_lawful b).refl h'') i)

theorem keepsT_valueFunc (b : Nat) (f : Option Nat) : KeepsT (untouched b) (valueFuncT f) := by
  intro h x hi hx
  unfold valueFuncT
  have a := fr_upd (f := fun o => { o with vf := f }) hi hx.1 rfl
  exact .yield a.1 a.2 hx (fun h'' i _ => .done ((untouched_lawful b).refl h'') i)

theorem keepsT_pieces (b : Nat) (ps : Heap → Nat → List (Int × Int × Option String)) :
    KeepsT (untouched b) (fun h x => pieces x (ps h x) h) := by
  intro h x hi hx
  dsimp only
  generalize ps h x = l
  induction l generalizing h with
  | nil => exact .done ((untouched_lawful b).refl h) hi
  | cons q l ih =>
    obtain ⟨s, t, d⟩ := q
    have a := fr_newLike hi x s t d
    rw [pieces]
    refine .yield a.1 a.2 ⟨hi.1, by simp [newLike]⟩ (fun h'' i n => ih h'' i ?_)
    have : (h.newLike x s t d).next = h.next + 1 := rfl
    exact ⟨hx.1, by have := hx.2; omega⟩

/-- An alternative of a `Nuco` is a call, which clones; it keeps the promise too. -/
theorem keepsT_nuco (L : Promise.Lawful P) : ∀ calls : List (Heap → Nat → Gen), (∀ c ∈ calls, KeepsT P c) →
    KeepsT P (nucoT calls)
  | [], _ => fun h x hi hx => .done (L.refl h) hi
  | c :: cs, hcs => fun h x hi hx => by
    have a := hcs c (by simp) h x hi hx
    rw [nucoT]
    cases hg : c h x with
    | done h' =>
      rw [hg] at a
      cases a with
      | done s i =>
        exact Keeps.before L s (keepsT_nuco L cs (fun c hc => hcs c (by simp [hc])) h' x i (Own.mono hx (L.mono s)))
    | raise h' e => rw [hg] at a; exact a
    | yield h' r k => rw [hg] at a; exact a

/-- Whatever `call` is given, under any promise-keeping pipeline. -/
theorem keeps_call {b : Nat} {G : Nat → It} (hG : KeepsAll (untouched b) G) (n i : Nat) {h : Heap}
    (hi : Closed b h) (x : Nat) : Keeps (untouched b) h (call G n i h x) := by
  unfold call
  obtain ⟨a1, a2⟩ := fr_cloneObj n hi x
  generalize h.cloneObj n x = q at *
  obtain ⟨h1, q⟩ := q
  cases q with
  | error e => exact .raise a1.1 a1.2
  | ok y =>
    have := a2 y rfl
    exact Keeps.before (untouched_lawful b) a1.1 (keeps_traverse (untouched_lawful b) hG
      (fun _ _ _ => keepsAttach_untouched b _) n i h1 y a1.2 ⟨this.1, this.2.2⟩)

theorem keepsT_call {b : Nat} {G : Nat → It} (hG : KeepsAll (untouched b) G) (n i : Nat) :
    KeepsT (untouched b) (call G n i) := fun _ x hi _ => keeps_call hG n i hi x

/-- The built-in transforms: `Reflect`, `Filter`, `Desc`, `ValueFunc`, transforms that make new childless Itos on the
string of their argument (`Split`, and `Extract` without groups), and `Nuco` over calls of such pipelines. -/
inductive Builtin : (Heap → Nat → Gen) → Prop
  | reflect : Builtin Pipeline.reflect
  | filter (p) : Builtin (Pipeline.filter p)
  | desc (f) : Builtin (descT f)
  | valueFunc (f) : Builtin (valueFuncT f)
  | pieces (ps : Heap → Nat → List (Int × Int × Option String)) : Builtin (fun h x => Pipeline.pieces x (ps h x) h)
  | nuco (calls : List ((Nat → It) × Nat × Nat)) :
      (∀ c ∈ calls, ∀ i, Builtin (c.1 i).transform) → (∀ c ∈ calls, ∀ i, (c.1 i).post = none) →
      Builtin (nucoT (calls.map (fun c => call c.1 c.2.1 c.2.2)))

theorem builtin_keeps (b : Nat) {t : Heap → Nat → Gen} (ht : Builtin t) : KeepsT (untouched b) t := by
  induction ht with
  | reflect => exact keepsT_reflect (untouched_lawful b)
  | filter p => exact keepsT_filter (untouched_lawful b) p
  | desc f => exact keepsT_desc b f
  | valueFunc f => exact keepsT_valueFunc b f
  | pieces ps => exact keepsT_pieces b ps
  | nuco calls _ hp ih =>
    refine keepsT_nuco (untouched_lawful b) _ (fun c hc => ?_)
    obtain ⟨q, hq, rfl⟩ := List.mem_map.mp hc
    refine keepsT_call (fun i => ⟨ih q hq i, fun f hf => ?_⟩) _ _
    rw [hp q hq i] at hf; cases hf

/-! ## C51 -/

/-- C51: calling an itorator, with any connections (cyclic ones too) and any transforms and postorators that touch only
what they are given, never changes an object that existed before the call, wherever the generator stops and whatever its
consumer does between two results, and it yields only objects made since. (The consumer must not move existing objects
under yielded ones.) -/
theorem C51_call_no_modify {G : Nat → It} {h : Heap} (hG : KeepsAll (untouched h.next) G) (n i x : Nat) :
    Keeps (untouched h.next) h (call G n i h x) :=
  keeps_call hG n i ⟨Nat.le_refl _, fun y h1 h2 => by omega⟩ x

/-- C51: for built-in transforms, `[*itorator(x)]` leaves everything that existed as it was, raising or not, and returns
new objects only. -/
theorem C51_call_no_modify_builtin {G : Nat → It} (hG : ∀ i, Builtin (G i).transform) (hp : ∀ i, (G i).post = none)
    (h : Heap) (n i x : Nat) :
    (∀ y < h.next, (call G n i h x).collect.1.obj y = h.obj y) ∧
    ∀ rs, (call G n i h x).collect.2 = .ok rs → ∀ r ∈ rs, h.next ≤ r := by
  obtain ⟨a, _, c⟩ := keeps_collect (untouched_lawful h.next) (C51_call_no_modify (G := G) (h := h) (fun i =>
    ⟨builtin_keeps _ (hG i), fun f hf => by rw [hp i] at hf; cases hf⟩) n i x)
  exact ⟨a.2, fun rs hrs r hr => (c rs hrs r hr).1⟩

/-- C51: `_traverse` itself, which does not clone, works on the object it is given: the argument can change. -/
theorem C51_traverse_modifies : ∃ (G : Nat → It) (h : Heap) (x : Nat), (∀ i, Builtin (G i).transform) ∧
    x < h.next ∧ ((traverse G 3 0 h x).collect.1.obj x).desc ≠ (h.obj x).desc :=
  ⟨fun _ => { transform := descT (fun _ _ => .ok (some "d")) }, empty.new "ab" none none none, 0,
    fun _ => Builtin.desc (fun _ _ => .ok (some "d")), by decide, by decide⟩

/-! ### Order -/

theorem collect_andThen (g : Gen) (f : Heap → Gen) : (g.andThen f).collect =
    match g.collect with
    | (h, .error e) => (h, .error e)
    | (h, .ok ys) =>
      match (f h).collect with
      | (h', .error e) => (h', .error e)
      | (h', .ok zs) => (h', .ok (ys ++ zs)) := by
  induction g with
  | done h =>
    simp only [Gen.andThen, Gen.collect]
    generalize (f h).collect = q
    obtain ⟨_, q⟩ := q
    cases q <;> rfl
  | raise h e => rfl
  | yield h r k ih =>
    rw [Gen.andThen, Gen.collect, Gen.collect, ih h]
    generalize (k h).collect = q
    obtain ⟨h1, q⟩ := q
    cases q with
    | error e => rfl
    | ok ys =>
      dsimp only
      generalize (f h1).collect = q
      obtain ⟨h2, q⟩ := q
      cases q <;> rfl

theorem collect_forEach (g : Gen) (f : Heap → Nat → Gen) (h' : Heap) (out : List Nat) :
    (g.forEach f).collect = (h', .ok out) ↔ ∃ tr, Serves f g h' tr ∧ out = tr.flatMap (·.2) := by
  induction g generalizing h' out with
  | done h =>
    rw [Gen.forEach, Gen.collect]
    constructor
    · intro e; cases e; exact ⟨[], .done, rfl⟩
    · rintro ⟨tr, ht, rfl⟩; cases ht; rfl
  | raise h e =>
    rw [Gen.forEach, Gen.collect]
    constructor
    · intro e; cases e
    · rintro ⟨tr, ht, rfl⟩; cases ht
  | yield h r k ih =>
    rw [Gen.forEach, collect_andThen]
    constructor
    · intro e
      generalize hq : (f h r).collect = q at e
      obtain ⟨h1, q⟩ := q
      cases q with
      | error e' => simp at e
      | ok ys =>
        dsimp only at e
        generalize hz : ((k h1).forEach f).collect = q at e
        obtain ⟨h2, q⟩ := q
        cases q with
        | error e' => simp at e
        | ok zs =>
          dsimp only at e
          cases e
          obtain ⟨tr, t1, rfl⟩ := (ih h1 _ zs).mp hz
          exact ⟨(r, ys) :: tr, .yield hq t1, rfl⟩
    · rintro ⟨tr, ht, rfl⟩
      cases ht with
      | @yield _ _ _ h1 ys _ tr t1 t2 =>
        rw [t1]
        dsimp only
        rw [(ih h1 h' (tr.flatMap (·.2))).mpr ⟨tr, t2, rfl⟩]
        rfl

/-- C51: the results of an itorator without postorator are those of its connections for each transformed piece, in the
order of the pieces. -/
theorem C51_order (G : Nat → It) (n i : Nat) (h : Heap) (x : Nat) (hp : (G i).post = none) (h' : Heap)
    (out : List Nat) : (traverse G (n + 1) i h x).collect = (h', .ok out) ↔
      ∃ tr, Serves (flow n (traverse G n) (G i).cons) ((G i).transform h x) h' tr ∧ out = tr.flatMap (·.2) := by
  rw [traverse, It.posted, hp]
  exact collect_forEach _ _ _ _

/-- C51: without connections an itorator yields exactly what its transform yields. -/
theorem C51_no_connections (G : Nat → It) (n i : Nat) (h : Heap) (x : Nat) (hp : (G i).post = none)
    (hc : (G i).cons = []) : traverse G (n + 1) i h x = (G i).transform h x := by
  rw [traverse, It.posted, hp]
  dsimp only
  rw [hc]
  generalize (G i).transform h x = g
  induction g with
  | done h => rfl
  | raise h e => rfl
  | yield h r k ih =>
    rw [Gen.forEach, flow, Gen.andThen]
    congr 1
    funext h'
    rw [Gen.andThen]
    exact ih h'

/-! ### Delegation composes -/

theorem andThen_assoc (g : Gen) (f f' : Heap → Gen) :
    (g.andThen f).andThen f' = g.andThen (fun h => (f h).andThen f') := by
  induction g with
  | done h => rfl
  | raise h e => rfl
  | yield h r k ih =>
    rw [Gen.andThen, Gen.andThen, Gen.andThen]
    congr 1
    funext h'
    exact ih h'

theorem forEach_andThen (g : Gen) (f : Heap → Gen) (t : Heap → Nat → Gen) :
    (g.andThen f).forEach t = (g.forEach t).andThen (fun h => (f h).forEach t) := by
  induction g with
  | done h => rfl
  | raise h e => rfl
  | yield h r k ih =>
    rw [Gen.andThen, Gen.forEach, Gen.forEach, andThen_assoc]
    congr 1
    funext h'
    exact ih h'

/-- C51: `for y in (for x in g: yield from f(x)): yield from f'(y)` is `for x in g: for y in f(x): yield from f'(y)`,
step by step, for every consumer. -/
theorem forEach_assoc (g : Gen) (f f' : Heap → Nat → Gen) :
    (g.forEach f).forEach f' = g.forEach (fun h x => (f h x).forEach f') := by
  induction g with
  | done h => rfl
  | raise h e => rfl
  | yield h r k ih =>
    rw [Gen.forEach, Gen.forEach, forEach_andThen]
    congr 1
    funext h'
    exact ih h'

/-- Itorators `0, 1, …` with the given transforms, each delegating everything to the next. -/
def delegateChain (ts : List (Heap → Nat → Gen)) (i : Nat) : It where
  transform := ts.getD i reflect
  cons := if i + 1 < ts.length then [⟨.delegate, i + 1, fun _ _ => .ok true⟩] else []

/-- C51: a chain of delegates is the composition of its transforms: what the first makes goes to the second, and so on,
lazily, for any transforms (with effects and exceptions) and any consumer. -/
theorem C51_delegates_compose (t : Heap → Nat → Gen) (ts : List (Heap → Nat → Gen)) (n : Nat) (hn : ts.length < n)
    (h : Heap) (x : Nat) : traverse (delegateChain (t :: ts)) n 0 h x = ts.foldl Gen.forEach (t h x) := by
  have key : ∀ (us : List (Heap → Nat → Gen)) (i : Nat), (t :: ts).drop i = us → us ≠ [] → ∀ n, us.length ≤ n →
      ∀ h x, traverse (delegateChain (t :: ts)) n i h x = us.tail.foldl Gen.forEach (us.headD reflect h x) := by
    intro us
    induction us with
    | nil => intro i _ h; exact absurd rfl h
    | cons u us ih =>
      intro i hi _ n hn h x
      obtain ⟨n, rfl⟩ : ∃ m, n = m + 1 := ⟨n - 1, by simp at hn; omega⟩
      have hlen : (t :: ts).length - i = us.length + 1 := by
        have := congrArg List.length hi; simpa using this
      have hget : (t :: ts).getD i reflect = u := by
        have := congrArg (·[0]?) hi
        simp only [List.getElem?_drop, Nat.add_zero] at this
        rw [List.getD_eq_getElem?_getD, this]; rfl
      cases us with
      | nil =>
        rw [C51_no_connections _ _ _ _ _ rfl]
        · show (delegateChain (t :: ts) i).transform h x = _
          unfold delegateChain; dsimp only; rw [hget]; rfl
        · unfold delegateChain; dsimp only; rw [if_neg]
          simp only [List.length_nil] at hlen; omega
      | cons v vs =>
        rw [traverse, It.posted]
        have e1 : (delegateChain (t :: ts) i).post = none := rfl
        have e2 : (delegateChain (t :: ts) i).transform = u := by unfold delegateChain; exact hget
        have e3 : (delegateChain (t :: ts) i).cons = [⟨.delegate, i + 1, fun _ _ => .ok true⟩] := by
          unfold delegateChain; dsimp only; rw [if_pos]; simp only [List.length_cons] at hlen ⊢; omega
        rw [e1]; dsimp only; rw [e2, e3]
        have e4 : flow n (traverse (delegateChain (t :: ts)) n) [⟨.delegate, i + 1, fun _ _ => .ok true⟩] =
            fun h x => vs.foldl Gen.forEach (v h x) := by
          funext h x
          rw [flow]; dsimp only
          exact ih (i + 1) (by rw [← List.drop_drop, hi]; rfl) (by simp) n (by simp at hn ⊢; omega) h x
        rw [e4]
        clear ih hi hlen hget e1 e2 e3 e4 hn
        show _ = (v :: vs).foldl Gen.forEach (u h x)
        generalize u h x = g
        rw [List.foldl_cons]
        have : ∀ (vs : List (Heap → Nat → Gen)) (v : Heap → Nat → Gen),
            g.forEach (fun h x => vs.foldl Gen.forEach (v h x)) = vs.foldl Gen.forEach (g.forEach v) := by
          intro vs
          induction vs with
          | nil => intro v; rfl
          | cons w ws ih =>
            intro v
            simp only [List.foldl_cons]
            rw [forEach_assoc]
            exact ih (fun h x => (v h x).forEach w)
        exact this vs v
  exact key (t :: ts) 0 rfl (by simp) n (by simp; omega) h x

theorem collect_ofList (l : List Nat) (h : Heap) : (Gen.ofList l h).collect = (h, .ok l) := by
  induction l with
  | nil => rfl
  | cons x l ih => rw [Gen.ofList, Gen.collect, ih]

theorem ofList_forEach (l : List Nat) (f : Nat → List Nat) (h : Heap) :
    (Gen.ofList l h).forEach (fun h x => Gen.ofList (f x) h) = Gen.ofList (l.flatMap f) h := by
  induction l generalizing h with
  | nil => rfl
  | cons x l ih =>
    rw [Gen.ofList, Gen.forEach, List.flatMap_cons]
    have : (fun h' => (Gen.ofList l h').forEach (fun h x => Gen.ofList (f x) h)) = Gen.ofList (l.flatMap f) :=
      funext ih
    rw [this]
    generalize f x = m
    induction m generalizing h with
    | nil => rfl
    | cons y m im =>
      rw [Gen.ofList, Gen.andThen, List.cons_append, Gen.ofList]
      congr 1
      funext h'
      exact im h'

/-- C51: if transforms only read (each maps an object to a list of objects), a delegate chain returns the objects
obtained by mapping with each in turn, in order. -/
theorem C51_delegates_pure (f : Nat → List Nat) (fs : List (Nat → List Nat)) (n : Nat) (hn : fs.length < n)
    (h : Heap) (x : Nat) :
    (traverse (delegateChain ((f :: fs).map (fun f h x => Gen.ofList (f x) h))) n 0 h x).collect =
      (h, .ok (fs.foldl (fun acc f => acc.flatMap f) (f x))) := by
  rw [List.map_cons, C51_delegates_compose _ _ _ (by simpa using hn)]
  generalize f x = l
  induction fs generalizing l n with
  | nil => exact collect_ofList l h
  | cons g gs ih =>
    rw [List.map_cons, List.foldl_cons, List.foldl_cons, ofList_forEach]
    exact ih n (by simp at hn ⊢; omega) _

/-- C51: an itorator whose connection's predicate is false of a piece passes the piece on to the next connection. -/
theorem C51_predicate_false (n : Nat) (trav : Nat → Heap → Nat → Gen) (c : Con) (cs : List Con) (h : Heap) (x : Nat)
    (hp : c.pred h x = .ok false) : flow n trav (c :: cs) h x = flow n trav cs h x := by
  rw [flow, hp]

/-! ### Children connectors -/

theorem add_spec {p : Nat} : ∀ (xs : List Nat) {h : Heap}, OK h → p < h.next → (∀ x ∈ xs, x < h.next) → ∀ {h' : Heap},
    h.add p xs = (h', .ok ()) → OK h' ∧ xs.Nodup ∧ (∀ x ∈ xs, h.parent x = none ∧ x ≠ p) ∧
      ∃ ks, ks.Perm (h.kids p ++ xs) ∧ Relinked h h' p ks xs (some p)
  | [], h, hok, hp, hx, h', e => by
    rw [Heap.add] at e; cases e
    refine ⟨hok, by simp, by simp, h.kids p, by simp, rfl, fun y => ?_⟩
    by_cases e : y = p
    · subst e; simp [Heap.kids]
    · simp [e]
  | x :: xs, h, hok, hp, hx, h', e => by
    rw [Heap.add] at e
    rcases addOne_spec hok hp (hx x (by simp)) with e1 | ⟨q1, q2, q3, l, r, q4, q5, e1, q6⟩
    · rw [e1] at e; simp at e
    · rw [e1] at e
      dsimp only at e
      obtain ⟨i1, i2, i3, ks, i4, i5, i6⟩ := add_spec xs q6 hp (fun y hy => hx y (by simp [hy])) e
      have hxn : x ∉ xs := fun hm => by
        have := (i3 x hm).1
        rw [parent_setKids, parent_setParent, if_pos rfl] at this
        cases this
      refine ⟨i1, List.nodup_cons.mpr ⟨hxn, i2⟩, ?_, ks, ?_, i5, fun y => ?_⟩
      · intro y hy
        rcases List.mem_cons.mp hy with rfl | hm'
        · exact ⟨q1, q2⟩
        · have := i3 y hm'
          rw [parent_setKids, parent_setParent, if_neg (fun hh : y = x => hxn (hh ▸ hm'))] at this
          exact this
      · rw [kids_setKids, if_pos rfl] at i4
        refine i4.trans ?_
        rw [q4]
        simp only [List.append_assoc, List.cons_append]
        refine List.Perm.append_left _ ?_
        exact List.perm_middle.symm
      · rw [i6 y]
        have f5 : ((h.setParent x (some p)).setKids p (l ++ x :: r)).obj y = { h.obj y with
            parent := if y = x then some p else (h.obj y).parent
            kids := if y = p then l ++ x :: r else (h.obj y).kids } := by
          unfold setKids setParent upd
          dsimp only
          by_cases e1 : y = p
          · by_cases e2 : y = x
            · rw [if_pos e1, if_pos e2, if_pos e1, if_pos e2]
            · rw [if_pos e1, if_neg e2, if_pos e1, if_neg e2]
          · by_cases e2 : y = x
            · rw [if_neg e1, if_pos e2, if_neg e1, if_pos e2]
            · rw [if_neg e1, if_neg e2, if_neg e1, if_neg e2]
        rw [f5]
        by_cases e1 : y = p
        · by_cases e2 : y ∈ xs
          · simp [e1, e2, show p ∈ xs from e1 ▸ e2]
          · by_cases e3 : y = x <;> simp [e1, e2, e3, show p ∉ xs from e1 ▸ e2]
        · by_cases e2 : y ∈ xs
          · simp [e2, e1]
          · by_cases e3 : y = x <;> simp [e2, e3, e1, q2]


theorem relinked_trans {h h1 h2 : Heap} {p : Nat} {ks ks' xs : List Nat} {ys : List Nat}
    (a : Relinked h h1 p ks xs none) (b : Relinked h1 h2 p ks' ys (some p)) :
    h2.next = h.next ∧ ∀ y, h2.obj y = { h.obj y with
      parent := if y ∈ ys then some p else if y ∈ xs then none else (h.obj y).parent
      kids := if y = p then ks' else (h.obj y).kids } := by
  refine ⟨b.1.trans a.1, fun y => ?_⟩
  rw [b.2, a.2]
  by_cases e : y = p <;> simp [e]

theorem unparent_obj (xs : List Nat) (h : Heap) (y : Nat) :
    (h.unparent xs).obj y = { h.obj y with parent := if y ∈ xs then none else (h.obj y).parent } := by
  induction xs generalizing h with
  | nil => simp [unparent]
  | cons x xs ih =>
    rw [unparent, ih]
    unfold setParent upd
    dsimp only
    by_cases e : y = x <;> by_cases e' : y ∈ xs <;> simp [e, e']

theorem clear_spec {h : Heap} {p : Nat} (hok : OK h) (hp : p < h.next) :
    ∃ h', h.clear p = (h', .ok ()) ∧ OK h' ∧ Relinked h h' p [] (h.kids p) none := by
  obtain ⟨l, m, r, e1, e2, e3, e4, e5⟩ := delSlice_spec hok hp none none
  have hs : (Span.fromIndices (h.kids p).length none none) = ⟨0, (h.kids p).length⟩ := by
    simp [Span.fromIndices]
  rw [hs] at e2 e3
  have hl : l = [] := by simpa using e2
  have hr : r = [] := by
    have := congrArg List.length e1
    simp at this e3
    exact List.eq_nil_of_length_eq_zero (by omega)
  subst hl hr
  have em : m = h.kids p := by simpa using e1.symm
  subst em
  refine ⟨_, e4, e5, by simp, fun y => ?_⟩
  unfold setKids upd
  dsimp only
  rw [unparent_obj]
  by_cases e : y = p <;> simp [e]

theorem removeAll_spec {p : Nat} : ∀ (xs : List Nat) {h : Heap}, OK h → p < h.next → (∀ x ∈ xs, x < h.next) →
    ∀ {h' : Heap}, removeAll h p xs = (h', .ok ()) → OK h' ∧ xs.Nodup ∧ (∀ x ∈ xs, x ∈ h.kids p) ∧
      Relinked h h' p ((h.kids p).filter (fun c => decide (c ∉ xs))) xs none
  | [], h, hok, hp, _, h', e => by
    rw [removeAll] at e; cases e
    refine ⟨hok, by simp, by simp, rfl, fun y => ?_⟩
    by_cases e : y = p
    · subst e
      have : (h.kids y).filter (fun c => decide (c ∉ ([] : List Nat))) = (h.obj y).kids := by
        rw [List.filter_eq_self.mpr (by simp)]; rfl
      rw [if_pos rfl, this]; simp
    · simp [e]
  | x :: xs, h, hok, hp, hx, h', e => by
    rw [removeAll] at e
    rcases remove_spec hok hp (hx x (by simp)) with ⟨_, e1⟩ | ⟨l, r, q1, e1, q2⟩
    · rw [e1] at e; simp at e
    · rw [e1] at e
      dsimp only at e
      obtain ⟨i1, i2, i3, i4, i5⟩ := removeAll_spec xs q2 hp (fun y hy => hx y (by simp [hy])) e
      rw [kids_setKids, if_pos rfl] at i3 i5
      have hnd := kidsOK_nodup (hok.kids p hp)
      rw [q1, List.nodup_append] at hnd
      obtain ⟨_, n2, n3⟩ := hnd
      rw [List.nodup_cons] at n2
      have hxl : x ∉ l := fun hm => n3 x hm x (by simp) rfl
      have hxn : x ∉ xs := fun hm => by
        rcases List.mem_append.mp (i3 x hm) with hm | hm
        · exact hxl hm
        · exact n2.1 hm
      have ef : (h.kids p).filter (fun c => decide (c ∉ x :: xs)) = (l ++ r).filter (fun c => decide (c ∉ xs)) := by
        rw [q1]
        simp only [List.filter_append, List.filter_cons]
        have aux : ∀ m : List Nat, x ∉ m → m.filter (fun c => decide (c ∉ x :: xs)) =
            m.filter (fun c => decide (c ∉ xs)) := by
          intro m hm
          refine List.filter_congr (fun c hc => ?_)
          have : c ≠ x := fun hh => hm (hh ▸ hc)
          simp [this]
        rw [aux l hxl, aux r n2.1]
        simp
      refine ⟨i1, List.nodup_cons.mpr ⟨hxn, i2⟩, ?_, i4, fun y => ?_⟩
      · intro y hy
        rw [q1]
        rcases List.mem_cons.mp hy with rfl | hy
        · simp
        · have := i3 y hy
          rw [List.mem_append] at this ⊢
          rcases this with hm | hm
          · exact Or.inl hm
          · exact Or.inr (by simp [hm])
      · rw [i5 y, ef]
        unfold setKids setParent upd
        dsimp only
        by_cases e1 : y = p <;> by_cases e2 : y = x <;> by_cases e3 : y ∈ xs <;> simp_all

/-- C51: a `Children.Add` connector followed by none yields the node itself, once, after attaching to it exactly the
objects its itorator produced for the node: those join its children (in span order), get it as parent, and nothing else
changes; or it raises. -/
theorem C51_children_add (n : Nat) (trav : Nat → Heap → Nat → Gen) (c : Con) (hk : c.kind = .add) (h : Heap) (x : Nat)
    (hp : c.pred h x = .ok true) {h1 : Heap} {children : List Nat}
    (ht : (trav c.target h x).collect = (h1, .ok children)) (hok : OK h1) (hx : x < h1.next)
    (hc : ∀ y ∈ children, y < h1.next) :
    (∃ h2 ks, flow n trav [c] h x = .yield h2 x .done ∧ OK h2 ∧ ks.Perm (h1.kids x ++ children) ∧
      Relinked h1 h2 x ks children (some x)) ∨ ∃ h2 e, flow n trav [c] h x = .raise h2 e := by
  rw [flow, hp]
  dsimp only
  rw [hk]
  dsimp only
  rw [ht]
  dsimp only [attach]
  generalize hq : h1.add x children = q
  obtain ⟨h2, q⟩ := q
  cases q with
  | error e => exact Or.inr ⟨_, _, rfl⟩
  | ok u =>
    obtain ⟨a1, a2, a3, ks, a4, a5⟩ := add_spec children hok hx hc hq
    exact Or.inl ⟨h2, ks, rfl, a1, a4, a5⟩

/-- C51: `Children.Replace` yields the node with exactly the produced objects as its children; the former children not
among them are parentless. -/
theorem C51_children_replace (n : Nat) (trav : Nat → Heap → Nat → Gen) (c : Con) (hk : c.kind = .replace) (h : Heap)
    (x : Nat) (hp : c.pred h x = .ok true) {h1 : Heap} {children : List Nat}
    (ht : (trav c.target h x).collect = (h1, .ok children)) (hok : OK h1) (hx : x < h1.next)
    (hc : ∀ y ∈ children, y < h1.next) :
    (∃ h2 ks, flow n trav [c] h x = .yield h2 x .done ∧ OK h2 ∧ ks.Perm children ∧ h2.next = h1.next ∧
      ∀ y, h2.obj y = { h1.obj y with
        parent := if y ∈ children then some x else if y ∈ h1.kids x then none else (h1.obj y).parent
        kids := if y = x then ks else (h1.obj y).kids }) ∨
    ∃ h2 e, flow n trav [c] h x = .raise h2 e := by
  rw [flow, hp]
  dsimp only
  rw [hk]
  dsimp only
  rw [ht]
  dsimp only [attach]
  obtain ⟨hc1, b1, b2, b3⟩ := clear_spec hok hx
  rw [b1]
  dsimp only
  generalize hq : hc1.add x children = q
  obtain ⟨h2, q⟩ := q
  cases q with
  | error e => exact Or.inr ⟨_, _, rfl⟩
  | ok u =>
    have hk0 : hc1.kids x = [] := by unfold Heap.kids; rw [b3.2]; simp
    obtain ⟨a1, a2, a3, ks, a4, a5⟩ := add_spec children b2 (by rw [b3.1]; exact hx)
      (fun y hy => by rw [b3.1]; exact hc y hy) hq
    rw [hk0, List.nil_append] at a4
    obtain ⟨r1, r2⟩ := relinked_trans b3 a5
    exact Or.inl ⟨h2, ks, rfl, a1, a4, r1, r2⟩

/-- C51: `Children.Delete` yields the node without the produced objects among its children; each must have been one. -/
theorem C51_children_delete (n : Nat) (trav : Nat → Heap → Nat → Gen) (c : Con) (hk : c.kind = .delete) (h : Heap)
    (x : Nat) (hp : c.pred h x = .ok true) {h1 : Heap} {children : List Nat}
    (ht : (trav c.target h x).collect = (h1, .ok children)) (hok : OK h1) (hx : x < h1.next)
    (hc : ∀ y ∈ children, y < h1.next) :
    (∃ h2, flow n trav [c] h x = .yield h2 x .done ∧ OK h2 ∧ (∀ y ∈ children, y ∈ h1.kids x) ∧
      Relinked h1 h2 x ((h1.kids x).filter (fun y => decide (y ∉ children))) children none) ∨
    ∃ h2 e, flow n trav [c] h x = .raise h2 e := by
  rw [flow, hp]
  dsimp only
  rw [hk]
  dsimp only
  rw [ht]
  dsimp only [attach]
  generalize hq : removeAll h1 x children = q
  obtain ⟨h2, q⟩ := q
  cases q with
  | error e => exact Or.inr ⟨_, _, rfl⟩
  | ok u =>
    obtain ⟨a1, a2, a3, a4⟩ := removeAll_spec children hok hx hc hq
    exact Or.inl ⟨h2, rfl, a1, a3, a4⟩

/-- C51: `Subroutine` runs its itorator for its effects and yields the node alone; `Recurse` passes every result of its
itorator to the next connections, in order. -/
theorem C51_subroutine_recurse (n : Nat) (trav : Nat → Heap → Nat → Gen) (c : Con) (cs : List Con) (h : Heap) (x : Nat)
    (hp : c.pred h x = .ok true) :
    (c.kind = .subroutine → ∀ h1 ys, (trav c.target h x).collect = (h1, .ok ys) →
      flow n trav (c :: cs) h x = flow n trav cs h1 x) ∧
    (c.kind = .recurse → ∀ h' out, (flow n trav (c :: cs) h x).collect = (h', .ok out) ↔
      ∃ tr, Serves (flow n trav cs) (trav c.target h x) h' tr ∧ out = tr.flatMap (·.2)) := by
  refine ⟨fun hk h1 ys ht => ?_, fun hk h' out => ?_⟩
  · rw [flow, hp]; dsimp only; rw [hk]; dsimp only; rw [ht]
  · rw [← collect_forEach, flow, hp]; dsimp only; rw [hk]

/-! ### Consistency -/

theorem keepsAttach_consistent (k : Kind) (hk : k ≠ .addHierarchical) : KeepsAttach consistent k := by
  intro fuel h x cs hok hx hcs
  have hrem : ∀ (xs : List Nat) (h : Heap), OK h → x < h.next → (∀ c ∈ xs, c < h.next) →
      h.next ≤ (removeAll h x xs).1.next ∧ OK (removeAll h x xs).1 := by
    intro xs
    induction xs with
    | nil => intro h hok _ _; exact ⟨Nat.le_refl _, hok⟩
    | cons y xs ih =>
      intro h hok hx hy
      rw [removeAll]
      rcases remove_spec hok hx (hy y (by simp)) with ⟨_, e1⟩ | ⟨l, r, q1, e1, q2⟩
      · rw [e1]; exact ⟨Nat.le_refl _, hok⟩
      · rw [e1]
        exact ih _ q2 hx (fun z hz => hy z (by simp [hz]))
  have hrem' := hrem cs h hok hx.2 (fun c hc => (hcs c hc).2)
  unfold attach
  cases k with
  | add =>
    have := add_ok hok hx.2 (fun c hc => (hcs c hc).2)
    exact ⟨Nat.le_of_eq this.2.symm, this.1⟩
  | addHierarchical => exact absurd rfl hk
  | replace =>
    dsimp only
    obtain ⟨h', e1, e2, e3⟩ := clear_spec hok hx.2
    rw [e1]
    have := add_ok (xs := cs) e2 (p := x) (by rw [e3.1]; exact hx.2) (fun c hc => by rw [e3.1]; exact (hcs c hc).2)
    exact ⟨Nat.le_of_eq (by rw [this.2, e3.1]), this.1⟩
  | delete => exact hrem'
  | delegate => exact hrem'
  | recurse => exact hrem'
  | subroutine => exact hrem'

theorem ok_upd {h : Heap} (hok : OK h) (x : Nat) (f : Obj → Obj)
    (hf : ∀ o, (f o).str = o.str ∧ (f o).span = o.span ∧ (f o).parent = o.parent ∧ (f o).kids = o.kids) :
    OK (h.upd x f) := by
  have e1 : ∀ y, (h.upd x f).str y = h.str y := by
    intro y; unfold upd Heap.str; dsimp only; split <;> simp [hf]
  have e2 : (h.upd x f).span = h.span := by
    funext y; unfold upd Heap.span; dsimp only; split <;> simp [hf]
  have e3 : ∀ y, (h.upd x f).parent y = h.parent y := by
    intro y; unfold upd Heap.parent; dsimp only; split <;> simp [hf]
  have e4 : ∀ y, (h.upd x f).kids y = h.kids y := by
    intro y; unfold upd Heap.kids; dsimp only; split <;> simp [hf]
  exact ⟨fun y hy => by rw [e1, e2]; exact hok.span y hy, fun y hy => by rw [e2, e4]; exact hok.kids y hy,
    fun y hy c hc => by rw [e4] at hc; rw [e3, e1, e1]; exact hok.kidParent y hy c hc,
    fun y hy q hq => by rw [e3] at hq; rw [e4]; exact hok.parentKid y hy q hq⟩

theorem ok_newLike {h : Heap} (hok : OK h) (x : Nat) (s t : Int) (d : Option String) : OK (h.newLike x s t d) := by
  have a := ok_new hok (h.str x) (some s) (some t) d
  have : h.newLike x s t d = (h.new (h.str x) (some s) (some t) d).upd h.next
      (fun o => { o with vf := (h.obj x).vf }) := by
    unfold newLike Heap.new upd
    congr 1
    funext j
    dsimp only
    by_cases e : j = h.next
    · rw [if_pos e, if_pos e, if_pos e]
    · rw [if_neg e, if_neg e, if_neg e]
  rw [this]
  exact ok_upd a _ _ (fun o => ⟨rfl, rfl, rfl, rfl⟩)

mutual
theorem ok_cloneObj : ∀ (n : Nat) {h : Heap}, OK h → ∀ {x : Nat}, x < h.next →
    OK (cloneObj n h x).1 ∧ h.next ≤ (cloneObj n h x).1.next ∧
      ∀ y, (cloneObj n h x).2 = .ok y → y < (cloneObj n h x).1.next
  | 0, h, hok, x, hx => by rw [cloneObj]; exact ⟨hok, Nat.le_refl _, by simp⟩
  | n + 1, h, hok, x, hx => by
    rw [cloneObj]
    have a := ok_newLike hok x (h.span x).start (h.span x).stop (h.obj x).desc
    have n1 : (h.newLike x (h.span x).start (h.span x).stop (h.obj x).desc).next = h.next + 1 := rfl
    generalize h.newLike x (h.span x).start (h.span x).stop (h.obj x).desc = h1 at *
    obtain ⟨c1, c2, c3⟩ := ok_cloneObjs n a (xs := h.kids x) (fun c hc => by
      have := (hok.kidParent x hx c hc).1; omega)
    generalize cloneObjs n h1 (h.kids x) = q at *
    obtain ⟨h2, q⟩ := q
    unfold finishClone
    cases q with
    | error e => exact ⟨c1, by dsimp only at *; omega, by simp⟩
    | ok cs =>
      dsimp only at *
      obtain ⟨e1, e2⟩ := add_ok (xs := cs) c1 (p := h.next) (by omega) (fun y hy => c3 cs rfl y hy)
      generalize h2.add h.next cs = q at *
      obtain ⟨h3, q⟩ := q
      cases q with
      | error e' => exact ⟨e1, by dsimp only at *; omega, by simp⟩
      | ok u =>
        refine ⟨e1, by dsimp only at *; omega, ?_⟩
        intro y hy
        simp only [Except.ok.injEq] at hy
        subst hy
        dsimp only at *
        omega
theorem ok_cloneObjs : ∀ (n : Nat) {h : Heap}, OK h → ∀ {xs : List Nat}, (∀ x ∈ xs, x < h.next) →
    OK (cloneObjs n h xs).1 ∧ h.next ≤ (cloneObjs n h xs).1.next ∧
      ∀ ys, (cloneObjs n h xs).2 = .ok ys → ∀ y ∈ ys, y < (cloneObjs n h xs).1.next
  | n, h, hok, [], _ => by
    rw [show cloneObjs n h [] = (h, .ok []) by cases n <;> rfl]
    refine ⟨hok, Nat.le_refl _, ?_⟩
    intro ys hys; simp at hys; subst hys; simp
  | 0, h, hok, x :: xs, _ => by rw [cloneObjs]; exact ⟨hok, Nat.le_refl _, by simp⟩
  | n + 1, h, hok, x :: xs, hx => by
    rw [cloneObjs]
    obtain ⟨a1, a2, a3⟩ := ok_cloneObj n hok (hx x (by simp))
    generalize cloneObj n h x = q at *
    obtain ⟨h1, q⟩ := q
    cases q with
    | error e => exact ⟨a1, a2, by simp⟩
    | ok y =>
      dsimp only at *
      obtain ⟨c1, c2, c3⟩ := ok_cloneObjs n a1 (xs := xs) (fun z hz => by have := hx z (by simp [hz]); omega)
      generalize cloneObjs n h1 xs = q at *
      obtain ⟨h2, q⟩ := q
      cases q with
      | error e => exact ⟨c1, by dsimp only at *; omega, by simp⟩
      | ok ys =>
        refine ⟨c1, by dsimp only at *; omega, ?_⟩
        intro zs hzs z hz
        simp only [Except.ok.injEq] at hzs
        subst hzs
        dsimp only at *
        rcases List.mem_cons.mp hz with rfl | hz
        · have := a3 z rfl; omega
        · exact c3 ys rfl z hz
end

theorem keepsT_desc_ok (f : Heap → Nat → Except PyErr (Option String)) : KeepsT consistent (descT f) := by
  intro h x hi hx
  unfold descT
  cases f h x with
  | error e => exact .raise (consistent_lawful.refl h) hi
  | ok d =>
    have a := ok_upd hi x (fun o => { o with desc := d }) (fun o => ⟨rfl, rfl, rfl, rfl⟩)
    exact .yield (Nat.le_refl h.next) a hx (fun h'' i _ => .done (consistent_lawful.refl h'') i)

theorem keepsT_valueFunc_ok (f : Option Nat) : KeepsT consistent (valueFuncT f) := by
  intro h x hi hx
  unfold valueFuncT
  have a := ok_upd hi x (fun o => { o with vf := f }) (fun o => ⟨rfl, rfl, rfl, rfl⟩)
  exact .yield (Nat.le_refl h.next) a hx (fun h'' i _ => .done (consistent_lawful.refl h'') i)

theorem keepsT_pieces_ok (ps : Heap → Nat → List (Int × Int × Option String)) :
    KeepsT consistent (fun h x => pieces x (ps h x) h) := by
  intro h x hi hx
  dsimp only
  generalize ps h x = l
  induction l generalizing h with
  | nil => exact .done (consistent_lawful.refl h) hi
  | cons q l ih =>
    obtain ⟨s, t, d⟩ := q
    rw [pieces]
    have n1 : (h.newLike x s t d).next = h.next + 1 := rfl
    refine .yield (by show h.next ≤ _; omega) (ok_newLike hi x s t d) ⟨Nat.zero_le _, by omega⟩
      (fun h'' i n => ih h'' i ⟨Nat.zero_le _, by have := hx.2; omega⟩)

/-- C51: a pipeline without `AddHierarchical`, from transforms and postorators that keep memory consistent, keeps it
consistent, wherever it stops: children ordered, inside and linked both ways. -/
theorem C51_pipeline_consistent {G : Nat → It} (hG : KeepsAll consistent G)
    (hA : ∀ i, ∀ c ∈ (G i).cons, c.kind ≠ .addHierarchical) (n i : Nat) {h : Heap} (hok : OK h) {x : Nat}
    (hx : x < h.next) : Keeps consistent h (call G n i h x) := by
  unfold call
  obtain ⟨a1, a2, a3⟩ := ok_cloneObj n hok hx
  generalize h.cloneObj n x = q at *
  obtain ⟨h1, q⟩ := q
  cases q with
  | error e => exact .raise a2 a1
  | ok y =>
    exact Keeps.before consistent_lawful a2 (keeps_traverse consistent_lawful hG
      (fun i c hc => keepsAttach_consistent _ (hA i c hc)) n i h1 y a1 ⟨Nat.zero_le _, a3 y rfl⟩)

/-! ### Non-vacuity -/

/-- `Split` into two pieces, added to a reflected node, which is then given a desc by a subroutine. -/
def exPipe : Nat → It
  | 0 => { transform := reflect, cons := [⟨.add, 1, fun _ _ => .ok true⟩, ⟨.subroutine, 2, fun _ _ => .ok true⟩] }
  | 1 => { transform := fun h x => pieces x [(0, 1, some "a"), (1, 2, none)] h }
  | _ => { transform := descT (fun _ _ => .ok (some "d")) }

def exHeap : Heap := empty.new "abc" none none none

theorem exHeap_ok : OK exHeap := ok_new empty_ok _ _ _ _

/-- The hypotheses of `C51_call_no_modify_builtin` hold and the pipeline does something: it yields object 1, a copy of 0,
with two new children. -/
example : (∀ i, Builtin (exPipe i).transform) ∧ (∀ i, (exPipe i).post = none) ∧
    (call exPipe 5 0 exHeap 0).collect.2 = .ok [1] ∧ (call exPipe 5 0 exHeap 0).collect.1.kids 1 = [2, 3] ∧
    ((call exPipe 5 0 exHeap 0).collect.1.obj 1).desc = some "d" ∧
    (call exPipe 5 0 exHeap 0).collect.1.kids 0 = [] := by
  refine ⟨fun i => ?_, fun i => ?_, rfl, by decide, by decide, by decide⟩
  · match i with
    | 0 => exact .reflect
    | 1 => exact .pieces (fun _ _ => [(0, 1, some "a"), (1, 2, none)])
    | i + 2 => exact .desc (fun _ _ => .ok (some "d"))
  · match i with
    | 0 => rfl
    | 1 => rfl
    | i + 2 => rfl

/-- The hypotheses of `C51_pipeline_consistent`. -/
example : KeepsAll consistent exPipe ∧ (∀ i, ∀ c ∈ (exPipe i).cons, c.kind ≠ .addHierarchical) ∧ OK exHeap ∧
    0 < exHeap.next := by
  refine ⟨fun i => ?_, fun i => ?_, exHeap_ok, by decide⟩
  · match i with
    | 0 => exact ⟨keepsT_reflect consistent_lawful, fun f hf => by cases hf⟩
    | 1 => exact ⟨keepsT_pieces_ok (fun _ _ => [(0, 1, some "a"), (1, 2, none)]), fun f hf => by cases hf⟩
    | i + 2 => exact ⟨keepsT_desc_ok (fun _ _ => .ok (some "d")), fun f hf => by cases hf⟩
  · match i with
    | 0 =>
      intro c hc
      have : c.kind = .add ∨ c.kind = .subroutine := by
        simp only [exPipe, List.mem_cons, List.not_mem_nil, or_false] at hc
        rcases hc with rfl | rfl <;> simp
      rcases this with e | e <;> rw [e] <;> decide
    | 1 => intro c hc; cases hc
    | i + 2 => intro c hc; cases hc

/-- The hypotheses of `C51_children_add` and `C51_children_replace`: two pieces for object 0. -/
example : ∃ h1, (traverse exPipe 3 1 exHeap 0).collect = (h1, .ok [1, 2]) ∧ OK h1 ∧ 0 < h1.next ∧
    (∀ y ∈ [1, 2], y < h1.next) ∧
    ∃ h2, flow 3 (traverse exPipe 3) [⟨.add, 1, fun _ _ => .ok true⟩] exHeap 0 = .yield h2 0 .done ∧ h2.kids 0 = [1, 2] ∧
      h2.parent 2 = some 0 :=
  ⟨_, rfl, ok_newLike (ok_newLike exHeap_ok _ _ _ _) _ _ _ _, by decide, by decide, _, rfl, by decide, by decide⟩

/-- The hypotheses of `C51_children_delete`: object 0 with child 1, which a transform yields and which is removed. -/
example : ∃ h, OK h ∧ h.kids 0 = [1] ∧ (removeAll h 0 [1]).1.kids 0 = [] ∧ (removeAll h 0 [1]).1.parent 1 = none ∧
    (Gen.ofList (h.kids 0) h).collect = (h, .ok [1]) ∧ 0 < h.next ∧ ∀ y ∈ [1], y < h.next := by
  let ops : List Op := [.new "ab" none none (some "p"), .new "ab" (some 0) (some 1) none, .add 0 [1]]
  have hl : Legal empty ops := by refine ⟨by simp [Op.ids], by simp [Op.ids], by decide, trivial⟩
  have hk : (empty.runAll ops).kids 0 = [1] := by decide
  exact ⟨empty.runAll ops, C24_children_invariant ops hl, hk, by decide, by decide, by rw [hk, collect_ofList],
    by decide, by decide⟩

/-- A delegate chain of pure transforms: `x ↦ x, x+1` and `x ↦ x, x+10`. -/
example : (traverse (delegateChain ([fun x => [x, x + 1], fun x => [x, x + 10]].map (fun f h x => Gen.ofList (f x) h))) 2 0
    exHeap 5).collect.2 = .ok [5, 15, 6, 16] := by
  rw [C51_delegates_pure _ _ _ (by decide)]; rfl

end Pawpaw.Props
