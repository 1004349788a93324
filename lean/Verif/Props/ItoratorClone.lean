import Verif.Model.ItoratorClone
/-!
# C120: a clone of an itorator does what the itorator does
-/
namespace Pawpaw.Props
open Pawpaw Pipeline ItoratorClone

/-- Every itorator made so far is connected to itorators made so far. -/
def ShopClosed (S : Shop) : Prop := ∀ i < S.next, ∀ c ∈ (S.it i).cons, c.target < S.next

theorem flow_congr (fuel : Nat) {t t' : Nat → Heap → Nat → Gen} : ∀ (cs : List Con), (∀ c ∈ cs, t c.target = t' c.target) →
    flow fuel t cs = flow fuel t' cs
  | [], _ => by funext h x; rfl
  | c :: cs, hc => by
    have ih := flow_congr fuel (t := t) (t' := t') cs (fun d hd => hc d (List.mem_cons_of_mem _ hd))
    have h0 := hc c (by simp)
    funext h x
    unfold flow
    rw [ih, h0]

theorem traverse_congr {G G' : Nat → It} {b : Nat} (hG : ∀ i < b, G' i = G i) (hc : ∀ i < b, ∀ c ∈ (G i).cons, c.target < b) :
    ∀ (n i : Nat), i < b → traverse G' n i = traverse G n i
  | 0, _, _ => by funext h x; rfl
  | n + 1, i, hi => by
    funext h x
    unfold traverse
    rw [hG i hi, flow_congr n (G i).cons fun c hm => traverse_congr hG hc n _ (hc i hi c hm)]

theorem call_congr {G G' : Nat → It} {b : Nat} (hG : ∀ i < b, G' i = G i) (hc : ∀ i < b, ∀ c ∈ (G i).cons, c.target < b)
    (n : Nat) {i : Nat} (hi : i < b) (h : Heap) (x : Nat) : call G' n i h x = call G n i h x := by
  unfold call
  rw [traverse_congr hG hc n i hi]

/-- Cloning anything leaves what the itorators already made do as it is. -/
theorem C120_others (S : Shop) (hS : ShopClosed S) (i : Nat) (tag : Option String) {k : Nat} (hk : k < S.next) (n : Nat) (h : Heap)
    (x : Nat) : call (clone S i tag).1.it n k h x = call S.it n k h x ∧ (clone S i tag).1.tag k = S.tag k := by
  unfold clone
  split
  · refine ⟨call_congr (fun j hj => if_neg (by omega)) hS n hk h x, if_neg (by omega)⟩
  · exact ⟨rfl, rfl⟩

/-- Clones of clones: what has been made so far stays apart from what is made later, and connections still lead to itorators that were
made. So `C120_others` applies to the next clone, with the clones made before among those it leaves alone. -/
theorem C120_again (S : Shop) (hS : ShopClosed S) (i : Nat) (tag : Option String) :
    ShopClosed (clone S i tag).1 ∧ S.next ≤ (clone S i tag).1.next ∧ ∀ j, (clone S i tag).2 = .ok j → j < (clone S i tag).1.next := by
  unfold clone
  split
  · refine ⟨fun k hk c hc => ?_, Nat.le_succ _, fun j hj => ?_⟩
    · change k < S.next + 1 at hk
      change c ∈ (if k = S.next then ({ transform := (S.it i).transform } : It) else S.it k).cons at hc
      change c.target < S.next + 1
      split at hc
      · cases hc
      · have := hS k (by omega) c hc
        omega
    · obtain rfl := Except.ok.inj hj
      exact Nat.lt_succ_self _
  · exact ⟨hS, Nat.le_refl _, fun j hj => by cases hj⟩

/-- What a clone of a wrapped itorator does, whatever was connected: what the function alone does. It is a new itorator, with
the tag given, or else that of the original. -/
theorem C120_bare (S : Shop) {i : Nat} (hw : S.wrapped i = true) (tag : Option String) :
    ∃ S', clone S i tag = (S', .ok S.next) ∧ S'.tag S.next = (match tag with | none => S.tag i | some t => some t) ∧
      (S'.it S.next).cons = [] ∧ (S'.it S.next).post = none ∧
      ∀ (G : Nat → It) (n : Nat) (h : Heap) (x : Nat), (G i = { transform := (S.it i).transform }) →
        call S'.it n S.next h x = call G n i h x := by
  unfold clone
  rw [if_pos hw]
  refine ⟨_, rfl, if_pos rfl, ?_, ?_, fun G n h x hG => ?_⟩
  · show (if S.next = S.next then _ else _ : It).cons = []
    rw [if_pos rfl]
  · show (if S.next = S.next then _ else _ : It).post = none
    rw [if_pos rfl]
  · unfold call
    have : traverse (fun j => if j = S.next then ({ transform := (S.it i).transform } : It) else S.it j) n S.next =
        traverse G n i := by
      cases n with
      | zero => funext h x; rfl
      | succ n =>
        funext h x
        unfold traverse
        rw [hG]
        simp only [if_true]
        rw [flow_congr n [] (t' := traverse G n) (by simp)]
    rw [← this]

/-- **C120 (partial).** A clone of an itorator made by `wrap` that has no connections and no postorator is a new itorator that yields
from every Ito, in every state of memory, what the original yields, with the tag given or else the same one. Missing: the
library's own classes (`C120_builtin_violated`) and itorators with connections (`C120_lost_violated`). -/
theorem C120_clone_partial (S : Shop) (hS : ShopClosed S) {i : Nat} (hi : i < S.next) (hw : S.wrapped i = true)
    (hc : (S.it i).cons = []) (hp : (S.it i).post = none) (tag : Option String) :
    ∃ S' j, clone S i tag = (S', .ok j) ∧ (∀ k < S.next, j ≠ k) ∧
      S'.tag j = (match tag with | none => S.tag i | some t => some t) ∧
      ∀ (n : Nat) (h : Heap) (x : Nat), call S'.it n j h x = call S'.it n i h x := by
  obtain ⟨S', e, ht, _, _, hr⟩ := C120_bare S hw tag
  refine ⟨S', S.next, e, fun k hk => by omega, ht, fun n h x => ?_⟩
  have hb : S.it i = { transform := (S.it i).transform } := by
    cases hh : S.it i with
    | mk t c p => rw [hh] at hc hp; dsimp only at hc hp; rw [hc, hp]
  have := (C120_others S hS i tag hi n h x).1
  rw [e] at this
  rw [this]
  exact hr S.it n h x hb

/-- A clone of a clone of a clone …, with the tags given in turn. -/
def clones (S : Shop) (i : Nat) : List (Option String) → Shop × Except PyErr Nat
  | [] => (S, .ok i)
  | t :: ts =>
    match clone S i t with
    | (S, .ok j) => clones S j ts
    | (S, .error e) => (S, .error e)

/-- **C120 (partial)**, clones of clones: every clone can be cloned again, any number of times; the last one yields what the first
itorator yields, and its tag is the last one given, or else that of the first. -/
theorem C120_clones_partial : ∀ (tags : List (Option String)) (S : Shop) (_ : ShopClosed S) {i : Nat} (_ : i < S.next)
    (_ : S.wrapped i = true) (_ : (S.it i).cons = []) (_ : (S.it i).post = none),
    ∃ S' j, clones S i tags = (S', .ok j) ∧ S'.tag j = tags.foldl (fun a t => t.orElse fun _ => a) (S.tag i) ∧
      ∀ (n : Nat) (h : Heap) (x : Nat), call S'.it n j h x = call S.it n i h x
  | [], S, _, i, _, _, _, _ => ⟨S, i, rfl, rfl, fun _ _ _ => rfl⟩
  | t :: ts, S, hS, i, hi, hw, hc, hp => by
    obtain ⟨S', e, ht, hc', hp', _⟩ := C120_bare S hw t
    obtain ⟨S'', j, e1, _, _, hr⟩ := C120_clone_partial S hS hi hw hc hp t
    have hcl := C120_again S hS i t
    rw [e] at hcl
    obtain ⟨rfl, rfl⟩ : S' = S'' ∧ S.next = j := by
      rw [e] at e1
      simp only [Prod.mk.injEq, Except.ok.injEq] at e1
      exact e1
    have hw' : S'.wrapped S.next = true := by
      have h1 : S' = (clone S i t).1 := by rw [e]
      rw [h1]
      unfold clone
      rw [if_pos hw]
      exact if_pos rfl
    obtain ⟨T, k, e2, ht2, hr2⟩ := C120_clones_partial ts S' hcl.1 (hcl.2.2 _ rfl) hw' hc' hp'
    refine ⟨T, k, ?_, ?_, fun n h x => ?_⟩
    · simp only [clones, e, e2]
    · rw [ht2, ht, List.foldl_cons]
      cases t <;> rfl
    · rw [hr2, hr]
      have := (C120_others S hS i t hi n h x).1
      rw [e] at this
      exact this

/-- **C120 (violated).** `clone` of an itorator of any of the library's own classes raises `TypeError`. -/
theorem C120_builtin_violated (S : Shop) {i : Nat} (hw : S.wrapped i = false) (tag : Option String) :
    clone S i tag = (S, .error .typeError) := by
  unfold clone
  rw [if_neg (by rw [hw]; decide)]

/-! A wrapped function that yields its Ito, connected to a filter that drops everything. -/

/-- Itorator 0 is a `Filter` that nothing passes; 1 is wrapped, and delegates to it; 2 is wrapped, alone. -/
def demoShop : Shop where
  next := 3
  it := fun i =>
    match i with
    | 0 => { transform := fun h _ => .done h }
    | 1 => { transform := fun h x => .yield h x .done, cons := [⟨.delegate, 0, fun _ _ => .ok true⟩] }
    | _ => { transform := fun h x => .yield h x .done }
  wrapped := fun i => i ≠ 0
  tag := fun _ => some "t"

/-- **C120 (violated).** A clone does not have the connections: the original yields nothing from any Ito, its clone does. -/
theorem C120_lost_violated : ∃ S S' j, ShopClosed S ∧ clone S 1 none = (S', .ok j) ∧
    ∀ (n : Nat) (h h' : Heap) (x y : Nat), h.cloneObj (n + 2) x = (h', .ok y) →
      (call S'.it (n + 2) 1 h x).collect = (h', .ok []) ∧ (call S'.it (n + 2) j h x).collect = (h', .ok [y]) := by
  refine ⟨demoShop, (clone demoShop 1 none).1, 3, ?_, rfl, fun n h h' x y hc => ?_⟩
  · intro i hi c hm
    match i, hi with
    | 0, _ => cases hm
    | 1, _ => rw [List.mem_singleton.1 hm]; decide
    | 2, _ => cases hm
  · unfold call
    rw [hc]
    exact ⟨rfl, rfl⟩

/-! Non-vacuity. -/

example : (clones demoShop 2 [none, some "u", none]).2 = .ok 5 ∧
    (clones demoShop 2 [none, some "u", none]).1.tag 5 = some "u" := ⟨rfl, rfl⟩

example : ShopClosed demoShop ∧ demoShop.wrapped 2 = true ∧ (demoShop.it 2).cons = [] ∧ (demoShop.it 2).post = none ∧
    demoShop.wrapped 0 = false := by
  refine ⟨?_, rfl, rfl, rfl, rfl⟩
  intro i hi c hm
  match i, hi with
  | 0, _ => cases hm
  | 1, _ => rw [List.mem_singleton.1 hm]; decide
  | 2, _ => cases hm

end Pawpaw.Props
