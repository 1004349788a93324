import Verif.Model.ConMake
/-!
# C130: what connectors and postorators are made from
-/
namespace Pawpaw.Props
open Pawpaw Pawpaw.Pipeline Pawpaw.ConMake

/-- `predicate=s` or `predicate=None`, by the desc it is about. -/
def descArg : Option String → PredArg
  | none => .none
  | some s => .str s

/-- The connectors made from pairs of a desc and an itorator. -/
def descCons (kind : Kind) : List (Option String × Nat) → Except PyErr (List Con)
  | [] => .ok []
  | (d, t) :: ps =>
    match make kind (some t) (descArg d) with
    | .error e => .error e
    | .ok c => (descCons kind ps).map (c :: ·)

/-- The connector made for a desc. -/
def descCon (kind : Kind) (p : Option String × Nat) : Con :=
  ⟨kind, p.2, fun h x => .ok (decide ((h.obj x).desc = p.1))⟩

theorem descCons_eq (kind : Kind) : ∀ ps, descCons kind ps = .ok (ps.map (descCon kind))
  | [] => rfl
  | (none, t) :: ps => by
    simp only [descCons, descArg, make, predOf, descCons_eq kind ps, Except.map, List.map_cons, descCon]
  | (some s, t) :: ps => by
    simp only [descCons, descArg, make, predOf, descCons_eq kind ps, Except.map, List.map_cons, descCon]

/-- **C130**, routing: with connectors `Delegate(itorator, desc)` for the descs of a table, an Ito goes to the itorator of the
first entry that has its desc (`None` for an Ito without one), by the desc it has when it gets there; an Ito no entry is
about passes as it is. -/
theorem C130_route_partial (table : List (Option String × Nat)) :
    ∃ cons, descCons .delegate table = .ok cons ∧
      ∀ (fuel : Nat) (trav : Nat → Heap → Nat → Gen) (h : Heap) (x : Nat), flow fuel trav cons h x =
        match table.find? (fun p => decide (p.1 = (h.obj x).desc)) with
        | some p => trav p.2 h x
        | none => .yield h x .done := by
  refine ⟨_, descCons_eq _ _, fun fuel trav h x => ?_⟩
  induction table with
  | nil => rfl
  | cons p ps ih =>
    rw [List.map_cons, flow]
    by_cases hd : (h.obj x).desc = p.1
    · simp only [descCon, hd, decide_true, List.find?_cons]
    · have hd' : ¬ p.1 = (h.obj x).desc := fun h => hd h.symm
      simp only [descCon, hd, decide_false, List.find?_cons, hd']
      exact ih

/-- **C130**, other connectors: those about other descs are passed over, whatever their kind. -/
theorem C130_skip_partial (kind : Kind) (table : List (Option String × Nat)) (rest : List Con) (fuel : Nat)
    (trav : Nat → Heap → Nat → Gen) (h : Heap) (x : Nat) (hn : ∀ p ∈ table, p.1 ≠ (h.obj x).desc) :
    ∃ cons, descCons kind table = .ok cons ∧ flow fuel trav (cons ++ rest) h x = flow fuel trav rest h x := by
  refine ⟨_, descCons_eq _ _, ?_⟩
  induction table with
  | nil => rfl
  | cons p ps ih =>
    have hd : ¬ (h.obj x).desc = p.1 := fun e => hn p (List.mem_cons_self) e.symm
    rw [List.map_cons, List.cons_append, flow]
    simp only [descCon, hd, decide_false]
    exact ih fun q hq => hn q (List.mem_cons_of_mem _ hq)

/-- **C130**, functions: a predicate that fits is the one asked; everything else is refused, as is a target that is no
itorator, and then there is no connector. -/
theorem C130_made_partial (kind : Kind) (target : Option Nat) (p : PredArg) :
    (∃ c, make kind target p = .ok c) ↔
      target.isSome = true ∧ ((∃ f, p = .fn (.ok true) f) ∨ (∃ s, p = .str s) ∨ p = .none) := by
  cases target with
  | none => simp [make]
  | some t =>
    cases p with
    | fn fits f =>
      rcases fits with e | b
      · simp [make, predOf]
      · cases b <;> simp [make, predOf]
    | str s => simp [make, predOf]
    | none => simp [make, predOf]
    | other => simp [make, predOf]

/-- **C130**, refusals: what is refused is refused with `TypeError`, unless `functoid_isinstance` itself raises. -/
theorem C130_refused_partial (kind : Kind) (target : Option Nat) (p : PredArg) (it : It) (v : PostArg)
    (f : (Heap → Gen) → Heap → Gen) (hp : ∀ e g, p ≠ .fn (.error e) g) :
    (∀ e, make kind target p = .error e → e = .typeError) ∧
    (∀ e, (setPost it v).2 = .error e → e = .typeError) ∧
    wrapPost (.ok false) f = .error .typeError := by
  refine ⟨?_, ?_, rfl⟩
  · intro e h
    cases target with
    | none => cases h; rfl
    | some t =>
      cases p with
      | fn fits g =>
        rcases fits with e' | b
        · exact absurd rfl (hp e' g)
        · cases b with
          | false => cases h; rfl
          | true => cases h
      | str s => cases h
      | none => cases h
      | other => cases h; rfl
  · intro e h
    cases v with
    | none => cases h
    | post f => cases h
    | fn f => cases h; rfl
    | other => cases h; rfl

/-- A function that is accepted is the predicate. -/
theorem C130_function_partial (kind : Kind) (t : Nat) (f : Heap → Nat → Except PyErr Bool) :
    make kind (some t) (.fn (.ok true) f) = .ok ⟨kind, t, f⟩ := rfl

/-- **C130**, postorators: what `Postorator.wrap` made of a function is applied to all that the itorator yields, once
assigned; `None` takes it away; what is refused leaves the itorator as it was. -/
theorem C130_postorator_partial (it : It) (f : (Heap → Gen) → Heap → Gen) (g : Heap → Gen) :
    (∃ p, wrapPost (.ok true) f = .ok p ∧ (setPost it p).2 = .ok () ∧ (setPost it p).1.posted g = f g ∧
      (setPost it p).1.cons = it.cons ∧ (setPost it p).1.transform = it.transform) ∧
    ((setPost it .none).2 = .ok () ∧ (setPost it .none).1.posted g = g) ∧
    (∀ v e, (setPost it v).2 = .error e → (setPost it v).1 = it) := by
  refine ⟨⟨_, rfl, rfl, rfl, rfl, rfl⟩, ⟨rfl, rfl⟩, ?_⟩
  intro v e h
  cases v with
  | none => cases h
  | post f => cases h
  | fn f => rfl
  | other => rfl

/-- **C130 violated.** A function, which the property and its error message say may be assigned, is refused. -/
theorem C130_function_violated (it : It) (f : (Heap → Gen) → Heap → Gen) :
    setPost it (.fn f) = (it, .error .typeError) := rfl

/-! ### Examples -/

def conHeap : Heap := ⟨2, fun i => ⟨"ab", ⟨0, 2⟩, if i = 0 then some "a" else none, none, none, []⟩⟩
def conTable : List (Option String × Nat) := [(some "b", 7), (some "a", 8), (some "a", 9), (none, 3)]

example : ∀ e g, PredArg.other ≠ .fn (.error e) g := fun _ _ h => by cases h
-- the hypotheses are met; the routes of an Ito with desc 'a' and of one without
example : (∀ p ∈ [((some "b" : Option String), 7), (none, 3)], p.1 ≠ (conHeap.obj 0).desc) := by decide
example : conTable.find? (fun p => decide (p.1 = (conHeap.obj 0).desc)) = some (some "a", 8) ∧
    conTable.find? (fun p => decide (p.1 = (conHeap.obj 1).desc)) = some (none, 3) := by decide

end Pawpaw.Props
