import Verif.Model.Infix
/-!
# C128: infix operators
-/
namespace Pawpaw.Props
open Pawpaw Pawpaw.Infx

/-- `a` has no `|` and no `<<` of its own for an `Infix`. -/
def NoOwnOps (env : Env α) (a : α) : Prop := ∀ i, env.or a i = none ∧ env.lshift a i = none

/-- **C128**, where the left operand has no such operator of its own: `x |op| y`, `x <<op>> y` and
`op(x, y)` are the function applied to both. -/
theorem C128_infix_partial (env : Env α) (f : α → α → Except PyErr α) (x y : α) (hx : NoOwnOps env x) :
    barExpr env ⟨.two f⟩ (.plain x) y = (f x y).map .plain ∧
    shiftExpr env ⟨.two f⟩ (.plain x) y = (f x y).map .plain ∧
    (Infix.call ⟨.two f⟩ x y) = f x y := by
  refine ⟨?_, ?_, rfl⟩
  · simp only [barExpr, orOp, (hx _).1, Except.bind]
    rfl
  · simp only [shiftExpr, lshiftOp, (hx _).2, Except.bind]
    rfl

/-- The function applied from the left, the first exception winning. -/
def foldCalls (f : α → α → Except PyErr α) : α → List α → Except PyErr α
  | x, [] => .ok x
  | x, y :: ys => match f x y with
    | .error e => .error e
    | .ok z => foldCalls f z ys

theorem barChain_error (env : Env α) (i : Infix α) (e : PyErr) : ∀ ys : List α,
    ys.foldl (fun acc y => Except.bind acc fun v => barExpr env i v y) (.error e) = .error e
  | [] => rfl
  | y :: ys => by
    rw [List.foldl_cons]
    exact barChain_error env i e ys

/-- **C128**, chains: `x |op| y₁ |op| y₂ …` applies the function from the left. -/
theorem C128_chain_partial (env : Env α) (f : α → α → Except PyErr α) (h : ∀ a, NoOwnOps env a) :
    ∀ (ys : List α) (x : α), barChain env ⟨.two f⟩ (.plain x) ys = (foldCalls f x ys).map .plain
  | [], x => rfl
  | y :: ys, x => by
    unfold barChain foldCalls
    rw [List.foldl_cons]
    have := (C128_infix_partial env f x y (h x)).1
    simp only [Except.bind, this] at *
    cases hf : f x y with
    | error e =>
      simp only [Except.map]
      exact barChain_error env _ e ys
    | ok z => exact C128_chain_partial env f h ys z

/-- **C128 violated.** A left operand with its own `|` keeps it, whatever the function is. -/
theorem C128_own_violated (env : Env α) (f : α → α → Except PyErr α) (x y r : α)
    (hx : env.or x ⟨.two f⟩ = some r) :
    barExpr env ⟨.two f⟩ (.plain x) y = (env.orPlain r y).map .plain := by
  simp only [barExpr, orOp, hx, Except.bind]

/-- **C128**, misuse: `op | y` and `op >> y` without a left operand, an `Infix` as left operand, and a call of what waits for its
right operand with two are refused with `TypeError`. -/
theorem C128_misuse_partial (env : Env α) (f g : α → α → Except PyErr α) (x y z : α) :
    orOp env (.infix ⟨.two f⟩) (.plain y) = .error .typeError ∧
    rshiftOp env (.infix ⟨.two f⟩) (.plain y) = .error .typeError ∧
    barExpr env ⟨.two f⟩ (.infix ⟨.two g⟩) y = .error .typeError ∧
    shiftExpr env ⟨.two f⟩ (.infix ⟨.two g⟩) y = .error .typeError ∧
    rshiftOp env (.plain x) (.infix ⟨.two f⟩) = .error .typeError ∧
    (Infix.ror ⟨.two f⟩ x).call y z = .error .typeError ∧ (Infix.rlshift ⟨.two f⟩ x).call y z = .error .typeError :=
  ⟨rfl, rfl, rfl, rfl, rfl, rfl, rfl⟩

/-- **C128**, `nuco`: the first of the values in a chain which is not `None`, or `None`. -/
theorem C128_nuco_partial (env : Env (Option β)) (h : ∀ a, NoOwnOps env a) (x : Option β) (ys : List (Option β)) :
    barChain env nuco (.plain x) ys = .ok (.plain ((x :: ys).findSome? id)) := by
  unfold nuco
  rw [C128_chain_partial env _ h ys x]
  have : ∀ (ys : List (Option β)) (x : Option β),
      foldCalls nucoFn x ys =
        .ok ((x :: ys).findSome? id) := by
    intro ys
    induction ys with
    | nil => intro x; cases x <;> rfl
    | cons y ys ih =>
      intro x
      cases x with
      | none => simp only [foldCalls, nucoFn, ih]; rfl
      | some a => simp only [foldCalls, nucoFn, ih]; rfl
  rw [this]
  rfl

/-- Values without operators. -/
def infixEx : Env (Option Nat) := ⟨fun _ _ => none, fun _ _ => none, fun _ _ => .error .typeError, fun _ _ => .error .typeError⟩

-- the hypotheses are met
example : ∀ a, NoOwnOps infixEx a := fun _ _ => ⟨rfl, rfl⟩
example : barChain infixEx nuco (.plain none) [none, some 3, some 4] = .ok (.plain (some 3)) := rfl
example : ∃ (env : Env (Option Nat)) (x r : Option Nat), env.or x nuco = some r :=
  ⟨{ infixEx with or := fun x _ => some x }, some 1, some 1, rfl⟩

end Pawpaw.Props
