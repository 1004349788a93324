import Verif.Model.Eq
/-!
# C46: equality
-/
namespace Pawpaw.Props
open Equality

/-- What a class hierarchy and a set of live objects satisfy: `issubclass` is a partial order and an
identity belongs to one object. -/
structure World (sub : Nat → Nat → Bool) (objs : TIto → Prop) : Prop where
  refl : ∀ a, sub a a = true
  antisymm : ∀ a b, sub a b = true → sub b a = true → a = b
  trans : ∀ a b c, sub a b = true → sub b c = true → sub a c = true
  ident : ∀ x y, objs x → objs y → x.id = y.id → x = y

/-- C46: `x == y` exactly when they are the same type of Ito with equal string, span, desc and value
function. -/
theorem C46_eq_iff {sub : Nat → Nat → Bool} {objs : TIto → Prop} (w : World sub objs) (x y : TIto) (hx : objs x)
    (hy : objs y) : eqOp sub x y = true ↔
      x.ty = y.ty ∧ x.str = y.str ∧ x.span = y.span ∧ x.desc = y.desc ∧ x.vf = y.vf := by
  have hid := w.ident x y hx hy
  have hr := w.refl y.ty
  have h1 := w.antisymm x.ty y.ty
  unfold eqOp rich eqMethod
  by_cases e : x.ty = y.ty
  · rw [if_neg (by simp [e])]
    by_cases hi : x.id = y.id
    · rw [if_pos hi, hid hi]
      simp
    · rw [if_neg hi, e, hr]
      simp only [Bool.not_true, Bool.false_eq_true, if_false, decide_eq_true_eq, key, Prod.mk.injEq, true_and]
      constructor
      · rintro ⟨a, b, c, d⟩; exact ⟨d, a, c, b⟩
      · rintro ⟨a, b, c, d⟩; exact ⟨b, d, c, a⟩
  · have hne : x.id ≠ y.id := fun h => e (by rw [hid h])
    simp only [e, false_and, iff_false, ne_eq, not_false_eq_true, true_and]
    cases hs : sub y.ty x.ty
    · simp [hne]
    · have : sub x.ty y.ty = false := by
        cases h2 : sub x.ty y.ty
        · rfl
        · exact absurd (h1 h2 hs) e
      simp [this, Ne.symm hne]

/-- C46: equality is reflexive, symmetric and transitive, and `!=` is its negation. -/
theorem C46_equivalence {sub : Nat → Nat → Bool} {objs : TIto → Prop} (w : World sub objs) (x y z : TIto)
    (hx : objs x) (hy : objs y) (hz : objs z) :
    eqOp sub x x = true ∧ eqOp sub x y = eqOp sub y x ∧
    (eqOp sub x y = true → eqOp sub y z = true → eqOp sub x z = true) ∧ neOp sub x y = !eqOp sub x y := by
  refine ⟨by simp [C46_eq_iff w x x hx hx], ?_, ?_, ?_⟩
  · rw [Bool.eq_iff_iff, C46_eq_iff w x y hx hy, C46_eq_iff w y x hy hx]
    constructor <;> (rintro ⟨a, b, c, d, e⟩; exact ⟨a.symm, b.symm, c.symm, d.symm, e.symm⟩)
  · rw [C46_eq_iff w x y hx hy, C46_eq_iff w y z hy hz, C46_eq_iff w x z hx hz]
    rintro ⟨a, b, c, d, e⟩ ⟨a', b', c', d', e'⟩
    exact ⟨a.trans a', b.trans b', c.trans c', d.trans d', e.trans e'⟩
  · unfold neOp eqOp rich neMethod
    split <;> rfl

/-- C46: equal Itos have equal hashes. -/
theorem C46_hash {sub : Nat → Nat → Bool} {objs : TIto → Prop} (w : World sub objs)
    (tupleHash : Span × Option Nat × Option String × String → Int) (x y : TIto) (hx : objs x) (hy : objs y)
    (h : eqOp sub x y = true) : Equality.hash tupleHash x = Equality.hash tupleHash y := by
  obtain ⟨_, a, b, c, d⟩ := (C46_eq_iff w x y hx hy).mp h
  simp [Equality.hash, key, a, b, c, d]

/-- Non-vacuity: type 1 is a subclass of type 0; three objects, two of them equal, the third like them but
of the subclass. -/
example : World (fun a b => decide (b ≤ a)) (fun x => x ∈ [⟨0, 0, ⟨0, 1⟩, none, none, "a"⟩,
      ⟨1, 0, ⟨0, 1⟩, none, none, "a"⟩, (⟨2, 1, ⟨0, 1⟩, none, none, "a"⟩ : TIto)]) ∧
    eqOp (fun a b => decide (b ≤ a)) ⟨0, 0, ⟨0, 1⟩, none, none, "a"⟩ ⟨1, 0, ⟨0, 1⟩, none, none, "a"⟩ = true ∧
    eqOp (fun a b => decide (b ≤ a)) ⟨0, 0, ⟨0, 1⟩, none, none, "a"⟩ ⟨2, 1, ⟨0, 1⟩, none, none, "a"⟩ = false ∧
    -- the method called directly, unlike the operator, is not symmetric
    eqMethod (fun a b => decide (b ≤ a)) ⟨0, 0, ⟨0, 1⟩, none, none, "a"⟩ ⟨2, 1, ⟨0, 1⟩, none, none, "a"⟩ = true := by
  refine ⟨⟨by simp, fun a b => by simp; omega, fun a b c => by simp; omega, ?_⟩, by decide, by decide, by decide⟩
  intro x y hx hy h
  simp only [List.mem_cons, List.not_mem_nil, or_false] at hx hy
  rcases hx with rfl | rfl | rfl <;> rcases hy with rfl | rfl | rfl <;> first | rfl | (simp at h)

end Pawpaw.Props
