import Verif.Model.Pipeline
import Verif.Spec.Heap
/-!
# Specification vocabulary for itorator pipelines

Only the data types (`Heap`, `Obj`, `Gen`, `It`, `Con`) and `Gen.collect` (`[*g]`) are taken from the model.
-/
namespace PipeSpec
open Pawpaw Pipeline HeapSpec

/-- A promise about memory: `inv` holds between steps, `step` relates memory before and after a step, and only objects
numbered from `base` on are handed around. -/
structure Promise where
  base : Nat
  inv : Heap → Prop
  step : Heap → Heap → Prop

/-- A live object numbered from `base` on. -/
def Promise.Own (P : Promise) (h : Heap) (x : Nat) : Prop := P.base ≤ x ∧ x < h.next

/-- A generator resumed in memory `h` keeps the promise until it yields, raises or ends, yields only `Own` objects, and
keeps doing so whenever it is resumed: between two steps the caller may do anything that keeps `inv`. -/
inductive Keeps (P : Promise) : Heap → Gen → Prop
  | done {h h'} : P.step h h' → P.inv h' → Keeps P h (.done h')
  | raise {h h' e} : P.step h h' → P.inv h' → Keeps P h (.raise h' e)
  | yield {h h' r k} : P.step h h' → P.inv h' → P.Own h' r →
      (∀ h'', P.inv h'' → h'.next ≤ h''.next → Keeps P h'' (k h'')) → Keeps P h (.yield h' r k)

/-- The children of objects numbered from `b` on are numbered from `b` on. -/
def Closed (b : Nat) (h : Heap) : Prop :=
  b ≤ h.next ∧ ∀ x, b ≤ x → x < h.next → ∀ c ∈ h.kids x, b ≤ c ∧ c < h.next

/-- The promise not to touch any object numbered below `b`. -/
def untouched (b : Nat) : Promise where
  base := b
  inv := Closed b
  step h h' := h.next ≤ h'.next ∧ ∀ i < b, h'.obj i = h.obj i

/-- The promise to keep memory consistent. -/
def consistent : Promise where
  base := 0
  inv := OK
  step h h' := h.next ≤ h'.next

/-- A transform that keeps a promise on the objects it is given. -/
def KeepsT (P : Promise) (t : Heap → Nat → Gen) : Prop := ∀ h x, P.inv h → P.Own h x → Keeps P h (t h x)

/-- A postorator that keeps a promise if its argument does. -/
def KeepsPost (P : Promise) (f : (Heap → Gen) → Heap → Gen) : Prop :=
  ∀ g h, P.inv h → (∀ h', P.inv h' → h.next ≤ h'.next → Keeps P h' (g h')) → Keeps P h (f g h)

/-- Every itorator of a pipeline has a transform and a postorator that keep the promise. -/
def KeepsAll (P : Promise) (G : Nat → It) : Prop :=
  ∀ i, KeepsT P (G i).transform ∧ ∀ f, (G i).post = some f → KeepsPost P f

/-- Exhausting generator `g` while handing each object it yields to `f` and exhausting that, before `g` is resumed:
`Serves f g h' tr` if this ends in memory `h'` and `tr` lists the objects and what `f` made of each, in order. -/
inductive Serves (f : Heap → Nat → Gen) : Gen → Heap → List (Nat × List Nat) → Prop
  | done {h} : Serves f (.done h) h []
  | yield {h r k h1 ys h2 tr} : (f h r).collect = (h1, .ok ys) → Serves f (k h1) h2 tr →
      Serves f (.yield h r k) h2 ((r, ys) :: tr)

/-- `h'` differs from `h` only in that `p` has the children `ks`, that the objects `xs` have the parent `q`. -/
def Relinked (h h' : Heap) (p : Nat) (ks xs : List Nat) (q : Option Nat) : Prop :=
  h'.next = h.next ∧ ∀ y, h'.obj y = { h.obj y with
    parent := if y ∈ xs then q else (h.obj y).parent
    kids := if y = p then ks else (h.obj y).kids }

end PipeSpec
