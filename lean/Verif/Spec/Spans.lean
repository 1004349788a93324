import Verif.Model.Span
/-!
# Specification vocabulary for spans

Only the data type `Span` (a pair of integers) is taken from the model.
-/
namespace SpanSpec
open Pawpaw

/-- The spans follow one another without gap or overlap from `a` to `b`. -/
def Tiles : Int → Int → List Span → Prop
  | a, b, [] => a = b
  | a, b, s :: ss => s.start = a ∧ s.start ≤ s.stop ∧ Tiles s.stop b ss

/-- Ordered, non-overlapping spans (zero-width allowed), each with `start ≤ stop`, inside
`[a, b]`: the contract of a regex `finditer` over `[a, b]`. -/
def OrderedIn : Int → Int → List Span → Prop
  | a, b, [] => a ≤ b
  | a, b, s :: ss => a ≤ s.start ∧ s.start ≤ s.stop ∧ OrderedIn s.stop b ss

/-- `p₀ s₀ p₁ s₁ … pₙ` -/
def interleave : List Span → List Span → List Span
  | [], ss => ss
  | p :: ps, [] => p :: ps
  | p :: ps, s :: ss => p :: s :: interleave ps ss

/-- Position `k` (a character of the string) lies in the span. -/
def Covers (s : Span) (k : Int) : Prop := s.start ≤ k ∧ k < s.stop

instance (s : Span) (k : Int) : Decidable (Covers s k) := inferInstanceAs (Decidable (_ ∧ _))

/-- `gaps` is exactly the space of `[a, b)` not covered by `cover`: non-empty spans inside `[a, b)`, in
order, disjoint, and a position of `[a, b)` lies in a gap iff no span of `cover` covers it. -/
structure Complement (a b : Int) (cover gaps : List Span) : Prop where
  inside : ∀ g ∈ gaps, a ≤ g.start ∧ g.start < g.stop ∧ g.stop ≤ b
  ordered : gaps.Pairwise (fun g g' => g.stop ≤ g'.start)
  exact : ∀ k : Int, (∃ g ∈ gaps, Covers g k) ↔ (a ≤ k ∧ k < b ∧ ∀ c ∈ cover, ¬ Covers c k)

/-- `s` is the smallest span containing all of `l`: it contains each, and both its ends are
attained. -/
structure TightHull (l : List Span) (s : Span) : Prop where
  contains : ∀ x ∈ l, s.start ≤ x.start ∧ x.stop ≤ s.stop
  startAttained : ∃ x ∈ l, x.start = s.start
  stopAttained : ∃ x ∈ l, x.stop = s.stop

/-- Leftmost chain of occurrences: the first substring is found at its lowest position `p ≥ i` such that
it lies before `j`, the second at its lowest position from the end of the first, and so on. -/
def LeftmostChain {α : Type} [DecidableEq α] (s : List α) (j : Nat) :
    Nat → List (List α) → List Span → Prop
  | _, [], gs => gs = []
  | i, sub :: subs, gs => ∃ (p : Nat) (gs' : List Span), gs = ⟨p, (p + sub.length : Nat)⟩ :: gs' ∧
      i ≤ p ∧ p + sub.length ≤ j ∧ (s.drop p).take sub.length = sub ∧
      (∀ q, i ≤ q → q < p → (s.drop q).take sub.length ≠ sub) ∧
      LeftmostChain s j (p + sub.length) subs gs'

/-- Where the next search starts: the end of the last span found, or `i`. -/
def resume (i : Int) (gs : List Span) : Int := (gs.getLast?.map Span.stop).getD i

end SpanSpec
