import Verif.Spec.Heap
/-!
# Specification vocabulary for assignments to child lists and for slices with a step
-/
namespace HeapSpec
open Pawpaw

/-- `x` may be put under `p` between its children `l` and `r`: same string, not `p` itself, inside `p`, not
starting before the child on its left ends, and not ending after the child on its right starts. -/
structure Fits (h : Heap) (p x : Nat) (l r : List Nat) : Prop where
  str : h.str x = h.str p
  ne : x ≠ p
  inside : (h.span p).start ≤ (h.span x).start ∧ (h.span x).stop ≤ (h.span p).stop
  left : ∀ c, l.getLast? = some c → (h.span c).stop ≤ (h.span x).start
  right : ∀ c, r.head? = some c → (h.span x).stop ≤ (h.span c).start

/-- Python's slice `[a:b:s]` of a list of length `n` selects position `i`: negative bounds count from the end, the
first position is `a` (at least 0; at most `n - 1` when counting down), then every `s`-th one up to, and without, `b`. -/
def Selected (n : Nat) (a b : Option Int) (s : Int) (i : Nat) : Prop :=
  let norm (k : Int) : Int := if k < 0 then k + n else k
  i < n ∧
  (0 < s → (max 0 (norm (a.getD 0)) ≤ i ∧ (∀ k, b = some k → (i : Int) < norm k) ∧
    ∃ m : Int, (i : Int) = max 0 (norm (a.getD 0)) + m * s)) ∧
  (s < 0 → ((i : Int) ≤ min ((n : Int) - 1) (norm (a.getD (-1))) ∧ (∀ k, b = some k → norm k < i) ∧
    ∃ m : Int, (i : Int) = min ((n : Int) - 1) (norm (a.getD (-1))) + m * s))

end HeapSpec
