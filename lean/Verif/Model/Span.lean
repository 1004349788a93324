/-!
# Model of `pawpaw/span.py` and of the exception values used everywhere
-/
namespace Pawpaw

/-- Python exceptions the modelled code raises, as values.  (`/repo/pawpaw/errors.py:1-51` builds
the `TypeError`s; those arise from `isinstance` guards, which Lean's typing replaces.) -/
inductive PyErr where
  | valueError
  | indexError
  | typeError
  | attributeError
  | nameError
  | keyError
  | stopIteration
  | unicodeError
  | nonTermination
  deriving DecidableEq, Repr

/-- Decidable equality of outcomes, so that concrete cases can be evaluated. -/
instance instDecidableEqExcept {ε τ : Type} [DecidableEq ε] [DecidableEq τ] :
    DecidableEq (Except ε τ)
  | .ok a, .ok b => if h : a = b then isTrue (by rw [h]) else isFalse (by intro e; cases e; exact h rfl)
  | .error a, .error b =>
    if h : a = b then isTrue (by rw [h]) else isFalse (by intro e; cases e; exact h rfl)
  | .ok _, .error _ => isFalse (by intro e; cases e)
  | .error _, .ok _ => isFalse (by intro e; cases e)

/-- `Span(typing.NamedTuple)`: `/repo/pawpaw/span.py:9-11`. Python `int` is unbounded: `Int`. -/
structure Span where
  start : Int
  stop : Int
  deriving DecidableEq, Repr

namespace Span

/-- One index normalisation, `/repo/pawpaw/span.py:27-33` (for `start`) and `:35-40` (for `stop`):
`min(length, i) if i >= 0 else max(0, length + i)`. -/
def clampIndex (length : Int) (i : Int) : Int :=
  if i ≥ 0 then min length i else max 0 (length + i)

/-- `Span.from_indices(basis, start, stop)`, `/repo/pawpaw/span.py:13-43`.
Simplification: `basis` is already the length (`len(basis)` for a `Sized`, or the int itself). -/
def fromIndices (length : Int) (start stop : Option Int) : Span :=
  let st := match start with
    | none => 0
    | some i => clampIndex length i
  let en := match stop with
    | none => length
    | some i => clampIndex length i
  ⟨st, max st en⟩

/-- `Span.offset(self, i)`, `/repo/pawpaw/span.py:45-56`. -/
def offset (s : Span) (i : Int) : Except PyErr Span :=
  if i = 0 then .ok s
  else
    let rv : Span := ⟨s.start + i, s.stop + i⟩
    if rv.start < 0 ∨ rv.stop < 0 then .error .valueError else .ok rv

end Span
end Pawpaw
