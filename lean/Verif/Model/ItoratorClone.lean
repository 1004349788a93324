import Verif.Model.Pipeline
/-!
# Model of `clone` of itorators

The itorators of a program, numbered in the order they were made. `wrapped` tells those made by `Itorator.wrap`; the others
are of the classes the library defines: `Desc`, `Extract`, `Filter`, `Invert`, `Nuco`, `Reflect`, `Split`, `ValueFunc`.
-/
namespace Pawpaw
namespace ItoratorClone
open Pipeline

/-- All itorators made so far. -/
structure Shop where
  next : Nat
  it : Nat → It
  wrapped : Nat → Bool
  tag : Nat → Option String

/-- `Itorator.wrap(f, tag)`, `/repo/pawpaw/arborform/itorator/itorator.py:85-97`, `180-186`: no connections, no
postorator. -/
def wrap (S : Shop) (f : Heap → Nat → Gen) (tag : Option String) : Shop × Nat :=
  ({ next := S.next + 1,
     it := fun i => if i = S.next then { transform := f } else S.it i,
     wrapped := fun i => if i = S.next then true else S.wrapped i,
     tag := fun i => if i = S.next then tag else S.tag i }, S.next)

/-- `itorator.clone(tag)`. A wrapped one, `/repo/pawpaw/arborform/itorator/itorator.py:188-189`: `type(self)(self.__f, …)`.
Every other class: `type(self())(…)`, and `self()` lacks the argument `ito` of `__call__` (`itorator.py:174`):
`/repo/pawpaw/arborform/itorator/nuco.py:12-13`, `value_func.py:14-15`, `extract.py:31-32`, `reflect.py:11-12`,
`regex_itorator.py:48-49`, `split.py:96-104`, `invert.py:17-18`, `desc.py:17-18`, `filter.py:14-15`. -/
def clone (S : Shop) (i : Nat) (tag : Option String) : Shop × Except PyErr Nat :=
  if S.wrapped i then
    match wrap S (S.it i).transform (match tag with | none => S.tag i | some t => some t) with
    | (S, j) => (S, .ok j)
  else (S, .error .typeError)

end ItoratorClone
end Pawpaw
