import Verif.Model.Span
/-!
# Model of `Ito.__eq__`, `__ne__`, `__hash__` and Python's `==`

Types are identified by numbers, with `sub a b` for `issubclass(a, b)`; so are objects (`id`) and value
functions (compared by identity, as functions are).
-/
namespace Pawpaw
namespace Equality

/-- The attributes equality may look at. -/
structure TIto where
  id : Nat
  ty : Nat
  span : Span
  vf : Option Nat
  desc : Option String
  str : String
  deriving DecidableEq

/-- `__key`, `/repo/pawpaw/ito.py:520-526` -/
def key (x : TIto) : Span × Option Nat × Option String × String := (x.span, x.vf, x.desc, x.str)

/-- `x.__eq__(o)`, `/repo/pawpaw/ito.py:531-554`, for an Ito `o` -/
def eqMethod (sub : Nat → Nat → Bool) (x o : TIto) : Bool :=
  if x.id = o.id then true
  else if !sub o.ty x.ty then false
  else decide (key x = key o)

/-- `x.__ne__(o)`, `/repo/pawpaw/ito.py:564-565` -/
def neMethod (sub : Nat → Nat → Bool) (x o : TIto) : Bool := !eqMethod sub x o

/-- Which operand's method the operators `==` and `!=` ask: the right one when its type is a proper
subclass of the left one's (CPython `do_richcompare`; the methods never return `NotImplemented`). -/
def rich (sub : Nat → Nat → Bool) (m : TIto → TIto → Bool) (x o : TIto) : Bool :=
  if x.ty ≠ o.ty ∧ sub o.ty x.ty = true then m o x else m x o

/-- `x == o` -/
def eqOp (sub : Nat → Nat → Bool) (x o : TIto) : Bool := rich sub (eqMethod sub) x o
/-- `x != o` -/
def neOp (sub : Nat → Nat → Bool) (x o : TIto) : Bool := rich sub (neMethod sub) x o

/-- `__hash__`, `/repo/pawpaw/ito.py:528-529`; `tupleHash` is Python's `hash` of the tuple. -/
def hash (tupleHash : Span × Option Nat × Option String × String → Int) (x : TIto) : Int := tupleHash (key x)

end Equality
end Pawpaw
