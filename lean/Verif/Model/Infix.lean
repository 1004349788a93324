import Verif.Model.Span
/-!
# Model of `/repo/pawpaw/infix.py`

`α` are the values which are not an `Infix`.  What `x | op` and `x << op` give for the methods of `x`
itself is a parameter: `none` stands for `NotImplemented` or no such method.  A call with the wrong number
of arguments is a `TypeError`.
-/
namespace Pawpaw
namespace Infx

/-- The functions in an `Infix`: of the two operands, or waiting for the second one. -/
inductive Fn (α : Type) where
  | two (f : α → α → Except PyErr α)
  | one (f : α → Except PyErr α)

/-- `Infix`, `/repo/pawpaw/infix.py:10-12` -/
structure Infix (α : Type) where
  function : Fn α

/-- `self.function(x)` -/
def Fn.call1 : Fn α → α → Except PyErr α
  | .two _, _ => .error .typeError
  | .one f, x => f x

/-- `self.function(x, y)` -/
def Fn.call2 : Fn α → α → α → Except PyErr α
  | .two f, x, y => f x y
  | .one _, _, _ => .error .typeError

/-- `__ror__`, `/repo/pawpaw/infix.py:14-15` -/
def Infix.ror (self : Infix α) (other : α) : Infix α := ⟨.one fun x => self.function.call2 other x⟩
/-- `__or__`, `/repo/pawpaw/infix.py:17-18` -/
def Infix.or (self : Infix α) (other : α) : Except PyErr α := self.function.call1 other
/-- `__rlshift__`, `/repo/pawpaw/infix.py:20-21` -/
def Infix.rlshift (self : Infix α) (other : α) : Infix α := ⟨.one fun x => self.function.call2 other x⟩
/-- `__rshift__`, `/repo/pawpaw/infix.py:23-24` -/
def Infix.rshift (self : Infix α) (other : α) : Except PyErr α := self.function.call1 other
/-- `__call__`, `/repo/pawpaw/infix.py:26-27` -/
def Infix.call (self : Infix α) (x y : α) : Except PyErr α := self.function.call2 x y

/-- The methods of the other values. -/
structure Env (α : Type) where
  /-- `type(x).__or__(x, op)`, for an `Infix` `op` -/
  or : α → Infix α → Option α
  /-- `type(x).__lshift__(x, op)` -/
  lshift : α → Infix α → Option α
  /-- `x | y` and `x >> y` of two such values -/
  orPlain : α → α → Except PyErr α
  rshiftPlain : α → α → Except PyErr α

/-- A Python value. -/
inductive Val (α : Type) where
  | plain (a : α)
  | infix (i : Infix α)

/-- `x | y` (CPython `binary_op1`: the method of the left operand, then the reflected one of the right). The
right operand of an `Infix` is not an `Infix` here. -/
def orOp (env : Env α) : Val α → Val α → Except PyErr (Val α)
  | .plain x, .infix i =>
    match env.or x i with
    | some r => .ok (.plain r)
    | none => .ok (.infix (i.ror x))
  | .plain x, .plain y => (env.orPlain x y).map .plain
  | .infix i, .plain y => (i.or y).map .plain
  | .infix _, .infix _ => .error .typeError

/-- `x << y` where one is an `Infix` -/
def lshiftOp (env : Env α) : Val α → Val α → Except PyErr (Val α)
  | .plain x, .infix i =>
    match env.lshift x i with
    | some r => .ok (.plain r)
    | none => .ok (.infix (i.rlshift x))
  | _, _ => .error .typeError

/-- `x >> y` -/
def rshiftOp (env : Env α) : Val α → Val α → Except PyErr (Val α)
  | .infix i, .plain y => (i.rshift y).map .plain
  | .plain x, .plain y => (env.rshiftPlain x y).map .plain
  | _, .infix _ => .error .typeError

/-- `x |op| y`, which Python reads as `(x | op) | y` -/
def barExpr (env : Env α) (i : Infix α) (x : Val α) (y : α) : Except PyErr (Val α) :=
  (orOp env x (.infix i)).bind fun v => orOp env v (.plain y)

/-- `x <<op>> y`, which Python reads as `(x << op) >> y` -/
def shiftExpr (env : Env α) (i : Infix α) (x : Val α) (y : α) : Except PyErr (Val α) :=
  (lshiftOp env x (.infix i)).bind fun v => rshiftOp env v (.plain y)

/-- `x |op| y₁ |op| y₂ …`, which Python reads from the left -/
def barChain (env : Env α) (i : Infix α) (x : Val α) (ys : List α) : Except PyErr (Val α) :=
  ys.foldl (fun acc y => acc.bind fun v => barExpr env i v y) (.ok x)

/-- `lambda x, y: y if x is None else x`, `/repo/pawpaw/ito.py:17`: values are `Option β`, `none` for
`None`. -/
def nucoFn : Option β → Option β → Except PyErr (Option β)
  | none, y => .ok y
  | some a, _ => .ok (some a)

/-- `nuco`, `/repo/pawpaw/ito.py:17` -/
def nuco : Infix (Option β) := ⟨.two nucoFn⟩

end Infx
end Pawpaw
