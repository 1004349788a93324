import Verif.Model.Span
/-!
# Model of `/repo/pawpaw/_type_magic.py:1-150`: `unpack`, `isinstance_ex`, `issubclass_ex`, `functoid_isinstance`

Classes are numbers; `sub a b` is `issubclass(a, b)` for classes (abstract base class hooks included).
An object is seen by its class only: `isinstance(obj, c)` is taken to be `issubclass(type(obj), c)` (an object whose
`__class__` lies is not modelled).
-/
namespace Pawpaw
namespace TypeMagic

/-- The type objects that may stand in an annotation, as `typing.get_origin` and `typing.get_args` see them. -/
inductive Ty where
  /-- a class -/
  | cls (c : Nat)
  /-- `list[int]`, `typing.Iterable[str]`, ...: its origin is a class -/
  | gen (origin : Nat) (args : List Ty)
  /-- `A | B` of classes, a `types.UnionType` -/
  | bar (members : List Ty)
  /-- `typing.Union[A, B]`, `typing.Optional[A]`; also what `typing.List[int] | None` gives -/
  | union (members : List Ty)
  /-- `typing.Any` -/
  | any

/-- What Python says of classes: `issubclass`, and the class `typing.Any` (none before Python 3.11). -/
structure Env where
  sub : Nat → Nat → Bool
  anyClass : Option Nat := none

mutual
/-- `unpack`, `/repo/pawpaw/_type_magic.py:62-71`. -/
def unpack : Ty → List Ty
  | .bar ms => unpackAll ms
  | t => [t]
/-- The loop `for i in typing.get_args(t): rv.extend(unpack(i))`, `/repo/pawpaw/_type_magic.py:66-67`. -/
def unpackAll : List Ty → List Ty
  | [] => []
  | t :: ts => unpack t ++ unpackAll ts
end

/-- `t if (origin := typing.get_origin(t)) is None else origin`, `/repo/pawpaw/_type_magic.py:93-94`, when that is
a class. -/
def origin (env : Env) : Ty → Option Nat
  | .cls c => some c
  | .gen o _ => some o
  | .any => env.anyClass
  | .bar _ => none      -- only inside `unpack`'s argument
  | .union _ => none

/-- The builtin `issubclass`; `TypeError` when either is not a class. -/
def issub (env : Env) : Option Nat → Option Nat → Except PyErr Bool
  | some a, some b => .ok (env.sub a b)
  | _, _ => .error .typeError

/-- `any(…)`, evaluated from the left until one holds. -/
def anyOf {α : Type} (p : α → Except PyErr Bool) : List α → Except PyErr Bool
  | [] => .ok false
  | x :: xs =>
    match p x with
    | .error e => .error e
    | .ok true => .ok true
    | .ok false => anyOf p xs

/-- `isinstance_ex`, `/repo/pawpaw/_type_magic.py:74-89`, on an object of class `c`.  Both branches of the loop are
`issub` of the origin. -/
def isinstanceEx (env : Env) (c : Nat) (t : Ty) : Except PyErr Bool :=
  anyOf (fun m => issub env (some c) (origin env m)) (unpack t)

/-- `issubclass_ex`, `/repo/pawpaw/_type_magic.py:92-98`. -/
def issubclassEx (env : Env) (a t : Ty) : Except PyErr Bool :=
  anyOf (fun x => anyOf (fun y => issub env x y) ((unpack t).map (origin env))) ((unpack a).map (origin env))

/-- What `inspect.signature` has for a parameter or the return value: nothing, a type object, or something else (a
string, `None`). -/
inductive Ann where
  | empty
  | ty (t : Ty)
  | other

/-- `isinstance(t, TYPE_OR_UNION)` on an annotation that is a type object, `/repo/pawpaw/_type_magic.py:111`.
(On Python 3.10 `list[int]` counts as a class; as the type hint is then the same object it makes no difference.) -/
def isType (env : Env) : Ty → Bool
  | .cls _ => true
  | .bar _ => true
  | .any => env.anyClass.isSome
  | _ => false

/-- `_annotation_or_type_hint_matches_type`, `/repo/pawpaw/_type_magic.py:105-120`. -/
def hintMatches (env : Env) (ann : Ann) (hint : Option Ty) (t : Ty) : Except PyErr Bool :=
  let used : Option Ty :=
    match ann with
    | .ty a => if isType env a then some a else hint
    | _ => hint
  match used with
  | none => .ok true
  | some a =>
    match t with
    | .any => .ok true
    | _ => issubclassEx env a t

/-- A callable object: what `inspect.signature` gives (parameters in order, return annotation) and what
`typing.get_type_hints` gives; either may raise. -/
structure Func where
  sig : Except PyErr (List (String × Ann) × Ann)
  hints : Except PyErr (List (String × Ty)) := .ok []

/-- The first argument of `functoid_isinstance`. -/
inductive Obj where
  /-- `callable(obj)` and not a `typing.Callable[…]` -/
  | functoid (f : Func)
  /-- anything else -/
  | other

/-- The second argument of `functoid_isinstance`, as `typing.get_args` shows it. -/
inductive CallTy where
  /-- `typing.Callable` -/
  | bare
  /-- `typing.Callable[..., r]` -/
  | dots (r : Ty)
  /-- `typing.Callable[[p, …], r]` -/
  | args (ps : List Ty) (r : Ty)
  /-- not a `typing.Callable` at all; `noSig` if it can be called and has no signature (as the class `int`) -/
  | notCallable (noSig : Bool := false)

/-- `func_type_hints.get(name, None)`. -/
def hintOf (hs : List (String × Ty)) (name : String) : Option Ty :=
  (hs.find? (fun p => p.1 == name)).map (·.2)

/-- The loop over the parameters, `/repo/pawpaw/_type_magic.py:147-150`. -/
def paramsMatch (env : Env) (hs : List (String × Ty)) : List (String × Ann) → List Ty → Except PyErr Bool
  | p :: ps, t :: ts =>
    match hintMatches env p.2 (hintOf hs p.1) t with
    | .error e => .error e
    | .ok false => .ok false
    | .ok true => paramsMatch env hs ps ts
  | _, _ => .ok true

/-- `functoid_isinstance`, `/repo/pawpaw/_type_magic.py:123-152`.  (The error for a second argument of the wrong
type is built by `Errors.parameter_invalid_type`, `/repo/pawpaw/errors.py:44-46`, which asks for its signature.) -/
def functoidIsinstance (env : Env) (o : Obj) (ct : CallTy) : Except PyErr Bool :=
  match ct, o with
  | .notCallable noSig, _ => .error (if noSig then .valueError else .typeError)
  | _, .other => .ok false
  | ct, .functoid f =>
    match f.sig, f.hints with
    | .error e, _ => .error e
    | .ok _, .error e => .error e
    | .ok (params, ret), .ok hs =>
      match ct with
      | .notCallable _ => .error .typeError
      | .bare => .error .valueError       -- `ts_params, ts_ret_val = ()`
      | .dots r =>
        match hintMatches env ret (hintOf hs "return") r with
        | .error e => .error e
        | .ok false => .ok false
        | .ok true => .error .typeError   -- `len(Ellipsis)`
      | .args ps r =>
        match hintMatches env ret (hintOf hs "return") r with
        | .error e => .error e
        | .ok false => .ok false
        | .ok true =>
          if params.length ≠ ps.length then .ok false
          else paramsMatch env hs params ps

end TypeMagic
end Pawpaw
