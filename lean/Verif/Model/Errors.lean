import Verif.Model.Span
/-!
# Model of `/repo/pawpaw/errors.py`

What `hasattr`, `typing.get_origin`, `callable`, `inspect.signature`, `repr` and `str` give for a value is
a parameter: they are not pawpaw code.
-/
namespace Pawpaw
namespace Errs

/-- What `_get_type_strs` can see of an allowed type, by the branch it takes. -/
inductive Ty where
  /-- it has a `__qualname__` (given with its `str`) -/
  | qual (qualname str : String)
  /-- no `__qualname__` but a `__bound__` -/
  | bound (b : Ty)
  /-- a `types.UnionType`, with `typing.get_args` -/
  | union (args : List Ty)
  /-- `None` -/
  | none
  /-- anything else, with its `repr` -/
  | other (repr : String)

mutual
/-- One turn of the loop of `_get_type_strs`, `/repo/pawpaw/errors.py:23-38`. -/
def Ty.strs : Ty → List String
  | .qual q s => if q = "Callable" then [s] else [q]
  | .bound b => b.strs
  | .union args => typeStrs args
  | .none => ["None"]
  | .other r => [r]
/-- `_get_type_strs`, `/repo/pawpaw/errors.py:21-38` -/
def typeStrs : List Ty → List String
  | [] => []
  | t :: ts => t.strs ++ typeStrs ts
end

/-- `_build_types_str`, `/repo/pawpaw/errors.py:40-41` -/
def buildTypesStr (allowed : List Ty) : String := " or ".intercalate (typeStrs allowed)

/-- A value: `callable(value)`, `str(inspect.signature(value))`, `repr(value)`, `str(value)`. -/
structure PyVal where
  callable : Bool
  signature : Except PyErr String
  repr : Except PyErr String
  str : Except PyErr String

/-- What `raise` raises: the exception made by the function, or the one that came up while making it. -/
structure Raised where
  kind : PyErr
  message : Option String
  deriving DecidableEq

/-- `actual`, `/repo/pawpaw/errors.py:45` and `:50` -/
def actual (v : PyVal) : Except PyErr String := if v.callable then v.signature else v.repr

/-- `raise Errors.parameter_invalid_type(name, value, *allowed)`, `/repo/pawpaw/errors.py:43-46` -/
def parameterInvalidType (name : String) (v : PyVal) (allowed : List Ty) : Raised :=
  match actual v with
  | .error e => ⟨e, none⟩
  | .ok a => ⟨.typeError, some ("parameter '" ++ name ++ "' must be type " ++ buildTypesStr allowed ++
      ", not " ++ a)⟩

/-- `raise Errors.parameter_iterable_contains_invalid_type(name, value, *allowed)`,
`/repo/pawpaw/errors.py:48-51` -/
def parameterIterableContainsInvalidType (name : String) (v : PyVal) (allowed : List Ty) : Raised :=
  match actual v with
  | .error e => ⟨e, none⟩
  | .ok a =>
    match v.str with
    | .error e => ⟨e, none⟩
    | .ok s => ⟨.typeError, some ("parameter '" ++ name ++ "' must contain elements of type " ++
        buildTypesStr allowed ++ ", however, it contains an element of type " ++ a ++ ": " ++ s)⟩

end Errs
end Pawpaw
