import Verif.Model.Span
/-!
# Model of `type_magic.invoke_func`, `/repo/pawpaw/_type_magic.py:155-197`

Values (`V`) and annotations (`A`) are abstract: `fits v a` is `issubclass_ex(type(v), a)` and `same v w` is what
`list.remove` tests (`v is w or v == w`).  A test `issubclass_ex` that raises (a string annotation) is not
modelled.
-/
namespace Pawpaw
namespace Invoke

/-- What `inspect.getfullargspec(func)` gives: positional parameters, keyword-only parameters (each with its
annotation, if any), whether there is a `*args` parameter and a return annotation; and whether `func` is a lambda. -/
structure Func (A : Type) where
  isLambda : Bool := false
  args : List (String × Option A)
  kwonly : List (String × Option A) := []
  varargs : Bool := false
  hasReturn : Bool := true

variable {V A : Type}

/-- `unpaired.remove(val)`: the first element that is `val` or equal to it. -/
def remove (same : V → V → Bool) (v : V) : List V → List V
  | [] => []
  | w :: ws => if same w v then ws else w :: remove same v ws

/-- `for val in unpaired: ... break`, `/repo/pawpaw/_type_magic.py:173-178`: the value picked, if any.  A missing
annotation raises `KeyError` as soon as there is a value to test. -/
def pick (fits : V → A → Bool) (ann : Option A) : List V → Except PyErr (Option V)
  | [] => .ok none
  | v :: vs =>
    match ann with
    | none => .error .keyError
    | some a => if fits v a then .ok (some v) else pick fits ann vs

/-- The loops over the parameters, `/repo/pawpaw/_type_magic.py:172-178,181-187`: the parameters served with
their values, and the values left. -/
def serve (fits : V → A → Bool) (same : V → V → Bool) :
    List (String × Option A) → List V → Except PyErr (List (String × V) × List V)
  | [], unpaired => .ok ([], unpaired)
  | p :: ps, unpaired =>
    match pick fits p.2 unpaired with
    | .error e => .error e
    | .ok none => serve fits same ps unpaired
    | .ok (some v) =>
      match serve fits same ps (remove same v unpaired) with
      | .error e => .error e
      | .ok (served, left) => .ok ((p.1, v) :: served, left)

/-- The positional and the keyword arguments `func` is called with, `/repo/pawpaw/_type_magic.py:155-197`.
(`p_args` keeps only the values: which parameter was served is forgotten.  With values left and a `*args`
parameter, `p_vargs[...] = unpaired` indexes a list by a `str`.) -/
def invoke (fits : V → A → Bool) (same : V → V → Bool) (f : Func A) (vals : List V) :
    Except PyErr (List V × List (String × V)) :=
  if f.isLambda then .ok (vals, [])
  else if f.hasReturn = false then .error .keyError
  else
    match serve fits same f.args vals with
    | .error e => .error e
    | .ok (pos, left) =>
      match serve fits same f.kwonly left with
      | .error e => .error e
      | .ok (kw, left) =>
        if left ≠ [] ∧ f.varargs = true then .error .typeError
        else .ok (pos.map Prod.snd, kw)

end Invoke
end Pawpaw
