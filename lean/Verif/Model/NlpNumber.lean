import Verif.Model.Span
/-!
# Model of the settings of `nlp.Number`, `/repo/pawpaw/nlp/nlp.py:121-211`

An object is its attributes; those that `__init__` has not set yet are `none`, and reading them raises
`AttributeError`.  Simplifications: the compiled pattern is identified with its text (`regex.compile` of
the texts below does not raise); `regex.escape` and `str.isspace` are parameters; setters are given values
of the declared type.
-/
namespace Pawpaw
namespace NlpNumber

/-- `regex.escape`, `str.isspace`, and `locale.localeconv()` (`/repo/pawpaw/nlp/nlp.py:152-154`). -/
structure Env where
  escape : List Char → List Char
  isSpace : List Char → Bool
  locDecimalPoint : List Char
  locThousandsSep : List Char

/-- The attributes of a `Number`. -/
structure Obj where
  decimalPoint : List Char
  thousandsSep : List Char
  optional : Bool
  intPat : Option (List Char) := none
  decimalPat : Option (List Char) := none
  numPat : Option (List Char) := none
  re : Option (List Char) := none
  deriving DecidableEq

/-- `_sign_pat`, `/repo/pawpaw/nlp/nlp.py:122` -/
def signPat : List Char := "(?P<sign>[-+])".toList

/-- `_sci_exp_pat`, `/repo/pawpaw/nlp/nlp.py:123-125` -/
def sciExpPat : List Char :=
  "(?P<exponent>[Ee]".toList ++ signPat ++ "?\\d+| ?[Xx\\u2715] ?10\\^ ?".toList ++ signPat ++ "?\\d+)".toList

/-- `build_integer_pat`, `/repo/pawpaw/nlp/nlp.py:127-132` -/
def integerPat (E : Env) (x : Obj) : List Char :=
  "(?P<integer>\\d{1,3}(?:".toList ++ E.escape x.thousandsSep ++ "\\d{3})+".toList ++
    (if x.optional then "|\\d+".toList else []) ++ ")".toList

/-- `build_decimal_pat`, `/repo/pawpaw/nlp/nlp.py:134-135` -/
def decPat (E : Env) (x : Obj) : List Char :=
  "(?P<decimal>".toList ++ E.escape x.decimalPoint ++ "\\d+)".toList

/-- `build_num_pat_re`, `/repo/pawpaw/nlp/nlp.py:137-143`: reads `_int_pat` and `_decimal_pat` of the
object. -/
def buildNumPatRe (x : Obj) : Except PyErr (List Char × List Char) :=
  match x.intPat, x.decimalPat with
  | some i, some d =>
    let p := "(?P<number>".toList ++ signPat ++ "?(?:".toList ++ i ++ d ++ "?|".toList ++ d ++ ")".toList ++
      sciExpPat ++ "?)".toList
    .ok (p, p)
  | _, _ => .error .attributeError

/-- An assignment to a public property; also a keyword argument of the constructor. -/
inductive Assign where
  | decimalPoint (s : List Char)
  | thousandsSep (s : List Char)
  | optional (b : Bool)

/-- The setters, `/repo/pawpaw/nlp/nlp.py:175-178,184-191,197-200`: the object afterwards, and what was
raised.  What the `build_...` methods return is dropped. -/
def assign (E : Env) (x : Obj) : Assign → Obj × Except PyErr Unit
  | .decimalPoint s =>
    let x := { x with decimalPoint := s }
    (x, (buildNumPatRe x).map (fun _ => ()))
  | .thousandsSep s =>
    if s = [] ∨ E.isSpace s = true then (x, .error .valueError)
    else
      let x := { x with thousandsSep := s }
      let _ := decPat E x
      (x, .ok ())
  | .optional b =>
    let x := { x with optional := b }
    (x, (buildNumPatRe x).map (fun _ => ()))

/-- The loop over the keyword arguments, `/repo/pawpaw/nlp/nlp.py:158-159`; the first exception ends it. -/
def setAll (E : Env) (x : Obj) : List Assign → Obj × Except PyErr Unit
  | [] => (x, .ok ())
  | s :: ss =>
    match assign E x s with
    | (x', .ok _) => setAll E x' ss
    | (x', .error e) => (x', .error e)

/-- Assignments by a user, one after the other, each of which may raise and be caught. -/
def history (E : Env) (x : Obj) : List Assign → Obj
  | [] => x
  | s :: ss => history E (assign E x s).1 ss

/-- `Number(**kwargs)`, `/repo/pawpaw/nlp/nlp.py:145-166` (kwargs in order). -/
def init (E : Env) (kwargs : List Assign) : Except PyErr Obj :=
  let x : Obj := {
    decimalPoint := E.locDecimalPoint
    thousandsSep := if E.locThousandsSep ≠ [] then E.locThousandsSep else [',']
    optional := true }
  match setAll E x kwargs with
  | (_, .error e) => .error e
  | (x, .ok _) =>
    let x := { x with intPat := some (integerPat E x) }
    let x := { x with decimalPat := some (decPat E x) }
    match buildNumPatRe x with
    | .error e => .error e
    | .ok (p, r) => .ok { x with numPat := some p, re := some r }

end NlpNumber
end Pawpaw
