import Verif.Model.Span
/-!
# Model of the settings of `Paragraph`, `/repo/pawpaw/nlp/nlp.py:250-309`

What `regex.compile` says to a pattern is a parameter.
-/
namespace Pawpaw
namespace ParagraphSet

/-- What `_separators` may hold: a list of texts, or `list[val]`, the type of Python's generics. -/
inductive Seps where
  | list (l : List String)
  | alias
  deriving DecidableEq

/-- Elements of `list(_separators)`: texts, or the one element `*list[val]` that iterating over `list[val]` gives. -/
inductive Item where
  | str (s : String)
  | unpacked
  deriving DecidableEq

/-- The attributes; `re` are the separators and the number it was built from. -/
structure Settings where
  seps : Seps
  min : Int
  trim : Bool
  re : Seps × Int

/-- An argument, by what the setters look at. -/
inductive Arg where
  | strs (l : List String)
  | int (n : Int)
  | bool (b : Bool)
  | other

/-- `_build_re`, `/repo/pawpaw/nlp/nlp.py:257-258` -/
def buildRe (compile : Seps × Int → Except PyErr Unit) (s : Settings) : Except PyErr (Seps × Int) :=
  (compile (s.seps, s.min)).map fun _ => (s.seps, s.min)

/-- `self._re = self._build_re()` -/
def rebuild (compile : Seps × Int → Except PyErr Unit) (s : Settings) : Settings × Except PyErr Unit :=
  match buildRe compile s with
  | .error e => (s, .error e)
  | .ok r => ({ s with re := r }, .ok ())

/-- `p.separators`, `/repo/pawpaw/nlp/nlp.py:260-262` -/
def getSeparators (s : Settings) : List Item :=
  match s.seps with
  | .list l => l.map .str
  | .alias => [.unpacked]

/-- `p.separators = val`, `/repo/pawpaw/nlp/nlp.py:264-270`: `list[val]`, not `list(val)` -/
def setSeparators (compile : Seps × Int → Except PyErr Unit) (s : Settings) : Arg → Settings × Except PyErr Unit
  | .strs _ => rebuild compile { s with seps := .alias }
  | _ => (s, .error .typeError)

/-- `p.min_separators = val`, `/repo/pawpaw/nlp/nlp.py:276-282`. `True` and `False` are ints for Python too; the pattern then has
their names: not modelled. -/
def setMin (compile : Seps × Int → Except PyErr Unit) (s : Settings) : Arg → Settings × Except PyErr Unit
  | .int n => rebuild compile { s with min := n }
  | _ => (s, .error .typeError)

/-- `p.trim_ws = val`, `/repo/pawpaw/nlp/nlp.py:292-297` -/
def setTrim (s : Settings) : Arg → Settings × Except PyErr Unit
  | .bool b => ({ s with trim := b }, .ok ())
  | _ => (s, .error .typeError)

/-- An assignment. -/
inductive Op where
  | separators (v : Arg)
  | min (v : Arg)
  | trim (v : Arg)

/-- One assignment. -/
def step (compile : Seps × Int → Except PyErr Unit) (s : Settings) : Op → Settings × Except PyErr Unit
  | .separators v => setSeparators compile s v
  | .min v => setMin compile s v
  | .trim v => setTrim s v

/-- Assignments in a row, going on after one is refused. -/
def run (compile : Seps × Int → Except PyErr Unit) (s : Settings) (ops : List Op) : Settings :=
  ops.foldl (fun s op => (step compile s op).1) s

/-- `Paragraph(min_separators, trim_ws)`, `/repo/pawpaw/nlp/nlp.py:251-255`; `eol` are the ends of lines. -/
def init (compile : Seps × Int → Except PyErr Unit) (eol : List String) (min : Int) (trim : Bool) : Except PyErr Settings :=
  (compile (.list eol, min)).map fun _ => ⟨.list eol, min, trim, (.list eol, min)⟩

end ParagraphSet
end Pawpaw
