import Verif.Model.Pipeline
/-!
# Model of `Connector.__init__` and the setter of `postorator`, `/repo/pawpaw/arborform/itorator/itorator.py:11-24,107-116`,
and of `Postorator.wrap`, `/repo/pawpaw/arborform/postorator/postorator.py:6-33`

What `functoid_isinstance` says to a callable is an input (its model is `Model/TypeMagic`). An argument that is refused has a
signature, or is not callable, so that the error is `TypeError` (C127).
-/
namespace Pawpaw
namespace ConMake
open Pipeline

/-- The argument `predicate`. -/
inductive PredArg where
  /-- a callable, with what `functoid_isinstance(predicate, Types.P_ITO)` gives -/
  | fn (fits : Except PyErr Bool) (f : Heap → Nat → Except PyErr Bool)
  | str (s : String)
  | none
  | other

/-- `self.predicate`, `/repo/pawpaw/arborform/itorator/itorator.py:17-24` -/
def predOf : PredArg → Except PyErr (Heap → Nat → Except PyErr Bool)
  | .fn (.error e) _ => .error e
  | .fn (.ok true) f => .ok f
  | .fn (.ok false) _ => .error .typeError
  | .str s => .ok fun h x => .ok (decide ((h.obj x).desc = some s))
  | .none => .ok fun h x => .ok (decide ((h.obj x).desc = Option.none))
  | .other => .error .typeError

/-- `Connectors.….__init__(itorator, predicate)`, `/repo/pawpaw/arborform/itorator/itorator.py:11-70`; `target` is `none`
when the argument is not an `Itorator`. -/
def make (kind : Kind) (target : Option Nat) (p : PredArg) : Except PyErr Con :=
  match target with
  | Option.none => .error .typeError
  | some t =>
    match predOf p with
    | .error e => .error e
    | .ok f => .ok ⟨kind, t, f⟩

/-- What may be assigned to `postorator`. -/
inductive PostArg where
  | none
  /-- a `Postorator` -/
  | post (f : (Heap → Gen) → Heap → Gen)
  /-- a function from Itos to Itos -/
  | fn (f : (Heap → Gen) → Heap → Gen)
  | other

/-- `itorator.postorator = val`, `/repo/pawpaw/arborform/itorator/itorator.py:111-116` -/
def setPost (it : It) : PostArg → It × Except PyErr Unit
  | .none => ({ it with post := Option.none }, .ok ())
  | .post f => ({ it with post := some f }, .ok ())
  | .fn _ => (it, .error .typeError)
  | .other => (it, .error .typeError)

/-- `Postorator.wrap(f)`, `/repo/pawpaw/arborform/postorator/postorator.py:7-12,24-33`; `fits` is what
`functoid_isinstance(f, Types.F_ITOS_2_ITOS)` gives. -/
def wrapPost (fits : Except PyErr Bool) (f : (Heap → Gen) → Heap → Gen) : Except PyErr PostArg :=
  match fits with
  | .error e => .error e
  | .ok true => .ok (.post f)
  | .ok false => .error .typeError

end ConMake
end Pawpaw
