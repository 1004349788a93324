import Verif.Model.Tree
/-!
# Model of `Ito.value` and `Ito.value_func`, `/repo/pawpaw/ito.py:383-399`

`F` is the type of the candidate functions, `V` that of the values they return; `fits f` is the outcome of
`type_magic.functoid_isinstance(f, F_ITO_2_VAL)` (modelled in `Verif.Model.TypeMagic`), `call f i` what
`f(i)` returns for the object `i`, and `text i` is `str(i)`.

`value` is a method of the class; setting a value function puts an attribute of the same name, a closure
over the function and the object, into the instance's `__dict__`, which hides the method; deleting that
attribute uncovers the method again.
-/
namespace Pawpaw.Value

/-- What an `Ito` has of value functions: the attribute `_value_func`, and the attribute `value` of the
instance's own `__dict__`, a closure `lambda: f(self)` given by the two variables it captured. -/
structure Slot (F : Type) where
  func : Option F
  attr : Option (F × Nat)

/-- The objects created so far. -/
structure Store (F : Type) where
  next : Nat
  slot : Nat → Slot F

variable {F V : Type}

/-- A new object with the given slot. -/
def Store.push (s : Store F) (o : Slot F) : Store F :=
  { next := s.next + 1, slot := fun j => if j = s.next then o else s.slot j }

/-- Overwrite an object's slot. -/
def Store.put (s : Store F) (i : Nat) (o : Slot F) : Store F :=
  { s with slot := fun j => if j = i then o else s.slot j }

/-- `delattr(i, 'value')`: raises if the instance has no such attribute. -/
def Store.delattr (s : Store F) (i : Nat) : Store F × Except PyErr Unit :=
  match (s.slot i).attr with
  | none => (s, .error .attributeError)
  | some _ => (s.put i { s.slot i with attr := none }, .ok ())

/-- `Ito(…)`, `/repo/pawpaw/ito.py:93`: `_value_func` is `None`; there is no `value` in the instance. -/
def Store.new (s : Store F) : Store F := s.push ⟨none, none⟩

/-- `i.value_func = f`, `/repo/pawpaw/ito.py:390-399` -/
def Store.set (fits : F → Bool) (s : Store F) (i : Nat) (f : Option F) : Store F × Except PyErr Unit :=
  if f.any (fun g => !fits g) then (s, .error .typeError)
  else
    match f with
    | none =>
      match (if (s.slot i).func.isSome then s.delattr i else (s, .ok ())) with
      | (s', .error e) => (s', .error e)
      | (s', .ok ()) => (s'.put i { s'.slot i with func := none }, .ok ())
    | some g =>
      let s' := s.put i { s.slot i with attr := some (g, i) }
      (s'.put i { s'.slot i with func := some g }, .ok ())

/-- The value function part of `i.clone(…)`, `/repo/pawpaw/ito.py:324-332`: a new object, on which
`value_func` is set unless it is `None`. -/
def Store.clone (fits : F → Bool) (s : Store F) (i : Nat) : Store F × Except PyErr Unit :=
  match (s.slot i).func with
  | none => (s.new, .ok ())
  | some g => s.new.set fits s.next (some g)

/-- The value function part of loading a pickle or copying with the `copy` module: a blank object, then
`__setstate__`, `/repo/pawpaw/ito.py:415-421`, `:442-445`; the state holds neither `_value_func` nor
`value`. -/
def Store.load (s : Store F) : Store F := s.push ⟨none, none⟩

/-- `i.value_func`, `/repo/pawpaw/ito.py:386-388` -/
def Store.valueFunc (s : Store F) (i : Nat) : Option F := (s.slot i).func

/-- `i.value()`, `/repo/pawpaw/ito.py:383-384`: the instance's attribute if there is one, else the method. -/
def Store.value (call : F → Nat → V) (text : Nat → V) (s : Store F) (i : Nat) : V :=
  match (s.slot i).attr with
  | some (g, self) => call g self
  | none => text i

/-- The itorator `ValueFunc(f)`, `/repo/pawpaw/arborform/itorator/value_func.py:8-12`: raises unless `f`
fits. -/
def itorator (fits : F → Bool) (f : Option F) : Except PyErr (Option F) :=
  if f.any (fun g => !fits g) then .error .typeError else .ok f

/-- `ValueFunc._transform`, `/repo/pawpaw/arborform/itorator/value_func.py:17-19`: sets and yields the Ito. -/
def transform (fits : F → Bool) (f : Option F) (s : Store F) (i : Nat) : Store F × Except PyErr (List Nat) :=
  match s.set fits i f with
  | (s', .error e) => (s', .error e)
  | (s', .ok ()) => (s', .ok [i])

/-- What a program does to its Itos, so far as values go. -/
inductive Ev (F : Type) where
  | new
  | set (i : Nat) (f : Option F)
  | clone (i : Nat)
  | load (i : Nat)

/-- One step of a program. -/
def Store.step (fits : F → Bool) (s : Store F) : Ev F → Store F × Except PyErr Unit
  | .new => (s.new, .ok ())
  | .set i f => s.set fits i f
  | .clone i => s.clone fits i
  | .load _ => (s.load, .ok ())

/-- The store a program leaves; exceptions are caught by the program, which goes on. -/
def run (fits : F → Bool) : List (Ev F) → Store F → Store F
  | [], s => s
  | e :: es, s => run fits es (s.step fits e).1

/-- Before anything is created. -/
def start : Store F := ⟨0, fun _ => ⟨none, none⟩⟩

end Pawpaw.Value
