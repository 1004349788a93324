import Verif.Model.Hier
/-!
# Model of `Ito.adopt`, `/repo/pawpaw/ito.py:720-764`
-/
namespace Pawpaw
namespace Node

/-- What `__eq__`/`__hash__` compare of two Itos on one string: `(span, value_func, desc)`,
`/repo/pawpaw/ito.py:520-564`. -/
def key (n : Node) : Span × Option Nat × Option String := (n.span, n.vf, n.desc)

/-- `cached.add(ito)`, `/repo/pawpaw/ito.py:757`: a Python set keeps the element it already has. -/
def setAdd (cached : List Node) (x : Node) : List Node :=
  if cached.any (fun y => decide (y.key = x.key)) then cached else cached ++ [x]

variable {α : Type} [DecidableEq α]

/-- The loop `/repo/pawpaw/ito.py:747-757`; an argument is a string with a node on it. -/
def adoptLoop (string : List α) : Int → Int → List Node → List (List α × Node) →
    Except PyErr (Int × Int × List Node)
  | start, stop, cached, [] => .ok (start, stop, cached)
  | start, stop, cached, (s, x) :: rest =>
    if string ≠ s then .error .valueError
    else adoptLoop string (min start x.start) (max stop x.stop) (setAdd cached x) rest

/-- `for ito in cached: rv.children.add_hierarchical(ito.clone())`, `/repo/pawpaw/ito.py:761-762`. -/
def adoptAll (len : Nat) (p : Span) : List Node → List Node → Except PyErr (List Node)
  | store, [] => .ok store
  | store, x :: xs =>
    match x.clone len with
    | .error e => .error e
    | .ok c =>
      match Kids.hier none p store c with
      | .error e => .error e
      | .ok st => adoptAll len p st xs

/-- `Ito.adopt(itos, desc)`, `/repo/pawpaw/ito.py:720-764`.  `order` is the (arbitrary) order in which
Python iterates over the set `cached`. -/
def adopt (order : List Node → List Node) (itos : List (List α × Node)) (desc : Option String) :
    Except PyErr Node :=
  match itos with
  | [] => .error .valueError
  | (s, x) :: rest =>
    match adoptLoop s x.start x.stop [x] rest with
    | .error e => .error e
    | .ok (start, stop, cached) =>
      let p := Span.fromIndices s.length (some start) (some stop)
      match adoptAll s.length p [] (order cached) with
      | .error e => .error e
      | .ok ks => .ok (.mk p desc none ks)

end Node
end Pawpaw
