import Verif.Model.Heap
/-!
# Model of stepped slices of child lists: `children[a:b:s]`, `del children[a:b:s]`, `children[a:b:s] = …`
-/
namespace Pawpaw
namespace Heap

/-- One bound of Python's `slice.indices(n)` (`PySlice_AdjustIndices`): negative bounds count from the end, and the
result is kept between `lo` and `hi`. -/
def adjust (n : Nat) (lo hi : Int) (k : Int) : Int :=
  let j := if k < 0 then k + n else k
  if j < lo then lo else if j > hi then hi else j

/-- Python's `slice(a, b, s).indices(n)`: the first bound. -/
def stepStart (n : Nat) (a : Option Int) (s : Int) : Int :=
  match a with
  | none => if s > 0 then 0 else (n : Int) - 1
  | some k => if s > 0 then adjust n 0 n k else adjust n (-1) ((n : Int) - 1) k

/-- Python's `slice(a, b, s).indices(n)`: the second bound. -/
def stepStop (n : Nat) (b : Option Int) (s : Int) : Int :=
  match b with
  | none => if s > 0 then n else -1
  | some k => if s > 0 then adjust n 0 n k else adjust n (-1) ((n : Int) - 1) k

/-- The length of Python's `range(i, j, s)`. -/
def rangeLen (i j s : Int) : Nat :=
  if s > 0 then (if i < j then ((j - i - 1) / s + 1).toNat else 0)
  else (if j < i then ((i - j - 1) / (-s) + 1).toNat else 0)

/-- The positions a slice with a step selects in a list of length `n`, in the order of the slice. -/
def stepIdx (n : Nat) (a b : Option Int) (s : Int) : List Nat :=
  (List.range (rangeLen (stepStart n a s) (stepStop n b s) s)).map (fun i : Nat => (stepStart n a s + i * s).toNat)

/-- `p.children[a:b:s]`, `/repo/pawpaw/ito.py:1466-1469`; a step of 0 is refused by Python's lists. -/
def getStep (h : Heap) (p : Nat) (a b : Option Int) (s : Int) : Except PyErr (List Nat) :=
  if s = 0 then .error .valueError
  else .ok ((stepIdx (h.kids p).length a b s).filterMap (fun i => (h.kids p)[i]?))

/-- The items at the positions (counted from `i`) that are not in `is`. -/
def dropIdx (is : List Nat) (i : Nat) : List Nat → List Nat
  | [] => []
  | x :: xs => if i ∈ is then dropIdx is (i + 1) xs else x :: dropIdx is (i + 1) xs

/-- `del p.children[a:b:s]`, `/repo/pawpaw/ito.py:1475-1481`. -/
def delStep (h : Heap) (p : Nat) (a b : Option Int) (s : Int) : Res :=
  match h.getStep p a b s with
  | .error e => (h, .error e)
  | .ok itos =>
    let h := h.unparent itos
    (h.setKids p (dropIdx (stepIdx (h.kids p).length a b s) 0 (h.kids p)), .ok ())

/-- The loop of the slice branch, `/repo/pawpaw/ito.py:1518-1525`, at any position: `__ensure_between`
(`:1442-1447`) reads `store[i-1]` and `store[i]`, so that a position beyond the end of a list raises `IndexError`. -/
def setStepLoop (h : Heap) (p : Nat) (start : Nat) : List Nat → Res
  | [] => (h, .ok ())
  | x :: xs =>
    if start > (h.kids p).length then (h, .error .indexError)
    else
      match h.insertAt p x start with
      | (h', .error e) => (h', .error e)
      | (h', .ok ()) => setStepLoop h' p (start + 1) xs

/-- `p.children[a:b:s] = itos`, `/repo/pawpaw/ito.py:1513-1525`: the step counts for what is removed, but the
position of insertion is computed from `a` and `b` alone. -/
def setStep (h : Heap) (p : Nat) (a b : Option Int) (s : Int) (xs : List Nat) : Res :=
  let start := (Span.fromIndices (h.kids p).length a b).start
  match h.delStep p a b s with
  | (h', .error e) => (h', .error e)
  | (h', .ok ()) => setStepLoop h' p start.toNat xs

end Heap
end Pawpaw
