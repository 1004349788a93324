/-!
# Model of CPython's `bisect` on a list of keys (used at `/repo/pawpaw/ito.py:1417-1429`)
-/
namespace Pawpaw

/-- The loop of `bisect.bisect_left(a, x)`:
`while lo < hi: mid = (lo + hi) // 2; if a[mid] < x: lo = mid + 1 else: hi = mid`.
`fuel` bounds the iterations; `hi - lo` iterations always suffice. -/
def bisectLeftLoop (a : List Int) (x : Int) : Nat → Nat → Nat → Nat
  | 0, lo, _ => lo
  | n + 1, lo, hi =>
    if lo < hi then
      let mid := (lo + hi) / 2
      if a.getD mid 0 < x then bisectLeftLoop a x n (mid + 1) hi else bisectLeftLoop a x n lo mid
    else lo

/-- `bisect.bisect_left(a, x)` -/
def bisectLeft (a : List Int) (x : Int) : Nat := bisectLeftLoop a x a.length 0 a.length

/-- The loop of `bisect.bisect_right(a, x)`: `if x < a[mid]: hi = mid else: lo = mid + 1`. -/
def bisectRightLoop (a : List Int) (x : Int) : Nat → Nat → Nat → Nat
  | 0, lo, _ => lo
  | n + 1, lo, hi =>
    if lo < hi then
      let mid := (lo + hi) / 2
      if x < a.getD mid 0 then bisectRightLoop a x n lo mid else bisectRightLoop a x n (mid + 1) hi
    else lo

/-- `bisect.bisect_right(a, x)` -/
def bisectRight (a : List Int) (x : Int) : Nat := bisectRightLoop a x a.length 0 a.length

end Pawpaw
