import Verif.Model.Flat
/-!
# Model of whitespace `str_split`/`str_rsplit`, `split_iter`, `str_splitlines`
-/
namespace Pawpaw
namespace FIto
variable {α : Type} [DecidableEq α]

/-- Forward scan of `_nearest_non_ws_sub` (`/repo/pawpaw/ito.py:1167-1197`, `reverse=False`):
`for i in range(i, self.stop)`, `n` iterations left, `nonWs = some j` once a non-whitespace character
was seen (`in_ws = False`, `non_ws_i = j`).  `self._string[i]` out of range is an `IndexError`. -/
def nearestFwd (x : FIto α) (ws : α → Bool) : Nat → Int → Option Int → Except PyErr (Option (FIto α))
  | 0, i, nonWs =>
    match nonWs with
    | none => .ok none
    | some j => .ok (some (x.clone (some j) (some i)))
  | n + 1, i, nonWs =>
    match x.string[i.toNat]? with
    | none => .error .indexError
    | some c =>
      match nonWs with
      | none => if ws c then nearestFwd x ws n (i + 1) none else nearestFwd x ws n (i + 1) (some i)
      | some j =>
        if ws c then .ok (some (x.clone (some j) (some i))) else nearestFwd x ws n (i + 1) (some j)

/-- Backward scan (`reverse=True`): `for i in range(i, self.start - 1, -1)`. -/
def nearestRev (x : FIto α) (ws : α → Bool) : Nat → Int → Option Int → Except PyErr (Option (FIto α))
  | 0, i, nonWs =>
    match nonWs with
    | none => .ok none
    | some j => .ok (some (x.clone (some (i + 1)) (some (j + 1))))
  | n + 1, i, nonWs =>
    match x.string[i.toNat]? with
    | none => .error .indexError
    | some c =>
      match nonWs with
      | none => if ws c then nearestRev x ws n (i - 1) none else nearestRev x ws n (i - 1) (some i)
      | some j =>
        if ws c then .ok (some (x.clone (some (i + 1)) (some (j + 1))))
        else nearestRev x ws n (i - 1) (some j)

/-- `_nearest_non_ws_sub(start)`: `start += self.start`, then scan to `self.stop`. -/
def nearestNonWs (x : FIto α) (ws : α → Bool) (start : Int) : Except PyErr (Option (FIto α)) :=
  nearestFwd x ws (x.stop - (start + x.start)).toNat (start + x.start) none

/-- `_nearest_non_ws_sub(start, True)`: `start += self.start`, then scan down to `self.start`. -/
def nearestNonWsRev (x : FIto α) (ws : α → Bool) (start : Int) : Except PyErr (Option (FIto α)) :=
  nearestRev x ws (start + x.start - x.start + 1).toNat (start + x.start) none

/-- The `while` loop of `str_split(None)`, `/repo/pawpaw/ito.py:1250-1253`; returns the pieces and the
remaining `maxsplit`. `fuel` bounds the iterations; running out is reported as non-termination. -/
def splitWsLoop (x : FIto α) (ws : α → Bool) : Nat → Int → Int → Except PyErr (List (FIto α) × Int)
  | 0, _, _ => .error .nonTermination
  | n + 1, i, m => do
    match ← x.nearestNonWs ws i with
    | none => return ([], m)
    | some sub =>
      if m ≠ 0 then
        let r ← splitWsLoop x ws n sub.stop (m - 1)
        return (sub :: r.1, r.2)
      else return ([], m)

/-- `start` at `/repo/pawpaw/ito.py:1256`: `self.start if len(rv) == 0 else rv[-1].stop`. -/
def tailStart (x : FIto α) (rv : List (FIto α)) : Int := (rv.getLast?.map FIto.stop).getD x.start

/-- `stop` at `/repo/pawpaw/ito.py:1213`: `self.stop if len(rv) == 0 else rv[0].start`. -/
def headStop (x : FIto α) (rv : List (FIto α)) : Int := (rv.head?.map FIto.start).getD x.stop

/-- `str_split(None, maxsplit)`, `/repo/pawpaw/ito.py:1244-1261` -/
def strSplitNone (x : FIto α) (ws : α → Bool) (fuel : Nat) (m : Int) :
    Except PyErr (List (FIto α)) :=
  if x.string = [] then .ok []
  else do
    let r ← splitWsLoop x ws fuel 0 m
    if r.2 = 0 then
      let tail := (x.clone (some (x.tailStart r.1)) none).strLstrip ws none
      return if tail.len > 0 then r.1 ++ [tail] else r.1
    else return r.1

/-- The `while` loop of `str_rsplit(None)`, `/repo/pawpaw/ito.py:1205-1209` (before `rv.reverse()`). -/
def rsplitWsLoop (x : FIto α) (ws : α → Bool) : Nat → Int → Int → Except PyErr (List (FIto α) × Int)
  | 0, _, _ => .error .nonTermination
  | n + 1, i, m => do
    match ← x.nearestNonWsRev ws i with
    | none => return ([], m)
    | some sub =>
      if m ≠ 0 then
        let r ← rsplitWsLoop x ws n (sub.start - 1) (m - 1)
        return (sub :: r.1, r.2)
      else return ([], m)

/-- `str_rsplit(None, maxsplit)`, `/repo/pawpaw/ito.py:1199-1218` -/
def strRsplitNone (x : FIto α) (ws : α → Bool) (fuel : Nat) (m : Int) :
    Except PyErr (List (FIto α)) :=
  if x.string = [] then .ok []
  else do
    let r ← rsplitWsLoop x ws fuel (x.len - 1) m
    let rv := r.1.reverse
    if r.2 = 0 then
      let head := (x.clone none (some (x.headStop rv))).strRstrip ws none
      return if head.len > 0 then head :: rv else rv
    else return rv

/-- Loop of `split_iter`, `/repo/pawpaw/ito.py:857-863`, over the spans of the regex matches
(external).  `count` is initialised to `0` and never changed, so the guard is
`max_split != 0 and max_split >= 0`.  Returns the pieces and the final `i`. -/
def splitIterLoop (x : FIto α) (maxSplit : Int) (keepSeps : Bool) (desc : Option String) :
    Int → List Span → List (FIto α) × Int
  | i, [] => ([], i)
  | i, m :: ms =>
    if maxSplit ≠ 0 ∧ maxSplit ≥ 0 then ([], i)
    else
      let stop := if keepSeps then m.stop else m.start
      let r := splitIterLoop x maxSplit keepSeps desc m.stop ms
      (x.clone (some i) (some stop) (some desc) :: r.1, r.2)

/-- `split_iter(re, max_split, keep_seps, desc)`, `/repo/pawpaw/ito.py:843-868`; `split` (`:870-882`)
and `regex_split(iter)` (`:920-924`) return the same list. -/
def splitIter (x : FIto α) (ms : List Span) (maxSplit : Int) (keepSeps : Bool)
    (desc : Option String) : List (FIto α) :=
  let r := splitIterLoop x maxSplit keepSeps desc x.start ms
  if r.2 < x.stop then r.1 ++ [x.clone (some r.2) none (some desc)]
  else if r.2 = x.stop then r.1 ++ [x.clone (some r.2) (some r.2) (some desc)]
  else r.1

/-- Characters matched by the single-character alternatives of `_splitlines_re`,
`/repo/pawpaw/ito.py:1288`. -/
def isLineBreak (c : Char) : Bool :=
  c == '\r' || c == '\n' || c == '\x0b' || c == '\x0c' || c == '\x1c' || c == '\x1d' ||
  c == '\x1e' || c == '\u0085' || c == '\u2028' || c == '\u2029'

/-- Leftmost non-overlapping matches of `\r\n|\r|\n|…` (`/repo/pawpaw/ito.py:1288`) in the window text
starting at absolute position `i`; the first alternative `\r\n` is preferred. -/
def lineBreaks : Int → List Char → List Span
  | _, [] => []
  | i, '\r' :: '\n' :: t => ⟨i, i + 2⟩ :: lineBreaks (i + 2) t
  | i, c :: t => if isLineBreak c then ⟨i, i + 1⟩ :: lineBreaks (i + 1) t else lineBreaks (i + 1) t

/-- `str_splitlines(keepends, desc)`, `/repo/pawpaw/ito.py:1290-1297` -/
def strSplitlines (x : FIto Char) (keepends : Bool) (desc : Option String) : List (FIto Char) :=
  let rv := x.splitIter (lineBreaks x.start x.text) 0 keepends desc
  match rv.getLast? with
  | none => rv
  | some l => if l.len = 0 then rv.dropLast else rv

end FIto
end Pawpaw
