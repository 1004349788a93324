import Verif.Model.Span
import Verif.Spec.PyStr
/-!
# Model of a tree-less `Ito` and of its `str`-equivalence methods (`/repo/pawpaw/ito.py`)

`FIto` keeps `.string`, `.span` and `.desc`.  The methods modelled here only read those, and when
they build a result they do so with `clone(..., clone_children=False)` or with the constructor, so
children play no part (the exceptions, `str_partition`/`str_rpartition`, are in `Model/Tree.lean`).
-/
namespace Pawpaw

/-- `Ito` without parent/children: `/repo/pawpaw/ito.py:71-96` (`_string`, `_span`, `desc`). -/
structure FIto (α : Type) where
  string : List α
  span : Span
  desc : Option String := none
  deriving DecidableEq

namespace FIto

variable {α : Type} [DecidableEq α]

/-- `.start`, `/repo/pawpaw/ito.py:358-360` -/
def start (x : FIto α) : Int := x.span.start
/-- `.stop`, `/repo/pawpaw/ito.py:362-364` -/
def stop (x : FIto α) : Int := x.span.stop

/-- `Ito(src: str, start, stop, desc)`, `/repo/pawpaw/ito.py:78-80,89-91` -/
def ofStr (s : List α) (start stop : Option Int) (desc : Option String := none) : FIto α :=
  ⟨s, Span.fromIndices s.length start stop, desc⟩

/-- `__len__`, `/repo/pawpaw/ito.py:572-573` -/
def len (x : FIto α) : Int := x.stop - x.start

/-- `Ito(src: Ito, start, stop, desc)`, `/repo/pawpaw/ito.py:82-84,89-91`
(`len(src)` is `src.stop - src.start`). -/
def ofIto (x : FIto α) (start stop : Option Int) (desc : Option String := none) :
    Except PyErr (FIto α) := do
  let sp ← (Span.fromIndices x.len start stop).offset x.start
  return ⟨x.string, sp, desc⟩

/-- `__str__`, `/repo/pawpaw/ito.py:569-570`: `self._string[slice(*self.span)]` -/
def text (x : FIto α) : List α := PyStr.slice x.string (some x.start) (some x.stop)

/-- `clone(start, stop, clone_children=False)`, `/repo/pawpaw/ito.py:318-337`; indices are relative
to the string and go through the constructor.  `desc` defaulting to the receiver's. -/
def clone (x : FIto α) (start stop : Option Int) (desc : Option (Option String) := none) : FIto α :=
  ofStr x.string (some (start.getD x.start)) (some (stop.getD x.stop)) (desc.getD x.desc)

/-- The expression `Span.from_indices(self, start, end).offset(self.start)` used by most methods. -/
def window (x : FIto α) (start stop : Option Int) : Except PyErr Span :=
  (Span.fromIndices x.len start stop).offset x.start

/-- `str_count`, `/repo/pawpaw/ito.py:962-963` -/
def strCount (x : FIto α) (sub : List α) (start stop : Option Int) : Except PyErr Int := do
  let w ← x.window start stop
  return PyStr.count x.string sub (some w.start) (some w.stop)

/-- `str_find`, `/repo/pawpaw/ito.py:1020-1024` -/
def strFind (x : FIto α) (sub : List α) (start stop : Option Int) : Except PyErr Int := do
  let w ← x.window start stop
  let rv := PyStr.find x.string sub (some w.start) (some w.stop)
  return if rv ≠ -1 then rv - x.start else rv

/-- Python's `s.index`: `find`, raising `ValueError` when not found. -/
def pyIndex (s sub : List α) (start stop : Option Int) : Except PyErr Int :=
  let r := PyStr.find s sub start stop
  if r = -1 then .error .valueError else .ok r

/-- Python's `s.rindex`. -/
def pyRindex (s sub : List α) (start stop : Option Int) : Except PyErr Int :=
  let r := PyStr.rfind s sub start stop
  if r = -1 then .error .valueError else .ok r

/-- `str_index`, `/repo/pawpaw/ito.py:1026-1027` -/
def strIndex (x : FIto α) (sub : List α) (start stop : Option Int) : Except PyErr Int := do
  let w ← x.window start stop
  let r ← pyIndex x.string sub (some w.start) (some w.stop)
  return r - x.start

/-- `str_rfind`, `/repo/pawpaw/ito.py:1029-1033` -/
def strRfind (x : FIto α) (sub : List α) (start stop : Option Int) : Except PyErr Int := do
  let w ← x.window start stop
  let rv := PyStr.rfind x.string sub (some w.start) (some w.stop)
  return if rv ≠ -1 then rv - x.start else rv

/-- `str_rindex`, `/repo/pawpaw/ito.py:1035-1036` -/
def strRindex (x : FIto α) (sub : List α) (start stop : Option Int) : Except PyErr Int := do
  let w ← x.window start stop
  let r ← pyRindex x.string sub (some w.start) (some w.stop)
  return r - x.start

/-- The early-exit block shared by `str_endswith` (`/repo/pawpaw/ito.py:979-988`) and
`str_startswith` (`:1002-1011`): `true` means "return False now". -/
def affixGuard (x : FIto α) (start stop : Option Int) : Bool :=
  match start with
  | none => false
  | some st =>
    if st = 0 then false
    else
      let ls := x.len
      if st > ls then true
      else
        let startC := if st ≥ 0 then st else ls + st
        let endC := match stop with
          | none => ls
          | some e => if e ≥ 0 then e else ls + e
        decide (startC > endC)

/-- `str_startswith`, `/repo/pawpaw/ito.py:993-1014`; `prefix` a tuple (a single `str` is the
one-element tuple). -/
def strStartswith (x : FIto α) (ps : List (List α)) (start stop : Option Int) :
    Except PyErr Bool :=
  if x.affixGuard start stop then .ok false
  else do
    let w ← x.window start stop
    return PyStr.startswithAny x.string ps (some w.start) (some w.stop)

/-- `str_endswith`, `/repo/pawpaw/ito.py:970-991` -/
def strEndswith (x : FIto α) (ps : List (List α)) (start stop : Option Int) :
    Except PyErr Bool :=
  if x.affixGuard start stop then .ok false
  else do
    let w ← x.window start stop
    return PyStr.endswithAny x.string ps (some w.start) (some w.stop)

/-- `str_eq`, `/repo/pawpaw/ito.py:965-966` -/
def strEq (x : FIto α) (v : List α) : Except PyErr Bool :=
  if x.len = v.length then x.strStartswith [v] none none else .ok false

/-- `self._string[i]` for the indices used by the strip loops; out of range never happens for
valid Itos (the Python would raise), the fallback `false` ends the loop. -/
def charAt (p : α → Bool) (s : List α) (i : Int) : Bool :=
  if i < 0 then false else match s[i.toNat]? with
    | some c => p c
    | none => false

/-- `__f_c_in`, `/repo/pawpaw/ito.py:1110-1114`: `chars` `None` or empty means whitespace. -/
def stripPred (ws : α → Bool) (chars : Option (List α)) : α → Bool :=
  match chars with
  | none => ws
  | some [] => ws
  | some cs => fun c => decide (c ∈ cs)

/-- Loop of `str_lstrip`, `/repo/pawpaw/ito.py:1118-1120`; the counter is the number of characters
left (`self.stop - i`). -/
def lstripLoop (p : α → Bool) (s : List α) (stop : Int) : Nat → Int → Int
  | 0, i => i
  | n + 1, i => if i < stop ∧ charAt p s i then lstripLoop p s stop n (i + 1) else i

/-- `str_lstrip`, `/repo/pawpaw/ito.py:1116-1122` -/
def strLstrip (x : FIto α) (ws : α → Bool) (chars : Option (List α)) : FIto α :=
  let i := lstripLoop (stripPred ws chars) x.string x.stop (x.stop - x.start).toNat x.start
  if i = x.start then x else x.clone (some i) none

/-- Loop of `str_rstrip`, `/repo/pawpaw/ito.py:1126-1128`; note the bound is `0`, not `start`. -/
def rstripLoop (p : α → Bool) (s : List α) : Nat → Int → Int
  | 0, i => i
  | n + 1, i => if i ≥ 0 ∧ charAt p s i then rstripLoop p s n (i - 1) else i

/-- `str_rstrip`, `/repo/pawpaw/ito.py:1124-1130` -/
def strRstrip (x : FIto α) (ws : α → Bool) (chars : Option (List α)) : FIto α :=
  let i := rstripLoop (stripPred ws chars) x.string x.stop.toNat (x.stop - 1)
  if i = x.stop - 1 then x else x.clone none (some (i + 1))

/-- `str_strip`, `/repo/pawpaw/ito.py:1132-1133` -/
def strStrip (x : FIto α) (ws : α → Bool) (chars : Option (List α)) : FIto α :=
  (x.strLstrip ws chars).strRstrip ws chars

/-- The loop of `str_split(sep)`, `/repo/pawpaw/ito.py:1271-1277`: returns the collected pieces and
the final `i`.  The fuel argument bounds the number of iterations; each iteration consumes at least
one character (`sep` is non-empty), so `string.length + 1` suffices. -/
def splitLoop (x : FIto α) (sep : List α) : Nat → Int → Int → List (FIto α) × Int
  | 0, i, _ => ([], i)
  | n + 1, i, m =>
    let j := PyStr.find x.string sep (some i) (some x.stop)
    if j ≥ 0 ∧ m ≠ 0 then
      let r := splitLoop x sep n (j + sep.length) (m - 1)
      (x.clone (some i) (some j) :: r.1, r.2)
    else ([], i)

/-- `str_split(sep, maxsplit)` for a separator, `/repo/pawpaw/ito.py:1263-1285` -/
def strSplit (x : FIto α) (sep : List α) (maxsplit : Int) : Except PyErr (List (FIto α)) :=
  if sep = [] then .error .valueError
  else if maxsplit = 0 then .ok [x]
  else
    let r := splitLoop x sep (x.string.length + 1) x.start maxsplit
    if r.1.length = 0 then .ok [x]
    else .ok (r.1 ++ [if r.2 = x.start then x else x.clone (some r.2) none])

/-- The loop of `str_rsplit(sep)`, `/repo/pawpaw/ito.py:1229-1235`; `rv.insert(0, ..)` is modelled
by the accumulator. -/
def rsplitLoop (x : FIto α) (sep : List α) : Nat → Int → Int → List (FIto α) → List (FIto α) × Int
  | 0, i, _, acc => (acc, i)
  | n + 1, i, m, acc =>
    let j := PyStr.rfind x.string sep (some x.start) (some i)
    if j ≥ 0 ∧ m ≠ 0 then
      rsplitLoop x sep n j (m - 1) (x.clone (some (j + sep.length)) (some i) :: acc)
    else (acc, i)

/-- `str_rsplit(sep, maxsplit)` for a separator, `/repo/pawpaw/ito.py:1220-1242` -/
def strRsplit (x : FIto α) (sep : List α) (maxsplit : Int) : Except PyErr (List (FIto α)) :=
  if sep = [] then .error .valueError
  else if maxsplit = 0 then .ok [x]
  else
    let r := rsplitLoop x sep (x.string.length + 1) x.stop maxsplit []
    if r.1.length = 0 then .ok [x]
    else .ok ((if r.2 = x.stop then x else x.clone none (some r.2)) :: r.1)

/-- `str_removeprefix`, `/repo/pawpaw/ito.py:1303-1307` -/
def strRemoveprefix (x : FIto α) (p : List α) : Except PyErr (FIto α) := do
  if (← x.strStartswith [p] none none) then x.ofIto (some p.length) none x.desc else return x

/-- `str_removesuffix`, `/repo/pawpaw/ito.py:1309-1313`: `stop=-len(suffix)` -/
def strRemovesuffix (x : FIto α) (p : List α) : Except PyErr (FIto α) := do
  if (← x.strEndswith [p] none none) then x.ofIto none (some (-(p.length : Int))) x.desc
  else return x

/-- `__getitem__` with an int, `/repo/pawpaw/ito.py:576-583,593-596` -/
def getItemInt (x : FIto α) (key : Int) : Except PyErr (FIto α) := do
  let span ←
    if 0 ≤ key ∧ key < x.len then
      x.window (some key) (some (key + 1))
    else if -x.len ≤ key ∧ key < 0 then
      let s := x.stop + key - 1
      x.window (some s) (some (s + 1))
    else .error .indexError
  return if x.span = span then x else x.clone (some span.start) (some span.stop)

/-- `__getitem__` with a slice (step None or 1), `/repo/pawpaw/ito.py:585-596` -/
def getItemSlice (x : FIto α) (a b : Option Int) : Except PyErr (FIto α) := do
  let span ← x.window a b
  return if x.span = span then x else x.clone (some span.start) (some span.stop)

/-- `__iter__`, `/repo/pawpaw/ito.py:555-561` -/
def iter (x : FIto α) : List (FIto α) :=
  if x.len = 1 then [x]
  else if x.len > 1 then
    (List.range (x.stop - x.start).toNat).map
      (fun k : Nat => x.clone (some (x.start + (k : Int))) (some (x.start + (k : Int) + 1)))
  else []

/-- The characters `self._string[i]` for `i in range(self.start, self.stop)`, as read by the `is`
predicates (`/repo/pawpaw/ito.py:1048,1054,1076-1077,1098-1099`). -/
def rangeChars (x : FIto α) : List α :=
  (List.range (x.stop - x.start).toNat).filterMap (fun k => x.string[x.start.toNat + k]?)

/-- `__str_is_helper_all`, `/repo/pawpaw/ito.py:1044-1048`. `pEmpty` is Python's `predicate('')`
(`False` for all of them but `str.isascii` and `str.isprintable`). -/
def isAll (x : FIto α) (p : α → Bool) (pEmpty : Bool) : Bool :=
  if x.start = x.stop then pEmpty else x.rangeChars.all p

/-- `__str_is_helper_any`, `/repo/pawpaw/ito.py:1050-1054` -/
def isAny (x : FIto α) (p : α → Bool) (pEmpty : Bool) : Bool :=
  if x.start = x.stop then pEmpty else x.rangeChars.any p

/-- `str_isprintable`, `/repo/pawpaw/ito.py:1087-1088` (uses the *any* helper). -/
def strIsprintable (x : FIto α) (printable : α → Bool) : Bool := x.isAny printable true

/-- Loop of `str_islower`/`str_isupper`, `/repo/pawpaw/ito.py:1074-1082,1096-1104`; `q` is
`islower` resp. `isupper` of a single character. -/
def casedLoop (alpha q : α → Bool) : Bool → List α → Bool
  | alphas, [] => alphas
  | alphas, c :: t =>
    if alpha c then (if q c then casedLoop alpha q true t else false)
    else casedLoop alpha q alphas t

/-- `str_islower` (`q = islower`), `str_isupper` (`q = isupper`), `/repo/pawpaw/ito.py:1074-1104`. -/
def strIsCased (x : FIto α) (alpha q : α → Bool) : Bool := casedLoop alpha q false x.rangeChars

end FIto
end Pawpaw
