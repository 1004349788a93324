/-!
# Specification of Python's `str` operations (independent of pawpaw)

Strings are `List α` (`α` = code points).  These definitions transcribe the Python reference
(library reference, "Text Sequence Type", and CPython's `unicodeobject.c` for the treatment of
`start`/`end`).  They do not mention any definition of the pawpaw model.
-/
set_option linter.unusedVariables false
namespace PyStr

variable {α : Type} [DecidableEq α]

/-- A slice bound: a negative index counts from the end. No clamping. -/
def normIndex (n : Nat) (i : Int) : Int := if i < 0 then i + n else i

/-- Python's `s[a:b]` (step 1), stated by membership: keep the characters whose position `k`
satisfies `a' ≤ k < b'` where a negative bound counts from the end and a missing bound is absent. -/
def slice (s : List α) (a b : Option Int) : List α :=
  (s.zipIdx.filter (fun p =>
      (match a with | none => true | some i => decide (normIndex s.length i ≤ (p.2 : Int))) &&
      (match b with | none => true | some j => decide ((p.2 : Int) < normIndex s.length j)))).map
    Prod.fst

/-- `ADJUST_INDICES` of CPython's `unicodeobject.c`, first half: the effective `start` (not clamped
to the length). -/
def adjStart (n : Nat) (start : Option Int) : Int :=
  match start with
  | none => 0
  | some i => if i < 0 then max 0 (i + n) else i

/-- `ADJUST_INDICES`, second half: the effective `end`. -/
def adjEnd (n : Nat) (stop : Option Int) : Int :=
  match stop with
  | none => n
  | some j => if j > n then n else if j < 0 then max 0 (j + n) else j

/-- `sub` is found in `s` at position `i`. -/
def occursAt (s sub : List α) (i : Nat) : Bool := (s.drop i).take sub.length == sub

/-- `i` is a position of `sub` in `s` lying wholly in the window `[start, end)`. -/
def okAt (s sub : List α) (start stop : Option Int) (i : Nat) : Bool :=
  decide (adjStart s.length start ≤ (i : Int)) &&
  decide ((i : Int) + sub.length ≤ adjEnd s.length stop) && occursAt s sub i

/-- Python's `s.find(sub, start, end)`: the lowest position, or `-1`. -/
def find (s sub : List α) (start stop : Option Int) : Int :=
  match (List.range (s.length + 1)).find? (okAt s sub start stop) with
  | some i => i
  | none => -1

/-- Python's `s.rfind(sub, start, end)`: the highest position, or `-1`. -/
def rfind (s sub : List α) (start stop : Option Int) : Int :=
  match (List.range (s.length + 1)).reverse.find? (okAt s sub start stop) with
  | some i => i
  | none => -1

/-- Non-overlapping occurrences of a non-empty `sub`, scanning left to right. -/
def countIn (sub : List α) : List α → Nat
  | [] => 0
  | c :: t =>
    if sub ≠ [] ∧ sub.isPrefixOf (c :: t) then 1 + countIn sub ((c :: t).drop sub.length)
    else countIn sub t
termination_by s => s.length
decreasing_by
  · simp only [List.length_drop, List.length_cons]
    have : 0 < sub.length := by
      rcases sub with _ | ⟨a, l⟩ <;> simp_all
    omega
  · simp

/-- Python's `s.count(sub, start, end)`. The empty string occurs at every position of the window,
ends included. -/
def count (s sub : List α) (start stop : Option Int) : Int :=
  let a := adjStart s.length start
  let b := adjEnd s.length stop
  if sub = [] then (if a ≤ b then b - a + 1 else 0)
  else countIn sub ((s.take b.toNat).drop a.toNat)

/-- Python's `s.startswith(p, start, end)` for a single string (CPython `tailmatch`). -/
def startswith (s p : List α) (start stop : Option Int) : Bool :=
  okAt s p start stop (adjStart s.length start).toNat

/-- Python's `s.endswith(p, start, end)` for a single string (CPython `tailmatch`). -/
def endswith (s p : List α) (start stop : Option Int) : Bool :=
  decide (0 ≤ adjEnd s.length stop - p.length) &&
  okAt s p start stop (adjEnd s.length stop - p.length).toNat

/-- Tuple forms: any of them. -/
def startswithAny (s : List α) (ps : List (List α)) (start stop : Option Int) : Bool :=
  ps.any (fun p => startswith s p start stop)

def endswithAny (s : List α) (ps : List (List α)) (start stop : Option Int) : Bool :=
  ps.any (fun p => endswith s p start stop)

/-- `s.lstrip` with strippable characters given by a predicate. -/
def lstripBy (p : α → Bool) (s : List α) : List α := s.dropWhile p

def rstripBy (p : α → Bool) (s : List α) : List α := (s.reverse.dropWhile p).reverse

def stripBy (p : α → Bool) (s : List α) : List α := rstripBy p (lstripBy p s)

/-- Which characters `strip(chars)` removes: whitespace for `None`, else the members of `chars`
(so nothing for `''`). -/
def stripSet (ws : α → Bool) (chars : Option (List α)) : α → Bool :=
  match chars with
  | none => ws
  | some cs => fun c => decide (c ∈ cs)

/-- `s.isalnum()`-like predicates: at least one character and all satisfy. -/
def allNonempty (p : α → Bool) (s : List α) : Bool := !s.isEmpty && s.all p

/-- `s.islower()`/`s.isupper()` (CPython `unicode_islower`): at least one character of the wanted
case and no cased character of another case. -/
def isCase (wanted other : α → Bool) (s : List α) : Bool :=
  s.any wanted && s.all (fun c => !other c)

/-- `s.removeprefix(p)` -/
def removeprefix (s p : List α) : List α := if p.isPrefixOf s then s.drop p.length else s

/-- `s.removesuffix(p)` -/
def removesuffix (s p : List α) : List α :=
  if p.isSuffixOf s then s.take (s.length - p.length) else s

/-- `s.split(sep, maxsplit)`, `sep` non-empty; `maxsplit < 0` means no limit.  `acc` is the piece
being collected: scan left to right, cut at the first occurrence, go on after it. -/
def splitGo (sep : List α) : Option Nat → List α → List α → List (List α)
  | some 0, acc, s => [acc ++ s]
  | _, acc, [] => [acc]
  | k, acc, c :: t =>
    if sep ≠ [] ∧ sep.isPrefixOf (c :: t) then
      acc :: splitGo sep (k.map (· - 1)) [] ((c :: t).drop sep.length)
    else splitGo sep k (acc ++ [c]) t
termination_by _ _ s => s.length
decreasing_by
  · simp only [List.length_drop, List.length_cons]
    have : 0 < sep.length := by
      rcases sep with _ | ⟨a, l⟩ <;> simp_all
    omega
  · simp

def limitOf (maxsplit : Int) : Option Nat := if maxsplit < 0 then none else some maxsplit.toNat

def split (s sep : List α) (maxsplit : Int) : List (List α) := splitGo sep (limitOf maxsplit) [] s

/-- `s.rsplit(sep, maxsplit)`: the mirror image of `split`. -/
def rsplit (s sep : List α) (maxsplit : Int) : List (List α) :=
  ((split s.reverse sep.reverse maxsplit).map List.reverse).reverse

/-- `s.split(None, maxsplit)`: runs of whitespace separate; leading/trailing whitespace is dropped;
when the limit is reached the remainder (leading whitespace removed, trailing kept) is one piece. -/
def splitWs (ws : α → Bool) : Option Nat → List α → List (List α)
  | k, s =>
    match h : s.dropWhile ws with
    | [] => []
    | c :: t =>
      match k with
      | some 0 => [c :: t]
      | k => (c :: t).takeWhile (fun x => !ws x) ::
          splitWs ws (k.map (· - 1)) ((c :: t).dropWhile (fun x => !ws x))
termination_by _ s => s.length
decreasing_by
  have h1 : (s.dropWhile ws).length ≤ s.length := (List.dropWhile_sublist ws).length_le
  have hc : ws c = false := by
    have := List.head_dropWhile_not (l := s) ws (by rw [h]; simp)
    simpa [h] using this
  have h2 : ((c :: t).dropWhile (fun x => !ws x)).length < (c :: t).length := by
    rw [List.dropWhile_cons]
    simp only [hc, Bool.not_false, if_true, List.length_cons]
    have := (List.dropWhile_sublist (l := t) (fun x => !ws x)).length_le
    omega
  rw [h] at h1
  exact Nat.lt_of_lt_of_le h2 h1

def splitNone (ws : α → Bool) (s : List α) (maxsplit : Int) : List (List α) :=
  splitWs ws (limitOf maxsplit) s

def rsplitNone (ws : α → Bool) (s : List α) (maxsplit : Int) : List (List α) :=
  ((splitNone ws s.reverse maxsplit).map List.reverse).reverse

/-- Line boundaries of `str.splitlines` (library reference), other than the pair `\r\n`. -/
def lineBoundary : List Char :=
  ['\n', '\r', '\x0b', '\x0c', '\x1c', '\x1d', '\x1e', '\u0085', '\u2028', '\u2029']

/-- `s.splitlines(keepends)`; `cur` is the line being collected. A final line without terminator is
kept only if non-empty. -/
def splitlinesGo (keepends : Bool) : List Char → List Char → List (List Char)
  | cur, [] => if cur = [] then [] else [cur]
  | cur, '\r' :: '\n' :: t =>
    (if keepends then cur ++ ['\r', '\n'] else cur) :: splitlinesGo keepends [] t
  | cur, c :: t =>
    if c ∈ lineBoundary then (if keepends then cur ++ [c] else cur) :: splitlinesGo keepends [] t
    else splitlinesGo keepends (cur ++ [c]) t

def splitlines (s : List Char) (keepends : Bool) : List (List Char) := splitlinesGo keepends [] s

/-- `s.partition(sep)`. -/
def partition (s sep : List α) : List α × List α × List α :=
  match (List.range (s.length + 1)).find? (okAt s sep none none) with
  | some i => (s.take i, sep, s.drop (i + sep.length))
  | none => (s, [], [])

/-- `s.rpartition(sep)`. -/
def rpartition (s sep : List α) : List α × List α × List α :=
  match (List.range (s.length + 1)).reverse.find? (okAt s sep none none) with
  | some i => (s.take i, sep, s.drop (i + sep.length))
  | none => ([], [], s)

/-- `s[k]` for an integer: `none` stands for `IndexError`. -/
def getItem (s : List α) (k : Int) : Option α :=
  if 0 ≤ k then s[k.toNat]? else if 0 ≤ k + s.length then s[(k + s.length).toNat]? else none

end PyStr
