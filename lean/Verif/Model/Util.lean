import Verif.Model.Gaps
/-!
# Model of `/repo/pawpaw/util.py`

Simplification: a `str` source is represented by the Ito covering all of it (`offset` is then 0 and the
slices `src[a:b]` have the same text); the single-character arguments are characters, not strings, so
their length checks disappear.
-/
namespace Pawpaw
namespace Util
variable {α : Type} [DecidableEq α]

/-- The characters `s[i]`, `i in range(span.start, span.stop)`. -/
def charsIn (s : List α) (w : Span) : List α :=
  (List.range (w.stop - w.start).toNat).filterMap (fun k => s[w.start.toNat + k]?)

/-- The loop of `find_escapes`, `/repo/pawpaw/util.py:29-36`; `i` is the index of the next character. -/
def findEscapesLoop (escape : α) : Bool → Int → List α → Run Int
  | _, _, [] => .done
  | esc, i, c :: cs =>
    if c = escape then findEscapesLoop escape (!esc) (i + 1) cs
    else if esc then .yield (i - 1) (findEscapesLoop escape false (i + 1) cs)
    else findEscapesLoop escape false (i + 1) cs

/-- `find_escapes(src, escape, start, stop)`, `/repo/pawpaw/util.py:8-36`. -/
def findEscapes (src : FIto α) (escape : α) (start stop : Option Int) : Run Int :=
  match src.window start stop with
  | .error e => .raise e
  | .ok w => findEscapesLoop escape false w.start (charsIn src.string w)

/-- The loop of `find_unescaped`, `/repo/pawpaw/util.py:67-78`. -/
def findUnescapedLoop (chars : List α) (escape : α) (offset : Int) : Bool → Int → List α → Run Int
  | esc, _, [] => if esc then .raise .valueError else .done
  | esc, i, c :: cs =>
    if esc then findUnescapedLoop chars escape offset false (i + 1) cs
    else if c = escape then findUnescapedLoop chars escape offset true (i + 1) cs
    else if c ∈ chars then .yield (i - offset) (findUnescapedLoop chars escape offset false (i + 1) cs)
    else findUnescapedLoop chars escape offset false (i + 1) cs

/-- `find_unescaped(src, chars, escape, start, stop)`, `/repo/pawpaw/util.py:39-78`. -/
def findUnescaped (src : FIto α) (chars : List α) (escape : α) (start stop : Option Int) : Run Int :=
  match src.window start stop with
  | .error e => .raise e
  | .ok w =>
    if chars = [] then .raise .valueError
    else findUnescapedLoop chars escape src.start false w.start (charsIn src.string w)

/-- The loop of `split_unescaped`, `/repo/pawpaw/util.py:88-92`, over what `find_unescaped` yields. -/
def splitUnescapedLoop (src : FIto α) : Int → List Int → Option PyErr → Run (FIto α)
  | cur, [], none =>
    match src.getItemSlice (some cur) none with
    | .error e => .raise e
    | .ok y => .yield y .done
  | _, [], some e => .raise e
  | cur, i :: is, e =>
    match src.getItemSlice (some cur) (some i) with
    | .error e => .raise e
    | .ok y => .yield y (splitUnescapedLoop src (i + 1) is e)

/-- `split_unescaped(src, char, escape, start, stop)`, `/repo/pawpaw/util.py:81-92`. -/
def splitUnescaped (src : FIto α) (char : α) (escape : α) (start stop : Option Int) : Run (FIto α) :=
  let r := findUnescaped src [char] escape start stop
  splitUnescapedLoop src 0 r.out r.exc

/-- The loop of `find_balanced`, `/repo/pawpaw/util.py:124-139`; `lefts` has its last element first. -/
def findBalancedLoop (src : FIto α) (l r : α) : List Int → List Int → Option PyErr → Run (FIto α)
  | lefts, [], none => if lefts ≠ [] then .raise .valueError else .done
  | _, [], some e => .raise e
  | lefts, i :: is, e =>
    match src.string[(src.start + i).toNat]? with
    | none => .raise .indexError
    | some c =>
      if c = l ∧ (l ≠ r ∨ lefts = []) then findBalancedLoop src l r (i :: lefts) is e
      else
        match lefts with
        | [] => .raise .valueError
        | [j] =>
          match src.getItemSlice (some j) (some (i + 1)) with
          | .error e => .raise e
          | .ok y => .yield y (findBalancedLoop src l r [] is e)
        | _ :: js => findBalancedLoop src l r js is e

/-- `find_balanced(src, lchar, rchar, escape, start, stop)`, `/repo/pawpaw/util.py:95-139`. -/
def findBalanced (src : FIto α) (l r escape : α) (start stop : Option Int) : Run (FIto α) :=
  let u := findUnescaped src [l, r] escape start stop
  findBalancedLoop src l r [] u.out u.exc

end Util
end Pawpaw
