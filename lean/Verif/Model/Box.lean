import Verif.Model.WsSplit
/-!
# Model of `pawpaw/visualization/ascii_box.py`: `Direction`, `BoxDrawingChar` look-up, `Boxer`
-/
namespace Pawpaw
namespace Box

/-- `Direction(IntEnum)`, `/repo/pawpaw/visualization/ascii_box.py:13-22` -/
inductive Direction where
  | N | NE | E | SE | S | SW | W | NW
  deriving DecidableEq

/-- `.value`, `/repo/pawpaw/visualization/ascii_box.py:15-22` -/
def Direction.value : Direction → Int
  | .N => 0 * 45
  | .NE => 1 * 45
  | .E => 2 * 45
  | .SE => 3 * 45
  | .S => 4 * 45
  | .SW => 5 * 45
  | .W => 6 * 45
  | .NW => 7 * 45

/-- `iter(cls)`: the members in order of definition. -/
def Direction.members : List Direction := [.N, .NE, .E, .SE, .S, .SW, .W, .NW]

/-- `for r in range(0, n): rv = next(it)`: the last value taken, starting from `rv` (unbound: `none`),
`/repo/pawpaw/visualization/ascii_box.py:27-30`. -/
def Direction.take : Nat → List Direction → Option Direction → Except PyErr Direction
  | 0, _, some rv => .ok rv
  | 0, _, none => .error .nameError
  | _ + 1, [], _ => .error .stopIteration
  | n + 1, d :: ds, _ => Direction.take n ds (some d)

/-- `Direction.from_degrees(degrees)`, `/repo/pawpaw/visualization/ascii_box.py:24-30`; Python's `%` and
`//` by a positive number are Lean's. -/
def Direction.fromDegrees (degrees : Int) : Except PyErr Direction :=
  Direction.take (degrees % 360 / 45 + 1).toNat Direction.members none

/-- `rotate(degrees)`, `/repo/pawpaw/visualization/ascii_box.py:32-33` -/
def Direction.rotate (d : Direction) (degrees : Int) : Except PyErr Direction :=
  Direction.fromDegrees (d.value + degrees)

/-- `reflect(surface)`, `/repo/pawpaw/visualization/ascii_box.py:35-37` -/
def Direction.reflect (d surface : Direction) : Except PyErr Direction :=
  d.rotate ((surface.value - d.value) * 2)

/-- `Style`, `/repo/pawpaw/visualization/ascii_box.py:40-63`: four enumerations, given by their values. -/
structure Style where
  weight : Nat
  count : Nat
  dash : Nat
  path : Nat
  deriving DecidableEq

/-- `DirectionStyle`, `/repo/pawpaw/visualization/ascii_box.py:66-69` -/
structure DirectionStyle where
  direction : Direction
  style : Style
  deriving DecidableEq

/-- `BoxDrawingChar`, `/repo/pawpaw/visualization/ascii_box.py:78-88,133-136`: the character and its
(sorted) direction styles.  Simplification: names are left out. -/
structure BoxChar where
  char : Char
  styles : List DirectionStyle
  deriving DecidableEq

/-- One summand of `_distance`, `/repo/pawpaw/visualization/ascii_box.py:102-114` -/
def dist1 (candidate : BoxChar) (t : DirectionStyle) : Nat :=
  match candidate.styles.find? (fun ds => ds.direction = t.direction) with
  | none => 4
  | some c =>
    (if t.style.weight ≠ c.style.weight then 1 else 0) + (if t.style.count ≠ c.style.count then 1 else 0) +
    (if t.style.dash ≠ c.style.dash then 1 else 0) + (if t.style.path ≠ c.style.path then 1 else 0)

/-- `_distance(candidate, *targets)`, `/repo/pawpaw/visualization/ascii_box.py:99-116` -/
def distance (candidate : BoxChar) (targets : List DirectionStyle) : Nat :=
  (targets.map (dist1 candidate)).sum

/-- The `fuzzy` loop, `/repo/pawpaw/visualization/ascii_box.py:120-126`; the state is `best_score`
(`-1`: none yet) with `best_bdc`. -/
def fuzzyLoop (targets : List DirectionStyle) : Option (Nat × BoxChar) → List BoxChar → Option (Nat × BoxChar)
  | best, [] => best
  | none, i :: is => fuzzyLoop targets (some (distance i targets, i)) is
  | some (b, bi), i :: is =>
    if distance i targets < b then fuzzyLoop targets (some (distance i targets, i)) is
    else fuzzyLoop targets (some (b, bi)) is

/-- `from_direction_styles(*targets, fuzzy)`, `/repo/pawpaw/visualization/ascii_box.py:118-131`;
`instances` is the table of characters. -/
def fromDirectionStyles (instances : List BoxChar) (targets : List DirectionStyle) (fuzzy : Bool) :
    Except PyErr BoxChar :=
  let cands := instances.filter (fun i => i.styles.length = targets.length)
  if fuzzy then
    match fuzzyLoop targets none cands with
    | some (_, b) => .ok b
    | none => .error .nameError
  else
    match cands.find? (fun i => distance i targets = 0) with
    | some b => .ok b
    | none => .error .valueError

/-- `Boxer`, `/repo/pawpaw/visualization/ascii_box.py:1058-1102`: the eight parts, as `str(part)`. -/
structure Boxer where
  nw : List Char
  n : List Char
  ne : List Char
  w : List Char
  e : List Char
  sw : List Char
  s : List Char
  se : List Char

/-- `s * k` for a non-negative `k`. -/
def repeatStr (s : List Char) (k : Nat) : List Char := (List.replicate k s).flatten

/-- `f'{s:^{width}}'`: centred, the odd blank on the right; longer strings are unchanged. -/
def center (s : List Char) (width : Nat) : List Char :=
  List.replicate ((width - s.length) / 2) ' ' ++ s ++
    List.replicate (width - s.length - (width - s.length) / 2) ' '

/-- `sum(1 for c in line if c.str_isprintable())`, `/repo/pawpaw/visualization/ascii_box.py:1107` -/
def printableCount (printable : Char → Bool) (line : FIto Char) : Nat :=
  (line.iter.filter (fun c => c.strIsprintable printable)).length

/-- `max(...)`, which raises `ValueError` when there is nothing. -/
def pyMax : List Nat → Except PyErr Nat
  | [] => .error .valueError
  | x :: xs => .ok (xs.foldl max x)

/-- `Boxer._from_lines(*lines)`, `/repo/pawpaw/visualization/ascii_box.py:1104-1116` -/
def Boxer.fromLines (b : Boxer) (printable : Char → Bool) (lines : List (FIto Char)) :
    Except PyErr (List (List Char)) :=
  match pyMax (lines.map (printableCount printable)) with
  | .error e => .error e
  | .ok maxLine =>
    .ok ([b.nw ++ repeatStr b.n (maxLine + 2) ++ b.ne] ++
      lines.map (fun line => b.w ++ [' '] ++ center line.text maxLine ++ [' '] ++ b.e) ++
      [b.sw ++ repeatStr b.s (maxLine + 2) ++ b.se])

/-- `Boxer.from_srcs(*srcs)`, `/repo/pawpaw/visualization/ascii_box.py:1118-1127`; the sources are
given as Itos (`Ito(src)` for a string). -/
def Boxer.fromSrcs (b : Boxer) (printable : Char → Bool) (srcs : List (FIto Char)) :
    Except PyErr (List (List Char)) :=
  b.fromLines printable (srcs.flatMap (fun src => src.strSplitlines false none))

end Box
end Pawpaw
