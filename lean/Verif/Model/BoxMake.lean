import Verif.Model.BoxTable
/-!
# Model of `BoxDrawingChar.rotate`/`reflect`/`from_char`/`from_name` and of `from_sides`, `from_corners`,
`/repo/pawpaw/visualization/ascii_box.py:85-96`, `:153-159`, `:1130-1309`
-/
namespace Pawpaw
namespace Box

/-- `DirectionStyle.rotate`, `/repo/pawpaw/visualization/ascii_box.py:71-72` -/
def DirectionStyle.rotate (ds : DirectionStyle) (degrees : Int) : Except PyErr DirectionStyle :=
  match ds.direction.rotate degrees with
  | .error e => .error e
  | .ok d => .ok ⟨d, ds.style⟩

/-- `DirectionStyle.reflect`, `/repo/pawpaw/visualization/ascii_box.py:74-75` -/
def DirectionStyle.reflect (ds : DirectionStyle) (surface : Direction) : Except PyErr DirectionStyle :=
  match ds.direction.reflect surface with
  | .error e => .error e
  | .ok d => .ok ⟨d, ds.style⟩

/-- `[f(x) for x in xs]` where `f` may raise. -/
def mapE {α β : Type} (f : α → Except PyErr β) : List α → Except PyErr (List β)
  | [] => .ok []
  | x :: xs =>
    match f x with
    | .error e => .error e
    | .ok y =>
      match mapE f xs with
      | .error e => .error e
      | .ok ys => .ok (y :: ys)

/-- `bdc.rotate(degrees)`, `/repo/pawpaw/visualization/ascii_box.py:153-155` -/
def BoxChar.rotate (t : List BoxChar) (c : BoxChar) (degrees : Int) : Except PyErr BoxChar :=
  match mapE (fun ds => ds.rotate degrees) c.styles with
  | .error e => .error e
  | .ok dss => fromDirectionStyles t dss true

/-- `bdc.reflect(surface)`, `/repo/pawpaw/visualization/ascii_box.py:157-159` -/
def BoxChar.reflect (t : List BoxChar) (c : BoxChar) (surface : Direction) : Except PyErr BoxChar :=
  match mapE (fun ds => ds.reflect surface) c.styles with
  | .error e => .error e
  | .ok dss => fromDirectionStyles t dss true

/-- `BoxDrawingChar.from_char(char)`, `/repo/pawpaw/visualization/ascii_box.py:85-89`; a `str` of any
length may be asked for. -/
def fromChar (t : List BoxChar) (char : String) : Except PyErr BoxChar :=
  match t.find? (fun b => b.char.toString = char) with
  | some b => .ok b
  | none => .error .valueError

/-- `BoxDrawingChar.from_name(name)`, `/repo/pawpaw/visualization/ascii_box.py:91-95` -/
def fromName (t : List (String × BoxChar)) (name : String) : Except PyErr BoxChar :=
  match t.find? (fun b => b.1 = name) with
  | some b => .ok b.2
  | none => .error .valueError

/-- `_get_direction_styles(bdc, d)[0]`, `/repo/pawpaw/visualization/ascii_box.py:1130-1135` -/
def arm (c : BoxChar) (d : Direction) : Option DirectionStyle :=
  c.styles.find? (fun ds => ds.direction = d)

/-- The same where `None` makes the next use raise `AttributeError`. -/
def armE (c : BoxChar) (d : Direction) : Except PyErr DirectionStyle :=
  match arm c d with
  | some ds => .ok ds
  | none => .error .attributeError

/-- `_get_direction_styles(c, d)[0].rotate(degrees)` -/
def armRot (c : BoxChar) (d : Direction) (degrees : Int) : Except PyErr DirectionStyle :=
  match armE c d with
  | .error e => .error e
  | .ok ds => ds.rotate degrees

/-- `BoxDrawingChar.from_direction_styles(ds1, ds2, fuzzy=True)` of two values computed before. -/
def joinE (t : List BoxChar) (a b : Except PyErr DirectionStyle) : Except PyErr BoxChar :=
  match a with
  | .error e => .error e
  | .ok x =>
    match b with
    | .error e => .error e
    | .ok y => fromDirectionStyles t [x, y] true

/-- The eight characters of a `Boxer`, `/repo/pawpaw/visualization/ascii_box.py:1058-1102` -/
structure Parts where
  nw : BoxChar
  n : BoxChar
  ne : BoxChar
  w : BoxChar
  e : BoxChar
  sw : BoxChar
  s : BoxChar
  se : BoxChar
  deriving DecidableEq

/-- `str(part)` of each part, `/repo/pawpaw/visualization/ascii_box.py:150-151` -/
def Parts.boxer (p : Parts) : Boxer :=
  ⟨[p.nw.char], [p.n.char], [p.ne.char], [p.w.char], [p.e.char], [p.sw.char], [p.s.char], [p.se.char]⟩

/-- What may be passed for a side or a corner. -/
inductive Arg where
  | none
  | str (s : String)
  | bdc (b : BoxChar)
  deriving DecidableEq

/-- Use as a `BoxDrawingChar`: `None` and `str` have none of its attributes. -/
def Arg.asBdc : Arg → Except PyErr BoxChar
  | .bdc b => .ok b
  | _ => .error .attributeError

/-- `v is not None` -/
def Arg.given : Arg → Bool
  | .none => false
  | _ => true

/-- The directions of `sides`, `/repo/pawpaw/visualization/ascii_box.py:1152` -/
def sideDir (i : Nat) : Direction :=
  match i with
  | 0 => .N
  | 1 => .E
  | 2 => .S
  | _ => .W

/-- `first_index = next(i for i in range(4) if sides[i][1] is not None)`,
`/repo/pawpaw/visualization/ascii_box.py:1154`, `:1273`: `next` without a default raises. -/
def firstGiven : List Arg → Except PyErr Nat
  | [] => .error .stopIteration
  | a :: as =>
    if a.given then .ok 0
    else
      match firstGiven as with
      | .error e => .error e
      | .ok i => .ok (i + 1)

/-- Type check of the sides, `/repo/pawpaw/visualization/ascii_box.py:1158-1162`; what `from_char` returns
is assigned to a variable nobody reads. -/
def checkSides (t : List BoxChar) : List Arg → Except PyErr Unit
  | [] => .ok ()
  | .str s :: as =>
    match fromChar t s with
    | .error e => .error e
    | .ok _ => checkSides t as
  | _ :: as => checkSides t as

/-- `any(ds is None for ds in _get_direction_styles(bdc, a, b))` raises `ValueError`,
`/repo/pawpaw/visualization/ascii_box.py:1172-1178` -/
def checkArms (a b : Direction) : List Arg → Except PyErr Unit
  | [] => .ok ()
  | .none :: as => checkArms a b as
  | .str _ :: _ => .error .attributeError
  | .bdc c :: as => if (arm c a).isNone || (arm c b).isNone then .error .valueError else checkArms a b as

/-- One round of the loop for a single side, `/repo/pawpaw/visualization/ascii_box.py:1165-1169` -/
def sideRound1 (t : List BoxChar) (first i : Nat) (sides : List Arg) : Except PyErr (List Arg) :=
  let prior := (first + i) % 4
  let cur := (prior + 1) % 4
  match (sides.getD prior .none).asBdc with
  | .error e => .error e
  | .ok p =>
    match (sideDir prior).rotate 45 with
    | .error e => .error e
    | .ok d =>
      match p.reflect t d with
      | .error e => .error e
      | .ok b => .ok (sides.set cur (.bdc b))

/-- One round of the loop for several sides, `/repo/pawpaw/visualization/ascii_box.py:1180-1199` -/
def sideRound (t : List BoxChar) (first i : Nat) (sides : List Arg) : Except PyErr (List Arg) :=
  let prior := (first + i) % 4
  let cur := (prior + 1) % 4
  let next := (cur + 1) % 4
  if (sides.getD cur .none).given then .ok sides
  else
    match (sides.getD prior .none).asBdc with
    | .error e => .error e
    | .ok p =>
      if !(sides.getD next .none).given then
        match p.rotate t 90 with
        | .error e => .error e
        | .ok b => .ok (sides.set cur (.bdc b))
      else
        match (sides.getD next .none).asBdc with
        | .error e => .error e
        | .ok q =>
          match joinE t (armRot p (sideDir cur) (-90)) (armRot q (sideDir cur) 90) with
          | .error e => .error e
          | .ok b => .ok (sides.set cur (.bdc b))

/-- `for i in range(3): …` -/
def threeRounds (f : Nat → List Arg → Except PyErr (List Arg)) (sides : List Arg) : Except PyErr (List Arg) :=
  match f 0 sides with
  | .error e => .error e
  | .ok s1 =>
    match f 1 s1 with
    | .error e => .error e
    | .ok s2 => f 2 s2

/-- The corner after side `i`, `/repo/pawpaw/visualization/ascii_box.py:1202-1210`; a missing arm (`None`)
makes `from_direction_styles` raise `AttributeError`. -/
def cornerAt (t : List BoxChar) (sides : List Arg) (i : Nat) : Except PyErr BoxChar :=
  match Direction.W.rotate (i * 90) with
  | .error e => .error e
  | .ok d1 =>
    match d1.rotate (-90) with
    | .error e => .error e
    | .ok d2 =>
      match (sides.getD i .none).asBdc with
      | .error e => .error e
      | .ok a =>
        match (sides.getD ((i + 1) % 4) .none).asBdc with
        | .error e => .error e
        | .ok b => joinE t (armE a d1) (armE b d2)

/-- The corners and the result, `/repo/pawpaw/visualization/ascii_box.py:1201-1216` -/
def closeSides (t : List BoxChar) (sides : List Arg) : Except PyErr Parts :=
  match mapE (cornerAt t sides) [0, 1, 2, 3] with
  | .error e => .error e
  | .ok cs =>
    match mapE Arg.asBdc sides with
    | .error e => .error e
    | .ok ss =>
      match cs, ss with
      | [c0, c1, c2, c3], [s0, s1, s2, s3] => .ok ⟨c3, s0, c0, s3, s1, c2, s2, c1⟩
      | _, _ => .error .indexError

/-- `from_sides(n, w, e, s)`, `/repo/pawpaw/visualization/ascii_box.py:1146-1216`; `t` is the table of
characters.  Note the order of the parameters. -/
def fromSides (t : List BoxChar) (n w e s : Arg) : Except PyErr Parts :=
  let sides := [n, e, s, w]
  match firstGiven sides with
  | .error e => .error e
  | .ok first =>
    match checkSides t sides with
    | .error e => .error e
    | .ok () =>
      if sides.countP (fun a => !a.given) = 3 then
        match threeRounds (sideRound1 t first) sides with
        | .error e => .error e
        | .ok sides => closeSides t sides
      else
        match checkArms .W .E [n, s] with
        | .error e => .error e
        | .ok () =>
          match checkArms .N .S [e, w] with
          | .error e => .error e
          | .ok () =>
            match threeRounds (sideRound t first) sides with
            | .error e => .error e
            | .ok sides => closeSides t sides

/-- The two directions of the corners, `/repo/pawpaw/visualization/ascii_box.py:1225-1230` -/
def cornerDirs (i : Nat) : Direction × Direction :=
  match i with
  | 0 => (.E, .S)
  | 1 => (.S, .W)
  | 2 => (.W, .N)
  | _ => (.N, .E)

/-- `c if isinstance(c, BoxDrawingChar) else BoxDrawingChar.from_char(c)`,
`/repo/pawpaw/visualization/ascii_box.py:1232`; `None` is no character either. -/
def Arg.corner (t : List BoxChar) : Arg → Except PyErr BoxChar
  | .bdc b => .ok b
  | .str s => fromChar t s
  | .none => .error .valueError

/-- `scores[j][i]` capped at 2, `/repo/pawpaw/visualization/ascii_box.py:1234-1237`, `:1242` -/
def cornerScore (c : BoxChar) (j : Nat) : Nat :=
  let k := (if (arm c (cornerDirs j).1).isSome then 1 else 0) + (if (arm c (cornerDirs j).2).isSome then 1 else 0)
  if k ≥ 2 then 2 else k

/-- `itertools.permutations(xs, k)`: in lexicographic order of positions. -/
def permutations : Nat → List Nat → List (List Nat)
  | 0, _ => [[]]
  | k + 1, xs => xs.flatMap (fun x => (permutations k (xs.filter (· ≠ x))).map (x :: ·))

/-- The score of a permutation, `/repo/pawpaw/visualization/ascii_box.py:1242` -/
def permScore (cs : List BoxChar) (p : List Nat) : Nat :=
  ((cs.zip p).map (fun cj => cornerScore cj.1 cj.2)).sum

/-- The search for the best permutation, `/repo/pawpaw/visualization/ascii_box.py:1239-1249` -/
def bestPerm (cs : List BoxChar) : Option (List Nat × Nat) → List (List Nat) → Option (List Nat × Nat)
  | best, [] => best
  | best, p :: ps =>
    if permScore cs p = cs.length * 2 then some (p, permScore cs p)
    else
      match best with
      | none => bestPerm cs (some (p, permScore cs p)) ps
      | some (q, b) =>
        if permScore cs p > b then bestPerm cs (some (p, permScore cs p)) ps else bestPerm cs (some (q, b)) ps

/-- `for i, j in enumerate(best_permutation): tmp[j][1] = corners[i]`,
`/repo/pawpaw/visualization/ascii_box.py:1254-1255` -/
def placeCorners : List BoxChar → List Nat → List Arg → List Arg
  | c :: cs, j :: js, tmp => placeCorners cs js (tmp.set j (.bdc c))
  | _, _, tmp => tmp

/-- One round for a single corner, `/repo/pawpaw/visualization/ascii_box.py:1259-1263` -/
def cornerRound1 (t : List BoxChar) (first i : Nat) (tmp : List Arg) : Except PyErr (List Arg) :=
  let prior := (first + i) % 4
  let cur := (prior + 1) % 4
  match (tmp.getD prior .none).asBdc with
  | .error e => .error e
  | .ok p =>
    match p.reflect t (cornerDirs prior).2 with
    | .error e => .error e
    | .ok b => .ok (tmp.set cur (.bdc b))

/-- One round for several corners, `/repo/pawpaw/visualization/ascii_box.py:1265-1289` -/
def cornerRound (t : List BoxChar) (first i : Nat) (tmp : List Arg) : Except PyErr (List Arg) :=
  let prior := (first + i) % 4
  let cur := (prior + 1) % 4
  let next := (cur + 1) % 4
  if (tmp.getD cur .none).given then .ok tmp
  else
    match (tmp.getD prior .none).asBdc with
    | .error e => .error e
    | .ok p =>
      if !(tmp.getD next .none).given then
        match p.rotate t 90 with
        | .error e => .error e
        | .ok b => .ok (tmp.set cur (.bdc b))
      else
        match (tmp.getD next .none).asBdc with
        | .error e => .error e
        | .ok q =>
          match joinE t (armRot p (cornerDirs prior).1 180) (armRot q (cornerDirs next).2 180) with
          | .error e => .error e
          | .ok b => .ok (tmp.set cur (.bdc b))

/-- The side after corner `i`, `/repo/pawpaw/visualization/ascii_box.py:1292-1301` -/
def sideAt (t : List BoxChar) (tmp : List Arg) (i : Nat) : Except PyErr BoxChar :=
  let j := (i + 1) % 4
  match (tmp.getD i .none).asBdc with
  | .error e => .error e
  | .ok a =>
    match (tmp.getD j .none).asBdc with
    | .error e => .error e
    | .ok b => joinE t (armRot a (cornerDirs i).1 180) (armRot b (cornerDirs j).2 180)

/-- The sides and the result, `/repo/pawpaw/visualization/ascii_box.py:1291-1309` -/
def closeCorners (t : List BoxChar) (tmp : List Arg) : Except PyErr Parts :=
  match mapE (sideAt t tmp) [0, 1, 2, 3] with
  | .error e => .error e
  | .ok ss =>
    match mapE Arg.asBdc tmp with
    | .error e => .error e
    | .ok cs =>
      match cs, ss with
      | [c0, c1, c2, c3], [s0, s1, s2, s3] => .ok ⟨c0, s0, c1, s3, s1, c3, s2, c2⟩
      | _, _ => .error .indexError

/-- `from_corners(*corners)`, `/repo/pawpaw/visualization/ascii_box.py:1219-1309` -/
def fromCorners (t : List BoxChar) (corners : List Arg) : Except PyErr Parts :=
  if corners.length = 0 then .error .valueError
  else if corners.length > 4 then .error .valueError
  else
    match mapE (Arg.corner t) corners with
    | .error e => .error e
    | .ok cs =>
      match bestPerm cs none (permutations cs.length [0, 1, 2, 3]) with
      | none => .error .valueError
      | some (p, b) =>
        if b ≠ cs.length * 2 then .error .valueError
        else
          let tmp := placeCorners cs p [.none, .none, .none, .none]
          match firstGiven tmp with
          | .error e => .error e
          | .ok first =>
            match threeRounds (if cs.length = 1 then cornerRound1 t first else cornerRound t first) tmp with
            | .error e => .error e
            | .ok tmp => closeCorners t tmp

end Box
end Pawpaw
