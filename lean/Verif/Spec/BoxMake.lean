import Verif.Model.BoxMake
/-!
# Specification: box drawing characters and boxes
-/
namespace Pawpaw.BoxSpec
open Box

/-- The style of the arm of `c` in direction `d`, if it has one. -/
def styleOf (c : BoxChar) (d : Direction) : Option Style :=
  (c.styles.find? (fun ds => ds.direction = d)).map DirectionStyle.style

/-- The number of features in which two styles differ. -/
def differ (a b : Style) : Nat :=
  (if a.weight = b.weight then 0 else 1) + (if a.count = b.count then 0 else 1) +
  (if a.dash = b.dash then 0 else 1) + (if a.path = b.path then 0 else 1)

/-- How far the arm of `c` in direction `d` is from style `a`; a missing arm counts 4. -/
def off (c : BoxChar) (d : Direction) (a : Style) : Nat :=
  match styleOf c d with
  | none => 4
  | some b => differ a b

/-- `c` is a two-armed character of the table, with an arm in each of the two directions, and of all the
two-armed characters none is nearer to having style `a` in direction `d1` and `b` in direction `d2`. -/
def Joins (c : BoxChar) (d1 : Direction) (a : Option Style) (d2 : Direction) (b : Option Style) : Prop :=
  c ∈ table ∧ c.styles.length = 2 ∧ (styleOf c d1).isSome ∧ (styleOf c d2).isSome ∧
  ∃ x y, a = some x ∧ b = some y ∧
    ∀ c' ∈ table, c'.styles.length = 2 → off c d1 x + off c d2 y ≤ off c' d1 x + off c' d2 y

/-- A character of the table with arms to the left and to the right. -/
def Horizontal (c : BoxChar) : Prop := c ∈ table ∧ (styleOf c .W).isSome ∧ (styleOf c .E).isSome
/-- A character of the table with arms up and down. -/
def Vertical (c : BoxChar) : Prop := c ∈ table ∧ (styleOf c .N).isSome ∧ (styleOf c .S).isSome

/-- Every corner fits the sides it touches: its arms are the nearest there are to the arms of the sides
that point at it. -/
structure CornersFit (p : Parts) : Prop where
  nw : Joins p.nw .S (styleOf p.w .N) .E (styleOf p.n .W)
  ne : Joins p.ne .W (styleOf p.n .E) .S (styleOf p.e .N)
  se : Joins p.se .N (styleOf p.e .S) .W (styleOf p.s .E)
  sw : Joins p.sw .E (styleOf p.s .W) .N (styleOf p.w .S)

/-- Every side fits the corners it touches. -/
structure SidesFit (p : Parts) : Prop where
  n : Joins p.n .W (styleOf p.nw .E) .E (styleOf p.ne .W)
  e : Joins p.e .N (styleOf p.ne .S) .S (styleOf p.se .N)
  s : Joins p.s .E (styleOf p.se .W) .W (styleOf p.sw .E)
  w : Joins p.w .S (styleOf p.sw .N) .N (styleOf p.nw .S)

/-- Both arms of each side have the same style. -/
structure Symmetric (p : Parts) : Prop where
  n : styleOf p.n .W = styleOf p.n .E
  s : styleOf p.s .W = styleOf p.s .E
  w : styleOf p.w .N = styleOf p.w .S
  e : styleOf p.e .N = styleOf p.e .S

/-- The directions of the two arms of a corner, or of a side. -/
def cornerPairs : List (Direction × Direction) := [(.S, .E), (.W, .S), (.N, .W), (.E, .N)]
/-- The directions of the two arms of a side. -/
def sidePairs : List (Direction × Direction) := [(.W, .E), (.N, .S), (.E, .W), (.S, .N)]

/-- Light, heavy, double lines; arcs. -/
def lightLine : Style := ⟨1, 1, 1, 1⟩
/-- A heavy line. -/
def heavyLine : Style := ⟨2, 1, 1, 1⟩
/-- A double line. -/
def doubleLine : Style := ⟨1, 2, 1, 1⟩
/-- An arc. -/
def arcLine : Style := ⟨1, 1, 1, 2⟩

/-- Styles for which there is a corner: two arcs; lines light or heavy; lines single or double. -/
def Bends (a b : Style) : Prop :=
  (a = arcLine ∧ b = arcLine) ∨ (a ∈ [lightLine, heavyLine] ∧ b ∈ [lightLine, heavyLine]) ∨
    (a ∈ [lightLine, doubleLine] ∧ b ∈ [lightLine, doubleLine])

/-- Styles for which there is a side: alike and no arcs; or light and heavy. -/
def Straight (a b : Style) : Prop :=
  (a = b ∧ a ≠ arcLine) ∨ (a ∈ [lightLine, heavyLine] ∧ b ∈ [lightLine, heavyLine])

instance (a b : Style) : Decidable (Bends a b) := by unfold Bends; infer_instance
instance (a b : Style) : Decidable (Straight a b) := by unfold Straight; infer_instance

/-! ## Corners -/

/-- The two arms a corner needs at its place: north-west (0), north-east (1), south-east (2), south-west (3). -/
def placeArms (i : Nat) : Direction × Direction :=
  match i with
  | 0 => (.E, .S)
  | 1 => (.S, .W)
  | 2 => (.W, .N)
  | _ => (.N, .E)

/-- The character may be the corner at place `i`: it has both arms needed there. -/
def CornerFit (i : Nat) (c : BoxChar) : Prop :=
  c ∈ table ∧ (styleOf c (placeArms i).1).isSome ∧ (styleOf c (placeArms i).2).isSome

/-- `p` puts the corners, each in a place of its own, where they have both arms. -/
def Places (cs : List BoxChar) (p : List Nat) : Prop :=
  p.length = cs.length ∧ p.Nodup ∧ (∀ j ∈ p, j < 4) ∧
    ∀ (i : Nat) (c : BoxChar) (j : Nat), cs[i]? = some c → p[i]? = some j →
      (styleOf c (placeArms j).1).isSome ∧ (styleOf c (placeArms j).2).isSome

/-- The corner of a box at a place. -/
def cornerOf (p : Parts) (j : Nat) : BoxChar :=
  match j with
  | 0 => p.nw
  | 1 => p.ne
  | 2 => p.se
  | _ => p.sw

/-! ## Unicode names -/

/-- The words of a name. -/
def words (s : List Char) : List (List Char) :=
  s.foldr (fun c ws => if c = ' ' then [] :: ws else (match ws with
    | [] => [[c]]
    | w :: ws => (c :: w) :: ws)) [[]]

/-- The directions a word of a name stands for. -/
def dirsOf (w : List Char) : List Direction :=
  if w = "UP".toList then [.N] else if w = "DOWN".toList then [.S]
  else if w = "LEFT".toList then [.W] else if w = "RIGHT".toList then [.E]
  else if w = "VERTICAL".toList then [.N, .S] else if w = "HORIZONTAL".toList then [.E, .W] else []

/-- What a word of a name says of a style: light is the usual weight, single the usual count; `DOUBLE`,
`TRIPLE` and `QUADRUPLE` before `DASH` (`dashed`) tell the dashes, else `DOUBLE` tells the count. -/
def styleWord (dashed : Bool) (s : Style) (w : List Char) : Style :=
  if w = "HEAVY".toList then { s with weight := 2 }
  else if w = "ARC".toList then { s with path := 2 }
  else if w = "DOUBLE".toList then (if dashed then { s with dash := 2 } else { s with count := 2 })
  else if w = "TRIPLE".toList then { s with dash := 3 }
  else if w = "QUADRUPLE".toList then { s with dash := 4 }
  else s

/-- Light, single, undashed, straight. -/
def plain : Style := ⟨1, 1, 1, 1⟩

/-- Does a group of words speak of style at all? -/
def styled (ws : List (List Char)) : Bool :=
  ws.any (fun w => ["LIGHT".toList, "HEAVY".toList, "SINGLE".toList, "DOUBLE".toList].contains w)

/-- The groups of a name: what stands between its `AND`s. -/
def groups (ws : List (List Char)) : List (List (List Char)) :=
  ws.foldr (fun w gs => if w = "AND".toList then [] :: gs else (match gs with
    | [] => [[w]]
    | g :: gs => (w :: g) :: gs)) [[]]

/-- The arms a name tells of: each group gives the arms its words stand for the style its words speak of; a
group that speaks of none has that of the first group.  The diagonals are named as wholes. -/
def describes (name : String) : List DirectionStyle :=
  if name = "BOX DRAWINGS LIGHT DIAGONAL UPPER RIGHT TO LOWER LEFT" then [⟨.NE, plain⟩, ⟨.SW, plain⟩]
  else if name = "BOX DRAWINGS LIGHT DIAGONAL UPPER LEFT TO LOWER RIGHT" then [⟨.SE, plain⟩, ⟨.NW, plain⟩]
  else if name = "BOX DRAWINGS LIGHT DIAGONAL CROSS" then [⟨.NE, plain⟩, ⟨.SE, plain⟩, ⟨.SW, plain⟩, ⟨.NW, plain⟩]
  else
    let ws := (words name.toList).drop 2
    let dashed := ws.contains "DASH".toList
    let gs := groups ws
    let first := (gs.headD []).foldl (styleWord dashed) plain
    gs.flatMap (fun g =>
      let st := if styled g then g.foldl (styleWord dashed) plain else first
      (g.flatMap dirsOf).map (fun d => ⟨d, st⟩))

end Pawpaw.BoxSpec
