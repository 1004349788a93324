import Verif.Spec.BoxMake
import Verif.Props.Box
/-!
# Facts about the table of box drawing characters, checked by the kernel over the whole table
-/
set_option linter.unusedSectionVars false
set_option maxRecDepth 100000
namespace Pawpaw.BoxTable
open Box BoxSpec Props

/-- All directions. -/
def dirs : List Direction := [.N, .NE, .E, .SE, .S, .SW, .W, .NW]

theorem mem_dirs (d : Direction) : d ∈ dirs := by cases d <;> decide

/-- `c` has the style `t`. -/
def hasB (c : BoxChar) (t : DirectionStyle) : Bool := decide (arm c t.direction = some t)

/-- `c` has as many arms as there are styles in `ts`, and each of these. -/
def hasAllB (c : BoxChar) (ts : List DirectionStyle) : Bool := c.styles.length == ts.length && ts.all (hasB c)

/-- The styles moved by a map of the directions. -/
def moved (g : Direction → Direction) (ts : List DirectionStyle) : List DirectionStyle :=
  ts.map (fun ds => ⟨g ds.direction, ds.style⟩)

/-- The map is one of the table: each character has its image. -/
def closedB (g : Direction → Direction) : Bool :=
  table.all fun c => table.any fun c0 => hasAllB c0 (moved g c.styles) &&
    (c0.styles.all (fun t => (moved g c.styles).contains t) && dirs.all (fun d => styleOf c0 (g d) == styleOf c d))

/-- A turn by `45 * k` degrees. -/
def turn (k : Nat) (d : Direction) : Direction := dirs.getD ((d.value.toNat / 45 + k) % 8) .N

/-- A reflection. -/
def mirror (s d : Direction) : Direction := dirs.getD ((16 + 2 * (s.value.toNat / 45) - d.value.toNat / 45) % 8) .N

theorem closed0 : closedB (turn 0) = true := by decide +kernel
theorem closed2 : closedB (turn 2) = true := by decide +kernel
theorem closed4 : closedB (turn 4) = true := by decide +kernel
theorem closed6 : closedB (turn 6) = true := by decide +kernel
theorem closedN : closedB (mirror .N) = true := by decide +kernel
theorem closedNE : closedB (mirror .NE) = true := by decide +kernel
theorem closedE : closedB (mirror .E) = true := by decide +kernel
theorem closedSE : closedB (mirror .SE) = true := by decide +kernel

theorem mirror_S : mirror .S = mirror .N := by funext d; cases d <;> decide
theorem mirror_SW : mirror .SW = mirror .NE := by funext d; cases d <;> decide
theorem mirror_W : mirror .W = mirror .E := by funext d; cases d <;> decide
theorem mirror_NW : mirror .NW = mirror .SE := by funext d; cases d <;> decide

theorem closed_mirror (s : Direction) : closedB (mirror s) = true := by
  cases s
  · exact closedN
  · exact closedNE
  · exact closedE
  · exact closedSE
  · rw [mirror_S]; exact closedN
  · rw [mirror_SW]; exact closedNE
  · rw [mirror_W]; exact closedE
  · rw [mirror_NW]; exact closedSE

/-- No character has all the arms of another with as many. -/
theorem unique : (table.all fun c => table.all fun c' => !(hasAllB c' c.styles) || decide (c = c')) = true := by
  decide +kernel

/-- The styles that occur. -/
def occurring : List Style :=
  [⟨1, 1, 1, 1⟩, ⟨2, 1, 1, 1⟩, ⟨1, 1, 3, 1⟩, ⟨2, 1, 3, 1⟩, ⟨1, 1, 4, 1⟩, ⟨2, 1, 4, 1⟩, ⟨1, 1, 2, 1⟩, ⟨2, 1, 2, 1⟩,
    ⟨1, 2, 1, 1⟩, ⟨1, 1, 1, 2⟩]

theorem occurs : (table.all fun c => c.styles.all fun t => occurring.contains t.style) = true := by decide +kernel

/-- The nearest character has both arms. -/
def joinsB (d1 d2 : Direction) : Bool :=
  occurring.all fun a => occurring.all fun b =>
    match fromDirectionStyles table [⟨d1, a⟩, ⟨d2, b⟩] true with
    | .ok c => (styleOf c d1).isSome && (styleOf c d2).isSome
    | .error _ => false

theorem joins_WE : joinsB .W .E = true := by decide +kernel
theorem joins_NS : joinsB .N .S = true := by decide +kernel
theorem joins_EW : joinsB .E .W = true := by decide +kernel
theorem joins_SN : joinsB .S .N = true := by decide +kernel
theorem joins_WS : joinsB .W .S = true := by decide +kernel
theorem joins_NW : joinsB .N .W = true := by decide +kernel
theorem joins_EN : joinsB .E .N = true := by decide +kernel
theorem joins_SE : joinsB .S .E = true := by decide +kernel

/-- Names, characters: each once. -/
theorem chars_once : (named.all fun x => (named.filter fun y => decide (y.2.char = x.2.char)).length == 1) = true := by
  decide +kernel

end Pawpaw.BoxTable
