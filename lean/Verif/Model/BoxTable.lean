import Verif.Model.Box
/-!
# The table of box drawing characters, `/repo/pawpaw/visualization/ascii_box.py:161-1055`

Transcribed from the source: character, name, and the direction styles in the order in which
`BoxDrawingChar._sort` puts them (`:81-83`).  Of a style, the values of `weight` (light 1, heavy 2),
`count` (single 1, double 2), `dash` (none 1, double 2, triple 3, quadruple 4) and `path` (line segment 1,
arc 2), as `enum.auto()` numbers them (`:42-57`).
-/
namespace Pawpaw
namespace Box

/-- `BoxDrawingChar._instances`, `/repo/pawpaw/visualization/ascii_box.py:164-1055`, with names. -/
def named : List (String × BoxChar) := [
  ("BOX DRAWINGS LIGHT HORIZONTAL", ⟨'─', [⟨.E, ⟨1, 1, 1, 1⟩⟩, ⟨.W, ⟨1, 1, 1, 1⟩⟩]⟩),
  ("BOX DRAWINGS HEAVY HORIZONTAL", ⟨'━', [⟨.E, ⟨2, 1, 1, 1⟩⟩, ⟨.W, ⟨2, 1, 1, 1⟩⟩]⟩),
  ("BOX DRAWINGS LIGHT VERTICAL", ⟨'│', [⟨.N, ⟨1, 1, 1, 1⟩⟩, ⟨.S, ⟨1, 1, 1, 1⟩⟩]⟩),
  ("BOX DRAWINGS HEAVY VERTICAL", ⟨'┃', [⟨.N, ⟨2, 1, 1, 1⟩⟩, ⟨.S, ⟨2, 1, 1, 1⟩⟩]⟩),
  ("BOX DRAWINGS LIGHT TRIPLE DASH HORIZONTAL", ⟨'┄', [⟨.E, ⟨1, 1, 3, 1⟩⟩, ⟨.W, ⟨1, 1, 3, 1⟩⟩]⟩),
  ("BOX DRAWINGS HEAVY TRIPLE DASH HORIZONTAL", ⟨'┅', [⟨.E, ⟨2, 1, 3, 1⟩⟩, ⟨.W, ⟨2, 1, 3, 1⟩⟩]⟩),
  ("BOX DRAWINGS LIGHT TRIPLE DASH VERTICAL", ⟨'┆', [⟨.N, ⟨1, 1, 3, 1⟩⟩, ⟨.S, ⟨1, 1, 3, 1⟩⟩]⟩),
  ("BOX DRAWINGS HEAVY TRIPLE DASH VERTICAL", ⟨'┇', [⟨.N, ⟨2, 1, 3, 1⟩⟩, ⟨.S, ⟨2, 1, 3, 1⟩⟩]⟩),
  ("BOX DRAWINGS LIGHT QUADRUPLE DASH HORIZONTAL", ⟨'┈', [⟨.E, ⟨1, 1, 4, 1⟩⟩, ⟨.W, ⟨1, 1, 4, 1⟩⟩]⟩),
  ("BOX DRAWINGS HEAVY QUADRUPLE DASH HORIZONTAL", ⟨'┉', [⟨.E, ⟨2, 1, 4, 1⟩⟩, ⟨.W, ⟨2, 1, 4, 1⟩⟩]⟩),
  ("BOX DRAWINGS LIGHT QUADRUPLE DASH VERTICAL", ⟨'┊', [⟨.N, ⟨1, 1, 4, 1⟩⟩, ⟨.S, ⟨1, 1, 4, 1⟩⟩]⟩),
  ("BOX DRAWINGS HEAVY QUADRUPLE DASH VERTICAL", ⟨'┋', [⟨.N, ⟨2, 1, 4, 1⟩⟩, ⟨.S, ⟨2, 1, 4, 1⟩⟩]⟩),
  ("BOX DRAWINGS LIGHT DOWN AND RIGHT", ⟨'┌', [⟨.E, ⟨1, 1, 1, 1⟩⟩, ⟨.S, ⟨1, 1, 1, 1⟩⟩]⟩),
  ("BOX DRAWINGS DOWN LIGHT AND RIGHT HEAVY", ⟨'┍', [⟨.E, ⟨2, 1, 1, 1⟩⟩, ⟨.S, ⟨1, 1, 1, 1⟩⟩]⟩),
  ("BOX DRAWINGS DOWN HEAVY AND RIGHT LIGHT", ⟨'┎', [⟨.E, ⟨1, 1, 1, 1⟩⟩, ⟨.S, ⟨2, 1, 1, 1⟩⟩]⟩),
  ("BOX DRAWINGS HEAVY DOWN AND RIGHT", ⟨'┏', [⟨.E, ⟨2, 1, 1, 1⟩⟩, ⟨.S, ⟨2, 1, 1, 1⟩⟩]⟩),
  ("BOX DRAWINGS LIGHT DOWN AND LEFT", ⟨'┐', [⟨.S, ⟨1, 1, 1, 1⟩⟩, ⟨.W, ⟨1, 1, 1, 1⟩⟩]⟩),
  ("BOX DRAWINGS DOWN LIGHT AND LEFT HEAVY", ⟨'┑', [⟨.S, ⟨1, 1, 1, 1⟩⟩, ⟨.W, ⟨2, 1, 1, 1⟩⟩]⟩),
  ("BOX DRAWINGS DOWN HEAVY AND LEFT LIGHT", ⟨'┒', [⟨.S, ⟨2, 1, 1, 1⟩⟩, ⟨.W, ⟨1, 1, 1, 1⟩⟩]⟩),
  ("BOX DRAWINGS HEAVY DOWN AND LEFT", ⟨'┓', [⟨.S, ⟨2, 1, 1, 1⟩⟩, ⟨.W, ⟨2, 1, 1, 1⟩⟩]⟩),
  ("BOX DRAWINGS LIGHT UP AND RIGHT", ⟨'└', [⟨.N, ⟨1, 1, 1, 1⟩⟩, ⟨.E, ⟨1, 1, 1, 1⟩⟩]⟩),
  ("BOX DRAWINGS UP LIGHT AND RIGHT HEAVY", ⟨'┕', [⟨.N, ⟨1, 1, 1, 1⟩⟩, ⟨.E, ⟨2, 1, 1, 1⟩⟩]⟩),
  ("BOX DRAWINGS UP HEAVY AND RIGHT LIGHT", ⟨'┖', [⟨.N, ⟨2, 1, 1, 1⟩⟩, ⟨.E, ⟨1, 1, 1, 1⟩⟩]⟩),
  ("BOX DRAWINGS HEAVY UP AND RIGHT", ⟨'┗', [⟨.N, ⟨2, 1, 1, 1⟩⟩, ⟨.E, ⟨2, 1, 1, 1⟩⟩]⟩),
  ("BOX DRAWINGS LIGHT UP AND LEFT", ⟨'┘', [⟨.N, ⟨1, 1, 1, 1⟩⟩, ⟨.W, ⟨1, 1, 1, 1⟩⟩]⟩),
  ("BOX DRAWINGS UP LIGHT AND LEFT HEAVY", ⟨'┙', [⟨.N, ⟨1, 1, 1, 1⟩⟩, ⟨.W, ⟨2, 1, 1, 1⟩⟩]⟩),
  ("BOX DRAWINGS UP HEAVY AND LEFT LIGHT", ⟨'┚', [⟨.N, ⟨2, 1, 1, 1⟩⟩, ⟨.W, ⟨1, 1, 1, 1⟩⟩]⟩),
  ("BOX DRAWINGS HEAVY UP AND LEFT", ⟨'┛', [⟨.N, ⟨2, 1, 1, 1⟩⟩, ⟨.W, ⟨2, 1, 1, 1⟩⟩]⟩),
  ("BOX DRAWINGS LIGHT VERTICAL AND RIGHT", ⟨'├', [⟨.N, ⟨1, 1, 1, 1⟩⟩, ⟨.E, ⟨1, 1, 1, 1⟩⟩, ⟨.S, ⟨1, 1, 1, 1⟩⟩]⟩),
  ("BOX DRAWINGS VERTICAL LIGHT AND RIGHT HEAVY", ⟨'┝', [⟨.N, ⟨1, 1, 1, 1⟩⟩, ⟨.E, ⟨2, 1, 1, 1⟩⟩, ⟨.S, ⟨1, 1, 1, 1⟩⟩]⟩),
  ("BOX DRAWINGS UP HEAVY AND RIGHT DOWN LIGHT", ⟨'┞', [⟨.N, ⟨2, 1, 1, 1⟩⟩, ⟨.E, ⟨1, 1, 1, 1⟩⟩, ⟨.S, ⟨1, 1, 1, 1⟩⟩]⟩),
  ("BOX DRAWINGS DOWN HEAVY AND RIGHT UP LIGHT", ⟨'┟', [⟨.N, ⟨1, 1, 1, 1⟩⟩, ⟨.E, ⟨1, 1, 1, 1⟩⟩, ⟨.S, ⟨2, 1, 1, 1⟩⟩]⟩),
  ("BOX DRAWINGS VERTICAL HEAVY AND RIGHT LIGHT", ⟨'┠', [⟨.N, ⟨2, 1, 1, 1⟩⟩, ⟨.E, ⟨1, 1, 1, 1⟩⟩, ⟨.S, ⟨2, 1, 1, 1⟩⟩]⟩),
  ("BOX DRAWINGS DOWN LIGHT AND RIGHT UP HEAVY", ⟨'┡', [⟨.N, ⟨2, 1, 1, 1⟩⟩, ⟨.E, ⟨2, 1, 1, 1⟩⟩, ⟨.S, ⟨1, 1, 1, 1⟩⟩]⟩),
  ("BOX DRAWINGS UP LIGHT AND RIGHT DOWN HEAVY", ⟨'┢', [⟨.N, ⟨1, 1, 1, 1⟩⟩, ⟨.E, ⟨2, 1, 1, 1⟩⟩, ⟨.S, ⟨2, 1, 1, 1⟩⟩]⟩),
  ("BOX DRAWINGS HEAVY VERTICAL AND RIGHT", ⟨'┣', [⟨.N, ⟨2, 1, 1, 1⟩⟩, ⟨.E, ⟨2, 1, 1, 1⟩⟩, ⟨.S, ⟨2, 1, 1, 1⟩⟩]⟩),
  ("BOX DRAWINGS LIGHT VERTICAL AND LEFT", ⟨'┤', [⟨.N, ⟨1, 1, 1, 1⟩⟩, ⟨.S, ⟨1, 1, 1, 1⟩⟩, ⟨.W, ⟨1, 1, 1, 1⟩⟩]⟩),
  ("BOX DRAWINGS VERTICAL LIGHT AND LEFT HEAVY", ⟨'┥', [⟨.N, ⟨1, 1, 1, 1⟩⟩, ⟨.S, ⟨1, 1, 1, 1⟩⟩, ⟨.W, ⟨2, 1, 1, 1⟩⟩]⟩),
  ("BOX DRAWINGS UP HEAVY AND LEFT DOWN LIGHT", ⟨'┦', [⟨.N, ⟨2, 1, 1, 1⟩⟩, ⟨.S, ⟨1, 1, 1, 1⟩⟩, ⟨.W, ⟨1, 1, 1, 1⟩⟩]⟩),
  ("BOX DRAWINGS DOWN HEAVY AND LEFT UP LIGHT", ⟨'┧', [⟨.N, ⟨1, 1, 1, 1⟩⟩, ⟨.S, ⟨2, 1, 1, 1⟩⟩, ⟨.W, ⟨1, 1, 1, 1⟩⟩]⟩),
  ("BOX DRAWINGS VERTICAL HEAVY AND LEFT LIGHT", ⟨'┨', [⟨.N, ⟨2, 1, 1, 1⟩⟩, ⟨.S, ⟨2, 1, 1, 1⟩⟩, ⟨.W, ⟨1, 1, 1, 1⟩⟩]⟩),
  ("BOX DRAWINGS DOWN LIGHT AND LEFT UP HEAVY", ⟨'┩', [⟨.N, ⟨2, 1, 1, 1⟩⟩, ⟨.S, ⟨1, 1, 1, 1⟩⟩, ⟨.W, ⟨2, 1, 1, 1⟩⟩]⟩),
  ("BOX DRAWINGS UP LIGHT AND LEFT DOWN HEAVY", ⟨'┪', [⟨.N, ⟨1, 1, 1, 1⟩⟩, ⟨.S, ⟨2, 1, 1, 1⟩⟩, ⟨.W, ⟨2, 1, 1, 1⟩⟩]⟩),
  ("BOX DRAWINGS HEAVY VERTICAL AND LEFT", ⟨'┫', [⟨.N, ⟨2, 1, 1, 1⟩⟩, ⟨.S, ⟨2, 1, 1, 1⟩⟩, ⟨.W, ⟨2, 1, 1, 1⟩⟩]⟩),
  ("BOX DRAWINGS LIGHT DOWN AND HORIZONTAL", ⟨'┬', [⟨.E, ⟨1, 1, 1, 1⟩⟩, ⟨.S, ⟨1, 1, 1, 1⟩⟩, ⟨.W, ⟨1, 1, 1, 1⟩⟩]⟩),
  ("BOX DRAWINGS LEFT HEAVY AND RIGHT DOWN LIGHT", ⟨'┭', [⟨.E, ⟨1, 1, 1, 1⟩⟩, ⟨.S, ⟨1, 1, 1, 1⟩⟩, ⟨.W, ⟨2, 1, 1, 1⟩⟩]⟩),
  ("BOX DRAWINGS RIGHT HEAVY AND LEFT DOWN LIGHT", ⟨'┮', [⟨.E, ⟨2, 1, 1, 1⟩⟩, ⟨.S, ⟨1, 1, 1, 1⟩⟩, ⟨.W, ⟨1, 1, 1, 1⟩⟩]⟩),
  ("BOX DRAWINGS DOWN LIGHT AND HORIZONTAL HEAVY", ⟨'┯', [⟨.E, ⟨2, 1, 1, 1⟩⟩, ⟨.S, ⟨1, 1, 1, 1⟩⟩, ⟨.W, ⟨2, 1, 1, 1⟩⟩]⟩),
  ("BOX DRAWINGS DOWN HEAVY AND HORIZONTAL LIGHT", ⟨'┰', [⟨.E, ⟨1, 1, 1, 1⟩⟩, ⟨.S, ⟨2, 1, 1, 1⟩⟩, ⟨.W, ⟨1, 1, 1, 1⟩⟩]⟩),
  ("BOX DRAWINGS RIGHT LIGHT AND LEFT DOWN HEAVY", ⟨'┱', [⟨.E, ⟨1, 1, 1, 1⟩⟩, ⟨.S, ⟨2, 1, 1, 1⟩⟩, ⟨.W, ⟨2, 1, 1, 1⟩⟩]⟩),
  ("BOX DRAWINGS LEFT LIGHT AND RIGHT DOWN HEAVY", ⟨'┲', [⟨.E, ⟨2, 1, 1, 1⟩⟩, ⟨.S, ⟨2, 1, 1, 1⟩⟩, ⟨.W, ⟨1, 1, 1, 1⟩⟩]⟩),
  ("BOX DRAWINGS HEAVY DOWN AND HORIZONTAL", ⟨'┳', [⟨.E, ⟨2, 1, 1, 1⟩⟩, ⟨.S, ⟨2, 1, 1, 1⟩⟩, ⟨.W, ⟨2, 1, 1, 1⟩⟩]⟩),
  ("BOX DRAWINGS LIGHT UP AND HORIZONTAL", ⟨'┴', [⟨.N, ⟨1, 1, 1, 1⟩⟩, ⟨.E, ⟨1, 1, 1, 1⟩⟩, ⟨.W, ⟨1, 1, 1, 1⟩⟩]⟩),
  ("BOX DRAWINGS LEFT HEAVY AND RIGHT UP LIGHT", ⟨'┵', [⟨.N, ⟨1, 1, 1, 1⟩⟩, ⟨.E, ⟨1, 1, 1, 1⟩⟩, ⟨.W, ⟨2, 1, 1, 1⟩⟩]⟩),
  ("BOX DRAWINGS RIGHT HEAVY AND LEFT UP LIGHT", ⟨'┶', [⟨.N, ⟨1, 1, 1, 1⟩⟩, ⟨.E, ⟨2, 1, 1, 1⟩⟩, ⟨.W, ⟨1, 1, 1, 1⟩⟩]⟩),
  ("BOX DRAWINGS UP LIGHT AND HORIZONTAL HEAVY", ⟨'┷', [⟨.N, ⟨1, 1, 1, 1⟩⟩, ⟨.E, ⟨2, 1, 1, 1⟩⟩, ⟨.W, ⟨2, 1, 1, 1⟩⟩]⟩),
  ("BOX DRAWINGS UP HEAVY AND HORIZONTAL LIGHT", ⟨'┸', [⟨.N, ⟨2, 1, 1, 1⟩⟩, ⟨.E, ⟨1, 1, 1, 1⟩⟩, ⟨.W, ⟨1, 1, 1, 1⟩⟩]⟩),
  ("BOX DRAWINGS RIGHT LIGHT AND LEFT UP HEAVY", ⟨'┹', [⟨.N, ⟨2, 1, 1, 1⟩⟩, ⟨.E, ⟨1, 1, 1, 1⟩⟩, ⟨.W, ⟨2, 1, 1, 1⟩⟩]⟩),
  ("BOX DRAWINGS LEFT LIGHT AND RIGHT UP HEAVY", ⟨'┺', [⟨.N, ⟨2, 1, 1, 1⟩⟩, ⟨.E, ⟨2, 1, 1, 1⟩⟩, ⟨.W, ⟨1, 1, 1, 1⟩⟩]⟩),
  ("BOX DRAWINGS HEAVY UP AND HORIZONTAL", ⟨'┻', [⟨.N, ⟨2, 1, 1, 1⟩⟩, ⟨.E, ⟨2, 1, 1, 1⟩⟩, ⟨.W, ⟨2, 1, 1, 1⟩⟩]⟩),
  ("BOX DRAWINGS LIGHT VERTICAL AND HORIZONTAL", ⟨'┼', [⟨.N, ⟨1, 1, 1, 1⟩⟩, ⟨.E, ⟨1, 1, 1, 1⟩⟩, ⟨.S, ⟨1, 1, 1, 1⟩⟩, ⟨.W, ⟨1, 1, 1, 1⟩⟩]⟩),
  ("BOX DRAWINGS LEFT HEAVY AND RIGHT VERTICAL LIGHT", ⟨'┽', [⟨.N, ⟨1, 1, 1, 1⟩⟩, ⟨.E, ⟨1, 1, 1, 1⟩⟩, ⟨.S, ⟨1, 1, 1, 1⟩⟩, ⟨.W, ⟨2, 1, 1, 1⟩⟩]⟩),
  ("BOX DRAWINGS RIGHT HEAVY AND LEFT VERTICAL LIGHT", ⟨'┾', [⟨.N, ⟨1, 1, 1, 1⟩⟩, ⟨.E, ⟨2, 1, 1, 1⟩⟩, ⟨.S, ⟨1, 1, 1, 1⟩⟩, ⟨.W, ⟨1, 1, 1, 1⟩⟩]⟩),
  ("BOX DRAWINGS VERTICAL LIGHT AND HORIZONTAL HEAVY", ⟨'┿', [⟨.N, ⟨1, 1, 1, 1⟩⟩, ⟨.E, ⟨2, 1, 1, 1⟩⟩, ⟨.S, ⟨1, 1, 1, 1⟩⟩, ⟨.W, ⟨2, 1, 1, 1⟩⟩]⟩),
  ("BOX DRAWINGS UP HEAVY AND DOWN HORIZONTAL LIGHT", ⟨'╀', [⟨.N, ⟨2, 1, 1, 1⟩⟩, ⟨.E, ⟨1, 1, 1, 1⟩⟩, ⟨.S, ⟨1, 1, 1, 1⟩⟩, ⟨.W, ⟨1, 1, 1, 1⟩⟩]⟩),
  ("BOX DRAWINGS DOWN HEAVY AND UP HORIZONTAL LIGHT", ⟨'╁', [⟨.N, ⟨1, 1, 1, 1⟩⟩, ⟨.E, ⟨1, 1, 1, 1⟩⟩, ⟨.S, ⟨2, 1, 1, 1⟩⟩, ⟨.W, ⟨1, 1, 1, 1⟩⟩]⟩),
  ("BOX DRAWINGS VERTICAL HEAVY AND HORIZONTAL LIGHT", ⟨'╂', [⟨.N, ⟨2, 1, 1, 1⟩⟩, ⟨.E, ⟨1, 1, 1, 1⟩⟩, ⟨.S, ⟨2, 1, 1, 1⟩⟩, ⟨.W, ⟨1, 1, 1, 1⟩⟩]⟩),
  ("BOX DRAWINGS LEFT UP HEAVY AND RIGHT DOWN LIGHT", ⟨'╃', [⟨.N, ⟨2, 1, 1, 1⟩⟩, ⟨.E, ⟨1, 1, 1, 1⟩⟩, ⟨.S, ⟨1, 1, 1, 1⟩⟩, ⟨.W, ⟨2, 1, 1, 1⟩⟩]⟩),
  ("BOX DRAWINGS RIGHT UP HEAVY AND LEFT DOWN LIGHT", ⟨'╄', [⟨.N, ⟨2, 1, 1, 1⟩⟩, ⟨.E, ⟨2, 1, 1, 1⟩⟩, ⟨.S, ⟨1, 1, 1, 1⟩⟩, ⟨.W, ⟨1, 1, 1, 1⟩⟩]⟩),
  ("BOX DRAWINGS LEFT DOWN HEAVY AND RIGHT UP LIGHT", ⟨'╅', [⟨.N, ⟨1, 1, 1, 1⟩⟩, ⟨.E, ⟨1, 1, 1, 1⟩⟩, ⟨.S, ⟨2, 1, 1, 1⟩⟩, ⟨.W, ⟨2, 1, 1, 1⟩⟩]⟩),
  ("BOX DRAWINGS RIGHT DOWN HEAVY AND LEFT UP LIGHT", ⟨'╆', [⟨.N, ⟨1, 1, 1, 1⟩⟩, ⟨.E, ⟨2, 1, 1, 1⟩⟩, ⟨.S, ⟨2, 1, 1, 1⟩⟩, ⟨.W, ⟨1, 1, 1, 1⟩⟩]⟩),
  ("BOX DRAWINGS DOWN LIGHT AND UP HORIZONTAL HEAVY", ⟨'╇', [⟨.N, ⟨2, 1, 1, 1⟩⟩, ⟨.E, ⟨2, 1, 1, 1⟩⟩, ⟨.S, ⟨1, 1, 1, 1⟩⟩, ⟨.W, ⟨2, 1, 1, 1⟩⟩]⟩),
  ("BOX DRAWINGS UP LIGHT AND DOWN HORIZONTAL HEAVY", ⟨'╈', [⟨.N, ⟨1, 1, 1, 1⟩⟩, ⟨.E, ⟨2, 1, 1, 1⟩⟩, ⟨.S, ⟨2, 1, 1, 1⟩⟩, ⟨.W, ⟨2, 1, 1, 1⟩⟩]⟩),
  ("BOX DRAWINGS RIGHT LIGHT AND LEFT VERTICAL HEAVY", ⟨'╉', [⟨.N, ⟨2, 1, 1, 1⟩⟩, ⟨.E, ⟨1, 1, 1, 1⟩⟩, ⟨.S, ⟨2, 1, 1, 1⟩⟩, ⟨.W, ⟨2, 1, 1, 1⟩⟩]⟩),
  ("BOX DRAWINGS LEFT LIGHT AND RIGHT VERTICAL HEAVY", ⟨'╊', [⟨.N, ⟨2, 1, 1, 1⟩⟩, ⟨.E, ⟨2, 1, 1, 1⟩⟩, ⟨.S, ⟨2, 1, 1, 1⟩⟩, ⟨.W, ⟨1, 1, 1, 1⟩⟩]⟩),
  ("BOX DRAWINGS HEAVY VERTICAL AND HORIZONTAL", ⟨'╋', [⟨.N, ⟨2, 1, 1, 1⟩⟩, ⟨.E, ⟨2, 1, 1, 1⟩⟩, ⟨.S, ⟨2, 1, 1, 1⟩⟩, ⟨.W, ⟨2, 1, 1, 1⟩⟩]⟩),
  ("BOX DRAWINGS LIGHT DOUBLE DASH HORIZONTAL", ⟨'╌', [⟨.E, ⟨1, 1, 2, 1⟩⟩, ⟨.W, ⟨1, 1, 2, 1⟩⟩]⟩),
  ("BOX DRAWINGS HEAVY DOUBLE DASH HORIZONTAL", ⟨'╍', [⟨.E, ⟨2, 1, 2, 1⟩⟩, ⟨.W, ⟨2, 1, 2, 1⟩⟩]⟩),
  ("BOX DRAWINGS LIGHT DOUBLE DASH VERTICAL", ⟨'╎', [⟨.N, ⟨1, 1, 2, 1⟩⟩, ⟨.S, ⟨1, 1, 2, 1⟩⟩]⟩),
  ("BOX DRAWINGS HEAVY DOUBLE DASH VERTICAL", ⟨'╏', [⟨.N, ⟨2, 1, 2, 1⟩⟩, ⟨.S, ⟨2, 1, 2, 1⟩⟩]⟩),
  ("BOX DRAWINGS DOUBLE HORIZONTAL", ⟨'═', [⟨.E, ⟨1, 2, 1, 1⟩⟩, ⟨.W, ⟨1, 2, 1, 1⟩⟩]⟩),
  ("BOX DRAWINGS DOUBLE VERTICAL", ⟨'║', [⟨.N, ⟨1, 2, 1, 1⟩⟩, ⟨.S, ⟨1, 2, 1, 1⟩⟩]⟩),
  ("BOX DRAWINGS DOWN SINGLE AND RIGHT DOUBLE", ⟨'╒', [⟨.E, ⟨1, 2, 1, 1⟩⟩, ⟨.S, ⟨1, 1, 1, 1⟩⟩]⟩),
  ("BOX DRAWINGS DOWN DOUBLE AND RIGHT SINGLE", ⟨'╓', [⟨.E, ⟨1, 1, 1, 1⟩⟩, ⟨.S, ⟨1, 2, 1, 1⟩⟩]⟩),
  ("BOX DRAWINGS DOUBLE DOWN AND RIGHT", ⟨'╔', [⟨.E, ⟨1, 2, 1, 1⟩⟩, ⟨.S, ⟨1, 2, 1, 1⟩⟩]⟩),
  ("BOX DRAWINGS DOWN SINGLE AND LEFT DOUBLE", ⟨'╕', [⟨.S, ⟨1, 1, 1, 1⟩⟩, ⟨.W, ⟨1, 2, 1, 1⟩⟩]⟩),
  ("BOX DRAWINGS DOWN DOUBLE AND LEFT SINGLE", ⟨'╖', [⟨.S, ⟨1, 2, 1, 1⟩⟩, ⟨.W, ⟨1, 1, 1, 1⟩⟩]⟩),
  ("BOX DRAWINGS DOUBLE DOWN AND LEFT", ⟨'╗', [⟨.S, ⟨1, 2, 1, 1⟩⟩, ⟨.W, ⟨1, 2, 1, 1⟩⟩]⟩),
  ("BOX DRAWINGS UP SINGLE AND RIGHT DOUBLE", ⟨'╘', [⟨.N, ⟨1, 1, 1, 1⟩⟩, ⟨.E, ⟨1, 2, 1, 1⟩⟩]⟩),
  ("BOX DRAWINGS UP DOUBLE AND RIGHT SINGLE", ⟨'╙', [⟨.N, ⟨1, 2, 1, 1⟩⟩, ⟨.E, ⟨1, 1, 1, 1⟩⟩]⟩),
  ("BOX DRAWINGS DOUBLE UP AND RIGHT", ⟨'╚', [⟨.N, ⟨1, 2, 1, 1⟩⟩, ⟨.E, ⟨1, 2, 1, 1⟩⟩]⟩),
  ("BOX DRAWINGS UP SINGLE AND LEFT DOUBLE", ⟨'╛', [⟨.N, ⟨1, 1, 1, 1⟩⟩, ⟨.W, ⟨1, 2, 1, 1⟩⟩]⟩),
  ("BOX DRAWINGS UP DOUBLE AND LEFT SINGLE", ⟨'╜', [⟨.N, ⟨1, 2, 1, 1⟩⟩, ⟨.W, ⟨1, 1, 1, 1⟩⟩]⟩),
  ("BOX DRAWINGS DOUBLE UP AND LEFT", ⟨'╝', [⟨.N, ⟨1, 2, 1, 1⟩⟩, ⟨.W, ⟨1, 2, 1, 1⟩⟩]⟩),
  ("BOX DRAWINGS VERTICAL SINGLE AND RIGHT DOUBLE", ⟨'╞', [⟨.N, ⟨1, 1, 1, 1⟩⟩, ⟨.E, ⟨1, 2, 1, 1⟩⟩, ⟨.S, ⟨1, 1, 1, 1⟩⟩]⟩),
  ("BOX DRAWINGS VERTICAL DOUBLE AND RIGHT SINGLE", ⟨'╟', [⟨.N, ⟨1, 2, 1, 1⟩⟩, ⟨.E, ⟨1, 1, 1, 1⟩⟩, ⟨.S, ⟨1, 2, 1, 1⟩⟩]⟩),
  ("BOX DRAWINGS DOUBLE VERTICAL AND RIGHT", ⟨'╠', [⟨.N, ⟨1, 2, 1, 1⟩⟩, ⟨.E, ⟨1, 2, 1, 1⟩⟩, ⟨.S, ⟨1, 2, 1, 1⟩⟩]⟩),
  ("BOX DRAWINGS VERTICAL SINGLE AND LEFT DOUBLE", ⟨'╡', [⟨.N, ⟨1, 1, 1, 1⟩⟩, ⟨.S, ⟨1, 1, 1, 1⟩⟩, ⟨.W, ⟨1, 2, 1, 1⟩⟩]⟩),
  ("BOX DRAWINGS VERTICAL DOUBLE AND LEFT SINGLE", ⟨'╢', [⟨.N, ⟨1, 2, 1, 1⟩⟩, ⟨.S, ⟨1, 2, 1, 1⟩⟩, ⟨.W, ⟨1, 1, 1, 1⟩⟩]⟩),
  ("BOX DRAWINGS DOUBLE VERTICAL AND LEFT", ⟨'╣', [⟨.N, ⟨1, 2, 1, 1⟩⟩, ⟨.S, ⟨1, 2, 1, 1⟩⟩, ⟨.W, ⟨1, 2, 1, 1⟩⟩]⟩),
  ("BOX DRAWINGS DOWN SINGLE AND HORIZONTAL DOUBLE", ⟨'╤', [⟨.E, ⟨1, 2, 1, 1⟩⟩, ⟨.S, ⟨1, 1, 1, 1⟩⟩, ⟨.W, ⟨1, 2, 1, 1⟩⟩]⟩),
  ("BOX DRAWINGS DOWN DOUBLE AND HORIZONTAL SINGLE", ⟨'╥', [⟨.E, ⟨1, 1, 1, 1⟩⟩, ⟨.S, ⟨1, 2, 1, 1⟩⟩, ⟨.W, ⟨1, 1, 1, 1⟩⟩]⟩),
  ("BOX DRAWINGS DOUBLE DOWN AND HORIZONTAL", ⟨'╦', [⟨.E, ⟨1, 2, 1, 1⟩⟩, ⟨.S, ⟨1, 2, 1, 1⟩⟩, ⟨.W, ⟨1, 2, 1, 1⟩⟩]⟩),
  ("BOX DRAWINGS UP SINGLE AND HORIZONTAL DOUBLE", ⟨'╧', [⟨.N, ⟨1, 1, 1, 1⟩⟩, ⟨.E, ⟨1, 2, 1, 1⟩⟩, ⟨.W, ⟨1, 2, 1, 1⟩⟩]⟩),
  ("BOX DRAWINGS UP DOUBLE AND HORIZONTAL SINGLE", ⟨'╨', [⟨.N, ⟨1, 2, 1, 1⟩⟩, ⟨.E, ⟨1, 1, 1, 1⟩⟩, ⟨.W, ⟨1, 1, 1, 1⟩⟩]⟩),
  ("BOX DRAWINGS DOUBLE UP AND HORIZONTAL", ⟨'╩', [⟨.N, ⟨1, 2, 1, 1⟩⟩, ⟨.E, ⟨1, 2, 1, 1⟩⟩, ⟨.W, ⟨1, 2, 1, 1⟩⟩]⟩),
  ("BOX DRAWINGS VERTICAL SINGLE AND HORIZONTAL DOUBLE", ⟨'╪', [⟨.N, ⟨1, 1, 1, 1⟩⟩, ⟨.E, ⟨1, 2, 1, 1⟩⟩, ⟨.S, ⟨1, 1, 1, 1⟩⟩, ⟨.W, ⟨1, 2, 1, 1⟩⟩]⟩),
  ("BOX DRAWINGS VERTICAL DOUBLE AND HORIZONTAL SINGLE", ⟨'╫', [⟨.N, ⟨1, 2, 1, 1⟩⟩, ⟨.E, ⟨1, 1, 1, 1⟩⟩, ⟨.S, ⟨1, 2, 1, 1⟩⟩, ⟨.W, ⟨1, 1, 1, 1⟩⟩]⟩),
  ("BOX DRAWINGS DOUBLE VERTICAL AND HORIZONTAL", ⟨'╬', [⟨.N, ⟨1, 2, 1, 1⟩⟩, ⟨.E, ⟨1, 2, 1, 1⟩⟩, ⟨.S, ⟨1, 2, 1, 1⟩⟩, ⟨.W, ⟨1, 2, 1, 1⟩⟩]⟩),
  ("BOX DRAWINGS LIGHT ARC DOWN AND RIGHT", ⟨'╭', [⟨.E, ⟨1, 1, 1, 2⟩⟩, ⟨.S, ⟨1, 1, 1, 2⟩⟩]⟩),
  ("BOX DRAWINGS LIGHT ARC DOWN AND LEFT", ⟨'╮', [⟨.S, ⟨1, 1, 1, 2⟩⟩, ⟨.W, ⟨1, 1, 1, 2⟩⟩]⟩),
  ("BOX DRAWINGS LIGHT ARC UP AND LEFT", ⟨'╯', [⟨.N, ⟨1, 1, 1, 2⟩⟩, ⟨.W, ⟨1, 1, 1, 2⟩⟩]⟩),
  ("BOX DRAWINGS LIGHT ARC UP AND RIGHT", ⟨'╰', [⟨.N, ⟨1, 1, 1, 2⟩⟩, ⟨.E, ⟨1, 1, 1, 2⟩⟩]⟩),
  ("BOX DRAWINGS LIGHT DIAGONAL UPPER RIGHT TO LOWER LEFT", ⟨'╱', [⟨.NE, ⟨1, 1, 1, 1⟩⟩, ⟨.SW, ⟨1, 1, 1, 1⟩⟩]⟩),
  ("BOX DRAWINGS LIGHT DIAGONAL UPPER LEFT TO LOWER RIGHT", ⟨'╲', [⟨.SE, ⟨1, 1, 1, 1⟩⟩, ⟨.NW, ⟨1, 1, 1, 1⟩⟩]⟩),
  ("BOX DRAWINGS LIGHT DIAGONAL CROSS", ⟨'╳', [⟨.NE, ⟨1, 1, 1, 1⟩⟩, ⟨.SE, ⟨1, 1, 1, 1⟩⟩, ⟨.SW, ⟨1, 1, 1, 1⟩⟩, ⟨.NW, ⟨1, 1, 1, 1⟩⟩]⟩),
  ("BOX DRAWINGS LIGHT LEFT", ⟨'╴', [⟨.W, ⟨1, 1, 1, 1⟩⟩]⟩),
  ("BOX DRAWINGS LIGHT UP", ⟨'╵', [⟨.N, ⟨1, 1, 1, 1⟩⟩]⟩),
  ("BOX DRAWINGS LIGHT RIGHT", ⟨'╶', [⟨.E, ⟨1, 1, 1, 1⟩⟩]⟩),
  ("BOX DRAWINGS LIGHT DOWN", ⟨'╷', [⟨.S, ⟨1, 1, 1, 1⟩⟩]⟩),
  ("BOX DRAWINGS HEAVY LEFT", ⟨'╸', [⟨.W, ⟨2, 1, 1, 1⟩⟩]⟩),
  ("BOX DRAWINGS HEAVY UP", ⟨'╹', [⟨.N, ⟨2, 1, 1, 1⟩⟩]⟩),
  ("BOX DRAWINGS HEAVY RIGHT", ⟨'╺', [⟨.E, ⟨2, 1, 1, 1⟩⟩]⟩),
  ("BOX DRAWINGS HEAVY DOWN", ⟨'╻', [⟨.S, ⟨2, 1, 1, 1⟩⟩]⟩),
  ("BOX DRAWINGS LIGHT LEFT AND HEAVY RIGHT", ⟨'╼', [⟨.E, ⟨2, 1, 1, 1⟩⟩, ⟨.W, ⟨1, 1, 1, 1⟩⟩]⟩),
  ("BOX DRAWINGS LIGHT UP AND HEAVY DOWN", ⟨'╽', [⟨.N, ⟨1, 1, 1, 1⟩⟩, ⟨.S, ⟨2, 1, 1, 1⟩⟩]⟩),
  ("BOX DRAWINGS HEAVY LEFT AND LIGHT RIGHT", ⟨'╾', [⟨.E, ⟨1, 1, 1, 1⟩⟩, ⟨.W, ⟨2, 1, 1, 1⟩⟩]⟩),
  ("BOX DRAWINGS HEAVY UP AND LIGHT DOWN", ⟨'╿', [⟨.N, ⟨2, 1, 1, 1⟩⟩, ⟨.S, ⟨1, 1, 1, 1⟩⟩]⟩)]

/-- The characters of the table, in order. -/
def table : List BoxChar := named.map Prod.snd

end Box
end Pawpaw
