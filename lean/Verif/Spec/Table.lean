import Verif.Spec.Regex
import Verif.Model.Table
/-!
# What a table of a style is
-/
namespace TableSpec
open Pawpaw.Regex Pawpaw.Table RegexSpec

/-- A pattern made of characters, sequence, alternation and repetition only. -/
def Plain : Re → Prop
  | .eps | .chr _ => True
  | .seq a b | .alt a b => Plain a ∧ Plain b
  | .star _ a => Plain a
  | _ => False

/-- All patterns of a style are such. -/
structure PlainStyle (S : Style) : Prop where
  pre : ∀ p, S.preCaption = some p → Plain p
  start : Plain S.tableStart
  header : ∀ p, S.headerRowEnd = some p → Plain p
  sep : Plain S.rowSep
  stop : ∀ p, S.tableEnd = some p → Plain p
  post : ∀ p, S.postCaption = some p → Plain p

/-- A line break, and the indentation of the next line. -/
def nl (ind : List Char) : List Char := '\n' :: ind

/-- What a table consists of: a caption, the line it starts with, a header row with the line under it, rows with the
line under each, a caption. -/
structure Parts where
  pre : Option (List Char)
  start : List Char
  header : Option (List Char × List Char)
  rows : List (List Char × List Char)
  post : Option (List Char)

/-- A text in pieces; some of them have a name. -/
abbrev Pieces := List (Option String × List Char)

/-- The whole text. -/
def textOf (ps : Pieces) : List Char := ps.flatMap (·.2)

/-- The named pieces, with their spans, when the text starts at `i`. -/
def marks : Nat → Pieces → List (String × Nat × Nat)
  | _, [] => []
  | i, (none, u) :: ps => marks (i + u.length) ps
  | i, (some d, u) :: ps => (d, i, i + u.length) :: marks (i + u.length) ps

/-- A row, on lines of its own, and the line under it. -/
def cellPieces (ind : List Char) (name : String) (r : List Char × List Char) : Pieces :=
  [(none, nl ind), (some name, r.1), (none, nl ind ++ r.2)]

/-- All pieces of a table. -/
def Parts.pieces (P : Parts) (ind : List Char) : Pieces :=
  (match P.pre with
    | none => []
    | some u => [(some "pre_caption", u), (none, nl ind)]) ++
  [(none, P.start)] ++
  (match P.header with
    | none => []
    | some h => cellPieces ind "header_row" h) ++
  P.rows.flatMap (cellPieces ind "row") ++
  (match P.post with
    | none => []
    | some u => [(none, nl ind), (some "post_caption", u)])

/-- The lines under the rows: each is a row separator, but the last is the end of the table if the style has one. -/
def SepsFit (S : Style) (rows : List (List Char × List Char)) : Prop :=
  match S.tableEnd with
  | none => rows ≠ [] ∧ ∀ r ∈ rows, Lang S.rowSep r.2
  | some e => ∃ rs r s, rows = rs ++ [(r, s)] ∧ (∀ r ∈ rs, Lang S.rowSep r.2) ∧ Lang e s

/-- The parts are as the style says. -/
structure Fits (S : Style) (P : Parts) : Prop where
  pre : ∀ u, P.pre = some u → ∃ p, S.preCaption = some p ∧ Lang p u
  start : Lang S.tableStart P.start
  header : ∀ h s, P.header = some (h, s) → h ≠ [] ∧ ∃ p, S.headerRowEnd = some p ∧ Lang p s
  rows : ∀ r ∈ P.rows, r.1 ≠ []
  seps : SepsFit S P.rows
  post : match S.postCaption with
    | none => P.post = none
    | some p => ∃ u, P.post = some u ∧ Lang p u

/-- The text ends here, or a line does. -/
def AtLineEnd (rest : List Char) : Prop := rest = [] ∨ ∃ w, rest = '\n' :: w

/-- The text starts here, or a line does. -/
def AtLineStart (before : List Char) : Prop := before = [] ∨ ∃ w, before = w ++ ['\n']

/-- A whole line of `r` which is neither at the start nor at the end is a row separator. -/
def HoldsSep (sep : Re) (ind : List Char) (r : List Char) : Prop :=
  ∃ a s b, a ≠ [] ∧ b ≠ [] ∧ Lang sep s ∧ r = a ++ nl ind ++ s ++ nl ind ++ b

/-- A line with an indentation: then a character which is no blank, and at least one more.  (The first may be a line break.) -/
def IsLine (ind l : List Char) : Prop := ∃ c w, c ≠ ' ' ∧ c ≠ '\t' ∧ w ≠ [] ∧ '\n' ∉ w ∧ l = ind ++ c :: w

/-- Lines, each with a line break at its end. -/
def joined (ls : List (List Char)) : List Char := ls.flatMap (· ++ ['\n'])

/-- `u` is made of at least two lines with the same indentation, and ends with a line break or where the text ends. -/
def Block (ind : List Char) (ls : List (List Char)) (u after : List Char) : Prop :=
  (∀ c ∈ ind, c = ' ' ∨ c = '\t') ∧ 2 ≤ ls.length ∧ (∀ l ∈ ls, IsLine ind l) ∧
    (u = joined ls ∨ (u ++ ['\n'] = joined ls ∧ (after = [] ∨ after = ['\n'])))

/-- Every line of the text has a character which is no blank. -/
def NoBlankLine (text : List Char) : Prop :=
  ∀ a b c, text = a ++ b ++ '\n' :: c → AtLineStart a → ∃ d ∈ b, d ≠ ' ' ∧ d ≠ '\t'

end TableSpec
