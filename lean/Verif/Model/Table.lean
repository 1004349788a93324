import Verif.Model.NlpRe
import Verif.Model.XmlTag
/-!
# Model of `pawpaw.table`

The patterns of a style are expressions here; the code puts their texts next to each other, so that a pattern with a
`|` of its own outside of parentheses would mean something else there.
-/
namespace Pawpaw
namespace Table
open Regex NlpRe Xml

/-- `TableStyle`, `/repo/pawpaw/table/table.py:19-27`. -/
structure Style where
  preCaption : Option Re := none
  tableStart : Re
  headerRowEnd : Option Re := none
  rowSep : Re
  tableEnd : Option Re := none
  postCaption : Option Re := none
  equi : Bool := true

/-- `\n` and the indentation, `/repo/pawpaw/table/table.py:39-43` -/
def br (ind : List Char) : Re := .seq (.chr (· == '\n')) (lit ind)

/-- `.+?` with the flag DOTALL -/
def some1 : Re := .seq (.chr fun _ => true) (.star false (.chr fun _ => true))

/-- `\n{pat_indent}(?<row>.+?)\n{pat_indent}` and what ends it, `/repo/pawpaw/table/table.py:55-59` -/
def cell (ind : List Char) (name : String) (stop : Re) : Re := .seq (br ind) (.seq (.grp name some1) (.seq (br ind) stop))

/-- `/repo/pawpaw/table/table.py:47-48` -/
def preRe (S : Style) (ind : List Char) : Re :=
  match S.preCaption with
  | none => .eps
  | some p => opt (.seq (.grp "pre_caption" p) (br ind))

/-- `/repo/pawpaw/table/table.py:52-53` -/
def headerRe (S : Style) (ind : List Char) : Re :=
  match S.headerRowEnd with
  | none => .eps
  | some p => opt (cell ind "header_row" p)

/-- `/repo/pawpaw/table/table.py:55-59` -/
def rowsRe (S : Style) (ind : List Char) : Re :=
  match S.tableEnd with
  | none => plus (cell ind "row" S.rowSep)
  | some e => .seq (many (cell ind "row" S.rowSep)) (cell ind "row" e)

/-- `(?=$|\n)` -/
def lineEnd : Re := ahead (.alt .eos (.chr (· == '\n')))

/-- `/repo/pawpaw/table/table.py:61-62` -/
def postRe (S : Style) (ind : List Char) : Re :=
  match S.postCaption with
  | none => .eps
  | some p => .seq (br ind) (.seq (.grp "post_caption" p) (ahead (.alt (.chr (· == '\n')) .eos)))

/-- From `(?<table>` on, `/repo/pawpaw/table/table.py:45-64`. -/
def bodyRe (S : Style) (ind : List Char) : Re :=
  .seq (.grp "table" (.seq (preRe S ind) (.seq S.tableStart (.seq (headerRe S ind) (.seq (rowsRe S ind) (postRe S ind)))))) lineEnd

/-- `[ \t]*` -/
def blank : Re := many (.chr fun c => c == ' ' || c == '\t')

/-- `(?<=^|\n)` -/
def lineStart (text : List Char) (lo : Nat) : Re := behind text lo (.alt .bos (.chr (· == '\n')))

/-- `StyledTable._build_re`, `/repo/pawpaw/table/table.py:35-66`.  With `equi_distant_indent` the lookbehind is lost
(line 40 assigns where it should append). -/
def buildRe (S : Style) (text : List Char) (lo : Nat) : Re :=
  if S.equi then .dep (.grp "indent" blank) (bodyRe S) else .seq (lineStart text lo) (bodyRe S [])

/-- `[^ \t][^\n]+?` -/
def chunkLine : Re :=
  .seq (.chr fun c => !(c == ' ' || c == '\t')) (.seq (.chr (· != '\n')) (.star false (.chr (· != '\n'))))

/-- `StyledTable._re_equi_ident`, `/repo/pawpaw/table/table.py:31-33`. -/
def chunkRe (text : List Char) (lo : Nat) : Re :=
  .seq (lineStart text lo) (.grp "chunk" (.dep (.grp "indent" blank) fun ind =>
    .seq chunkLine (.seq (.chr (· == '\n')) (plus (.seq (lit ind) (.seq chunkLine (.alt (.chr (· == '\n')) .eos)))))))

/-- The selected groups, in the order of the pattern, `/repo/pawpaw/table/table.py:78`. -/
def keys : List String := ["table", "pre_caption", "header_row", "row", "post_caption"]

/-- `Extract(self._re, …)` applied to an Ito, `/repo/pawpaw/table/table.py:78`.  `seen` says how far a lookbehind sees in
a search that starts at a position. -/
def tables (S : Style) (seen : Nat → Nat) (x : FIto Char) : Except PyErr (List Node) :=
  extractRe (buildRe S (x.string.take x.stop.toNat) (seen x.start.toNat)) keys x

/-- `Extract(self._re_equi_ident, …)` applied to an Ito, `/repo/pawpaw/table/table.py:82`. -/
def chunks (seen : Nat → Nat) (x : FIto Char) : Except PyErr (List Node) :=
  extractRe (chunkRe (x.string.take x.stop.toNat) (seen x.start.toNat)) ["chunk"] x

/-- Each chunk is handed on (`Connectors.Delegate`, `/repo/pawpaw/arborform/itorator/itorator.py:137-138`). -/
def delegate (f : FIto Char → Except PyErr (List Node)) (s : List Char) : List Node → Except PyErr (List Node)
  | [] => .ok []
  | c :: cs =>
    match f ⟨s, c.span, c.desc⟩, delegate f s cs with
    | .ok a, .ok b => .ok (a ++ b)
    | .error e, _ => .error e
    | _, .error e => .error e

/-- `StyledTable(style).get_itor()` applied to an Ito, `/repo/pawpaw/table/table.py:77-85`. -/
def getItor (S : Style) (seen : Nat → Nat) (x : FIto Char) : Except PyErr (List Node) :=
  if S.equi then
    match chunks seen x with
    | .error e => .error e
    | .ok cs => delegate (tables S seen) x.string cs
  else tables S seen x

/-- `-{2,}` -/
def dashes : Re := atLeast 2 (.chr (· == '-'))
/-- `-{2,}(?:\+-+)+` -/
def ruler : Re := .seq dashes (plus (.seq (.chr (· == '+')) (plus (.chr (· == '-')))))
/-- `TYPE_1`, `/repo/pawpaw/table/styles/styles.py:27-32`. -/
def type1 : Style := { tableStart := ruler, rowSep := ruler, equi := false }
/-- `TYPE_2`, `/repo/pawpaw/table/styles/styles.py:46-52`. -/
def type2 : Style :=
  { tableStart := dashes, rowSep := .seq (.chr (· == '|')) (plus (.seq (plus (.chr (· == '-'))) (.chr (· == '|')))),
    tableEnd := some dashes }

end Table
end Pawpaw
