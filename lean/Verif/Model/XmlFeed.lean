import Verif.Model.Xml
/-!
# Model of feeding an `XmlParser`: `feed`, `close`, `ElementTree.fromstring`, `ElementTree.parse`

expat is an input: for each piece of text fed, the starts (`true`) and ends (`false`) of elements it reports while it has been
fed that piece, with line, column and byte index counted from the beginning of the document.
-/
namespace Pawpaw
namespace Xml

/-- A piece of text fed, and what expat reports on it. -/
structure Piece where
  text : List Char
  reports : List (Bool × Report)

section
variable {β : Type} [DecidableEq β] (enc : Char → List β) (dec : List β → Option (List Char))

/-- What `_start` and `_end` store in `_spans.char` while pieces are fed, `/repo/pawpaw/xml/xml_parser.py:84-106`: `feed` makes a new
`_InternalIndexingParser` of the piece. -/
def feeds : List Piece → Except PyErr (List (Bool × Int))
  | [] => .ok []
  | p :: ps =>
    match charOffsets enc dec p.text {} (p.reports.map Prod.snd) with
    | .error e => .error e
    | .ok vs =>
      match feeds ps with
      | .error e => .error e
      | .ok rest => .ok ((p.reports.map Prod.fst).zip vs ++ rest)

/-- `ElementTree.TreeBuilder`: the root element, from starts and ends in order; on the left the open elements, innermost first, each
with its children so far, last first. -/
def build : List (Int × List Elem) → List (Bool × Int) → Option Elem
  | st, (true, a) :: es => build ((a, []) :: st) es
  | [(a, ks)], (false, b) :: _ => some (.mk a b ks.reverse)
  | (a, ks) :: (a', ks') :: st, (false, b) :: es => build ((a', .mk a b ks.reverse :: ks') :: st) es
  | [], (false, _) :: _ => none
  | _, [] => none

/-- `feed` of each piece, then `close`, `/repo/pawpaw/xml/xml_parser.py:103-106`, `187-190`: the Ito of the root element, over the piece
fed last (`self._text`); `none` if expat reported no complete element (it raises a `ParseError` then). -/
def parsed (ws : Char → Bool) (ign : Bool) (ps : List Piece) : Except PyErr (Option (List Char × Node)) :=
  match feeds enc dec ps with
  | .error e => .error e
  | .ok evs =>
    match build [] evs, ps.getLast? with
    | some e, some p =>
      match extract ws ign p.text e with
      | .error e => .error e
      | .ok n => .ok (some (p.text, n))
    | _, _ => .ok none
end

/-- What `source.read(n)` returns, call by call, until it returns nothing (`ElementTree.parse` reads 65536 characters at a time; the
source is open as text). `fuel` bounds the calls by the length of the text. -/
def reads (n : Nat) : Nat → List Char → List (List Char)
  | _, [] => []
  | 0, _ => []
  | fuel + 1, t => t.take n :: reads n fuel (t.drop n)

/-- The pieces `ElementTree.parse(source, parser)` feeds; `groups` is what expat reports on each. -/
def filePieces (n : Nat) (t : List Char) (groups : List (List (Bool × Report))) : List Piece :=
  ((reads n t.length t).zip groups).map fun x => ⟨x.1, x.2⟩

end Xml
end Pawpaw
