MUTANTS=[
("Table.lean","def br (ind : List Char) : Re := .seq (.chr (· == '\\n')) (lit ind)","def br (ind : List Char) : Re := .chr (· == '\\n')","C97 lines after the first have the indentation"),
("Table.lean","def some1 : Re := .seq (.chr fun _ => true) (.star false (.chr fun _ => true))","def some1 : Re := .star false (.chr fun _ => true)","C96 a row is not empty"),
("Table.lean","def some1 : Re := .seq (.chr fun _ => true) (.star false (.chr fun _ => true))","def some1 : Re := .seq (.chr fun _ => true) (.star true (.chr fun _ => true))","C96 no separator line within a row"),
("Table.lean","def some1 : Re := .seq (.chr fun _ => true) (.star false (.chr fun _ => true))","def some1 : Re := .seq (.chr (· != '\\n')) (.star false (.chr (· != '\\n')))","C96 completeness: rows of several lines"),
("Table.lean","  | some p => opt (.seq (.grp \"pre_caption\" p) (br ind))","  | some p => .seq (.grp \"pre_caption\" p) (br ind)","C96 completeness: no caption needed"),
("Table.lean","  | some p => opt (.seq (.grp \"pre_caption\" p) (br ind))","  | some p => opt (.seq p (br ind))","C96 a child for the caption"),
("Table.lean","  | some p => opt (cell ind \"header_row\" p)","  | some p => opt (cell ind \"row\" p)","C96 a child header_row"),
("Table.lean","  | some p => opt (cell ind \"header_row\" p)","  | some p => .alt .eps (cell ind \"header_row\" p)","C96 the header row is recognised"),
("Table.lean","  | none => plus (cell ind \"row\" S.rowSep)","  | none => many (cell ind \"row\" S.rowSep)","C96 at least one row"),
("Table.lean","  | some e => .seq (many (cell ind \"row\" S.rowSep)) (cell ind \"row\" e)","  | some e => .seq (plus (cell ind \"row\" S.rowSep)) (cell ind \"row\" e)","C96 completeness: a table with one row"),
("Table.lean","  | some e => .seq (many (cell ind \"row\" S.rowSep)) (cell ind \"row\" e)","  | some e => .seq (many (cell ind \"row\" e)) (cell ind \"row\" S.rowSep)","C96 the end of the table ends it"),
("Table.lean","def lineEnd : Re := ahead (.alt .eos (.chr (· == '\\n')))","def lineEnd : Re := .eps","C96 a table ends at a line end"),
("Table.lean","def lineEnd : Re := ahead (.alt .eos (.chr (· == '\\n')))","def lineEnd : Re := .alt .eos (.chr (· == '\\n'))","C96 the table ends before the line break"),
("Table.lean","def lineEnd : Re := ahead (.alt .eos (.chr (· == '\\n')))","def lineEnd : Re := ahead .eos","C96 completeness: text after a table"),
("Table.lean","(.seq (br ind) (.seq (.grp \"post_caption\" p)","(.seq (.grp \"post_caption\" (br ind)) (.seq p","C96 the place of the caption"),
("Table.lean",".seq (.grp \"table\" (.seq (preRe S ind) (.seq S.tableStart",".seq (preRe S ind) (.grp \"table\" (.seq S.tableStart","C96 the caption is part of the table"),
("Table.lean","(.seq S.tableStart (.seq (headerRe S ind)","(.seq (opt S.tableStart) (.seq (headerRe S ind)","C96 the first line of a table"),
("Table.lean","def lineStart (text : List Char) (lo : Nat) : Re := behind text lo (.alt .bos (.chr (· == '\\n')))","def lineStart (text : List Char) (lo : Nat) : Re := .eps","C96 a table starts at a line"),
("Table.lean","def lineStart (text : List Char) (lo : Nat) : Re := behind text lo (.alt .bos (.chr (· == '\\n')))","def lineStart (text : List Char) (lo : Nat) : Re := behind text lo (.chr (· == '\\n'))","C96 completeness: a table at the start of the text"),
("Table.lean",".seq (lineStart text lo) (bodyRe S [])",".seq (lineStart text lo) (.dep (.grp \"indent\" blank) (bodyRe S))","C96 no indentation"),
("Table.lean","def blank : Re := many (.chr fun c => c == ' ' || c == '\\t')","def blank : Re := many (.chr fun c => c == ' ')","C97 tabs are indentation"),
("Table.lean","def blank : Re := many (.chr fun c => c == ' ' || c == '\\t')","def blank : Re := many (.chr fun c => c == ' ' || c == '\\t' || c == '\\n')","C97 indentation is on one line"),
("Table.lean","  .seq (.chr fun c => !(c == ' ' || c == '\\t')) (.seq (.chr (· != '\\n')) (.star false (.chr (· != '\\n'))))","  .seq (.chr (· != '\\n')) (.star false (.chr (· != '\\n')))","C97 lines with the same indentation"),
("Table.lean","(.seq (.chr (· == '\\n')) (plus (.seq (lit ind)","(.seq (.chr (· == '\\n')) (many (.seq (lit ind)","C97 at least two lines"),
("Table.lean","(plus (.seq (lit ind) (.seq chunkLine (.alt (.chr (· == '\\n')) .eos))))","(plus (.seq (lit ind) (.seq chunkLine (.chr (· == '\\n')))))","C97 completeness: last line without a line break"),
("Table.lean","(plus (.seq (lit ind) (.seq chunkLine (.alt (.chr (· == '\\n')) .eos))))","(plus (.seq chunkLine (.alt (.chr (· == '\\n')) .eos)))","C97 lines with the same indentation"),
("Table.lean","def keys : List String := [\"table\", \"pre_caption\", \"header_row\", \"row\", \"post_caption\"]","def keys : List String := [\"table\", \"indent\", \"pre_caption\", \"header_row\", \"row\", \"post_caption\"]","C96 no other children"),
("Table.lean","def keys : List String := [\"table\", \"pre_caption\", \"header_row\", \"row\", \"post_caption\"]","def keys : List String := [\"table\", \"header_row\", \"row\", \"post_caption\"]","C96 a child for each part"),
("Table.lean","    | .ok a, .ok b => .ok (a ++ b)","    | .ok a, .ok b => .ok (b ++ a)","C97 tables in order"),
("Table.lean","extractRe (chunkRe (x.string.take x.stop.toNat) (seen x.start.toNat)) [\"chunk\"] x","extractRe (chunkRe (x.string.take x.stop.toNat) (seen x.start.toNat)) [\"chunk\", \"indent\"] x","C97 one Ito per block"),
]
