MUTANTS=[
("ItoRegex.lean","((out r ⟨i, rest, []⟩).find? fun st => decide (st.rest = [])).map","((out r ⟨i, rest, []⟩).head?.filter fun st => decide (st.rest = [])).map","C105: fullmatch takes the first way only, without backtracking"),
("ItoRegex.lean","    | none => search r (i + 1) cs","    | none => search r i cs","C105: search does not advance the position"),
("ItoRegex.lean","(matchAt r i (c :: cs)).toList ++ overlapped r (i + 1) cs","(matchAt r i (c :: cs)).toList ++ overlapped r (i + 1) (cs.drop 1)","C105: overlapped skips every other place"),
("ItoRegex.lean","def regexMatch (x : FIto Char) (r : Re) : Option Found := matchAt r x.start.toNat x.text","def regexMatch (x : FIto Char) (r : Re) : Option Found := matchAt r x.start.toNat (x.string.drop x.start.toNat)","C105: match not limited to the Ito's end (*self.span without its second item)"),
("ItoRegex.lean","def regexSearch (x : FIto Char) (r : Re) : Option Found := search r x.start.toNat x.text","def regexSearch (x : FIto Char) (r : Re) : Option Found := search r 0 x.text","C105: positions relative to the Ito"),
("ItoRegex.lean","if over then overlapped r x.start.toNat x.text else finditer r x.start.toNat x.text","if over then finditer r x.start.toNat x.text else finditer r x.start.toNat x.text","C105: overlapped not passed on"),
("ItoRegex.lean","(x.string.drop f.start).take (f.stop - f.start)","(x.string.drop f.start).take f.stop","C105: findall's texts run on"),
("ItoRegex.lean","(x.string.drop f.start).take (f.stop - f.start)","(x.text.drop f.start).take (f.stop - f.start)","C105: findall takes absolute positions for relative ones"),
("Ontology.lean","      if tokenP ≤ p then\n","      if tokenP < p then\n","C63: operators of equal precedence associate to the right"),
("Ontology.lean","  | .xor | .or => 0\n  | .and => 1\n","  | .xor | .or | .and => 0\n","C63: and binds like or"),
("Ontology.lean","  | queue, stack, [] => queue ++ stack.map .op","  | queue, stack, [] => queue ++ stack.reverse.map .op","C63: remaining operators flushed bottom first"),
("Json.lean","      match Kids.hierAll none (Span.fromIndices len (some s.start) (some s.stop)) [] ks with","      match Kids.hierAll none (Span.fromIndices len (some s.start) (some s.stop)) [] ks.reverse with","C44_wide_exact: children decoded last first"),
("Json.lean","      | .ok ks' => .ok (.mk (Span.fromIndices len (some s.start) (some s.stop)) d none ks')","      | .ok ks' => .ok (.mk (Span.fromIndices len (some s.start) (some s.stop)) none none ks')","C44: desc lost for nodes with children"),
("Json.lean","  | .mk s d _ ks => .mk s d (some (itoDocs ks))","  | .mk s d _ ks => .mk s d (if ks.isEmpty then none else some (itoDocs ks))","(equivalent mutant check) children omitted when empty: C44 still holds, decoding gives the same"),
]
