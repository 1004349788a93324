Q="Query.lean"; F="Format.lean"; W="WsSplit.lean"; X="Xml.lean"; P="PatternsMore.lean"; R="ReSyntax.lean"; C="CloneHeap.lean"; B="BoxMake.lean"
MUTANTS=[
(Q,"    let n := runLen '.' 4 p","    let n := runLen '.' 3 p","'....' is read as three dots"),
(Q,"  | '>' :: '<' :: _ => some (.dedup, 2)\n  | '<' :: _ =>","  | '<' :: '>' :: _ => some (.dedup, 2)\n  | '<' :: _ =>","dedup is written <>"),
(Q,"def orderLen (p : List Char) : Nat := if p.head? = some '+' ∨ p.head? = some '-' then 1 else 0","def orderLen (p : List Char) : Nat := if p.head? = some '-' then 1 else 0","a + before an axis is not accepted"),
(Q,"    let m := runLen '!' 2 (p.drop (ord + n))","    let m := runLen '!' 3 (p.drop (ord + n))","three ! are taken"),
(Q,"      let v := w.dropWhile reSpace\n","      let v := w\n","white space before a filter's value is part of it"),
(Q,"        | some c => some (neg, k, [c])","        | some c => none","a filter value of white space only is refused"),
(F,"  | c :: d :: r => if isAlign d then r else if isAlign c then d :: r else c :: d :: r","  | c :: d :: r => if isAlign c then d :: r else if isAlign d then r else c :: d :: r","a fill that is itself an alignment sign is not a fill"),
(F,"      if c = 'a' ∨ c = 'r' then (some ⟨(digits? r).1, c, (digits? r').1⟩, (digits? r').2)","      if c = 'a' ∨ c = 'r' ∨ c = 's' then (some ⟨(digits? r).1, c, (digits? r').1⟩, (digits? r').2)","!s is a conversion"),
(F,"  | c :: r => if isPos c then matchAbbr (some c) r else matchAbbr none (c :: r)","  | c :: r => if isPos c then matchAbbr (some c) r else none","a width needs a position"),
(F,"    | some w => (some w, [])","    | some w => (some { w with abbr := none }, [])","the abbreviation is forgotten"),
(F,"  [IntDir.span, .start, .stop].findSome?","  [IntDir.span, .stop].findSome?","%start is no directive"),
(W,"  | i, '\\r' :: '\\n' :: t => ⟨i, i + 2⟩ :: lineBreaks (i + 2) t\n","","CR LF counts as two line breaks"),
(X,"decide (2 ≤ i) && decide (s[i]? = some '}')","decide (1 ≤ i) && decide (s[i]? = some '}')","an empty namespace {} is accepted"),
(X,"decide (s[i]? = some '}') && decide (i + 1 < s.length)","decide (s[i]? = some '}')","a namespace may leave no name"),
(P,"(?P<key>\\\\.{1,4}|\\\\*{1,3}|\\\\>\\\\<|","(?P<key>\\\\.{1,4}|\\\\*{1,3}|","the pattern of axes loses ><"),
(P,"\\\\[(?P<not>\\\\~)?(?P<k>[a-z\\\\-]+):\\\\s*(?P<v>.+?)\\\\]","\\\\[(?P<not>\\\\~)?(?P<k>[a-z\\\\-]+):\\\\s*(?P<v>.*?)\\\\]","an empty filter value is accepted by the pattern"),
(P,"(?P<namespace>\\\\{.+?\\\\})?(?P<name>.+)","(?P<namespace>\\\\{.+\\\\})?(?P<name>.+)","a namespace ends at the last brace"),
(P,"\\\\r\\\\n|\\\\r|\\\\n|","\\\\r|\\\\n|\\\\r\\\\n|","CR tried before CR LF"),
(P,"\"(?P<lslice>\\\\d+)?\".toList ++\n  \"(?P<conv>[ar])\".toList","\"(?P<lslice>\\\\d+)?\".toList ++\n  \"(?P<conv>[a-r])\".toList","any letter from a to r is a conversion"),
(P,"\"(?P<width>\\\\d+)\".toList ++ \"(?P<abbr>.+)?\"","\"(?P<width>\\\\d+?)\".toList ++ \"(?P<abbr>.+)?\"","a width is one digit"),
(C,"  if cloneChildren then finishClone","  if !cloneChildren then finishClone","clone_children is inverted"),
(C,"(desc.getD (h.obj x).desc)\n  if","(desc.getD none)\n  if","the desc is lost when none is given"),
(C,"(stop.getD (h.span x).stop) (desc","(start.getD (h.span x).stop) (desc","the stop argument is ignored"),
(B,"  match t.find? (fun b => b.1 = name) with\n  | some b => .ok b.2\n  | none => .error .valueError","  match t.find? (fun b => b.1 = name) with\n  | some b => .ok b.2\n  | none => .error .typeError","an unknown name raises TypeError"),
(Q,"decide (c ∈ operators) || decide (c ∈ ['(', ')', ' '])","decide (c ∈ operators) && decide (c ∈ ['(', ')', ' '])","operators before a sub-query are not seen"),
]
