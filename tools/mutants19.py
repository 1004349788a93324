O="OntoQuery.lean"; X="XmlFeed.lean"; E="ExtractObj.lean"; I="ItoratorClone.lean"
MUTANTS=[
(O,"def mustEscape : List Char := ['\\\\', ']', '.']","def mustEscape : List Char := ['\\\\', ']']","a dot in a key is not escaped"),
(O,"    (Query.replaceChar '\\\\' ['\\\\', '\\\\'] value)","    value","a backslash in a key is not escaped"),
(O,"  | esc, rv, [] => if esc then .error .valueError else .ok rv","  | _, rv, [] => .ok rv","a text ending in an unfinished escape is accepted"),
(O,"descapeLoop false (rv ++ [c]) cs else","descapeLoop false (c :: rv) cs else","descape reverses the text"),
(O,"  | d, [] => match e with | none => .ok d | some e => .error e","  | d, [] => .ok d","errors of the splitting are lost"),
(O,"decide (start ≤ (span i).start) &&","decide (start < (span i).start) &&","an Ito at the start of the window is not found"),
(O,"&& decide ((span i).stop ≤ stop))","&& decide ((span i).start ≤ stop))","an Ito that runs over the window is found"),
(O,"    | .ok d => follow e d ss","    | .ok d => follow e d []","only the first step of the path is followed"),
(O,"first (call span D st it2 (span i1).stop stop)","first (call span D st it2 (span i1).start stop)","the second entity may overlap the first"),
(O,"js.map fun i2 => [i1, i2]","js.map fun i2 => [i2, i1]","pairs are swapped"),
(O,"  | it2 :: it1 :: st, .mul, start, stop =>","  | it1 :: it2 :: st, .mul, start, stop =>","operands are swapped"),
(O,"  | none => .error .keyError","  | none => .ok (.mk [] [])","an absent path is found empty"),
(X,"charOffsets enc dec p.text {} (p.reports.map Prod.snd)","charOffsets enc dec p.text {} ((p.reports.map Prod.snd).reverse)","events are handled in reverse"),
(X,"      | .ok rest => .ok ((p.reports.map Prod.fst).zip vs ++ rest)","      | .ok rest => .ok (rest ++ (p.reports.map Prod.fst).zip vs)","pieces are handled in reverse"),
(X,"build ((a', .mk a b ks.reverse :: ks') :: st) es","build ((a', .mk a b ks :: ks') :: st) es","children of inner elements are reversed"),
(X,"some (.mk a b ks.reverse)","some (.mk a b ks)","children of the root are reversed"),
(X,"    match build [] evs, ps.getLast? with","    match build [] evs, ps.head? with","the text is that of the piece fed first"),
(X,"  | fuel + 1, t => t.take n :: reads n fuel (t.drop n)","  | fuel + 1, t => t.take n :: reads n fuel (t.drop (n + 1))","a character is lost between reads"),
(E,"  | .re r => .ok { x with re := r }","  | .re _ => .ok x","a pattern assigned is ignored"),
(E,"    | .ok () => .ok { x with gf := f }","    | .ok () => .ok x","a group filter assigned is ignored"),
(E,"  | .limit l => .ok { x with limit := l }","  | .limit l => .ok { x with limit := l.map (· + 1) }","limit is off by one"),
(E,"  | .desc d => .ok { x with desc := some d }","  | .desc d => .ok { x with desc := none }","a descriptor assigned is lost"),
(E,"    | .error _ => after E x ops","    | .error _ => x","assignments after one that failed are lost"),
(E,"  | .pred f => fromFilter (E.pat re) (f m)","  | .pred f => fromFilter (E.pat re) (fun k => !f m k)","the predicate is inverted"),
(E,"  | .str s => some s","  | .str _ => none","a str descriptor is not used"),
(E,"    | .str s => .ok ⟨re, gf, limit, none, some s⟩","    | .str s => .ok ⟨re, gf, none, none, some s⟩","the limit of an Extract with a str descriptor is lost"),
(I,"fun i => if i = S.next then { transform := f } else S.it i","fun i => if i = S.next then S.it i else { transform := f }","wrap changes every other itorator"),
(I,"(match tag with | none => S.tag i | some t => some t)","tag","the tag of the original is not taken over"),
(I,"  ({ next := S.next + 1,","  ({ next := S.next,","a second clone overwrites the first"),
(I,"  else (S, .error .typeError)","  else (S, .ok i)","cloning a library class gives the itorator itself"),
]
