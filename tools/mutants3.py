MUTANTS=[
("MatchHeap.lean","s.start < (h.span x).start ∨ s.stop > (h.span x).stop then popStack","s.start < (h.span x).start ∨ s.stop ≥ (h.span x).stop then popStack","C18 a capture that ends with its group is its child"),
("MatchHeap.lean","  | [] => (h, .ok ([y], roots ++ [y]))","  | [] => (h, .ok ([y], [y]))","C18 all top-level captures are returned"),
("MatchHeap.lean","    | (h, .ok ()) => (h, .ok (y :: x :: rest, roots))","    | (h, .ok ()) => (h, .ok (x :: rest, roots))","C18 nested captures become children of the innermost"),
("MatchHeap.lean","        if ((rv ++ itos).length : Int) ≥ n then (h, .ok (rv ++ itos))","        if ((rv ++ itos).length : Int) > n then (h, .ok (rv ++ itos))","C19 raises in the same cases (a further match is processed)"),
("MatchHeap.lean","if n > 0 then rv.take n.toNat else []","rv","C19 at most limit results"),
("SplitHeap.lean","    | .none | .all => (p.stop, cur.start)","    | .none | .all => (p.start, cur.start)","C50 pieces lie between boundaries"),
("SplitHeap.lean","    | .leading => (0, 0)","    | .leading => (x.start, cur.start)","C50 LEADING discards the prefix"),
("SplitHeap.lean","  if b.1 ≠ b.2 then (h.newLike","  if b.1 ≠ b.2 + 1 then (h.newLike","C50 empty pieces are dropped"),
("SplitHeap.lean","c.retention = .all ∧ (q.1.span cur).start < (q.1.span cur).stop","c.retention = .all","C50 zero-length boundaries are not kept"),
("SplitHeap.lean","      splitLoop c x (k q.1) (count + 1) (some cur) rv","      splitLoop c x (k q.1) count (some cur) rv","C50 limit counts boundaries"),
("SplitHeap.lean","    | .trailing => (h, rv)\n    | .none | .all => addPiece","    | .trailing => addPiece c.desc h x rv ((h.span p).stop, (h.span x).stop)\n    | .none | .all => addPiece","C50 TRAILING discards the suffix"),
("SplitHeap.lean","      if prior = none ∧ q.2.length = 0 ∧ c.zeroSplit then","      if q.2.length = 0 ∧ c.zeroSplit then","C50 zero split only if there was no boundary"),
("SplitHeap.lean","  if c.limit = some 0 ∧ c.zeroSplit then .ofList [h.next] (wholeClone c h x)","  if c.limit = some 0 ∧ c.zeroSplit then .ofList [x] h","C50 a zero split yields a clone"),
("SplitHeap.lean","  h.newLike x (h.span x).start (h.span x).stop c.desc","  h.newLike x (h.span x).start (h.span x).stop (h.obj x).desc","C50 desc of a zero split"),
("Nlp.lean","[⟨.add, 2, always⟩]","[⟨.delegate, 2, always⟩]","C76 sentences have their tokens as children"),
("Nlp.lean","retention := .all }","retention := .none }","C76 numbers are kept"),
("Nlp.lean","⟨.delegate, 3, noDesc⟩","⟨.delegate, 3, always⟩","C76 numbers are not replaced by words"),
("Nlp.lean","⟨.delegate, 3, noDesc⟩","⟨.add, 3, noDesc⟩","C76 the text between numbers is replaced by its words"),
("Nlp.lean","if chars then [⟨.add, 4, always⟩] else []","if chars then [⟨.replace, 4, always⟩] else []","C77 chars=True fails on numbers"),
("Nlp.lean","cons := ⟨.delegate, 3, noDesc⟩ :: if chars","cons := ⟨.recurse, 3, noDesc⟩ :: if chars","C77 words get no characters"),
("Nlp.lean","    match h'.add h.next ids with","    match h'.add h.next (ids.take 1) with","C76 all paragraphs"),
("Nlp.lean","{ desc := some \"sentence\" }","{ desc := some \"sentence\", retention := .trailing }","C76 separators belong to no sentence"),
("Nlp.lean","fun m => (some \"number\", [m.whole]) :: m.groups.map","fun m => (some \"0\", [m.whole]) :: (some \"number\", [m.whole]) :: m.groups.map","C76 group 0 is filtered"),
("Pipeline.lean","      | .delegate => trav c.target h x\n","      | .delegate => (trav c.target h x).forEach (flow fuel trav cs)\n","C51/C77 delegate ends the flow"),
]
