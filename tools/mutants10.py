MUTANTS=[
("Paragraph.lean","['\\uFEFF', '\\uFFFE'] ++ eols ++ blanks","['\\uFEFF', '\\uFFFE'] ++ blanks","trimming strips line ends"),
("Paragraph.lean","then (h, x) else (h.newLike x (h.span x).start (i + 1) (h.obj x).desc, h.next)","then (h, x) else (h.newLike x (h.span x).start i (h.obj x).desc, h.next)","rstrip keeps the last character"),
("Paragraph.lean","rstripObj chars (lstripObj chars h x).1 (lstripObj chars h x).2","rstripObj chars (lstripObj chars h x).1 x","strip goes on from the left-stripped Ito"),
("Paragraph.lean","{ transform := trimT, cons := [⟨.recurse, 0, always⟩] }","{ transform := trimT, cons := [⟨.add, 0, always⟩] }","the trimmer yields paragraphs, not the trimmed text"),
("Paragraph.lean","{ desc := some \"paragraph\" }","{ desc := some \"paragraph\", retention := .trailing }","breaks are not part of paragraphs"),
("Paragraph.lean","if trim then 1 else 0","if trim then 0 else 1","trim_ws=False does not trim"),
("NlpRe.lean","atLeast n (.seq (many (oneOf blanks)) (oneOf seps))","atLeast n (oneOf seps)","blank lines may have blanks"),
("NlpRe.lean","atLeast n (.seq (many (oneOf blanks)) (oneOf seps))","atLeast (n+1) (.seq (many (oneOf blanks)) (oneOf seps))","n line ends are a break"),
]
