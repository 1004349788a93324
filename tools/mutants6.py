MUTANTS=[
("NumberRe.lean","def signC (c : Char) : Bool := c == '-' || c == '+'","def signC (c : Char) : Bool := c == '-'","C93 plus signs count"),
("NumberRe.lean","def eC (c : Char) : Bool := c == 'E' || c == 'e'","def eC (c : Char) : Bool := c == 'E' || c == 'e' || c == 'd'","C93 exponents start with e"),
("NumberRe.lean","(.seq spaceQ (expN F)))))","(expN F))))","C93 a space may precede the exponent's digits"),
("NumberRe.lean","def expN (F : Fmt) : Re := .seq (opt signG) (plus (.chr F.digit))","def expN (F : Fmt) : Re := .seq (opt signG) (many (.chr F.digit))","C93 an exponent has digits"),
("NumberRe.lean","(opt (.seq (.chr F.digit) (opt (.chr F.digit))))","(opt (.chr F.digit))","C93 one to three digits first"),
("NumberRe.lean","(.seq (.chr F.digit) (.seq (.chr F.digit) (.chr F.digit)))","(.seq (.chr F.digit) (.chr F.digit))","C93 groups of three digits"),
("NumberRe.lean",".seq (d13 F) (plus (group3 F))",".seq (d13 F) (many (group3 F))","C93 required separators"),
("NumberRe.lean",".alt (grouped F) (plus (.chr F.digit)) else",".alt (plus (.chr F.digit)) (grouped F) else","C93 longest match"),
("NumberRe.lean","(opt (decG F))) (decG F))","(decG F)) (decG F))","C93 integers need no decimals"),
("NumberRe.lean","(.alt (.seq (intG F) (opt (decG F))) (decG F))","(.seq (intG F) (opt (decG F)))","C93 .7 is a number"),
("NumberRe.lean","(opt (expG F))))","(opt (expE F))))","C93 x10^ exponents"),
("NumberRe.lean",'.grp "decimal" (.seq (lit F.point)','.grp "decimal" (.seq (lit F.sep)',"C93 decimals start with the point"),
("NumberRe.lean",'.grp "integer" (if F.optional','.grp "decimal" (if F.optional',"C93 groups are what their names say"),
("Regex.lean","if greedy then more ++ [st] else st :: more","if greedy then st :: more else st :: more","C93 greedy repetition: longest"),
("Regex.lean","(if i < st.pos then finditerAux r n st.pos st.rest","(if i < st.pos then finditerAux r n (st.pos + 1) (st.rest.drop 1)","C93 no place left out"),
("Regex.lean","caps := st'.caps ++ [(n, st.pos, st'.pos)] }","caps := st'.caps ++ [(n, st.pos, st'.pos + 1)] }","C92 captures are disjoint or nested"),
("Regex.lean","(if i < st.pos then finditerAux r n st.pos st.rest","(if i < st.pos then finditerAux r n (i + 1) (rest.drop 1)","C92 matches do not overlap"),
]
