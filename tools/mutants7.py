MUTANTS=[
("NlpRe.lean","'\\u2009', '\\u200A', '\\u200B'","'\\u2009', '\\u200B'","C94/C95 white space of nlp.py"),
("NlpRe.lean","['\\u0027', '\\u0060'","['\\u0027'","C94 quotation marks join words"),
("NlpRe.lean","def wordRe : Re :=\n  .grp \"word\" (.seq (.chr K.word)\n    (many (.seq (opt (.alt (oneOf quotes1) (.seq (.chr (· == '-')) (many (.chr K.space))))) (.chr K.word))))","def wordRe : Re :=\n  .grp \"word\" (.seq (.chr K.word)\n    (many (.seq (opt (oneOf quotes1)) (.chr K.word))))","C94 hyphens join words"),
("NlpRe.lean","(.seq (.chr (· == '-')) (many (.chr K.space)))","(.seq (.chr (· == '-')) (opt (.chr K.space)))","C94 any white space after a hyphen"),
("NlpRe.lean","(many (.seq (opt (.alt (oneOf quotes1)","(opt (.seq (opt (.alt (oneOf quotes1)","C94 longest word"),
("NlpRe.lean","def charRe : Re := .grp \"char\" (.chr K.word)","def charRe : Re := .grp \"char\" (.chr K.space)","C77 a digit of every number is a char"),
("NlpRe.lean","def ws : Re := .alt (lit ['\\r', '\\n']) (oneOf ('\\n' :: blanks))","def ws : Re := oneOf blanks","C95 newline is white space"),
("NlpRe.lean","def ws : Re := .alt (lit ['\\r', '\\n']) (oneOf ('\\n' :: blanks))","def ws : Re := .alt (lit ['\\r', '\\n']) (oneOf ('\\n' :: ';' :: blanks))","C94 no character lost between sentences"),
("NlpRe.lean","def paraRe (seps : List Char) (n : Nat) : Re := atLeast n (.seq (many (oneOf blanks)) (oneOf seps))","def paraRe (seps : List Char) (n : Nat) : Re := atLeast n (.seq (many (.chr fun _ => true)) (oneOf seps))","C94 no character lost between paragraphs"),
("NlpRe.lean","def sufs : List Char := quotes1 ++ quotes2 ++ [')', ']', '}']","def sufs : List Char := quotes1 ++ quotes2 ++ [')', ']']","C95 closing brackets"),
("NlpRe.lean","def pres : List Char := quotes1 ++ quotes2 ++ ['(', '[', '{']","def pres : List Char := quotes1 ++ ['(', '[', '{']","C95 opening quotation marks"),
("NlpRe.lean","(atLeast 3 (.chr (· == '.')))","(atLeast 2 (.chr (· == '.')))","C95 an ellipsis has three dots"),
("NlpRe.lean","(plus (oneOf ['!', '?']))","(oneOf ['!', '?'])","C95 several exclamation marks"),
("NlpRe.lean","\"Where\", \"Who\"","\"Who\"","C95 start words"),
("NlpRe.lean","\"Prof.\", ","","C95 abbreviations"),
("NlpRe.lean","\"Prof.\", ","\"Prof.\", \"Co.\", ","C95 abbreviations"),
("NlpRe.lean","def ruleTwo : Re := atLeast 2 ws","def ruleTwo : Re := atLeast 1 ws","C95 one white space alone does not end a sentence"),
("NlpRe.lean","def ruleEnd : Re := .seq (many ws) .eos","def ruleEnd : Re := .seq (plus ws) .eos","C95 end of text"),
("NlpRe.lean","(anyLit hfStarts) ws)","(anyLit hfStarts) .eps)","C95 a start word is a whole word"),
("NlpRe.lean","(.alt upper (.chr K.digit))","upper","C95 digits start sentences"),
("NlpRe.lean",".seq (notBehind text lo (anyLit ignores)) (.seq (exNum K text lo)",".seq (exNum K text lo) (.seq (exNum K text lo)","C95 abbreviations do not end sentences"),
("NlpRe.lean","(.seq (anyLit numAbbrs) (ahead (.seq ws (.chr K.digit))))","(anyLit numAbbrs)","C95 number abbreviations only before digits"),
("NlpRe.lean","(ahead (.seq ws (.seq upper (plus lower))))","(ahead (.seq ws upper))","C95 initials stand between names"),
("NlpRe.lean","(ahead (.seq ws (lit \"Government\".toList)))","(ahead (lit \"Government\".toList))","C95 U.S. Government"),
("NlpRe.lean",".seq (behind text lo (.seq (.chr K.word) (.seq terminator (many (oneOf sufs)))))",".seq (behind text lo (.seq terminator (many (oneOf sufs))))","C95 a word character before the terminator"),
("NlpRe.lean","(decide (lo ≤ j) &&","(decide (lo ≤ j + 1) &&","C95 what a lookbehind sees"),
("NlpRe.lean","fun j => decide (lo ≤ j) &&","fun j => decide (lo < j) &&","C95 what a lookbehind sees"),
("NlpRe.lean","any fun st => st.pos == i","any fun st => decide (st.pos ≤ i)","C95 a lookbehind ends here"),
("Regex.lean","fun st => !adv || decide (i < st.pos)","fun st => !adv || decide (i ≤ st.pos)","C92/C94 finditer does not repeat an empty match"),
("Regex.lean","| _ :: cs => finditerAux r n false (i + 1) cs","| _ :: cs => finditerAux r n true (i + 1) cs","C94 no place left out: empty match after a failed place"),
("Regex.lean","finditerAux r n (decide (st.pos = i)) st.pos st.rest","finditerAux r n true st.pos st.rest","C92 empty match after a match"),
]
