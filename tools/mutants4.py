MUTANTS=[
("Sgr.lean","| t :: u :: ts => t ++ ';' :: joinSemi (u :: ts)","| t :: u :: ts => t ++ ',' :: joinSemi (u :: ts)","C79-81 parameters are separated by semicolons"),
("Sgr.lean","    | [] => ['0']","    | [] => []","encode() with no parameter is a reset"),
("Sgr.lean","| brightBlack => 60","| brightBlack => 8","bright colours have codes 90-97"),
("Sgr.lean","⟨val / 65536, (val / 256) % 256, val % 256⟩","⟨val / 65536, val / 256, val % 256⟩","24-bit colours split into three bytes"),
("Sgr.lean","  | .rgb c => encode [k.byIdx, 2, c.red, c.green, c.blue]","  | .rgb c => encode [k.byIdx, 2, c.red, c.blue, c.green]","colour components in order"),
("Sgr.lean","  | back => 30 + 10\n","  | back => 30\n","background codes differ from foreground codes"),
("Sgr.lean","  | .reset :: ts => Cls.reset .back ++ written ts","  | .reset :: ts => written ts","each colour is reset"),
("Version.lean","'1'.toNat ≤ c.toNat","'0'.toNat ≤ c.toNat","canonical numbers have no leading zero"),
("Version.lean","def epoch : Re := opt (","def epoch : Re := many (","at most one epoch"),
("Version.lean","def release : Re := .seq num (many (.seq (lit ['.']) num))","def release : Re := .seq num (opt (.seq (lit ['.']) num))","any number of release segments"),
("Version.lean","(.seq pre (.seq post (.seq dev localPart)))","(.seq post (.seq pre (.seq dev localPart)))","order of the parts"),
("Version.lean","(many (.seq (.chr sep) (plus (.chr low))))","(many (.seq (.chr sep) (many (.chr low))))","local segments are not empty"),
("Invoke.lean","  | w :: ws => if same w v then ws else","  | w :: ws => if same w v then remove same v ws else","each value is given out once"),
("Invoke.lean","    | .ok none => serve fits same ps unpaired","    | .ok none => .error .typeError","parameters without a value are skipped"),
("Invoke.lean","match serve fits same f.kwonly left with","match serve fits same f.kwonly vals with","a value is not given to two parameters"),
("Invoke.lean","if left ≠ [] ∧ f.varargs = true","if f.varargs = true","varargs only matter with values left"),
("NlpNumber.lean","(if x.optional then \"|\\\\d+\".toList else [])","(if x.optional then [] else \"|\\\\d+\".toList)","thousands separators optional or not"),
("NlpNumber.lean","if s = [] ∨ E.isSpace s = true then","if s = [] then","blank separators are refused"),
("NlpNumber.lean","if E.locThousandsSep ≠ [] then E.locThousandsSep else [',']","E.locThousandsSep","default separator"),
("Regex.lean","    if greedy then more ++ [st] else st :: more","    if greedy then st :: more else more ++ [st]","greedy and lazy repetition"),
("Regex.lean","  | .alt a b, st => out a st ++ out b st","  | .alt a b, st => out b st ++ out a st","the left alternative comes first"),
("Regex.lean","(n, st.pos, st'.pos)","(n, st.pos, st.pos)","captures end where the group ends"),
("Regex.lean","(if i < st.pos then finditerAux r n st.pos st.rest","(if i < st.pos then finditerAux r n (i + 1) (rest.drop 1)","matches do not overlap"),
("Regex.lean","  | .eos, st => if st.rest = [] ∨ st.rest = ['\\n'] then [st] else []","  | .eos, st => if st.rest = [] then [st] else []","$ before a final newline"),
("XmlTag.lean","c != ' ' && c != ':'","c != ':'","C85 prefixes have no spaces"),
("XmlTag.lean","c != ' ' && c != '/' && c != '>' && c != '='","c != ' ' && c != '>' && c != '='","C85 <b/> is named b"),
("XmlTag.lean","c != ' ' && c != '/' && c != '>' && c != '='","c != ' ' && c != '/' && c != '='","C85 the name ends before >"),
("XmlTag.lean","(.grp \"value\" (plus (.chr valC)))","(plus (.chr valC))","C85 values are there"),
("XmlTag.lean","def tagRe : Re := .seq (.chr (· == '<')) (.seq (opt (.chr fun c => c == '/' || c == '?')) tagG)","def tagRe : Re := .seq (.chr (· == '<')) tagG","C85 the name of an end tag"),
("XmlTag.lean","def lazyAny : Re := .star false","def lazyAny : Re := .star true","C85 comments end at the first -->"),
("XmlTag.lean","def textRe : Re := .alt piG commentG","def textRe : Re := piG","C85 comments are found"),
("XmlTag.lean","max a m.stop) n.stop","min a m.stop) n.stop","C85 the span of attributes"),
("XmlTag.lean","        | .ok ks => Kids.add x.span st (.mk sp (some \"attributes\") none ks)","        | .ok ks => Kids.add x.span st (.mk sp (some \"attributes\") none [])","C85 attributes are put under the Ito for all of them"),
("XmlTag.lean","      | .ok [] => .ok st\n","      | .ok [] => .ok []\n","C85 the name is kept without attributes"),
("XmlTag.lean","  | .ok ns => Kids.addAll x.span [] ns\n","  | .ok ns => Kids.addAll x.span [] (ns.take 1)\n","C85 all comments"),
("Xml.lean","    match filled textKids rv with","    match filled (fun _ => .ok []) rv with","C85 texts hold comments"),
("Xml.lean","        match addOpt p st (textAfter ws ign text last n.start) with","        match addOpt p st (textAfter ws ign text last n.stop) with","C71 text between children"),
]
