MUTANTS=[
("TypeMagic.lean","  | t :: ts => unpack t ++ unpackAll ts","  | t :: _ => unpack t","C98 every member of a union counts"),
("TypeMagic.lean","  | .bar ms => unpackAll ms\n","  | .bar ms => ms\n","C98 nested unions"),
("TypeMagic.lean","  | .gen o _ => some o","  | .gen _ _ => none","C98 generic alias by its origin"),
("TypeMagic.lean","  | some a, some b => .ok (env.sub a b)","  | some a, some b => .ok (env.sub b a)","C98 direction of issubclass"),
("TypeMagic.lean","    | .ok true => .ok true\n    | .ok false => anyOf p xs","    | .ok false => .ok false\n    | .ok true => anyOf p xs","C98 any, not all"),
("TypeMagic.lean","    | .error e => .error e\n    | .ok true => .ok true\n    | .ok false => anyOf p xs","    | .error _ => anyOf p xs\n    | .ok true => .ok true\n    | .ok false => anyOf p xs","C98 typing.Union violation (raises)"),
("TypeMagic.lean","    | .ty a => if isType env a then some a else hint","    | .ty a => some a","C99 which annotation is used"),
("TypeMagic.lean","    | .ty a => if isType env a then some a else hint","    | .ty _ => hint","C99 which annotation is used"),
("TypeMagic.lean","  | none => .ok true\n  | some a =>\n    match t with","  | none => .ok false\n  | some a =>\n    match t with","C99 undeclared parameters match anything"),
("TypeMagic.lean","    | .any => .ok true\n    | _ => issubclassEx env a t","    | _ => issubclassEx env a t","C99 Any matches anything"),
("TypeMagic.lean","    | _ => issubclassEx env a t","    | _ => issubclassEx env t a","C99 direction"),
("TypeMagic.lean","    | .ok false => .ok false\n    | .ok true => paramsMatch env hs ps ts","    | .ok false => paramsMatch env hs ps ts\n    | .ok true => paramsMatch env hs ps ts","C99 every parameter must match"),
("TypeMagic.lean","          if params.length ≠ ps.length then .ok false","          if params.length < ps.length then .ok false","C99 number of parameters"),
("TypeMagic.lean","        match hintMatches env ret (hintOf hs \"return\") r with\n        | .error e => .error e\n        | .ok false => .ok false\n        | .ok true =>\n          if","        match hintMatches env ret (hintOf hs \"return\") r with\n        | .error e => .error e\n        | .ok false => .ok true\n        | .ok true =>\n          if","C99 return type must match"),
("TypeMagic.lean","  | _, .other => .ok false","  | _, .other => .error .typeError","C99 not a callable: no"),
("TypeMagic.lean","(hs.find? (fun p => p.1 == name)).map (·.2)","(hs.find? (fun p => p.1 != name)).map (·.2)","C99 hint by name"),
("VersionParse.lean","x == c || x == c.toUpper || F.letter c x","x == c || F.letter c x","C100 case ignored"),
("VersionParse.lean","  | c :: cs => .seq (ci F c) (word F cs)","  | c :: _ => ci F c","C100 whole words"),
("VersionParse.lean","def digits : Re := plus (.chr d09)","def digits : Re := .chr d09","C100 numbers of several digits"),
("VersionParse.lean","def sepQ : Re := opt (.chr sep)","def sepQ : Re := .chr sep","C100 separators optional"),
("VersionParse.lean","opt (.seq (.grp \"epoch\" digits) (lit ['!']))","opt (.grp \"epoch\" (.seq digits (lit ['!'])))","C100 epoch text without !"),
("VersionParse.lean","opt (.seq (.grp \"epoch\" digits) (lit ['!']))","(.seq (.grp \"epoch\" digits) (lit ['!']))","C100 epoch optional"),
("VersionParse.lean","(.seq digits (many (.seq (lit ['.']) digits)))","(.seq digits (opt (.seq (lit ['.']) digits)))","C100 releases of any length"),
("VersionParse.lean","(.alt (word F ['c']) (.alt (word F ['r', 'c'])","(.alt (word F ['c']) (.alt (word F ['c', 'r'])","C100 rc"),
("VersionParse.lean","  .seq sepQ (.seq (.grp l a) (.seq sepQ (opt (.grp n digits))))","  .seq sepQ (.seq (.grp l a) (.seq sepQ (.grp n digits)))","C100 tag number optional (noncanonical only)"),
("VersionParse.lean","  .seq sepQ (.seq (.grp l a) (.seq sepQ (opt (.grp n digits))))","  .seq sepQ (.seq (.grp n a) (.seq sepQ (opt (.grp l digits))))","C100 names swapped"),
("VersionParse.lean","opt (.grp \"pre\" (pTagged","opt (.grp \"post\" (pTagged","C100 group names"),
("VersionParse.lean","opt (.grp \"dev\" (pTagged \"dev_l\" (word F ['d', 'e', 'v']) \"dev_n\")","opt (.grp \"dev\" (pTagged \"dev_l\" (word F ['d', 'e']) \"dev_n\")","C100 dev"),
("VersionParse.lean",".seq (lit ['-']) (.grp \"post_n1\" digits)",".seq (lit ['-']) (.grp \"post_n2\" digits)","C100 implicit post release"),
("VersionParse.lean","(many (.seq (.chr sep) (plus (alnum F))))","(.eps)","C100 local with several parts"),
("VersionParse.lean",".seq .bos (.seq spaces (.seq (opt (ci F 'v'))",".seq .bos (.seq .eps (.seq (opt (ci F 'v'))","C100 leading white space"),
("VersionParse.lean","(.seq (opt (ci F 'v')) (.seq pEpoch","(.seq .eps (.seq pEpoch","C100 leading v"),
("VersionParse.lean","(.seq (pPost F) (.seq (pDev F)\n","(.seq (pDev F) (.seq (pPost F)\n","C100 order of post and dev"),
("VersionParse.lean","(.seq (pLocal F) (.seq spaces .eos))","(.seq (pLocal F) (.seq spaces .eps))","C100 nothing after the version (acceptance)"),
("VersionParse.lean","\"post_n1\", \"post_l\", \"post_n2\", \"dev\"","\"post_n1\", \"post_l\", \"dev\"","C100 group keys"),
]
