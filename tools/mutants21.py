R="Repr.lean"; F="Format.lean"
MUTANTS=[
(R,"substr=%substr!r","substr=%string!r","repr shows the whole string"),
(R,"span=%span,","span=%start,","repr shows the start only"),
(R,"desc=%desc!r","desc=%desc","the descriptor is shown without quotes: it can no longer be told from what follows"),
(R,"substr=%substr!r","substr=%substr!a","ascii instead of repr"),
(R,"desc=%desc!r, ","desc=%desc!r1, ","the closing quote of the descriptor is lost"),
(F,"if c.conv = 'a' then env.ascii sub else env.repr sub","if c.conv = 'r' then env.ascii sub else env.repr sub","conversions swapped"),
(F,"  | .desc => .ok (x.desc.getD \"\").toList","  | .desc => .ok (x.desc.getD \"None\").toList","a missing descriptor is shown as None"),
]
