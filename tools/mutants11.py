MUTANTS=[
("Flat.lean","let s := x.stop + key - 1\n","let s := x.stop + key\n","C14 negative keys one further right"),
("Flat.lean","if (sub := 0","","")]
MUTANTS=[
("Flat.lean","      let s := x.stop + key - 1\n","      let s := x.stop + key\n","C14: negative keys shifted by one (offset-1 Itos wrong)"),
("WsSplit.lean","        let r ← splitWsLoop x ws n sub.stop (m - 1)","        let r ← splitWsLoop x ws n (sub.stop + 1) (m - 1)","C09: one character skipped after every word"),
("WsSplit.lean","        let r ← splitWsLoop x ws n sub.stop (m - 1)","        let r ← splitWsLoop x ws n (sub.stop - min x.start 1) (m - 1)","C09: skip wrong only away from offset 0"),
("WsSplit.lean","        let r ← rsplitWsLoop x ws n (sub.start - 1) (m - 1)","        let r ← rsplitWsLoop x ws n (sub.start - 1 - x.start) (m - 1)","C09: rsplit returns away from offset 0 (documented divergence gone)"),
("Flat.lean","        decide (startC > endC)","        decide (startC ≥ endC)","C06: empty affix refused in an empty window"),
("Flat.lean","    if alpha c then (if q c then casedLoop alpha q true t else false)","    if alpha c then (if q c then true else false)","C15: only the first letter looked at"),
("Flat.lean","def strIsprintable (x : FIto α) (printable : α → Bool) : Bool := x.isAny printable true","def strIsprintable (x : FIto α) (printable : α → Bool) : Bool := x.isAny printable false","C15: empty text not printable"),
]
