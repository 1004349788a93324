MUTANTS=[
("Span.lean","if i ≥ 0 then min length i else max 0 (length + i)","if i > 0 then min length i else max 0 (length + i)","C01 index 0"),
("Span.lean","⟨st, max st en⟩","⟨st, en⟩","C01 crossed indices give an empty span"),
("Span.lean","if rv.start < 0 ∨ rv.stop < 0 then","if rv.start < 0 then","C03 guard on stop (equivalent for start<=stop spans only)"),
("Span.lean","⟨s.start + i, s.stop + i⟩","⟨s.start + i, s.stop⟩","C03 shift moves both ends"),
("Flat.lean","return if rv ≠ -1 then rv - x.start else rv\n\n/-- Python's `s.index`","return if rv ≠ -1 then rv else rv\n\n/-- Python's `s.index`","C04 str_find relative position"),
("Flat.lean","def strCount (x : FIto α) (sub : List α) (start stop : Option Int) : Except PyErr Int := do\n  let w ← x.window start stop\n  return PyStr.count x.string sub (some w.start) (some w.stop)","def strCount (x : FIto α) (sub : List α) (start stop : Option Int) : Except PyErr Int := do\n  let w ← x.window start stop\n  return PyStr.count x.string sub (some w.start) (some x.stop)","C05 count ignores end"),
("Flat.lean","if st > ls then true","if st ≥ ls then true","C06 empty prefix at the end"),
("Flat.lean","if x.len = v.length then x.strStartswith [v] none none else .ok false","x.strStartswith [v] none none","C06 str_eq needs equal length"),
("Flat.lean","if i < stop ∧ charAt p s i then lstripLoop p s stop n (i + 1) else i","if i + 1 < stop ∧ charAt p s i then lstripLoop p s stop n (i + 1) else i","C07 lstrip keeps last char"),
("Flat.lean","if i = x.stop - 1 then x else x.clone none (some (i + 1))","if i = x.stop - 1 then x else x.clone none (some i)","C07 rstrip off by one"),
("Flat.lean","let r := splitLoop x sep n (j + sep.length) (m - 1)","let r := splitLoop x sep n (j + 1) (m - 1)","C08 split advance"),
("Flat.lean","let j := PyStr.find x.string sep (some i) (some x.stop)","let j := PyStr.find x.string sep (some i) none","C08 split must stay inside the Ito"),
("Flat.lean","(x.clone (some (j + sep.length)) (some i) :: acc)","(x.clone (some j) (some i) :: acc)","C08 rsplit piece includes separator"),
("Flat.lean","else .ok ((if r.2 = x.stop then x else x.clone none (some r.2)) :: r.1)","else .ok r.1","C08 rsplit loses the head"),
("Flat.lean","x.ofIto (some p.length) none x.desc else return x","x.ofIto (some p.length) none none else return x","C13 removeprefix keeps desc"),
("Flat.lean","if 0 ≤ key ∧ key < x.len then","if 0 ≤ key ∧ key ≤ x.len then","C14 IndexError at len"),
("Flat.lean","(fun k : Nat => x.clone (some (x.start + (k : Int))) (some (x.start + (k : Int) + 1)))","(fun k : Nat => x.clone (some (x.start + (k : Int))) none)","C14 iteration yields single characters"),
("Flat.lean","if x.start = x.stop then pEmpty else x.rangeChars.all p","if x.start = x.stop then true else x.rangeChars.all p","C15 empty Ito"),
("WsSplit.lean","if ws c then nearestFwd x ws n (i + 1) none else nearestFwd x ws n (i + 1) (some i)","if ws c then nearestFwd x ws n (i + 1) none else nearestFwd x ws n (i + 1) (some (i + 1))","C09 word start"),
("WsSplit.lean","return if tail.len > 0 then r.1 ++ [tail] else r.1","return r.1 ++ [tail]","C09 no empty tail"),
("WsSplit.lean","let stop := if keepSeps then m.stop else m.start","let stop := if keepSeps then m.start else m.stop","C11 keep_seps swapped"),
("WsSplit.lean","if r.2 < x.stop then r.1 ++ [x.clone (some r.2) none (some desc)]","if r.2 < x.stop then r.1","C11 tail lost"),
("WsSplit.lean","c == '\\r' || c == '\\n' || c == '\\x0b'","c == '\\r' || c == '\\n'","C10 VT is a line break"),
("WsSplit.lean","| i, '\\r' :: '\\n' :: t => ⟨i, i + 2⟩ :: lineBreaks (i + 2) t","| i, '\\r' :: '\\n' :: t => ⟨i, i + 1⟩ :: lineBreaks (i + 2) t","C10 CRLF is one break"),
("WsSplit.lean","| some l => if l.len = 0 then rv.dropLast else rv","| some _ => rv","C10 no trailing empty line"),
("Gaps.lean","if last.stop < src.stop then\n    .yield (FIto.ofStr src.basis (some last.stop)","if last.stop + 1 < src.stop then\n    .yield (FIto.ofStr src.basis (some last.stop)","C16 tail gap of one char lost"),
("Gaps.lean","else if cur.start < last.stop then gapsLoop src desc zw cur rest","else if cur.start < last.stop then gapsLoop src desc zw last rest","C16 overlapping non-gaps"),
("Gaps.lean","(some (min last.start src.stop)) desc)","(some last.start) desc)","C16 first gap is clipped to src (equivalent: constructor clamps when src is the whole string)"),
("Gaps.lean","| .span s => s.offset src.start","| .span s => .ok s","C16 spans are relative to src"),
("Gaps.lean","(substringsLoop s j desc (i' + sub.length) rest)","(substringsLoop s j desc (i' + 1) rest)","C20 substrings are disjoint"),
("Gaps.lean","else joinLoop string (min start y.start) (max stop y.stop) ys","else joinLoop string (min start y.start) y.stop ys","C21 join tight stop"),
("Gaps.lean","if string ≠ y.string then .error .valueError\n    else joinLoop","if False then .error .valueError\n    else joinLoop","C21 differing strings rejected"),
("Bisect.lean","if a.getD mid 0 < x then bisectLeftLoop a x n (mid + 1) hi","if a.getD mid 0 ≤ x then bisectLeftLoop a x n (mid + 1) hi","C24 bisect_left vs right"),
("Tree.lean","| some p => decide (s.start < p.stop)","| some p => decide (s.start ≤ p.stop)","C24/C28 adjacent children are allowed"),
("Tree.lean","| some p => decide (s.stop > p.start)","| some _ => false","C24 overlap with the next child rejected"),
("Tree.lean","def outside (parent s : Span) : Bool := decide (s.start < parent.start) || decide (s.stop > parent.stop)","def outside (parent s : Span) : Bool := decide (s.start < parent.start)","C24 containment in parent"),
("Tree.lean","| .ok ks'' => .ok (.mk (Span.fromIndices len (some s.start) (some s.stop)) d v ks'')","| .ok ks'' => .ok (.mk (Span.fromIndices len (some s.start) (some s.stop)) d none ks'')","C23 clone keeps value_func"),
("Tree.lean","if f.start > n.start ∨ l.stop < n.stop then n.cloneWith","if f.start > n.start ∧ l.stop < n.stop then n.cloneWith","C21 strip_to_children either side"),
("Tree.lean","let gaps := fromGaps (.ito (rv.flat s)) (n.kids.map fun k => .ito (k.flat s)) desc false","let gaps := fromGaps (.ito (rv.flat s)) (n.kids.map fun k => .ito (k.flat s)) none false","C17 desc of the gaps"),
("Tree.lean","walkLevelsKids rev lvl p (i + 1) ks ++ (walkLevels rev (lvl + 1) (p ++ [i]) k ++ [(lvl, p ++ [i])])","walkLevelsKids rev lvl p (i + 1) ks ++ ((lvl, p ++ [i]) :: walkLevels rev (lvl + 1) (p ++ [i]) k)","C32 reverse walk is post-order"),
("Tree.lean","((lvl, p ++ [i]) :: walkLevels rev (lvl + 1) (p ++ [i]) k)","((lvl, p ++ [i]) :: walkLevels rev lvl (p ++ [i]) k)","C32 levels"),
("Match.lean","decide (-a.1.stop ≤ -b.1.stop)","decide (a.1.stop ≤ b.1.stop)","C18 longer groups come first"),
("Match.lean","if s.start < f.span.start ∨ s.stop > f.span.stop then popWhile","if s.stop > f.span.stop then popWhile","C18 pop (equivalent as entries are sorted by start)"),
("Match.lean","| some n => if n > 0 then .ok (rv.take n.toNat) else .ok []","| some n => if n > 0 then .ok rv else .ok []","C19 limit"),
("Match.lean","if ((rv ++ itos).length : Int) ≥ n then .ok (rv ++ itos)","if ((rv ++ itos).length : Int) ≥ n - 1 then .ok (rv ++ itos)","C19 stops one early"),
("Match.lean","else if filter (.idx i) then .idx i ::","else if filter (.idx (i + 1)) then .idx i ::","C60 from_filter index"),
("Match.lean","| some none => validateLoop re (tmp.set i (some gk)) gks","| some none => validateLoop re tmp gks","C60 duplicates detected"),
("Heap.lean","let h := h.setParent x (some p)\n        (h.setKids p ((h.kids p).insertIdx i x), .ok ())","(h.setKids p ((h.kids p).insertIdx i x), .ok ())","C24/C25 parent pointer set on add"),
("Heap.lean","let h := h.unparent ((h.kids p)[i]?.toList)\n    (h.setKids p ((h.kids p).eraseIdx i), .ok ())","(h.setKids p ((h.kids p).eraseIdx i), .ok ())","C24 del clears parent"),
("Heap.lean","if i ≥ 0 ∧ (h.kids p)[i.toNat]? = some x then h.delInt p i","if i ≥ 0 then h.delInt p i","C31 remove by identity"),
("Heap.lean","decide (h.str x ≠ h.str p) || Kids.outside (h.span p) (h.span x) || decide (x = p)","Kids.outside (h.span p) (h.span x) || decide (x = p)","C24 same string"),
("Heap.lean","decide (h.str x ≠ h.str p) || Kids.outside (h.span p) (h.span x) || decide (x = p)","decide (h.str x ≠ h.str p) || Kids.outside (h.span p) (h.span x)","C25 not its own parent"),
("Heap.lean","let h := h.unparent (((h.kids p).drop lo).take (hi - lo))","let h := h.unparent ((h.kids p).drop lo)","C24 delSlice unparents only removed"),
("Hier.lean","if s.stop < tmp.stop then .into i.toNat else","if s.stop ≤ tmp.stop then .into i.toNat else","C28/C30 same span decided by key"),
("Hier.lean","else if s.start < tmp.stop then .overlap","else if s.start ≤ tmp.stop then .overlap","C28 adjacency is not overlap"),
("Hier.lean","| some f => decide (f s d v ≥ f tmp.span tmp.desc tmp.vf)","| some f => decide (f s d v > f tmp.span tmp.desc tmp.vf)","C30 key ties go under"),
("Hier.lean","else .ok (store.take i ++ .mk s d v kids :: store.drop j)","else .ok (store.take i ++ .mk s d v [] :: store.drop j)","C29 absorbed children lost"),
("Hier.lean","| .ok store' => hier1 key p store' s d v","| .ok store' => .ok store'","C29 argument lost"),
("Adopt.lean","else adoptLoop string (min start x.start) (max stop x.stop) (setAdd cached x) rest","else adoptLoop string (min start x.start) (max stop x.start) (setAdd cached x) rest","C22 tight parent"),
("Adopt.lean","if cached.any (fun y => decide (y.key = x.key)) then cached else cached ++ [x]","cached ++ [x]","C22 equal arguments once"),
("Axis.lean","| .leaves => .ok ((walkAt t a.rev i).filter (isLeaf t))","| .leaves => .ok (walkAt t a.rev i)","C34 leaves"),
("Axis.lean","return if a.rev then sliced else sliced.reverse","return if a.rev then sliced.reverse else sliced","C34 priors order"),
("Axis.lean","let sliced := (Query.children t p).drop (idx + 1)","let sliced := (Query.children t p).drop idx","C34 nexts excludes self"),
("Axis.lean","return if idx > 0 then ((Query.children t p)[idx - 1]?).toList else []","return ((Query.children t p)[idx - 1]?).toList","C34 prior of first"),
("Axis.lean","if first ≠ s then (0, s) :: (1, first) :: enumFrom 2 rest","if first ≠ s then (0, s) :: enumFrom 1 rest","C34 !! keeps first"),
("Axis.lean","(if a.orSelf = .always ∧ a.rev = true then [(itos.length, s)] else [])","[]","C34 reverse !! adds self"),
("Axis.lean","(walkAt t true (climb i)).dropWhile (fun j => decide (j ≠ i))).drop 1","(walkAt t true (climb i)).dropWhile (fun j => decide (j ≠ i)))","C35 preceding excludes self"),
("Axis.lean","else (walkAt t false (climb i)).dropWhile (fun j => decide (startAt t j < stopAt t i))","else (walkAt t false (climb i)).dropWhile (fun j => decide (startAt t j ≤ stopAt t i))","C35 following adjacent"),
("Axis.lean","match Query.parent i with\n    | none => .ok []\n    | some q => .ok [climb q]","match Query.parent i with\n    | none => .ok []\n    | some q => .ok [q]","C34 root axis"),
("Util.lean","if c = escape then findEscapesLoop escape (!esc) (i + 1) cs","if c = escape then findEscapesLoop escape true (i + 1) cs","C42 doubled escape"),
("Util.lean","else if c ∈ chars then .yield (i - offset)","else if c ∈ chars then .yield i","C42 relative positions"),
("Util.lean","| esc, _, [] => if esc then .raise .valueError else .done","| _, _, [] => .done","C42 dangling escape"),
("Util.lean","| .ok y => .yield y (splitUnescapedLoop src (i + 1) is e)","| .ok y => .yield y (splitUnescapedLoop src i is e)","C42 separator dropped"),
("Util.lean","if c = l ∧ (l ≠ r ∨ lefts = []) then","if c = l then","C43 quotes"),
("Util.lean","match src.getItemSlice (some j) (some (i + 1)) with","match src.getItemSlice (some j) (some i) with","C43 includes closing"),
("Util.lean","if lefts ≠ [] then .raise .valueError else .done","Run.done","C43 unbalanced raises"),
("QueryText.lean","['\\\\', '[', ']', '/', ',', '{', '}']","['\\\\', '[', ']', '/', '{', '}']","C41 comma escaped"),
("QueryText.lean","else if c = '/' ∧ cnt = 0 then","else if c = '/' then","C38 braces protect"),
("QueryText.lean","if esc then splitPhrasesLoop path (ls + 2) false cnt (i + 1) cs","if esc then splitPhrasesLoop path (ls + 1) false cnt (i + 1) cs","C38 escape width"),
("QueryText.lean","if esc ∨ c ≠ '\\\\' then descapeLoop false (rv ++ [c]) cs","if c ≠ '\\\\' then descapeLoop false (rv ++ [c]) cs","C41 descape of double backslash"),
("Ecf.lean","if operand.count '~' % 2 = 1 then !rv else rv","if operand.count '~' > 0 then !rv else rv","C37 double negation"),
("Ecf.lean","[('&', and), ('^', xor), ('|', or)]","[('&', and), ('|', or), ('^', xor)]","C37 precedence"),
("Ecf.lean","(ops.take i ++ ops.drop (i + 1))","(ops.take i ++ ops.drop (i + 2))","C37 operators consumed"),
("Ecf.lean","let operands := operands.set nc after","let operands := operands.set nc []","C37 text after ')' kept"),
("Ecf.lean","reduce vals.length vals ((operands.drop 1).dropLast)","reduce vals.length vals (operands.drop 1)","C37 trailing operand"),
]
