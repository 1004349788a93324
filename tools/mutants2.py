MUTANTS=[
("Query.lean","some (if n = 1 then .self else if n = 2 then .parent else if n = 3 then .ancestors else .root, n)","some (if n = 1 then .self else if n = 2 then .ancestors else if n = 3 then .parent else .root, n)","C34 '..' is the parent"),
("Query.lean","let n := runLen '*' 3 p","let n := runLen '*' 2 p","C34 '***' is the leaves axis"),
("Query.lean","decide (p.head? = some '-'), if m = 0","decide (p.head? = some '+'), if m = 0","C34 '-' reverses"),
("Query.lean","if m = 0 then .no else if m = 1 then .ifEmpty else .always","if m = 0 then .no else .always","C34 '!' adds self only if empty"),
("Query.lean","  | .ok l => notIf neg (.ok (decide (x.desc ∈ l.map some)))","  | .ok l => notIf false (.ok (decide (x.desc ∈ l.map some)))","C66 [~d:..] negates"),
("Query.lean","  | .ok l => notIf neg (.ok (decide (x.ito.text ∈ l)))","  | .ok l => notIf neg (.ok (decide (x.ito.string ∈ l)))","C66 string filter compares the node's text"),
("Query.lean","(decide (X.casefold x.ito.text ∈ l.map X.casefold))","(decide (x.ito.text ∈ l.map X.casefold))","C73 casefold filter folds the text"),
("Query.lean",".ok (fun x => fAny neg (X.casefold value) (fun s => .ok (endsWith (X.casefold x.ito.text) (X.casefold s))))",".ok (fun x => fAny neg (X.casefold value) (fun s => .ok (startsWith (X.casefold x.ito.text) (X.casefold s))))","C73 scfew is ends-with"),
("Query.lean",".ok (fun x => fAny neg value (fun s => x.ito.strEndswith [s] none none))",".ok (fun x => fAny neg value (fun s => x.ito.strStartswith [s] none none))","C73 sew is ends-with"),
("Query.lean",".ok (fun x => fAny neg value (fun s => x.ito.strStartswith [s] none none))",".ok (fun x => fAny false value (fun s => x.ito.strStartswith [s] none none))","C73 [~ssw:..] negates"),
("Query.lean","| some ps => allM (fun p => notIf neg (p.2 x.2)) (ps.filter (fun p => decide (p.1 ∈ keys))))","| some ps => allM (fun p => notIf neg (p.2 x.2)) ps)","C74 only the named predicates are asked"),
("Query.lean","(decide (v ∈ (vs.filter (fun p => decide (p.1 ∈ keys))).map Prod.snd))","(decide (v ∈ vs.map Prod.snd))","C74 only the named values count"),
("Query.lean","    | .ok i => .ok (i, some (i + 1))","    | .ok i => .ok (i, some i)","C40 [i:k] selects position k"),
("Query.lean","decide ((k : Int) < j)","decide ((k : Int) ≤ j)","C40 end of range excluded"),
("Query.lean","  | .ok false => .ok false\n  | .ok true => ph.subquery x","  | .ok false => ph.subquery x\n  | .ok true => ph.subquery x","C75 filter and subquery are both required"),
("Query.lean","| .ok r => .ok r.isSome)) (splitPhrases","| .ok r => .ok r.isNone)) (splitPhrases","C75 subquery is existential"),
("Query.lean","if path = [] ∨ ¬ path.any X.isPrintable then .error .valueError","if path = [] then .error .valueError","C67 a query without printable characters is rejected"),
("Query.lean","if countUnescaped o false txt ≠ countUnescaped c false txt then .error .valueError","if False then .error .valueError","C67 unbalanced brackets are rejected"),
("Query.lean","  | some q => pathText q ++ \"/*[i:\".toList","  | some q => pathText q ++ \"/*[d:\".toList","C33 path uses index filters"),
("Query.lean","phs.foldl (fun cur ph => ph.findAll env cur) r","phs.foldr (fun ph cur => ph.findAll env cur) r","C39 phrases run left to right"),
("Query.lean","  | x :: _, _ => .ok (some x)\n  | [], some e => .error e","  | x :: _, none => .ok (some x)\n  | _, some e => .error e","C39 find returns the first result even if a later one would raise"),
("Json.lean","| some n => .ok ⟨string, pathText x, itoDoc n⟩","| some n => .ok ⟨string, ['.'], itoDoc n⟩","C44 path of the node is kept"),
("Json.lean","  match doc.string.or string with","  match string with","C44 embedded string used"),
("Json.lean","| .mk s d none => .ok (.mk (Span.fromIndices len (some s.start) (some s.stop)) d none [])","| .mk s d none => .ok (.mk (Span.fromIndices len (some s.start) (some s.stop)) none none [])","C44 desc restored"),
("Json.lean","['.', '.', '.', '.'] x with","['.', '.'] x with","C44 whole tree from the root"),
("Eq.lean","def key (x : TIto) : Span × Option Nat × Option String × String := (x.span, x.vf, x.desc, x.str)","def key (x : TIto) : Span × Option Nat × Option String × String := (x.span, x.vf, none, x.str)","C46 equality compares descs"),
("Eq.lean","  else if !sub o.ty x.ty then false","  else if o.ty ≠ x.ty then false","C46 subclass instances may be equal"),
("Eq.lean","if x.ty ≠ o.ty ∧ sub o.ty x.ty = true then m o x else m x o","m x o","C46 symmetry via reflected operand"),
("Pickle.lean",".ok (.mk (h.str x) (h.span x) (h.obj x).desc ds)",".ok (.mk (h.str x) (h.span x) none ds)","C45 desc saved"),
("Pickle.lean","(h.upd x (fun _ => ⟨s, sp, d, none, none, kids⟩)).reparent x kids","(h.upd x (fun _ => ⟨s, sp, d, none, none, kids⟩))","C45 parents restored"),
("LineCol.lean","(PyStr.count x.string eol (some 0) (some prior) + 2,","(PyStr.count x.string eol (some 0) (some prior) + 1,","C49 line number"),
("LineCol.lean","x.start - (prior + eol.length) + 1)","x.start - prior + 1)","C49 column after the marker"),
("LineCol.lean","(1 + ms.length, 1 + (x.start - m.stop))","(1 + ms.length, 1 + (x.start - m.start))","C49 column after the match"),
("Format.lean","if isAlign d then r else if isAlign c then d :: r","if isAlign c then d :: r else if isAlign d then r","C48 fill character"),
("Format.lean","if c.conv = 'a' then env.ascii sub else env.repr sub","if c.conv = 'r' then env.ascii sub else env.repr sub","C48 !a is ascii"),
("Format.lean","if r = ['0'] then none else some (-(digitsVal r : Int))","some (-(digitsVal r : Int))","C48 !r0 keeps everything"),
("Format.lean","    if width < sub.length then\n","    if width ≤ sub.length then\n","C47 text of exactly the width is kept"),
("Format.lean","if lenAbbr ≥ width then PyStr.slice abbr (some (lenAbbr - width)) none","if lenAbbr ≥ width then abbr","C47 width never exceeded"),
("Format.lean","abbr ++ PyStr.slice sub (some (lenAbbr - width)) none","abbr ++ PyStr.slice sub (some (- width)) none","C47 room for the abbreviation"),
("Format.lean","let postLen := (width - lenAbbr) / 2","let postLen := (width - lenAbbr + 1) / 2","C47 middle: tail gets the smaller half"),
("Format.lean","(reMatches fs idxs).reverse fs","(reMatches fs idxs) fs","C48 substitution is simultaneous"),
("Format.lean","  | .substr => .ok x.text\n","  | .substr => .ok x.string\n","C48 %substr"),
("Format.lean","    | .start => env.fmtInt x.start fstr","    | .start => env.fmtInt x.stop fstr","C48 %start"),
("Format.lean","  if fs = [] then .ok x.text","  if fs = [] then .ok x.string","C48 empty format"),
("Arbor.lean","  | some n => decide (count < n)","  | some n => decide (count ≤ n)","C50 limit"),
("Arbor.lean","    | .leading => (0, 0)\n","    | .leading => (0, cur.start)\n","C50 leading: first piece"),
("Arbor.lean","    | .leading => (p.start, cur.start)\n","    | .leading => (p.stop, cur.start)\n","C50 leading keeps the separator"),
("Arbor.lean","    | .leading => c.piece x (p.start, x.stop)","    | .leading => c.piece x (p.stop, x.stop)","C50 leading: last piece"),
("Arbor.lean","if c.retention = .all ∧ cur.start < cur.stop then [cur] else []","if c.retention = .all then [cur] else []","C50 empty separators are not kept"),
("Arbor.lean","if prior = none ∧ rv.length = 0 ∧ c.zeroSplit then","if prior = none ∧ rv.length = 0 then","C50 return_zero_split"),
("Arbor.lean","    | [], none => nuco rs\n","    | [], none => .done\n","C52 next alternative"),
("Arbor.lean","    if start < i.start then\n","    if start ≤ i.start then\n","C53 no empty pieces"),
("Arbor.lean","      if i.stop < n.stop then\n","      if i.stop ≤ n.stop then\n","C53 no empty tail"),
("Arbor.lean","  | window, [], none => ⟨window, none⟩","  | window, [], none => ⟨[], none⟩","C54 the last window is yielded"),
("Arbor.lean","        | w :: ws => .yield w (windowedLoop size pred join ws xs e)","        | w :: ws => .yield w (windowedLoop size pred join [] xs e)","C54 only the first of the window is passed on"),
("Arbor.lean","    if stack.length > 0 then\n      match reduce stack with\n      | .error e => .raise e\n      | .ok y => .yield y .done\n    else .done","    .done","C55 the last stack is reduced"),
("Arbor.lean","        | .ok y => .yield y (fresh ())","        | .ok y => .yield y (stackedLoop reduce push pop [] xs e)","C55 the popping Ito is not lost"),
("Box.lean","(degrees % 360 / 45 + 1).toNat","(degrees % 360 / 45).toNat","C56 from_degrees"),
("Box.lean","d.rotate ((surface.value - d.value) * 2)","d.rotate (surface.value - d.value)","C56 reflect"),
("Box.lean","    if distance i targets < b then fuzzyLoop","    if distance i targets > b then fuzzyLoop","C69 nearest"),
("Box.lean","  | none => 4\n","  | none => 0\n","C69 missing direction counts"),
("Box.lean","List.replicate (width - s.length - (width - s.length) / 2) ' '","List.replicate ((width - s.length) / 2) ' '","C58 odd padding"),
("Box.lean","[b.nw ++ repeatStr b.n (maxLine + 2) ++ b.ne]","[b.nw ++ repeatStr b.n maxLine ++ b.ne]","C58 border width"),
("Box.lean","  | x :: xs => .ok (xs.foldl max x)","  | x :: xs => .ok (xs.foldl min x)","C58 widest line"),
("Highlight.lean","  if last < stop then compose backs s p k last stop else .ok ([], k)","  compose backs s p k last stop","C57 no empty segments"),
("Highlight.lean","    let r3 ← printKids backs s pred path sp r2.2 (i + 1) c.stop cs","    let r3 ← printKids backs s pred path sp r2.2 (i + 1) c.start cs","C57 text printed once"),
("Highlight.lean","    let r2 ← printNode backs s pred (path ++ [i]) r1.2 c","    let r2 ← printNode backs s pred (path ++ [i]) k c","C57 colours advance"),
("Highlight.lean","| .ok c => .ok ([.code c, t, .reset], k + 1)","| .ok c => .ok ([.code c, t], k + 1)","C57 colour reset"),
("Ontology.lean","if is.length = 0 ∧ filterEmpties then [] else [(path, is)]","if is.length = 0 then [] else [(path, is)]","C59 filter_empties=False keeps empties"),
("Ontology.lean","(Disc.flattenAt filterEmpties (path ++ [k]) d)","(Disc.flattenAt filterEmpties (k :: path) d)","C59 paths"),
("Ontology.lean","  | .mk is ks => is ++ Disc.walkKids ks","  | .mk is ks => Disc.walkKids ks ++ is","C59 walk order"),
("Ontology.lean","rs.flatMap (fun rule => itos.flatMap rule)","itos.flatMap (fun i => rs.flatMap (fun rule => rule i))","C59 rule-major order"),
("Ontology.lean","    | .ok rv => rv.getPath (k' :: ks)","    | .ok _ => o.getPath (k' :: ks)","C70 nested lookup"),
("Ontology.lean","      if tokenP ≤ p then\n","      if tokenP < p then\n","C63 left associativity"),
("Ontology.lean","  | .xor | .or => 0\n  | .and => 1","  | .xor | .or => 1\n  | .and => 0","C63 & binds tighter"),
("Xml.lean","def getLocalName (tag : List Char) : List Char :=\n  let i := PyStr.find tag ['}'] none none\n  if i ≥ 0 then PyStr.slice tag (some (i + 1)) none","def getLocalName (tag : List Char) : List Char :=\n  let i := PyStr.find tag ['}'] none none\n  if i ≥ 0 then PyStr.slice tag (some i) none","C61 local name"),
("Xml.lean","  match x.strSplit [':'] 1 with","  match x.strSplit [':'] (-1) with","C61 only the first colon separates"),
("Xml.lean","let c := st.char + (cs.length : Int) - r.col","let c := st.char + (cs.length : Int)","C62 column subtracted"),
("Xml.lean","  if st.line < r.line then\n","  if st.line ≤ r.line then\n","C62 same line reuse (equivalent?)"),
("Xml.lean","if rv.len > 0 ∧ ¬ (ignoreEmpties = true ∧ rv.isAll ws false = true) then","if rv.len > 0 then","C71 whitespace texts ignored"),
("Xml.lean","let stop' := match first with | some f => f.start | none => endTag.start","let stop' := endTag.start","C71 leading text ends at first child"),
("Xml.lean","(last.bind (fun l => findText ws ign text l.stop endTag.start))","none","C71 tail of the last child"),
("Pepo.lean","(if c.children then compactKids c num fmt (level + 1) 1 ks else [])","(if c.children then compactKids c num fmt (level + 1) 0 ks else [])","C64 numbering from 1"),
("Pepo.lean","else if c = '<' then \"&lt;\".toList else [c]","else [c]","C64 escaping of <"),
("Pepo.lean","treeNode c fmt (pre ++ ([' '] ++ c.indent)) k\n","treeNode c fmt (pre ++ ([vert] ++ c.indent)) k\n","C64 no bar under the last child"),
("Pepo.lean","  else if c = '\"' then ['\\\\', '\"']\n","","C64 JSON string escaping"),
("Pepo.lean","(if ks = [] then [] else [','])","[]","C64 commas between children"),
("CloneHeap.lean","⟨h.str x, Span.fromIndices","⟨\"\", Span.fromIndices","C23 same string"),
("CloneHeap.lean","desc, (h.obj x).vf, none, []⟩","desc, none, none, []⟩","C23 value function copied"),
("CloneHeap.lean","    match h.add y cs with\n    | (h, .error e) => (h, .error e)\n    | (h, .ok ()) => (h, .ok y)","    (h, .ok y)","C23 children attached"),
("CloneHeap.lean","      | (h, .ok ys) => (h, .ok (y :: ys))","      | (h, .ok ys) => (h, .ok (x :: ys))","C23 copies, not originals, attached"),
("Pipeline.lean","  | (h, .ok y) => traverse G n i h y","  | (h, .ok _) => traverse G n i h x","C51 call works on a clone"),
("Pipeline.lean","  | yield h r k, f => (f h r).andThen (fun h' => (k h').forEach f)","  | yield h r k, f => ((k h).forEach f).andThen (fun h' => f h' r)","C51 order of results"),
("Pipeline.lean","    match h.clear x with\n    | (h, .error e) => (h, .error e)\n    | (h, .ok ()) => h.add x children\n","    h.add x children\n","C51 replace clears first"),
("Pipeline.lean","      | .delegate => trav c.target h x\n","      | .delegate => (trav c.target h x).forEach (flow fuel trav cs)\n","C51 delegate ends the flow (differs from recurse only with later connections)"),
("Pipeline.lean","        | (h, .ok _) => flow fuel trav cs h x\n      | k","        | (h, .ok ys) => (Gen.ofList ys h).forEach (flow fuel trav cs)\n      | k","C51 subroutine discards results"),
("Pipeline.lean","    | .ok false => flow fuel trav cs h x","    | .ok false => .done h","C51 a false predicate passes on"),
("Pipeline.lean","    .yield (h.newLike x a b d) h.next (pieces x ps)","    .yield (h.newLike x a b d) x (pieces x ps)","C51 pieces are new objects"),
]
