MUTANTS=[
("Copy.lean","(h.obj x).desc r.2, h.next)","(h.obj x).desc r.2.reverse, h.next)","C109: children in reverse"),
("Copy.lean","      match deepcopyAll n r.1 xs with","      match deepcopyAll n h xs with","C109: copies of later children overwrite those of earlier ones"),
("Copy.lean","    match deepcopyAll n h.blank (h.kids x) with","    match (Except.ok (h.blank, h.kids x) : Except PyErr (Heap × List Nat)) with","C109: the children are not copied but shared"),
("Copy.lean","    coll := fun j => if j = s.heap.next then s.coll x else s.coll j }","    coll := fun j => if j = s.heap.next then s.heap.next else s.coll j }","C111_copy_exact: the copy has a collection of its own"),
("ValueFunc.lean","let s' := s.put i { s.slot i with attr := some (g, i) }","let s' := s.put i { s.slot i with attr := some (g, s.next) }","C110: the closure captures another object"),
("ValueFunc.lean","  | some g => s.new.set fits s.next (some g)","  | some g => (s.push ⟨some g, (s.slot i).attr⟩, .ok ())","C110: the clone shares the original's bound closure"),
("ValueFunc.lean","if (s.slot i).func.isSome then s.delattr i else (s, .ok ())","s.delattr i","C110_raises: clearing an unset function raises"),
("ValueFunc.lean","if (s.slot i).func.isSome then s.delattr i else (s, .ok ())","((s, Except.ok ()) : Store F × Except PyErr Unit)","C110: clearing leaves the bound closure"),
("ValueFunc.lean","  if f.any (fun g => !fits g) then (s, .error .typeError)\n  else","  if f.any (fun g => !fits g) then (s.put i ⟨none, none⟩, .error .typeError)\n  else","C110: a refused assignment clears the function"),
("BoxMake.lean","    match p.reflect t (cornerDirs prior).2 with","    match p.reflect t (cornerDirs prior).1 with","C114: single corner mirrored on the wrong axis"),
("BoxMake.lean","    | .ok b => joinE t (armRot a (cornerDirs i).1 180) (armRot b (cornerDirs j).2 180)","    | .ok b => joinE t (armRot a (cornerDirs i).2 180) (armRot b (cornerDirs j).1 180)","C114: sides from the arms that do not touch"),
("BoxMake.lean",".ok ⟨c0, s0, c1, s3, s1, c3, s2, c2⟩",".ok ⟨c0, s0, c1, s1, s3, c3, s2, c2⟩","C114: east and west side exchanged"),
("BoxMake.lean","        if permScore cs p > b then","        if permScore cs p < b then","(harmless for the claims: a complete permutation ends the search)"),
("BoxMake.lean","  if k ≥ 2 then 2 else k","  if k ≥ 1 then 2 else k","C114: a corner with one of its arms counts as fitting"),
("BoxMake.lean","    if permScore cs p = cs.length * 2 then some (p, permScore cs p)","    if permScore cs p = 2 then some (p, permScore cs p)","C114: the search ends with one fitting corner"),
("BoxMake.lean","(permutations k (xs.filter (· ≠ x))).map (x :: ·)","(permutations k xs).map (x :: ·)","C114: two corners at the same place"),
("BoxMake.lean",".ok ⟨c3, s0, c0, s3, s1, c2, s2, c1⟩",".ok ⟨c0, s0, c3, s3, s1, c2, s2, c1⟩","C113: north-west and north-east corner exchanged"),
("BoxMake.lean","  match d1.rotate (-90) with" if False else "    match d1.rotate (-90) with","    match d1.rotate 90 with","C113: wrong arm of the second side"),
("BoxMake.lean","    match (sideDir prior).rotate 45 with","    match (sideDir prior).rotate 90 with","C113_one_side: mirrored on an axis instead of a diagonal"),
("BoxMake.lean","        match p.rotate t 90 with\n        | .error e => .error e\n        | .ok b => .ok (sides.set cur (.bdc b))","        match p.rotate t 180 with\n        | .error e => .error e\n        | .ok b => .ok (sides.set cur (.bdc b))","C113: missing side lies across its edge"),
("BoxTable.lean","'╱'","'╲'","C112: two entries with one character"),
]
