MUTANTS=[
("Lazy.lean","⟨c, 0, f.lvl + 1⟩ :: ⟨f.node, f.idx + 1, f.lvl⟩ :: fs)\n    | none => walkNext h fs","⟨f.node, f.idx + 1, f.lvl⟩ :: ⟨c, 0, f.lvl + 1⟩ :: fs)\n    | none => walkNext h fs","C106: children of a node come after its siblings"),
("Lazy.lean","⟨c, 0, f.lvl + 1⟩ :: ⟨f.node, f.idx + 1, f.lvl⟩ :: fs)\n    | none => walkNext h fs","⟨c, 0, f.lvl⟩ :: ⟨f.node, f.idx + 1, f.lvl⟩ :: fs)\n    | none => walkNext h fs","C106: levels do not increase"),
("Lazy.lean","    | none => walkNext h fs","    | none => none","C106: the walk ends with the first leaf"),
("Lazy.lean","⟨f.node, f.idx + 1, f.lvl⟩ :: fs)\n    | none => walkNext h fs","⟨f.node, f.idx + 2, f.lvl⟩ :: fs)\n    | none => walkNext h fs","C106: every second child is skipped"),
("Lazy.lean","  | g :: gs => .item (g.lvl, x) (g :: gs)","  | g :: gs => .item (g.lvl + 1, x) (g :: gs)","C106_reverse: wrong level"),
("Lazy.lean","some c => revNext h n (⟨c, none, f.lvl + 1⟩ :: ⟨f.node, some k, f.lvl⟩ :: fs)","some c => revNext h n (⟨c, some 0, f.lvl + 1⟩ :: ⟨f.node, some k, f.lvl⟩ :: fs)","C106_reverse: descendants of children left out"),
("Lazy.lean","      | (h', .ok ()) => forKids body p n (i + 1) h'","      | (h', .ok ()) => forKids body p n i h'","C107: the iterator stays where it is (then all are removed)"),
("Lazy.lean","      | (h', .ok ()) => forKidsRev body p i h'","      | (h', .ok ()) => forKidsRev body p (i - 1) h'","C107: reversed loop leaves every second child"),
("Lazy.lean","  match h.delSlice p a b with\n  | (h', .error e) => some (h', .error e)\n  | (h', .ok ()) => setLazyLoop pred q p n (Span.fromIndices (h.kids p).length a b).start.toNat 0 h'","  match h.setSlice p a b ((h.kids q).filter pred) with\n  | (h', r) => some (h', r)","C108: values read before the deletion (the bug repaired)"),
]
