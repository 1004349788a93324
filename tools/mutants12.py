MUTANTS=[
("Hier.lean","        let h := h.setParent x (some p)\n        (h.setKids p (h.kids p ++ [x]), .ok ())","        (h.setKids p (h.kids p ++ [x]), .ok ())","C28 in memory: first child keeps no parent"),
("Hier.lean","          else (h.setParent x (some p), .ok ())\n        | .same i =>","          else (h, .ok ())\n        | .same i =>","C28 in memory: inserted child has no parent pointer"),
("Hier.lean","        | .insert i =>\n          let h := h.setKids p ((h.kids p).insertIdx i x)","        | .insert i =>\n          let h := h.setKids p ((h.kids p).insertIdx (i + 1) x)","C28 in memory: inserted one place too far right"),
("Hier.lean","        match addHier key n h p child with\n        | (h, .error e) => (h, .error e)\n        | (h, .ok ()) => flatten key n h p x","        flatten key n h p x","C29 in memory: the argument's children are popped and lost"),
("Hier.lean","            if (match key with | none => true | some f => decide (f x ≥ f tmp)) then addHier key n h tmp x","            if true then addHier key n h tmp x","C30/C68 in memory: key ignored between equal spans"),
("Hier.lean","    match h.add x tmp with\n    | (h, .error e) => (h, .error e)\n    | (h, .ok ()) =>\n      let h := h.setKids p ((h.kids p).insertIdx i x)","    match h.add x tmp with\n    | (h, .error e) => (h, .error e)\n    | (h, .ok ()) =>\n      let h := h.setKids p ((h.kids p).insertIdx j x)","C28 in memory: absorbing Ito put after the wrong sibling"),
("Hier.lean","  match h.delSlice p (some (i : Int)) (some (j : Int)) with\n  | (h, .error e) => (h, .error e)\n  | (h, .ok ()) =>\n    match h.add x tmp with","  match h.delSlice p (some (i : Int)) (some (j : Int)) with\n  | (h, .error e) => (h, .error e)\n  | (h, .ok ()) =>\n    match h.add x (tmp.drop 1) with","C29 in memory: first absorbed child is orphaned"),
("Hier.lean","    if h.parent x ≠ none then (h, .error .valueError)\n    else if h.kids p = [] then\n      if h.setParentRaises x p then (h, .error .valueError)","    if h.parent x ≠ none then (h, .error .valueError)\n    else if h.kids p = [] then\n      if h.setParentRaises x p then (h.setKids p [x], .error .valueError)","C27: failing on an empty store leaves the argument behind (only reached when outside)"),
]
