M='LazyQuery.lean'
MUTANTS=[
(M,"  | .until c => if c.holds h j then .stop else .give (.until c)","  | .until c => if c.holds h j then .skip else .give (.until c)","takewhile skips instead of stopping"),
(M,"  | .since c => if c.holds h j then .skip else .give .all","  | .since c => if c.holds h j then .skip else .give (.since c)","dropwhile keeps testing after its first item"),
(M,"  | .leaf => if (h.kids j).length = 0 then .give .leaf else .skip","  | .leaf => if (h.kids j).length = 1 then .give .leaf else .skip","leaves are the nodes with one child"),
(M,"some (.item c (.kids p (i + 1)))","some (.item c (.kids p (i + 2)))","the iterator over children skips every second child"),
(M,"  | .held first c => if first ≠ s then some (.item (1, first) (.on 2 c)) else loop 1 c","  | .held first c => if first ≠ s then some (.item (1, first) (.on 1 c)) else loop 1 c","two items get number 1"),
(M,"      else if a.orSelf = .always ∧ a.rev = true then some (.item (e, s) .fin)","      else if a.orSelf = .always ∧ a.rev = true then some (.item (0, s) .fin)","the Ito itself has number 0 although it comes last"),
(M,"      if e = 0 then if a.orSelf ≠ .no then some (.item (0, s) .fin) else some .ended","      if e = 0 then if a.orSelf = .always then some (.item (0, s) .fin) else some .ended","or-self `!` gives nothing when there are no candidates"),
(M,"| .ancestors => (ancestorsOf n h i).map (fun l => .ok (.list (if a.rev then l.reverse else l)))","| .ancestors => (ancestorsOf n h i).map (fun l => .ok (.list l))","reversed ancestors come nearest first"),
(M,"      | .ok k => some (.ok (.list (if k + 1 < (h.kids p).length then ((h.kids p)[k + 1]?).toList else [])))","      | .ok k => some (.ok (.list (if k + 2 < (h.kids p).length then ((h.kids p)[k + 1]?).toList else [])))","the last child is never a next sibling"),
(M,"    | some (.item j w') => if j = i then some (.ok w') else skipTo n h i w'","    | some (.item j w') => if j = i then some (.ok w) else skipTo n h i w'","preceding includes the Ito itself"),
(M,"        if a.rev then some (.ok (.walk (.start false r) (.until (.is i)) anc))","        if a.rev then some (.ok (.walk (.start false r) (.until (.is i)) []))","reversed preceding includes the ancestors"),
(M,"    else if a.rev then some (.ok (.walk (.start true r) (.until (.before i)) []))","    else if a.rev then some (.ok (.walk (.start true r) (.until (.is i)) []))","reversed following includes descendants"),
(M,"dedupObjs h (seen ++ [x]) xs","dedupObjs h (x :: seen) xs","`><` reverses the order"),
(M,"  | .self => .self ph src 0","  | .self => .self ph src 1","numbers for `.` start at 1"),
(M,"      | .ok true => some (.item x (.self ph src' (e + 1)))","      | .ok true => some (.item x (.self ph src' e))","numbers for `.` do not grow"),
(M,"        pull n h (.loop ph (.list []) (some (x, .start (.list []))))\n","        pull n h (.loop ph src' (some (x, .start (.list []))))\n","`<<<` of a root goes on with the other Itos"),
(M,"        match acc.getLast? with","        match acc.head? with","`<<<` uses the first Ito instead of the last"),
(M,"    | some .ended => pull n h (.loop ph src none)","    | some .ended => some .ended","a phrase ends after its first Ito"),
(M,"      | .ok false => pull n h (.loop ph src (some (i, s')))","      | .ok false => pull n h (.loop ph src none)","a candidate that fails ends those of its Ito"),
(M,"def begin (phs : List LPhrase) (x : Nat) : Search := phs.foldl enter (.list [x])","def begin (phs : List LPhrase) (x : Nat) : Search := phs.foldr (fun p c => enter c p) (.list [x])","phrases applied last to first"),
(M,"(h.upd x (fun o => { o with desc := d }), .ok ())","(h.upd x (fun o => { o with vf := none }), .ok ())","setting desc does not set it"),
]
