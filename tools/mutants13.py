MUTANTS=[
("Step.lean","  | none => if s > 0 then 0 else (n : Int) - 1\n","  | none => if s > 0 then 0 else (n : Int)\n","C103: children[::-s] starts one past the last child"),
("Step.lean","  if s > 0 then (if i < j then ((j - i - 1) / s + 1).toNat else 0)","  if s > 0 then (if i < j then ((j - i) / s + 1).toNat else 0)","C103: the stop bound is included when it lies on a step"),
("Step.lean","    (h.setKids p (dropIdx (stepIdx (h.kids p).length a b s) 0 (h.kids p)), .ok ())","    (h.setKids p (dropIdx (stepIdx (h.kids p).length a b s) 1 (h.kids p)), .ok ())","C103: del removes the neighbours of the selected children"),
("Step.lean","    let h := h.unparent itos\n","    let h := h.unparent (itos.drop 1)\n","C103: one removed child keeps its parent"),
("Step.lean","    if start > (h.kids p).length then (h, .error .indexError)\n    else\n","","C104: no IndexError beyond the children left"),
("Step.lean","      | (h', .ok ()) => setStepLoop h' p (start + 1) xs","      | (h', .ok ()) => setStepLoop h' p start xs","C104: values inserted in reverse"),
("Heap.lean","    | (h', .ok ()) => setSliceLoop h' p (start + 1) xs","    | (h', .ok ()) => setSliceLoop h' p start xs","C26: slice values inserted in reverse order"),
("Heap.lean","  match h.delInt p start with\n  | (h', .error e) => (h', .error e)\n  | (h', .ok ()) => h'.insertAt p x start.toNat","  match h.insertAt p x start.toNat with\n  | (h', .error e) => (h', .error e)\n  | (h', .ok ()) => h'.delInt p (start + 1)","C26: item assignment inserts before deleting (atomic, but refuses overlap with the old child)"),
("Ecf.lean","          if nc - lo = 1 then parens fuel filters (operands.set lo tmp)","          if nc - lo = 1 then parens fuel filters operands","C37: lone group keeps the text before it and drops what is inside"),
("Ecf.lean","              (operands.take (lo + 1) ++ operands.drop nc)","              (operands.take lo ++ operands.drop nc)","C37: operand list shifted after a group"),
("Ecf.lean","  (List.range operands.length).reverse.find? (fun i => decide ('(' ∈ operands.getD i []))","  (List.range operands.length).find? (fun i => decide ('(' ∈ operands.getD i []))","C37: outermost group first"),
("Ecf.lean","    | none => .error .typeError\n","    | none => .ok true\n","C37_exact: a missing operator counts as true"),
("Arbor.lean","    else invertLoop len n desc i.stop (some i) is e","    else invertLoop len n desc start (some i) is e","C53: start not advanced over an adjoining inner Ito"),
("LineCol.lean","(PyStr.count x.string eol (some 0) (some prior) + 2,","(PyStr.count x.string eol (some 0) (some x.start) + 1,","C49_exact: lines counted up to the Ito (same for markers that do not overlap)"),
("Gaps.lean","        else if cur.start < last.stop then gapsLoop src desc zw cur rest","        else if cur.start < last.stop then gapsLoop src desc zw ⟨cur.start, max cur.stop last.stop⟩ rest","C16_exact: nested non-gaps handled (the bug repaired)"),
]
