Q="Query.lean"; E="Ecf.lean"; F="Family.lean"; X="XmlFind.lean"
MUTANTS=[
(E,"  else if (operands.map (fun op => op.count '(')).sum ≠ (operands.map (fun op => op.count ')')).sum then\n    .error .valueError\n","","unequal numbers of parentheses are accepted"),
(E,"    | none => .error .typeError\n","    | none => .ok (vals.headD true)\n","without an operator the first value is returned"),
(E,"diadic : List (Char × (Bool → Bool → Bool)) := [('&', and), ('^', xor), ('|', or)]","diadic : List (Char × (Bool → Bool → Bool)) := [('&', and), ('|', or), ('^', xor)]","or binds stronger than xor"),
(E,"reduce vals.length vals ((operands.drop 1).dropLast)","reduce vals.length vals (operands.dropLast)","the operand before the first filter counts"),
(E,"if operand.count '~' % 2 = 1 then !rv else rv","if operand.count '~' ≥ 1 then !rv else rv","a double negation negates"),
(Q,"decide (c ∈ operators) || decide (c ∈ ['(', ')', ' '])","decide (c ∈ ['(', ')', ' '])","operators before a sub-query are not backed over"),
(X,"  | k :: ks => k.iter ++ iterK ks","  | k :: ks => iterK ks ++ k.iter","descendants come in reverse"),
(X,"decide (x.id ≠ e.id)","true","the element itself is among its descendants"),
(X,"decide (name = Xml.getLocalName x.tag)","decide (name = x.tag)","the whole tag is compared"),
(X,"(findAll e name).head?","(findAll e name).getLast?","the last descendant is found"),
(X,"  | .mk i t ks => .mk i t ks :: iterK ks","  | .mk i t ks => .mk i t ks :: ks","only children are searched"),
(F,"h.descendsFrom n y x","h.descendsFrom n x y","ancestors instead of descendants"),
]
