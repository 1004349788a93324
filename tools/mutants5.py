MUTANTS=[
("XmlHelper.lean",'def qNamespace : List Char := "**[d:namespace]".toList','def qNamespace : List Char := "*[d:namespace]".toList',"C86 the prefix is found below the tag Ito"),
("XmlHelper.lean",'def qName : List Char := "**[d:name]".toList','def qName : List Char := "**[d:tag]".toList',"C86 the local part is the local name"),
("XmlHelper.lean",'if d.desc x ∉ [some "start_tag", some "attribute"] then','if d.desc x ∉ [some "start_tag", some "attribute", some "end_tag"] then',"C86 ValueError for other Itos"),
("XmlHelper.lean",'| .ok name => .ok ⟨ns, name⟩','| .ok name => .ok ⟨name, ns⟩',"C86 prefix first"),
("XmlHelper.lean",'(opt (.seq (.chr (· == \':\')) (plus (.chr fun _ => true))))','(.seq (.chr (· == \':\')) (plus (.chr fun _ => true)))',"C87 the default declaration counts"),
("XmlHelper.lean",'(opt (.seq (.chr (· == \':\')) (plus (.chr fun _ => true))))','(opt (.seq (.chr (· == \':\')) (.chr fun _ => true)))',"C87 prefixes of any length"),
("XmlHelper.lean",'.any fun st => decide (st.rest = [])','.any fun _ => true',"C87 fullmatch, not match"),
("XmlHelper.lean",'def qXmlns : List Char := "*[d:start_tag]/*[d:attributes]/*[d:attribute]{*[p:is_xmlns]}".toList','def qXmlns : List Char := "*[d:start_tag]/*[d:attributes]/*[d:attribute][p:is_xmlns]".toList',"C87 the tag within the attribute is tested"),
("XmlHelper.lean",'def qXmlns : List Char := "*[d:start_tag]/*[d:attributes]/*[d:attribute]{*[p:is_xmlns]}".toList','def qXmlns : List Char := "**[d:start_tag]/*[d:attributes]/*[d:attribute]{*[p:is_xmlns]}".toList',"C87 only the element's own start tag"),
("XmlHelper.lean",'def qValue : List Char := "*[d:value]".toList','def qValue : List Char := "*[d:tag]".toList',"C87 the value is the attribute's value"),
("XmlHelper.lean",'if same k\' k then (k\', v) :: r else (k\', v\') :: dictPut same k v r','(k\', v) :: r',"C87 all declarations are given"),
("XmlHelper.lean",'(l.filter fun kv => kv.1.pre.isSome).foldl','(l.filter fun _ => true).foldl',"C88 the default declaration is no prefix"),
("XmlHelper.lean",'(d.str kv.1.loc) (d.str kv.2) acc)','(d.str kv.1.pre) (d.str kv.2) acc)',"C88 keys are the declared prefixes"),
("XmlHelper.lean",'(l.find? fun kv => kv.1.pre.isNone)','(l.find? fun _ => true)',"C89 prefix declarations are no default"),
("XmlHelper.lean",'| .ok (some y) => defaultLoop X d n y','| .ok (some _) => .ok none',"C89 outer elements count"),
("XmlHelper.lean",'.ok (some (\'{\' :: d.text v ++ [\'}\']))','.ok (some (d.text v))',"C89 the namespace is in braces"),
("XmlHelper.lean",'def qParent : List Char := "...[d:element]".toList','def qParent : List Char := "....[d:element]".toList',"C90 the nearest ancestor"),
("XmlHelper.lean",'def qParent : List Char := "...[d:element]".toList','def qParent : List Char := "..[d:tag]".toList',"C90 an element"),
("XmlHelper.lean",'| .ok true => .ok (some x)\n    | .ok false =>','| .ok false => .ok (some x)\n    | .ok true =>',"C90 the test decides"),
("XmlHelper.lean",'| .ok (some y) => reverseLoop X d test n y','| .ok (some y) => .ok (some y)',"C90 the parent is tested too"),
("XmlHelper.lean",'def qText : List Char := "*[d:text]".toList','def qText : List Char := "**[d:text]".toList',"C91 not the texts of child elements"),
]
