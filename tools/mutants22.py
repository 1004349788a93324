E="Errors.lean"; I="Infix.lean"
MUTANTS=[
(E,"if q = \"Callable\" then [s] else [q]","[q]","the parameters of a callable are not shown"),
(E,"  | .bound b => b.strs","  | .bound b => []","types with a bound are left out"),
(E,"  | t :: ts => t.strs ++ typeStrs ts","  | t :: _ => t.strs","only the first type is named"),
(E,"if v.callable then v.signature else v.repr","v.repr","a callable is shown by its repr"),
(E,"an element of type \" ++ a ++ \": \" ++ s","an element of type \" ++ s ++ \": \" ++ a","type and value swapped"),
(E,"  | .ok a => ⟨.typeError, some (\"parameter '\" ++ name ++ \"' must be type \"","  | .ok a => ⟨.valueError, some (\"parameter '\" ++ name ++ \"' must be type \"","ValueError is raised"),
(I,"def Infix.ror (self : Infix α) (other : α) : Infix α := ⟨.one fun x => self.function.call2 other x⟩","def Infix.ror (self : Infix α) (other : α) : Infix α := ⟨.one fun x => self.function.call2 x other⟩","operands of | swapped"),
(I,"def Infix.rlshift (self : Infix α) (other : α) : Infix α := ⟨.one fun x => self.function.call2 other x⟩","def Infix.rlshift (self : Infix α) (other : α) : Infix α := ⟨.one fun x => self.function.call2 other other⟩","the second operand of << >> is lost"),
(I,"Except PyErr α := self.function.call2 x y","Except PyErr α := self.function.call2 y x","op(x, y) swaps"),
(I,"  | some a, _ => .ok (some a)","  | some a, none => .ok none\n  | some _, some b => .ok (some b)","nuco gives the last value"),
(I,"  | none, y => .ok y","  | none, _ => .ok none","nuco gives the left operand"),
]
