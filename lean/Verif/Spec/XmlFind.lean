/-!
# Elements with expanded names, and those below an element
-/
namespace XmlFindSpec

/-- An element: which object it is, its namespace if it has one, its local name, its child elements. -/
inductive NElem where
  | mk (id : Nat) (ns : Option (List Char)) (loc : List Char) (kids : List NElem)

/-- Which object. -/
def NElem.id : NElem → Nat
  | .mk i _ _ _ => i
/-- Its namespace. -/
def NElem.ns : NElem → Option (List Char)
  | .mk _ n _ _ => n
/-- Its local name. -/
def NElem.loc : NElem → List Char
  | .mk _ _ l _ => l
/-- Its child elements. -/
def NElem.kids : NElem → List NElem
  | .mk _ _ _ ks => ks

/-- `Below x e`: `x` is a child of `e`, or below a child. -/
inductive Below : NElem → NElem → Prop
  | child {x e} : x ∈ e.kids → Below x e
  | deeper {x k e} : k ∈ e.kids → Below x k → Below x e

/-- How ElementTree writes a name: `{ns}loc`, or `loc` alone. -/
def tagText : Option (List Char) → List Char → List Char
  | none, l => l
  | some n, l => '{' :: n ++ '}' :: l

mutual
/-- The elements below, in document order: each child before what is below it, and that before the next child. -/
def NElem.under : NElem → List NElem
  | .mk _ _ _ ks => underK ks
/-- The same for several elements, each included. -/
def underK : List NElem → List NElem
  | [] => []
  | k :: ks => k :: k.under ++ underK ks
end

end XmlFindSpec
