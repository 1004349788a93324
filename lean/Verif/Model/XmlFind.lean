import Verif.Model.Xml
/-!
# Model of `XmlHelper.find_all_descendants_by_local_name` and `find_descendant_by_local_name`

An `Element` is an object: `id` tells it from others. Tags are texts.
-/
namespace Pawpaw
namespace XmlFind

/-- `ET.Element`, as far as it is used here. -/
inductive El where
  | mk (id : Nat) (tag : List Char) (kids : List El)

/-- The identity of an element. -/
def El.id : El → Nat
  | .mk i _ _ => i

/-- `e.tag` -/
def El.tag : El → List Char
  | .mk _ t _ => t

mutual
/-- `element.iter()`: the element, then its children's `iter()`, one after the other. -/
def El.iter : El → List El
  | .mk i t ks => .mk i t ks :: iterK ks
/-- The same for children. -/
def iterK : List El → List El
  | [] => []
  | k :: ks => k.iter ++ iterK ks
end

/-- `element.findall('.//')`: `xml.etree.ElementPath` reads this as `'.//*'`, and takes from `element.iter()` what `is not` the
element itself. -/
def findallBelow (e : El) : List El := e.iter.filter fun x => decide (x.id ≠ e.id)

/-- `find_all_descendants_by_local_name(element, local_name)`, `/repo/pawpaw/xml/xml_helper.py:182-192`. -/
def findAll (e : El) (name : List Char) : List El :=
  (findallBelow e).filter fun x => decide (name = Xml.getLocalName x.tag)

/-- `find_descendant_by_local_name(element, local_name)`, `/repo/pawpaw/xml/xml_helper.py:194-196`. -/
def find (e : El) (name : List Char) : Option El := (findAll e name).head?

end XmlFind
end Pawpaw
