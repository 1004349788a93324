import Verif.Spec.Xml
/-!
# The starts and ends of the elements of a document, in order
-/
namespace XmlSpec

mutual
/-- Where expat sees elements start (`true`) and end (`false`), for an element written at `p`. -/
def eventsAt (p : Nat) : XElem → List (Bool × Nat)
  | .empty tag => [(true, p), (false, p + tag.length)]
  | .node o t ks _ => (true, p) :: (eventsK (p + o.length + t.length) ks ++
      [(false, p + o.length + t.length + (renderK ks).length)])
/-- The same for child elements. -/
def eventsK (p : Nat) : XKids → List (Bool × Nat)
  | .nil => []
  | .cons e t ks => eventsAt p e ++ eventsK (p + (render e).length + t.length) ks
end

end XmlSpec
