import Verif.Model.Xml
/-!
# Specification: documents, where their parts are, and the Ito tree one expects

An element is an empty-element tag, or a start tag, text, child elements each followed by text, and an end tag.
"Text" is everything that is not an element's tag: character data, comments, processing instructions.
-/
namespace XmlSpec
open Pawpaw Pawpaw.Xml

mutual
/-- An element as written. -/
inductive XElem where
  | empty (tag : List Char)
  | node (opn : List Char) (text : List Char) (kids : XKids) (cls : List Char)
/-- Child elements, each followed by text. -/
inductive XKids where
  | nil
  | cons (e : XElem) (text : List Char) (ks : XKids)
end

mutual
/-- The characters of an element. -/
def render : XElem → List Char
  | .empty tag => tag
  | .node o t ks c => o ++ t ++ renderK ks ++ c
def renderK : XKids → List Char
  | .nil => []
  | .cons e t ks => render e ++ t ++ renderK ks
end

mutual
/-- The `ElementTree` element for an element written at position `p`, with the positions expat reports: of its
start tag, and of its end tag (after the tag, for an empty-element tag). -/
def elemAt (p : Nat) : XElem → Elem
  | .empty tag => .mk p (p + tag.length : Nat) []
  | .node o t ks _ => .mk p (p + o.length + t.length + (renderK ks).length : Nat) (elemsAt (p + o.length + t.length) ks)
def elemsAt (p : Nat) : XKids → List Elem
  | .nil => []
  | .cons e t ks => elemAt p e :: elemsAt (p + (render e).length + t.length) ks
end

/-- A text at position `p`, when it is kept. -/
def textAt (keep : List Char → Bool) (p : Nat) (t : List Char) : List Node :=
  if t ≠ [] ∧ keep t = true then [.leaf ⟨p, (p + t.length : Nat)⟩ (some "text")] else []

mutual
/-- The Ito tree for an element written at position `p`: start tag, kept texts and elements in document order,
end tag. -/
def itoAt (keep : List Char → Bool) (p : Nat) : XElem → Node
  | .empty tag => .mk ⟨p, (p + tag.length : Nat)⟩ (some "element") none
      [.leaf ⟨p, (p + tag.length : Nat)⟩ (some "start_tag")]
  | .node o t ks c => .mk ⟨p, (p + (o ++ t ++ renderK ks ++ c).length : Nat)⟩ (some "element") none
      (.leaf ⟨p, (p + o.length : Nat)⟩ (some "start_tag") ::
        (textAt keep (p + o.length) t ++ itosAt keep (p + o.length + t.length) ks ++
          [.leaf ⟨(p + (o ++ t ++ renderK ks).length : Nat), (p + (o ++ t ++ renderK ks ++ c).length : Nat)⟩
            (some "end_tag")]))
def itosAt (keep : List Char → Bool) (p : Nat) : XKids → List Node
  | .nil => []
  | .cons e t ks => itoAt keep p e ::
      (textAt keep (p + (render e).length) t ++ itosAt keep (p + (render e).length + t.length) ks)
end

/-- `s` is `<`, characters other than `>`, then `e`. -/
def TagText (e s : List Char) : Prop := ∃ b, '>' ∉ b ∧ s = '<' :: b ++ e

mutual
/-- What the result below needs: no `>` within a tag, and no element without child elements whose start tag and
text end in `/>` or `?>`. -/
def Plain : XElem → Prop
  | .empty tag => TagText ['/', '>'] tag
  | .node o t ks c => TagText ['>'] o ∧ TagText ['>'] c ∧
      (ks matches .nil → ¬ ['/', '>'] <:+ o ++ t ∧ ¬ ['?', '>'] <:+ o ++ t) ∧ PlainK ks
def PlainK : XKids → Prop
  | .nil => True
  | .cons e _ ks => Plain e ∧ PlainK ks
end

mutual
/-- No start tag of the element, written at `p` in the document `T`, makes the parser raise while it looks for the
tag's name and attributes. -/
def Quiet (T : List Char) (p : Nat) : XElem → Prop
  | .empty tag => ∃ ks, startKids ⟨T, ⟨p, (p + tag.length : Nat)⟩, some "start_tag"⟩ = .ok ks
  | .node o t ks _ => (∃ ks, startKids ⟨T, ⟨p, (p + o.length : Nat)⟩, some "start_tag"⟩ = .ok ks) ∧
      QuietK T (p + o.length + t.length) ks
def QuietK (T : List Char) (p : Nat) : XKids → Prop
  | .nil => True
  | .cons e t ks => Quiet T p e ∧ QuietK T (p + (render e).length + t.length) ks
end

mutual
/-- The tree without what is inside tags and texts. -/
def outline : Node → Node
  | .mk sp d v ks => .mk sp d v (if d = some "element" then outlineK ks else [])
def outlineK : List Node → List Node
  | [] => []
  | k :: ks => outline k :: outlineK ks
end

mutual
/-- The tags and texts of a tree, in order: everything but the elements. -/
def leafTexts (s : List Char) : Node → List (List Char)
  | .mk sp d _ ks =>
    if d = some "element" then leafTextsK s ks else [PyStr.slice s (some sp.start) (some sp.stop)]
def leafTextsK (s : List Char) : List Node → List (List Char)
  | [] => []
  | k :: ks => leafTexts s k ++ leafTextsK s ks
end

end XmlSpec
