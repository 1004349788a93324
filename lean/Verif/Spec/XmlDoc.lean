import Verif.Spec.XmlTag
import Verif.Spec.Xml
/-!
# Specification: elements written with their tags, attributes and texts, and the whole Ito tree one expects
-/
namespace XmlSpec
open Pawpaw Pawpaw.Xml

mutual
/-- An element: an empty-element tag; or a start tag, text, child elements each followed by text, and an end tag. -/
inductive DElem where
  | empty (tag : STag)
  | node (opn : STag) (text : List Seg) (kids : DKids) (cls : ETag)
inductive DKids where
  | nil
  | cons (e : DElem) (text : List Seg) (ks : DKids)
end

mutual
/-- The element with its tags and texts as characters. -/
def DElem.plain : DElem → XElem
  | .empty t => .empty (t.chars ['/', '>'])
  | .node o ss ks c => .node (o.chars ['>']) (segsChars ss) ks.plain c.chars
def DKids.plain : DKids → XKids
  | .nil => .nil
  | .cons e ss ks => .cons e.plain (segsChars ss) ks.plain
end

/-- The characters of an element. -/
def DElem.chars (e : DElem) : List Char := render e.plain
/-- Those of child elements and the texts after them. -/
def DKids.chars (ks : DKids) : List Char := renderK ks.plain

/-- A text at `p`, when it is kept, with its comments and processing instructions. -/
def dTextAt (keep : List Char → Bool) (p : Nat) (ss : List Seg) : List Node :=
  if segsChars ss ≠ [] ∧ keep (segsChars ss) = true then
    [.mk ⟨p, (p + (segsChars ss).length : Nat)⟩ (some "text") none (segsAt p ss)]
  else []

mutual
/-- The whole Ito tree for an element written at `p`. -/
def DElem.at (keep : List Char → Bool) (p : Nat) : DElem → Node
  | .empty t =>
    .mk ⟨p, (p + (t.chars ['/', '>']).length : Nat)⟩ (some "element") none
      [.mk ⟨p, (p + (t.chars ['/', '>']).length : Nat)⟩ (some "start_tag") none (t.kids p)]
  | .node o ss ks c =>
    let p1 := p + (o.chars ['>']).length
    let p2 := p1 + (segsChars ss).length
    let p3 := p2 + ks.chars.length
    let p4 := p3 + c.chars.length
    .mk ⟨p, p4⟩ (some "element") none
      (.mk ⟨p, p1⟩ (some "start_tag") none (o.kids p) ::
        (dTextAt keep p1 ss ++ ks.at keep p2 ++ [.mk ⟨p3, p4⟩ (some "end_tag") none [c.name.at (p3 + 2)]]))
def DKids.at (keep : List Char → Bool) (p : Nat) : DKids → List Node
  | .nil => []
  | .cons e ss ks =>
    e.at keep p :: (dTextAt keep (p + e.chars.length) ss ++ ks.at keep (p + e.chars.length + (segsChars ss).length))
end

mutual
/-- What is assumed of an element: of its tags and texts what `STag.OK`, `ETag.OK` and `Seg.OK` say, and that the text
of an element without child elements does not end in `/>` or `?>`. -/
def DElem.OK : DElem → Prop
  | .empty t => t.OK
  | .node o ss ks c => o.OK ∧ (∀ s ∈ ss, s.OK) ∧ c.OK ∧
      (ks = .nil → ¬ ['/', '>'] <:+ segsChars ss ∧ ¬ ['?', '>'] <:+ segsChars ss) ∧ ks.OK
def DKids.OK : DKids → Prop
  | .nil => True
  | .cons e ss ks => e.OK ∧ (∀ s ∈ ss, s.OK) ∧ ks.OK
end

end XmlSpec
