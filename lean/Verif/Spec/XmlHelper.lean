import Verif.Spec.XmlDoc
import Verif.Model.XmlHelper
/-!
# Specification: names, namespace declarations, parents and texts of parsed elements

Only the vocabulary `Doc` (an Ito tree and its string) is taken from the model.
-/
namespace XmlSpec
open Pawpaw Pawpaw.Query Pawpaw.XmlHelper

/-- The Ito at `x` is the one for the attribute `a`, which is written there. -/
def AttrAt (d : Doc) (x : Path) (a : Attr) : Prop :=
  ∃ before after, d.tree.get? x = some (a.at before.length) ∧ d.string = before ++ a.chars ++ after

/-- The Ito at `x` is the one for the start tag `t`, which is written there and ends in `e`. -/
def STagAt (d : Doc) (x : Path) (t : STag) (e : List Char) : Prop :=
  ∃ before after, d.string = before ++ t.chars e ++ after ∧
    d.tree.get? x = some (.mk ⟨before.length, (before.length + (t.chars e).length : Nat)⟩ (some "start_tag") none
      (t.kids before.length))

/-- The Ito at `x` is the one for the element `e`, which is written there. -/
def ElemAt (keep : List Char → Bool) (d : Doc) (x : Path) (e : DElem) : Prop :=
  ∃ before after, d.tree.get? x = some (e.at keep before.length) ∧ d.string = before ++ e.chars ++ after ∧ e.OK

/-- The start tag of an element. -/
def DElem.tag : DElem → STag
  | .empty t => t
  | .node o _ _ _ => o

/-- The child elements among the children. -/
def DKids.elems : DKids → List DElem
  | .nil => []
  | .cons e _ ks => e :: ks.elems

/-- The child elements of an element, in order. -/
def DElem.children : DElem → List DElem
  | .empty _ => []
  | .node _ _ ks _ => ks.elems

mutual
/-- An element and all elements within it. -/
def DElem.within : DElem → List DElem
  | .empty t => [.empty t]
  | .node o ss ks c => .node o ss ks c :: ks.within
def DKids.within : DKids → List DElem
  | .nil => []
  | .cons e _ ks => e.within ++ ks.within
end

/-- The texts after child elements. -/
def DKids.texts : DKids → List (List Char)
  | .nil => []
  | .cons _ ss ks => segsChars ss :: ks.texts

/-- The texts directly within an element, in order. -/
def DElem.texts : DElem → List (List Char)
  | .empty _ => []
  | .node _ ss ks _ => segsChars ss :: ks.texts

/-- `xmlns` -/
def xmlnsName : List Char := ['x', 'm', 'l', 'n', 's']

/-- The attribute `xmlns="…"`, which declares the default namespace. -/
def Attr.IsDefault (a : Attr) : Prop := a.name.pre = none ∧ a.name.loc = xmlnsName
/-- An attribute `xmlns:p="…"`, which declares the prefix `p`. -/
def Attr.IsPrefix (a : Attr) : Prop := a.name.pre = some xmlnsName

instance (a : Attr) : Decidable a.IsDefault := inferInstanceAs (Decidable (_ ∧ _))
instance (a : Attr) : Decidable a.IsPrefix := inferInstanceAs (Decidable (_ = _))

/-- A text that reads like the name of a namespace declaration. -/
def NsLike (s : List Char) : Prop := s = xmlnsName ∨ ∃ w, w ≠ [] ∧ s = xmlnsName ++ ':' :: w

/-- The namespace declarations among attributes. -/
def declared (as : List Attr) : List Attr := as.filter fun a => decide (a.IsDefault ∨ a.IsPrefix)

/-- Text of a result. -/
def textOf (d : Doc) (x : Option Path) : Option (List Char) := x.map d.text

/-- The first prefix that occurs among names. -/
def firstPre : List QName → Option (List Char)
  | [] => none
  | q :: qs => match q.pre with
    | some p => some p
    | none => firstPre qs

end XmlSpec
