import Verif.Model.Tree
/-!
# Specification: start tags, end tags, comments and processing instructions as written, and the Itos one expects
-/
namespace XmlSpec
open Pawpaw

/-- The Ito of a qualified name written from `p` to `q`, whose prefix (if any) has `pre` characters. -/
def nameAt (p : Nat) (pre : Option Nat) (q : Nat) : Node :=
  .mk ⟨p, q⟩ (some "tag") none
    (match pre with
      | none => [.leaf ⟨p, q⟩ (some "name")]
      | some a => [.leaf ⟨p, (p + a : Nat)⟩ (some "namespace"), .leaf ⟨(p + a + 1 : Nat), q⟩ (some "name")])

/-- The Ito of an attribute written from `p` to `q`, its name ending at `m`. -/
def attributeAt (p : Nat) (pre : Option Nat) (m q : Nat) : Node :=
  .mk ⟨p, q⟩ (some "attribute") none [nameAt p pre m, .leaf ⟨(m + 2 : Nat), (q - 1 : Nat)⟩ (some "value")]

/-- The Ito of a processing instruction from `p` to `q`. -/
def piAt (p q : Nat) : Node := .mk ⟨p, q⟩ (some "pi") none [.leaf ⟨(p + 2 : Nat), (q - 2 : Nat)⟩ (some "value")]
/-- The Ito of a comment from `p` to `q`. -/
def commentAt (p q : Nat) : Node := .mk ⟨p, q⟩ (some "comment") none [.leaf ⟨(p + 4 : Nat), (q - 3 : Nat)⟩ (some "value")]

/-- A name, possibly with a prefix. -/
structure QName where
  pre : Option (List Char)
  loc : List Char

/-- `prefix:local` or `local`. -/
def QName.chars (q : QName) : List Char :=
  match q.pre with
  | none => q.loc
  | some p => p ++ ':' :: q.loc

/-- The Ito of a name written at `p`. -/
def QName.at (q : QName) (p : Nat) : Node := nameAt p (q.pre.map List.length) (p + q.chars.length)

/-- Characters that can be in a name: none of those XML uses for anything else within tags. (XML allows fewer.) -/
def nameChar (c : Char) : Bool := !([' ', '\t', '\n', '\r', ':', '/', '<', '>', '=', '"', '\'', '?', '!', '&'].contains c)

/-- A name. -/
def IsName (s : List Char) : Prop := s ≠ [] ∧ ∀ c ∈ s, nameChar c = true

/-- A qualified name. -/
def QName.OK (q : QName) : Prop := (∀ p ∈ q.pre, IsName p) ∧ IsName q.loc

/-- White space as XML defines it. -/
def IsWs (s : List Char) : Prop := ∀ c ∈ s, c = ' ' ∨ c = '\t' ∨ c = '\n' ∨ c = '\r'

/-- An attribute, with the white space before it. -/
structure Attr where
  sep : List Char
  name : QName
  val : List Char

/-- Without the white space before it. -/
def Attr.body (a : Attr) : List Char := a.name.chars ++ '=' :: '"' :: a.val ++ ['"']

/-- As written. -/
def Attr.chars (a : Attr) : List Char := a.sep ++ a.body

/-- The Ito of an attribute written at `p` (where its white space starts). -/
def Attr.at (a : Attr) (p : Nat) : Node :=
  attributeAt (p + a.sep.length) (a.name.pre.map List.length) (p + a.sep.length + a.name.chars.length) (p + a.chars.length)

/-- The attributes as written. -/
def attrsChars : List Attr → List Char
  | [] => []
  | a :: as => a.chars ++ attrsChars as

/-- The Itos of attributes written one after another from `p`. -/
def attrsAt (p : Nat) : List Attr → List Node
  | [] => []
  | a :: as => a.at p :: attrsAt (p + a.chars.length) as

/-- A start tag (or empty-element tag) without its end. -/
structure STag where
  name : QName
  attrs : List Attr
  trail : List Char

/-- As written; `e` is `>` or `/>`. -/
def STag.chars (t : STag) (e : List Char) : List Char := '<' :: t.name.chars ++ attrsChars t.attrs ++ t.trail ++ e

/-- The Itos expected within a start tag at `p`: its name and, if there are any, its attributes under one Ito. -/
def STag.kids (t : STag) (p : Nat) : List Node :=
  t.name.at (p + 1) ::
    (match t.attrs with
      | [] => []
      | a :: as => [.mk ⟨(p + 1 + t.name.chars.length + a.sep.length : Nat),
          (p + 1 + t.name.chars.length + (attrsChars (a :: as)).length : Nat)⟩ (some "attributes") none
          (attrsAt (p + 1 + t.name.chars.length) (a :: as))])

/-- An end tag. -/
structure ETag where
  name : QName
  trail : List Char

/-- As written. -/
def ETag.chars (t : ETag) : List Char := '<' :: '/' :: t.name.chars ++ t.trail ++ ['>']

/-- A value that the pattern takes for `prefix:name="` of another attribute: what is before its first colon has no
space, and after it comes a name and then `=` at the very end. -/
def Misread (v : List Char) : Prop :=
  ∃ a x, v = a ++ ':' :: x ++ ['='] ∧ ' ' ∉ a ∧ ':' ∉ a ∧ x ≠ [] ∧ ∀ c ∈ x, c ≠ ' ' ∧ c ≠ '/' ∧ c ≠ '>' ∧ c ≠ '='

/-- What is assumed of an attribute: XML's rules, a non-empty value in double quotes without `>`, white space ending
in a space, and (unless the name has a prefix) a value that cannot be misread. -/
structure Attr.OK (a : Attr) : Prop where
  sep : IsWs a.sep
  space : a.sep.getLast? = some ' '
  name : a.name.OK
  val : a.val ≠ []
  quote : '"' ∉ a.val
  lt : '<' ∉ a.val
  gt : '>' ∉ a.val
  clear : a.name.pre = none → ¬ Misread a.val

/-- What is assumed of a start tag: what follows the name starts with a space. -/
structure STag.OK (t : STag) : Prop where
  name : t.name.OK
  attrs : ∀ a ∈ t.attrs, a.OK
  trail : IsWs t.trail
  first : ∀ c ∈ (attrsChars t.attrs ++ t.trail).head?, c = ' '

/-- What is assumed of an end tag. -/
structure ETag.OK (t : ETag) : Prop where
  name : t.name.OK
  trail : IsWs t.trail
  first : ∀ c ∈ t.trail.head?, c = ' '

/-- A piece of text: character data, a processing instruction, a comment or a CDATA section. -/
inductive Seg where
  | data (s : List Char)
  | pi (s : List Char)
  | comment (s : List Char)
  | cdata (s : List Char)

/-- As written. -/
def Seg.chars : Seg → List Char
  | .data s => s
  | .pi s => ['<', '?'] ++ s ++ ['?', '>']
  | .comment s => ['<', '!', '-', '-'] ++ s ++ ['-', '-', '>']
  | .cdata s => ['<', '!', '[', 'C', 'D', 'A', 'T', 'A', '['] ++ s ++ [']', ']', '>']

/-- XML's rules; and a CDATA section contains nothing that looks like the start of a comment or a processing
instruction. -/
def Seg.OK : Seg → Prop
  | .data s => '<' ∉ s
  | .pi s => ¬ ['?', '>'] <:+: s ++ ['?']
  | .comment s => ¬ ['-', '-', '>'] <:+: s ++ ['-', '-']
  | .cdata s => ¬ ['<', '?'] <:+: s ∧ ¬ ['<', '!', '-', '-'] <:+: s

/-- A text as written. -/
def segsChars : List Seg → List Char
  | [] => []
  | s :: ss => s.chars ++ segsChars ss

/-- The Itos expected within a text at `p`. -/
def segsAt (p : Nat) : List Seg → List Node
  | [] => []
  | s :: ss =>
    (match s with
      | .pi _ => [piAt p (p + s.chars.length)]
      | .comment _ => [commentAt p (p + s.chars.length)]
      | _ => []) ++ segsAt (p + s.chars.length) ss

end XmlSpec
