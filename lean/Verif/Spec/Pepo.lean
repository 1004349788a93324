import Verif.Spec.Tree
/-!
# Specification for dumps: the JSON grammar (RFC 8259) and a small XML grammar, with what a text denotes
-/
namespace PepoSpec
open Pawpaw

/-! ### Lines of text dumps -/

/-- A forest seen as one tree, so that a node of the forest is addressed by a non-empty path. -/
def forest (itos : List Node) : Node := .mk ⟨0, 0⟩ none none itos

/-- `n` copies of a text. -/
def copies (n : Nat) (t : List Char) : List Char := (List.replicate n t).flatten

/-- The line of a compact dump for the node at path `p`: indented by depth, numbered among its siblings from 1. -/
def compactLine (indent lsep : List Char) (num : Nat → List Char) (fmt : Node → List Char) (root : Node)
    (p : List Nat) : List Char :=
  match root.get? p, p.getLast? with
  | some n, some i => copies (p.length - 1) indent ++ num (i + 1) ++ ": ".toList ++ fmt n ++ lsep
  | _, _ => []

/-- The path of the next sibling. -/
def nextSib (p : List Nat) : List Nat :=
  match p.getLast? with
  | some i => p.dropLast ++ [i + 1]
  | none => []

/-- The node at `p` is the last of its siblings. -/
def lastSib (root : Node) (p : List Nat) : Bool := (root.get? (nextSib p)).isNone

/-- What stands left of everything below the node at `p`, in the column of that node: a vertical line as long as
more siblings follow. -/
def column (indent : List Char) (root : Node) (p : List Nat) : List Char :=
  (if lastSib root p then ' ' else '│') :: indent

/-- The line of a tree dump for the node at path `p`: a column for each proper ancestor (but the root), a corner or
a tee, a horizontal line, and the node. -/
def treeLine (indent lsep : List Char) (fmt : Node → List Char) (root : Node) (p : List Nat) : List Char :=
  match root.get? p with
  | some n => (List.range (p.length - 1)).flatMap (fun d => column indent root (p.take (d + 1))) ++
      (if lastSib root p then '└' else '├') :: (List.replicate indent.length '─' ++ fmt n ++ lsep)
  | none => []

/-! ### JSON -/

/-- A JSON value. -/
inductive J where
  | null
  | num (n : Int)
  | str (s : List Char)
  | arr (vs : List J)
  | obj (ms : List (List Char × J))

/-- White space. -/
def Ws (w : List Char) : Prop := ∀ c ∈ w, c = ' ' ∨ c = '\t' ∨ c = '\n' ∨ c = '\r'

/-- The value of a hexadecimal digit. -/
def hexVal (c : Char) : Option Nat :=
  if '0' ≤ c ∧ c ≤ '9' then some (c.toNat - '0'.toNat)
  else if 'a' ≤ c ∧ c ≤ 'f' then some (c.toNat - 'a'.toNat + 10)
  else if 'A' ≤ c ∧ c ≤ 'F' then some (c.toNat - 'A'.toNat + 10)
  else none

/-- What stands between the quotes, and the characters it denotes. -/
inductive StrBody : List Char → List Char → Prop
  | nil : StrBody [] []
  | lit {c r s} : c ≠ '"' → c ≠ '\\' → 32 ≤ c.toNat → StrBody r s → StrBody (c :: r) (c :: s)
  | esc {e c r s} : (e, c) ∈ [('"', '"'), ('\\', '\\'), ('/', '/'), ('b', '\x08'), ('f', '\x0c'), ('n', '\n'),
      ('r', '\r'), ('t', '\t')] → StrBody r s → StrBody ('\\' :: e :: r) (c :: s)
  | uni {h1 h2 h3 h4 v1 v2 v3 v4 c r s} : hexVal h1 = some v1 → hexVal h2 = some v2 → hexVal h3 = some v3 →
      hexVal h4 = some v4 → c.toNat = ((v1 * 16 + v2) * 16 + v3) * 16 + v4 → StrBody r s →
      StrBody ('\\' :: 'u' :: h1 :: h2 :: h3 :: h4 :: r) (c :: s)

mutual
/-- The text denotes the value. (Numbers: whole ones in decimal.) -/
inductive Val : List Char → J → Prop
  | null : Val ['n', 'u', 'l', 'l'] .null
  | num (n : Int) : Val (toString n).toList (.num n)
  | str {r s} : StrBody r s → Val ('"' :: (r ++ ['"'])) (.str s)
  | arrNil {w} : Ws w → Val ('[' :: (w ++ [']'])) (.arr [])
  | arr {t vs} : Elems t vs → Val ('[' :: (t ++ [']'])) (.arr vs)
  | objNil {w} : Ws w → Val ('{' :: (w ++ ['}'])) (.obj [])
  | obj {t ms} : Members t ms → Val ('{' :: (t ++ ['}'])) (.obj ms)
/-- One or more values, separated by commas. -/
inductive Elems : List Char → List J → Prop
  | one {w s v w'} : Ws w → Val s v → Ws w' → Elems (w ++ s ++ w') [v]
  | more {w s v w' t vs} : Ws w → Val s v → Ws w' → Elems t vs → Elems (w ++ s ++ w' ++ ',' :: t) (v :: vs)
/-- One or more members, separated by commas. -/
inductive Members : List Char → List (List Char × J) → Prop
  | one {w k key w1 w2 s v w3} : Ws w → StrBody k key → Ws w1 → Ws w2 → Val s v → Ws w3 →
      Members (w ++ '"' :: (k ++ '"' :: (w1 ++ ':' :: (w2 ++ s ++ w3)))) [(key, v)]
  | more {w k key w1 w2 s v w3 t ms} : Ws w → StrBody k key → Ws w1 → Ws w2 → Val s v → Ws w3 → Members t ms →
      Members (w ++ '"' :: (k ++ '"' :: (w1 ++ ':' :: (w2 ++ s ++ w3 ++ ',' :: t)))) ((key, v) :: ms)
end

/-- A JSON text: a value with white space around it. -/
def JsonText (t : List Char) (v : J) : Prop := ∃ w s w', t = w ++ s ++ w' ∧ Ws w ∧ Val s v ∧ Ws w'

/-- A desc as JSON. -/
def descJ : Option String → J
  | none => .null
  | some d => .str d.toList

mutual
/-- An Ito tree as JSON: one object per node, children nested. -/
def nodeJ (sub : Span → List Char) : Node → J
  | .mk sp d _ ks => .obj [("start".toList, .num sp.start), ("stop".toList, .num sp.stop), ("desc".toList, descJ d),
      ("substr".toList, .str (sub sp)), ("children".toList, .arr (nodesJ sub ks))]
def nodesJ (sub : Span → List Char) : List Node → List J
  | [] => []
  | k :: ks => nodeJ sub k :: nodesJ sub ks
end

/-! ### XML -/

/-- An XML element: name, attributes, content (child elements, or text). -/
inductive X where
  | el (name : List Char) (attrs : List (List Char × List Char)) (kids : List X)
  | txt (name : List Char) (s : List Char)

/-- A character allowed in a document, and read back as it is. -/
def XmlChar (c : Char) : Prop := c = '\t' ∨ c = '\n' ∨ (32 ≤ c.toNat ∧ c ≠ '\uFFFE' ∧ c ≠ '\uFFFF')

/-- Raw text and the characters it denotes; `ok` says which characters may stand for themselves. -/
inductive Unesc (ok : Char → Prop) : List Char → List Char → Prop
  | nil : Unesc ok [] []
  | lit {c r s} : c ≠ '<' → c ≠ '&' → ok c → Unesc ok r s → Unesc ok (c :: r) (c :: s)
  | amp {r s} : Unesc ok r s → Unesc ok ("&amp;".toList ++ r) ('&' :: s)
  | lt {r s} : Unesc ok r s → Unesc ok ("&lt;".toList ++ r) ('<' :: s)
  | gt {r s} : Unesc ok r s → Unesc ok ("&gt;".toList ++ r) ('>' :: s)

/-- A name: at least one character, none of them with a meaning of its own. -/
def NameOK (n : List Char) : Prop :=
  n ≠ [] ∧ ∀ c ∈ n, c ∉ ['<', '>', '/', '"', '=', '&', '?', '!', ' ', '\t', '\n', '\r']

/-- Attributes: names with values in double quotes (a line break or tab within would be read as a space). -/
inductive Attrs : List Char → List (List Char × List Char) → Prop
  | nil : Attrs [] []
  | cons {n v val t as} : NameOK n → Unesc (fun c => XmlChar c ∧ c ≠ '"' ∧ c ≠ '\t' ∧ c ≠ '\n') v val → Attrs t as →
      Attrs (' ' :: (n ++ "=\"".toList ++ v ++ '"' :: t)) ((n, val) :: as)

mutual
/-- The text denotes the element. -/
inductive El : List Char → X → Prop
  | el {name a attrs t kids} : NameOK name → Attrs a attrs → Els t kids →
      El ('<' :: (name ++ a ++ '>' :: (t ++ "</".toList ++ name ++ ['>']))) (.el name attrs kids)
  | txt {name v val} : NameOK name → Unesc XmlChar v val →
      El ('<' :: (name ++ '>' :: (v ++ "</".toList ++ name ++ ['>']))) (.txt name val)
/-- Elements with white space around them. -/
inductive Els : List Char → List X → Prop
  | nil {w} : Ws w → Els w []
  | cons {w s x t xs} : Ws w → El s x → Els t xs → Els (w ++ s ++ t) (x :: xs)
end

mutual
/-- An Ito tree as XML. -/
def nodeX (sub : Span → List Char) : Node → X
  | .mk sp d _ ks => .el "ito".toList [("start".toList, (toString sp.start).toList), ("stop".toList, (toString sp.stop).toList),
      ("desc".toList, (d.getD "").toList)]
      (.txt "substring".toList (sub sp) :: (if ks = [] then [] else [.el "children".toList [] (nodesX sub ks)]))
def nodesX (sub : Span → List Char) : List Node → List X
  | [] => []
  | k :: ks => nodeX sub k :: nodesX sub ks
end

end PepoSpec
