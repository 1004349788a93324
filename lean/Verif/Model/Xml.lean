import Verif.Model.Tree
import Verif.Model.XmlTag
/-!
# Model of `/repo/pawpaw/xml/xml_helper.py` (names) and `/repo/pawpaw/xml/xml_parser.py` (offsets, Itos)

Expat and `ElementTree` are not modelled: what expat reports (line, column, byte index) and the element tree
that `ElementTree` builds are inputs.
-/
namespace Pawpaw
namespace Xml

/-! ### Names -/

/-- `XmlHelper.get_local_name(tag)`, `/repo/pawpaw/xml/xml_helper.py:160-169`, for a `str`. -/
def getLocalName (tag : List Char) : List Char :=
  let i := PyStr.find tag ['}'] none none
  if i ≥ 0 then PyStr.slice tag (some (i + 1)) none else tag

/-- `XmlHelper.get_namespace(tag)`, `/repo/pawpaw/xml/xml_helper.py:172-181`, for a `str`. -/
def getNamespace (tag : List Char) : Option (List Char) :=
  let i := PyStr.find tag ['}'] none none
  if i ≥ 0 then some (PyStr.slice tag none (some (i + 1))) else none

/-- `QualifiedName`, `/repo/pawpaw/xml/xml_helper.py:14-16`; also `EtName` (`:42-44`), whose fields are
called `namespace` and `name`. -/
structure Name where
  pre : Option (FIto Char)
  loc : FIto Char
  deriving DecidableEq

/-- `QualifiedName.from_src(src)`, `/repo/pawpaw/xml/xml_helper.py:19-29`, for an `Ito` (a `str` is wrapped in
one). `cls(*parts)` raises `TypeError` unless there are two parts. -/
def Name.fromSrc (x : FIto Char) : Except PyErr Name :=
  match x.strSplit [':'] 1 with
  | .error e => .error e
  | .ok [l] => .ok ⟨none, l⟩
  | .ok [p, l] => .ok ⟨some p, l⟩
  | .ok _ => .error .typeError

/-- Where the name starts: the first line of `__str__`, `/repo/pawpaw/xml/xml_helper.py:32` and `:64`. -/
def Name.start (q : Name) : Int := match q.pre with | some p => p.start | none => q.loc.start

/-- `__str__`, `/repo/pawpaw/xml/xml_helper.py:31-37` (`QualifiedName`) and `:63-69` (`EtName`). -/
def Name.str (q : Name) : List Char :=
  let start := q.start
  let stop := q.loc.stop
  if stop - start = q.loc.string.length then q.loc.string
  else PyStr.slice q.loc.string (some start) (some stop)

/-- How many characters the group `namespace` of `(?P<namespace>\{.+?\})?(?P<name>.+)` takes,
`/repo/pawpaw/xml/xml_helper.py:46`: the pattern is not interpreted but transcribed. The group starts with a
brace and ends with the first closing brace that leaves at least one character between them and at least one
for `name`; otherwise it is skipped. -/
def etCut (s : List Char) : Option Nat :=
  if s[0]? = some '{' then
    ((List.range s.length).find? (fun i => decide (2 ≤ i) && decide (s[i]? = some '}') && decide (i + 1 < s.length))).map
      (· + 1)
  else none

/-- `EtName.from_item(item)`, `/repo/pawpaw/xml/xml_helper.py:49-61`, for an `Ito` (a `str`, or the tag of an
`Element` without `.ito`, is wrapped in one; of an `Element` with `.ito`, the `Ito` itself is used). An empty
text has no match, and `cls()` raises `TypeError`. The groups come out as `Ito`s with the group's name as desc. -/
def Name.fromItem (x : FIto Char) : Except PyErr Name :=
  if x.len = 0 then .error .typeError
  else
    match etCut x.text with
    | none => .ok ⟨none, x.clone none none (some (some "name"))⟩
    | some n => .ok ⟨some (x.clone none (some (x.start + n)) (some (some "namespace"))),
        x.clone (some (x.start + n)) none (some (some "name"))⟩

/-- What `.value()` of each tag Ito returns, `/repo/pawpaw/xml/xml_parser.py:128-130`: the loop assigns
`lambda i: qn`, and every one of these closures reads the variable `qn` when called, after the loop. -/
def tagValues (tags : List (FIto Char)) : Except PyErr (List Name) :=
  match tags.mapM Name.fromSrc with
  | .error e => .error e
  | .ok qns =>
    match qns.getLast? with
    | none => .ok []
    | some qn => .ok (qns.map (fun _ => qn))

/-! ### Offsets -/

/-- The three counters of `_InternalIndexingParser`, `/repo/pawpaw/xml/xml_parser.py:43-51`. -/
structure Counters where
  line : Int := 0
  char : Int := 0
  byte : Int := 0
  deriving DecidableEq

/-- What expat reports: `CurrentLineNumber`, `CurrentColumnNumber`, `CurrentByteIndex`. -/
structure Report where
  line : Int
  col : Int
  byte : Int
  deriving DecidableEq

section
variable {α β : Type} [DecidableEq α] [DecidableEq β] (enc : α → List β) (dec : List β → Option (List α))

/-- `char_offset_from_ex(parser)`, `/repo/pawpaw/xml/xml_parser.py:62-76`. The codec is given by the bytes of
each character (so it writes no byte order mark) and by `dec`; decoding may raise. -/
def charOffset (text : List α) (st : Counters) (r : Report) : Except PyErr (Int × Counters) :=
  if st.line < r.line then
    match dec (PyStr.slice (text.flatMap enc) (some st.byte) (some r.byte)) with
    | none => .error .unicodeError
    | some cs =>
      let c := st.char + (cs.length : Int) - r.col
      let b := st.byte + (((PyStr.slice text (some st.char) (some c)).flatMap enc).length : Int)
      .ok (c + r.col, ⟨r.line, c, b⟩)
  else .ok (st.char + r.col, st)

/-- Successive calls, as `_start` and `_end` make them (`/repo/pawpaw/xml/xml_parser.py:84-102`). -/
def charOffsets (text : List α) : Counters → List Report → Except PyErr (List Int)
  | _, [] => .ok []
  | st, r :: rs =>
    match charOffset enc dec text st r with
    | .error e => .error e
    | .ok (v, st') =>
      match charOffsets text st' rs with
      | .error e => .error e
      | .ok vs => .ok (v :: vs)

/-- `char_offset_from(byte_offset)`, `/repo/pawpaw/xml/xml_parser.py:53-54`. -/
def charOffsetFrom (text : List α) (byteOffset : Int) : Except PyErr Int :=
  match dec (PyStr.slice (text.flatMap enc) (some 0) (some byteOffset)) with
  | none => .error .unicodeError
  | some cs => .ok cs.length
end

/-! ### Itos -/

/-- An `ElementTree` element: `_spans.char` (where its start tag starts; where expat reported its end) and its
child elements. -/
inductive Elem where
  | mk (start stop : Int) (kids : List Elem)

/-- `Elem.start` -/
def Elem.start : Elem → Int
  | .mk s _ _ => s
/-- `Elem.kids` -/
def Elem.kids : Elem → List Elem
  | .mk _ _ ks => ks

/-- `_find_text(start, stop)`, `/repo/pawpaw/xml/xml_parser.py:110-114`. `ws` is `str.isspace` of a character. -/
def findText (ws : Char → Bool) (ignoreEmpties : Bool) (text : List Char) (start stop : Int) :
    Except PyErr (Option Node) :=
  let rv := FIto.ofStr text (some start) (some stop) (some "text")
  if rv.len > 0 ∧ ¬ (ignoreEmpties = true ∧ rv.isAll ws false = true) then
    match filled textKids rv with
    | .error e => .error e
    | .ok n => .ok (some n)
  else .ok none

/-- `if (t := self._find_text(…)) is not None: ito.children.add(t)`. -/
def addOpt (p : Span) (store : List Node) : Except PyErr (Option Node) → Except PyErr (List Node)
  | .error e => .error e
  | .ok none => .ok store
  | .ok (some t) => Kids.add p store t

/-- The text after the last child, if there is one. -/
def textAfter (ws : Char → Bool) (ign : Bool) (text : List Char) (last : Option Node) (stop : Int) :
    Except PyErr (Option Node) :=
  match last with
  | none => .ok none
  | some l => findText ws ign text l.stop stop

/-- Whether an end tag is looked for, `/repo/pawpaw/xml/xml_parser.py:132`. `any(element.iter())` asks the
element and its descendants for their truth value, which is whether they have children. -/
def notSelfClosing (text : List Char) (stop : Int) (kids : List Elem) : Bool :=
  let two := PyStr.slice text (some (stop - 2)) (some stop)
  (two != ['/', '>'] && two != ['?', '>']) || !kids.isEmpty

mutual
/-- `_extract_itos(element)`, `/repo/pawpaw/xml/xml_parser.py:116-185`: the Ito made for the element.
Simplification: the value functions are left out (see `tagValues`). -/
def extract (ws : Char → Bool) (ign : Bool) (text : List Char) : Elem → Except PyErr Node
  | .mk start stop kids =>
    match FIto.pyIndex text ['>'] (some (start + 1)) none with
    | .error e => .error e
    | .ok i =>
      match filled startKids (FIto.ofStr text (some start) (some (i + 1)) (some "start_tag")) with
      | .error e => .error e
      | .ok startTag =>
        if notSelfClosing text stop kids then
          match FIto.pyIndex text ['>'] (some (stop + 1)) none with
          | .error e => .error e
          | .ok j =>
            match filled endKids (FIto.ofStr text (some stop) (some (j + 1)) (some "end_tag")) with
            | .error e => .error e
            | .ok endTag =>
              let ito := FIto.ofStr text (some startTag.start) (some endTag.stop) (some "element")
              match Kids.add ito.span [] startTag with
              | .error e => .error e
              | .ok st =>
                match extractKids ws ign text ito.span st none none kids with
                | .error e => .error e
                | .ok (st, first, last) =>
                  match addOpt ito.span st (textAfter ws ign text last endTag.start) with
                  | .error e => .error e
                  | .ok st =>
                    let stop' := match first with | some f => f.start | none => endTag.start
                    match addOpt ito.span st (findText ws ign text startTag.stop stop') with
                    | .error e => .error e
                    | .ok st =>
                      match Kids.add ito.span st endTag with
                      | .error e => .error e
                      | .ok st => .ok (.mk ito.span (some "element") none st)
        else
          let ito := FIto.ofStr text (some startTag.start) (some stop) (some "element")
          match Kids.add ito.span [] startTag with
          | .error e => .error e
          | .ok st =>
            match extractKids ws ign text ito.span st none none kids with
            | .error e => .error e
            | .ok (st, _, _) => .ok (.mk ito.span (some "element") none st)
/-- The loop over the child elements, `/repo/pawpaw/xml/xml_parser.py:163-172`; also returns the first and the
last child's Ito. -/
def extractKids (ws : Char → Bool) (ign : Bool) (text : List Char) (p : Span) :
    List Node → Option Node → Option Node → List Elem → Except PyErr (List Node × Option Node × Option Node)
  | st, first, last, [] => .ok (st, first, last)
  | st, first, last, k :: ks =>
    match extract ws ign text k with
    | .error e => .error e
    | .ok n =>
      match Kids.add p st n with
      | .error e => .error e
      | .ok st =>
        match addOpt p st (textAfter ws ign text last n.start) with
        | .error e => .error e
        | .ok st => extractKids ws ign text p st (some (first.getD n)) (some n) ks
end

end Xml
end Pawpaw
