import Verif.Model.Match
import Verif.Model.Regex
/-!
# Model of the patterns of `/repo/pawpaw/xml/xml_parser.py` and of what is put into tags and texts
-/
namespace Pawpaw
namespace Xml
open Regex

/-- `[^ :]`, `/repo/pawpaw/xml/xml_parser.py:13` -/
def nsC (c : Char) : Bool := c != ' ' && c != ':'
/-- `[^ />=]`, `/repo/pawpaw/xml/xml_parser.py:14` -/
def nmC (c : Char) : Bool := c != ' ' && c != '/' && c != '>' && c != '='
/-- `[^"]`, `/repo/pawpaw/xml/xml_parser.py:17` -/
def valC (c : Char) : Bool := c != '"'

/-- `_TAG`, `/repo/pawpaw/xml/xml_parser.py:13-15`. -/
def tagG : Re :=
  .grp "tag" (.seq (opt (.seq (.grp "namespace" (plus (.chr nsC))) (.chr (· == ':')))) (.grp "name" (plus (.chr nmC))))

/-- `_VALUE`, `/repo/pawpaw/xml/xml_parser.py:17`. -/
def valueG : Re :=
  .seq (.chr (· == '=')) (.seq (.chr (· == '"')) (.seq (.grp "value" (plus (.chr valC))) (.chr (· == '"'))))

/-- The pattern of `_itor_extract_tag`, `/repo/pawpaw/xml/xml_parser.py:22`. -/
def tagRe : Re := .seq (.chr (· == '<')) (.seq (opt (.chr fun c => c == '/' || c == '?')) tagG)
/-- Its group keys in index order, but for 0 (the default filter of `Extract`,
`/repo/pawpaw/arborform/itorator/extract.py:16`). -/
def tagKeys : List String := ["tag", "namespace", "name"]

/-- The pattern of `_itor_extract_attributes`, `/repo/pawpaw/xml/xml_parser.py:18-20,23`. -/
def attrRe : Re := .grp "attribute" (.seq tagG valueG)
/-- Its group keys. -/
def attrKeys : List String := ["attribute", "tag", "namespace", "name", "value"]

/-- `.*?` with DOTALL -/
def lazyAny : Re := .star false (.chr fun _ => true)

/-- `_PI`, `/repo/pawpaw/xml/xml_parser.py:25`. -/
def piG : Re := .grp "pi" (.seq (lit ['<', '?']) (.seq (.grp "value" lazyAny) (lit ['?', '>'])))
/-- `_COMMENT`, `/repo/pawpaw/xml/xml_parser.py:26`. -/
def commentG : Re := .grp "comment" (.seq (lit ['<', '!', '-', '-']) (.seq (.grp "value" lazyAny) (lit ['-', '-', '>'])))
/-- The pattern of `_itor_extract_pi_comments`, `/repo/pawpaw/xml/xml_parser.py:28`. -/
def textRe : Re := .alt piG commentG
/-- Its group keys; the two groups called `value` are one group to the package `regex`. -/
def textKeys : List String := ["pi", "value", "comment"]

/-- `match.spans(gk)` for each of the keys, with the desc `str(gk)` (`/repo/pawpaw/arborform/itorator/extract.py:15`). -/
def spansOf (keys : List String) (f : Found) : List (Option String × List Span) :=
  keys.map fun g => (some g, (f.caps.filter (fun c => c.1 == g)).map fun c => ⟨(c.2.1 : Int), (c.2.2 : Int)⟩)

/-- An `Extract` itorator applied to an Ito, `/repo/pawpaw/arborform/itorator/extract.py:34-35`, through
`Ito.from_re` (`/repo/pawpaw/ito.py:131-180`) and `regex_finditer` (`/repo/pawpaw/ito.py:944-956`). -/
def extractRe (re : Re) (keys : List String) (x : FIto Char) : Except PyErr (List Node) :=
  Match.fromRe x.string.length ((finditer re x.start.toNat x.text).map (spansOf keys)) none

/-- `Ito.join(*attrs)`, `/repo/pawpaw/ito.py:766-801`, on Itos of one string: from the least start to the greatest
stop. -/
def joinSpan (n : Node) (ns : List Node) : Span :=
  ⟨ns.foldl (fun a m => min a m.start) n.start, ns.foldl (fun a m => max a m.stop) n.stop⟩

/-- What is put into a start tag, `/repo/pawpaw/xml/xml_parser.py:123-130`: the tag's name, then all attributes
under one Ito. The value functions are left out (see `tagValues`). -/
def startKids (x : FIto Char) : Except PyErr (List Node) :=
  match extractRe tagRe tagKeys x with
  | .error e => .error e
  | .ok tags =>
    match Kids.addAll x.span [] tags with
    | .error e => .error e
    | .ok st =>
      match extractRe attrRe attrKeys x with
      | .error e => .error e
      | .ok [] => .ok st
      | .ok (a :: as) =>
        let sp := joinSpan a as
        match Kids.addAll sp [] (a :: as) with
        | .error e => .error e
        | .ok ks => Kids.add x.span st (.mk sp (some "attributes") none ks)

/-- What is put into an end tag, `/repo/pawpaw/xml/xml_parser.py:143-145`. -/
def endKids (x : FIto Char) : Except PyErr (List Node) :=
  match extractRe tagRe tagKeys x with
  | .error e => .error e
  | .ok tags => Kids.addAll x.span [] tags

/-- What is put into a text, `/repo/pawpaw/xml/xml_parser.py:113`. -/
def textKids (x : FIto Char) : Except PyErr (List Node) :=
  match extractRe textRe textKeys x with
  | .error e => .error e
  | .ok ns => Kids.addAll x.span [] ns

/-- An Ito with what is put into it. -/
def filled (kids : FIto Char → Except PyErr (List Node)) (x : FIto Char) : Except PyErr Node :=
  match kids x with
  | .error e => .error e
  | .ok ks => .ok (.mk x.span x.desc none ks)

end Xml
end Pawpaw
