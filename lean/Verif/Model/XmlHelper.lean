import Verif.Model.Query
import Verif.Model.XmlTag
/-!
# Model of `XmlHelper`, `/repo/pawpaw/xml/xml_helper.py:82-249`

An element is identified with its Ito (`element.ito`, and back with `ito.value()`,
`/repo/pawpaw/xml/xml_parser.py:116-185`), and an Ito with its path in the tree, as queries do.  Not modelled: the
type checks of the arguments, and what `ElementTree` itself does (`find` and `findall`).
-/
namespace Pawpaw
namespace XmlHelper
open Query Regex

/-- An Ito tree and the string it is about. -/
structure Doc where
  tree : Node
  string : List Char

/-- What queries need to know; there are no values, and `.value()` is not asked for. -/
def Doc.env (d : Doc) (preds : Option (List (List Char × (EIto → Except PyErr Bool)))) : Env Unit :=
  ⟨d.tree, d.string, fun _ => .ok (), none, preds⟩

/-- `str(ito)`, `/repo/pawpaw/ito.py:569-570` -/
def Doc.text (d : Doc) (x : Path) : List Char :=
  match d.tree.get? x with
  | some n => (n.flat d.string).text
  | none => []

/-- `ito.desc` -/
def Doc.desc (d : Doc) (x : Path) : Option String := (d.tree.get? x).bind Node.desc

/-- `QualifiedName`, `/repo/pawpaw/xml/xml_helper.py:14-16`, as `get_qualified_name` makes it: `find` may give `None`
for the name too. -/
structure QN where
  pre : Option Path
  loc : Option Path
  deriving DecidableEq

/-- `**[d:namespace]`, `/repo/pawpaw/xml/xml_helper.py:90` -/
def qNamespace : List Char := "**[d:namespace]".toList
/-- `**[d:name]`, `/repo/pawpaw/xml/xml_helper.py:91` -/
def qName : List Char := "**[d:name]".toList

/-- `get_qualified_name(ito)`, `/repo/pawpaw/xml/xml_helper.py:83-93`. -/
def getQualifiedName (X : Ext) (d : Doc) (x : Path) : Except PyErr QN :=
  if d.desc x ∉ [some "start_tag", some "attribute"] then .error .valueError
  else
    match find X (d.env none) qNamespace x with
    | .error e => .error e
    | .ok ns =>
      match find X (d.env none) qName x with
      | .error e => .error e
      | .ok name => .ok ⟨ns, name⟩

/-- `_re_xmlns`, `/repo/pawpaw/xml/xml_helper.py:95`: `xmlns(?:\:.+)?` with DOTALL. -/
def xmlnsRe : Re := .seq (lit ['x', 'm', 'l', 'n', 's']) (opt (.seq (.chr (· == ':')) (plus (.chr fun _ => true))))

/-- `pattern.fullmatch(text) is not None`: some way of matching ends at the end
(`Ito.regex_fullmatch`, `/repo/pawpaw/ito.py:912-924`). -/
def fullmatch (r : Re) (text : List Char) : Bool := (out r ⟨0, text, []⟩).any fun st => decide (st.rest = [])

/-- `_query_xmlns_predicates`, `/repo/pawpaw/xml/xml_helper.py:96`. -/
def xmlnsPredicates (d : Doc) : List (List Char × (EIto → Except PyErr Bool)) :=
  [("is_xmlns".toList, fun ei => .ok (fullmatch xmlnsRe (d.text ei.2)))]

/-- The query of `/repo/pawpaw/xml/xml_helper.py:103`, `:110`. -/
def qXmlns : List Char := "*[d:start_tag]/*[d:attributes]/*[d:attribute]{*[p:is_xmlns]}".toList
/-- `*[d:value]`, `/repo/pawpaw/xml/xml_helper.py:118` -/
def qValue : List Char := "*[d:value]".toList

/-- `d[k] = v` on a `dict`, as the comprehensions of `/repo/pawpaw/xml/xml_helper.py:117-121`, `:135` do: an equal key stays where and as it is and gets the new value; a new key goes to the end.
`same` is the equality of keys. -/
def dictPut {κ ν : Type} (same : κ → κ → Bool) (k : κ) (v : ν) : List (κ × ν) → List (κ × ν)
  | [] => [(k, v)]
  | (k', v') :: r => if same k' k then (k', v) :: r else (k', v') :: dictPut same k v r

/-- Equality of `QualifiedName`s: that of tuples of Itos (`/repo/pawpaw/ito.py:520-564`) and `None`s. -/
def QN.same (d : Doc) (a b : QN) : Bool :=
  decide (a.pre.map (keyAt d.tree) = b.pre.map (keyAt d.tree)) && decide (a.loc.map (keyAt d.tree) = b.loc.map (keyAt d.tree))

/-- The dict comprehension of `get_xmlns`, over the attributes still to come; `e` ends the query. -/
def xmlnsDict (X : Ext) (d : Doc) (e : Option PyErr) : List (QN × Option Path) → List Path →
    Except PyErr (List (QN × Option Path))
  | acc, [] => match e with
    | some err => .error err
    | none => .ok acc
  | acc, x :: xs =>
    match getQualifiedName X d x with
    | .error err => .error err
    | .ok k =>
      match find X (d.env none) qValue x with
      | .error err => .error err
      | .ok v => xmlnsDict X d e (dictPut (QN.same d) k v acc) xs

/-- `get_xmlns(element)`, `/repo/pawpaw/xml/xml_helper.py:107-121`. -/
def getXmlns (X : Ext) (d : Doc) (x : Path) : Except PyErr (List (QN × Option Path)) :=
  let r := findAll X (d.env (some (xmlnsPredicates d))) qXmlns x
  xmlnsDict X d r.exc [] r.out

/-- `str(x)` of an Ito or `None`. -/
def Doc.str (d : Doc) : Option Path → List Char
  | some x => d.text x
  | none => "None".toList

/-- `get_prefix_map(element)`, `/repo/pawpaw/xml/xml_helper.py:123-135`. -/
def getPrefixMap (X : Ext) (d : Doc) (x : Path) : Except PyErr (List (List Char × List Char)) :=
  match getXmlns X d x with
  | .error e => .error e
  | .ok l => .ok ((l.filter fun kv => kv.1.pre.isSome).foldl
      (fun acc kv => dictPut (fun a b => decide (a = b)) (d.str kv.1.loc) (d.str kv.2) acc) [])

/-- `...[d:element]`, `/repo/pawpaw/xml/xml_helper.py:209` -/
def qParent : List Char := "...[d:element]".toList

/-- `get_parent_element(element)`, `/repo/pawpaw/xml/xml_helper.py:202-212`. -/
def getParentElement (X : Ext) (d : Doc) (x : Path) : Except PyErr (Option Path) := find X (d.env none) qParent x

/-- The loop of `get_default_namespace`, `/repo/pawpaw/xml/xml_helper.py:139-145`; `n` bounds the number of rounds. -/
def defaultLoop (X : Ext) (d : Doc) : Nat → Path → Except PyErr (Option (List Char))
  | 0, _ => .error .nonTermination
  | n + 1, x =>
    match getXmlns X d x with
    | .error e => .error e
    | .ok l =>
      match ((l.find? fun kv => kv.1.pre.isNone).bind Prod.snd) with
      | some v => .ok (some ('{' :: d.text v ++ ['}']))
      | none =>
        match getParentElement X d x with
        | .error e => .error e
        | .ok none => .ok none
        | .ok (some y) => defaultLoop X d n y

/-- `get_default_namespace(element)`, `/repo/pawpaw/xml/xml_helper.py:137-145`: there are no more rounds than nodes from
the root to the element. -/
def getDefaultNamespace (X : Ext) (d : Doc) (x : Path) : Except PyErr (Option (List Char)) :=
  defaultLoop X d (x.length + 1) x

/-- The loop of `reverse_find`; `test` is `element.find('.[' + predicate + ']') is not None`, which is up to
`ElementTree`. -/
def reverseLoop (X : Ext) (d : Doc) (test : Path → Except PyErr Bool) : Nat → Path → Except PyErr (Option Path)
  | 0, _ => .error .nonTermination
  | n + 1, x =>
    match test x with
    | .error e => .error e
    | .ok true => .ok (some x)
    | .ok false =>
      match getParentElement X d x with
      | .error e => .error e
      | .ok none => .ok none
      | .ok (some y) => reverseLoop X d test n y

/-- `reverse_find(element, predicate)`, `/repo/pawpaw/xml/xml_helper.py:214-249`. -/
def reverseFind (X : Ext) (d : Doc) (test : Path → Except PyErr Bool) (x : Path) : Except PyErr (Option Path) :=
  reverseLoop X d test (x.length + 1) x

/-- `*[d:text]`, `/repo/pawpaw/xml/xml_helper.py:200` -/
def qText : List Char := "*[d:text]".toList

/-- `get_text_itos(element)`, `/repo/pawpaw/xml/xml_helper.py:198-200`. -/
def getTextItos (X : Ext) (d : Doc) (x : Path) : Run Path := findAll X (d.env none) qText x

end XmlHelper
end Pawpaw
