import Verif.Props.XmlScope
import Verif.Props.XmlDoc
import Verif.Props.QueryIndex
/-!
# C86–C91: a document that meets the hypotheses, and the documents the code gets wrong
-/
set_option linter.unusedSectionVars false
set_option linter.unusedSimpArgs false
namespace Pawpaw.Props
open Pawpaw Pawpaw.Query Pawpaw.XmlHelper XmlSpec

theorem plain_attr_ok (a : Attr) (h1 : a.sep = [' ']) (h2 : a.name.OK) (h3 : a.val ≠ [])
    (h4 : ∀ c ∈ a.val, c ≠ '"' ∧ c ≠ '<' ∧ c ≠ '>' ∧ c ≠ ':') : a.OK := by
  refine ⟨by rw [h1]; simp [IsWs], by rw [h1]; rfl, h2, h3, ?_, ?_, ?_, ?_⟩
  · intro h; exact (h4 _ h).1 rfl
  · intro h; exact (h4 _ h).2.1 rfl
  · intro h; exact (h4 _ h).2.2.1 rfl
  · rintro _ ⟨a', x, h, _⟩
    exact (h4 ':' (by rw [h]; simp)).2.2.2 rfl

/-- `<p:a xmlns:p="u" xmlns="v" k="w">t<b><c xmlns="z"/></b>s</p:a>` -/
def nsTag : STag := ⟨⟨some ['p'], ['a']⟩, [⟨[' '], ⟨some xmlnsName, ['p']⟩, ['u']⟩, ⟨[' '], ⟨none, xmlnsName⟩, ['v']⟩,
  ⟨[' '], ⟨none, ['k']⟩, ['w']⟩], []⟩
def nsElemC : DElem := .empty ⟨⟨none, ['c']⟩, [⟨[' '], ⟨none, xmlnsName⟩, ['z']⟩], []⟩
def nsElemB : DElem := .node ⟨⟨none, ['b']⟩, [], []⟩ [] (.cons nsElemC [] .nil) ⟨⟨none, ['b']⟩, []⟩
def nsElem : DElem := .node nsTag [.data ['t']] (.cons nsElemB [.data ['s']] .nil) ⟨⟨some ['p'], ['a']⟩, []⟩

theorem nsElem_chars : nsElem.chars =
    "<p:a xmlns:p=\"u\" xmlns=\"v\" k=\"w\">t<b><c xmlns=\"z\"/></b>s</p:a>".toList := by decide +kernel

theorem qn_ok (pre : Option (List Char)) (loc : List Char) (h1 : ∀ p, pre = some p → IsName p) (h2 : IsName loc) :
    (QName.mk pre loc).OK := ⟨h1, h2⟩

theorem name1 (c : Char) (h : IsName [c]) : (QName.mk none [c]).OK := ⟨by simp, h⟩

theorem nsTag_ok : nsTag.OK := by
  refine ⟨⟨?_, by simp [nsTag], by decide⟩, ?_, by simp [nsTag, IsWs], by simp [nsTag, attrsChars, Attr.chars, Attr.body]⟩
  · intro p hp; cases hp; exact ⟨by simp, by decide⟩
  · intro a ha
    simp only [nsTag, List.mem_cons, List.not_mem_nil, or_false] at ha
    rcases ha with rfl | rfl | rfl
    · exact plain_attr_ok _ rfl ⟨by intro p hp; cases hp; exact ⟨by decide, by decide⟩, by simp, by decide⟩ (by simp) (by decide)
    · exact plain_attr_ok _ rfl ⟨by simp, by decide, by decide⟩ (by simp) (by decide)
    · exact plain_attr_ok _ rfl ⟨by simp, by simp, by decide⟩ (by simp) (by decide)

theorem nsC_ok : nsElemC.OK := by
  refine ⟨⟨by simp, by simp, by decide⟩, ?_, by simp [IsWs], by simp [attrsChars, Attr.chars, Attr.body]⟩
  intro a ha
  simp only [List.mem_cons, List.not_mem_nil, or_false] at ha
  subst ha
  exact plain_attr_ok _ rfl ⟨by simp, by decide, by decide⟩ (by simp) (by decide)

theorem nsB_ok : nsElemB.OK := by
  refine ⟨⟨⟨by simp, by simp, by decide⟩, by simp, by simp [IsWs], by simp [attrsChars]⟩, by simp,
    ⟨⟨by simp, by simp, by decide⟩, by simp [IsWs], by simp⟩, fun h => by (cases h), nsC_ok, by simp, trivial⟩

theorem nsElem_ok : nsElem.OK := by
  refine ⟨nsTag_ok, ?_, ⟨⟨?_, by simp, by decide⟩, by simp [IsWs], by simp⟩, fun h => by (cases h), nsB_ok, ?_, trivial⟩
  · intro s hs
    simp only [List.mem_cons, List.not_mem_nil, or_false] at hs
    subst hs
    show '<' ∉ ['t']
    decide
  · intro p hp; cases hp; exact ⟨by simp, by decide⟩
  · intro s hs
    simp only [List.mem_cons, List.not_mem_nil, or_false] at hs
    subst hs
    show '<' ∉ ['s']
    decide

/-- The parsed document. -/
def nsDoc : Doc := docOf (fun _ => true) nsElem [] []

theorem nsRoot : ElemAt (fun _ => true) nsDoc [] nsElem := docOf_root _ _ _ _ nsElem_ok

/-- The Ito of `c` is at `[2, 1]`. -/
theorem nsAtC : ElemAt (fun _ => true) nsDoc [2, 1] nsElemC :=
  ⟨"<p:a xmlns:p=\"u\" xmlns=\"v\" k=\"w\">t<b>".toList, "</b>s</p:a>".toList, rfl, by decide +kernel, nsC_ok⟩

theorem nsAtB : ElemAt (fun _ => true) nsDoc [2] nsElemB :=
  ⟨"<p:a xmlns:p=\"u\" xmlns=\"v\" k=\"w\">t".toList, "s</p:a>".toList, rfl, by decide +kernel, nsB_ok⟩

/-! ### C86 -/

example (X : Ext) : ∃ qn, getQualifiedName X nsDoc [0] = .ok qn ∧ textOf nsDoc qn.pre = some ['p'] ∧
    textOf nsDoc qn.loc = some ['a'] :=
  C86_start_tag_partial X nsDoc [0] nsTag ['>'] (elem_stag nsRoot) (Or.inl (by simp [nsTag]))

/-- The Ito of the first attribute is at `[0, 1, 0]`. -/
theorem nsAtP : AttrAt nsDoc [0, 1, 0] ⟨[' '], ⟨some xmlnsName, ['p']⟩, ['u']⟩ :=
  ⟨"<p:a".toList, " xmlns=\"v\" k=\"w\">t<b><c xmlns=\"z\"/></b>s</p:a>".toList, rfl, by decide +kernel⟩

example (X : Ext) : ∃ qn, getQualifiedName X nsDoc [0, 1, 0] = .ok qn ∧ textOf nsDoc qn.pre = some xmlnsName ∧
    textOf nsDoc qn.loc = some ['p'] := C86_attribute X nsDoc _ _ nsAtP

/-- An element with one attribute and nothing within. -/
def oneAttr (a : Attr) : DElem := .empty ⟨⟨none, ['r']⟩, [a], []⟩

theorem oneAttr_ok (a : Attr) (h : a.OK) (hs : a.sep = [' ']) : (oneAttr a).OK := by
  refine ⟨⟨by simp, by simp, by show ∀ c ∈ ['r'], _; decide⟩, ?_, by simp [IsWs], by simp [attrsChars, Attr.chars, hs]⟩
  intro b hb
  simp only [List.mem_cons, List.not_mem_nil, or_false] at hb
  subst hb
  exact h

/-- The parsed document. -/
def oneDoc (a : Attr) : Doc := docOf (fun _ => true) (oneAttr a) [] []

/-- `n:k="v"` -/
def nkAttr : Attr := ⟨[' '], ⟨some ['n'], ['k']⟩, ['v']⟩
theorem nkAttr_ok : nkAttr.OK :=
  plain_attr_ok _ rfl ⟨by intro p hp; cases hp; exact ⟨by decide, by decide⟩, by simp [nkAttr], by decide⟩ (by simp [nkAttr]) (by decide)

/-- **C86 fails** for a start tag without prefix with an attribute that has one: in `<r n:k="v"/>` the start tag gets
the prefix of the attribute. -/
theorem C86_borrowed_violated (X : Ext) : (oneDoc nkAttr).string = "<r n:k=\"v\"/>".toList ∧
    ∃ qn, getQualifiedName X (oneDoc nkAttr) [0] = .ok qn ∧ textOf (oneDoc nkAttr) qn.pre = some ['n'] ∧
      textOf (oneDoc nkAttr) qn.loc = some ['r'] :=
  ⟨by decide +kernel,
    C86_start_tag_exact X (oneDoc nkAttr) [0] _ _ (elem_stag (docOf_root _ (oneAttr nkAttr) [] [] (oneAttr_ok _ nkAttr_ok rfl)))⟩

/-! ### C87 -/

theorem not_nsLike {s : List Char} (h1 : s ≠ xmlnsName) (h2 : ':' ∉ s) : ¬ NsLike s := by
  rintro (h | ⟨w, _, h⟩)
  · exact h1 h
  · exact h2 (by rw [h]; simp)

theorem nsTag_vals : ∀ a ∈ nsElem.tag.attrs, ¬ NsLike a.val := by
  intro a ha
  simp only [nsElem, DElem.tag, nsTag, List.mem_cons, List.not_mem_nil, or_false] at ha
  rcases ha with rfl | rfl | rfl <;> exact not_nsLike (by decide) (by decide)

example (X : Ext) : ∃ l, getXmlns X nsDoc [] = .ok l ∧ l.map (entryText nsDoc) =
    [(some xmlnsName, some ['p'], some ['u']), (none, some xmlnsName, some ['v'])] :=
  C87_declarations_partial X _ nsDoc [] nsElem nsRoot nsTag_vals

/-- `a="xmlns"` -/
def valAttr : Attr := ⟨[' '], ⟨none, ['a']⟩, xmlnsName⟩
theorem valAttr_ok : valAttr.OK :=
  plain_attr_ok _ rfl ⟨by simp [valAttr], by simp [valAttr], by decide⟩ (by decide) (by decide)

theorem valRoot : ElemAt (fun _ => true) (oneDoc valAttr) [] (oneAttr valAttr) :=
  docOf_root _ (oneAttr valAttr) [] [] (oneAttr_ok _ valAttr_ok rfl)

/-- **C87 fails** for an attribute with the value `xmlns`: `<r a="xmlns"/>` declares no namespace, yet `a` is given as
a declaration of `xmlns`. -/
theorem C87_value_violated (X : Ext) : (oneDoc valAttr).string = "<r a=\"xmlns\"/>".toList ∧
    declared (oneAttr valAttr).tag.attrs = [] ∧
    ∃ l, getXmlns X (oneDoc valAttr) [] = .ok l ∧
      l.map (entryText (oneDoc valAttr)) = [(none, some ['a'], some xmlnsName)] := by
  refine ⟨by decide +kernel, by decide, ?_⟩
  obtain ⟨l, h1, h2⟩ := C87_exact X _ (oneDoc valAttr) [] _ valRoot
  refine ⟨l, h1, h2.trans ?_⟩
  show List.map attrEntry (List.filter _ [valAttr]) = _
  rw [List.filter_cons, if_pos (decide_eq_true (Or.inr (show NsLike valAttr.val from Or.inl rfl)))]
  rfl

/-! ### C88 -/

example (X : Ext) : getPrefixMap X nsDoc [] = .ok [(['p'], ['u'])] :=
  C88_prefix_map_partial X _ nsDoc [] nsElem nsRoot (fun a ha _ => nsTag_vals a ha) (by decide)

/-- `n:k="xmlns"` -/
def preAttr : Attr := ⟨[' '], ⟨some ['n'], ['k']⟩, xmlnsName⟩
theorem preAttr_ok : preAttr.OK :=
  plain_attr_ok _ rfl ⟨by intro p hp; cases hp; exact ⟨by decide, by decide⟩, by simp [preAttr], by decide⟩ (by decide) (by decide)

/-- **C88 fails** for an attribute with a prefix and the value `xmlns`: `<r n:k="xmlns"/>` declares no prefix, yet `k`
is given as one. -/
theorem C88_value_violated (X : Ext) : (oneDoc preAttr).string = "<r n:k=\"xmlns\"/>".toList ∧
    (oneAttr preAttr).tag.attrs.filter (fun a => decide a.IsPrefix) = [] ∧
    getPrefixMap X (oneDoc preAttr) [] = .ok [(['k'], xmlnsName)] := by
  refine ⟨by decide +kernel, by decide, ?_⟩
  obtain ⟨l, h1, h2⟩ := C87_exact X _ (oneDoc preAttr) [] _
    (docOf_root _ (oneAttr preAttr) [] [] (oneAttr_ok _ preAttr_ok rfl))
  have h3 : l.map (entryText (oneDoc preAttr)) = [(some ['n'], some ['k'], some xmlnsName)] := by
    refine h2.trans ?_
    show List.map attrEntry (List.filter _ [preAttr]) = _
    rw [List.filter_cons, if_pos (decide_eq_true (Or.inr (show NsLike preAttr.val from Or.inl rfl)))]
    rfl
  unfold getPrefixMap
  have h1' : getXmlns X (oneDoc preAttr) [] = .ok l := h1
  rw [h1']
  simp only
  rw [prefix_fold, h3]
  rfl

/-! ### C89 -/

theorem nsAll_vals : ∀ e ∈ nsElem.within, ∀ a ∈ e.tag.attrs, a.name.pre = none → ¬ NsLike a.val := by
  intro e he a ha _
  have he' : e ∈ [nsElem, nsElemB, nsElemC] := he
  simp only [List.mem_cons, List.not_mem_nil, or_false] at he'
  rcases he' with rfl | rfl | rfl
  · exact nsTag_vals a ha
  · simp [nsElemB, DElem.tag] at ha
  · simp only [nsElemC, DElem.tag, List.mem_cons, List.not_mem_nil, or_false] at ha
    subst ha
    exact not_nsLike (by decide) (by decide)

/-- The hypotheses of `C89_default_namespace_partial` are met: `b` takes the default namespace from the root, and `c` has its own. -/
example (X : Ext) := C89_default_namespace_partial X (fun _ => true) nsElem [] [] nsElem_ok [2, 1] (by rfl) nsAll_vals
example : getDefaultNamespace demoExt nsDoc [2] = .ok (some "{v}".toList) := by decide +kernel
example : getDefaultNamespace demoExt nsDoc [2, 1] = .ok (some "{z}".toList) := by decide +kernel

/-- **C89 fails** for an attribute with the value `xmlns`: `<r a="xmlns"/>` has no default namespace. -/
theorem C89_value_violated (X : Ext) : (oneDoc valAttr).string = "<r a=\"xmlns\"/>".toList ∧
    getDefaultNamespace X (oneDoc valAttr) [] = .ok (some "{xmlns}".toList) := by
  refine ⟨by decide +kernel, ?_⟩
  obtain ⟨_, _, l, h1, h2⟩ := C87_value_violated X
  have hf := find_entry (oneDoc valAttr) l
  rw [h2] at hf
  unfold getDefaultNamespace
  show defaultLoop X (oneDoc valAttr) 1 [] = _
  rw [defaultLoop, h1]
  simp only
  cases hv : (l.find? fun kv => kv.1.pre.isNone).bind Prod.snd with
  | none => rw [hv] at hf; cases hf
  | some v =>
    rw [hv] at hf
    have : (oneDoc valAttr).text v = xmlnsName := Option.some.inj hf
    simp only
    rw [this]
    decide

/-- `<a xmlns="u"><b xmlns=""/></a>` -/
def undeclared : List Char := "<a xmlns=\"u\"><b xmlns=\"\"/></a>".toList

/-- The default namespace the element at `x` of a text gets; `e` is the `ElementTree` element expat gives. -/
def defaultOf (s : List Char) (e : Xml.Elem) (x : Path) : Option (Except PyErr (Option (List Char))) :=
  (Xml.extract (fun c => c == ' ') true s e).toOption.map fun n => getDefaultNamespace demoExt ⟨n, s⟩ x

/-- **C89 fails** for an element that undeclares the default namespace: `xmlns=""` is not seen. -/
theorem C89_undeclared_violated :
    defaultOf undeclared (XmlSpec.elemAt 0 (.node "<a xmlns=\"u\">".toList [] (.cons (.empty "<b xmlns=\"\"/>".toList) [] .nil)
      "</a>".toList)) [1] = some (.ok (some "{u}".toList)) := by decide +kernel

/-! ### C90 -/

example (X : Ext) := C90_parent X (fun _ => true) nsElem [] [] nsElem_ok [2, 1] (by rfl)
example : getParentElement demoExt nsDoc [2, 1] = .ok (some [2]) := by decide +kernel
/-- `c` is within `b` within the root; the first of them with a prefix is the root. -/
example : reverseFind demoExt nsDoc (fun p => .ok (decide (p.length = 0))) [2, 1] = .ok (some []) := by decide +kernel

/-! ### C91 -/

example (X : Ext) : (getTextItos X nsDoc []).exc = none ∧ (getTextItos X nsDoc []).out.map nsDoc.text = [['t'], ['s']] :=
  C91_texts X _ nsDoc [] nsElem nsRoot

end Pawpaw.Props
