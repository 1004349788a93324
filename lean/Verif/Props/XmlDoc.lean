import Verif.Spec.XmlDoc
import Verif.Props.XmlText
/-!
# C85: the whole Ito tree of an element
-/
set_option linter.unusedSectionVars false
set_option linter.unusedSimpArgs false
namespace Pawpaw.Props
open Pawpaw Pawpaw.Xml Pawpaw.Regex XmlSpec TreeSpec

theorem stag_tagText {t : STag} (ht : t.OK) (e : List Char) : TagText e (t.chars e) := by
  refine ⟨t.name.chars ++ attrsChars t.attrs ++ t.trail, ?_, by simp [STag.chars]⟩
  have h1 := qname_not ht.name '>' rfl (by decide)
  have h2 := attrs_not_gt t.attrs ht.attrs
  have h3 := ws_not ht.trail '>' (by decide)
  simp [h1, h2, h3]

theorem etag_tagText {t : ETag} (ht : t.OK) : TagText ['>'] t.chars := by
  refine ⟨'/' :: t.name.chars ++ t.trail, ?_, by simp [ETag.chars]⟩
  have h1 := qname_not ht.name '>' rfl (by decide)
  have h3 := ws_not ht.trail '>' (by decide)
  simp [h1, h3]

/-- The last character before the end of a start tag is no `/` or `?`. -/
theorem stag_last {t : STag} (ht : t.OK) {d : Char} (hd : d = '/' ∨ d = '?') :
    ¬ [d, '>'] <:+ t.chars ['>'] := by
  rintro ⟨u, hu⟩
  have e1 : t.chars ['>'] = ('<' :: t.name.chars ++ attrsChars t.attrs ++ t.trail) ++ ['>'] := by simp [STag.chars]
  rw [e1, show u ++ [d, '>'] = (u ++ [d]) ++ ['>'] by simp] at hu
  have h2 := (List.append_inj' hu rfl).1
  have hlast : ('<' :: t.name.chars ++ attrsChars t.attrs ++ t.trail).getLast? = some d := by rw [← h2]; simp
  rw [List.getLast?_append] at hlast
  cases htr : t.trail.getLast? with
  | some x =>
    rw [htr] at hlast
    have hx : x = d := by simpa using hlast
    have hm := List.mem_of_mem_getLast? htr
    rw [hx] at hm
    rcases hd with rfl | rfl
    · exact ws_not ht.trail '/' (by decide) hm
    · exact ws_not ht.trail '?' (by decide) hm
  | none =>
    rw [htr, Option.none_or, List.getLast?_append] at hlast
    rcases List.eq_nil_or_concat t.attrs with ha | ⟨as, a, ha⟩
    · rw [ha] at hlast
      have hne : t.name.chars ≠ [] := qname_ne ht.name
      have hm : d ∈ t.name.chars := by
        have := hlast
        simp [attrsChars, List.getLast?_cons] at this
        rw [List.getLast?_eq_some_getLast hne] at this
        simp at this
        rw [← this]
        exact List.getLast_mem hne
      rcases hd with rfl | rfl
      · exact qname_not ht.name '/' rfl (by decide) hm
      · exact qname_not ht.name '?' rfl (by decide) hm
    · have hq : (attrsChars t.attrs).getLast? = some '"' := by
        rw [ha, List.concat_eq_append]
        clear ha hlast htr h2 hu e1 ht
        induction as with
        | nil => simp [attrsChars, Attr.chars, Attr.body, List.getLast?_cons, List.getLast?_append]
        | cons b as ih => rw [List.cons_append, attrsChars, List.getLast?_append, ih]; rfl
      rw [hq] at hlast
      have : '"' = d := by simpa using hlast
      rcases hd with rfl | rfl <;> exact absurd this (by decide)

theorem text_last {d : Char} (hd : d ≠ '>') {o s : List Char} (ho : ¬ [d, '>'] <:+ o) (hl : o.getLast? = some '>')
    (hs : ¬ [d, '>'] <:+ s) : ¬ [d, '>'] <:+ o ++ s := by
  rcases List.eq_nil_or_concat s with rfl | ⟨s', x, rfl⟩
  · rw [List.append_nil]; exact ho
  rw [List.concat_eq_append] at *
  rcases List.eq_nil_or_concat s' with rfl | ⟨s'', y, rfl⟩
  · rintro ⟨u, hu⟩
    rw [List.nil_append, show u ++ [d, '>'] = (u ++ [d]) ++ ['>'] by simp] at hu
    have h2 := (List.append_inj' hu rfl).1
    rw [← h2] at hl
    simp at hl
    exact hd hl
  · rintro ⟨u, hu⟩
    rw [List.concat_eq_append] at *
    apply hs
    rw [show u ++ [d, '>'] = u ++ ([d] ++ ['>']) by simp, show o ++ (s'' ++ [y] ++ [x]) = (o ++ s'') ++ ([y] ++ [x]) by simp] at hu
    have h2 := (List.append_inj' hu rfl).2
    refine ⟨s'', ?_⟩
    rw [show [d, '>'] = [d] ++ ['>'] from rfl, h2]
    simp

theorem stag_gt (t : STag) : (t.chars ['>']).getLast? = some '>' := by
  simp [STag.chars, List.getLast?_append, List.getLast?_cons]

mutual
theorem plain_of : ∀ (e : DElem), e.OK → Plain e.plain
  | .empty t, h => by
    rw [DElem.OK] at h
    rw [DElem.plain, Plain]
    exact stag_tagText h _
  | .node o ss ks c, h => by
    rw [DElem.OK] at h
    obtain ⟨ho, hs, hc, hlast, hk⟩ := h
    rw [DElem.plain]
    refine ⟨stag_tagText ho _, etag_tagText hc, ?_, plainK_of ks hk⟩
    intro hn
    have hn' : ks = .nil := by
      cases ks with
      | nil => rfl
      | cons e ss ks => simp [DKids.plain] at hn
    have := hlast hn'
    exact ⟨text_last (by decide) (stag_last ho (Or.inl rfl)) (stag_gt o) this.1,
      text_last (by decide) (stag_last ho (Or.inr rfl)) (stag_gt o) this.2⟩
theorem plainK_of : ∀ (ks : DKids), ks.OK → PlainK ks.plain
  | .nil, _ => by rw [DKids.plain, PlainK]; trivial
  | .cons e ss ks, h => by
    rw [DKids.OK] at h
    rw [DKids.plain, PlainK]
    exact ⟨plain_of e h.1, plainK_of ks h.2.2⟩
end

mutual
theorem quiet_of : ∀ (e : DElem) (T a b : List Char), T = a ++ render e.plain ++ b → e.OK → Quiet T a.length e.plain
  | .empty t, T, a, b, hT, h => by
    rw [DElem.OK] at h
    rw [DElem.plain, render] at hT
    rw [DElem.plain, Quiet]
    exact ⟨_, by rw [hT]; exact C85_start_tag_partial h (Or.inr rfl) a b⟩
  | .node o ss ks c, T, a, b, hT, h => by
    rw [DElem.OK] at h
    obtain ⟨ho, hs, hc, hlast, hk⟩ := h
    rw [DElem.plain, render] at hT
    rw [DElem.plain, Quiet]
    refine ⟨⟨o.kids a.length, ?_⟩, ?_⟩
    · rw [show T = a ++ o.chars ['>'] ++ (segsChars ss ++ renderK ks.plain ++ c.chars ++ b) by rw [hT]; simp]
      exact C85_start_tag_partial ho (Or.inl rfl) a _
    · have := quietK_of ks T (a ++ o.chars ['>'] ++ segsChars ss) (c.chars ++ b) (by rw [hT]; simp) hk
      simp only [List.length_append] at this
      exact this
theorem quietK_of : ∀ (ks : DKids) (T a b : List Char), T = a ++ renderK ks.plain ++ b → ks.OK →
    QuietK T a.length ks.plain
  | .nil, _, _, _, _, _ => by rw [DKids.plain, QuietK]; trivial
  | .cons e ss ks, T, a, b, hT, h => by
    rw [DKids.OK] at h
    rw [DKids.plain, renderK] at hT
    rw [DKids.plain, QuietK]
    refine ⟨quiet_of e T a (segsChars ss ++ renderK ks.plain ++ b) (by rw [hT]; simp) h.1, ?_⟩
    have := quietK_of ks T (a ++ render e.plain ++ segsChars ss) b (by rw [hT]; simp) h.2.2
    simp only [List.length_append] at this
    exact this
end

theorem textI_found {ss : List Seg} (h : ∀ s ∈ ss, s.OK) {T a b : List Char} (hT : T = a ++ segsChars ss ++ b)
    (keep : List Char → Bool) {p : Nat} (hp : p = a.length) : textI (xfound T) keep p (segsChars ss) = dTextAt keep p ss := by
  unfold textI dTextAt
  have : (xfound T).txt p (p + (segsChars ss).length) = segsAt p ss := by
    unfold xfound
    dsimp only
    rw [hT, hp, C85_text_partial h a b]
    rfl
  rw [this]

mutual
theorem itoI_found (keep : List Char → Bool) : ∀ (e : DElem) (T a b : List Char), T = a ++ render e.plain ++ b → e.OK →
    itoI (xfound T) keep a.length e.plain = e.at keep a.length
  | .empty t, T, a, b, hT, h => by
    rw [DElem.OK] at h
    rw [DElem.plain, render] at hT
    rw [DElem.plain, itoI, DElem.at]
    have : (xfound T).opn a.length (a.length + (t.chars ['/', '>']).length) = t.kids a.length := by
      unfold xfound
      dsimp only
      rw [hT, C85_start_tag_partial h (Or.inr rfl) a b]
      rfl
    rw [this]
  | .node o ss ks c, T, a, b, hT, h => by
    rw [DElem.OK] at h
    obtain ⟨ho, hs, hc, hlast, hk⟩ := h
    rw [DElem.plain, render] at hT
    rw [DElem.plain, itoI, DElem.at]
    have e1 : (xfound T).opn a.length (a.length + (o.chars ['>']).length) = o.kids a.length := by
      unfold xfound
      dsimp only
      rw [show T = a ++ o.chars ['>'] ++ (segsChars ss ++ renderK ks.plain ++ c.chars ++ b) by rw [hT]; simp,
        C85_start_tag_partial ho (Or.inl rfl) a _]
      rfl
    have e2 := textI_found hs (T := T) (a := a ++ o.chars ['>']) (b := renderK ks.plain ++ c.chars ++ b)
      (by rw [hT]; simp) keep (p := a.length + (o.chars ['>']).length) (by simp)
    have e3 := itosI_found keep ks T (a ++ o.chars ['>'] ++ segsChars ss) (c.chars ++ b) (by rw [hT]; simp) hk
    simp only [List.length_append] at e3
    have e4 : (xfound T).cls (a.length + (o.chars ['>'] ++ segsChars ss ++ renderK ks.plain).length)
        (a.length + (o.chars ['>'] ++ segsChars ss ++ renderK ks.plain ++ c.chars).length) =
        [c.name.at (a.length + (o.chars ['>']).length + (segsChars ss).length + ks.chars.length + 2)] := by
      have := C85_end_tag_partial hc (a ++ (o.chars ['>'] ++ segsChars ss ++ renderK ks.plain)) b
      unfold xfound
      dsimp only
      rw [show T = a ++ (o.chars ['>'] ++ segsChars ss ++ renderK ks.plain) ++ c.chars ++ b by rw [hT]; simp]
      have e5 : (a ++ (o.chars ['>'] ++ segsChars ss ++ renderK ks.plain)).length =
          a.length + (o.chars ['>'] ++ segsChars ss ++ renderK ks.plain).length := List.length_append
      have e6 : a.length + (o.chars ['>'] ++ segsChars ss ++ renderK ks.plain ++ c.chars).length =
          a.length + (o.chars ['>'] ++ segsChars ss ++ renderK ks.plain).length + c.chars.length := by
        rw [List.length_append (bs := c.chars), Nat.add_assoc]
      rw [e5] at this
      rw [e6, this]
      unfold DKids.chars
      unfold okList
      dsimp only
      congr 2
      simp
      omega
    rw [e1, e2, e3, e4]
    unfold DKids.chars
    simp only [List.length_append, Nat.add_assoc]
theorem itosI_found (keep : List Char → Bool) : ∀ (ks : DKids) (T a b : List Char), T = a ++ renderK ks.plain ++ b → ks.OK →
    itosI (xfound T) keep a.length ks.plain = ks.at keep a.length
  | .nil, _, _, _, _, _ => by rw [DKids.plain, itosI, DKids.at]
  | .cons e ss ks, T, a, b, hT, h => by
    rw [DKids.OK] at h
    rw [DKids.plain, renderK] at hT
    rw [DKids.plain, itosI, DKids.at]
    have e1 := itoI_found keep e T a (segsChars ss ++ renderK ks.plain ++ b) (by rw [hT]; simp) h.1
    have e2 := textI_found h.2.1 (T := T) (a := a ++ render e.plain) (b := renderK ks.plain ++ b)
      (by rw [hT]; simp) keep (p := a.length + (render e.plain).length) (by simp)
    have e3 := itosI_found keep ks T (a ++ render e.plain ++ segsChars ss) b (by rw [hT]; simp) h.2.2
    simp only [List.length_append] at e3
    rw [e1, e2, e3]
    rfl
end

/-- **C85 (partial).** The tree made of an element is exactly the one its tags, attributes, texts, comments and
processing instructions ask for, each Ito where its characters are. Missing: what `DElem.OK` excludes. -/
theorem C85_tree_partial (ws : Char → Bool) (ign : Bool) (e : DElem) (before after : List Char) (h : e.OK) :
    extract ws ign (before ++ e.chars ++ after) (elemAt before.length e.plain) =
      .ok (e.at (fun t => !(ign && t.all ws)) before.length) := by
  have h1 := extract_ok ws ign e.plain (before ++ e.chars ++ after) before after rfl (plain_of e h)
    (quiet_of e _ before after rfl h)
  rw [h1]
  exact congrArg Except.ok (itoI_found (keepText ws ign) e _ before after rfl h)

/-! ### A document that meets the hypotheses -/

/-- `<x:a  id="7" n:k="a/b"><!--c--><b/>t<?p q?>u</x:a >` -/
def exDoc : DElem :=
  .node ⟨⟨some ['x'], ['a']⟩, [⟨[' ', ' '], ⟨none, ['i', 'd']⟩, ['7']⟩, ⟨[' '], ⟨some ['n'], ['k']⟩, ['a', '/', 'b']⟩], []⟩
    [.comment ['c']] (.cons (.empty ⟨⟨none, ['b']⟩, [], []⟩) [.data ['t'], .pi ['p', ' ', 'q'], .data ['u']] .nil)
    ⟨⟨some ['x'], ['a']⟩, [' ']⟩

theorem exDoc_chars : exDoc.chars = "<x:a  id=\"7\" n:k=\"a/b\"><!--c--><b/>t<?p q?>u</x:a >".toList := by decide +kernel

theorem exDoc_ok : exDoc.OK := by
  have hx : IsName ['x'] := ⟨by simp, by decide⟩
  have ha : IsName ['a'] := ⟨by simp, by decide⟩
  refine ⟨⟨⟨?_, ha⟩, ?_, ?_, ?_⟩, ?_, ⟨⟨?_, ha⟩, ?_, ?_⟩, ?_, ⟨⟨⟨?_, by simp, by decide⟩, ?_, ?_, ?_⟩, ?_, trivial⟩⟩
  · intro p hp; cases hp; exact hx
  · intro a h
    simp only [List.mem_cons, List.not_mem_nil, or_false] at h
    rcases h with rfl | rfl
    · refine ⟨by simp [IsWs], rfl, ⟨by simp, by simp, by decide⟩, by simp, by decide, by decide, by decide, ?_⟩
      rintro _ ⟨a, x, h, _⟩
      have : ':' ∈ ['7'] := by dsimp only at h; rw [h]; simp
      simp at this
    · refine ⟨by simp [IsWs], rfl, ⟨?_, by simp, by decide⟩, by simp, by decide, by decide, by decide, ?_⟩
      · intro p hp; cases hp; exact ⟨by simp, by decide⟩
      · intro h; cases h
  · simp [IsWs]
  · simp [attrsChars, Attr.chars, Attr.body]
  · intro s hs
    simp only [List.mem_cons, List.not_mem_nil, or_false] at hs
    subst hs
    show ¬ ['-', '-', '>'] <:+: ['c'] ++ ['-', '-']
    decide
  · intro p hp; cases hp; exact hx
  · simp [IsWs]
  · simp
  · intro h; cases h
  · simp
  · simp
  · simp [IsWs]
  · simp [attrsChars]
  · intro s hs
    simp only [List.mem_cons, List.not_mem_nil, or_false] at hs
    rcases hs with rfl | rfl | rfl
    · show '<' ∉ ['t']; decide
    · show ¬ ['?', '>'] <:+: ['p', ' ', 'q'] ++ ['?']; decide
    · show '<' ∉ ['u']; decide

mutual
/-- The characters and descs of a tree, for the examples. -/
def labels (T : List Char) : Node → List (List Char × Option String)
  | .mk sp d _ ks => (PyStr.slice T (some sp.start) (some sp.stop), d) :: labelsK T ks
def labelsK (T : List Char) : List Node → List (List Char × Option String)
  | [] => []
  | k :: ks => labels T k ++ labelsK T ks
end

example : labelsK exDoc.chars (exDoc.at (fun _ => true) 0).kids =
    [("<x:a  id=\"7\" n:k=\"a/b\">".toList, some "start_tag"),
      ("x:a".toList, some "tag"), ("x".toList, some "namespace"), ("a".toList, some "name"),
      ("id=\"7\" n:k=\"a/b\"".toList, some "attributes"),
      ("id=\"7\"".toList, some "attribute"), ("id".toList, some "tag"), ("id".toList, some "name"), ("7".toList, some "value"),
      ("n:k=\"a/b\"".toList, some "attribute"), ("n:k".toList, some "tag"), ("n".toList, some "namespace"),
      ("k".toList, some "name"), ("a/b".toList, some "value"),
      ("<!--c-->".toList, some "text"), ("<!--c-->".toList, some "comment"), ("c".toList, some "value"),
      ("<b/>".toList, some "element"), ("<b/>".toList, some "start_tag"), ("b".toList, some "tag"), ("b".toList, some "name"),
      ("t<?p q?>u".toList, some "text"), ("<?p q?>".toList, some "pi"), ("p q".toList, some "value"),
      ("</x:a >".toList, some "end_tag"), ("x:a".toList, some "tag"), ("x".toList, some "namespace"),
      ("a".toList, some "name")] := by decide +kernel

/-! ### What is excluded -/

/-- What is found within the only start tag of a text. -/
def startLabels (s : List Char) : Option (List (List Char × Option String)) :=
  (startKids (FIto.ofStr s none none (some "start_tag"))).toOption.map (labelsK s)

/-- **C85 fails** for an attribute with an empty value, which XML allows: it is lost. -/
theorem C85_empty_value_violated :
    startLabels "<e a=\"\"/>".toList = some [("e".toList, some "tag"), ("e".toList, some "name")] := by decide +kernel

/-- **C85 fails** for an attribute in single quotes, which XML allows: it is lost. -/
theorem C85_single_quotes_violated :
    startLabels "<e a='x'/>".toList = some [("e".toList, some "tag"), ("e".toList, some "name")] := by decide +kernel

/-- **C85 fails** for a value that holds a colon and ends in `=`: in `<e b="k:v=" c="1"/>`, one attribute named
`b="k:v` with the value ` c=` is found instead of two. -/
theorem C85_misread_violated :
    startLabels "<e b=\"k:v=\" c=\"1\"/>".toList =
      some [("e".toList, some "tag"), ("e".toList, some "name"), ("b=\"k:v=\" c=\"".toList, some "attributes"),
        ("b=\"k:v=\" c=\"".toList, some "attribute"), ("b=\"k:v".toList, some "tag"), ("b=\"k".toList, some "namespace"),
        ("v".toList, some "name"), (" c=".toList, some "value")] := by decide +kernel

/-- **C85 fails** when a newline follows the element's name: it becomes part of the name. -/
theorem C85_newline_violated :
    startLabels "<e\n a=\"x\"/>".toList =
      some [("e\n".toList, some "tag"), ("e\n".toList, some "name"), ("a=\"x\"".toList, some "attributes"),
        ("a=\"x\"".toList, some "attribute"), ("a".toList, some "tag"), ("a".toList, some "name"),
        ("x".toList, some "value")] := by decide +kernel

/-- **C85 fails** when white space surrounds the `=` of an attribute, which XML allows: it is lost. -/
theorem C85_spaced_violated :
    startLabels "<e a = \"x\"/>".toList = some [("e".toList, some "tag"), ("e".toList, some "name")] := by decide +kernel

/-- **C85 fails** for a CDATA section with what looks like a comment: it is taken for one. -/
theorem C85_cdata_violated :
    (textKids (FIto.ofStr "<![CDATA[<!--x-->]]>".toList none none (some "text"))).toOption.map
      (labelsK "<![CDATA[<!--x-->]]>".toList) =
      some [("<!--x-->".toList, some "comment"), ("x".toList, some "value")] := by decide +kernel

end Pawpaw.Props
