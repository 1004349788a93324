import Verif.Props.PepoJson
/-!
# C64: XML dumps
-/
set_option linter.unusedSectionVars false
set_option linter.unusedSimpArgs false
namespace Pawpaw.Props
open Pawpaw Pawpaw.Pepo PepoSpec TreeSpec

/-- Every character of the string may stand in an XML document. -/
def AllXml (s : List Char) : Prop := ∀ c ∈ s, XmlChar c

mutual
/-- Every desc of the tree may stand in an attribute in double quotes as it is. -/
def DescsOK : Node → Prop
  | .mk _ d _ ks => (∀ c ∈ (d.getD "").toList, XmlChar c ∧ c ≠ '"' ∧ c ≠ '\t' ∧ c ≠ '\n') ∧ DescsOKs ks
def DescsOKs : List Node → Prop
  | [] => True
  | k :: ks => DescsOK k ∧ DescsOKs ks
end

theorem mem_of_mem_subText {s : List Char} {sp : Span} {c : Char} (h : c ∈ subText s sp) : c ∈ s := by
  unfold subText PyStr.slice at h
  rw [List.mem_map] at h
  obtain ⟨⟨x, i⟩, hx, rfl⟩ := h
  have := List.mem_zipIdx (List.mem_filter.mp hx).1
  rw [this.2.2]
  exact List.getElem_mem _

theorem unesc_escape (ok : Char → Prop) : ∀ (s : List Char), (∀ c ∈ s, ok c) → Unesc ok (xmlEscape s) s
  | [], _ => .nil
  | c :: s, h => by
    have ih := unesc_escape ok s (fun x hx => h x (by simp [hx]))
    unfold xmlEscape at *
    rw [List.flatMap_cons]
    by_cases h1 : c = '&'
    · subst h1; exact .amp ih
    rw [if_neg h1]
    by_cases h2 : c = '>'
    · subst h2; exact .gt ih
    rw [if_neg h2]
    by_cases h3 : c = '<'
    · subst h3; exact .lt ih
    rw [if_neg h3]
    exact .lit h3 h1 (h c (by simp)) ih

theorem unesc_plain (ok : Char → Prop) : ∀ (s : List Char), (∀ c ∈ s, ok c ∧ c ≠ '<' ∧ c ≠ '&') → Unesc ok s s
  | [], _ => .nil
  | c :: s, h => .lit (h c (by simp)).2.1 (h c (by simp)).2.2 (h c (by simp)).1
      (unesc_plain ok s (fun x hx => h x (by simp [hx])))

theorem digit_xml {c : Char} (h : c.isDigit = true ∨ c = '-') :
    (XmlChar c ∧ c ≠ '"' ∧ c ≠ '\t' ∧ c ≠ '\n') ∧ c ≠ '<' ∧ c ≠ '&' := by
  have n1 := digit_ne_of h (d := '"') (by decide)
  have n2 := digit_ne_of h (d := '\t') (by decide)
  have n3 := digit_ne_of h (d := '\n') (by decide)
  have n4 := digit_ne_of h (d := '<') (by decide)
  have n5 := digit_ne_of h (d := '&') (by decide)
  have n6 := digit_ne_of h (d := '\uFFFE') (by decide)
  have n7 := digit_ne_of h (d := '\uFFFF') (by decide)
  refine ⟨⟨.inr (.inr ⟨?_, n6, n7⟩), n1, n2, n3⟩, n4, n5⟩
  rcases h with h | h
  · rw [Char.isDigit_iff_toNat] at h
    have : '0'.toNat = 48 := rfl
    omega
  · subst h; decide

theorem elsCons {w s x t xs t'} (e : t' = w ++ s ++ t) (h1 : Ws w) (h2 : El s x) (h3 : Els t xs) :
    Els t' (x :: xs) := by subst e; exact .cons h1 h2 h3

mutual
theorem xmlNode_el (c : Cfg) (hi : Ws c.indent) (hl : Ws c.lsep) (hc : c.children = true) (s : List Char)
    (hs : ∀ sp, AllXml (subText s sp)) :
    ∀ (n : Node) (level : Nat), DescsOK n →
    ∃ t, xmlNode c s level n = c.ind level ++ t ++ c.lsep ∧ El t (nodeX (subText s) n)
  | .mk sp d v ks, level, hd => by
    rw [DescsOK] at hd
    have hint := fun n => unesc_plain (fun c => XmlChar c ∧ c ≠ '"' ∧ c ≠ '\t' ∧ c ≠ '\n') (intText n)
      (fun c h => digit_xml ((intText_chars n).2 c h))
    have hA := Attrs.cons (n := "start".toList) (by constructor <;> decide) (hint sp.start)
      (Attrs.cons (n := "stop".toList) (by constructor <;> decide) (hint sp.stop)
        (Attrs.cons (n := "desc".toList) (by constructor <;> decide) (unesc_escape _ _ hd.1) .nil))
    have hsub := El.txt (name := "substring".toList) (by constructor <;> decide)
      (unesc_escape XmlChar (subText s sp) (hs sp))
    have hK : Els ((if c.children = true ∧ ks ≠ [] then
        c.ind level ++ "<children>".toList ++ c.lsep ++ xmlKids c s (level + 1) ks ++
          (c.ind level ++ "</children>".toList ++ c.lsep) else []) ++ c.ind (level - 1))
        (if ks = [] then [] else [.el "children".toList [] (nodesX (subText s) ks)]) := by
      by_cases hz : ks = []
      · simp only [hz, ne_eq, not_true_eq_false, and_false, if_false, if_true]
        exact .nil (ws_append ws_nil (ws_ind hi _))
      · simp only [hz, ne_eq, not_false_eq_true, and_true, hc, if_true, if_false]
        have := xmlKids_els c hi hl hc s hs ks (level + 1) hd.2 c.lsep (c.ind level) hl (ws_ind hi _)
        have hel := El.el (name := "children".toList) (by constructor <;> decide) .nil this
        exact elsCons (by simp) (ws_ind hi level) hel (.nil (w := c.lsep ++ c.ind (level - 1))
          (ws_append hl (ws_ind hi _)))
    have hBody := elsCons rfl (ws_append hl (ws_ind hi level)) hsub (elsLead hl hK)
    have := El.el (name := "ito".toList) (by constructor <;> decide) hA hBody
    refine ⟨_, ?_, by rw [nodeX]; exact this⟩
    rw [xmlNode]
    simp
theorem xmlKids_els (c : Cfg) (hi : Ws c.indent) (hl : Ws c.lsep) (hc : c.children = true) (s : List Char)
    (hs : ∀ sp, AllXml (subText s sp)) :
    ∀ (ks : List Node) (level : Nat), DescsOKs ks → ∀ (w w' : List Char), Ws w → Ws w' →
    Els (w ++ xmlKids c s level ks ++ w') (nodesX (subText s) ks)
  | [], level, hd, w, w', hw, hw' => by
    rw [xmlKids, nodesX]
    exact .nil (by simpa using ws_append hw hw')
  | k :: ks, level, hd, w, w', hw, hw' => by
    rw [DescsOKs] at hd
    obtain ⟨t, e, hel⟩ := xmlNode_el c hi hl hc s hs k level hd.1
    have := xmlKids_els c hi hl hc s hs ks level hd.2 c.lsep w' hl hw'
    rw [xmlKids, nodesX, e]
    exact elsCons (by simp) (ws_append hw (ws_ind hi level)) hel this
theorem elsLead {w t xs} (hw : Ws w) : Els t xs → Els (w ++ t) xs
  | .nil h => .nil (ws_append hw h)
  | .cons (w := w') h1 h2 h3 => elsCons (by simp) (ws_append hw h1) h2 h3
end

/-- The XML of an Ito without its children. -/
def childless (n : Node) : Node := .mk n.span n.desc n.vf []

theorem xmlKids_childless (c : Cfg) (hc : c.children = false) (s : List Char) (level : Nat) : ∀ ks : List Node,
    xmlKids c s level ks = xmlKids { c with children := true } s level (ks.map childless)
  | [] => rfl
  | .mk sp d v ks' :: ks => by
    rw [xmlKids, List.map_cons, xmlKids, ← xmlKids_childless c hc s level ks]
    congr 1
    simp [xmlNode, childless, hc, Node.span, Node.desc, Cfg.ind]

/-- C64: what the XML dump writes between its first and its last line is one `ito` element per node, nested as the
tree, children in order, provided no desc has a double quote, tab or line break and all characters are XML
characters (and indent and line separator are white space). -/
theorem C64_xml_partial (c : Cfg) (hi : Ws c.indent) (hl : Ws c.lsep) (s : List Char) (itos : List Node)
    (hs : AllXml s) (hd : DescsOKs itos) :
    ∃ body, xmlDump c s itos = xmlDecl ++ c.lsep ++
        "<itos>".toList ++ body ++ "<itos>".toList ++ c.lsep ∧
      Els body (nodesX (subText s) (if c.children then itos else itos.map childless)) := by
  have hs : ∀ sp, AllXml (subText s sp) := fun sp c hc => hs c (mem_of_mem_subText hc)
  refine ⟨c.lsep ++ xmlKids c s 1 itos, by
    simp only [xmlDump, List.append_assoc], ?_⟩
  cases hc : c.children with
  | true =>
    have := xmlKids_els c hi hl hc s hs itos 1 hd c.lsep [] hl ws_nil
    simpa using this
  | false =>
    rw [xmlKids_childless c hc]
    have hd' : ∀ ks, DescsOKs ks → DescsOKs (ks.map childless) := by
      intro ks
      induction ks with
      | nil => exact id
      | cons k ks ih =>
        cases k with
        | mk sp d v ks' =>
          intro h
          rw [DescsOKs, DescsOK] at h
          rw [List.map_cons, DescsOKs, childless, DescsOK]
          exact ⟨⟨h.1.1, trivial⟩, ih h.2⟩
    have := xmlKids_els { c with children := true } hi hl rfl s hs (itos.map childless) 1 (hd' _ hd) c.lsep [] hl
      ws_nil
    simpa using this

/-! ## The last line -/

theorem el_ends {t : List Char} {x : X} (h : El t x) : ∃ a name, NameOK name ∧ t = a ++ "</".toList ++ name ++ ['>'] := by
  cases h with
  | @el name a attrs t kids hn h1 h2 => exact ⟨'<' :: (name ++ a ++ '>' :: t), name, hn, by simp⟩
  | @txt name v val hn h1 => exact ⟨'<' :: (name ++ '>' :: v), name, hn, by simp⟩

theorem dropWhile_ws (w : List Char) (hw : Ws w) (r : List Char) (c : Char) (hc : c = '>') :
    (w ++ c :: r).dropWhile (fun c => c == ' ' || c == '\t' || c == '\n' || c == '\r') = c :: r := by
  induction w with
  | nil => subst hc; rfl
  | cons x w ih =>
    have hx := hw x (by simp)
    have : (x == ' ' || x == '\t' || x == '\n' || x == '\r') = true := by
      rcases hx with rfl | rfl | rfl | rfl <;> rfl
    rw [List.cons_append, List.dropWhile_cons, this, if_pos rfl]
    exact ih (fun y hy => hw y (by simp [hy]))

/-- C64: no XML dump is an XML document: whatever stands before, the last line is `<itos>` where `</itos>` should
be, and no element ends that way. -/
theorem C64_xml_violated (c : Cfg) (hl : Ws c.lsep) (s : List Char) (itos : List Node) :
    ¬ ∃ (pre t w : List Char) (x : X), xmlDump c s itos = pre ++ t ++ w ∧ El t x ∧ Ws w := by
  rintro ⟨pre, t, w, x, e, h, hw⟩
  obtain ⟨a, name, hn, rfl⟩ := el_ends h
  have e := congrArg List.reverse e
  rw [xmlDump] at e
  generalize xmlDecl ++ c.lsep ++ ("<itos>".toList ++ c.lsep) ++
    xmlKids c s 1 itos = A at e
  rw [show "<itos>".toList = ['<', 'i', 't', 'o', 's', '>'] from by decide,
    show "</".toList = ['<', '/'] from by decide] at e
  simp only [List.reverse_append, List.reverse_cons, List.reverse_nil, List.nil_append, List.append_assoc,
    List.cons_append, List.singleton_append] at e
  have hwr : Ws w.reverse := fun c hc => hw c (by simpa using hc)
  have hlr : Ws c.lsep.reverse := fun x hc => hl x (by simpa using hc)
  have e2 := congrArg (List.dropWhile (fun c => c == ' ' || c == '\t' || c == '\n' || c == '\r')) e
  rw [dropWhile_ws _ hlr _ _ rfl, dropWhile_ws _ hwr _ _ rfl] at e2
  have e3 := congrArg (fun l => (l.takeWhile (· ≠ '<')).getLast?) e2
  have hlt : ∀ c ∈ name.reverse, decide (c ≠ '<') = true := by
    intro c hc
    have := hn.2 c (by simpa using hc)
    simp only [List.mem_cons, not_or] at this
    simp [this.1]
  have e4 : ((('>' :: (name.reverse ++ '/' :: '<' :: (a.reverse ++ pre.reverse))).takeWhile (· ≠ '<')).getLast?)
      = some '/' := by
    rw [List.takeWhile_cons, if_pos (by decide), List.takeWhile_append_of_pos hlt,
      List.takeWhile_cons, if_pos (by decide), List.takeWhile_cons, if_neg (by decide), ← List.cons_append,
      List.getLast?_append]
    rfl
  rw [e4] at e3
  simp at e3

/-! ## Quotes in a desc -/

/-- Where a reader of XML stands: in text, in a tag (was the last character the end of an attribute?), in an
attribute value, or beyond repair. -/
inductive XScan where
  | text
  | tag (afterValue : Bool)
  | quoted
  | bad
deriving DecidableEq

/-- One character. The end of an attribute value must be followed by a blank or the end of the tag. -/
def XScan.step : XScan → Char → XScan
  | .text, c => if c = '<' then .tag false else .text
  | .tag b, c => if c = '>' then .text else if b = true ∧ c ≠ ' ' then .bad
      else if c = '"' then .quoted else .tag false
  | .quoted, c => if c = '"' then .tag true else .quoted
  | .bad, _ => .bad

/-- A whole text. -/
def XScan.run (q : XScan) (t : List Char) : XScan := t.foldl XScan.step q

theorem xrun_append (q : XScan) (a b : List Char) : q.run (a ++ b) = (q.run a).run b := by
  simp [XScan.run]
theorem xrun_cons (q : XScan) (a : Char) (b : List Char) : q.run (a :: b) = (q.step a).run b := rfl
theorem xrun_nil (q : XScan) : q.run [] = q := rfl
theorem xrun_bad (t : List Char) : XScan.bad.run t = .bad := by
  induction t with
  | nil => rfl
  | cons c t ih => rw [xrun_cons]; exact ih

theorem xrun_ws : ∀ {w : List Char}, Ws w → XScan.text.run w = .text
  | [], _ => rfl
  | c :: w, h => by
    have hs : XScan.text.step c = .text := by
      rcases h c (by simp) with rfl | rfl | rfl | rfl <;> rfl
    rw [xrun_cons, hs, xrun_ws (fun x hx => h x (by simp [hx]))]

theorem xrun_name {n : List Char} (h : ∀ c ∈ n, c ≠ '>' ∧ c ≠ '"') : (XScan.tag false).run n = .tag false := by
  induction n with
  | nil => rfl
  | cons c n ih =>
    have hc := h c (by simp)
    have : (XScan.tag false).step c = .tag false := by simp [XScan.step, hc.1, hc.2]
    rw [xrun_cons, this]
    exact ih (fun x hx => h x (by simp [hx]))

theorem name_run {n : List Char} (h : NameOK n) : (XScan.tag false).run n = .tag false := by
  refine xrun_name (fun c hc => ?_)
  have := h.2 c hc
  simp only [List.mem_cons, not_or] at this
  exact ⟨this.2.1, this.2.2.2.1⟩

theorem xrun_unesc_text {ok : Char → Prop} {r s : List Char} (h : Unesc ok r s) : XScan.text.run r = .text := by
  induction h with
  | nil => rfl
  | lit h1 _ _ _ ih => rw [xrun_cons]; simp only [XScan.step, h1, if_false]; exact ih
  | amp _ ih => rw [xrun_append]; exact ih
  | lt _ ih => rw [xrun_append]; exact ih
  | gt _ ih => rw [xrun_append]; exact ih

theorem xrun_unesc_quoted {ok : Char → Prop} (hq : ∀ c, ok c → c ≠ '"') {r s : List Char} (h : Unesc ok r s) :
    XScan.quoted.run r = .quoted := by
  induction h with
  | nil => rfl
  | lit _ _ h1 _ ih => rw [xrun_cons]; simp only [XScan.step, hq _ h1, if_false]; exact ih
  | amp _ ih => rw [xrun_append]; exact ih
  | lt _ ih => rw [xrun_append]; exact ih
  | gt _ ih => rw [xrun_append]; exact ih

theorem xrun_attrs {t : List Char} {as} (h : Attrs t as) : ∀ b, ∃ b', (XScan.tag b).run t = .tag b' := by
  induction h with
  | nil => exact fun b => ⟨b, rfl⟩
  | @cons n v val t as hn hv _ ih =>
    intro b
    have h1 : (XScan.tag b).step ' ' = .tag false := by cases b <;> rfl
    rw [xrun_cons, h1, xrun_append, xrun_append, xrun_append, name_run hn,
      show (XScan.tag false).run "=\"".toList = .quoted from rfl,
      xrun_unesc_quoted (fun c h => h.2.1) hv, xrun_cons]
    exact ih _

mutual
theorem xrun_el : ∀ {t : List Char} {x : X}, El t x → XScan.text.run t = .text
  | _, _, .el hn ha hk => by
    obtain ⟨b, hb⟩ := xrun_attrs ha false
    have hg : (XScan.tag b).step '>' = .text := by cases b <;> rfl
    rw [xrun_cons, show XScan.text.step '<' = .tag false from rfl, xrun_append, xrun_append, name_run hn, hb,
      xrun_cons, hg, xrun_append, xrun_append, xrun_append, xrun_els hk,
      show XScan.text.run "</".toList = .tag false from rfl, name_run hn]
    rfl
  | _, _, .txt hn hv => by
    rw [xrun_cons, show XScan.text.step '<' = .tag false from rfl, xrun_append, name_run hn,
      xrun_cons, show (XScan.tag false).step '>' = .text from rfl, xrun_append, xrun_append, xrun_append,
      xrun_unesc_text hv, show XScan.text.run "</".toList = .tag false from rfl, name_run hn]
    rfl
theorem xrun_els : ∀ {t : List Char} {xs : List X}, Els t xs → XScan.text.run t = .text
  | _, _, .nil h => xrun_ws h
  | _, _, .cons h1 h2 h3 => by rw [xrun_append, xrun_append, xrun_ws h1, xrun_el h2, xrun_els h3]
end

theorem xrun_int (n : Int) : XScan.quoted.run (intText n) = .quoted := by
  have := (intText_chars n).2
  generalize intText n = t at this
  induction t with
  | nil => rfl
  | cons c t ih =>
    have hc := digit_ne_of (this c (by simp)) (d := '"') (by decide)
    rw [xrun_cons]
    simp only [XScan.step, hc, if_false]
    exact ih (fun x hx => this x (by simp [hx]))

theorem xrun_escape_noquote : ∀ {s : List Char}, '"' ∉ s → XScan.quoted.run (xmlEscape s) = .quoted
  | [], _ => rfl
  | c :: s, h => by
    have hc : c ≠ '"' := fun e => h (by simp [e])
    have ih := xrun_escape_noquote (s := s) (fun e => h (by simp [e]))
    unfold xmlEscape at *
    rw [List.flatMap_cons, xrun_append]
    by_cases h1 : c = '&'
    · subst h1; exact ih
    rw [if_neg h1]
    by_cases h2 : c = '>'
    · subst h2; exact ih
    rw [if_neg h2]
    by_cases h3 : c = '<'
    · subst h3; exact ih
    rw [if_neg h3, xrun_cons, xrun_nil]
    simp only [XScan.step, hc, if_false]
    exact ih

/-- C64: a desc with a double quote not followed by a blank makes the output malformed, even between the first and
the last line: no sequence of XML elements has that text. -/
theorem C64_xml_quote_violated (c : Cfg) (hi : Ws c.indent) (s : List Char) (sp : Span) (d : String)
    (v : Option Nat) (ks more : List Node) (a b : List Char) (hd : d.toList = a ++ '"' :: b) (ha : '"' ∉ a)
    (hb : b.head? ≠ some ' ') (level : Nat) :
    ¬ ∃ xs, Els (xmlKids c s level (.mk sp (some d) v ks :: more)) xs := by
  rintro ⟨xs, h⟩
  have h := xrun_els h
  have hbad : ∀ r, (XScan.tag true).run (xmlEscape b ++ ("\">".toList ++ r)) = .bad := by
    intro r
    cases b with
    | nil =>
      show (XScan.tag true).run ('"' :: ('>' :: r)) = .bad
      rw [xrun_cons]
      exact xrun_bad _
    | cons x b =>
      have hx : x ≠ ' ' := fun e => hb (by simp [e])
      unfold xmlEscape
      rw [List.flatMap_cons]
      by_cases h1 : x = '&'
      · subst h1; exact xrun_bad _
      rw [if_neg h1]
      by_cases h2 : x = '>'
      · subst h2; exact xrun_bad _
      rw [if_neg h2]
      by_cases h3 : x = '<'
      · subst h3; exact xrun_bad _
      rw [if_neg h3, List.append_assoc, List.singleton_append, xrun_cons]
      simp only [XScan.step, hx, h2, if_false, ne_eq, not_false_eq_true, and_self, if_true]
      exact xrun_bad _
  have hesc : xmlEscape d.toList = xmlEscape a ++ '"' :: xmlEscape b := by
    rw [hd]; simp [xmlEscape]
  rw [xmlKids, xmlNode] at h
  simp only [Option.getD_some, hesc, List.append_assoc, List.cons_append] at h
  rw [xrun_append, xrun_ws (ws_ind hi level), xrun_append, xrun_append, xrun_append, xrun_append, xrun_append,
    xrun_append, xrun_append,
    show (XScan.text.run "<ito".toList).run " start=\"".toList = .quoted from rfl, xrun_int,
    show XScan.quoted.run "\" stop=\"".toList = .quoted from rfl, xrun_int,
    show XScan.quoted.run "\" desc=\"".toList = .quoted from rfl, xrun_escape_noquote ha, xrun_cons,
    show XScan.quoted.step '"' = .tag true from rfl, hbad] at h
  cases h

/-! ## Non-vacuity -/

example : ∃ body, xmlDump ⟨"  ".toList, ['\n'], true⟩ "a<b".toList
    [.mk ⟨0, 3⟩ (some "x&y") none [.mk ⟨1, 2⟩ none none []]] =
      xmlDecl ++ "\n<itos>".toList ++ body ++ "<itos>\n".toList ∧
    Els body [.el "ito".toList [("start".toList, "0".toList), ("stop".toList, "3".toList), ("desc".toList, "x&y".toList)]
      [.txt "substring".toList "a<b".toList, .el "children".toList []
        [.el "ito".toList [("start".toList, "1".toList), ("stop".toList, "2".toList), ("desc".toList, [])]
          [.txt "substring".toList ['<']]]]] := by
  obtain ⟨body, h1, h2⟩ := C64_xml_partial ⟨"  ".toList, ['\n'], true⟩ (by unfold Ws; decide) (by unfold Ws; decide) "a<b".toList
    [.mk ⟨0, 3⟩ (some "x&y") none [.mk ⟨1, 2⟩ none none []]]
    (by
      rw [show "a<b".toList = ['a', '<', 'b'] from by decide]
      intro c hc
      simp only [List.mem_cons, List.not_mem_nil, or_false] at hc
      rcases hc with rfl | rfl | rfl <;> (unfold XmlChar; decide))
    (by
      simp only [DescsOKs, DescsOK, and_true]
      refine ⟨?_, ?_⟩
      · rw [show ((some "x&y").getD "").toList = ['x', '&', 'y'] from by decide]
        intro c hc
        simp only [List.mem_cons, List.not_mem_nil, or_false] at hc
        rcases hc with rfl | rfl | rfl <;> (unfold XmlChar; decide)
      · intro c hc; exact absurd hc (by simp))
  refine ⟨body, ?_, ?_⟩
  · rw [h1]
    generalize xmlDecl = D
    simp
  · exact h2

example : ¬ ∃ xs, Els (xmlKids ⟨"  ".toList, ['\n'], true⟩ "ab".toList 1
    [.mk ⟨0, 2⟩ (some "say \"hi\"") none []]) xs :=
  C64_xml_quote_violated _ (by unfold Ws; decide) _ _ "say \"hi\"" _ _ _ "say ".toList "hi\"".toList
    (by decide) (by decide) (by decide) _

end Pawpaw.Props
