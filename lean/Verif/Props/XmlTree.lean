import Verif.Spec.Xml
import Verif.Props.Xml
import Verif.Props.XmlTag
/-!
# C71: the Ito tree of an XML document
-/
set_option linter.unusedSectionVars false
namespace Pawpaw.Props
open PyStr Pawpaw.Xml XmlSpec TreeSpec

/-- What is found within the start tags, end tags and texts of a document, by position. -/
structure Inside where
  opn : Nat → Nat → List Node
  cls : Nat → Nat → List Node
  txt : Nat → Nat → List Node

/-- The outcome of the extraction, as a list. -/
def okList (r : Except PyErr (List Node)) : List Node :=
  match r with
  | .ok l => l
  | .error _ => []

/-- What the parser finds within the tags and texts of the document `T`. -/
def xfound (T : List Char) : Inside where
  opn p q := okList (startKids ⟨T, ⟨p, q⟩, some "start_tag"⟩)
  cls p q := okList (endKids ⟨T, ⟨p, q⟩, some "end_tag"⟩)
  txt p q := okList (textKids ⟨T, ⟨p, q⟩, some "text"⟩)

theorem found_opn {T : List Char} {p q : Nat} (h : ∃ ks, startKids ⟨T, ⟨(p : Nat), (q : Nat)⟩, some "start_tag"⟩ = .ok ks) :
    filled startKids ⟨T, ⟨(p : Nat), (q : Nat)⟩, some "start_tag"⟩ =
      .ok (.mk ⟨(p : Nat), (q : Nat)⟩ (some "start_tag") none ((xfound T).opn p q)) := by
  obtain ⟨ks, h⟩ := h
  unfold filled xfound
  dsimp only
  rw [h]
  rfl

theorem found_cls {T : List Char} {p q : Nat} (hpq : p ≤ q) (hq : q ≤ T.length) :
    filled endKids ⟨T, ⟨(p : Nat), (q : Nat)⟩, some "end_tag"⟩ =
      .ok (.mk ⟨(p : Nat), (q : Nat)⟩ (some "end_tag") none ((xfound T).cls p q)) := by
  obtain ⟨ks, h⟩ := endKids_total (x := ⟨T, ⟨(p : Nat), (q : Nat)⟩, some "end_tag"⟩) rfl rfl hpq hq
  unfold filled xfound
  dsimp only
  rw [h]
  rfl

theorem found_txt {T : List Char} {p q : Nat} (hpq : p ≤ q) (hq : q ≤ T.length) :
    filled textKids ⟨T, ⟨(p : Nat), (q : Nat)⟩, some "text"⟩ =
      .ok (.mk ⟨(p : Nat), (q : Nat)⟩ (some "text") none ((xfound T).txt p q)) := by
  obtain ⟨ks, h⟩ := textKids_total (x := ⟨T, ⟨(p : Nat), (q : Nat)⟩, some "text"⟩) rfl rfl hpq hq
  unfold filled xfound
  dsimp only
  rw [h]
  rfl

/-- `textAt` with what is inside. -/
def textI (I : Inside) (keep : List Char → Bool) (p : Nat) (t : List Char) : List Node :=
  if t ≠ [] ∧ keep t = true then [.mk ⟨p, (p + t.length : Nat)⟩ (some "text") none (I.txt p (p + t.length))] else []

mutual
/-- `itoAt` with what is inside. -/
def itoI (I : Inside) (keep : List Char → Bool) (p : Nat) : XElem → Node
  | .empty tag => .mk ⟨p, (p + tag.length : Nat)⟩ (some "element") none
      [.mk ⟨p, (p + tag.length : Nat)⟩ (some "start_tag") none (I.opn p (p + tag.length))]
  | .node o t ks c => .mk ⟨p, (p + (o ++ t ++ renderK ks ++ c).length : Nat)⟩ (some "element") none
      (.mk ⟨p, (p + o.length : Nat)⟩ (some "start_tag") none (I.opn p (p + o.length)) ::
        (textI I keep (p + o.length) t ++ itosI I keep (p + o.length + t.length) ks ++
          [.mk ⟨(p + (o ++ t ++ renderK ks).length : Nat), (p + (o ++ t ++ renderK ks ++ c).length : Nat)⟩
            (some "end_tag") none (I.cls (p + (o ++ t ++ renderK ks).length) (p + (o ++ t ++ renderK ks ++ c).length))]))
def itosI (I : Inside) (keep : List Char → Bool) (p : Nat) : XKids → List Node
  | .nil => []
  | .cons e t ks => itoI I keep p e ::
      (textI I keep (p + (render e).length) t ++ itosI I keep (p + (render e).length + t.length) ks)
end

theorem ofStr_nat (s : List Char) {a b : Nat} (hab : a ≤ b) (hb : b ≤ s.length) (d : Option String) :
    FIto.ofStr s (some (a : Int)) (some (b : Int)) d = ⟨s, ⟨a, b⟩, d⟩ := by
  have := FIto.clone_span_nat (⟨s, ⟨0, 0⟩, d⟩ : FIto Char) hab hb
  simpa [FIto.clone] using this

theorem pyIndex_gt {a m b : List Char} (h : '>' ∉ m) :
    FIto.pyIndex (a ++ (m ++ '>' :: b)) ['>'] (some (a.length : Int)) none = .ok ((a.length + m.length : Nat) : Int) := by
  unfold FIto.pyIndex
  rw [find_char h]
  dsimp only
  rw [if_neg (by omega)]

/-- The condition under which a text is kept. -/
def keepText (ws : Char → Bool) (ign : Bool) (t : List Char) : Bool := !(ign && t.all ws)

theorem rangeChars_text {x : FIto Char} {a b : Nat} (ha : x.start = a) (hb : x.stop = b) (hl : b ≤ x.string.length) :
    x.rangeChars = x.text := by
  unfold FIto.rangeChars
  rw [FIto.text_eq ha hb, ha, hb]
  apply List.ext_getElem?
  intro i
  rw [show ((b : Int) - a).toNat = b - a by omega, show ((a : Int)).toNat = a by omega]
  have : ∀ n k, k + n ≤ x.string.length →
      (List.range' 0 n).filterMap (fun j => x.string[k + j]?) = (x.string.drop k).take n := by
    intro n
    induction n with
    | zero => simp
    | succ n ih =>
      intro k hk
      rw [List.range'_1_concat, List.filterMap_append, ih k (by omega), Nat.zero_add,
        List.filterMap_cons, List.getElem?_eq_getElem (by omega)]
      simp only [List.filterMap_nil]
      rw [List.take_add_one, List.getElem?_drop, List.getElem?_eq_getElem (by omega)]
      rfl
  rcases Nat.lt_or_ge a b with g | g
  · rw [List.range_eq_range', this (b - a) a (by omega), List.drop_take]
  · rw [Nat.sub_eq_zero_of_le g, List.drop_eq_nil_of_le (by simp; omega)]; simp

/-- `_find_text` between the ends of a piece of the document. -/
theorem findText_at (ws : Char → Bool) (ign : Bool) {T a t b : List Char} (hT : T = a ++ t ++ b) {i j : Int}
    (hi : i = (a.length : Nat)) (hj : j = (a.length + t.length : Nat)) :
    findText ws ign T i j = .ok (textI (xfound T) (keepText ws ign) a.length t).head? := by
  subst hi hj
  have hlen : a.length + t.length ≤ T.length := by rw [hT]; simp
  unfold findText textI
  rw [ofStr_nat T (by omega) hlen]
  dsimp only
  have htx : (⟨T, ⟨((a.length : Nat) : Int), ((a.length + t.length : Nat) : Int)⟩, some "text"⟩ : FIto Char).text = t := by
    rw [FIto.text_eq (a := a.length) (b := a.length + t.length) rfl rfl, hT, List.append_assoc, List.take_append,
      List.drop_append]
    simp
  have hr := rangeChars_text
    (x := (⟨T, ⟨((a.length : Nat) : Int), ((a.length + t.length : Nat) : Int)⟩, some "text"⟩ : FIto Char))
    (a := a.length) (b := a.length + t.length) rfl rfl hlen
  rw [htx] at hr
  rw [found_txt (by omega) hlen]
  have hc : ((⟨T, ⟨((a.length : Nat) : Int), ((a.length + t.length : Nat) : Int)⟩, some "text"⟩ : FIto Char).len > 0 ∧
      ¬ (ign = true ∧ (⟨T, ⟨((a.length : Nat) : Int), ((a.length + t.length : Nat) : Int)⟩, some "text"⟩ : FIto Char).isAll
        ws false = true)) ↔ (t ≠ [] ∧ keepText ws ign t = true) := by
    unfold FIto.len FIto.isAll
    rw [hr]
    unfold FIto.start FIto.stop keepText
    dsimp only
    cases t with
    | nil => simp
    | cons c t =>
      rw [if_neg (show ¬ ((a.length : Nat) : Int) = ((a.length + (c :: t).length : Nat) : Int) by simp; omega)]
      cases ign <;> cases (c :: t).all ws <;> simp <;> omega
  by_cases h : t ≠ [] ∧ keepText ws ign t = true
  · rw [if_pos (hc.2 h), if_pos h]
    rfl
  · rw [if_neg (fun g => h (hc.1 g)), if_neg h]
    rfl

theorem textI_cases (I : Inside) (keep : List Char → Bool) (p : Nat) (t : List Char) :
    textI I keep p t = [] ∨ (t ≠ [] ∧ textI I keep p t =
      [.mk ⟨p, (p + t.length : Nat)⟩ (some "text") none (I.txt p (p + t.length))]) := by
  unfold textI
  split
  · rename_i h; exact Or.inr ⟨h.1, rfl⟩
  · exact Or.inl rfl

theorem textI_tiles (I : Inside) (keep : List Char → Bool) (p : Nat) (t : List Char) :
    XTiles p (p + t.length : Nat) (textI I keep p t) := by
  rcases textI_cases I keep p t with h | ⟨hne, h⟩ <;> rw [h]
  · exact XTiles.nil _ _
  · have := List.length_pos_iff.mpr hne
    exact XTiles.single (by simp [Node.leaf, Node.start, Node.span])
      (by simp [Node.leaf, Node.start, Node.stop, Node.span]; omega) (by simp [Node.leaf, Node.stop, Node.span])

theorem addOpt_none (p : Span) (st : List Node) : addOpt p st (.ok none) = .ok st := rfl

theorem addOpt_fits {p : Span} {l r : List Node} {I : Inside} {keep : List Char → Bool} {q : Nat} {t : List Char}
    (h : XTiles p.start p.stop (l ++ (textI I keep q t ++ r))) :
    addOpt p (l ++ r) (.ok (textI I keep q t).head?) = .ok (l ++ (textI I keep q t ++ r)) := by
  rcases textI_cases I keep q t with e | ⟨_, e⟩ <;> rw [e] at h ⊢
  · rfl
  · exact add_fits h

/-! ### Shape of the expected tree -/

theorem tagText_length {e s : List Char} (h : TagText e s) : e.length + 1 ≤ s.length := by
  obtain ⟨b, _, rfl⟩ := h
  simp

theorem render_pos {e : XElem} (h : Plain e) : 0 < (render e).length := by
  cases e with
  | empty tag => have := tagText_length h; simp only [render]; simp at this; omega
  | node o t ks c => have := tagText_length h.1; simp only [render, List.length_append]; simp at this; omega

theorem itoI_span (I : Inside) (keep : List Char → Bool) (p : Nat) (e : XElem) :
    (itoI I keep p e).span = ⟨p, (p + (render e).length : Nat)⟩ := by
  cases e <;> rfl

theorem itoI_tiles (I : Inside) (keep : List Char → Bool) (p : Nat) {e : XElem} (h : Plain e) :
    XTiles p (p + (render e).length : Nat) [itoI I keep p e] := by
  have := render_pos h
  refine XTiles.single ?_ ?_ ?_ <;> simp only [Node.start, Node.stop, itoI_span] <;> omega

theorem itosI_tiles (I : Inside) (keep : List Char → Bool) : ∀ (ks : XKids) (p : Nat), PlainK ks →
    XTiles p (p + (renderK ks).length : Nat) (itosI I keep p ks)
  | .nil, p, _ => XTiles.nil _ _
  | .cons e t ks, p, h => by
    have h1 := itoI_tiles I keep p h.1
    have h2 := textI_tiles I keep (p + (render e).length) t
    have h3 := itosI_tiles I keep ks (p + (render e).length + t.length) h.2
    rw [itosI, ← List.singleton_append]
    refine (h1.append (h2.append h3 ?_ ?_ ?_) ?_ ?_ ?_).weaken ?_ ?_ <;>
      (try simp only [renderK, List.length_append]) <;> omega

/-- The two characters before the end of a piece of at least two characters. -/
theorem last_two {T a u b : List Char} (hT : T = a ++ u ++ b) (hu : 2 ≤ u.length) {stop : Int}
    (hs : stop = (a.length + u.length : Nat)) :
    PyStr.slice T (some (stop - 2)) (some stop) = u.drop (u.length - 2) := by
  subst hs
  rw [show ((a.length + u.length : Nat) : Int) - 2 = ((a.length + u.length - 2 : Nat) : Int) by omega, slice_nat, hT,
    show a.length + u.length = (a ++ u).length by simp, List.take_left,
    show (a ++ u).length - 2 = a.length + (u.length - 2) by simp; omega, List.drop_append]
  simp

theorem selfClosing_empty {T a b : List Char} {tag : List Char} (hT : T = a ++ tag ++ b)
    (ht : TagText ['/', '>'] tag) : notSelfClosing T (a.length + tag.length : Nat) [] = false := by
  have hl := tagText_length ht
  unfold notSelfClosing
  rw [last_two hT (by simp at hl; omega) rfl]
  obtain ⟨m, _, rfl⟩ := ht
  have : ('<' :: m ++ ['/', '>']).drop (('<' :: m ++ ['/', '>']).length - 2) = ['/', '>'] := by
    rw [show ('<' :: m ++ ['/', '>']).length - 2 = ('<' :: m).length by simp, List.drop_left]
  rw [this]
  rfl

theorem selfClosing_leaf {T a b u : List Char} (hT : T = a ++ u ++ b) (hu : 2 ≤ u.length)
    (h1 : ¬ ['/', '>'] <:+ u) (h2 : ¬ ['?', '>'] <:+ u) (ks : List Elem) :
    notSelfClosing T (a.length + u.length : Nat) ks = true := by
  unfold notSelfClosing
  rw [last_two hT hu rfl]
  have hs := List.drop_suffix (u.length - 2) u
  have g1 : (u.drop (u.length - 2) != ['/', '>']) = true := by
    rw [bne_iff_ne]; intro e; rw [e] at hs; exact h1 hs
  have g2 : (u.drop (u.length - 2) != ['?', '>']) = true := by
    rw [bne_iff_ne]; intro e; rw [e] at hs; exact h2 hs
  dsimp only
  rw [g1, g2]
  rfl

theorem mk_start (sp : Span) (d : Option String) (v : Option Nat) (ks : List Node) : (Node.mk sp d v ks).start = sp.start := rfl
theorem mk_stop (sp : Span) (d : Option String) (v : Option Nat) (ks : List Node) : (Node.mk sp d v ks).stop = sp.stop := rfl
theorem ofFlat_start (s : List Char) (sp : Span) (d : Option String) : (Node.ofFlat ⟨s, sp, d⟩).start = sp.start := rfl
theorem ofFlat_stop (s : List Char) (sp : Span) (d : Option String) : (Node.ofFlat ⟨s, sp, d⟩).stop = sp.stop := rfl

mutual
theorem extract_ok (ws : Char → Bool) (ign : Bool) : ∀ (e : XElem) (T a b : List Char),
    T = a ++ render e ++ b → Plain e → Quiet T a.length e →
    extract ws ign T (elemAt a.length e) = .ok (itoI (xfound T) (keepText ws ign) a.length e)
  | .empty tag, T, a, b, hT, hp, hq => by
    have hl := tagText_length hp
    simp at hl
    have hTl : a.length + tag.length ≤ T.length := by rw [hT]; simp [render]
    have hns := selfClosing_empty (T := T) (a := a) (tag := tag) (b := b) hT hp
    obtain ⟨m, hm, htag⟩ := hp
    have hidx : FIto.pyIndex T ['>'] (some ((a.length : Int) + 1)) none =
        .ok ((a.length + tag.length - 1 : Nat) : Int) := by
      have e : T = (a ++ ['<']) ++ ((m ++ ['/']) ++ '>' :: b) := by rw [hT, render, htag]; simp
      have := pyIndex_gt (a := a ++ ['<']) (m := m ++ ['/']) (b := b) (by simp [hm])
      rw [e, show (a.length : Int) + 1 = (((a ++ ['<']).length : Nat) : Int) by simp, this, htag]
      simp
      omega
    rw [elemAt, extract, hidx]
    dsimp only
    rw [show ((a.length + tag.length - 1 : Nat) : Int) + 1 = ((a.length + tag.length : Nat) : Int) by omega,
      ofStr_nat T (by omega) hTl, hns, found_opn hq]
    simp only [Bool.false_eq_true, if_false, mk_start]
    rw [ofStr_nat T (by omega) hTl]
    dsimp only
    have := add_fits (p := ⟨(a.length : Nat), (a.length + tag.length : Nat)⟩) (l := []) (r := [])
      (x := .mk ⟨(a.length : Nat), (a.length + tag.length : Nat)⟩ (some "start_tag") none
        ((xfound T).opn a.length (a.length + tag.length)))
      (XTiles.single (by simp [Node.start, Node.span]) (by simp [Node.start, Node.stop, Node.span]; omega)
        (by simp [Node.stop, Node.span]))
    rw [List.nil_append, List.nil_append] at this
    rw [this]
    rfl
  | .node o t ks c, T, a, b, hT, hp, hq => by
    obtain ⟨hq1, hq2⟩ := hq
    obtain ⟨ho, hc, hlast, hks⟩ := hp
    have hol := tagText_length ho
    have hcl := tagText_length hc
    simp at hol hcl
    have hTl : a.length + (o ++ t ++ renderK ks ++ c).length ≤ T.length := by rw [hT]; simp [render]
    simp only [List.length_append] at hTl
    have hns : notSelfClosing T (a.length + o.length + t.length + (renderK ks).length : Nat)
        (elemsAt (a.length + o.length + t.length) ks) = true := by
      cases ks with
      | nil =>
        obtain ⟨h1, h2⟩ := hlast rfl
        have := selfClosing_leaf (T := T) (a := a) (u := o ++ t) (b := c ++ b) (by rw [hT]; simp [render, renderK])
          (by simp; omega) h1 h2 (elemsAt (a.length + o.length + t.length) .nil)
        rw [← this]
        congr 1
        simp [renderK]
        omega
      | cons e t' ks => simp [notSelfClosing, elemsAt]
    have hidx : FIto.pyIndex T ['>'] (some ((a.length : Int) + 1)) none = .ok ((a.length + o.length - 1 : Nat) : Int) := by
      obtain ⟨m, hm, ho'⟩ := ho
      have e : T = (a ++ ['<']) ++ (m ++ '>' :: (t ++ renderK ks ++ c ++ b)) := by rw [hT, render, ho']; simp
      have := pyIndex_gt (a := a ++ ['<']) (m := m) (b := t ++ renderK ks ++ c ++ b) hm
      rw [e, show (a.length : Int) + 1 = (((a ++ ['<']).length : Nat) : Int) by simp, this, ho']
      simp
      omega
    have hidx2 : FIto.pyIndex T ['>']
        (some (((a.length + o.length + t.length + (renderK ks).length : Nat) : Int) + 1)) none =
        .ok ((a.length + o.length + t.length + (renderK ks).length + c.length - 1 : Nat) : Int) := by
      obtain ⟨m, hm, hc'⟩ := hc
      have e : T = (a ++ o ++ t ++ renderK ks ++ ['<']) ++ (m ++ '>' :: b) := by rw [hT, render, hc']; simp
      have := pyIndex_gt (a := a ++ o ++ t ++ renderK ks ++ ['<']) (m := m) (b := b) hm
      rw [e, show ((a.length + o.length + t.length + (renderK ks).length : Nat) : Int) + 1 =
        (((a ++ o ++ t ++ renderK ks ++ ['<']).length : Nat) : Int) by simp; omega, this, hc']
      simp
      omega
    rw [elemAt, extract, hidx]
    dsimp only
    rw [show ((a.length + o.length - 1 : Nat) : Int) + 1 = ((a.length + o.length : Nat) : Int) by omega,
      ofStr_nat T (by omega) (by omega), found_opn hq1]
    dsimp only
    rw [hns, if_pos rfl, hidx2]
    dsimp only
    rw [show ((a.length + o.length + t.length + (renderK ks).length + c.length - 1 : Nat) : Int) + 1 =
        ((a.length + o.length + t.length + (renderK ks).length + c.length : Nat) : Int) by omega,
      ofStr_nat T (by omega) (by omega), found_cls (by omega) (by omega)]
    simp only [mk_start, mk_stop]
    rw [ofStr_nat T (by omega) (by omega)]
    dsimp only
    generalize hP : (⟨((a.length : Nat) : Int),
      ((a.length + o.length + t.length + (renderK ks).length + c.length : Nat) : Int)⟩ : Span) = P
    have hP1 : P.start = (a.length : Nat) := by rw [← hP]
    have hP2 : P.stop = (a.length + o.length + t.length + (renderK ks).length + c.length : Nat) := by rw [← hP]
    generalize hS : Node.mk ⟨((a.length : Nat) : Int), ((a.length + o.length : Nat) : Int)⟩ (some "start_tag") none
      ((xfound T).opn a.length (a.length + o.length)) = S
    have hS1 : S.start = (a.length : Nat) := by rw [← hS]; rfl
    have hS2 : S.stop = (a.length + o.length : Nat) := by rw [← hS]; rfl
    generalize hE : Node.mk ⟨((a.length + o.length + t.length + (renderK ks).length : Nat) : Int),
      ((a.length + o.length + t.length + (renderK ks).length + c.length : Nat) : Int)⟩ (some "end_tag") none
      ((xfound T).cls (a.length + o.length + t.length + (renderK ks).length)
        (a.length + o.length + t.length + (renderK ks).length + c.length)) = E
    have hE1 : E.start = (a.length + o.length + t.length + (renderK ks).length : Nat) := by rw [← hE]; rfl
    have hE2 : E.stop = (a.length + o.length + t.length + (renderK ks).length + c.length : Nat) := by rw [← hE]; rfl
    have tS : XTiles (a.length : Nat) (a.length + o.length : Nat) [S] :=
      XTiles.single (by omega) (by omega) (by omega)
    have tE : XTiles (a.length + o.length + t.length + (renderK ks).length : Nat)
        (a.length + o.length + t.length + (renderK ks).length + c.length : Nat) [E] :=
      XTiles.single (by omega) (by omega) (by omega)
    have tT := textI_tiles (xfound T) (keepText ws ign) (a.length + o.length) t
    have tK := itosI_tiles (xfound T) (keepText ws ign) ks (a.length + o.length + t.length) hks
    -- the whole list of children
    have tAll : XTiles P.start P.stop ([S] ++ (textI (xfound T) (keepText ws ign) (a.length + o.length) t ++
        (itosI (xfound T) (keepText ws ign) (a.length + o.length + t.length) ks ++ [E]))) := by
      rw [hP1, hP2]
      exact tS.append (tT.append (tK.append tE (by omega) (by omega) (by omega)) (by omega) (by omega) (by omega))
        (by omega) (by omega) (by omega)
    have a1 : Kids.add P [] S = .ok [S] := by
      have := add_fits (p := P) (l := []) (r := []) (x := S) (tAll.sublist (by simp))
      rw [List.nil_append, List.nil_append] at this
      exact this
    rw [a1]
    dsimp only
    have hres : .mk P (some "element") none ([S] ++ (textI (xfound T) (keepText ws ign) (a.length + o.length) t ++
        (itosI (xfound T) (keepText ws ign) (a.length + o.length + t.length) ks ++ [E]))) =
        itoI (xfound T) (keepText ws ign) a.length (.node o t ks c) := by
      rw [itoI, ← hP, ← hS, ← hE]
      simp [Nat.add_assoc]
    cases ks with
    | nil =>
      simp only [elemsAt, extractKids, textAfter, addOpt_none]
      simp only [itosI, List.nil_append] at tAll hres
      have hstop : (a.length + o.length + t.length + (renderK XKids.nil).length : Nat) =
          (a ++ o).length + t.length := by simp [renderK]
      rw [findText_at ws ign (T := T) (a := a ++ o) (t := t) (b := c ++ b)
        (by rw [hT]; simp [render, renderK]) (by simp) (by rw [hstop]), List.length_append]
      have a2 := addOpt_fits (p := P) (l := [S]) (r := []) (I := xfound T) (keep := keepText ws ign) (q := a.length + o.length) (t := t)
        (tAll.sublist (by simp))
      rw [List.append_nil, List.append_nil] at a2
      rw [a2]
      dsimp only
      have a3 := add_fits (p := P) (l := [S] ++ textI (xfound T) (keepText ws ign) (a.length + o.length) t) (r := []) (x := E)
        (by rw [List.append_assoc]; exact tAll)
      rw [List.append_nil] at a3
      rw [a3]
      dsimp only
      rw [← hres, List.append_assoc]
    | cons e t' ks =>
      obtain ⟨hpe, hpk⟩ := hks
      have hep := render_pos hpe
      simp only [itosI, renderK, List.length_append] at *
      have ie := extract_ok ws ign e T (a ++ o ++ t) (t' ++ renderK ks ++ c ++ b)
        (by rw [hT]; simp [render, renderK]) hpe (by simp only [List.length_append]; exact hq2.1)
      simp only [List.length_append] at ie
      have te := itoI_tiles (xfound T) (keepText ws ign) (a.length + o.length + t.length) hpe
      rw [elemsAt, extractKids, ie]
      dsimp only
      have a2 := add_fits (p := P) (l := [S]) (r := []) (x := itoI (xfound T) (keepText ws ign) (a.length + o.length + t.length) e)
        (tAll.sublist (by simp))
      rw [List.append_nil] at a2
      rw [a2]
      simp only [textAfter, addOpt_none, Option.getD_none]
      generalize hN : itoI (xfound T) (keepText ws ign) (a.length + o.length + t.length) e = N at *
      have hNs : N.span = ⟨(a.length + o.length + t.length : Nat),
          (a.length + o.length + t.length + (render e).length : Nat)⟩ := by rw [← hN]; exact itoI_span _ _ _ _
      obtain ⟨B, l', a', t'', b', k1, k2, k3, k4, k5⟩ := kids_ok ws ign ks T (a ++ o ++ t ++ render e) t' (c ++ b)
        (by rw [hT]; simp [render, renderK]) hpk (by simp only [List.length_append]; exact hq2.2) P ([S] ++ [N]) N N
        (by unfold Node.stop; rw [hNs]; simp; omega)
        (by rw [hP1]
            have := tS.append te (m' := (a.length + o.length + t.length : Nat)) (by omega) (by omega) (by omega)
            simpa [Nat.add_assoc] using this)
        (by rw [hP1]; simp only [List.length_append]; omega)
        (by rw [hP2]; simp only [List.length_append]; omega)
      simp only [List.length_append] at k1 k4 k5
      rw [k1]
      dsimp only
      rw [k2, findText_at ws ign (T := T) k3 rfl (by omega)]
      rw [show textI (xfound T) (keepText ws ign) (a.length + o.length + t.length + (render e).length) t' ++
          itosI (xfound T) (keepText ws ign) (a.length + o.length + t.length + (render e).length + t'.length) ks =
          B ++ textI (xfound T) (keepText ws ign) a'.length t'' from k5] at tAll hres
      have a3 := addOpt_fits (p := P) (l := [S] ++ [N] ++ B) (r := []) (I := xfound T) (keep := keepText ws ign) (q := a'.length)
        (t := t'') (tAll.sublist (by simp))
      rw [List.append_nil, List.append_nil] at a3
      rw [a3]
      dsimp only
      rw [show N.start = (a.length + o.length + t.length : Nat) by unfold Node.start; rw [hNs],
        findText_at ws ign (T := T) (a := a ++ o) (t := t) (b := renderK (.cons e t' ks) ++ c ++ b)
          (by rw [hT]; simp [render]) (by simp) (by simp), List.length_append]
      have a4 := addOpt_fits (p := P) (l := [S]) (r := [N] ++ B ++ textI (xfound T) (keepText ws ign) a'.length t'')
        (I := xfound T) (keep := keepText ws ign) (q := a.length + o.length) (t := t) (tAll.sublist (by simp))
      simp only [List.append_assoc] at a4 ⊢
      rw [a4]
      dsimp only
      have a5 := add_fits (p := P) (l := [S] ++ (textI (xfound T) (keepText ws ign) (a.length + o.length) t ++
        ([N] ++ (B ++ textI (xfound T) (keepText ws ign) a'.length t'')))) (r := []) (x := E)
        (by simpa using tAll)
      rw [List.append_nil] at a5
      rw [a5]
      dsimp only
      rw [← hres]
      simp
theorem kids_ok (ws : Char → Bool) (ign : Bool) : ∀ (ks : XKids) (T a t b : List Char),
    T = a ++ t ++ renderK ks ++ b → PlainK ks → QuietK T (a.length + t.length) ks → ∀ (p : Span) (st : List Node) (f l : Node),
    l.stop = (a.length : Nat) → XTiles p.start (a.length : Nat) st → p.start ≤ (a.length : Nat) →
    ((a.length + t.length + (renderK ks).length : Nat) : Int) ≤ p.stop →
    ∃ B l' a' t' b',
      extractKids ws ign T p st (some f) (some l) (elemsAt (a.length + t.length) ks) = .ok (st ++ B, some f, some l') ∧
      l'.stop = (a'.length : Nat) ∧ T = a' ++ t' ++ b' ∧
      a'.length + t'.length = a.length + t.length + (renderK ks).length ∧
      textI (xfound T) (keepText ws ign) a.length t ++ itosI (xfound T) (keepText ws ign) (a.length + t.length) ks =
        B ++ textI (xfound T) (keepText ws ign) a'.length t'
  | .nil, T, a, t, b, hT, _, _, p, st, f, l, hl, _, _, _ =>
    ⟨[], l, a, t, b, by simp [elemsAt, extractKids], hl, by simpa [renderK] using hT, by simp [renderK], by simp [itosI]⟩
  | .cons e t2 ks, T, a, t, b, hT, hp, hq, p, st, f, l, hl, hst, h0, h1 => by
    obtain ⟨hqe, hqk⟩ := hq
    obtain ⟨hpe, hpk⟩ := hp
    have hep := render_pos hpe
    simp only [renderK, List.length_append] at h1
    have ie := extract_ok ws ign e T (a ++ t) (t2 ++ renderK ks ++ b) (by rw [hT]; simp [renderK]) hpe (by simp only [List.length_append]; exact hqe)
    rw [List.length_append] at ie
    have te := itoI_tiles (xfound T) (keepText ws ign) (a.length + t.length) hpe
    have tt := textI_tiles (xfound T) (keepText ws ign) a.length t
    rw [elemsAt, extractKids, ie]
    dsimp only
    generalize hN : itoI (xfound T) (keepText ws ign) (a.length + t.length) e = N at *
    have hNs : N.span = ⟨(a.length + t.length : Nat), (a.length + t.length + (render e).length : Nat)⟩ := by
      rw [← hN]; exact itoI_span _ _ _ _
    have tAll : XTiles p.start (a.length + t.length + (render e).length : Nat)
        (st ++ (textI (xfound T) (keepText ws ign) a.length t ++ [N])) :=
      hst.append (tt.append te (by omega) (by omega) (by omega)) (by omega) (by omega) (by omega)
    have tP : XTiles p.start p.stop (st ++ (textI (xfound T) (keepText ws ign) a.length t ++ [N])) :=
      tAll.weaken (by omega) (by omega)
    have a1 := add_fits (p := p) (l := st) (r := []) (x := N) (tP.sublist (by simp))
    rw [List.append_nil] at a1
    rw [a1]
    dsimp only
    simp only [textAfter, Option.getD_some]
    rw [hl, show N.start = (a.length + t.length : Nat) by unfold Node.start; rw [hNs],
      findText_at ws ign (T := T) (a := a) (t := t) (b := renderK (.cons e t2 ks) ++ b) (by rw [hT]; simp) rfl rfl]
    rw [addOpt_fits tP]
    dsimp only
    obtain ⟨B, l', a', t', b', k1, k2, k3, k4, k5⟩ := kids_ok ws ign ks T (a ++ t ++ render e) t2 b
      (by rw [hT]; simp [renderK]) hpk (by simp only [List.length_append]; exact hqk) p (st ++ (textI (xfound T) (keepText ws ign) a.length t ++ [N])) f N
      (by unfold Node.stop; rw [hNs]; simp; omega)
      (by simpa [Nat.add_assoc] using tAll) (by simp only [List.length_append]; omega)
      (by simp only [List.length_append]; omega)
    simp only [List.length_append] at k1 k4 k5
    refine ⟨textI (xfound T) (keepText ws ign) a.length t ++ N :: B, l', a', t', b', ?_, k2, k3, ?_, ?_⟩
    · rw [k1]; simp
    · simp only [renderK, List.length_append]; omega
    · rw [itosI, hN, k5]; simp
end

/-! ### C71 -/

theorem outlineK_append (a b : List Node) : outlineK (a ++ b) = outlineK a ++ outlineK b := by
  induction a with
  | nil => rfl
  | cons k a ih => simp [outlineK, ih]

theorem outline_text (I : Inside) (keep : List Char → Bool) (p : Nat) (t : List Char) :
    outlineK (textI I keep p t) = textAt keep p t := by
  unfold textI textAt
  split <;> rfl

mutual
theorem outline_ito (I : Inside) (keep : List Char → Bool) : ∀ (e : XElem) (p : Nat),
    outline (itoI I keep p e) = itoAt keep p e
  | .empty tag, p => rfl
  | .node o t ks c, p => by
    rw [itoI, itoAt, outline, if_pos rfl, outlineK, outlineK_append, outlineK_append, outline_text,
      outline_itos I keep ks]
    rfl
theorem outline_itos (I : Inside) (keep : List Char → Bool) : ∀ (ks : XKids) (p : Nat),
    outlineK (itosI I keep p ks) = itosAt keep p ks
  | .nil, p => rfl
  | .cons e t ks, p => by
    rw [itosI, itosAt, outlineK, outlineK_append, outline_ito I keep e, outline_text, outline_itos I keep ks]
end

/-- **C71 (partial).** For every document around it and every element without `>` in tags or a false
self-closing end, and on whose start tags the parser does not raise, the parser's Itos are the element's start tag,
texts, child elements and end tag, nested and placed as they are written; blank texts are left out when
`ignore_empties` is set. (What is inside tags and texts: C85.)
Missing: the other elements, for which it is false (`C71_gt_violated`, `C71_self_closing_violated`,
`C71_raises_violated`). -/
theorem C71_tree_partial (ws : Char → Bool) (ign : Bool) (e : XElem) (before after : List Char) (h : Plain e)
    (hq : Quiet (before ++ render e ++ after) before.length e) :
    ∃ n, extract ws ign (before ++ render e ++ after) (elemAt before.length e) = .ok n ∧
      outline n = itoAt (fun t => !(ign && t.all ws)) before.length e :=
  ⟨_, extract_ok ws ign e _ before after rfl h hq, outline_ito _ _ _ _⟩

theorem leafTextsK_append (s : List Char) (a b : List Node) :
    leafTextsK s (a ++ b) = leafTextsK s a ++ leafTextsK s b := by
  induction a with
  | nil => rfl
  | cons k a ih => simp [leafTextsK, ih]

mutual
theorem leafTexts_outline (s : List Char) : ∀ n : Node, leafTexts s (outline n) = leafTexts s n
  | .mk sp d v ks => by
    rw [outline, leafTexts, leafTexts]
    split
    · exact leafTexts_outlineK s ks
    · rfl
theorem leafTexts_outlineK (s : List Char) : ∀ ks : List Node, leafTextsK s (outlineK ks) = leafTextsK s ks
  | [] => rfl
  | k :: ks => by rw [outlineK, leafTextsK, leafTextsK, leafTexts_outline s k, leafTexts_outlineK s ks]
end

theorem leafTexts_leaf {T a t b : List Char} (hT : T = a ++ t ++ b) (d : Option String) (hd : d ≠ some "element")
    {p q : Nat} (hp : p = a.length) (hq : q = a.length + t.length) :
    leafTexts T (.leaf ⟨(p : Nat), (q : Nat)⟩ d) = [t] := by
  subst hp hq
  rw [Node.leaf, leafTexts, if_neg hd, slice_nat, hT, show a.length + t.length = (a ++ t).length by simp, List.take_left,
    List.drop_left]

theorem textAt_cases (keep : List Char → Bool) (p : Nat) (t : List Char) :
    textAt keep p t = [] ∨ (t ≠ [] ∧ textAt keep p t = [.leaf ⟨p, (p + t.length : Nat)⟩ (some "text")]) := by
  unfold textAt
  split
  · rename_i h; exact Or.inr ⟨h.1, rfl⟩
  · exact Or.inl rfl

theorem leafTexts_textAt {T a t b : List Char} (hT : T = a ++ t ++ b) {p : Nat} (hp : p = a.length) :
    (leafTextsK T (textAt (fun _ => true) p t)).flatten = t := by
  rcases textAt_cases (fun _ => true) p t with h | ⟨_, h⟩
  · rw [h]
    unfold textAt at h
    split at h
    · simp at h
    · rename_i g
      have : t = [] := by
        cases t with
        | nil => rfl
        | cons c t => exact absurd ⟨by simp, rfl⟩ g
      rw [this]; rfl
  · rw [h, leafTextsK, leafTexts_leaf hT _ (by decide) hp (by omega)]
    simp [leafTextsK]

mutual
theorem leafTexts_ito : ∀ (e : XElem) (T a b : List Char), T = a ++ render e ++ b →
    (leafTexts T (itoAt (fun _ => true) a.length e)).flatten = render e
  | .empty tag, T, a, b, hT => by
    rw [itoAt, leafTexts, if_pos rfl, leafTextsK, leafTexts_leaf (t := tag) hT _ (by decide) rfl rfl]
    simp [leafTextsK, render]
  | .node o t ks c, T, a, b, hT => by
    have hT' : T = a ++ o ++ t ++ renderK ks ++ c ++ b := by rw [hT]; simp [render]
    rw [itoAt, leafTexts, if_pos rfl, leafTextsK,
      leafTexts_leaf (a := a) (t := o) (b := t ++ renderK ks ++ c ++ b) (by rw [hT']; simp) _ (by decide) rfl rfl,
      leafTextsK_append, leafTextsK_append]
    have h1 := leafTexts_textAt (T := T) (a := a ++ o) (t := t) (b := renderK ks ++ c ++ b) (by rw [hT']; simp)
      (p := a.length + o.length) (by simp)
    have h2 := leafTexts_itos ks T (a ++ o ++ t) (c ++ b) (by rw [hT']; simp)
    simp only [List.length_append] at h2
    have h3 := leafTexts_leaf (T := T) (a := a ++ o ++ t ++ renderK ks) (t := c) (b := b) (by rw [hT']) (some "end_tag")
      (by decide) (p := a.length + (o ++ t ++ renderK ks).length) (q := a.length + (o ++ t ++ renderK ks ++ c).length)
      (by simp) (by simp; omega)
    rw [leafTextsK, leafTextsK, h3]
    simp only [List.flatten_append, h1, h2]
    simp [render]
theorem leafTexts_itos : ∀ (ks : XKids) (T a b : List Char), T = a ++ renderK ks ++ b →
    (leafTextsK T (itosAt (fun _ => true) a.length ks)).flatten = renderK ks
  | .nil, _, _, _, _ => rfl
  | .cons e t ks, T, a, b, hT => by
    have hT' : T = a ++ render e ++ t ++ renderK ks ++ b := by rw [hT]; simp [renderK]
    have h0 := leafTexts_ito e T a (t ++ renderK ks ++ b) (by rw [hT']; simp)
    have h1 := leafTexts_textAt (T := T) (a := a ++ render e) (t := t) (b := renderK ks ++ b) (by rw [hT']; simp)
      (p := a.length + (render e).length) (by simp)
    have h2 := leafTexts_itos ks T (a ++ render e ++ t) b (by rw [hT'])
    simp only [List.length_append] at h2
    rw [itosAt, leafTextsK, leafTextsK_append]
    simp only [List.flatten_append, h0, h1, h2]
    simp [renderK]
end

/-- **C71 (partial).** With `ignore_empties=False`, the tags and texts of the tree, in order,
spell the element: no character is lost or repeated. Missing: as for `C71_tree_partial`. -/
theorem C71_covers_partial (ws : Char → Bool) (e : XElem) (before after : List Char) (h : Plain e)
    (hq : Quiet (before ++ render e ++ after) before.length e) :
    ∃ n, extract ws false (before ++ render e ++ after) (elemAt before.length e) = .ok n ∧
      (leafTexts (before ++ render e ++ after) n).flatten = render e := by
  obtain ⟨n, h1, h2⟩ := C71_tree_partial ws false e before after h hq
  refine ⟨n, h1, ?_⟩
  have : (fun t : List Char => !(false && t.all ws)) = fun _ => true := by funext t; simp
  rw [this] at h2
  rw [← leafTexts_outline, h2]
  exact leafTexts_ito e _ before after rfl

/-- `<a>x<b/> <c>y</c>z</a>`, with a blank text. -/
def exElem : XElem :=
  .node ['<', 'a', '>'] ['x']
    (.cons (.empty ['<', 'b', '/', '>']) [' '] (.cons (.node ['<', 'c', '>'] ['y'] .nil ['<', '/', 'c', '>']) ['z'] .nil))
    ['<', '/', 'a', '>']

example : Plain exElem := by
  refine ⟨⟨['a'], by decide, rfl⟩, ⟨['/', 'a'], by decide, rfl⟩, (fun h => by cases h), ?_, ?_, trivial⟩
  · exact ⟨['b'], by decide, rfl⟩
  · exact ⟨⟨['c'], by decide, rfl⟩, ⟨['/', 'c'], by decide, rfl⟩, fun _ => ⟨by decide, by decide⟩, trivial⟩

example : (itoAt (fun t => !(true && t.all (· == ' '))) 0 exElem).kids.map (fun k => (k.start, k.stop, k.desc)) =
    [(0, 3, some "start_tag"), (3, 4, some "text"), (4, 8, some "element"), (9, 17, some "element"),
      (17, 18, some "text"), (18, 22, some "end_tag")] := by decide

/-- **C71 fails** for a `>` in an attribute value, which XML allows: in `<a b=">">x</a>` the start tag ends at
the first one. -/
theorem C71_gt_violated :
    (let e : XElem := .node "<a b=\">\">".toList ['x'] .nil "</a>".toList
     (extract (· == ' ') true (render e) (elemAt 0 e)).toOption.map (fun n => leafTexts (render e) n)) =
      some ["<a b=\">".toList, "\">x".toList, "</a>".toList] := by decide +kernel

/-- **C71 fails** for an element whose text ends in a processing instruction (or in `/>`, which XML allows in
text): `<a>x<?y?></a>` is taken for an empty-element tag, its text and its end tag are lost. -/
theorem C71_self_closing_violated :
    (let e : XElem := .node "<a>".toList "x<?y?>".toList .nil "</a>".toList
     (extract (· == ' ') true (render e) (elemAt 0 e)).toOption.map (fun n => (n.stop, leafTexts (render e) n))) =
      some (9, ["<a>".toList]) := by decide +kernel

/-- **C71 fails** for a tag whose name is followed by a newline and then directly by an attribute, which XML
allows: in `<a\nb="c"/>`, the tag's name is taken to be `a\nb` and its first attribute to be `<a\nb="c"`, which
overlap: `ValueError`. -/
theorem C71_raises_violated :
    (let e : XElem := .empty "<a\nb=\"c\"/>".toList
     extract (· == ' ') true (render e) (elemAt 0 e)) = .error .valueError := by decide +kernel

example : Quiet (render exElem) 0 exElem :=
  ⟨⟨_, rfl⟩, ⟨_, rfl⟩, ⟨⟨_, rfl⟩, trivial⟩, trivial⟩

end Pawpaw.Props
