import Verif.Model.Xml
import Verif.Lemmas.Split
import Verif.Lemmas.Kids
/-!
# C61, C62: XML names and offsets
-/
set_option linter.unusedSectionVars false
namespace Pawpaw.Props
open PyStr Pawpaw.Xml
variable {α : Type} [DecidableEq α]

/-! ### Searching one character -/

theorem occursAt_char (s : List α) (c : α) (i : Nat) : occursAt s [c] i = true ↔ s[i]? = some c := by
  unfold occursAt
  rw [beq_iff_eq, List.length_singleton]
  constructor
  · intro h
    have : ((s.drop i).take 1)[0]? = some c := by rw [h]; rfl
    rw [List.getElem?_take_of_lt (by omega), List.getElem?_drop] at this
    simpa using this
  · intro h
    have hi : i < s.length := by
      rcases Nat.lt_or_ge i s.length with g | g
      · exact g
      · rw [List.getElem?_eq_none g] at h; cases h
    rw [List.drop_eq_getElem_cons hi]
    rw [List.getElem?_eq_getElem hi] at h
    cases h
    rfl

/-- The first `c` at or after position `|a|`. -/
theorem find_char {a m b : List α} {c : α} (h : c ∉ m) :
    PyStr.find (a ++ (m ++ c :: b)) [c] (some (a.length : Int)) none = (a.length + m.length : Nat) := by
  unfold PyStr.find
  have : (List.range ((a ++ (m ++ c :: b)).length + 1)).find?
      (okAt (a ++ (m ++ c :: b)) [c] (some (a.length : Int)) none) = some (a.length + m.length) := by
    rw [find?_range_iff]
    refine ⟨?_, by simp; omega, ?_⟩
    · unfold okAt
      rw [adjStart_some_nat, Bool.and_eq_true, Bool.and_eq_true, decide_eq_true_eq, decide_eq_true_eq, occursAt_char]
      refine ⟨⟨by omega, ?_⟩, ?_⟩
      · simp [adjEnd]; omega
      · rw [List.getElem?_append_right (by omega), List.getElem?_append_right (by omega)]
        simp
    · intro j hj
      refine Bool.eq_false_iff.mpr fun hc => ?_
      unfold okAt at hc
      rw [adjStart_some_nat, Bool.and_eq_true, Bool.and_eq_true, decide_eq_true_eq, decide_eq_true_eq,
        occursAt_char] at hc
      obtain ⟨⟨h1, _⟩, h2⟩ := hc
      rw [List.getElem?_append_right (by omega), List.getElem?_append_left (by omega)] at h2
      exact h (List.mem_of_getElem? h2)
  rw [this]

theorem find_char0 {m b : List α} {c : α} (h : c ∉ m) :
    PyStr.find (m ++ c :: b) [c] none none = (m.length : Nat) := by
  have := find_char (a := []) (b := b) h
  simp only [List.nil_append, List.length_nil, Nat.zero_add] at this
  rw [← this]
  rfl

theorem find_char_none {s : List α} {c : α} (h : c ∉ s) : PyStr.find s [c] none none = -1 := by
  unfold PyStr.find
  have : (List.range (s.length + 1)).find? (okAt s [c] none none) = none := by
    rw [find?_range_iff]
    intro j _
    refine Bool.eq_false_iff.mpr fun hc => ?_
    unfold okAt at hc
    rw [Bool.and_eq_true, occursAt_char] at hc
    exact h (List.mem_of_getElem? hc.2)
  rw [this]

theorem xslice_from (s : List α) (a : Nat) : slice s (some (a : Int)) none = s.drop a := by
  rw [slice_none_right, slice_nat, List.take_length]

theorem xslice_to (s : List α) (b : Nat) : slice s none (some (b : Int)) = s.take b := by
  have := slice_nat s 0 b
  rw [slice_none_left]
  simpa using this

/-! ### C61 -/

/-- **C61.** A tag with a closing brace is cut just after the first one. -/
theorem C61_tag (ns loc : List Char) (h : '}' ∉ ns) :
    getNamespace ('{' :: ns ++ '}' :: loc) = some ('{' :: ns ++ ['}']) ∧
    getLocalName ('{' :: ns ++ '}' :: loc) = loc := by
  have h' : '}' ∉ '{' :: ns := by
    rw [List.mem_cons]; rintro (g | g)
    · revert g; decide
    · exact h g
  unfold getNamespace getLocalName
  rw [find_char0 h']
  dsimp only
  rw [if_pos (by omega), if_pos (by omega),
    show (((('{' :: ns).length : Nat) : Int) + 1) = (((('{' :: ns) ++ ['}']).length : Nat) : Int) by simp,
    xslice_to, xslice_from, show '{' :: ns ++ '}' :: loc = ('{' :: ns ++ ['}']) ++ loc by simp,
    List.take_left, List.drop_left]
  exact ⟨rfl, rfl⟩

/-- **C61.** A tag without a closing brace has no namespace. -/
theorem C61_plain (tag : List Char) (h : '}' ∉ tag) : getNamespace tag = none ∧ getLocalName tag = tag := by
  unfold getNamespace getLocalName
  rw [find_char_none h]
  exact ⟨rfl, rfl⟩

example : getNamespace "{u}a".toList = some "{u}".toList ∧ getLocalName "{u}a".toList = "a".toList :=
  C61_tag "u".toList "a".toList (by decide)

/-- The text from the start of one Ito to the stop of another. -/
theorem str_of_spans {x : FIto Char} (hx : x.Valid) (q : Name) (h1 : q.loc.string = x.string)
    (h2 : q.start = x.start) (h3 : q.loc.stop = x.stop) :
    q.str = x.text := by
  obtain ⟨a, b, ha, hb, hab, hl⟩ := hx.exists_nat
  unfold Name.str
  dsimp only
  rw [h2, h3, h1]
  split
  · rename_i h
    rw [FIto.text_eq ha hb, show a = 0 by omega, show b = x.string.length by omega]
    simp
  · rfl

/-- **C61.** A qualified name made from any Ito prints as the Ito's text; it is cut at the first colon, and
has no prefix when there is none. -/
theorem C61_qualified (x : FIto Char) (hx : x.Valid) :
    ∃ q, Name.fromSrc x = .ok q ∧ q.str = x.text ∧
      (':' ∉ x.text → q.pre = none ∧ q.loc.text = x.text) ∧
      (∀ p l, x.text = p ++ ':' :: l → ':' ∉ p → ∃ P, q.pre = some P ∧ P.text = p ∧ q.loc.text = l) := by
  obtain ⟨a, b, ha, hb, hab, hl⟩ := hx.exists_nat
  have ht := FIto.text_eq ha hb
  unfold Name.fromSrc FIto.strSplit
  rw [if_neg (by simp), if_neg (by decide), FIto.splitLoop]
  dsimp only
  rw [ha, hb, (FIto.find_between x.string [':'] hab hl).1, ← ht]
  cases hf : firstOcc x.text [':'] with
  | none =>
    dsimp only
    rw [if_neg (c := (-1 : Int) ≥ 0 ∧ (1 : Int) ≠ 0) (by omega)]
    refine ⟨⟨none, x⟩, rfl, str_of_spans hx _ rfl rfl rfl, fun _ => ⟨rfl, rfl⟩, ?_⟩
    intro p l e hp
    unfold firstOcc at hf
    have hc := (find?_range_iff _ _ _).1 hf p.length (by rw [e]; simp; omega)
    rw [okAt_none, e] at hc
    have : occursAt (p ++ ':' :: l) [':'] p.length = true := by rw [occursAt_char]; simp
    rw [this] at hc
    simp at hc
  | some j =>
    unfold firstOcc at hf
    obtain ⟨f1, f2, f3⟩ := (find?_range_iff _ _ _).1 hf
    have f1' : x.text[j]? = some ':' := by
      rw [okAt_none, Bool.and_eq_true, occursAt_char] at f1
      exact f1.2
    have hj : j < x.text.length := by
      rcases Nat.lt_or_ge j x.text.length with g | g
      · exact g
      · rw [List.getElem?_eq_none g] at f1'; cases f1'
    have hlen : x.text.length = b - a := FIto.text_length ha hb hl
    dsimp only
    rw [if_pos (c := (a : Int) + j ≥ 0 ∧ (1 : Int) ≠ 0) (by omega)]
    have e0 : ∀ n, FIto.splitLoop x [':'] n ((a : Int) + j + ([':'].length : Nat)) (1 - 1) =
        ([], (a : Int) + j + 1) := by
      intro n
      cases n with
      | zero => rfl
      | succ n => rw [FIto.splitLoop]; dsimp only; rw [if_neg (by simp)]; rfl
    rw [e0]
    dsimp only
    rw [if_neg (by simp), if_neg (by omega),
      show (a : Int) + j + 1 = ((a + j + 1 : Nat) : Int) by omega, FIto.clone_some_none, hb,
      show (a : Int) + j = ((a + j : Nat) : Int) by omega,
      FIto.clone_span_nat x (a := a) (b := a + j) (by omega) (by omega),
      FIto.clone_span_nat x (a := a + j + 1) (b := b) (by omega) (by omega)]
    have t1 : (⟨x.string, ⟨((a : Nat) : Int), ((a + j : Nat) : Int)⟩, x.desc⟩ : FIto Char).text = x.text.take j := by
      rw [FIto.text_eq (a := a) (b := a + j) rfl rfl, ht, List.take_drop, List.take_take, Nat.min_eq_left (by omega)]
    have t2 : (⟨x.string, ⟨((a + j + 1 : Nat) : Int), ((b : Nat) : Int)⟩, x.desc⟩ : FIto Char).text =
        x.text.drop (j + 1) := by
      rw [FIto.text_eq (a := a + j + 1) (b := b) rfl rfl, ht, List.drop_drop, Nat.add_assoc]
    refine ⟨⟨some _, _⟩, rfl, str_of_spans hx _ rfl ?_ ?_, ?_, ?_⟩
    · exact ha.symm
    · exact hb.symm
    · intro h; exact absurd (List.mem_of_getElem? f1') h
    · intro p l e hp
      have hjp : j = p.length := by
        rcases Nat.lt_trichotomy j p.length with g | g | g
        · rw [e, List.getElem?_append_left g] at f1'
          exact absurd (List.mem_of_getElem? f1') hp
        · exact g
        · have := f3 p.length g
          rw [okAt_none, e] at this
          have h' : occursAt (p ++ ':' :: l) [':'] p.length = true := by rw [occursAt_char]; simp
          rw [h'] at this
          simp at this
      refine ⟨_, rfl, ?_, ?_⟩
      · rw [t1, e, hjp, List.take_left]
      · dsimp only
        rw [t2, e, hjp, show p ++ ':' :: l = (p ++ [':']) ++ l by simp,
          show p.length + 1 = (p ++ [':']).length by simp, List.drop_left]

example : (Name.fromSrc (FIto.ofStr "<a:b:c>".toList (some 1) (some 6))).toOption.map
    (fun q => (q.pre.map FIto.text, q.loc.text, q.str)) =
    some (some "a".toList, "b:c".toList, "a:b:c".toList) := by decide

/-- **C61.** An `EtName` made from a non-empty Ito prints as the Ito's text; `{ns}name` is cut after the
brace, and a text which does not start with a brace is all name. -/
theorem C61_etname (x : FIto Char) (hx : x.Valid) (hne : x.text ≠ []) :
    ∃ q, Name.fromItem x = .ok q ∧ q.str = x.text ∧
      (∀ ns nm, x.text = '{' :: ns ++ '}' :: nm → '}' ∉ ns → ns ≠ [] → nm ≠ [] →
        ∃ P, q.pre = some P ∧ P.text = '{' :: ns ++ ['}'] ∧ q.loc.text = nm) ∧
      (x.text[0]? ≠ some '{' → q.pre = none ∧ q.loc.text = x.text) := by
  obtain ⟨a, b, ha, hb, hab, hl⟩ := hx.exists_nat
  have ht := FIto.text_eq ha hb
  have hlen : x.text.length = b - a := FIto.text_length ha hb hl
  have hpos : 0 < x.text.length := List.length_pos_iff.mpr hne
  have hx0 : ¬ x.len = 0 := by unfold FIto.len; rw [ha, hb]; omega
  have cl : ∀ (i j : Nat) (d : Option String), i ≤ j → j ≤ x.string.length →
      FIto.ofStr x.string (some (i : Int)) (some (j : Int)) d = ⟨x.string, ⟨i, j⟩, d⟩ := by
    intro i j d hij hj
    have := FIto.clone_span_nat (⟨x.string, x.span, d⟩ : FIto Char) hij hj
    simpa [FIto.clone] using this
  unfold Name.fromItem
  rw [if_neg hx0]
  cases hc : etCut x.text with
  | none =>
    dsimp only
    have e : x.clone none none (some (some "name")) = ⟨x.string, ⟨a, b⟩, some "name"⟩ := by
      unfold FIto.clone
      rw [Option.getD_none, Option.getD_none, Option.getD_some, ha, hb, cl _ _ _ hab hl]
    rw [e]
    have te : (⟨x.string, ⟨(a : Int), (b : Int)⟩, some "name"⟩ : FIto Char).text = x.text := by
      rw [FIto.text_eq (a := a) (b := b) rfl rfl, ht]
    refine ⟨_, rfl, str_of_spans hx _ rfl ha.symm hb.symm, ?_, fun _ => ⟨rfl, te⟩⟩
    intro ns nm e' h1 h2 h3
    unfold etCut at hc
    rw [if_pos (by rw [e']; rfl), Option.map_eq_none_iff] at hc
    have h2' := List.length_pos_iff.mpr h2
    have h3' := List.length_pos_iff.mpr h3
    have := (find?_range_iff _ _ _).1 hc (ns.length + 1) (by rw [e']; simp)
    rw [e', Bool.and_eq_false_iff, Bool.and_eq_false_iff, decide_eq_false_iff_not, decide_eq_false_iff_not,
      decide_eq_false_iff_not] at this
    have g : ('{' :: ns ++ '}' :: nm)[ns.length + 1]? = some '}' := by
      rw [List.getElem?_append_right (by simp)]; simp
    rcases this with (t | t) | t
    · omega
    · exact absurd g t
    · exact absurd (by simp; omega) t
  | some n =>
    unfold etCut at hc
    split at hc
    · rename_i hb0
      rw [Option.map_eq_some_iff] at hc
      obtain ⟨i, hi, rfl⟩ := hc
      obtain ⟨f1, _, f3⟩ := (find?_range_iff _ _ _).1 hi
      rw [Bool.and_eq_true, Bool.and_eq_true, decide_eq_true_eq, decide_eq_true_eq, decide_eq_true_eq] at f1
      obtain ⟨⟨f11, f12⟩, f13⟩ := f1
      dsimp only
      have e1 : x.clone none (some (x.start + ((i + 1 : Nat) : Int))) (some (some "namespace")) =
          ⟨x.string, ⟨a, (a + (i + 1) : Nat)⟩, some "namespace"⟩ := by
        unfold FIto.clone
        rw [Option.getD_none, Option.getD_some, Option.getD_some, ha,
          show (a : Int) + ((i + 1 : Nat) : Int) = ((a + (i + 1) : Nat) : Int) by omega,
          cl _ _ _ (by omega) (by omega)]
      have e2 : x.clone (some (x.start + ((i + 1 : Nat) : Int))) none (some (some "name")) =
          ⟨x.string, ⟨(a + (i + 1) : Nat), b⟩, some "name"⟩ := by
        unfold FIto.clone
        rw [Option.getD_none, Option.getD_some, Option.getD_some, ha, hb,
          show (a : Int) + ((i + 1 : Nat) : Int) = ((a + (i + 1) : Nat) : Int) by omega,
          cl _ _ _ (by omega) (by omega)]
      rw [e1, e2]
      have t1 : (⟨x.string, ⟨((a : Nat) : Int), ((a + (i + 1) : Nat) : Int)⟩, some "namespace"⟩ : FIto Char).text =
          x.text.take (i + 1) := by
        rw [FIto.text_eq (a := a) (b := a + (i + 1)) rfl rfl, ht, List.take_drop, List.take_take,
          Nat.min_eq_left (by omega)]
      have t2 : (⟨x.string, ⟨((a + (i + 1) : Nat) : Int), ((b : Nat) : Int)⟩, some "name"⟩ : FIto Char).text =
          x.text.drop (i + 1) := by
        rw [FIto.text_eq (a := a + (i + 1)) (b := b) rfl rfl, ht, List.drop_drop]
      refine ⟨_, rfl, str_of_spans hx _ rfl ha.symm hb.symm, ?_, fun h => absurd hb0 h⟩
      intro ns nm e' h1 h2 h3
      have h2' := List.length_pos_iff.mpr h2
      have h3' := List.length_pos_iff.mpr h3
      have hin : i = ns.length + 1 := by
        rcases Nat.lt_trichotomy i (ns.length + 1) with g | g | g
        · rw [e', List.getElem?_append_left (by simpa using g)] at f12
          rw [List.getElem?_cons] at f12
          rw [if_neg (by omega)] at f12
          exact absurd (List.mem_of_getElem? f12) h1
        · exact g
        · have := f3 (ns.length + 1) g
          rw [e', Bool.and_eq_false_iff, Bool.and_eq_false_iff, decide_eq_false_iff_not, decide_eq_false_iff_not,
            decide_eq_false_iff_not] at this
          have g : ('{' :: ns ++ '}' :: nm)[ns.length + 1]? = some '}' := by
            rw [List.getElem?_append_right (by simp)]; simp
          rcases this with (t | t) | t
          · omega
          · exact absurd g t
          · exact absurd (by simp; omega) t
      refine ⟨_, rfl, ?_, ?_⟩
      · rw [t1, e', hin, show '{' :: ns ++ '}' :: nm = ('{' :: ns ++ ['}']) ++ nm by simp,
          show ns.length + 1 + 1 = ('{' :: ns ++ ['}']).length by simp, List.take_left]
      · dsimp only
        rw [t2, e', hin, show '{' :: ns ++ '}' :: nm = ('{' :: ns ++ ['}']) ++ nm by simp,
          show ns.length + 1 + 1 = ('{' :: ns ++ ['}']).length by simp, List.drop_left]
    · cases hc

example : (Name.fromItem (FIto.ofStr "{u}a".toList none none)).toOption.map
    (fun q => (q.pre.map FIto.text, q.loc.text, q.str)) =
    some (some "{u}".toList, "a".toList, "{u}a".toList) := by decide

/-- **C61 fails** for an element that has an `.ito`: the name is then the element's whole text. -/
theorem C61_element_violated :
    (Name.fromItem (FIto.ofStr "<a>b</a>".toList none none)).toOption.map (fun q => (q.pre, q.loc.text)) =
      some (none, "<a>b</a>".toList) := by decide

/-! ### C72: the values of tags -/

/-- **C72 (partial).** With a single tag, its value is its qualified name. Missing: more than one, where it is
false (`C72_violated`). -/
theorem C72_single_partial (t : FIto Char) (ht : t.Valid) :
    ∃ q, Name.fromSrc t = .ok q ∧ tagValues [t] = .ok [q] ∧ q.str = t.text := by
  obtain ⟨q, h1, h2, _⟩ := C61_qualified t ht
  refine ⟨q, h1, ?_, h2⟩
  unfold tagValues
  simp [h1, bind, Except.bind, pure, Except.pure]

/-- **C72 fails**: all tags of a start tag get the value of the last one (`<a b="1">`: element name, attribute
name). -/
theorem C72_violated (t u : FIto Char) (ht : t.Valid) (hu : u.Valid)
    (hne : t.text ≠ u.text) :
    ∃ q r, tagValues [t, u] = .ok [q, r] ∧ r.str = u.text ∧ q.str ≠ t.text := by
  obtain ⟨q, h1, h2, _⟩ := C61_qualified t ht
  obtain ⟨r, g1, g2, _⟩ := C61_qualified u hu
  refine ⟨r, r, ?_, g2, fun e => hne (by rw [← e, g2])⟩
  unfold tagValues
  simp [h1, g1, bind, Except.bind, pure, Except.pure]

example : (FIto.ofStr "<a b=\"1\">".toList (some 1) (some 2)).text ≠
    (FIto.ofStr "<a b=\"1\">".toList (some 3) (some 4)).text := by decide

/-! ### C62 -/

/-- Reading a character: line number, column, and whether it is a carriage return (a line feed after it
belongs to the same line break). -/
def lcStep : Nat × Nat × Bool → Char → Nat × Nat × Bool
  | (l, c, cr), ch =>
    if ch = '\n' then (if cr then (l, 0, false) else (l + 1, 0, false))
    else if ch = '\r' then (l + 1, 0, true)
    else (l, c + 1, false)

/-- The position after a text: lines count from 1, columns from 0. -/
def lcPos (s : List Char) : Nat × Nat × Bool := s.foldl lcStep (1, 0, false)

/-- What expat reports at character `p` of the text. -/
def reportAt {β : Type} (enc : Char → List β) (text : List Char) (p : Nat) : Report :=
  ⟨(lcPos (text.take p)).1, (lcPos (text.take p)).2.1, ((text.take p).flatMap enc).length⟩

/-- Position `p` is in the middle of a CR LF pair. -/
def MidBreak (text : List Char) (p : Nat) : Prop := 0 < p ∧ text[p - 1]? = some '\r' ∧ text[p]? = some '\n'

theorem lcPos_snoc (s : List Char) (c : Char) : lcPos (s ++ [c]) = lcStep (lcPos s) c := by
  simp [lcPos, List.foldl_append]

theorem snoc_induction {P : List Char → Prop} (h0 : P []) (h1 : ∀ t c, P t → P (t ++ [c])) : ∀ t, P t := by
  intro t
  rw [← List.reverse_reverse t]
  induction t.reverse with
  | nil => exact h0
  | cons c l ih => rw [List.reverse_cons]; exact h1 _ _ ih

theorem lc_col_le (s : List Char) : (lcPos s).2.1 ≤ s.length := by
  refine snoc_induction (P := fun s => (lcPos s).2.1 ≤ s.length) (by decide) ?_ s
  intro t c ih
  rw [lcPos_snoc, List.length_append, List.length_singleton]
  generalize lcPos t = P at *
  obtain ⟨l, col, cr⟩ := P
  simp only [lcStep]
  dsimp only at ih
  repeat' split
  all_goals simp only; omega

theorem lc_line_pos (s : List Char) : 1 ≤ (lcPos s).1 := by
  refine snoc_induction (P := fun s => 1 ≤ (lcPos s).1) (by decide) ?_ s
  intro t c ih
  rw [lcPos_snoc]
  generalize lcPos t = P at *
  obtain ⟨l, col, cr⟩ := P
  simp only [lcStep]
  dsimp only at ih
  repeat' split
  all_goals simp only; omega

theorem lc_mono (s t : List Char) : (lcPos s).1 ≤ (lcPos (s ++ t)).1 ∧
    s.length - (lcPos s).2.1 ≤ (s ++ t).length - (lcPos (s ++ t)).2.1 := by
  refine snoc_induction (P := fun t => (lcPos s).1 ≤ (lcPos (s ++ t)).1 ∧
    s.length - (lcPos s).2.1 ≤ (s ++ t).length - (lcPos (s ++ t)).2.1) (by simp) ?_ t
  intro t c ih
  have hc := lc_col_le (s ++ t)
  rw [← List.append_assoc, lcPos_snoc, List.length_append (as := s ++ t), List.length_singleton]
  generalize (s ++ t).length = n at *
  generalize lcPos (s ++ t) = P at *
  obtain ⟨l, col, cr⟩ := P
  simp only [lcStep]
  dsimp only at ih hc
  repeat' split
  all_goals simp only; omega

/-- The flag is up just after a carriage return. -/
theorem lc_flag (s : List Char) : (lcPos s).2.2 = true → s ≠ [] ∧ s.getLast? = some '\r' := by
  refine snoc_induction (P := fun s => (lcPos s).2.2 = true → s ≠ [] ∧ s.getLast? = some '\r') (by decide) ?_ s
  intro t c _ h
  rw [lcPos_snoc] at h
  refine ⟨by simp, ?_⟩
  generalize lcPos t = P at *
  obtain ⟨l, col, cr⟩ := P
  simp only [lcStep] at h
  rw [List.getLast?_concat]
  split at h
  · split at h <;> simp at h
  · split at h
    · rename_i e; rw [e]
    · simp at h

/-- On one line, the line start is the same. -/
theorem lc_start (s t : List Char) (h : ¬ (s.getLast? = some '\r' ∧ t.head? = some '\n')) :
    (lcPos (s ++ t)).1 = (lcPos s).1 →
    (s ++ t).length - (lcPos (s ++ t)).2.1 = s.length - (lcPos s).2.1 := by
  revert h
  refine snoc_induction (P := fun t => ¬ (s.getLast? = some '\r' ∧ t.head? = some '\n') →
    (lcPos (s ++ t)).1 = (lcPos s).1 →
    (s ++ t).length - (lcPos (s ++ t)).2.1 = s.length - (lcPos s).2.1) (by simp) ?_ t
  intro t c ih h he
  have hm := (lc_mono s t).1
  have hm2 := (lc_mono (s ++ t) [c]).1
  rw [List.append_assoc] at hm2
  have hl : (lcPos (s ++ t)).1 = (lcPos s).1 := by omega
  have hh : ¬ (s.getLast? = some '\r' ∧ t.head? = some '\n') := by
    intro g
    apply h
    refine ⟨g.1, ?_⟩
    cases t with
    | nil => simp at g
    | cons d t => exact g.2
  have ih' := ih hh hl
  have hc := lc_col_le (s ++ t)
  rw [← List.append_assoc, lcPos_snoc] at he
  rw [← List.append_assoc, lcPos_snoc, List.length_append (as := s ++ t), List.length_singleton, ← ih']
  have hflag : c = '\n' → (lcPos (s ++ t)).2.2 = true → False := by
    intro e hf
    obtain ⟨_, g⟩ := lc_flag _ hf
    rcases List.eq_nil_or_concat t with rfl | ⟨t, d, rfl⟩
    · exact h ⟨by simpa using g, by rw [e]; rfl⟩
    · rw [List.concat_eq_append] at *
      rw [← List.append_assoc, List.getLast?_concat] at g
      cases g
      have k := (lc_mono s t).1
      rw [← List.append_assoc, lcPos_snoc] at hl
      generalize lcPos (s ++ t) = P at *
      obtain ⟨l', c', cr'⟩ := P
      simp only [lcStep] at hl k
      rw [if_neg (by decide), if_pos trivial] at hl
      simp only at hl
      omega
  generalize (s ++ t).length = n at *
  generalize lcPos (s ++ t) = P at *
  obtain ⟨l, col, cr⟩ := P
  simp only [lcStep] at he ⊢
  dsimp only at hl hc hflag he
  split
  · rename_i e
    rw [if_pos e] at he
    cases cr with
    | true => exact absurd rfl (hflag e)
    | false => simp only [Bool.false_eq_true, if_false] at he; omega
  · rename_i e
    rw [if_neg e] at he
    split
    · rename_i e'
      rw [if_pos e'] at he
      dsimp only at he
      omega
    · dsimp only; omega

section
variable {β : Type} [DecidableEq β] {enc : Char → List β} {dec : List β → Option (List Char)}

/-- The bytes of a piece of the text. -/
theorem bytes_slice (enc : Char → List β) (text : List Char) {a b : Nat} (hab : a ≤ b) (_hb : b ≤ text.length) :
    slice (text.flatMap enc) (some (((text.take a).flatMap enc).length : Int))
      (some (((text.take b).flatMap enc).length : Int)) = ((text.take b).drop a).flatMap enc := by
  have e1 : text.flatMap enc = (text.take b).flatMap enc ++ (text.drop b).flatMap enc := by
    rw [← List.flatMap_append, List.take_append_drop]
  have e2 : (text.take b).flatMap enc = (text.take a).flatMap enc ++ ((text.take b).drop a).flatMap enc := by
    rw [← List.flatMap_append]
    congr 1
    have := List.take_append_drop a (text.take b)
    rw [List.take_take, Nat.min_eq_left hab] at this
    exact this.symm
  rw [slice_nat, e1, List.take_left, e2, List.drop_left]

/-- The line start before position `q`. -/
def lineStart (text : List Char) (q : Nat) : Nat := (text.take q).length - (lcPos (text.take q)).2.1

theorem charOffset_step (hdec : ∀ s, dec (s.flatMap enc) = some s) (text : List Char) {q a : Nat}
    (hq : q ≤ text.length) {st : Counters} (ha : st.char = a) (hb : st.byte = ((text.take a).flatMap enc).length)
    (hs : a ≤ lineStart text q) (hl : st.line ≤ (lcPos (text.take q)).1)
    (he : st.line = (lcPos (text.take q)).1 → a = lineStart text q) :
    charOffset enc dec text st (reportAt enc text q) =
      .ok ((q : Int), ⟨(lcPos (text.take q)).1, (lineStart text q : Nat),
        (((text.take (lineStart text q)).flatMap enc).length : Nat)⟩) ∨
    (charOffset enc dec text st (reportAt enc text q) = .ok ((q : Int), st) ∧
      st = ⟨(lcPos (text.take q)).1, (lineStart text q : Nat),
        (((text.take (lineStart text q)).flatMap enc).length : Nat)⟩) := by
  have hc := lc_col_le (text.take q)
  have hlen : (text.take q).length = q := by rw [List.length_take]; omega
  unfold charOffset reportAt
  unfold lineStart at hs he ⊢
  simp only [hlen] at hc hs he ⊢
  by_cases h : st.line < (lcPos (text.take q)).1
  · left
    rw [if_pos h, ha, hb, bytes_slice enc text (by omega) hq, hdec]
    dsimp only
    have e1 : ((a : Int) + (((text.take q).drop a).length : Nat) - ((lcPos (text.take q)).2.1 : Nat)) =
        ((q - (lcPos (text.take q)).2.1 : Nat) : Int) := by
      rw [List.length_drop, hlen]; omega
    rw [e1, slice_nat]
    have e2 : (((text.take a).flatMap enc).length : Int) +
        ((((text.take (q - (lcPos (text.take q)).2.1)).drop a).flatMap enc).length : Nat) =
        (((text.take (q - (lcPos (text.take q)).2.1)).flatMap enc).length : Nat) := by
      have := List.take_append_drop a (text.take (q - (lcPos (text.take q)).2.1))
      rw [List.take_take, Nat.min_eq_left hs] at this
      have h3 := congrArg (fun l => (l.flatMap enc).length) this
      simp only [List.flatMap_append, List.length_append] at h3
      omega
    rw [e2]
    congr 2
    omega
  · right
    have e : st.line = (lcPos (text.take q)).1 := by omega
    have ea := he e
    rw [if_neg h]
    refine ⟨?_, ?_⟩
    · rw [ha, ea]; congr 2; omega
    · obtain ⟨l, c, b⟩ := st
      dsimp only at *
      rw [e, ha, hb, ea]

theorem charOffsets_run (hdec : ∀ s, dec (s.flatMap enc) = some s) (text : List Char) (ps : List Nat)
    (hs : ps.Pairwise (· ≤ ·)) (hp : ∀ p ∈ ps, p ≤ text.length ∧ ¬ MidBreak text p)
    (st : Counters) (a : Nat) (ha : st.char = a) (hb : st.byte = ((text.take a).flatMap enc).length)
    (hf : ∀ q ∈ ps, a ≤ lineStart text q ∧ st.line ≤ (lcPos (text.take q)).1 ∧
      (st.line = (lcPos (text.take q)).1 → a = lineStart text q)) :
    charOffsets enc dec text st (ps.map (reportAt enc text)) = .ok (ps.map (fun p : Nat => (p : Int))) := by
  induction ps generalizing st a with
  | nil => rfl
  | cons q ps ih =>
    obtain ⟨f1, f2, f3⟩ := hf q List.mem_cons_self
    rw [List.pairwise_cons] at hs
    obtain ⟨hq, hmid⟩ := hp q List.mem_cons_self
    have hnext := fun st' (e : st' = (⟨(lcPos (text.take q)).1, (lineStart text q : Nat),
        (((text.take (lineStart text q)).flatMap enc).length : Nat)⟩ : Counters)) =>
      ih hs.2 (fun p h => hp p (List.mem_cons_of_mem _ h)) st' (lineStart text q) (by rw [e]) (by rw [e]) (by
        intro r hr
        have hqr := hs.1 r hr
        have hr' := hp r (List.mem_cons_of_mem _ hr)
        have et : text.take r = text.take q ++ (text.take r).drop q := by
          have := List.take_append_drop q (text.take r)
          rw [List.take_take, Nat.min_eq_left hqr] at this
          exact this.symm
        have m := lc_mono (text.take q) ((text.take r).drop q)
        have s := lc_start (text.take q) ((text.take r).drop q) (by
          rintro ⟨g1, g2⟩
          have hq0 : 0 < q := by
            rcases Nat.eq_zero_or_pos q with z | z
            · subst z; simp at g1
            · exact z
          refine hmid ⟨hq0, ?_, ?_⟩
          · rw [List.getLast?_eq_getElem?, List.length_take, Nat.min_eq_left hq, List.getElem?_take_of_lt (by omega)]
              at g1
            exact g1
          · rw [List.head?_eq_getElem?, List.getElem?_drop, Nat.add_zero] at g2
            rw [List.getElem?_take] at g2
            split at g2
            · exact g2
            · cases g2)
        rw [← et] at m s
        rw [e]
        unfold lineStart
        refine ⟨m.2, by have := m.1; dsimp only; omega, ?_⟩
        intro h
        dsimp only at h
        exact (s (by omega)).symm)
    rw [List.map_cons, List.map_cons, charOffsets]
    rcases charOffset_step hdec text hq ha hb f1 f2 f3 with h | ⟨h, e⟩
    · rw [h]; dsimp only; rw [hnext _ rfl]
    · rw [h]; dsimp only; rw [hnext _ e]

/-- **C62.** For every codec that writes each character by itself and reads back what it wrote, every text and
every history of non-decreasing positions (none in the middle of a CR LF pair), the offsets returned are the
positions, in characters. -/
theorem C62_offsets (hdec : ∀ s, dec (s.flatMap enc) = some s) (text : List Char) (ps : List Nat)
    (hs : ps.Pairwise (· ≤ ·)) (hp : ∀ p ∈ ps, p ≤ text.length ∧ ¬ MidBreak text p) :
    charOffsets enc dec text {} (ps.map (reportAt enc text)) = .ok (ps.map (fun p : Nat => (p : Int))) := by
  refine charOffsets_run hdec text ps hs hp {} 0 rfl rfl ?_
  intro q _
  have := lc_line_pos (text.take q)
  exact ⟨by omega, by show (0 : Int) ≤ _; omega, fun h => by simp only at h; omega⟩

/-- **C62.** `char_offset_from` of the byte position of character `p` is `p`. -/
theorem C62_char_offset_from (hdec : ∀ s, dec (s.flatMap enc) = some s) (text : List Char) (p : Nat)
    (hp : p ≤ text.length) :
    charOffsetFrom enc dec text (((text.take p).flatMap enc).length : Nat) = .ok (p : Int) := by
  unfold charOffsetFrom
  have := bytes_slice enc text (a := 0) (b := p) (by omega) hp
  simp only [List.take_zero, List.flatMap_nil, List.length_nil, List.drop_zero] at this
  rw [show (0 : Int) = ((0 : Nat) : Int) from rfl, this, hdec]
  dsimp only
  rw [List.length_take, Nat.min_eq_left hp]
end

/-- Decoding UTF-8 (Lean's own definition). -/
def utf8Dec (bs : List UInt8) : Option (List Char) := bs.toByteArray.utf8Decode?.map Array.toList

theorem utf8_ok (s : List Char) : utf8Dec (s.flatMap String.utf8EncodeChar) = some s := by
  unfold utf8Dec
  have : (s.flatMap String.utf8EncodeChar).toByteArray = s.utf8Encode := rfl
  rw [this]
  simp

/-- **C62** for UTF-8. -/
theorem C62_utf8 (text : List Char) (ps : List Nat)
    (hs : ps.Pairwise (· ≤ ·)) (hp : ∀ p ∈ ps, p ≤ text.length ∧ ¬ MidBreak text p) :
    charOffsets String.utf8EncodeChar utf8Dec text {} (ps.map (reportAt String.utf8EncodeChar text)) =
      .ok (ps.map (fun p : Nat => (p : Int))) := C62_offsets utf8_ok text ps hs hp

/-- Two lines, with a character of two bytes on each. -/
example : ["<é>\n<à/>".toList].map (fun t => [0, 4, 8].map (reportAt String.utf8EncodeChar t)) =
    [[⟨1, 0, 0⟩, ⟨2, 0, 5⟩, ⟨2, 4, 10⟩]] := by decide
example : charOffsets String.utf8EncodeChar utf8Dec "<é>\n<à/>".toList {}
    ([0, 4, 8].map (reportAt String.utf8EncodeChar "<é>\n<à/>".toList)) = .ok [0, 4, 8] :=
  C62_utf8 _ _ (by decide) (by unfold MidBreak; decide)

/-- **C62 fails** when a position lies on an earlier line than one asked before. -/
theorem C62_order_needed : ∃ v, charOffsets String.utf8EncodeChar utf8Dec "a\nb".toList {}
    ([2, 1].map (reportAt String.utf8EncodeChar "a\nb".toList)) = .ok [2, v] ∧ v ≠ 1 := by
  refine ⟨3, ?_, by decide⟩
  have h := utf8_ok ['a', '\n']
  have e : (['a', '\n'] : List Char).flatMap String.utf8EncodeChar = [97, 10] := by decide
  rw [e] at h
  have r : ([2, 1].map (reportAt String.utf8EncodeChar "a\nb".toList)) = [⟨2, 0, 2⟩, ⟨1, 1, 1⟩] := by decide
  have sl : slice (("a\nb".toList).flatMap String.utf8EncodeChar) (some 0) (some 2) = [97, 10] := by decide
  rw [r]
  simp only [charOffsets, charOffset]
  rw [if_pos (by decide), sl, h]
  rfl

end Pawpaw.Props
