import Verif.Props.XmlNames
/-!
# C87, C88: namespace declarations of an element
-/
set_option linter.unusedSectionVars false
set_option linter.unusedSimpArgs false
namespace Pawpaw.Props
open Pawpaw Pawpaw.Query Pawpaw.XmlHelper Pawpaw.Regex RegexSpec XmlSpec QuerySpec TreeSpec PyStr

/-! ### The pattern -/

theorem fullmatch_lang (r : Re) (hr : Free r) (s : List Char) : fullmatch r s = true ↔ Lang r s := by
  unfold fullmatch
  rw [List.any_eq_true]
  constructor
  · rintro ⟨st, hm, hs⟩
    obtain ⟨u, ⟨h1, _⟩, h2⟩ := out_sound r hr _ st hm
    rw [of_decide_eq_true hs, List.append_nil] at h1
    have h1' : s = u := h1
    rw [h1']
    exact h2
  · intro h
    obtain ⟨c, hc⟩ := out_complete r ⟨0, s, []⟩ s [] (by simp) h
    exact ⟨_, hc, by simp⟩

theorem xmlns_like (s : List Char) : fullmatch xmlnsRe s = true ↔ NsLike s := by
  rw [fullmatch_lang xmlnsRe (by simp [xmlnsRe, lit, opt, plus, Free])]
  unfold xmlnsRe NsLike
  constructor
  · rintro ⟨v, w, rfl, hv, hw⟩
    rw [lang_lit] at hv
    subst hv
    rw [lang_opt] at hw
    rcases hw with ⟨c, u, rfl, ⟨d, hd, rfl⟩, hu⟩ | rfl
    · rw [lang_plus_chr] at hu
      right
      exact ⟨u, hu.1, by rw [eq_of_beq hd]; rfl⟩
    · left; simp [xmlnsName]
  · rintro (rfl | ⟨w, hw, rfl⟩)
    · exact ⟨xmlnsName, [], by simp, (lang_lit _ _).2 rfl, (lang_opt _ _).2 (Or.inr rfl)⟩
    · exact ⟨xmlnsName, ':' :: w, rfl, (lang_lit _ _).2 rfl, (lang_opt _ _).2 (Or.inl
        ⟨[':'], w, rfl, ⟨':', by decide, rfl⟩, (lang_plus_chr _ _).2 ⟨hw, by simp⟩⟩)⟩

instance : DecidablePred NsLike := fun s => decidable_of_iff (fullmatch xmlnsRe s = true) (xmlns_like s)

theorem name_colon {s : List Char} (h : IsName s) : ':' ∉ s := fun hm => absurd (h.2 ':' hm) (by decide)

/-- Of names, exactly those of namespace declarations read like it. -/
theorem nsLike_name (a : Attr) (h : a.name.OK) : NsLike a.name.chars ↔ a.IsDefault ∨ a.IsPrefix := by
  obtain ⟨sep, ⟨pre, loc⟩, val⟩ := a
  obtain ⟨h1, h2⟩ := h
  have hl := name_colon h2
  cases pre with
  | none =>
    simp only [QName.chars, Attr.IsDefault, Attr.IsPrefix, reduceCtorEq, or_false, true_and]
    constructor
    · rintro (h | ⟨w, _, h⟩)
      · exact h
      · exfalso; apply hl; simp only at h ⊢; rw [h]; simp
    · exact Or.inl
  | some p =>
    have hp := name_colon (h1 p rfl)
    simp only [QName.chars, Attr.IsDefault, Attr.IsPrefix, reduceCtorEq, false_and, false_or, Option.some.injEq]
    constructor
    · rintro (h | ⟨w, _, h⟩)
      · exfalso
        have : ':' ∈ xmlnsName := by rw [← h]; simp
        exact absurd this (by decide)
      · have e : ∀ (u v : List Char) (x y : List Char), ':' ∉ u → ':' ∉ v → u ++ ':' :: x = v ++ ':' :: y → u = v := by
          intro u
          induction u with
          | nil =>
            intro v x y _ hv h
            cases v with
            | nil => rfl
            | cons c v => simp at h; simp [← h.1] at hv
          | cons c u ih =>
            intro v x y hu hv h
            cases v with
            | nil => simp at h; simp [h.1] at hu
            | cons c' v =>
              simp at h hu hv
              rw [h.1, ih v x y hu.2 hv.2 h.2]
        exact e p xmlnsName loc w hp (by decide) h
    · intro h
      subst h
      refine Or.inr ⟨loc, h2.1, rfl⟩

/-! ### Children by desc -/

theorem children_zip (t : Node) {x : Path} {n : Node} (h : t.get? x = some n) :
    Query.children t x = n.kids.zipIdx.map (fun ki => x ++ [ki.2]) := by
  unfold Query.children kidsAt
  rw [h]
  simp only [Option.map_some, Option.getD_some]
  rw [show (fun ki : Node × Nat => x ++ [ki.2]) = (fun i => x ++ [i]) ∘ Prod.snd from rfl, ← List.map_map,
    List.zipIdx_map_snd, List.range_eq_range']

theorem children_filter (t : Node) {x : Path} {n : Node} (h : t.get? x = some n) (D : String) :
    (Query.children t x).filter (hasDesc t D) =
      (n.kids.zipIdx.filter (fun ki => decide (ki.1.desc = some D))).map (fun ki => x ++ [ki.2]) := by
  rw [children_zip t h, List.filter_map]
  congr 1
  apply List.filter_congr
  rintro ⟨k, i⟩ hk
  rw [List.mem_zipIdx_iff_getElem?] at hk
  simp only [Function.comp]
  unfold hasDesc
  rw [get?_snoc h, hk]
  rfl

theorem zip_filter_all {τ : Type} (P : τ → Bool) : ∀ (l : List τ) (i : Nat), (∀ k ∈ l, P k = true) →
    (l.zipIdx i).filter (fun ki => P ki.1) = l.zipIdx i
  | [], _, _ => rfl
  | k :: l, i, h => by
    rw [List.zipIdx_cons, List.filter_cons, if_pos (h k (by simp)), zip_filter_all P l (i + 1) (fun k hk => h k (by simp [hk]))]

theorem zip_filter_none {τ : Type} (P : τ → Bool) : ∀ (l : List τ) (i : Nat), (∀ k ∈ l, P k = false) →
    (l.zipIdx i).filter (fun ki => P ki.1) = []
  | [], _, _ => rfl
  | k :: l, i, h => by
    rw [List.zipIdx_cons, List.filter_cons, if_neg (by simp [h k]), zip_filter_none P l (i + 1) (fun k hk => h k (by simp [hk]))]

/-! ### The start tag and the attributes of an element -/

theorem dText_desc (keep : List Char → Bool) (p : Nat) (ss : List Seg) : ∀ k ∈ dTextAt keep p ss, k.desc = some "text" := by
  unfold dTextAt
  split
  · intro k hk; simp at hk; subst hk; rfl
  · simp

theorem dElem_desc (keep : List Char → Bool) (p : Nat) (e : DElem) : (e.at keep p).desc = some "element" := by
  cases e <;> rfl

theorem dKids_desc (keep : List Char → Bool) : ∀ (ks : DKids) (p : Nat), ∀ k ∈ ks.at keep p,
    k.desc = some "element" ∨ k.desc = some "text"
  | .nil, _ => by simp [DKids.at]
  | .cons e ss ks, p => by
    rw [DKids.at]
    intro k hk
    simp only [List.mem_cons, List.mem_append] at hk
    rcases hk with hk | hk | hk
    · subst hk; exact Or.inl (dElem_desc keep p e)
    · exact Or.inr (dText_desc keep _ ss k hk)
    · exact dKids_desc keep ks _ k hk

theorem dElem_tag_ok {e : DElem} (h : e.OK) : e.tag.OK := by
  cases e with
  | empty t => simp only [DElem.OK] at h; exact h
  | node o ss ks c => simp only [DElem.OK] at h; exact h.1

/-- The end of the start tag. -/
def tagEnd : DElem → List Char
  | .empty _ => ['/', '>']
  | .node _ _ _ _ => ['>']

/-- The children of an element's Ito: its start tag, and others. -/
theorem elem_kids (keep : List Char → Bool) (p : Nat) (e : DElem) : ∃ rest, (e.at keep p).kids =
      .mk ⟨p, (p + (e.tag.chars (tagEnd e)).length : Nat)⟩ (some "start_tag") none (e.tag.kids p) :: rest ∧
    ∀ k ∈ rest, k.desc ≠ some "start_tag" := by
  cases e with
  | empty t => exact ⟨[], rfl, by simp⟩
  | node o ss ks c =>
    refine ⟨_, rfl, ?_⟩
    intro k hk
    simp only [List.mem_append, List.mem_singleton] at hk
    rcases hk with (hk | hk) | hk
    · rw [dText_desc _ _ _ k hk]; decide
    · rcases dKids_desc _ _ _ k hk with h | h <;> rw [h] <;> decide
    · rw [hk]; show some "end_tag" ≠ _; decide

theorem elem_chars (e : DElem) : ∃ more, e.chars = e.tag.chars (tagEnd e) ++ more := by
  cases e with
  | empty t => exact ⟨[], by simp [DElem.chars, DElem.plain, render, DElem.tag, tagEnd]⟩
  | node o ss ks c =>
    refine ⟨segsChars ss ++ renderK ks.plain ++ c.chars, ?_⟩
    simp [DElem.chars, DElem.plain, render, DElem.tag, tagEnd]

/-- The first child of an element's Ito is the one for its start tag. -/
theorem elem_stag {keep : List Char → Bool} {d : Doc} {x : Path} {e : DElem} (h : ElemAt keep d x e) :
    STagAt d (x ++ [0]) e.tag (tagEnd e) := by
  obtain ⟨b, a, h1, h2, _⟩ := h
  obtain ⟨rest, hk, _⟩ := elem_kids keep b.length e
  obtain ⟨more, hm⟩ := elem_chars e
  refine ⟨b, more ++ a, ?_, ?_⟩
  · rw [h2, hm]; simp
  · rw [get?_snoc h1, hk]; rfl

/-- The only child with the desc `start_tag`. -/
theorem elem_starts {keep : List Char → Bool} {d : Doc} {x : Path} {e : DElem} (h : ElemAt keep d x e) :
    (Query.children d.tree x).filter (hasDesc d.tree "start_tag") = [x ++ [0]] := by
  obtain ⟨b, a, h1, h2, _⟩ := h
  obtain ⟨rest, hk, hr⟩ := elem_kids keep b.length e
  rw [children_filter d.tree h1, hk, List.zipIdx_cons, List.filter_cons, if_pos (by rfl),
    zip_filter_none (fun k : Node => decide (k.desc = some "start_tag")) rest _ (fun k hk => decide_eq_false (hr k hk))]
  rfl

/-- The Ito for the attributes. -/
theorem stag_attributes {d : Doc} {y : Path} {t : STag} {e : List Char} (h : STagAt d y t e) :
    (Query.children d.tree y).filter (hasDesc d.tree "attributes") = if t.attrs = [] then [] else [y ++ [1]] := by
  obtain ⟨b, r, _, h1⟩ := h
  rw [children_filter d.tree h1]
  show (List.filter _ ((t.kids b.length).zipIdx)).map _ = _
  unfold STag.kids
  rw [List.zipIdx_cons, List.filter_cons, if_neg (by
    simp only [decide_eq_true_eq]; intro e; exact absurd (Option.some.inj e) (by decide))]
  cases t.attrs with
  | nil => rfl
  | cons a as => rfl

theorem attrsAt_desc : ∀ (as : List Attr) (p : Nat), ∀ k ∈ attrsAt p as, k.desc = some "attribute"
  | [], _ => by simp [attrsAt]
  | a :: as, p => by
    rw [attrsAt]
    intro k hk
    simp only [List.mem_cons] at hk
    rcases hk with hk | hk
    · rw [hk]; rfl
    · exact attrsAt_desc as _ k hk

theorem attrsAt_length : ∀ (as : List Attr) (p : Nat), (attrsAt p as).length = as.length
  | [], _ => rfl
  | a :: as, p => by rw [attrsAt, List.length_cons, attrsAt_length as, List.length_cons]

/-- Where the attributes are. -/
theorem stag_attrs_node {d : Doc} {y : Path} {t : STag} {e : List Char} (h : STagAt d y t e) (ha : t.attrs ≠ []) :
    ∃ b r s, d.string = b ++ attrsChars t.attrs ++ r ∧
      d.tree.get? (y ++ [1]) = some (.mk s (some "attributes") none (attrsAt b.length t.attrs)) := by
  obtain ⟨b, r, h2, h1⟩ := h
  cases hat : t.attrs with
  | nil => exact absurd hat ha
  | cons a as =>
    refine ⟨b ++ ['<'] ++ t.name.chars, t.trail ++ e ++ r, ⟨(b.length + 1 + t.name.chars.length + a.sep.length : Nat),
          (b.length + 1 + t.name.chars.length + (attrsChars (a :: as)).length : Nat)⟩, ?_, ?_⟩
    · rw [h2, ← hat]; simp [STag.chars]
    · rw [get?_snoc h1]
      show (t.kids b.length)[1]? = _
      unfold STag.kids
      rw [hat]
      simp only [List.getElem?_cons_succ, List.getElem?_cons_zero]
      rw [show (b ++ ['<'] ++ t.name.chars).length = b.length + 1 + t.name.chars.length from by simp; omega]

/-! ### One attribute -/

theorem attr_kids {d : Doc} {x : Path} {a : Attr} (h : AttrAt d x a) :
    Query.children d.tree x = [x ++ [0], x ++ [1]] ∧ d.text (x ++ [0]) = a.name.chars ∧ d.text (x ++ [1]) = a.val ∧
      (Query.children d.tree x).find? (hasDesc d.tree "value") = some (x ++ [1]) := by
  obtain ⟨b, r, h1, h2⟩ := h
  have hc : Query.children d.tree x = [x ++ [0], x ++ [1]] := by
    rw [children_zip d.tree h1]; rfl
  have g0 : d.tree.get? (x ++ [0]) = some (nameAt (b.length + a.sep.length) (a.name.pre.map List.length)
      (b.length + a.sep.length + a.name.chars.length)) := by rw [get?_snoc h1]; rfl
  have g1 : d.tree.get? (x ++ [1]) = some (.leaf ⟨(b.length + a.sep.length + a.name.chars.length + 2 : Nat),
      (b.length + a.chars.length - 1 : Nat)⟩ (some "value")) := by rw [get?_snoc h1]; rfl
  refine ⟨hc, ?_, ?_, ?_⟩
  · unfold Doc.text
    rw [g0, h2]
    have := txt_at (b ++ a.sep) a.name.chars ('=' :: '"' :: a.val ++ ['"'] ++ r) (b.length + a.sep.length : Nat)
      (b.length + a.sep.length + a.name.chars.length : Nat) (by simp) (by simp) (nameAt (b.length + a.sep.length) (a.name.pre.map List.length)
      (b.length + a.sep.length + a.name.chars.length)) rfl
    rw [show b ++ a.chars ++ r = b ++ a.sep ++ a.name.chars ++ ('=' :: '"' :: a.val ++ ['"'] ++ r) from by
      simp [Attr.chars, Attr.body]]
    exact this
  · unfold Doc.text
    rw [g1, h2]
    have := txt_at (b ++ a.sep ++ a.name.chars ++ ['=', '"']) a.val (['"'] ++ r) (b.length + a.sep.length + a.name.chars.length + 2 : Nat)
      (b.length + a.chars.length - 1 : Nat) (by simp; omega) (by simp [Attr.chars, Attr.body]; omega)
      (.leaf ⟨(b.length + a.sep.length + a.name.chars.length + 2 : Nat), (b.length + a.chars.length - 1 : Nat)⟩ (some "value")) rfl
    rw [show b ++ a.chars ++ r = b ++ a.sep ++ a.name.chars ++ ['=', '"'] ++ a.val ++ (['"'] ++ r) from by
      simp [Attr.chars, Attr.body]]
    exact this
  · rw [hc]
    have e0 : hasDesc d.tree "value" (x ++ [0]) = false := by
      unfold hasDesc; rw [g0]; exact decide_eq_false (fun e => absurd (Option.some.inj e) (by decide))
    have e1 : hasDesc d.tree "value" (x ++ [1]) = true := by unfold hasDesc; rw [g1]; rfl
    rw [List.find?_cons, e0, List.find?_cons, e1]

/-- Where the local part of an attribute's name begins. -/
theorem attr_loc_start (X : Ext) {d : Doc} {x : Path} {a : Attr} (b r : List Char) (h1 : d.tree.get? x = some (a.at b.length))
    (h2 : d.string = b ++ a.chars ++ r) (hl : a.name.loc ≠ []) :
    ∃ qn y n, getQualifiedName X d x = .ok qn ∧ qn.loc = some y ∧ d.tree.get? y = some n ∧
      (b.length : Int) ≤ n.start ∧ n.start < ((b ++ a.chars).length : Nat) ∧
      textOf d qn.pre = a.name.pre ∧ textOf d qn.loc = some a.name.loc := by
  obtain ⟨qn, q1, q2, q3⟩ := C86_attribute X d x a ⟨b, r, h1, h2⟩
  rw [qualified_eq X d h1 (Or.inr rfl)] at q1
  obtain ⟨sep, ⟨pre, loc⟩, val⟩ := a
  have hlen : 0 < loc.length := List.length_pos_iff.2 hl
  cases pre with
  | none =>
    have hg : d.tree.get? (x ++ [0] ++ [0]) = some (.leaf ⟨(b.length + sep.length : Nat), (b.length + sep.length + loc.length : Nat)⟩ (some "name")) := by
      rw [get?_snoc (n := nameAt (b.length + sep.length) none (b.length + sep.length + loc.length)) (by rw [get?_snoc h1]; rfl)]
      rfl
    refine ⟨qn, x ++ [0] ++ [0], _, by rw [qualified_eq X d h1 (Or.inr rfl)]; exact q1, ?_, hg, ?_, ?_, q2, q3⟩
    · have := congrArg (fun o : Except PyErr QN => o.toOption.bind QN.loc) q1
      exact this.symm
    · show (b.length : Int) ≤ ((b.length + sep.length : Nat) : Int); omega
    · show ((b.length + sep.length : Nat) : Int) < _
      simp [Attr.chars, Attr.body, QName.chars]; omega
  | some p =>
    have hg : d.tree.get? (x ++ [0] ++ [1]) = some (.leaf ⟨(b.length + sep.length + p.length + 1 : Nat), (b.length + sep.length + (p ++ ':' :: loc).length : Nat)⟩ (some "name")) := by
      rw [get?_snoc (n := nameAt (b.length + sep.length) (some p.length) (b.length + sep.length + (p ++ ':' :: loc).length)) (by rw [get?_snoc h1]; rfl)]
      rfl
    refine ⟨qn, x ++ [0] ++ [1], _, by rw [qualified_eq X d h1 (Or.inr rfl)]; exact q1, ?_, hg, ?_, ?_, q2, q3⟩
    · have := congrArg (fun o : Except PyErr QN => o.toOption.bind QN.loc) q1
      exact this.symm
    · show (b.length : Int) ≤ ((b.length + sep.length + p.length + 1 : Nat) : Int); omega
    · show ((b.length + sep.length + p.length + 1 : Nat) : Int) < _
      simp [Attr.chars, Attr.body, QName.chars]; omega

/-! ### The dict -/

theorem dictPut_new {κ ν : Type} (same : κ → κ → Bool) (k : κ) (v : ν) : ∀ acc : List (κ × ν),
    (∀ kv ∈ acc, same kv.1 k = false) → dictPut same k v acc = acc ++ [(k, v)]
  | [], _ => rfl
  | (k', v') :: acc, h => by
    rw [dictPut, if_neg (by simp [h (k', v') (by simp)]), dictPut_new same k v acc (fun kv hk => h kv (by simp [hk]))]
    rfl

/-- What is said of an entry: the texts of prefix, local part and value. -/
def entryText (d : Doc) (kv : QN × Option Path) : Option (List Char) × Option (List Char) × Option (List Char) :=
  (textOf d kv.1.pre, textOf d kv.1.loc, textOf d kv.2)

/-- The entry asked for by an attribute. -/
def attrEntry (a : Attr) : Option (List Char) × Option (List Char) × Option (List Char) :=
  (a.name.pre, some a.name.loc, some a.val)

theorem dict_attrs (X : Ext) (d : Doc) (z : Path) (P : Attr → Bool) : ∀ (as : List Attr) (i : Nat) (b r : List Char)
    (acc : List (QN × Option Path)), d.string = b ++ attrsChars as ++ r →
    (∀ j, d.tree.get? (z ++ [i + j]) = (attrsAt b.length as)[j]?) → (∀ a ∈ as, a.name.loc ≠ []) →
    (∀ kv ∈ acc, ∃ y n, kv.1.loc = some y ∧ d.tree.get? y = some n ∧ n.start < (b.length : Int)) →
    ∃ l, xmlnsDict X d none acc (((as.zipIdx i).filter (fun ai => P ai.1)).map (fun ai => z ++ [ai.2])) = .ok (acc ++ l) ∧
      l.map (entryText d) = (as.filter P).map attrEntry
  | [], i, b, r, acc, _, _, _, _ => ⟨[], by simp [xmlnsDict], rfl⟩
  | a :: as, i, b, r, acc, hs, hg, hl, hacc => by
    have hs' : d.string = (b ++ a.chars) ++ attrsChars as ++ r := by rw [hs, attrsChars]; simp
    have hg' : ∀ j, d.tree.get? (z ++ [i + 1 + j]) = (attrsAt (b ++ a.chars).length as)[j]? := by
      intro j
      have := hg (j + 1)
      rw [show i + 1 + j = i + (j + 1) by omega, this, attrsAt, List.getElem?_cons_succ, List.length_append]
    have h0 : d.tree.get? (z ++ [i]) = some (a.at b.length) := by simpa [attrsAt] using hg 0
    rw [List.zipIdx_cons, List.filter_cons, List.filter_cons]
    cases hP : P a with
    | false =>
      simp only [Bool.false_eq_true, if_false]
      refine dict_attrs X d z P as (i + 1) (b ++ a.chars) r acc hs' hg' (fun a ha => hl a (by simp [ha])) ?_
      intro kv hkv
      obtain ⟨y, n, e1, e2, e3⟩ := hacc kv hkv
      refine ⟨y, n, e1, e2, ?_⟩
      rw [List.length_append]; omega
    | true =>
      simp only [if_true, List.map_cons]
      obtain ⟨qn, y, n, q1, q2, q3, q4, q5, q6, q7⟩ := attr_loc_start X b (attrsChars as ++ r) h0 (by rw [hs', List.append_assoc])
        (hl a (by simp))
      have hat : AttrAt d (z ++ [i]) a := ⟨b, attrsChars as ++ r, h0, by rw [hs', List.append_assoc]⟩
      obtain ⟨_, _, hv, hf⟩ := attr_kids hat
      have hnew : dictPut (QN.same d) qn (some (z ++ [i] ++ [1])) acc = acc ++ [(qn, some (z ++ [i] ++ [1]))] := by
        apply dictPut_new
        intro kv hkv
        obtain ⟨y', n', e1, e2, e3⟩ := hacc kv hkv
        unfold QN.same
        rw [Bool.and_eq_false_iff]
        right
        apply decide_eq_false
        rw [e1, q2]
        simp only [Option.map_some, keyAt, e2, q3]
        intro e
        have e' := Option.some.inj (Option.some.inj e)
        have : n'.start = n.start := by
          have := congrArg (fun k : Span × Option Nat × Option String => k.1.start) e'
          exact this
        omega
      obtain ⟨l, r1, r2⟩ := dict_attrs X d z P as (i + 1) (b ++ a.chars) r (acc ++ [(qn, some (z ++ [i] ++ [1]))]) hs' hg'
        (fun a ha => hl a (by simp [ha])) (by
          intro kv hkv
          rw [List.mem_append, List.mem_singleton] at hkv
          rcases hkv with hkv | rfl
          · obtain ⟨y, n, e1, e2, e3⟩ := hacc kv hkv
            refine ⟨y, n, e1, e2, ?_⟩
            rw [List.length_append]; omega
          · exact ⟨y, n, q2, q3, q5⟩)
      refine ⟨(qn, some (z ++ [i] ++ [1])) :: l, ?_, ?_⟩
      · rw [xmlnsDict, q1]
        simp only
        rw [find_value]
        show xmlnsDict X d none (dictPut (QN.same d) qn ((Query.children d.tree (z ++ [i])).find? (hasDesc d.tree "value")) acc) _ = _
        rw [hf, hnew, r1]
        simp
      · rw [List.map_cons, r2]
        congr 1
        show (textOf d qn.pre, textOf d qn.loc, some (d.text (z ++ [i] ++ [1]))) = _
        rw [q6, q7, hv]
        rfl

/-! ### C87 -/

/-- **C87, exactly.** `get_xmlns` gives, in order, the attributes whose name or whose *value* reads like the name of a
namespace declaration, under their qualified names. -/
theorem C87_exact (X : Ext) (keep : List Char → Bool) (d : Doc) (x : Path) (e : DElem) (h : ElemAt keep d x e) :
    ∃ l, getXmlns X d x = .ok l ∧ l.map (entryText d) =
      (e.tag.attrs.filter fun a => decide (NsLike a.name.chars ∨ NsLike a.val)).map attrEntry := by
  have hst := elem_stag h
  have htag : e.tag.OK := by obtain ⟨_, _, _, _, hok⟩ := h; exact dElem_tag_ok hok
  unfold getXmlns
  rw [findAll_xmlns]
  simp only
  rw [elem_starts h]
  simp only [List.flatMap_cons, List.flatMap_nil, List.append_nil]
  rw [stag_attributes hst]
  by_cases ha : e.tag.attrs = []
  · rw [if_pos ha, ha]
    exact ⟨[], rfl, rfl⟩
  · rw [if_neg ha]
    simp only [List.flatMap_cons, List.flatMap_nil, List.append_nil]
    obtain ⟨b, r, s, g1, g2⟩ := stag_attrs_node hst ha
    have hget : ∀ j, d.tree.get? (x ++ [0] ++ [1] ++ [0 + j]) = (attrsAt b.length e.tag.attrs)[j]? := by
      intro j; rw [get?_snoc g2, Nat.zero_add]; rfl
    have hat : ∀ (as : List Attr) (b r : List Char) (i : Nat), d.string = b ++ attrsChars as ++ r →
        (∀ j, d.tree.get? (x ++ [0] ++ [1] ++ [i + j]) = (attrsAt b.length as)[j]?) →
        ∀ ai ∈ as.zipIdx i, AttrAt d (x ++ [0] ++ [1] ++ [ai.2]) ai.1 := by
      intro as
      induction as with
      | nil => intro b r i _ _ ai hai; simp at hai
      | cons a as ih =>
        intro b r i hs hg ai hai
        rw [List.zipIdx_cons, List.mem_cons] at hai
        rcases hai with rfl | hai
        · refine ⟨b, attrsChars as ++ r, ?_, ?_⟩
          · have := hg 0; simpa [attrsAt] using this
          · rw [hs, attrsChars]; simp
        · refine ih (b ++ a.chars) r (i + 1) (by rw [hs, attrsChars]; simp) ?_ ai hai
          intro j
          have := hg (j + 1)
          rw [show i + 1 + j = i + (j + 1) by omega, this, attrsAt, List.getElem?_cons_succ, List.length_append]
    have hlist : ((Query.children d.tree (x ++ [0] ++ [1])).filter (hasDesc d.tree "attribute")).filter
          (fun w => (Query.children d.tree w).any fun v => fullmatch xmlnsRe (d.text v)) =
        ((e.tag.attrs.zipIdx 0).filter (fun ai => decide (NsLike ai.1.name.chars ∨ NsLike ai.1.val))).map
          (fun ai => x ++ [0] ++ [1] ++ [ai.2]) := by
      rw [children_filter d.tree g2, show (Node.mk s (some "attributes") none (attrsAt b.length e.tag.attrs)).kids =
        attrsAt b.length e.tag.attrs from rfl, zip_filter_all (fun k : Node => decide (k.desc = some "attribute")) _ _
        (fun k hk => decide_eq_true (attrsAt_desc _ _ k hk))]
      show (List.map (fun ki => x ++ [0] ++ [1] ++ [ki.2]) ((attrsAt b.length e.tag.attrs).zipIdx)).filter _ = _
      have hmap : (attrsAt b.length e.tag.attrs).zipIdx.map (fun ki : Node × Nat => x ++ [0] ++ [1] ++ [ki.2]) =
          e.tag.attrs.zipIdx.map (fun ai : Attr × Nat => x ++ [0] ++ [1] ++ [ai.2]) := by
        rw [show (fun ki : Node × Nat => x ++ [0] ++ [1] ++ [ki.2]) = (fun i => x ++ [0] ++ [1] ++ [i]) ∘ Prod.snd from rfl,
          show (fun ki : Attr × Nat => x ++ [0] ++ [1] ++ [ki.2]) = (fun i => x ++ [0] ++ [1] ++ [i]) ∘ Prod.snd from rfl,
          ← List.map_map, ← List.map_map, List.zipIdx_map_snd, List.zipIdx_map_snd, attrsAt_length]
      rw [hmap, List.filter_map]
      congr 1
      apply List.filter_congr
      intro ai hai
      obtain ⟨k1, k2, k3, _⟩ := attr_kids (hat _ b r 0 g1 hget ai hai)
      simp only [Function.comp]
      rw [k1]
      simp only [List.any_cons, List.any_nil, Bool.or_false, k2, k3]
      rw [Bool.eq_iff_iff, Bool.or_eq_true, xmlns_like, xmlns_like, decide_eq_true_eq]
    rw [hlist]
    obtain ⟨l, r1, r2⟩ := dict_attrs X d (x ++ [0] ++ [1]) (fun a => decide (NsLike a.name.chars ∨ NsLike a.val)) e.tag.attrs 0 b r []
      g1 hget (fun a ha => (htag.attrs a ha).name.2.1) (by simp)
    exact ⟨l, by simpa using r1, r2⟩

/-- **C87 (partial).** `get_xmlns` gives exactly the namespace declarations of the element, in order, when no attribute
value reads like the name of one. Missing: such values (`C87_value_violated`), and what `DElem.OK` excludes. -/
theorem C87_declarations_partial (X : Ext) (keep : List Char → Bool) (d : Doc) (x : Path) (e : DElem)
    (h : ElemAt keep d x e) (hv : ∀ a ∈ e.tag.attrs, ¬ NsLike a.val) :
    ∃ l, getXmlns X d x = .ok l ∧ l.map (entryText d) = (declared e.tag.attrs).map attrEntry := by
  obtain ⟨l, h1, h2⟩ := C87_exact X keep d x e h
  obtain ⟨_, _, _, _, hok⟩ := h
  have htag := dElem_tag_ok hok
  refine ⟨l, h1, ?_⟩
  rw [h2]
  unfold declared
  congr 1
  apply List.filter_congr
  intro a ha
  rw [decide_eq_decide, nsLike_name a (htag.attrs a ha).name]
  simp [hv a ha]

end Pawpaw.Props
