import Verif.Props.XmlWritten
/-!
# C85: attributes as written
-/
set_option linter.unusedSectionVars false
set_option linter.unusedSimpArgs false
namespace Pawpaw.Props
open Pawpaw Pawpaw.Xml Pawpaw.Regex XmlSpec TreeSpec RegexSpec

/-! ### What a match of the attribute pattern looks like -/

theorem lang_tagG_space {u : List Char} (h : Lang tagG u) : ' ' ∉ u := by
  obtain ⟨v, w, rfl, h1, h2⟩ := h
  have h2' := nmC_not ((lang_plus_chr nmC w).1 h2).2
  intro hm
  rcases List.mem_append.1 hm with hm | hm
  · rcases h1 with h1 | h1
    · obtain ⟨x, rfl, hx⟩ := lang_nsB h1
      have := nsC_space hx
      rcases List.mem_append.1 hm with hm | hm
      · exact this.1 hm
      · simp at hm
    · have h1 : v = [] := h1
      rw [h1] at hm
      simp at hm
  · exact h2'.1 hm

theorem lang_attr {u : List Char} (h : Lang attrRe u) : ∃ n x, u = n ++ '=' :: x ∧ ' ' ∉ n := by
  obtain ⟨v, w, rfl, h1, y, z, rfl, h2, _⟩ := h
  refine ⟨v, z, ?_, lang_tagG_space h1⟩
  rw [(lang_chr_eq '=' y).1 h2]
  rfl

/-- No attribute starts where a space comes before the next `=`. -/
theorem attr_fail {s t : List Char} (hs : '=' ∉ s) (i : Nat) : out attrRe ⟨i, s ++ ' ' :: t, []⟩ = [] := by
  refine out_nil attrRe_free ?_
  intro u w hu hl
  obtain ⟨n, x, rfl, hn⟩ := lang_attr hl
  dsimp only at hu
  rw [List.append_assoc] at hu
  exact no_cut hu.symm hn (by decide) hs

theorem attr_none {s : List Char} (hs : '=' ∉ s) (i : Nat) : out attrRe ⟨i, s, []⟩ = [] := by
  refine out_nil attrRe_free ?_
  intro u w hu hl
  obtain ⟨n, x, rfl, hn⟩ := lang_attr hl
  dsimp only at hu
  apply hs
  rw [hu]
  simp

/-- `="value"` and the closing of the attribute's group. -/
theorem value_run {v : List Char} (hne : v ≠ []) (hq : '"' ∉ v) (i : Nat) (r : List Char) (c : List (String × Nat × Nat))
    (k : St → List St) :
    outk valueG k ⟨i, '=' :: '"' :: v ++ '"' :: r, c⟩ =
      k ⟨i + v.length + 3, r, c ++ [("value", i + 2, i + 2 + v.length)]⟩ := by
  have hv : ∀ x ∈ v, valC x = true := by
    intro x hx
    unfold valC
    simp
    rintro rfl
    exact hq hx
  unfold valueG
  rw [outk_seq, List.cons_append, List.cons_append, outk_chr, if_pos (by rfl), outk_seq, outk_chr, if_pos (by rfl),
    outk_seq, outk_grp, outk_plus_run valC _ ?_ hne (i + 1 + 1) _ c hv (by simp [valC])]
  · rw [outk_chr, if_pos (by rfl)]
    have e : i + 1 + 1 + v.length + 1 = i + v.length + 3 := by omega
    rw [e]
  · intro j x w c' hx
    rw [outk_chr, if_neg]
    intro h
    rw [eq_of_beq h] at hx
    simp [valC] at hx

/-- What follows an attribute: either a space comes before the next `=` and the next colon, or there is no more of them. -/
def Fol (r : List Char) : Prop := (∃ s t, r = s ++ ' ' :: t ∧ '=' ∉ s ∧ ':' ∉ s) ∨ ('=' ∉ r ∧ ':' ∉ r)

theorem valueG_head {k : St → List St} {i : Nat} {w : List Char} {c : List (String × Nat × Nat)}
    (h : outk valueG k ⟨i, w, c⟩ ≠ []) : ∃ v r, w = '=' :: '"' :: v ++ '"' :: r ∧ v ≠ [] ∧ '"' ∉ v := by
  apply Classical.byContradiction
  intro hno
  apply h
  refine outk_nil (by simp [valueG, plus, Free]) ?_
  rintro u w' c' hu ⟨a, b, rfl, ha, a2, b2, rfl, ha2, a3, b3, rfl, ha3, hb3⟩
  exfalso
  apply hno
  have h3 := (lang_plus_chr valC a3).1 ha3
  dsimp only at hu
  refine ⟨a3, w', ?_, h3.1, ?_⟩
  · rw [hu, (lang_chr_eq '=' a).1 ha, (lang_chr_eq '"' a2).1 ha2, (lang_chr_eq '"' b3).1 hb3]
    simp
  · intro hm
    have := h3.2 _ hm
    simp [valC] at this

theorem split_first {x : Char} {v w s t : List Char} (h : v ++ x :: w = s ++ x :: t) (hv : x ∉ v) (hs : x ∉ s) :
    v = s ∧ w = t := by
  rcases List.append_eq_append_iff.1 h with ⟨a, h1, h2⟩ | ⟨a, h1, h2⟩
  · cases a with
    | nil => simp at h2; exact ⟨by simpa using h1.symm, h2⟩
    | cons y a =>
      simp only [List.cons_append, List.cons.injEq] at h2
      exact absurd (by rw [h1, h2.1]; simp) hs
  · cases a with
    | nil => simp at h2; exact ⟨by simpa using h1, h2.symm⟩
    | cons y a =>
      simp only [List.cons_append, List.cons.injEq] at h2
      exact absurd (by rw [h1, h2.1]; simp) hv

/-- A name without prefix is read as such: no prefix is found further on. -/
theorem attr_hun {a : Attr} (ha : a.OK) {r : List Char} (hr : Fol r) (k : St → List St) :
    a.name.pre = none → ∀ v u w, a.name.loc ++ ('=' :: '"' :: a.val ++ '"' :: r) = v ++ ':' :: (u ++ w) →
      (∀ c ∈ v, nsC c = true) → u ≠ [] → (∀ c ∈ u, nmC c = true) → ∀ i c, outk valueG k ⟨i, w, c⟩ = [] := by
  intro hp v u w h hv hu hun i c
  apply Classical.byContradiction
  intro hne
  obtain ⟨v2, r2, rfl, _, hv2⟩ := valueG_head hne
  have hcol := name_not ha.name.2 ':' rfl
  have hvs := nsC_space hv
  have hus := nmC_not hun
  -- the colon is past the name
  have hsplit : ∃ z, v = a.name.loc ++ z ∧ '=' :: '"' :: a.val ++ '"' :: r = z ++ ':' :: (u ++ ('=' :: '"' :: v2 ++ '"' :: r2)) := by
    rcases List.append_eq_append_iff.1 h with ⟨z, h1, h2⟩ | ⟨z, h1, h2⟩
    · exact ⟨z, h1, h2⟩
    · cases z with
      | nil => exact ⟨[], by simpa using h1.symm, by simpa using h2.symm⟩
      | cons y z =>
        simp only [List.cons_append, List.cons.injEq] at h2
        exact absurd (by rw [h1, ← h2.1]; simp) hcol
  obtain ⟨z, rfl, h2⟩ := hsplit
  -- past `="`
  obtain ⟨y, rfl, h3⟩ : ∃ y, z = '=' :: '"' :: y ∧ a.val ++ '"' :: r = y ++ ':' :: (u ++ ('=' :: '"' :: v2 ++ '"' :: r2)) := by
    cases z with
    | nil => simp at h2
    | cons z1 z =>
      cases z with
      | nil => simp at h2
      | cons z2 z =>
        simp only [List.cons_append, List.cons.injEq] at h2
        exact ⟨z, by rw [← h2.1, ← h2.2.1], h2.2.2⟩
  have hys : ' ' ∉ y ∧ ':' ∉ y :=
    ⟨fun g => hvs.1 (by simp [g]), fun g => hvs.2 (by simp [g])⟩
  by_cases hq : '"' ∈ y
  · -- the colon is past the value: a space comes before it
    obtain ⟨y1, y2, rfl, hy1⟩ := List.eq_append_cons_of_mem hq
    rw [List.append_assoc, List.cons_append] at h3
    obtain ⟨_, h5⟩ := split_first h3 ha.quote hy1
    have hy2 : ' ' ∉ y2 ∧ ':' ∉ y2 := ⟨fun g => hys.1 (by simp [g]), fun g => hys.2 (by simp [g])⟩
    rcases hr with ⟨s, t, rfl, _, hs⟩ | hr
    · exact no_cut h5.symm hy2.1 (by decide) hs
    · exact hr.2 (by rw [h5]; simp)
  · -- within the value: it is misread
    apply ha.clear hp
    have h6 : y ++ ':' :: (u ++ ('=' :: '"' :: v2 ++ '"' :: r2)) = (y ++ ':' :: (u ++ ['='])) ++ '"' :: (v2 ++ '"' :: r2) := by
      simp
    rw [h6] at h3
    by_cases hqu : '"' ∈ u
    · -- the value ends within what is taken for the name; then `=` must be close
      obtain ⟨u1, u2, rfl, hu1⟩ := List.eq_append_cons_of_mem hqu
      rw [← h6] at h3
      have h7 : y ++ ':' :: (u1 ++ '"' :: u2 ++ ('=' :: '"' :: v2 ++ '"' :: r2)) =
          (y ++ ':' :: u1) ++ '"' :: (u2 ++ ('=' :: '"' :: v2 ++ '"' :: r2)) := by simp
      rw [h7] at h3
      obtain ⟨_, h8⟩ := split_first h3 ha.quote (by simp [hq, hu1])
      exfalso
      rcases hr with ⟨s, t, rfl, hs, _⟩ | hr
      · exact no_cut (v := u2) (w := '"' :: v2 ++ '"' :: r2) (by rw [h8]; rfl) (fun g => hus.1 (by simp [g])) (by decide) hs
      · exact hr.1 (by rw [h8]; simp)
    · obtain ⟨h8, _⟩ := split_first h3 ha.quote (by simp [hq, hqu])
      exact ⟨y, u, by rw [h8]; simp, hys.1, hys.2, hu,
        fun c hc => by have := hun c hc; unfold nmC at this; simp at this; exact ⟨this.1.1.1, this.1.1.2, this.1.2, this.2⟩⟩

/-- An attribute as written. -/
theorem attr_hit {a : Attr} (ha : a.OK) {r : List Char} (hr : Fol r) (i : Nat) :
    (out attrRe ⟨i, a.body ++ r, []⟩).head? = some ⟨i + a.body.length, r,
      nameCaps i (a.name.pre.map List.length) (i + a.name.chars.length) ++
        [("value", i + a.name.chars.length + 2, i + a.body.length - 1), ("attribute", i, i + a.body.length)]⟩ := by
  have hb : a.body ++ r = a.name.chars ++ ('=' :: '"' :: a.val ++ '"' :: r) := by simp [Attr.body]
  have hl : a.body.length = a.name.chars.length + a.val.length + 3 := by simp [Attr.body]; omega
  rw [← outk_pure]
  unfold attrRe
  rw [outk_grp, outk_seq, hb]
  have hv : ∀ c, outk valueG (fun st' => [{ st' with caps := st'.caps ++ [("attribute", i, st'.pos)] }])
      ⟨i + a.name.chars.length, '=' :: '"' :: a.val ++ '"' :: r, c⟩ = [⟨i + a.body.length, r, c ++
        [("value", i + a.name.chars.length + 2, i + a.body.length - 1), ("attribute", i, i + a.body.length)]⟩] := by
    intro c
    rw [value_run ha.val ha.quote]
    dsimp only
    rw [hl]
    have e1 : i + a.name.chars.length + a.val.length + 3 = i + (a.name.chars.length + a.val.length + 3) := by omega
    have e2 : i + a.name.chars.length + 2 + a.val.length = i + (a.name.chars.length + a.val.length + 3) - 1 := by omega
    rw [e1, e2]
    simp
  rw [tagG_head _ ha.name i _ [] (by simp [nmC]) (by rw [hv]; simp) (attr_hun ha hr _), hv]
  simp


/-! ### All attributes of a start tag -/

/-- Nothing is found in a stretch without `=`, if no `=` comes before the next space. -/
theorem attr_skips {u r : List Char} (hu : '=' ∉ u) (hr : Fol r) (i : Nat) :
    finditer attrRe i (u ++ r) = finditer attrRe (i + u.length) r := by
  refine finditer_skips attrRe u i r ?_
  intro a b j hab _
  have hb : '=' ∉ b := fun g => hu (by rw [hab]; simp [g])
  rcases hr with ⟨s, t, rfl, hs, _⟩ | hr
  · rw [← List.append_assoc]
    exact attr_fail (by simp [hb, hs]) j
  · exact attr_none (by simp [hb, hr.1]) j

theorem ws_not {s : List Char} (h : IsWs s) (d : Char) (hd : d ≠ ' ' ∧ d ≠ '\t' ∧ d ≠ '\n' ∧ d ≠ '\r') : d ∉ s := by
  intro g
  rcases h d g with h | h | h | h
  · exact hd.1 h
  · exact hd.2.1 h
  · exact hd.2.2.1 h
  · exact hd.2.2.2 h

/-- What the pattern finds in attributes written from `i`. -/
def attrFounds (i : Nat) : List Attr → List Found
  | [] => []
  | a :: as =>
    ⟨i + a.sep.length, i + a.chars.length,
      nameCaps (i + a.sep.length) (a.name.pre.map List.length) (i + a.sep.length + a.name.chars.length) ++
        [("value", i + a.sep.length + a.name.chars.length + 2, i + a.chars.length - 1),
          ("attribute", i + a.sep.length, i + a.chars.length)]⟩ :: attrFounds (i + a.chars.length) as

theorem sep_fol {a : Attr} (ha : a.OK) (r : List Char) : Fol (a.chars ++ r) := by
  obtain ⟨t, ht⟩ := List.getLast?_eq_some_iff.1 ha.space
  refine Or.inl ⟨t, a.body ++ r, by simp [Attr.chars, ht], ?_, ?_⟩
  · intro g
    exact ws_not ha.sep '=' (by decide) (by rw [ht]; simp [g])
  · intro g
    exact ws_not ha.sep ':' (by decide) (by rw [ht]; simp [g])

theorem attrs_fol {as : List Attr} (h : ∀ a ∈ as, a.OK) {e : List Char} (he : '=' ∉ e ∧ ':' ∉ e) :
    Fol (attrsChars as ++ e) := by
  cases as with
  | nil => exact Or.inr he
  | cons a as =>
    rw [attrsChars, List.append_assoc]
    exact sep_fol (h a (by simp)) _

theorem attrs_found {e : List Char} (he : '=' ∉ e ∧ ':' ∉ e) : ∀ (as : List Attr) (i : Nat), (∀ a ∈ as, a.OK) →
    finditer attrRe i (attrsChars as ++ e) = attrFounds i as
  | [], i, _ => by
    refine finditer_none ?_
    rintro j b ⟨a, hab⟩
    refine attr_none ?_ j
    intro g
    apply he.1
    have : attrsChars [] ++ e = e := rfl
    rw [this] at hab
    rw [← hab]
    simp [g]
  | a :: as, i, h => by
    have ha := h a (by simp)
    have hr := attrs_fol (fun b hb => h b (List.mem_cons_of_mem _ hb)) he
    have e0 : attrsChars (a :: as) ++ e = a.sep ++ (a.body ++ (attrsChars as ++ e)) := by
      simp [attrsChars, Attr.chars]
    have hskip : finditer attrRe i (a.sep ++ (a.body ++ (attrsChars as ++ e))) =
        finditer attrRe (i + a.sep.length) (a.body ++ (attrsChars as ++ e)) := by
      refine finditer_skips attrRe a.sep i _ ?_
      intro b c j hbc hc
      obtain ⟨t, ht⟩ := List.getLast?_eq_some_iff.1 ha.space
      rcases List.eq_nil_or_concat c with rfl | ⟨c', z, rfl⟩
      · exact absurd rfl hc
      · rw [ht, List.concat_eq_append, ← List.append_assoc] at hbc
        have hz := List.append_inj' hbc rfl
        have : z = ' ' := by simpa using hz.2.symm
        subst this
        rw [List.concat_eq_append, List.append_assoc, List.singleton_append]
        refine attr_fail ?_ j
        intro g
        refine ws_not ha.sep '=' (by decide) ?_
        rw [ht, hz.1]
        simp [g]
    have hlen : a.chars.length = a.sep.length + a.body.length := by simp [Attr.chars]
    have hpos : 0 < a.body.length := by simp [Attr.body]; omega
    rw [e0, hskip]
    have := finditer_hit attrRe_free (i + a.sep.length) _ _ (attr_hit ha hr (i + a.sep.length)) (by dsimp only; omega)
    rw [this, attrFounds]
    dsimp only
    rw [attrs_found he as _ (fun b hb => h b (List.mem_cons_of_mem _ hb)), hlen, Nat.add_assoc i]

/-- The attributes found within a start tag. -/
theorem stag_attrs {t : STag} (ht : t.OK) {e : List Char} (he : e = ['>'] ∨ e = ['/', '>']) (i : Nat) :
    finditer attrRe i (t.chars e) = attrFounds (i + 1 + t.name.chars.length) t.attrs := by
  have htr : '=' ∉ t.trail ++ e ∧ ':' ∉ t.trail ++ e := by
    have h1 := ws_not ht.trail '=' (by decide)
    have h2 := ws_not ht.trail ':' (by decide)
    rcases he with rfl | rfl <;> simp [h1, h2]
  have hf := attrs_fol ht.attrs htr
  have e0 : t.chars e = ('<' :: t.name.chars) ++ (attrsChars t.attrs ++ (t.trail ++ e)) := by
    simp [STag.chars]
  rw [e0, attr_skips (by
      have := qname_not ht.name '=' rfl (by decide)
      simp [this]) hf, attrs_found htr _ _ ht.attrs, List.length_cons]
  congr 1
  omega

end Pawpaw.Props
