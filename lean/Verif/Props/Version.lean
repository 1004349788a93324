import Verif.Model.Version
import Verif.Spec.Version
import Verif.Lemmas.Regex
/-!
# C84: `Version.is_canonical`
-/
set_option linter.unusedSectionVars false
namespace Pawpaw.Props
open Pawpaw Pawpaw.Version Pawpaw.Regex RegexSpec VersionSpec

theorem digitChar_d {n : Nat} (h : n < 10) : n.digitChar.toNat = '0'.toNat + n := by
  have : n = 0 ∨ n = 1 ∨ n = 2 ∨ n = 3 ∨ n = 4 ∨ n = 5 ∨ n = 6 ∨ n = 7 ∨ n = 8 ∨ n = 9 := by omega
  rcases this with h | h | h | h | h | h | h | h | h | h <;> (subst h; rfl)

theorem toNat_inj {c d : Char} (h : c.toNat = d.toNat) : c = d := by
  apply Char.ext
  exact UInt32.toNat_inj.1 h

theorem d09_iff (c : Char) : d09 c = true ↔ ∃ n, n < 10 ∧ c = n.digitChar := by
  have h0 : '0'.toNat = 48 := rfl
  have h9 : '9'.toNat = 57 := rfl
  unfold d09
  rw [Bool.and_eq_true, decide_eq_true_iff, decide_eq_true_iff]
  constructor
  · intro h
    refine ⟨c.toNat - 48, by omega, toNat_inj ?_⟩
    rw [digitChar_d (by omega)]
    omega
  · rintro ⟨n, hn, rfl⟩
    rw [digitChar_d hn]
    omega

theorem d19_iff (c : Char) : d19 c = true ↔ ∃ n, 0 < n ∧ n < 10 ∧ c = n.digitChar := by
  have h0 : '1'.toNat = 49 := rfl
  have h00 : '0'.toNat = 48 := rfl
  have h9 : '9'.toNat = 57 := rfl
  unfold d19
  rw [Bool.and_eq_true, decide_eq_true_iff, decide_eq_true_iff]
  constructor
  · intro h
    refine ⟨c.toNat - 48, by omega, by omega, toNat_inj ?_⟩
    rw [digitChar_d (by omega)]
    omega
  · rintro ⟨n, h1, hn, rfl⟩
    rw [digitChar_d hn]
    omega

/-- A positive number in decimal is a digit other than 0 followed by digits. -/
theorem lang_posNum (u : List Char) : Lang posNum u ↔ ∃ n, 0 < n ∧ u = dec n := by
  constructor
  · rintro ⟨v, w, rfl, ⟨c, hc, rfl⟩, hw⟩
    have hw := (lang_many_chr d09 w).1 hw
    obtain ⟨m, h1, h2, rfl⟩ := (d19_iff c).1 hc
    have key : ∀ (w : List Char) (n : Nat), 0 < n → (∀ c ∈ w, d09 c = true) →
        ∃ k, 0 < k ∧ Nat.toDigits 10 n ++ w = Nat.toDigits 10 k := by
      intro w
      induction w with
      | nil => intro n hn _; exact ⟨n, hn, by simp⟩
      | cons d w ih =>
        intro n hn h
        obtain ⟨e, he, rfl⟩ := (d09_iff d).1 (h d List.mem_cons_self)
        have e1 : Nat.toDigits 10 n ++ [e.digitChar] = Nat.toDigits 10 (10 * n + e) := by
          rw [← Nat.toDigits_append_toDigits (by decide) hn he, Nat.toDigits_of_lt_base he]
        obtain ⟨k, hk, ek⟩ := ih (10 * n + e) (by omega) (fun c hc => h c (List.mem_cons_of_mem _ hc))
        refine ⟨k, hk, ?_⟩
        rw [← ek, ← e1, List.append_assoc]
        rfl
    obtain ⟨k, hk, ek⟩ := key w m h1 hw
    refine ⟨k, hk, ?_⟩
    rw [dec, ← ek, Nat.toDigits_of_lt_base h2]
  · rintro ⟨n, hn, rfl⟩
    have key : ∀ n : Nat, 0 < n → ∃ c w, Nat.toDigits 10 n = c :: w ∧ d19 c = true ∧ ∀ x ∈ w, d09 x = true := by
      intro n
      induction n using Nat.strongRecOn with
      | ind n ih =>
        intro hn
        by_cases hlt : n < 10
        · refine ⟨n.digitChar, [], Nat.toDigits_of_lt_base hlt, (d19_iff _).2 ⟨n, hn, hlt, rfl⟩, by simp⟩
        · obtain ⟨c, w, e, h1, h2⟩ := ih (n / 10) (by omega) (by omega)
          refine ⟨c, w ++ [(n % 10).digitChar], ?_, h1, ?_⟩
          · rw [Nat.toDigits_of_base_le (by decide) (by omega), e]
            rfl
          · intro x hx
            rcases List.mem_append.1 hx with hx | hx
            · exact h2 x hx
            · rw [List.mem_singleton] at hx
              subst hx
              exact (d09_iff _).2 ⟨n % 10, Nat.mod_lt _ (by decide), rfl⟩
    obtain ⟨c, w, e, h1, h2⟩ := key n hn
    rw [dec, e]
    exact ⟨[c], w, rfl, ⟨c, h1, rfl⟩, (lang_many_chr d09 w).2 h2⟩

theorem lang_num (u : List Char) : Lang num u ↔ ∃ n, u = dec n := by
  show Lang (lit ['0']) u ∨ Lang posNum u ↔ _
  rw [lang_lit, lang_posNum]
  constructor
  · rintro (rfl | ⟨n, _, rfl⟩)
    · exact ⟨0, rfl⟩
    · exact ⟨n, rfl⟩
  · rintro ⟨n, rfl⟩
    by_cases h : n = 0
    · subst h; exact .inl rfl
    · exact .inr ⟨n, by omega, rfl⟩

theorem lang_epoch (u : List Char) : Lang epoch u ↔ ∃ n, u = if n = 0 then [] else dec n ++ ['!'] := by
  rw [epoch, lang_opt]
  constructor
  · rintro (⟨v, w, rfl, hv, hw⟩ | rfl)
    · obtain ⟨n, hn, rfl⟩ := (lang_posNum v).1 hv
      rw [lang_lit] at hw
      exact ⟨n, by rw [if_neg (by omega), hw]⟩
    · exact ⟨0, rfl⟩
  · rintro ⟨n, rfl⟩
    by_cases h : n = 0
    · exact .inr (by rw [if_pos h])
    · rw [if_neg h]
      exact .inl ⟨_, _, rfl, (lang_posNum _).2 ⟨n, by omega, rfl⟩, (lang_lit _ _).2 rfl⟩

/-- Repetition of texts given by parameters. -/
theorem many_param {β : Type} {L : List Char → Prop} {Q : β → Prop} {f : β → List Char}
    (h : ∀ u, L u ↔ ∃ b, Q b ∧ u = f b) (u : List Char) :
    Many L u ↔ ∃ bs : List β, (∀ b ∈ bs, Q b) ∧ u = bs.flatMap f := by
  constructor
  · intro hm
    induction hm with
    | nil => exact ⟨[], by simp, rfl⟩
    | @cons v w hv _ ih =>
      obtain ⟨b, hb, rfl⟩ := (h v).1 hv
      obtain ⟨bs, h1, rfl⟩ := ih
      refine ⟨b :: bs, ?_, rfl⟩
      intro x hx
      rcases List.mem_cons.1 hx with rfl | hx
      · exact hb
      · exact h1 x hx
  · rintro ⟨bs, h1, rfl⟩
    induction bs with
    | nil => exact .nil
    | cons b bs ih =>
      rw [List.flatMap_cons]
      exact .cons ((h _).2 ⟨b, h1 b List.mem_cons_self, rfl⟩) (ih (fun x hx => h1 x (List.mem_cons_of_mem _ hx)))

theorem lang_release (u : List Char) :
    Lang release u ↔ ∃ n ns, u = dec n ++ List.flatMap (fun n => '.' :: dec n) ns := by
  have h1 : ∀ u, Lang (.seq (lit ['.']) num) u ↔ ∃ n : Nat, True ∧ u = '.' :: dec n := by
    intro u
    constructor
    · rintro ⟨v, w, rfl, hv, hw⟩
      rw [lang_lit] at hv
      obtain ⟨n, rfl⟩ := (lang_num w).1 hw
      exact ⟨n, trivial, by rw [hv]; rfl⟩
    · rintro ⟨n, -, rfl⟩
      exact ⟨['.'], dec n, rfl, (lang_lit _ _).2 rfl, (lang_num _).2 ⟨n, rfl⟩⟩
  constructor
  · rintro ⟨v, w, rfl, hv, hw⟩
    obtain ⟨n, rfl⟩ := (lang_num v).1 hv
    obtain ⟨ns, -, rfl⟩ := (many_param h1 w).1 hw
    exact ⟨n, ns, rfl⟩
  · rintro ⟨n, ns, rfl⟩
    exact ⟨_, _, rfl, (lang_num _).2 ⟨n, rfl⟩, (many_param h1 _).2 ⟨ns, by simp, rfl⟩⟩

theorem lang_tagged (t u : List Char) : Lang (opt (.seq (lit t) num)) u ↔
    ∃ o : Option Nat, u = match o with | none => [] | some n => t ++ dec n := by
  rw [lang_opt]
  constructor
  · rintro (⟨v, w, rfl, hv, hw⟩ | rfl)
    · rw [lang_lit] at hv
      obtain ⟨n, rfl⟩ := (lang_num w).1 hw
      exact ⟨some n, by rw [hv]⟩
    · exact ⟨none, rfl⟩
  · rintro ⟨o, rfl⟩
    cases o with
    | none => exact .inr rfl
    | some n => exact .inl ⟨_, _, rfl, (lang_lit _ _).2 rfl, (lang_num _).2 ⟨n, rfl⟩⟩

theorem lang_pre (u : List Char) : Lang pre u ↔
    ∃ o : Option (Phase × Nat), u = match o with | none => [] | some (p, n) => p.text ++ dec n := by
  rw [pre, lang_opt]
  have hp : ∀ v, Lang (.alt (lit ['a']) (.alt (lit ['b']) (lit ['r', 'c']))) v ↔ ∃ p : Phase, v = p.text := by
    intro v
    show Lang (lit ['a']) v ∨ Lang (lit ['b']) v ∨ Lang (lit ['r', 'c']) v ↔ _
    rw [lang_lit, lang_lit, lang_lit]
    constructor
    · rintro (rfl | rfl | rfl)
      · exact ⟨.a, rfl⟩
      · exact ⟨.b, rfl⟩
      · exact ⟨.rc, rfl⟩
    · rintro ⟨p, rfl⟩
      cases p
      · exact .inl rfl
      · exact .inr (.inl rfl)
      · exact .inr (.inr rfl)
  constructor
  · rintro (⟨v, w, rfl, hv, hw⟩ | rfl)
    · obtain ⟨p, rfl⟩ := (hp v).1 hv
      obtain ⟨n, rfl⟩ := (lang_num w).1 hw
      exact ⟨some (p, n), rfl⟩
    · exact ⟨none, rfl⟩
  · rintro ⟨o, rfl⟩
    cases o with
    | none => exact .inr rfl
    | some q => exact .inl ⟨_, _, rfl, (hp _).2 ⟨q.1, rfl⟩, (lang_num _).2 ⟨q.2, rfl⟩⟩

theorem low_iff (c : Char) : low c = true ↔
    ('a'.toNat ≤ c.toNat ∧ c.toNat ≤ 'z'.toNat) ∨ ('0'.toNat ≤ c.toNat ∧ c.toNat ≤ '9'.toNat) := by
  unfold low d09
  simp only [Bool.or_eq_true, Bool.and_eq_true, decide_eq_true_eq]

theorem lang_segment (u : List Char) : Lang (plus (.chr low)) u ↔ Segment u := by
  rw [lang_plus_chr, Segment]
  simp only [low_iff]

/-- The local versions. -/
theorem lang_local (u : List Char) : Lang localPart u ↔
    ∃ o : Option (List Char × List (Char × List Char)),
      (∀ s ss, o = some (s, ss) → Segment s ∧ ∀ q ∈ ss, (q.1 = '-' ∨ q.1 = '_' ∨ q.1 = '.') ∧ Segment q.2) ∧
      u = match o with | none => [] | some (s, ss) => '+' :: (s ++ ss.flatMap (fun q => q.1 :: q.2)) := by
  have h1 : ∀ u, Lang (.seq (.chr sep) (plus (.chr low))) u ↔
      ∃ q : Char × List Char, ((q.1 = '-' ∨ q.1 = '_' ∨ q.1 = '.') ∧ Segment q.2) ∧ u = q.1 :: q.2 := by
    intro u
    constructor
    · rintro ⟨v, w, rfl, ⟨c, hc, rfl⟩, hw⟩
      rw [lang_segment] at hw
      refine ⟨(c, w), ⟨?_, hw⟩, rfl⟩
      simpa [sep, or_assoc] using hc
    · rintro ⟨q, ⟨h2, h3⟩, rfl⟩
      exact ⟨[q.1], q.2, rfl, ⟨q.1, by simpa [sep, or_assoc] using h2, rfl⟩, (lang_segment _).2 h3⟩
  rw [localPart, lang_opt]
  constructor
  · rintro (⟨v, w, rfl, hv, ⟨x, y, rfl, hx, hy⟩⟩ | rfl)
    · rw [lang_lit] at hv
      rw [lang_segment] at hx
      obtain ⟨ss, h2, rfl⟩ := (many_param h1 y).1 hy
      refine ⟨some (x, ss), ?_, by rw [hv]; rfl⟩
      intro s ss' he
      cases he
      exact ⟨hx, h2⟩
    · exact ⟨none, (by intro s ss h; cases h), rfl⟩
  · rintro ⟨o, ho, rfl⟩
    cases o with
    | none => exact .inr rfl
    | some q =>
      obtain ⟨s, ss⟩ := q
      obtain ⟨h2, h3⟩ := ho s ss rfl
      exact .inl ⟨['+'], _, rfl, (lang_lit _ _).2 rfl, s, _, rfl, (lang_segment _).2 h2, (many_param h1 _).2 ⟨ss, h3, rfl⟩⟩

theorem lang_canonical (u : List Char) :
    Lang (.seq epoch (.seq release (.seq pre (.seq post (.seq dev localPart))))) u ↔
      ∃ v : Ver, v.Proper ∧ u = v.text := by
  constructor
  · rintro ⟨u1, x, rfl, h1, u2, x, rfl, h2, u3, x, rfl, h3, u4, x, rfl, h4, u5, u6, rfl, h5, h6⟩
    obtain ⟨e, rfl⟩ := (lang_epoch u1).1 h1
    obtain ⟨n, ns, rfl⟩ := (lang_release u2).1 h2
    obtain ⟨p, rfl⟩ := (lang_pre u3).1 h3
    obtain ⟨po, rfl⟩ := (lang_tagged _ u4).1 h4
    obtain ⟨de, rfl⟩ := (lang_tagged _ u5).1 h5
    obtain ⟨lo, hlo, rfl⟩ := (lang_local u6).1 h6
    refine ⟨⟨e, n, ns, p, po, de, lo⟩, hlo, ?_⟩
    simp only [Ver.text, List.append_assoc]
    rfl
  · rintro ⟨⟨e, n, ns, p, po, de, lo⟩, hlo, rfl⟩
    refine ⟨_, _, ?_, (lang_epoch _).2 ⟨e, rfl⟩, _, _, rfl, (lang_release _).2 ⟨n, ns, rfl⟩, _, _, rfl,
      (lang_pre _).2 ⟨p, rfl⟩, _, _, rfl, (lang_tagged _ _).2 ⟨po, rfl⟩, _, _, rfl, (lang_tagged _ _).2 ⟨de, rfl⟩,
      (lang_local _).2 ⟨lo, hlo, rfl⟩⟩
    simp only [Ver.text, List.append_assoc]
    rfl

/-- What `is_canonical` should decide: whether the text is the normal form of a PEP 440 version. -/
def CanonicalMeansNormal : Prop := ∀ s, isCanonical s = true ↔ ∃ v : Ver, v.Normal ∧ s = v.text

/-- **C84.** What it decides, for every text: whether it is the text of a version, local segments being separated by
any of `-`, `_`, `.`; or such a text with one newline at its end. -/
theorem C84_exact (s : List Char) :
    isCanonical s = true ↔ ∃ v : Ver, v.Proper ∧ (s = v.text ∨ s = v.text ++ ['\n']) := by
  unfold isCanonical canonicalRe
  rw [anchored _ (by simp [Free, epoch, release, pre, post, dev, localPart, opt, num, posNum, lit, many, plus])]
  constructor
  · rintro (h | ⟨u, rfl, h⟩)
    · obtain ⟨v, hv, rfl⟩ := (lang_canonical s).1 h
      exact ⟨v, hv, .inl rfl⟩
    · obtain ⟨v, hv, rfl⟩ := (lang_canonical u).1 h
      exact ⟨v, hv, .inr rfl⟩
  · rintro ⟨v, hv, rfl | rfl⟩
    · exact .inl ((lang_canonical _).2 ⟨v, hv, rfl⟩)
    · exact .inr ⟨_, rfl, (lang_canonical _).2 ⟨v, hv, rfl⟩⟩

theorem dec_digit {n : Nat} {c : Char} (h : c ∈ dec n) : c.isDigit = true :=
  Nat.isDigit_of_mem_toDigits (by decide) (by decide) h

/-- No version text has a newline. -/
theorem text_no_newline (v : Ver) (hv : v.Proper) : '\n' ∉ v.text := by
  have hd : ∀ n, '\n' ∉ dec n := fun n h => absurd (dec_digit h) (by decide)
  have hs : ∀ s, Segment s → '\n' ∉ s := by
    intro s hs h
    have := hs.2 '\n' h
    exact absurd this (by decide)
  intro h
  simp only [Ver.text, List.mem_append] at h
  rcases h with ((((h | (h | h)) | h) | h) | h) | h
  · split at h
    · cases h
    · rcases List.mem_append.1 h with h | h
      · exact hd _ h
      · exact absurd h (by decide)
  · exact hd _ h
  · obtain ⟨n, -, h⟩ := List.mem_flatMap.1 h
    rcases List.mem_cons.1 h with h | h
    · exact absurd h (by decide)
    · exact hd _ h
  · split at h
    · cases h
    · rename_i p n _
      rcases List.mem_append.1 h with h | h
      · cases p <;> exact absurd h (by decide)
      · exact hd _ h
  · split at h
    · cases h
    · rcases List.mem_append.1 h with h | h
      · exact absurd h (by decide)
      · exact hd _ h
  · split at h
    · cases h
    · rcases List.mem_append.1 h with h | h
      · exact absurd h (by decide)
      · exact hd _ h
  · split at h
    · cases h
    · rename_i s ss he
      obtain ⟨h1, h2⟩ := hv s ss he
      rcases List.mem_cons.1 h with h | h
      · exact absurd h (by decide)
      · rcases List.mem_append.1 h with h | h
        · exact hs s h1 h
        · obtain ⟨q, hq, h⟩ := List.mem_flatMap.1 h
          obtain ⟨h3, h4⟩ := h2 q hq
          rcases List.mem_cons.1 h with h | h
          · rw [← h] at h3
            exact absurd h3 (by decide)
          · exact hs _ h4 h

/-- **C84.** Every canonical text with a newline added is accepted too, though it is no version. -/
theorem C84_newline_violated (v : Ver) (hv : v.Proper) :
    isCanonical (v.text ++ ['\n']) = true ∧ ¬ ∃ w : Ver, w.Proper ∧ v.text ++ ['\n'] = w.text := by
  refine ⟨(C84_exact _).2 ⟨v, hv, .inr rfl⟩, ?_⟩
  rintro ⟨w, hw, h⟩
  exact text_no_newline w hw (h ▸ by simp)

/-- **C84.** So it does not decide normal form. -/
theorem C84_canonical_violated : ¬ CanonicalMeansNormal := by
  intro h
  let v : Ver := ⟨0, 1, [0], none, none, none, none⟩
  have hv : v.Proper := by intro s ss he; cases he
  obtain ⟨h1, h2⟩ := C84_newline_violated v hv
  obtain ⟨w, hw, e⟩ := (h _).1 h1
  exact h2 ⟨w, hw.1, e⟩

/-- **C84.** What holds: every normal text is accepted; and an accepted text without newline whose local version, if
any, has no `-` and no `_` is normal. -/
theorem C84_canonical_partial (s : List Char) :
    ((∃ v : Ver, v.Normal ∧ s = v.text) → isCanonical s = true) ∧
    (isCanonical s = true → '\n' ∉ s → '-' ∉ s → '_' ∉ s → ∃ v : Ver, v.Normal ∧ s = v.text) := by
  constructor
  · rintro ⟨v, hv, rfl⟩
    exact (C84_exact _).2 ⟨v, hv.1, .inl rfl⟩
  · intro h h1 h2 h3
    obtain ⟨v, hv, rfl | rfl⟩ := (C84_exact s).1 h
    · refine ⟨v, ⟨hv, ?_⟩, rfl⟩
      intro t ts ht q hq
      have hm : q.1 ∈ v.text := by
        simp only [Ver.text, List.mem_append]
        right
        rw [ht]
        simp only
        refine List.mem_cons_of_mem _ (List.mem_append_right _ ?_)
        exact List.mem_flatMap.2 ⟨q, hq, List.mem_cons_self⟩
      rcases ((hv t ts ht).2 q hq).1 with h | h | h
      · exact absurd (h ▸ hm) h2
      · exact absurd (h ▸ hm) h3
      · exact h
    · exact absurd (by simp) h1

section Examples
private def exV : Ver := ⟨2, 1, [0, 12], some (.rc, 3), some 4, some 0, some ("abc".toList, [('.', "7z".toList)])⟩
example : String.ofList exV.text = "2!1.0.12rc3.post4.dev0+abc.7z" := by decide
example : exV.Normal := by
  refine ⟨?_, ?_⟩
  · intro s ss h
    cases h
    simp [Segment]
  · intro s ss h
    cases h
    simp
example : isCanonical "1.0.2".toList = true := by decide
example : isCanonical "1.02".toList = false := by decide
end Examples

end Pawpaw.Props
