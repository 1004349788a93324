import Verif.Props.NlpWords
import Verif.Lemmas.RegexSem
/-!
# C95: where sentences end
-/
set_option linter.unusedSectionVars false
set_option linter.unusedSimpArgs false
namespace Pawpaw.Props
open Pawpaw Pawpaw.Regex Pawpaw.NumberRe Pawpaw.NlpRe RegexSpec NumberSpec NlpSpec NlpTextSpec TreeSpec SpanSpec ArborSpec
open Pawpaw.Nlp

variable {K : Classes} {text : List Char} {lo i : Nat}

/-! ### Languages -/

theorem lang_oneOf (l : List Char) (u : List Char) : Lang (oneOf l) u ↔ ∃ c, u = [c] ∧ c ∈ l := by
  constructor
  · rintro ⟨c, hc, rfl⟩; exact ⟨c, rfl, of_decide_eq_true hc⟩
  · rintro ⟨c, rfl, hc⟩; exact ⟨c, by simpa using hc, rfl⟩

theorem lang_many_oneOf (l u : List Char) : Lang (many (oneOf l)) u ↔ ∀ c ∈ u, c ∈ l := by
  unfold oneOf
  rw [lang_many_chr]
  simp

theorem lang_ws (u : List Char) : Lang ws u ↔ Ws1 u := by
  show Lang (lit ['\r', '\n']) u ∨ Lang (oneOf ('\n' :: blanks)) u ↔ _
  rw [lang_lit, lang_oneOf]
  unfold Ws1
  simp only [List.mem_cons]
  exact Iff.rfl

theorem lang_anyLit : ∀ (l : List (List Char)) (u : List Char), Lang (anyLit l) u ↔ u ∈ l
  | [], u => by
    show (∃ c, false = true ∧ u = [c]) ↔ _
    simp
  | [t], u => by
    show Lang (lit t) u ↔ _
    rw [lang_lit]; simp
  | t :: t' :: ts, u => by
    show Lang (lit t) u ∨ Lang (anyLit (t' :: ts)) u ↔ _
    rw [lang_lit, lang_anyLit (t' :: ts) u]
    simp

theorem free_anyLit : ∀ l : List (List Char), Free (anyLit l)
  | [] => trivial
  | [t] => free_lit t
  | t :: t' :: ts => ⟨free_lit t, free_anyLit (t' :: ts)⟩

theorem free_atLeast {a : Re} (h : Free a) : ∀ n, Free (atLeast n a)
  | 0 => h
  | n + 1 => ⟨h, free_atLeast h n⟩

theorem lang_atLeast (a : Re) : ∀ (n : Nat) (u : List Char), Lang (atLeast n a) u ↔
    ∃ zs : List (List Char), u = zs.flatten ∧ n ≤ zs.length ∧ ∀ z ∈ zs, Lang a z
  | 0, u => by
    show Many (Lang a) u ↔ _
    rw [many_iff]
    constructor
    · rintro ⟨zs, h1, h2⟩; exact ⟨zs, h2, Nat.zero_le _, h1⟩
    · rintro ⟨zs, h1, _, h2⟩; exact ⟨zs, h2, h1⟩
  | n + 1, u => by
    show (∃ v w, u = v ++ w ∧ Lang a v ∧ Lang (atLeast n a) w) ↔ _
    simp only [lang_atLeast a n]
    constructor
    · rintro ⟨v, _, rfl, hv, zs, rfl, h1, h2⟩
      exact ⟨v :: zs, rfl, by simpa using h1, by simpa using ⟨hv, h2⟩⟩
    · rintro ⟨zs, rfl, h1, h2⟩
      cases zs with
      | nil => simp at h1
      | cons v zs => exact ⟨v, zs.flatten, rfl, h2 v (by simp), zs, rfl, by simpa using h1, fun z hz => h2 z (by simp [hz])⟩

theorem free_ws : Free ws := ⟨⟨trivial, trivial⟩, trivial⟩

theorem lang_wsN (n : Nat) (u : List Char) : Lang (atLeast n ws) u ↔ WsN n u := by
  rw [lang_atLeast]
  unfold WsN
  simp only [lang_ws]

theorem flatten_ones {P : Char → Prop} (n : Nat) (u : List Char) :
    (∃ zs : List (List Char), u = zs.flatten ∧ n ≤ zs.length ∧ ∀ z ∈ zs, ∃ c, P c ∧ z = [c]) ↔ n ≤ u.length ∧ ∀ c ∈ u, P c := by
  constructor
  · rintro ⟨zs, rfl, h1, h2⟩
    induction zs generalizing n with
    | nil => exact ⟨h1, by simp⟩
    | cons z zs ih =>
      obtain ⟨c, hc, rfl⟩ := h2 z (by simp)
      obtain ⟨k1, k2⟩ := ih (n - 1) (by simp at h1; omega) (fun y hy => h2 y (by simp [hy]))
      refine ⟨by simp at k1 ⊢; omega, ?_⟩
      intro d hd
      simp at hd
      rcases hd with rfl | ⟨l, hl, hd⟩
      · exact hc
      · exact k2 d (by simp; exact ⟨l, hl, hd⟩)
  · rintro ⟨h1, h2⟩
    refine ⟨u.map fun c => [c], ?_, by simpa using h1, ?_⟩
    · clear h1 h2
      induction u with
      | nil => rfl
      | cons c u ih => simp at ih ⊢; exact ih
    · intro z hz
      obtain ⟨c, hc, rfl⟩ := List.mem_map.1 hz
      exact ⟨c, h2 c hc, rfl⟩

theorem lang_terminator (t : List Char) : Lang terminator t ↔ Terminator t := by
  show (∃ c, (c == '.') = true ∧ t = [c]) ∨ Lang (atLeast 3 (.chr (· == '.'))) t ∨ (∃ c, (c == '…') = true ∧ t = [c]) ∨
    Lang (plus (oneOf ['!', '?'])) t ↔ _
  unfold oneOf
  rw [lang_plus_chr, lang_atLeast]
  have h3 := flatten_ones (P := fun c => (c == '.') = true) 3 t
  have e : (∃ zs : List (List Char), t = zs.flatten ∧ 3 ≤ zs.length ∧ ∀ z ∈ zs, Lang (.chr (· == '.')) z) ↔
    3 ≤ t.length ∧ ∀ c ∈ t, c = '.' := by
    refine Iff.trans h3 ?_
    simp
  rw [e]
  unfold Terminator
  have s1 : ∀ d : Char, (∃ c, (c == d) = true ∧ t = [c]) ↔ t = [d] := by
    intro d
    constructor
    · rintro ⟨c, hc, rfl⟩; rw [eq_of_beq hc]
    · rintro rfl; exact ⟨d, by simp, rfl⟩
  rw [s1, s1]
  simp

theorem free_terminator : Free terminator := ⟨trivial, free_atLeast (a := .chr _) trivial 3, trivial, trivial, trivial⟩

/-! ### Assertions -/

theorem sem_ahead {r : Re} (hr : Free r) (u w : List Char) : Sem (ahead r) i u w ↔ u = [] ∧ ∃ v x, w = v ++ x ∧ Lang r v := by
  show u = [] ∧ (!(out r ⟨i, w, []⟩).isEmpty) = true ↔ _
  have : (!(out r ⟨i, w, []⟩).isEmpty) = true ↔ out r ⟨i, w, []⟩ ≠ [] := by simp
  rw [this, out_ne]
  simp only [sem_free r hr]

/-- A lookbehind: some end of the text seen matches. -/
theorem endsHere_iff {r : Re} (h1 : lo ≤ i) (h2 : i ≤ text.length) : endsHere r text lo i = true ↔
    ∃ x u, (text.take i).drop lo = x ++ u ∧ Sem r (i - u.length) u (text.drop i) := by
  unfold endsHere
  rw [List.any_eq_true]
  constructor
  · rintro ⟨j, hj, h⟩
    rw [Bool.and_eq_true, List.any_eq_true] at h
    obtain ⟨k1, st, hst, k2⟩ := h
    have k1 := of_decide_eq_true k1
    have k2 := eq_of_beq k2
    obtain ⟨u, ⟨e1, e2⟩, e3⟩ := out_sem r _ st hst
    simp only at e1 e2 e3
    have hij : i = j + u.length := by omega
    refine ⟨((text.take i).drop lo).take (j - lo), u, ?_, ?_⟩
    · have : u = ((text.take i).drop lo).drop (j - lo) := by
        rw [List.drop_drop, show lo + (j - lo) = j by omega, List.drop_take, e1, hij, Nat.add_sub_cancel_left, List.take_left' rfl]
      conv => rhs; rw [this]
      rw [List.take_append_drop]
    · have : text.drop i = st.rest := by rw [hij, ← List.drop_drop, e1, List.drop_left' rfl]
      rw [this, show i - u.length = j by omega]
      exact e3
  · rintro ⟨x, u, e, hs⟩
    have hl := congrArg List.length e
    rw [List.length_drop, List.length_take, List.length_append, Nat.min_eq_left h2] at hl
    refine ⟨i - u.length, by rw [List.mem_range]; omega, ?_⟩
    have hu : text.drop (i - u.length) = u ++ text.drop i := by
      have e' : u = (text.take i).drop (i - u.length) := by
        have : ((text.take i).drop lo).drop x.length = u := by rw [e, List.drop_left' rfl]
        rw [List.drop_drop] at this
        rw [show i - u.length = lo + x.length by omega]
        exact this.symm
      have hd : (text.take i ++ text.drop i).drop (i - u.length) = (text.take i).drop (i - u.length) ++ text.drop i :=
        List.drop_append_of_le_length (by rw [List.length_take]; omega)
      rw [List.take_append_drop, ← e'] at hd
      exact hd
    rw [Bool.and_eq_true, List.any_eq_true]
    obtain ⟨c, hc⟩ := sem_out r (i - u.length) u (text.drop i) [] hs
    refine ⟨by simp; omega, ⟨_, by rw [hu]; exact hc, by simp; omega⟩⟩

/-! ### The pattern -/

/-- What a lookbehind at `i` sees. -/
def seenText (text : List Char) (lo i : Nat) : List Char := (text.take i).drop lo

theorem sem_behind {r : Re} (h1 : lo ≤ i) (h2 : i ≤ text.length) (u w : List Char) : Sem (behind text lo r) i u w ↔
    u = [] ∧ ∃ x v, seenText text lo i = x ++ v ∧ Sem r (i - v.length) v (text.drop i) := by
  show u = [] ∧ endsHere r text lo i = true ↔ _
  rw [endsHere_iff h1 h2]
  rfl

theorem sem_notBehind {r : Re} (h1 : lo ≤ i) (h2 : i ≤ text.length) (u w : List Char) : Sem (notBehind text lo r) i u w ↔
    u = [] ∧ ¬ ∃ x v, seenText text lo i = x ++ v ∧ Sem r (i - v.length) v (text.drop i) := by
  show u = [] ∧ (!endsHere r text lo i) = true ↔ _
  unfold seenText
  rw [← endsHere_iff h1 h2]
  simp

theorem ended_iff (h1 : lo ≤ i) (h2 : i ≤ text.length) (u w : List Char) :
    Sem (behind text lo (.seq (.chr K.word) (.seq terminator (many (oneOf sufs))))) i u w ↔
      u = [] ∧ Ended K (seenText text lo i) := by
  rw [sem_behind h1 h2]
  have hf : Free (.seq (.chr K.word) (.seq terminator (many (oneOf sufs)))) := ⟨trivial, free_terminator, trivial⟩
  simp only [sem_free _ hf]
  refine and_congr_right fun _ => ?_
  constructor
  · rintro ⟨x, _, e, _, _, rfl, ⟨c, hc, rfl⟩, t, q, rfl, ht, hq⟩
    exact ⟨x, c, t, q, by rw [e]; simp, hc, (lang_terminator t).1 ht, (lang_many_oneOf _ _).1 hq⟩
  · rintro ⟨x, c, t, q, e, hc, ht, hq⟩
    exact ⟨x, c :: t ++ q, by rw [e]; simp, [c], t ++ q, rfl, ⟨c, hc, rfl⟩, t, q, rfl, (lang_terminator t).2 ht,
      (lang_many_oneOf _ _).2 hq⟩

theorem lang_upper (u : List Char) : Lang upper u ↔ ∃ c, u = [c] ∧ 'A' ≤ c ∧ c ≤ 'Z' := by
  constructor
  · rintro ⟨c, hc, rfl⟩; exact ⟨c, rfl, of_decide_eq_true hc⟩
  · rintro ⟨c, rfl, hc⟩; exact ⟨c, decide_eq_true hc, rfl⟩

theorem lang_cap (u : List Char) : Lang (.seq upper (plus lower)) u ↔ Capitalised u := by
  show (∃ v w, u = v ++ w ∧ Lang upper v ∧ Lang (plus lower) w) ↔ _
  unfold lower
  simp only [lang_upper, lang_plus_chr, decide_eq_true_eq]
  constructor
  · rintro ⟨_, w, rfl, ⟨c, rfl, h1, h2⟩, h3, h4⟩; exact ⟨c, w, rfl, h1, h2, h3, h4⟩
  · rintro ⟨c, w, rfl, h1, h2, h3, h4⟩; exact ⟨[c], w, rfl, ⟨c, rfl, h1, h2⟩, h3, h4⟩

theorem big_iff (u w : List Char) : Sem (ahead (.seq (many (oneOf pres)) (.alt upper (.chr K.digit)))) i u w ↔
    u = [] ∧ Big K w := by
  rw [sem_ahead (r := .seq (many (oneOf pres)) (.alt upper (.chr K.digit))) ⟨trivial, trivial, trivial⟩]
  refine and_congr_right fun _ => ?_
  constructor
  · rintro ⟨_, x, rfl, p, c, rfl, hp, hc⟩
    have hp := (lang_many_oneOf _ _).1 hp
    rcases hc with hc | ⟨c, hc, rfl⟩
    · obtain ⟨c, rfl, hc'⟩ := (lang_upper _).1 hc
      exact ⟨p, c, x, by simp, hp, Or.inl hc'⟩
    · exact ⟨p, c, x, by simp, hp, Or.inr hc⟩
  · rintro ⟨p, c, x, rfl, hp, hc⟩
    refine ⟨p ++ [c], x, by simp, p, [c], rfl, (lang_many_oneOf _ _).2 hp, ?_⟩
    rcases hc with hc | hc
    · exact Or.inl ((lang_upper _).2 ⟨c, rfl, hc⟩)
    · exact Or.inr ⟨c, hc, rfl⟩

theorem known_iff (u w : List Char) : Sem (ahead (.seq (many (oneOf pres)) (.seq (anyLit hfStarts) ws))) i u w ↔
    u = [] ∧ Known w := by
  rw [sem_ahead (r := .seq (many (oneOf pres)) (.seq (anyLit hfStarts) ws)) ⟨trivial, free_anyLit _, free_ws⟩]
  refine and_congr_right fun _ => ?_
  constructor
  · rintro ⟨_, x, rfl, p, _, rfl, hp, h, z, rfl, hh, hz⟩
    exact ⟨p, h, z, x, by simp, (lang_many_oneOf _ _).1 hp, (lang_anyLit _ _).1 hh, (lang_ws _).1 hz⟩
  · rintro ⟨p, h, z, x, rfl, hp, hh, hz⟩
    exact ⟨p ++ (h ++ z), x, by simp, p, h ++ z, rfl, (lang_many_oneOf _ _).2 hp, h, z, rfl, (lang_anyLit _ _).2 hh, (lang_ws _).2 hz⟩

theorem ignored_iff (h1 : lo ≤ i) (h2 : i ≤ text.length) (u w : List Char) : Sem (notBehind text lo (anyLit ignores)) i u w ↔
    u = [] ∧ ¬ ∃ a ∈ ignores, a <:+ seenText text lo i := by
  rw [sem_notBehind h1 h2]
  simp only [sem_free _ (free_anyLit _), lang_anyLit]
  refine and_congr_right fun _ => not_congr ?_
  constructor
  · rintro ⟨x, v, e, hv⟩; exact ⟨v, hv, x, e.symm⟩
  · rintro ⟨a, ha, x, e⟩; exact ⟨x, a, e.symm, ha⟩

theorem exNum_iff (h1 : lo ≤ i) (h2 : i ≤ text.length) (u w : List Char) : Sem (exNum K text lo) i u w ↔
    u = [] ∧ ¬ ∃ a ∈ numAbbrs, a <:+ seenText text lo i ∧ ∃ z d x, text.drop i = z ++ d :: x ∧ Ws1 z ∧ K.digit d = true := by
  unfold exNum
  rw [sem_notBehind h1 h2]
  refine and_congr_right fun _ => not_congr ?_
  have hf : Free (.seq ws (.chr K.digit)) := ⟨free_ws, trivial⟩
  constructor
  · rintro ⟨x, _, e, a, y, rfl, ha, hy⟩
    obtain ⟨rfl, v, x', e', z, _, rfl, hz, d, hd, rfl⟩ := (sem_ahead hf _ _).1 hy
    refine ⟨a, (lang_anyLit _ _).1 ((sem_free _ (free_anyLit _) _ _ _).1 ha), ⟨x, by rw [e]; simp⟩, z, d, x', by rw [e']; simp,
      (lang_ws _).1 hz, hd⟩
  · rintro ⟨a, ha, ⟨x, e⟩, z, d, x', e', hz, hd⟩
    refine ⟨x, a, e.symm, a, [], by simp, (sem_free _ (free_anyLit _) _ _ _).2 ((lang_anyLit _ _).2 ha), ?_⟩
    exact (sem_ahead hf _ _).2 ⟨rfl, z ++ [d], x', by rw [e']; simp, z, [d], rfl, (lang_ws _).2 hz, d, hd, rfl⟩

theorem exGov_iff (h1 : lo ≤ i) (h2 : i ≤ text.length) (u w : List Char) : Sem (exGov text lo) i u w ↔
    u = [] ∧ ¬ ("U.S.".toList <:+ seenText text lo i ∧ ∃ z x, text.drop i = z ++ "Government".toList ++ x ∧ Ws1 z) := by
  unfold exGov
  generalize "U.S.".toList = us
  generalize "Government".toList = gov
  rw [sem_notBehind h1 h2]
  refine and_congr_right fun _ => not_congr ?_
  have hf : Free (.seq ws (lit gov)) := ⟨free_ws, free_lit _⟩
  constructor
  · rintro ⟨x, _, e, a, y, rfl, ha, hy⟩
    obtain ⟨rfl, v, x', e', z, g, rfl, hz, hg⟩ := (sem_ahead hf _ _).1 hy
    rw [sem_free _ (free_lit _), lang_lit] at ha
    rw [lang_lit] at hg
    subst ha hg
    exact ⟨⟨x, by rw [e]; simp⟩, z, x', e', (lang_ws _).1 hz⟩
  · rintro ⟨⟨x, e⟩, z, x', e', hz⟩
    refine ⟨x, us, e.symm, us, [], by simp, (sem_free _ (free_lit _) _ _ _).2 ((lang_lit _ _).2 rfl), ?_⟩
    exact (sem_ahead hf _ _).2 ⟨rfl, z ++ gov, x', e', z, gov, rfl, (lang_ws _).2 hz, (lang_lit _ _).2 rfl⟩

theorem exName_iff (h1 : lo ≤ i) (h2 : i ≤ text.length) (u w : List Char) : Sem (exName text lo) i u w ↔
    u = [] ∧ ¬ ∃ x n z c, seenText text lo i = x ++ n ++ z ++ [c, '.'] ∧ Capitalised n ∧ Ws1 z ∧ 'A' ≤ c ∧ c ≤ 'Z' ∧
      ∃ z' n' y, text.drop i = z' ++ n' ++ y ∧ Ws1 z' ∧ Capitalised n' := by
  unfold exName
  rw [sem_notBehind h1 h2]
  refine and_congr_right fun _ => not_congr ?_
  have hf : Free (.seq ws (.seq upper (plus lower))) := ⟨free_ws, trivial, trivial, trivial⟩
  have ful : Free upper := trivial
  have fll : Free (plus lower) := ⟨trivial, trivial⟩
  constructor
  · rintro ⟨x, _, e, a, _, rfl, ha, l, _, rfl, hl, z, _, rfl, hz, b, _, rfl, hb, p, y, rfl, hp, hy⟩
    obtain ⟨rfl, v, x', e', z', n', rfl, hz', hn'⟩ := (sem_ahead hf _ _).1 hy
    obtain ⟨c, rfl, hc1, hc2⟩ := (lang_upper _).1 ((sem_free _ ful _ _ _).1 hb)
    obtain ⟨d, hd, rfl⟩ := hp
    rw [eq_of_beq hd] at e
    refine ⟨x, a ++ l, z, c, by rw [e]; simp, (lang_cap _).1 ⟨a, l, rfl, (sem_free _ ful _ _ _).1 ha, (sem_free _ fll _ _ _).1 hl⟩,
      (lang_ws _).1 ((sem_free _ free_ws _ _ _).1 hz), hc1, hc2, z', n', x', e', (lang_ws _).1 hz', (lang_cap _).1 hn'⟩
  · rintro ⟨x, n, z, c, e, hn, hz, hc1, hc2, z', n', y, e', hz', hn'⟩
    obtain ⟨a, l, rfl, ha, hl⟩ := (lang_cap _).2 hn
    refine ⟨x, a ++ (l ++ (z ++ ([c] ++ (['.'] ++ [])))), by rw [e]; simp, a, _, rfl, (sem_free _ ful _ _ _).2 ha, l, _, rfl,
      (sem_free _ fll _ _ _).2 hl, z, _, rfl, (sem_free _ free_ws _ _ _).2 ((lang_ws _).2 hz), [c], _, rfl,
      (sem_free _ ful _ _ _).2 ((lang_upper _).2 ⟨c, rfl, hc1, hc2⟩), ['.'], [], rfl, ⟨'.', rfl, rfl⟩, ?_⟩
    exact (sem_ahead hf _ _).2 ⟨rfl, z' ++ n', y, e', z', n', rfl, (lang_ws _).2 hz', (lang_cap _).2 hn'⟩

theorem end_iff (u w : List Char) : Sem ruleEnd i u w ↔ WsN 0 u ∧ (w = [] ∨ w = ['\n']) := by
  constructor
  · rintro ⟨v, x, rfl, h1, rfl, h2⟩
    rw [List.append_nil]
    exact ⟨(lang_wsN 0 v).1 ((sem_free (many ws) free_ws _ _ _).1 h1), h2⟩
  · rintro ⟨h1, h2⟩
    exact ⟨u, [], by simp, (sem_free (many ws) free_ws _ _ _).2 ((lang_wsN 0 u).2 h1), rfl, h2⟩

theorem start_iff (u w : List Char) : Sem ruleStart i u w ↔ Ws1 u ∧ Known w := by
  constructor
  · rintro ⟨v, x, rfl, h1, h2⟩
    obtain ⟨rfl, h2'⟩ := (known_iff _ _).1 h2
    rw [List.append_nil]
    exact ⟨(lang_ws v).1 ((sem_free ws free_ws _ _ _).1 h1), h2'⟩
  · rintro ⟨h1, h2⟩
    exact ⟨u, [], by simp, (sem_free ws free_ws _ _ _).2 ((lang_ws u).2 h1), (known_iff _ _).2 ⟨rfl, h2⟩⟩

theorem catch_iff (h1 : lo ≤ i) (h2 : i ≤ text.length) (u w : List Char) (ht : text.drop i = u ++ w) :
    Sem (ruleCatch K text lo) i u w ↔ Ws1 u ∧ Big K w ∧ ¬ Abbreviated K (seenText text lo i) (u ++ w) := by
  unfold Abbreviated
  rw [← ht]
  constructor
  · rintro ⟨v1, x1, rfl, k1, v2, x2, rfl, k2, v3, x3, rfl, k3, v4, x4, rfl, k4, v5, x5, rfl, k5, k6⟩
    obtain ⟨rfl, k1'⟩ := (ignored_iff h1 h2 _ _).1 k1
    simp only [List.length_nil, Nat.add_zero] at k2 k3 k4
    obtain ⟨rfl, k2'⟩ := (exNum_iff h1 h2 _ _).1 k2
    simp only [List.length_nil, Nat.add_zero] at k3 k4
    obtain ⟨rfl, k3'⟩ := (exName_iff h1 h2 _ _).1 k3
    simp only [List.length_nil, Nat.add_zero] at k4
    obtain ⟨rfl, k4'⟩ := (exGov_iff h1 h2 _ _).1 k4
    obtain ⟨rfl, k6'⟩ := (big_iff _ _).1 k6
    simp only [List.nil_append, List.append_nil]
    refine ⟨(lang_ws _).1 ((sem_free ws free_ws _ _ _).1 k5), k6', ?_⟩
    rintro (h | h | h | h)
    · exact k1' h
    · exact k2' h
    · exact k3' h
    · exact k4' h
  · rintro ⟨k5, k6, hn⟩
    refine ⟨[], u, rfl, (ignored_iff h1 h2 _ _).2 ⟨rfl, fun h => hn (Or.inl h)⟩, [], u, rfl,
      (exNum_iff h1 h2 _ _).2 ⟨rfl, fun h => hn (Or.inr (Or.inl h))⟩, [], u, rfl,
      (exName_iff h1 h2 _ _).2 ⟨rfl, fun h => hn (Or.inr (Or.inr (Or.inl h)))⟩, [], u, rfl,
      (exGov_iff h1 h2 _ _).2 ⟨rfl, fun h => hn (Or.inr (Or.inr (Or.inr h)))⟩, u, [], by simp, ?_, ?_⟩
    · exact (sem_free ws free_ws _ _ _).2 ((lang_ws u).2 k5)
    · exact (big_iff _ _).2 ⟨rfl, k6⟩

/-- What the pattern matches: boundaries. -/
theorem sent_iff (h1 : lo ≤ i) (h2 : i ≤ text.length) (u w : List Char) (ht : text.drop i = u ++ w) :
    Sem (sentRe K text lo) i u w ↔ Boundary K (seenText text lo i) u w := by
  constructor
  · rintro ⟨v, x, rfl, k1, k2⟩
    obtain ⟨rfl, k1'⟩ := (ended_iff h1 h2 _ _).1 k1
    refine ⟨k1', ?_⟩
    simp only [List.nil_append, List.length_nil, Nat.add_zero] at k2 ht ⊢
    rcases k2 with k2 | k2 | k2 | k2
    · exact Or.inl ((end_iff _ _).1 k2)
    · exact Or.inr (Or.inl ((lang_wsN 2 _).1 ((sem_free _ (free_atLeast free_ws 2) _ _ _).1 k2)))
    · exact Or.inr (Or.inr (Or.inl ((start_iff _ _).1 k2)))
    · exact Or.inr (Or.inr (Or.inr ((catch_iff h1 h2 _ _ ht).1 k2)))
  · rintro ⟨k1, k2⟩
    refine ⟨[], u, rfl, (ended_iff h1 h2 _ _).2 ⟨rfl, k1⟩, ?_⟩
    rcases k2 with k2 | k2 | k2 | k2
    · exact Or.inl ((end_iff _ _).2 k2)
    · exact Or.inr (Or.inl ((sem_free _ (free_atLeast free_ws 2) _ _ _).2 ((lang_wsN 2 _).2 k2)))
    · exact Or.inr (Or.inr (Or.inl ((start_iff _ _).2 k2)))
    · exact Or.inr (Or.inr (Or.inr ((catch_iff h1 h2 _ _ ht).2 k2)))

/-! ### The theorems -/

variable {F : Fmt} {seps : List Char} {n : Nat} {seen : Nat → Nat}

theorem seen_part {s : String} {b lo k : Nat} (h : k ≤ b) : seenText (s.toList.take b) lo k = part s ⟨(lo : Int), (k : Int)⟩ := by
  unfold seenText part
  rw [List.take_take, Nat.min_eq_left h]
  rfl

/-- **C95**: what separates sentences is a boundary. -/
theorem C95_sound (hs : ∀ a, seen a ≤ a) (s : String) (sp : Span) (h0 : 0 ≤ sp.start) (h1 : sp.start ≤ sp.stop)
    (h2 : sp.stop ≤ s.length) (g : Span) (hg : g ∈ (patterns K F seps n seen).sent s sp) :
    Boundary K (part s ⟨seen sp.start.toNat, g.start⟩) (part s g) (part s ⟨g.stop, sp.stop⟩) := by
  obtain ⟨f, hf, rfl⟩ := List.mem_map.1 hg
  obtain ⟨pre, u, w, st, e1, e2, e3, e4, e5⟩ := found_part hf
  have hlen := congrArg List.length e1
  have hpart : part s sp = (s.toList.take sp.stop.toNat).drop sp.start.toNat := rfl
  rw [hpart, List.length_drop, List.length_take, String.length_toList, List.length_append, List.length_append] at hlen
  have hd : (s.toList.take sp.stop.toNat).drop f.start = u ++ w := by
    rw [e2, ← List.drop_drop, ← hpart, e1, List.append_assoc, List.drop_left' rfl]
  have hl : (s.toList.take sp.stop.toNat).length = sp.stop.toNat := by
    rw [List.length_take, String.length_toList]; omega
  obtain ⟨v, ⟨r1, r2⟩, r3⟩ := out_sem _ _ st e4
  simp only at r1 r2 r3
  rw [e5] at r1 r3
  have huv : u = v := List.append_cancel_right r1
  subst huv
  have hb := (sent_iff (K := K) (by have := hs sp.start.toNat; omega) (by rw [hl]; omega) u w hd).1 r3
  rw [seen_part (by omega)] at hb
  have p1 : part s (whole f) = u := by
    unfold part whole
    dsimp only
    rw [Int.toNat_natCast, Int.toNat_natCast,
      show s.toList.take f.stop = (s.toList.take sp.stop.toNat).take f.stop by rw [List.take_take, Nat.min_eq_left (by omega)],
      List.drop_take, hd, e3, Nat.add_sub_cancel_left, List.take_left' rfl]
  have p2 : part s ⟨(whole f).stop, sp.stop⟩ = w := by
    unfold part whole
    dsimp only
    rw [Int.toNat_natCast, e3, ← List.drop_drop, hd, List.drop_left' rfl]
  rw [p1, p2]
  exact hb

/-- **C95**: where there is a boundary, a separator starts there or covers the place. -/
theorem C95_complete (hs : ∀ a, seen a ≤ a) (s : String) (sp : Span) (h0 : 0 ≤ sp.start) (h2 : sp.stop ≤ s.length) (k : Nat)
    (k1 : sp.start ≤ k) (k2 : (k : Int) ≤ sp.stop) (gap rest : List Char) (ht : part s ⟨k, sp.stop⟩ = gap ++ rest)
    (hb : Boundary K (part s ⟨seen sp.start.toNat, k⟩) gap rest) :
    ∃ g ∈ (patterns K F seps n seen).sent s sp, g.start = k ∨ (g.start < k ∧ k < g.stop) := by
  have hl : (s.toList.take sp.stop.toNat).length = sp.stop.toNat := by
    rw [List.length_take, String.length_toList]; omega
  have hd : (s.toList.take sp.stop.toNat).drop k = gap ++ rest := ht
  rw [← seen_part (b := sp.stop.toNat) (by omega)] at hb
  have hsem := (sent_iff (K := K) (by have := hs sp.start.toNat; omega) (by rw [hl]; omega) gap rest hd).2 hb
  have hsplit : part s sp = (part s sp).take (k - sp.start.toNat) ++ (gap ++ rest) := by
    conv => lhs; rw [← List.take_append_drop (k - sp.start.toNat) (part s sp)]
    congr 1
    unfold part
    rw [List.drop_drop, show sp.start.toNat + (k - sp.start.toNat) = k by omega]
    exact hd
  have hpl : ((part s sp).take (k - sp.start.toNat)).length = k - sp.start.toNat := by
    rw [List.length_take]
    have : (part s sp).length = sp.stop.toNat - sp.start.toNat := by
      unfold part
      rw [List.length_drop, hl]
    omega
  have hkk : sp.start.toNat + ((part s sp).take (k - sp.start.toNat)).length = k := by omega
  obtain ⟨f, hf, hf'⟩ := finditer_covers (r := sentRe K (s.toList.take sp.stop.toNat) (seen sp.start.toNat))
    (i := sp.start.toNat) (suf := gap ++ rest) (by rw [hkk]; exact (out_ne _ _ _ _).2 ⟨gap, rest, rfl, hsem⟩)
  rw [← hsplit] at hf
  rw [hkk] at hf'
  refine ⟨whole f, List.mem_map_of_mem hf, ?_⟩
  unfold whole
  dsimp only
  omega

theorem between_edges : ∀ (ms : List Span) (a b : Int), OrderedIn a b ms → ∀ c ∈ between a b ms,
    (c.stop = b ∨ ∃ m ∈ ms, m.start = c.stop) ∧ (c.start = a ∨ ∃ m ∈ ms, m.stop = c.start) ∧
      ∀ m ∈ ms, m.stop ≤ c.start ∨ c.stop ≤ m.start
  | [], a, b, _, c, hc => by
    simp [between] at hc
    subst hc
    exact ⟨Or.inl rfl, Or.inl rfl, by simp⟩
  | m :: ms, a, b, ho, c, hc => by
    obtain ⟨o1, o2, o3⟩ := ho
    simp only [between, List.mem_cons] at hc
    rcases hc with rfl | hc
    · refine ⟨Or.inr ⟨m, by simp, rfl⟩, Or.inl rfl, ?_⟩
      intro x hx
      right
      dsimp only
      rcases List.mem_cons.1 hx with rfl | hx
      · exact Int.le_refl _
      · have := (orderedIn_mem o3 x hx).1
        omega
    · obtain ⟨e1, e2, e3⟩ := between_edges ms _ b o3 c hc
      refine ⟨e1.imp id fun ⟨x, hx, h⟩ => ⟨x, by simp [hx], h⟩, Or.inr ?_, ?_⟩
      · rcases e2 with e2 | ⟨x, hx, h⟩
        · exact ⟨m, by simp, e2.symm⟩
        · exact ⟨x, by simp [hx], h⟩
      · intro x hx
        rcases List.mem_cons.1 hx with rfl | hx
        · exact Or.inl (orderedIn_mem (orderedIn_between o3) c hc).1
        · exact e3 x hx

theorem chunks_edges {sp : Span} {ms : List Span} (ho : OrderedIn sp.start sp.stop ms) {c : Span} (hc : c ∈ chunks sp ms) :
    (c.stop = sp.stop ∨ ∃ m ∈ ms, m.start = c.stop) ∧ (c.start = sp.start ∨ ∃ m ∈ ms, m.stop = c.start) ∧
      ∀ m ∈ ms, m.stop ≤ c.start ∨ c.stop ≤ m.start := by
  unfold chunks at hc
  split at hc
  · rename_i h
    simp at hc
    subst hc h
    exact ⟨Or.inl rfl, Or.inl rfl, by simp⟩
  · exact between_edges ms _ _ ho c (nonEmpty_ne hc).1

/-- **C95**: the sentences of a paragraph `q` end at the end of the paragraph or at a boundary, start at its start or
after a boundary, and there is no boundary inside one.  A lookbehind sees the text from `seen q.start` on, which is not
after the paragraph's start. -/
theorem C95_sentences (hs : ∀ a, seen a ≤ a) (s : String) (q : Span) (h0 : 0 ≤ q.start) (h1 : q.start ≤ q.stop)
    (h2 : q.stop ≤ s.length) (c : Span) (hc : c ∈ chunks q ((patterns K F seps n seen).sent s q)) :
    (c.stop = q.stop ∨ ∃ e, Boundary K (part s ⟨seen q.start.toNat, c.stop⟩) (part s ⟨c.stop, e⟩) (part s ⟨e, q.stop⟩)) ∧
      (c.start = q.start ∨ ∃ b, Boundary K (part s ⟨seen q.start.toNat, b⟩) (part s ⟨b, c.start⟩) (part s ⟨c.start, q.stop⟩)) ∧
      ∀ k : Nat, c.start < k → (k : Int) < c.stop → ∀ gap rest, part s ⟨k, q.stop⟩ = gap ++ rest →
        ¬ Boundary K (part s ⟨seen q.start.toNat, k⟩) gap rest := by
  have ho := (patterns_lawful K F seps n seen).sent s q.start q.stop h0 h1 h2
  obtain ⟨e1, e2, e3⟩ := chunks_edges ho hc
  have hin := chunks_inside ho hc
  refine ⟨?_, ?_, ?_⟩
  · rcases e1 with e1 | ⟨m, hm, e1⟩
    · exact Or.inl e1
    · refine Or.inr ⟨m.stop, ?_⟩
      rw [← e1]
      exact C95_sound hs s q h0 h1 h2 m hm
  · rcases e2 with e2 | ⟨m, hm, e2⟩
    · exact Or.inl e2
    · refine Or.inr ⟨m.start, ?_⟩
      rw [← e2]
      exact C95_sound hs s q h0 h1 h2 m hm
  · intro k k1 k2 gap rest ht hb
    obtain ⟨m, hm, h⟩ := C95_complete (F := F) (seps := seps) (n := n) hs s q h0 h2 k (by omega) (by omega) gap rest ht hb
    have := e3 m hm
    have := (orderedIn_mem ho m hm).2.1
    omega

/-- **C95 fails** as users read it: "painted" is not a listed abbreviation, but it ends like `ed.`, so the sentence does
not end there; with another word it does. -/
theorem C95_longer_word_violated :
    chunks ⟨0, 28⟩ (demo.sent "It was painted. Nobody came." ⟨0, 28⟩) = [⟨0, 28⟩] ∧ "painted.".toList ∉ abbreviations ∧
      chunks ⟨0, 26⟩ (demo.sent "It was white. Nobody came." ⟨0, 26⟩) = [⟨0, 13⟩, ⟨14, 26⟩] := by decide +kernel

/-- **C95 fails**: a line break after a listed abbreviation does not end a sentence, unless the line break has a carriage
return: then it counts as two white spaces. -/
theorem C95_crlf_violated :
    chunks ⟨0, 20⟩ (demo.sent "I saw Mr.\nSmith. Ok." ⟨0, 20⟩) = [⟨0, 16⟩, ⟨17, 20⟩] ∧
      chunks ⟨0, 21⟩ (demo.sent "I saw Mr.\r\nSmith. Ok." ⟨0, 21⟩) = [⟨0, 9⟩, ⟨11, 17⟩, ⟨18, 21⟩] := by decide +kernel

/-- **C95**, what does hold of these: one white space after a text that ends like a listed abbreviation is a boundary only
before a common start word or at the end. -/
theorem C95_abbreviation_partial (before gap after a : List Char) (ha : a ∈ abbreviations) (he : a <:+ before) (h1 : ∃ c, gap = [c])
    (hk : ¬ Known after) (hn : after ≠ []) (hn' : after ≠ ['\n']) : ¬ Boundary K before gap after := by
  rintro ⟨_, h | ⟨zs, e, h, hz⟩ | h | h⟩
  · exact h.2.elim hn hn'
  · obtain ⟨c, rfl⟩ := h1
    have hl := congrArg List.length e
    rw [List.length_flatten] at hl
    match zs, h, hz, hl with
    | z1 :: z2 :: zs, _, hz, hl =>
      have one : ∀ z, Ws1 z → 1 ≤ z.length := by
        rintro z (rfl | ⟨c, rfl, _⟩) <;> simp
      have a1 := one z1 (hz z1 (by simp))
      have a2 := one z2 (hz z2 (by simp))
      simp only [List.map_cons, List.sum_cons, List.length_singleton] at hl
      omega
  · exact hk h.2
  · exact h.2.2 (Or.inl ⟨a, ha, he⟩)

/-! The hypotheses are met. -/

example : (⟨0, 11⟩ : Span) ∈ chunks ⟨0, 32⟩ (demo.sent "Hi Mr. Foo. It is. 5 or so? Yes." ⟨0, 32⟩) := by decide +kernel
example : "ed.".toList ∈ abbreviations ∧ "ed.".toList <:+ "It was painted.".toList := by decide +kernel
/-- A real boundary. -/
example : Boundary ascii "Hi Mr. Foo.".toList [' '] "It is.".toList :=
  ⟨⟨"Hi Mr. Fo".toList, 'o', ['.'], [], by decide, by decide, Or.inl rfl, by simp⟩,
    Or.inr (Or.inr (Or.inl ⟨Or.inr ⟨' ', rfl, by decide⟩, [], "It".toList, [' '], "is.".toList, by decide, by simp, by decide,
      Or.inr ⟨' ', rfl, by decide⟩⟩))⟩

end Pawpaw.Props
