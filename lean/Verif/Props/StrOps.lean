import Verif.Lemmas.Split
import Verif.Props.Index
/-!
# C07, C08, C13, C14, C15: strip, split, affix removal, indexing, predicates
-/
set_option linter.unusedSectionVars false
namespace Pawpaw.Props
open Pawpaw PyStr
variable {α : Type} [DecidableEq α]

/-- `y` is a well-formed Ito over the same string, inside `x`'s span, with `x`'s descriptor. -/
def SubIto (y x : FIto α) : Prop :=
  y.string = x.string ∧ y.desc = x.desc ∧ y.Valid ∧ x.start ≤ y.start ∧ y.stop ≤ x.stop

theorem SubIto.refl {x : FIto α} (h : x.Valid) : SubIto x x :=
  ⟨rfl, rfl, h, Int.le_refl _, Int.le_refl _⟩

/-- A clone inside the receiver. -/
theorem clone_sub {x : FIto α} (h : x.Valid) {i j : Nat} (h1 : x.start ≤ i) (h2 : i ≤ j)
    (h3 : (j : Int) ≤ x.stop) : SubIto (x.clone (some (i : Int)) (some (j : Int))) x ∧
      (x.clone (some (i : Int)) (some (j : Int))).text = (x.string.take j).drop i := by
  have hj : j ≤ x.string.length := by have : x.stop ≤ x.string.length := h.2.2; omega
  refine ⟨?_, FIto.clone_text x h2 hj⟩
  rw [FIto.clone_span_nat x h2 hj]
  have : (0 : Int) ≤ x.start := h.1
  exact ⟨rfl, rfl, ⟨by dsimp only; omega, by dsimp only; omega, by dsimp only; omega⟩, h1, h3⟩

/-! ## C07 -/

theorem lstrip_by (x : FIto α) (h : x.Valid) (ws : α → Bool) (chars : Option (List α)) :
    SubIto (x.strLstrip ws chars) x ∧
    (x.strLstrip ws chars).text = PyStr.lstripBy (FIto.stripPred ws chars) x.text := by
  obtain ⟨a, b, ha, hb, hab, hl⟩ := h.exists_nat
  unfold FIto.strLstrip
  dsimp only
  rw [ha, hb, show ((b : Int) - a).toNat = b - a by omega,
    FIto.lstripLoop_eq _ _ b hl (b - a) a (by omega)]
  unfold PyStr.lstripBy
  rw [dropWhile_eq_drop, FIto.text_eq ha hb]
  generalize hk : (((x.string.take b).drop a).takeWhile (FIto.stripPred ws chars)).length = k
  have hkl : k ≤ b - a := by
    rw [← hk]
    have := (List.takeWhile_sublist (FIto.stripPred ws chars) (l := (x.string.take b).drop a)).length_le
    simp at this; omega
  by_cases hz : ((a + k : Nat) : Int) = a
  · rw [if_pos hz]
    have : k = 0 := by omega
    subst this
    rw [FIto.text_eq ha hb]
    exact ⟨SubIto.refl h, rfl⟩
  · rw [if_neg hz, FIto.clone_some_none, hb]
    obtain ⟨g1, g2⟩ := clone_sub h (i := a + k) (j := b) (by omega) (by omega) (by omega)
    refine ⟨g1, ?_⟩
    rw [g2, List.drop_drop]

theorem rstrip_by (x : FIto α) (h : x.Valid) (ws : α → Bool) (chars : Option (List α)) :
    SubIto (x.strRstrip ws chars) x ∧
    (x.strRstrip ws chars).text = PyStr.rstripBy (FIto.stripPred ws chars) x.text := by
  obtain ⟨a, b, ha, hb, hab, hl⟩ := h.exists_nat
  unfold FIto.strRstrip
  dsimp only
  rw [hb, Int.toNat_natCast, FIto.rstripLoop_eq _ _ b hl]
  unfold PyStr.rstripBy
  have hrev : ((x.string.take b).drop a).reverse = ((x.string.take b).reverse).take (b - a) := by
    rw [List.take_reverse]
    congr 2
    simp; omega
  rw [dropWhile_eq_drop, FIto.text_eq ha hb, hrev, takeWhile_take_length]
  generalize hk : ((x.string.take b).reverse.takeWhile (FIto.stripPred ws chars)).length = k
  have hkl : k ≤ b := by
    rw [← hk]
    have := (List.takeWhile_sublist (FIto.stripPred ws chars) (l := (x.string.take b).reverse)).length_le
    simp at this; omega
  by_cases hz : (b : Int) - 1 - k = b - 1
  · rw [if_pos hz]
    have : k = 0 := by omega
    subst this
    rw [FIto.text_eq ha hb, Nat.zero_min, List.drop_zero, ← hrev, List.reverse_reverse]
    exact ⟨SubIto.refl h, rfl⟩
  · rw [if_neg hz, FIto.clone_none_some, ha]
    have hclone : x.clone (some (a : Int)) (some ((b : Int) - 1 - k + 1)) =
        x.clone (some (a : Int)) (some ((max a (b - k) : Nat) : Int)) := by
      have e1 : ((b : Int) - 1 - k + 1) = ((b - k : Nat) : Int) := by omega
      rw [e1]
      unfold FIto.clone FIto.ofStr
      rw [fromIndices_eq, fromIndices_eq]
      simp only [Option.getD_some, adjStart_some_nat, FIto.mk.injEq, Span.mk.injEq, true_and,
        and_true]
      rw [adjEnd_some_nat _ _ (by omega), adjEnd_some_nat _ _ (by omega)]
      omega
    rw [hclone]
    obtain ⟨g1, g2⟩ := clone_sub h (i := a) (j := max a (b - k)) (by omega) (by omega) (by omega)
    refine ⟨g1, ?_⟩
    rw [g2, ← hrev, List.drop_reverse, List.reverse_reverse]
    rw [List.take_drop, List.take_take]
    apply take_drop_congr
    simp
    omega

theorem stripPred_eq (ws : α → Bool) (chars : Option (List α)) (hc : chars ≠ some []) :
    FIto.stripPred ws chars = PyStr.stripSet ws chars := by
  unfold FIto.stripPred PyStr.stripSet
  rcases chars with _ | _ | ⟨c, t⟩ <;> simp at hc ⊢

/-- C07, partial: `str_lstrip(chars)` is Python's `lstrip(chars)` on the text and stays inside the
receiver, for every `chars` but `''`.  Missing: `chars == ''`, where the claim is false
(`C07_strip_empty_violated`). `ws` is `str.isspace` on characters. -/
theorem C07_str_lstrip_partial (x : FIto α) (h : x.Valid) (ws : α → Bool)
    (chars : Option (List α)) (hc : chars ≠ some []) :
    SubIto (x.strLstrip ws chars) x ∧
    (x.strLstrip ws chars).text = PyStr.lstripBy (PyStr.stripSet ws chars) x.text := by
  rw [← stripPred_eq ws chars hc]; exact lstrip_by x h ws chars

/-- C07, partial: `str_rstrip`. -/
theorem C07_str_rstrip_partial (x : FIto α) (h : x.Valid) (ws : α → Bool)
    (chars : Option (List α)) (hc : chars ≠ some []) :
    SubIto (x.strRstrip ws chars) x ∧
    (x.strRstrip ws chars).text = PyStr.rstripBy (PyStr.stripSet ws chars) x.text := by
  rw [← stripPred_eq ws chars hc]; exact rstrip_by x h ws chars

/-- C07, partial: `str_strip`. -/
theorem C07_str_strip_partial (x : FIto α) (h : x.Valid) (ws : α → Bool)
    (chars : Option (List α)) (hc : chars ≠ some []) :
    SubIto (x.strStrip ws chars) x ∧
    (x.strStrip ws chars).text = PyStr.stripBy (PyStr.stripSet ws chars) x.text := by
  unfold FIto.strStrip PyStr.stripBy
  obtain ⟨⟨l1, l2, l3, l4, l5⟩, lt⟩ := C07_str_lstrip_partial x h ws chars hc
  obtain ⟨⟨r1, r2, r3, r4, r5⟩, rt⟩ := C07_str_rstrip_partial _ l3 ws chars hc
  refine ⟨⟨r1.trans l1, r2.trans l2, r3, by omega, by omega⟩, ?_⟩
  rw [rt, lt]

/-- C07 is false for `chars == ''`: `' a'.strip('')` is `' a'`, `Ito(' a').str_strip('')` is `'a'`. -/
theorem C07_strip_empty_violated :
    ∃ (x : FIto Char) (ws : Char → Bool), x.Valid ∧
      (x.strStrip ws (some [])).text ≠ PyStr.stripBy (PyStr.stripSet ws (some [])) x.text :=
  ⟨FIto.ofStr " a".toList none none, (· == ' '), C01_ctor_valid _ _ _ _, by decide⟩

example : ((FIto.ofStr "xx  ab xx".toList (some 2) (some 7)).strStrip (· == ' ') none).text =
    "ab".toList := by decide
/-- All characters strippable, and strippable characters to the left of the Ito too. -/
example : ((FIto.ofStr "      ".toList (some 2) (some 4)).strRstrip (· == ' ') none).span =
    ⟨2, 2⟩ := by decide

/-! ## C08 -/

/-- C08: `str_split(sep, maxsplit)` for a non-empty separator has exactly the texts of Python's
`split`, each piece inside the receiver. -/
theorem C08_str_split (x : FIto α) (h : x.Valid) (sep : List α) (hs : sep ≠ []) (m : Int) :
    ∃ ps, x.strSplit sep m = .ok ps ∧ ps.map FIto.text = PyStr.split x.text sep m ∧
      ∀ p ∈ ps, SubIto p x := by
  obtain ⟨a, b, ha, hb, hab, hl⟩ := h.exists_nat
  unfold FIto.strSplit
  rw [if_neg hs]
  by_cases hm : m = 0
  · subst hm
    rw [if_pos rfl, split_zero]
    exact ⟨[x], rfl, rfl, by simpa using SubIto.refl h⟩
  · rw [if_neg hm]
    obtain ⟨r, h1, h2, h3, h4, h5, h6⟩ :=
      FIto.splitLoop_spec x sep hs hb hl (x.string.length + 1) a m hab (by omega)
    rw [ha]
    rw [← FIto.text_eq ha hb] at h5
    dsimp only
    generalize x.splitLoop sep (x.string.length + 1) a m = L at *
    by_cases hL : L.1.length = 0
    · rw [if_pos hL]
      have hnil : L.1 = [] := List.length_eq_zero_iff.mp hL
      refine ⟨[x], rfl, ?_, by simpa using SubIto.refl h⟩
      rw [← h5, hnil, h4 hnil, ← FIto.text_eq ha hb]
      rfl
    · rw [if_neg hL, h1]
      have hlast : SubIto (if (r : Int) = a then x else x.clone (some (r : Int)) none) x ∧
          (if (r : Int) = a then x else x.clone (some (r : Int)) none).text =
            (x.string.take b).drop r := by
        by_cases hr : (r : Int) = a
        · rw [if_pos hr, show r = a by omega, ← FIto.text_eq ha hb]
          exact ⟨SubIto.refl h, rfl⟩
        · rw [if_neg hr, FIto.clone_some_none, hb]
          exact clone_sub h (by omega) h3 (by omega)
      refine ⟨_, rfl, ?_, ?_⟩
      · rw [List.map_append, ← h5, List.map_cons, List.map_nil, hlast.2]
      · intro p hp
        rw [List.mem_append, List.mem_singleton] at hp
        rcases hp with hp | rfl
        · obtain ⟨g1, g2, g3, g4, g5⟩ := h6 p hp
          exact ⟨g2, g3, g1, by omega, by omega⟩
        · exact hlast.1

/-- C08: `str_rsplit(sep, maxsplit)` likewise. -/
theorem C08_str_rsplit (x : FIto α) (h : x.Valid) (sep : List α) (hs : sep ≠ []) (m : Int) :
    ∃ ps, x.strRsplit sep m = .ok ps ∧ ps.map FIto.text = PyStr.rsplit x.text sep m ∧
      ∀ p ∈ ps, SubIto p x := by
  obtain ⟨a, b, ha, hb, hab, hl⟩ := h.exists_nat
  unfold FIto.strRsplit
  rw [if_neg hs]
  by_cases hm : m = 0
  · subst hm
    rw [if_pos rfl, rsplit_zero]
    exact ⟨[x], rfl, rfl, by simpa using SubIto.refl h⟩
  · rw [if_neg hm]
    obtain ⟨r, ps, h1, h2, h3, h4, h5, h6⟩ :=
      FIto.rsplitLoop_spec x sep hs ha (x.string.length + 1) b m [] hab hl (by omega)
    rw [hb, h1]
    rw [← FIto.text_eq ha hb] at h5
    dsimp only
    rw [List.append_nil]
    by_cases hL : ps.length = 0
    · rw [if_pos hL]
      have hnil : ps = [] := List.length_eq_zero_iff.mp hL
      refine ⟨[x], rfl, ?_, by simpa using SubIto.refl h⟩
      rw [← h5, hnil, h4 hnil, ← FIto.text_eq ha hb]
      rfl
    · rw [if_neg hL]
      have hlast : SubIto (if (r : Int) = b then x else x.clone none (some (r : Int))) x ∧
          (if (r : Int) = b then x else x.clone none (some (r : Int))).text =
            (x.string.take r).drop a := by
        by_cases hr : (r : Int) = b
        · rw [if_pos hr, show r = b by omega, ← FIto.text_eq ha hb]
          exact ⟨SubIto.refl h, rfl⟩
        · rw [if_neg hr, FIto.clone_none_some, ha]
          exact clone_sub h (by omega) h2 (by omega)
      refine ⟨_, rfl, ?_, ?_⟩
      · rw [List.map_cons, hlast.2, ← h5]; rfl
      · intro p hp
        rw [List.mem_cons] at hp
        rcases hp with rfl | hp
        · exact hlast.1
        · obtain ⟨g1, g2, g3, g4, g5⟩ := h6 p hp
          exact ⟨g2, g3, g1, by omega, by omega⟩

theorem intercalate_reverse (sep : List α) (L : List (List α)) :
    sep.intercalate ((L.map List.reverse).reverse) = (sep.reverse.intercalate L).reverse := by
  have aux : ∀ (L : List (List α)) (y : List α), sep.intercalate (L ++ [y]) =
      if L = [] then y else sep.intercalate L ++ sep ++ y := by
    intro L
    induction L with
    | nil => intro y; simp [List.intercalate]
    | cons z zs ih =>
      intro y
      have e : ∀ (u : List α) (vs : List (List α)), vs ≠ [] →
          sep.intercalate (u :: vs) = u ++ sep ++ sep.intercalate vs := by
        intro u vs hv
        cases vs with
        | nil => simp at hv
        | cons v vs => simp [List.intercalate, List.intersperse]
      rw [List.cons_append, e _ _ (by simp), ih]
      by_cases hz : zs = []
      · subst hz; simp [List.intercalate]
      · rw [if_neg hz, if_neg (by simp), e _ _ hz]; simp
  have e' : ∀ (u : List α) (vs : List (List α)), vs ≠ [] →
      sep.reverse.intercalate (u :: vs) = u ++ sep.reverse ++ sep.reverse.intercalate vs := by
    intro u vs hv
    cases vs with
    | nil => simp at hv
    | cons v vs => simp [List.intercalate, List.intersperse]
  induction L with
  | nil => simp [List.intercalate]
  | cons y ys ih =>
    rw [List.map_cons, List.reverse_cons, aux, ih]
    by_cases hy : ys = []
    · subst hy; simp [List.intercalate]
    · rw [if_neg (by simpa using hy), e' _ _ hy]; simp

/-- C08: the pieces interleaved with the separator rebuild the text (both directions of split). -/
theorem C08_split_rebuild (x : FIto α) (h : x.Valid) (sep : List α) (hs : sep ≠ []) (m : Int) :
    (∃ ps, x.strSplit sep m = .ok ps ∧ sep.intercalate (ps.map FIto.text) = x.text) ∧
    (∃ ps, x.strRsplit sep m = .ok ps ∧ sep.intercalate (ps.map FIto.text) = x.text) := by
  constructor
  · obtain ⟨ps, h1, h2, _⟩ := C08_str_split x h sep hs m
    refine ⟨ps, h1, ?_⟩
    rw [h2]
    have := (splitGo_intercalate sep hs (limitOf m) [] x.text).1
    simpa [PyStr.split] using this
  · obtain ⟨ps, h1, h2, _⟩ := C08_str_rsplit x h sep hs m
    refine ⟨ps, h1, ?_⟩
    rw [h2]
    have key := (splitGo_intercalate sep.reverse (by simpa using hs) (limitOf m) [] x.text.reverse).1
    unfold PyStr.rsplit PyStr.split
    rw [List.nil_append] at key
    have := congrArg List.reverse key
    rw [List.reverse_reverse] at this
    rw [intercalate_reverse, this]

/-- C08: an empty separator raises `ValueError`. -/
theorem C08_empty_separator (x : FIto α) (m : Int) :
    x.strSplit [] m = .error .valueError ∧ x.strRsplit [] m = .error .valueError := by
  simp [FIto.strSplit, FIto.strRsplit]

example : ((FIto.ofStr "x,a,,b,x".toList (some 2) (some 6)).strSplit [','] 1).toOption.map
    (fun ps => ps.map FIto.text) = some ["a".toList, ",b".toList] := by decide
example : ((FIto.ofStr "aaaaa".toList none none).strRsplit "aa".toList (-1)).toOption.map
    (fun ps => ps.map FIto.text) = some ["a".toList, [], []] := by decide

/-! ## C13 -/

/-- C13: `str_removeprefix` is Python's, for every prefix. -/
theorem C13_str_removeprefix (x : FIto α) (h : x.Valid) (p : List α) :
    ∃ y, x.strRemoveprefix p = .ok y ∧ SubIto y x ∧ y.text = PyStr.removeprefix x.text p := by
  unfold FIto.strRemoveprefix PyStr.removeprefix
  rw [C06_str_startswith_partial x h [p] none none (Or.inr (by simp))]
  have hsw : PyStr.startswithAny x.text [p] none none = p.isPrefixOf x.text := by
    simp only [PyStr.startswithAny, List.any_cons, List.any_nil, Bool.or_false, PyStr.startswith]
    rw [← okAt_zero]; rfl
  rw [hsw]
  simp only [bind, Except.bind]
  by_cases hp : p.isPrefixOf x.text = true
  · rw [if_pos hp, if_pos hp]
    obtain ⟨y, h1, h2, h3, h4, h5, h6⟩ := C02_nested x h (some (p.length : Int)) none x.desc
    have hyd : y.desc = x.desc := by
      unfold FIto.ofIto at h1
      cases ho : (Span.fromIndices x.len (some ↑p.length) none).offset x.start with
      | error e => rw [ho] at h1; simp [bind, Except.bind] at h1
      | ok sp => rw [ho] at h1; simp [bind, Except.bind, pure, Except.pure] at h1; rw [← h1]
    refine ⟨y, h1, ⟨h2, hyd, h3, h4, h5⟩, ?_⟩
    rw [h6, slice_eq_adj, adjStart_some_nat]
    simp [adjEnd]
  · rw [if_neg hp, if_neg hp]
    exact ⟨x, rfl, SubIto.refl h, rfl⟩

/-- C13, partial: `str_removesuffix` is Python's for every *non-empty* suffix.  Missing: the empty
suffix, where the claim is false (`C13_removesuffix_empty_violated`). -/
theorem C13_str_removesuffix_partial (x : FIto α) (h : x.Valid) (p : List α) (hp0 : p ≠ []) :
    ∃ y, x.strRemovesuffix p = .ok y ∧ SubIto y x ∧ y.text = PyStr.removesuffix x.text p := by
  unfold FIto.strRemovesuffix PyStr.removesuffix
  rw [C06_str_endswith_partial x h [p] none none (Or.inr (by simp))]
  have hpl : 0 < p.length := List.length_pos_iff.mpr hp0
  have hsw : PyStr.endswithAny x.text [p] none none = p.isSuffixOf x.text := by
    simp only [PyStr.endswithAny, List.any_cons, List.any_nil, Bool.or_false, PyStr.endswith]
    rw [Bool.eq_iff_iff, Bool.and_eq_true, okAt_none_iff, List.isSuffixOf_iff_suffix,
      decide_eq_true_iff]
    simp only [adjEnd]
    constructor
    · rintro ⟨h0, l, r, he, hl⟩
      have := congrArg List.length he
      simp at this
      have hr : r = [] := List.length_eq_zero_iff.mp (by omega)
      subst hr
      exact ⟨l, by simpa using he.symm⟩
    · rintro ⟨l, he⟩
      have := congrArg List.length he
      rw [List.length_append] at this
      exact ⟨by omega, l, [], by simpa using he.symm, by omega⟩
  rw [hsw]
  simp only [bind, Except.bind]
  by_cases hp : p.isSuffixOf x.text = true
  · rw [if_pos hp, if_pos hp]
    obtain ⟨y, h1, h2, h3, h4, h5, h6⟩ := C02_nested x h none (some (-(p.length : Int))) x.desc
    have hyd : y.desc = x.desc := by
      unfold FIto.ofIto at h1
      cases ho : (Span.fromIndices x.len none (some (-(p.length : Int)))).offset x.start with
      | error e => rw [ho] at h1; simp [bind, Except.bind] at h1
      | ok sp => rw [ho] at h1; simp [bind, Except.bind, pure, Except.pure] at h1; rw [← h1]
    refine ⟨y, h1, ⟨h2, hyd, h3, h4, h5⟩, ?_⟩
    have hle : p.length ≤ x.text.length := (List.isSuffixOf_iff_suffix.mp hp).length_le
    rw [h6, slice_eq_adj]
    simp only [adjStart, adjEnd, Int.toNat_zero, List.drop_zero]
    rw [if_neg (by omega), if_pos (by omega)]
    congr 1
    omega
  · rw [if_neg hp, if_neg hp]
    exact ⟨x, rfl, SubIto.refl h, rfl⟩

/-- C13 is false for the empty suffix: `'ab'.removesuffix('')` is `'ab'`,
`Ito('ab').str_removesuffix('')` is `''`. -/
theorem C13_removesuffix_empty_violated :
    ∃ (x y : FIto Char), x.Valid ∧ x.strRemovesuffix [] = .ok y ∧
      y.text ≠ PyStr.removesuffix x.text [] :=
  ⟨FIto.ofStr "ab".toList none none, ⟨"ab".toList, ⟨0, 0⟩, none⟩, C01_ctor_valid _ _ _ _,
    by decide, by decide⟩

example : ((FIto.ofStr "xabcx".toList (some 1) (some 4)).strRemovesuffix "bc".toList).toOption.map
    FIto.text = some "a".toList := by decide

/-! ## C14 -/

theorem getItem_window (x : FIto α) (h : x.Valid) (a b : Option Int) :
    ∃ y, x.getItemSlice a b = .ok y ∧ SubIto y x ∧ y.text = PyStr.slice x.text a b := by
  obtain ⟨i, j, hw, h1, h2, h3, h4, h5⟩ := FIto.window_nat h a b
  unfold FIto.getItemSlice
  rw [hw]
  simp only [bind, Except.bind, pure, Except.pure]
  by_cases he : x.span = ⟨i, j⟩
  · rw [if_pos he]
    refine ⟨x, rfl, SubIto.refl h, ?_⟩
    rw [← h5, FIto.text_eq (a := i) (b := j) (by simp [FIto.start, he]) (by simp [FIto.stop, he])]
  · rw [if_neg he]
    obtain ⟨g1, g2⟩ := clone_sub h h1 h2 h3
    exact ⟨_, rfl, g1, by rw [g2, h5]⟩

/-- C14: slicing an Ito is slicing its text, for all bounds; it never raises. -/
theorem C14_slice (x : FIto α) (h : x.Valid) (a b : Option Int) :
    ∃ y, x.getItemSlice a b = .ok y ∧ SubIto y x ∧ y.text = PyStr.slice x.text a b :=
  getItem_window x h a b

theorem slice_single (s : List α) (k : Nat) (hk : k < s.length) :
    PyStr.slice s (some (k : Int)) (some ((k : Int) + 1)) = [s[k]] := by
  rw [show (k : Int) + 1 = ((k + 1 : Nat) : Int) by omega, slice_nat, List.drop_take,
    List.drop_eq_getElem_cons hk, show k + 1 - k = 1 by omega]
  rfl

/-- C14, partial: `ito[k]` for an int raises `IndexError` exactly when Python does; otherwise, for
`k ≥ 0` at any offset, and for `k < 0` when the Ito starts at offset 1 of its string, it has the one
character of Python's `str(ito)[k]`.  Missing: negative keys on Itos starting elsewhere, where the
claim is false (`C14_negative_index_violated`). -/
theorem C14_getitem_int_partial (x : FIto α) (h : x.Valid) (k : Int)
    (hk : 0 ≤ k ∨ x.start = 1 ∨ PyStr.getItem x.text k = none) :
    match PyStr.getItem x.text k with
    | none => x.getItemInt k = .error .indexError
    | some c => ∃ y, x.getItemInt k = .ok y ∧ SubIto y x ∧ y.text = [c] := by
  have hlen := FIto.len_eq_text h
  unfold PyStr.getItem at *
  unfold FIto.getItemInt
  rw [hlen]
  obtain ⟨a, b, ha, hb, hab, hl⟩ := h.exists_nat
  have htl := FIto.text_length ha hb hl
  by_cases h0 : 0 ≤ k
  · rw [if_pos h0]
    obtain ⟨n, rfl⟩ := Int.eq_ofNat_of_zero_le h0
    by_cases hn : n < x.text.length
    · rw [Int.toNat_natCast, List.getElem?_eq_getElem hn]
      simp only []
      rw [if_pos ⟨h0, by omega⟩]
      obtain ⟨y, h1, h2, h3⟩ := getItem_window x h (some (n : Int)) (some ((n : Int) + 1))
      unfold FIto.getItemSlice at h1
      exact ⟨y, h1, h2, by rw [h3, slice_single _ _ hn]⟩
    · rw [Int.toNat_natCast, List.getElem?_eq_none (by omega)]
      simp only []
      rw [if_neg (by omega), if_neg (by omega)]
      rfl
  · rw [if_neg h0] at hk ⊢
    by_cases hn : 0 ≤ k + x.text.length
    · rw [if_pos hn] at hk ⊢
      have hlt : (k + x.text.length).toNat < x.text.length := by omega
      rw [List.getElem?_eq_getElem hlt] at hk ⊢
      simp only [reduceCtorEq, or_false] at hk
      have hst : x.start = 1 := hk.resolve_left h0
      simp only []
      rw [if_neg (by omega), if_pos (by omega)]
      have hs : x.stop + k - 1 = (((k + x.text.length).toNat : Nat) : Int) := by omega
      rw [hs]
      obtain ⟨y, h1, h2, h3⟩ := getItem_window x h (some (((k + x.text.length).toNat : Nat) : Int))
        (some ((((k + x.text.length).toNat : Nat) : Int) + 1))
      unfold FIto.getItemSlice at h1
      exact ⟨y, h1, h2, by rw [h3, slice_single _ _ hlt]⟩
    · rw [if_neg hn]
      simp only []
      rw [if_neg (by omega), if_neg (by omega)]
      rfl

/-- C14 is false for negative integer keys in general: `Ito('abc')[-1]` is `'b'`, not `'c'`;
`Ito('xxabc', 2)[-1]` is empty. -/
theorem C14_negative_index_violated :
    (∃ y, (FIto.ofStr "abc".toList none none).getItemInt (-1) = .ok y ∧ y.text = ['b']) ∧
    PyStr.getItem (FIto.ofStr "abc".toList none none).text (-1) = some 'c' ∧
    (∃ y, (FIto.ofStr "xxabc".toList (some 2) none).getItemInt (-1) = .ok y ∧ y.text = []) :=
  ⟨⟨⟨"abc".toList, ⟨1, 2⟩, none⟩, by decide, by decide⟩, by decide,
    ⟨⟨"xxabc".toList, ⟨5, 5⟩, none⟩, by decide, by decide⟩⟩

/-- C14: iterating an Ito yields its characters in order, one Ito each. -/
theorem C14_iter (x : FIto α) (h : x.Valid) :
    x.iter.map FIto.text = x.text.map (fun c => [c]) ∧ ∀ p ∈ x.iter, SubIto p x := by
  obtain ⟨a, b, ha, hb, hab, hl⟩ := h.exists_nat
  have htl := FIto.text_length ha hb hl
  unfold FIto.iter
  rw [FIto.len_eq_text h]
  by_cases h1 : (x.text.length : Int) = 1
  · rw [if_pos h1]
    have : x.text.length = 1 := by omega
    obtain ⟨c, hc⟩ := List.length_eq_one_iff.mp this
    refine ⟨by simp [hc], by simpa using SubIto.refl h⟩
  · rw [if_neg h1]
    by_cases h2 : (x.text.length : Int) > 1
    · rw [if_pos h2, ha, hb, show ((b : Int) - a).toNat = x.text.length by omega]
      constructor
      · apply List.ext_getElem
        · simp
        · intro k hk1 hk2
          simp only [List.length_map, List.length_range] at hk1
          simp only [List.map_map, List.getElem_map, List.getElem_range, Function.comp]
          rw [show (a : Int) + k = ((a + k : Nat) : Int) by omega,
            show ((a + k : Nat) : Int) + 1 = ((a + k + 1 : Nat) : Int) by omega,
            FIto.clone_text x (by omega) (by omega)]
          have hg : x.text[k] = x.string[a + k]'(by omega) := by
            have := FIto.text_eq ha hb
            simp only [this, List.getElem_drop, List.getElem_take]
          rw [hg, List.drop_take, List.drop_eq_getElem_cons (by omega)]
          rw [show a + k + 1 - (a + k) = 1 by omega]
          rfl
      · intro p hp
        rw [List.mem_map] at hp
        obtain ⟨k, hk, rfl⟩ := hp
        rw [List.mem_range] at hk
        rw [show (a : Int) + k = ((a + k : Nat) : Int) by omega,
            show ((a + k : Nat) : Int) + 1 = ((a + k + 1 : Nat) : Int) by omega]
        exact (clone_sub h (by omega) (by omega) (by omega)).1
    · rw [if_neg h2]
      have : x.text = [] := List.length_eq_zero_iff.mp (by omega)
      simp [this]

example : ((FIto.ofStr "xabcx".toList (some 1) (some 4)).getItemInt (-1)).toOption.map FIto.text =
    some ['c'] := by decide
example : (FIto.ofStr "xabcx".toList (some 1) (some 4)).iter.map FIto.text =
    [['a'], ['b'], ['c']] := by decide

/-! ## C15 -/

/-- C15: `str_isalnum/isalpha/isdecimal/isdigit/isnumeric/isspace` — the predicates false on the
empty string — hold exactly when the text is non-empty and all characters satisfy the class;
`str_isascii` (true on the empty string) exactly when all do. -/
theorem C15_is_all (x : FIto α) (h : x.Valid) (p : α → Bool) :
    x.isAll p false = PyStr.allNonempty p x.text ∧ x.isAll p true = x.text.all p := by
  unfold FIto.isAll PyStr.allNonempty
  rw [FIto.rangeChars_eq h]
  obtain ⟨a, b, ha, hb, hab, hl⟩ := h.exists_nat
  have htl := FIto.text_length ha hb hl
  by_cases he : x.start = x.stop
  · have : x.text = [] := List.length_eq_zero_iff.mp (by omega)
    simp [he, this]
  · have : x.text ≠ [] := by
      intro h0; rw [h0] at htl; simp at htl; apply he; rw [ha, hb]; omega
    rw [if_neg he, if_neg he]
    simp [this]

/-- C15 is false for `str_isprintable`: it holds of a text with one printable character among
unprintable ones. Python requires all characters to be printable. -/
theorem C15_isprintable_violated :
    ∃ (x : FIto Char) (printable : Char → Bool), x.Valid ∧
      x.strIsprintable printable = true ∧ x.text.all printable = false :=
  ⟨FIto.ofStr "a\n".toList none none, (fun c => c ≠ '\n'), C01_ctor_valid _ _ _ _,
    by decide, by decide⟩

/-- C15, partial: on texts whose characters are all printable or all unprintable (in particular of
length at most one) `str_isprintable` is right. -/
theorem C15_isprintable_partial (x : FIto α) (h : x.Valid) (p : α → Bool)
    (hh : (∀ c ∈ x.text, p c = true) ∨ (∀ c ∈ x.text, p c = false)) :
    x.strIsprintable p = x.text.all p := by
  unfold FIto.strIsprintable FIto.isAny
  rw [FIto.rangeChars_eq h]
  obtain ⟨a, b, ha, hb, hab, hl⟩ := h.exists_nat
  have htl := FIto.text_length ha hb hl
  by_cases he : x.start = x.stop
  · have : x.text = [] := List.length_eq_zero_iff.mp (by omega)
    simp [he, this]
  · rw [if_neg he]
    have hne : x.text ≠ [] := by
      intro h0; rw [h0] at htl; simp at htl; apply he; rw [ha, hb]; omega
    generalize x.text = t at *
    cases t with
    | nil => simp at hne
    | cons c t =>
      rcases hh with hh | hh
      · rw [List.all_eq_true.mpr hh]
        simp [hh c (by simp)]
      · have : (c :: t).any p = false := by
          rw [List.any_eq_false]; intro d hd; simp [hh d hd]
        rw [this]
        simp [hh c (by simp)]

theorem casedLoop_eq (alpha q other : α → Bool) (t : List α)
    (hal : ∀ c ∈ t, alpha c = (q c || other c)) (hdis : ∀ c ∈ t, ¬ (q c = true ∧ other c = true))
    (al : Bool) :
    FIto.casedLoop alpha q al t = ((al || t.any q) && t.all (fun c => !other c)) := by
  induction t generalizing al with
  | nil => simp [FIto.casedLoop]
  | cons c t ih =>
    have ih' := ih (fun c hc => hal c (by simp [hc])) (fun c hc => hdis c (by simp [hc]))
    have h1 := hal c (by simp)
    have h2 := hdis c (by simp)
    unfold FIto.casedLoop
    rw [h1]
    cases al <;> cases hq : q c <;> cases ho : other c <;> simp_all

/-- C15, partial: `str_islower`/`str_isupper` agree with Python on texts in which every letter is
cased, i.e. `isalpha` holds exactly of the characters of the wanted or of another case.  Missing:
texts with uncased letters, where the claim is false (`C15_islower_violated`). -/
theorem C15_islower_partial (x : FIto α) (h : x.Valid) (alpha wanted other : α → Bool)
    (hal : ∀ c ∈ x.text, alpha c = (wanted c || other c))
    (hdis : ∀ c ∈ x.text, ¬ (wanted c = true ∧ other c = true)) :
    x.strIsCased alpha wanted = PyStr.isCase wanted other x.text := by
  unfold FIto.strIsCased PyStr.isCase
  rw [FIto.rangeChars_eq h, casedLoop_eq alpha wanted other x.text hal hdis]
  simp

/-- C15 is false for `str_islower` with uncased letters: Python's `'a中'.islower()` is `True`; the
Ito's is `False`, because `中` is a letter that is not lower case. -/
theorem C15_islower_violated :
    ∃ (x : FIto Char) (alpha lower upper : Char → Bool), x.Valid ∧
      x.strIsCased alpha lower = false ∧ PyStr.isCase lower upper x.text = true :=
  ⟨FIto.ofStr "a中".toList none none, (fun c => c == 'a' || c == '中'), (· == 'a'),
    (fun _ => false), C01_ctor_valid _ _ _ _, by decide, by decide⟩

example : (FIto.ofStr "xab1x".toList (some 1) (some 4)).strIsCased Char.isAlpha Char.isLower =
    true := by decide

end Pawpaw.Props
