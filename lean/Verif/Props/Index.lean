import Verif.Lemmas.Affix
/-!
# C01–C06: spans, nested Itos, and search methods against Python's `str`

Read with `Verif/Spec/PyStr.lean` (Python's semantics).  `FIto.Valid x` is
`0 ≤ start ≤ stop ≤ len(string)`; `C01_ctor_valid` shows every constructed Ito satisfies it.
-/
set_option linter.unusedSectionVars false
namespace Pawpaw.Props
open Pawpaw PyStr
variable {α : Type} [DecidableEq α]

/-! ## C01 -/

/-- C01 (bounds): the span is well-formed for every basis length and every pair of indices. -/
theorem C01_from_indices_bounds (n : Nat) (a b : Option Int) :
    0 ≤ (Span.fromIndices n a b).start ∧
    (Span.fromIndices n a b).start ≤ (Span.fromIndices n a b).stop ∧
    (Span.fromIndices n a b).stop ≤ n := by
  rw [fromIndices_eq]
  have := adjStart_nonneg n a
  have := adjEnd_nonneg n b
  have := adjEnd_le n b
  dsimp only
  omega

/-- C01 (agreement): the text selected by `Ito(s, a, b)` is Python's `s[a:b]`. -/
theorem C01_ito_text_is_slice (s : List α) (a b : Option Int) (d : Option String) :
    (FIto.ofStr s a b d).text = PyStr.slice s a b := by
  unfold FIto.text FIto.ofStr FIto.start FIto.stop
  rw [fromIndices_eq, slice_eq_adj s a b]
  have hs := adjStart_nonneg s.length a
  have he := adjEnd_nonneg s.length b
  have hel := adjEnd_le s.length b
  dsimp only
  rw [show min (s.length : Int) (adjStart s.length a) =
      ((min s.length (adjStart s.length a).toNat : Nat) : Int) by omega,
    show max ((min s.length (adjStart s.length a).toNat : Nat) : Int) (adjEnd s.length b) =
      ((max (min s.length (adjStart s.length a).toNat) (adjEnd s.length b).toNat : Nat) : Int)
      by omega, slice_nat]
  apply take_drop_congr
  omega

/-- C01: every Ito built from a string is valid. -/
theorem C01_ctor_valid (s : List α) (a b : Option Int) (d : Option String) :
    (FIto.ofStr s a b d).Valid := FIto.ofStr_valid s a b d

example : (FIto.ofStr "hello".toList (some (-4)) (some 100)).text = "ello".toList := by decide
example : (FIto.ofStr "hello".toList (some 4) (some 2)).text = [] := by decide

/-! ## C02 -/

/-- C02: `Ito(x, c, d)` never raises, stays over the same string and within `x`'s span, and its text
is `str(x)[c:d]`. -/
theorem C02_nested (x : FIto α) (h : x.Valid) (c d : Option Int) (desc : Option String) :
    ∃ y, x.ofIto c d desc = .ok y ∧ y.string = x.string ∧ y.Valid ∧
      x.start ≤ y.start ∧ y.stop ≤ x.stop ∧ y.text = PyStr.slice x.text c d := by
  obtain ⟨i, j, hw, h1, h2, h3, h4, h5⟩ := FIto.window_nat h c d
  have h0 : 0 ≤ x.start := h.1
  refine ⟨⟨x.string, ⟨i, j⟩, desc⟩, ?_, rfl, ?_, h1, h3, ?_⟩
  · unfold FIto.ofIto
    unfold FIto.window at hw
    rw [hw]
    rfl
  · unfold FIto.Valid; dsimp only; omega
  · rw [← h5, FIto.text_eq (a := i) (b := j) rfl rfl]

/-- C02, two levels from a string: `str(Ito(Ito(s,a,b),c,d)) = s[a:b][c:d]`. -/
theorem C02_nested_slices (s : List α) (a b c d : Option Int) :
    ∃ y, (FIto.ofStr s a b).ofIto c d = .ok y ∧
      y.text = PyStr.slice (PyStr.slice s a b) c d := by
  obtain ⟨y, h1, _, _, _, _, h2⟩ := C02_nested (FIto.ofStr s a b) (C01_ctor_valid s a b none) c d none
  exact ⟨y, h1, by rw [h2, C01_ito_text_is_slice]⟩

example : ((FIto.ofStr "abcdefg".toList (some 1) (some 6)).ofIto (some (-3)) (some (-1))).toOption.map
    FIto.text = some "de".toList := by decide

/-! ## C03 -/

/-- C03: `offset` shifts exactly, or raises; it raises exactly when the shift is non-zero and makes
an index negative. -/
theorem C03_offset (s : Span) (i : Int) :
    (s.offset i = .ok ⟨s.start + i, s.stop + i⟩ ∧ (i = 0 ∨ (0 ≤ s.start + i ∧ 0 ≤ s.stop + i))) ∨
    (s.offset i = .error .valueError ∧ i ≠ 0 ∧ (s.start + i < 0 ∨ s.stop + i < 0)) := by
  unfold Span.offset
  by_cases h : i = 0
  · subst h; left; simp
  · dsimp only
    by_cases h2 : s.start + i < 0 ∨ s.stop + i < 0
    · right; simp [h, h2]
    · left; simp only [h, h2, if_false]; refine ⟨trivial, Or.inr ?_⟩; omega

/-- C03: offsets compose. -/
theorem C03_offset_add (s t u : Span) (i j : Int) (h1 : s.offset i = .ok t)
    (h2 : t.offset j = .ok u) : u = ⟨s.start + (i + j), s.stop + (i + j)⟩ ∧
      (0 ≤ s.start → 0 ≤ s.stop → s.offset (i + j) = .ok u) := by
  have ht : t = ⟨s.start + i, s.stop + i⟩ := by
    rcases C03_offset s i with ⟨h, _⟩ | ⟨h, _⟩ <;> rw [h] at h1 <;> simp_all
  have hu : u = ⟨t.start + j, t.stop + j⟩ ∧ (j = 0 ∨ (0 ≤ t.start + j ∧ 0 ≤ t.stop + j)) := by
    rcases C03_offset t j with ⟨h, h'⟩ | ⟨h, _⟩ <;> rw [h] at h2 <;> simp_all
  have ht' : i = 0 ∨ (0 ≤ s.start + i ∧ 0 ≤ s.stop + i) := by
    rcases C03_offset s i with ⟨h, h'⟩ | ⟨h, _⟩
    · exact h'
    · rw [h] at h1; simp at h1
  subst ht
  obtain ⟨hu, hu'⟩ := hu
  dsimp only at hu hu'
  have hu2 : u = ⟨s.start + (i + j), s.stop + (i + j)⟩ := by rw [hu]; simp only [Int.add_assoc]
  refine ⟨hu2, fun hs0 hs1 => ?_⟩
  rcases C03_offset s (i + j) with ⟨h, _⟩ | ⟨h, h3, h4⟩
  · rw [h, hu2]
  · exfalso; omega

/-- C03: an offset of a non-negative span can be undone. -/
theorem C03_offset_inverse (s t : Span) (i : Int) (hs : 0 ≤ s.start ∧ 0 ≤ s.stop)
    (h : s.offset i = .ok t) : t.offset (-i) = .ok s := by
  have ht : t = ⟨s.start + i, s.stop + i⟩ := by
    rcases C03_offset s i with ⟨h', _⟩ | ⟨h', _⟩ <;> rw [h'] at h <;> simp_all
  rcases C03_offset t (-i) with ⟨h', _⟩ | ⟨_, h3, h4⟩
  · rw [h', ht]
    dsimp only
    rw [Int.add_assoc, Int.add_assoc, Int.add_right_neg, Int.add_zero, Int.add_zero]
  · rw [ht] at h4; dsimp only at h4; omega

example : (Span.mk 2 5).offset 3 = .ok ⟨5, 8⟩ ∧ (Span.mk 2 5).offset (-3) = .error .valueError := by
  decide

/-! ## C04 -/

/-- C04, partial: `str_find` is Python's `find` on the Ito's text, for every non-empty needle and
every start/end, and for the empty needle whenever the adjusted window is not crossed.
Missing: the empty needle with a crossed or out-of-range window, where the claim is false
(`C04_find_empty_violated`). -/
theorem C04_str_find_partial (x : FIto α) (h : x.Valid) (sub : List α) (st en : Option Int)
    (hsub : sub ≠ [] ∨ adjStart x.text.length st ≤ adjEnd x.text.length en) :
    x.strFind sub st en = .ok (PyStr.find x.text sub st en) := by
  unfold FIto.strFind
  have hw := FIto.window_eq h st en
  rw [hw]
  have hf := (FIto.find_window h hw sub hsub).1
  simp only [bind, Except.bind, pure, Except.pure]
  rw [hf]
  by_cases h1 : PyStr.find x.text sub st en = -1
  · simp [h1]
  · rw [if_neg h1]
    have h2 : PyStr.find x.text sub st en + x.start ≠ -1 := by
      have : 0 ≤ PyStr.find x.text sub st en := by
        unfold PyStr.find at h1 ⊢
        cases hc : (List.range (x.text.length + 1)).find? (okAt x.text sub st en) <;> simp_all
      have : 0 ≤ x.start := h.1
      omega
    rw [if_pos h2]
    congr 1
    omega

/-- C04, partial: `str_rfind`, same domain. -/
theorem C04_str_rfind_partial (x : FIto α) (h : x.Valid) (sub : List α) (st en : Option Int)
    (hsub : sub ≠ [] ∨ adjStart x.text.length st ≤ adjEnd x.text.length en) :
    x.strRfind sub st en = .ok (PyStr.rfind x.text sub st en) := by
  unfold FIto.strRfind
  have hw := FIto.window_eq h st en
  rw [hw]
  have hf := (FIto.find_window h hw sub hsub).2
  simp only [bind, Except.bind, pure, Except.pure]
  rw [hf]
  by_cases h1 : PyStr.rfind x.text sub st en = -1
  · simp [h1]
  · rw [if_neg h1]
    have h2 : PyStr.rfind x.text sub st en + x.start ≠ -1 := by
      have : 0 ≤ PyStr.rfind x.text sub st en := by
        unfold PyStr.rfind at h1 ⊢
        cases hc : (List.range (x.text.length + 1)).reverse.find? (okAt x.text sub st en) <;> simp_all
      have : 0 ≤ x.start := h.1
      omega
    rw [if_pos h2]
    congr 1
    omega

/-- C04, partial: `str_index` returns the position, or raises `ValueError` exactly when Python's
`find` is `-1` (i.e. when `str.index` raises). -/
theorem C04_str_index_partial (x : FIto α) (h : x.Valid) (sub : List α) (st en : Option Int)
    (hsub : sub ≠ [] ∨ adjStart x.text.length st ≤ adjEnd x.text.length en) :
    x.strIndex sub st en = if PyStr.find x.text sub st en = -1 then .error .valueError
      else .ok (PyStr.find x.text sub st en) := by
  unfold FIto.strIndex FIto.pyIndex
  have hw := FIto.window_eq h st en
  rw [hw]
  have hf := (FIto.find_window h hw sub hsub).1
  simp only [bind, Except.bind, pure, Except.pure]
  rw [hf]
  by_cases h1 : PyStr.find x.text sub st en = -1
  · simp [h1]
  · rw [if_neg h1]
    have h2 : ¬ PyStr.find x.text sub st en + x.start = -1 := by
      have : 0 ≤ PyStr.find x.text sub st en := by
        unfold PyStr.find at h1 ⊢
        cases hc : (List.range (x.text.length + 1)).find? (okAt x.text sub st en) <;> simp_all
      have : 0 ≤ x.start := h.1
      omega
    rw [if_neg h2, if_neg h1]
    simp only [Except.ok.injEq]
    omega

/-- C04, partial: `str_rindex`, likewise. -/
theorem C04_str_rindex_partial (x : FIto α) (h : x.Valid) (sub : List α) (st en : Option Int)
    (hsub : sub ≠ [] ∨ adjStart x.text.length st ≤ adjEnd x.text.length en) :
    x.strRindex sub st en = if PyStr.rfind x.text sub st en = -1 then .error .valueError
      else .ok (PyStr.rfind x.text sub st en) := by
  unfold FIto.strRindex FIto.pyRindex
  have hw := FIto.window_eq h st en
  rw [hw]
  have hf := (FIto.find_window h hw sub hsub).2
  simp only [bind, Except.bind, pure, Except.pure]
  rw [hf]
  by_cases h1 : PyStr.rfind x.text sub st en = -1
  · simp [h1]
  · rw [if_neg h1]
    have h2 : ¬ PyStr.rfind x.text sub st en + x.start = -1 := by
      have : 0 ≤ PyStr.rfind x.text sub st en := by
        unfold PyStr.rfind at h1 ⊢
        cases hc : (List.range (x.text.length + 1)).reverse.find? (okAt x.text sub st en) <;> simp_all
      have : 0 ≤ x.start := h.1
      omega
    rw [if_neg h2, if_neg h1]
    simp only [Except.ok.injEq]
    omega

/-- C04 is false for the empty needle: `'abc'.find('', 4)` is `-1`, but
`Ito('abc').str_find('', 4)` is `3`. -/
theorem C04_find_empty_violated :
    ∃ (x : FIto Char) (st : Option Int), x.Valid ∧
      x.strFind [] st none ≠ .ok (PyStr.find x.text [] st none) ∧
      x.strRfind [] st none ≠ .ok (PyStr.rfind x.text [] st none) :=
  ⟨FIto.ofStr "abc".toList none none, some 4, C01_ctor_valid _ _ _ _, by decide, by decide⟩

example : (FIto.ofStr "xabcabcx".toList (some 1) (some 7)).strFind "bc".toList (some (-4)) none =
    .ok 4 := by decide
example : (FIto.ofStr "xabcabcx".toList (some 1) (some 7)).strFind "cx".toList none none =
    .ok (-1) := by decide

/-! ## C05 -/

/-- C05, partial: `str_count` is Python's `count` on the text (same domain as C04). -/
theorem C05_str_count_partial (x : FIto α) (h : x.Valid) (sub : List α) (st en : Option Int)
    (hsub : sub ≠ [] ∨ adjStart x.text.length st ≤ adjEnd x.text.length en) :
    x.strCount sub st en = .ok (PyStr.count x.text sub st en) := by
  unfold FIto.strCount
  have hw := FIto.window_eq h st en
  have hl := FIto.window_list h hw
  obtain ⟨a, b, ha, hb, hab, hbl⟩ := h.exists_nat
  have htl := FIto.text_length ha hb hbl
  have hs := adjStart_nonneg x.text.length st
  have he := adjEnd_nonneg x.text.length en
  have hel := adjEnd_le x.text.length en
  rw [hw]
  simp only [bind, Except.bind, pure, Except.pure]
  congr 1
  unfold PyStr.count
  dsimp only at hl ⊢
  rw [ha] at hl ⊢
  rw [show (a : Int) + min (x.text.length : Int) (adjStart x.text.length st) =
        ((a + min x.text.length (adjStart x.text.length st).toNat : Nat) : Int) by omega,
      show (a : Int) + max (min (x.text.length : Int) (adjStart x.text.length st))
        (adjEnd x.text.length en) =
        ((a + max (min x.text.length (adjStart x.text.length st).toNat)
        (adjEnd x.text.length en).toNat : Nat) : Int) by omega] at hl ⊢
  rw [adjStart_some_nat, adjEnd_some_nat _ _ (by omega)]
  by_cases hn : sub = []
  · rw [if_pos hn, if_pos hn]
    have hle := hsub.resolve_left (fun h => h hn)
    rw [if_pos (by omega), if_pos hle]
    omega
  · rw [if_neg hn, if_neg hn, ← hl]

/-- C05 is false for the empty needle: `'abc'.count('', 4)` is `0`, `Ito('abc').str_count('', 4)`
is `1`. -/
theorem C05_count_empty_violated :
    ∃ (x : FIto Char) (st : Option Int), x.Valid ∧
      x.strCount [] st none ≠ .ok (PyStr.count x.text [] st none) :=
  ⟨FIto.ofStr "abc".toList none none, some 4, C01_ctor_valid _ _ _ _, by decide⟩

example : (FIto.ofStr "aaaaa".toList (some 1) none).Valid ∧ "aa".toList ≠ [] ∧
    (FIto.ofStr "aaaaa".toList (some 1) none).text = "aaaa".toList := by
  refine ⟨C01_ctor_valid _ _ _ _, by decide, by decide⟩

/-! ## C06 -/

/-- C06, partial: `str_startswith` is Python's `startswith` on the text, for every tuple of
prefixes, start and end — unless the tuple holds the empty string and `end < -len`.
Missing: exactly that case, where the claim is false (`C06_startswith_empty_violated`). -/
theorem C06_str_startswith_partial (x : FIto α) (h : x.Valid) (ps : List (List α))
    (st en : Option Int)
    (hp : [] ∉ ps ∨ ∀ e, en = some e → -(x.text.length : Int) ≤ e) :
    x.strStartswith ps st en = .ok (PyStr.startswithAny x.text ps st en) := by
  unfold FIto.strStartswith PyStr.startswithAny
  have hw := FIto.window_eq h st en
  cases hg : x.affixGuard st en with
  | true =>
    simp only [if_true, Except.ok.injEq]
    symm
    rw [List.any_eq_false]
    intro p hpm
    rw [Bool.not_eq_true]
    apply FIto.startswith_lt
    rcases hp with hp | hp
    · have : 0 < p.length := List.length_pos_iff.mpr (fun e => hp (e ▸ hpm))
      have := FIto.guard_true' h hg
      omega
    · have := FIto.guard_true h hg hp
      omega
  | false =>
    simp only [Bool.false_eq_true, if_false]
    rw [hw]
    simp only [bind, Except.bind, pure, Except.pure, Except.ok.injEq]
    congr 1
    funext p
    exact FIto.startswith_window h hw p (FIto.guard_false h hg)

/-- C06, partial: `str_endswith`, same domain. -/
theorem C06_str_endswith_partial (x : FIto α) (h : x.Valid) (ps : List (List α))
    (st en : Option Int)
    (hp : [] ∉ ps ∨ ∀ e, en = some e → -(x.text.length : Int) ≤ e) :
    x.strEndswith ps st en = .ok (PyStr.endswithAny x.text ps st en) := by
  unfold FIto.strEndswith PyStr.endswithAny
  have hw := FIto.window_eq h st en
  cases hg : x.affixGuard st en with
  | true =>
    simp only [if_true, Except.ok.injEq]
    symm
    rw [List.any_eq_false]
    intro p hpm
    rw [Bool.not_eq_true]
    apply FIto.endswith_lt
    rcases hp with hp | hp
    · have : 0 < p.length := List.length_pos_iff.mpr (fun e => hp (e ▸ hpm))
      have := FIto.guard_true' h hg
      omega
    · have := FIto.guard_true h hg hp
      omega
  | false =>
    simp only [Bool.false_eq_true, if_false]
    rw [hw]
    simp only [bind, Except.bind, pure, Except.pure, Except.ok.injEq]
    congr 1
    funext p
    exact FIto.endswith_window h hw p (FIto.guard_false h hg)

/-- C06 is false for the empty affix with `end < -len`: `'abc'.startswith('', -3, -4)` is `True` in
Python, `Ito('abc').str_startswith('', -3, -4)` is `False`; the same for `endswith`. -/
theorem C06_startswith_empty_violated :
    ∃ (x : FIto Char) (st en : Option Int), x.Valid ∧
      x.strStartswith [[]] st en ≠ .ok (PyStr.startswith x.text [] st en) ∧
      x.strEndswith [[]] st en ≠ .ok (PyStr.endswith x.text [] st en) :=
  ⟨FIto.ofStr "abc".toList none none, some (-3), some (-4), C01_ctor_valid _ _ _ _,
    by decide, by decide⟩

/-- C06: `str_eq(v)` holds exactly when the text is `v`. -/
theorem C06_str_eq (x : FIto α) (h : x.Valid) (v : List α) :
    x.strEq v = .ok (decide (x.text = v)) := by
  unfold FIto.strEq
  by_cases hl : x.len = v.length
  · rw [if_pos hl, C06_str_startswith_partial x h [v] none none (Or.inr (by simp))]
    rw [FIto.len_eq_text h] at hl
    have hl' : x.text.length = v.length := by omega
    simp only [PyStr.startswithAny, List.any_cons, List.any_nil, Bool.or_false, Except.ok.injEq]
    unfold PyStr.startswith okAt occursAt
    simp only [adjStart, adjEnd, Int.toNat_zero, List.drop_zero, ← hl', List.take_length]
    by_cases he : x.text = v <;> simp [he]
  · rw [if_neg hl]
    rw [FIto.len_eq_text h] at hl
    have : x.text ≠ v := by rintro rfl; exact hl rfl
    simp [this]

example : (FIto.ofStr "xabcx".toList (some 1) (some 4)).strStartswith ["bc".toList] (some 1) none =
    .ok true := by decide
example : (FIto.ofStr "xabcx".toList (some 1) (some 4)).strEndswith ["cx".toList] none none =
    .ok false := by decide

end Pawpaw.Props
