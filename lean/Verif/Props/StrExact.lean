import Verif.Props.StrOps
import Verif.Props.Tree
/-!
# C04–C07, C12–C15: exactly where the `str_…` methods agree with Python

`Props/Index.lean`, `Props/StrOps.lean` and `Props/Tree.lean` prove agreement on a domain and give a
counterexample outside it.  Here each of those domains is shown to be the largest possible one: on
every input outside it the answer is wrong, and what the answer is there is stated.
-/
set_option linter.unusedSectionVars false
namespace Pawpaw.Props
open Pawpaw PyStr SpanSpec TreeSpec
variable {α : Type} [DecidableEq α]

/-! ## C04, C05: the empty needle in a crossed window -/

theorem okAt_nil (s : List α) (st en : Option Int) (i : Nat) :
    okAt s [] st en i =
      (decide (adjStart s.length st ≤ (i : Int)) && decide ((i : Int) ≤ adjEnd s.length en)) := by
  unfold okAt occursAt
  simp

theorem find_crossed (s : List α) (st en : Option Int)
    (hx : adjEnd s.length en < adjStart s.length st) :
    PyStr.find s [] st en = -1 ∧ PyStr.rfind s [] st en = -1 := by
  have hno : ∀ j, okAt s [] st en j = false := by
    intro j
    rw [okAt_nil, Bool.and_eq_false_iff, decide_eq_false_iff_not, decide_eq_false_iff_not]
    omega
  unfold PyStr.find PyStr.rfind
  rw [(find?_range_iff _ _ none).mpr (fun j _ => hno j),
    (find?_reverse_range_iff _ _ none).mpr (fun j _ => hno j)]
  exact ⟨rfl, rfl⟩

theorem find_point (s : List α) (m : Nat) (hm : m ≤ s.length) :
    PyStr.find s [] (some (m : Int)) (some (m : Int)) = m ∧
    PyStr.rfind s [] (some (m : Int)) (some (m : Int)) = m := by
  have hok : ∀ j, okAt s [] (some (m : Int)) (some (m : Int)) j = decide (j = m) := by
    intro j
    rw [okAt_nil, adjStart_some_nat, adjEnd_some_nat _ _ hm, Bool.eq_iff_iff, Bool.and_eq_true,
      decide_eq_true_iff, decide_eq_true_iff, decide_eq_true_iff]
    omega
  unfold PyStr.find PyStr.rfind
  have hne : ∀ j, j ≠ m → okAt s [] (some (m : Int)) (some (m : Int)) j = false := by
    intro j hj; rw [hok]; exact decide_eq_false hj
  have he : okAt s [] (some (m : Int)) (some (m : Int)) m = true := by rw [hok]; simp
  rw [(find?_range_iff _ _ (some m)).mpr ⟨he, by omega, fun j hj => hne j (by omega)⟩,
    (find?_reverse_range_iff _ _ (some m)).mpr ⟨he, by omega, fun j hj _ => hne j (by omega)⟩]
  exact ⟨rfl, rfl⟩

/-- A crossed window is the empty one at its (clamped) start. -/
theorem window_crossed {x : FIto α} (h : x.Valid) {st en : Option Int}
    (hx : adjEnd x.text.length en < adjStart x.text.length st) :
    ∃ m : Nat, m ≤ x.text.length ∧ (m : Int) = min (x.text.length : Int) (adjStart x.text.length st) ∧
      x.window st en = x.window (some (m : Int)) (some (m : Int)) := by
  have h0 := adjEnd_nonneg x.text.length en
  have h1 := adjEnd_le x.text.length en
  refine ⟨(min (x.text.length : Int) (adjStart x.text.length st)).toNat, by omega, by omega, ?_⟩
  rw [FIto.window_eq h, FIto.window_eq h, adjStart_some_nat, adjEnd_some_nat _ _ (by omega)]
  congr 2 <;> omega

/-- C04 (the missing case): with the empty needle and a crossed window, Python's `find` and `rfind`
are `-1` (and `index`, `rindex` raise), while the four methods all return the window's start. -/
theorem C04_find_crossed (x : FIto α) (h : x.Valid) (st en : Option Int)
    (hx : adjEnd x.text.length en < adjStart x.text.length st) :
    PyStr.find x.text [] st en = -1 ∧ PyStr.rfind x.text [] st en = -1 ∧
    x.strFind [] st en = .ok (min (x.text.length : Int) (adjStart x.text.length st)) ∧
    x.strRfind [] st en = .ok (min (x.text.length : Int) (adjStart x.text.length st)) ∧
    x.strIndex [] st en = .ok (min (x.text.length : Int) (adjStart x.text.length st)) ∧
    x.strRindex [] st en = .ok (min (x.text.length : Int) (adjStart x.text.length st)) := by
  obtain ⟨m, hm, hme, hw⟩ := window_crossed h hx
  obtain ⟨c1, c2⟩ := find_crossed x.text st en hx
  obtain ⟨p1, p2⟩ := find_point x.text m hm
  have hle : ([] : List α) ≠ [] ∨ adjStart x.text.length (some (m : Int)) ≤
      adjEnd x.text.length (some (m : Int)) := by
    right; rw [adjStart_some_nat, adjEnd_some_nat _ _ hm]; omega
  have f1 := C04_str_find_partial x h [] (some (m : Int)) (some (m : Int)) hle
  have f2 := C04_str_rfind_partial x h [] (some (m : Int)) (some (m : Int)) hle
  have f3 := C04_str_index_partial x h [] (some (m : Int)) (some (m : Int)) hle
  have f4 := C04_str_rindex_partial x h [] (some (m : Int)) (some (m : Int)) hle
  rw [p1] at f1 f3
  rw [p2] at f2 f4
  rw [if_neg (by omega)] at f3 f4
  unfold FIto.strFind FIto.strRfind FIto.strIndex FIto.strRindex at *
  rw [hw, ← hme]
  exact ⟨c1, c2, f1, f2, f3, f4⟩

/-- C04, exact domain: `str_find` agrees with Python's `find` exactly when the needle is not empty or
the window is not crossed; the same for `str_rfind`. -/
theorem C04_find_exact (x : FIto α) (h : x.Valid) (sub : List α) (st en : Option Int) :
    (x.strFind sub st en = .ok (PyStr.find x.text sub st en) ↔
      sub ≠ [] ∨ adjStart x.text.length st ≤ adjEnd x.text.length en) ∧
    (x.strRfind sub st en = .ok (PyStr.rfind x.text sub st en) ↔
      sub ≠ [] ∨ adjStart x.text.length st ≤ adjEnd x.text.length en) := by
  have hs := adjStart_nonneg x.text.length st
  refine ⟨⟨fun he => ?_, C04_str_find_partial x h sub st en⟩,
    ⟨fun he => ?_, C04_str_rfind_partial x h sub st en⟩⟩
  all_goals
    by_cases hn : sub = []
    · subst hn
      by_cases hx : adjStart x.text.length st ≤ adjEnd x.text.length en
      · exact Or.inr hx
      · obtain ⟨c1, c2, f1, f2, _⟩ := C04_find_crossed x h st en (by omega)
        first | rw [f1, c1] at he | rw [f2, c2] at he
        simp only [Except.ok.injEq] at he
        omega
    · exact Or.inl hn

/-- C04, exact domain of `str_index` / `str_rindex`. -/
theorem C04_index_exact (x : FIto α) (h : x.Valid) (sub : List α) (st en : Option Int) :
    ((x.strIndex sub st en = if PyStr.find x.text sub st en = -1 then .error .valueError
        else .ok (PyStr.find x.text sub st en)) ↔
      sub ≠ [] ∨ adjStart x.text.length st ≤ adjEnd x.text.length en) ∧
    ((x.strRindex sub st en = if PyStr.rfind x.text sub st en = -1 then .error .valueError
        else .ok (PyStr.rfind x.text sub st en)) ↔
      sub ≠ [] ∨ adjStart x.text.length st ≤ adjEnd x.text.length en) := by
  refine ⟨⟨fun he => ?_, C04_str_index_partial x h sub st en⟩,
    ⟨fun he => ?_, C04_str_rindex_partial x h sub st en⟩⟩
  all_goals
    by_cases hn : sub = []
    · subst hn
      by_cases hx : adjStart x.text.length st ≤ adjEnd x.text.length en
      · exact Or.inr hx
      · obtain ⟨c1, c2, _, _, f1, f2⟩ := C04_find_crossed x h st en (by omega)
        first
          | rw [f1, c1, if_pos rfl] at he
          | rw [f2, c2, if_pos rfl] at he
        cases he
    · exact Or.inl hn

/-- C05, exact domain: `str_count` agrees with Python's `count` exactly there; elsewhere Python says
0 and pawpaw 1. -/
theorem C05_count_exact (x : FIto α) (h : x.Valid) (sub : List α) (st en : Option Int) :
    (x.strCount sub st en = .ok (PyStr.count x.text sub st en) ↔
      sub ≠ [] ∨ adjStart x.text.length st ≤ adjEnd x.text.length en) ∧
    (adjEnd x.text.length en < adjStart x.text.length st →
      x.strCount [] st en = .ok 1 ∧ PyStr.count x.text [] st en = 0) := by
  have hcr : adjEnd x.text.length en < adjStart x.text.length st →
      x.strCount [] st en = .ok 1 ∧ PyStr.count x.text [] st en = 0 := by
    intro hx
    obtain ⟨m, hm, hme, hw⟩ := window_crossed h hx
    have f := C05_str_count_partial x h [] (some (m : Int)) (some (m : Int))
      (Or.inr (by rw [adjStart_some_nat, adjEnd_some_nat _ _ hm]; omega))
    have hc : PyStr.count x.text [] (some (m : Int)) (some (m : Int)) = 1 := by
      unfold PyStr.count
      rw [adjStart_some_nat, adjEnd_some_nat _ _ hm]
      simp
    rw [hc] at f
    unfold FIto.strCount at f ⊢
    rw [hw]
    refine ⟨f, ?_⟩
    unfold PyStr.count
    simp only [if_true]
    rw [if_neg (by omega)]
  refine ⟨⟨fun he => ?_, C05_str_count_partial x h sub st en⟩, hcr⟩
  by_cases hn : sub = []
  · subst hn
    by_cases hx : adjStart x.text.length st ≤ adjEnd x.text.length en
    · exact Or.inr hx
    · obtain ⟨c1, c2⟩ := hcr (by omega)
      rw [c1, c2] at he
      simp at he
  · exact Or.inl hn

example : (FIto.ofStr "abcd".toList none none).strFind [] (some 3) (some 1) = .ok 3 ∧
    (FIto.ofStr "abcd".toList none none).strCount [] (some 9) none = .ok 1 := by decide

/-! ## C06: the empty affix -/

/-- The windows on which the early exit is wrong: a start at or before the text's beginning, given
negatively, and an `end` before that start. -/
def LowWindow (n : Nat) (st en : Option Int) : Prop :=
  ∃ s e : Int, st = some s ∧ en = some e ∧ s < 0 ∧ s ≤ -(n : Int) ∧ e < s

theorem guard_wrong {x : FIto α} (h : x.Valid) {st en : Option Int} :
    (x.affixGuard st en = true ∧ adjStart x.text.length st ≤ adjEnd x.text.length en) ↔
      LowWindow x.text.length st en := by
  unfold LowWindow FIto.affixGuard
  rw [FIto.len_eq_text h]
  cases st with
  | none => simp
  | some s =>
    cases en with
    | none =>
      simp only [adjStart, adjEnd, reduceCtorEq, false_and, and_false, exists_false, iff_false]
      rintro ⟨hg, hle⟩
      repeat' split at hg
      all_goals (try simp only [Bool.false_eq_true, decide_eq_true_eq] at hg)
      all_goals (split at hle <;> omega)
    | some e =>
      constructor
      · rintro ⟨hg, hle⟩
        refine ⟨s, e, rfl, rfl, ?_⟩
        simp only [adjStart, adjEnd] at hle
        simp only at hg
        repeat' split at hg
        all_goals (try simp only [Bool.false_eq_true, decide_eq_true_eq] at hg)
        all_goals (repeat' split at hle) <;> omega
      · rintro ⟨s', e', hs, he, h1, h2, h3⟩
        simp only [Option.some.injEq] at hs he
        subst hs; subst he
        simp only [adjStart, adjEnd]
        rw [if_neg (by omega), if_neg (by omega), if_neg (by omega)]
        refine ⟨?_, ?_⟩
        · rw [decide_eq_true_iff]
          split <;> omega
        · rw [if_pos h1, if_neg (by omega), if_pos (by omega)]
          omega

theorem startswith_nil (s : List α) (st en : Option Int)
    (h : adjStart s.length st ≤ adjEnd s.length en) :
    PyStr.startswith s [] st en = true ∧ PyStr.endswith s [] st en = true := by
  have h0 := adjStart_nonneg s.length st
  unfold PyStr.startswith PyStr.endswith
  rw [okAt_nil, okAt_nil]
  simp only [List.length_nil, Bool.and_eq_true, decide_eq_true_iff]
  omega

/-- C06, exact domain: `str_startswith` (and `str_endswith`) agree with Python exactly unless the
tuple holds the empty string and the window is a `LowWindow`; there Python says `True`, pawpaw
`False`. -/
theorem C06_affix_exact (x : FIto α) (h : x.Valid) (ps : List (List α)) (st en : Option Int) :
    (x.strStartswith ps st en = .ok (PyStr.startswithAny x.text ps st en) ↔
      ¬ ([] ∈ ps ∧ LowWindow x.text.length st en)) ∧
    (x.strEndswith ps st en = .ok (PyStr.endswithAny x.text ps st en) ↔
      ¬ ([] ∈ ps ∧ LowWindow x.text.length st en)) ∧
    ([] ∈ ps ∧ LowWindow x.text.length st en →
      x.strStartswith ps st en = .ok false ∧ PyStr.startswithAny x.text ps st en = true ∧
      x.strEndswith ps st en = .ok false ∧ PyStr.endswithAny x.text ps st en = true) := by
  have hbad : [] ∈ ps ∧ LowWindow x.text.length st en →
      x.strStartswith ps st en = .ok false ∧ PyStr.startswithAny x.text ps st en = true ∧
      x.strEndswith ps st en = .ok false ∧ PyStr.endswithAny x.text ps st en = true := by
    rintro ⟨hm, hlw⟩
    obtain ⟨hg, hle⟩ := (guard_wrong h).mpr hlw
    obtain ⟨n1, n2⟩ := startswith_nil x.text st en hle
    unfold FIto.strStartswith FIto.strEndswith PyStr.startswithAny PyStr.endswithAny
    rw [hg]
    refine ⟨rfl, List.any_eq_true.mpr ⟨[], hm, n1⟩, rfl, List.any_eq_true.mpr ⟨[], hm, n2⟩⟩
  have hgood : ¬ ([] ∈ ps ∧ LowWindow x.text.length st en) →
      x.strStartswith ps st en = .ok (PyStr.startswithAny x.text ps st en) ∧
      x.strEndswith ps st en = .ok (PyStr.endswithAny x.text ps st en) := by
    intro hn
    by_cases hm : ([] : List α) ∈ ps
    · have hlw : ¬ LowWindow x.text.length st en := fun hl => hn ⟨hm, hl⟩
      rw [← guard_wrong h] at hlw
      unfold FIto.strStartswith FIto.strEndswith PyStr.startswithAny PyStr.endswithAny
      have hw := FIto.window_eq h st en
      cases hg : x.affixGuard st en with
      | true =>
        have hlt : adjEnd x.text.length en < adjStart x.text.length st := by
          by_cases hle : adjStart x.text.length st ≤ adjEnd x.text.length en
          · exact absurd ⟨hg, hle⟩ hlw
          · omega
        simp only [if_true, Except.ok.injEq]
        constructor <;> symm <;> rw [List.any_eq_false] <;> intro p hpm <;> rw [Bool.not_eq_true]
        · exact FIto.startswith_lt (by omega)
        · exact FIto.endswith_lt (by omega)
      | false =>
        have hle := FIto.guard_false h hg
        simp only [Bool.false_eq_true, if_false]
        rw [hw]
        simp only [bind, Except.bind, pure, Except.pure, Except.ok.injEq]
        constructor <;> congr 1 <;> funext p
        · exact FIto.startswith_window h hw p hle
        · exact FIto.endswith_window h hw p hle
    · exact ⟨C06_str_startswith_partial x h ps st en (Or.inl hm),
        C06_str_endswith_partial x h ps st en (Or.inl hm)⟩
  refine ⟨⟨fun he hc => ?_, fun hn => (hgood hn).1⟩, ⟨fun he hc => ?_, fun hn => (hgood hn).2⟩, hbad⟩
  · obtain ⟨b1, b2, _⟩ := hbad hc
    rw [b1, b2] at he; simp at he
  · obtain ⟨_, _, b1, b2⟩ := hbad hc
    rw [b1, b2] at he; simp at he

example : LowWindow 3 (some (-3)) (some (-4)) ∧ ¬ LowWindow 3 (some (-2)) (some (-4)) ∧
    (FIto.ofStr "abc".toList none none).strEndswith [[], ['z']] (some (-5)) (some (-9)) = .ok false := by
  refine ⟨⟨-3, -4, rfl, rfl, by decide, by decide, by decide⟩, ?_, by decide⟩
  rintro ⟨s, e, hs, he, h1, h2, h3⟩
  simp only [Option.some.injEq] at hs he
  omega

/-! ## C07: the empty character set -/

theorem dropWhile_self (p : α → Bool) (l : List α) :
    l.dropWhile p = l ↔ ∀ c t, l = c :: t → p c = false := by
  cases l with
  | nil => simp
  | cons c t =>
    simp only [List.cons.injEq]
    constructor
    · intro he d u hd
      obtain ⟨rfl, rfl⟩ := hd
      cases hp : p c with
      | false => rfl
      | true =>
        rw [List.dropWhile_cons_of_pos hp] at he
        have := congrArg List.length he
        have h2 := (List.dropWhile_sublist p (l := t)).length_le
        simp at this; omega
    · intro hh
      rw [List.dropWhile_cons_of_neg (by simp [hh c t ⟨rfl, rfl⟩])]

/-- C07 (the missing case): for `chars == ''` Python strips nothing.  pawpaw strips white space, so it
is right exactly when there is none to strip at that end. -/
theorem C07_empty_chars (x : FIto α) (h : x.Valid) (ws : α → Bool) :
    (x.strLstrip ws (some [])).text = x.text.dropWhile ws ∧
    (x.strRstrip ws (some [])).text = PyStr.rstripBy ws x.text ∧
    PyStr.lstripBy (PyStr.stripSet ws (some [])) x.text = x.text ∧
    PyStr.rstripBy (PyStr.stripSet ws (some [])) x.text = x.text ∧
    ((x.strLstrip ws (some [])).text = x.text ↔ ∀ c t, x.text = c :: t → ws c = false) ∧
    ((x.strRstrip ws (some [])).text = x.text ↔ ∀ c t, x.text = t ++ [c] → ws c = false) := by
  have hp : FIto.stripPred ws (some []) = ws := rfl
  have hf : ∀ l : List α, l.dropWhile (PyStr.stripSet ws (some [])) = l := by
    intro l
    rw [dropWhile_self]
    intro c t _
    simp [PyStr.stripSet]
  have h1 := (lstrip_by x h ws (some [])).2
  have h2 := (rstrip_by x h ws (some [])).2
  rw [hp] at h1 h2
  refine ⟨h1, h2, hf _, ?_, ?_, ?_⟩
  · unfold PyStr.rstripBy; rw [hf, List.reverse_reverse]
  · rw [h1]; exact dropWhile_self ws x.text
  · rw [h2]
    unfold PyStr.rstripBy
    constructor
    · intro he c t ht
      have he' : x.text.reverse.dropWhile ws = x.text.reverse := by
        rw [← List.reverse_reverse (x.text.reverse.dropWhile ws), he]
      exact (dropWhile_self ws _).mp he' c t.reverse (by rw [ht]; simp)
    · intro hh
      rw [(dropWhile_self ws x.text.reverse).mpr, List.reverse_reverse]
      intro c t ht
      refine hh c t.reverse ?_
      rw [← List.reverse_reverse x.text, ht]; simp

example : ((FIto.ofStr " a ".toList none none).strLstrip (· == ' ') (some [])).text = "a ".toList := by
  decide

/-! ## C12: partition without an occurrence -/

theorem rfind_find_none (s sub : List α) :
    PyStr.rfind s sub none none = -1 ↔ PyStr.find s sub none none = -1 := by
  have h1 := find?_range_iff (okAt s sub none none) (s.length + 1) none
  have h2 := find?_reverse_range_iff (okAt s sub none none) (s.length + 1) none
  have h3 := h2.trans h1.symm
  unfold PyStr.find PyStr.rfind
  cases hf : (List.range (s.length + 1)).find? (okAt s sub none none) with
  | none => rw [h3.mpr hf]
  | some i =>
    cases hr : (List.range (s.length + 1)).reverse.find? (okAt s sub none none) with
    | none => rw [h3.mp hr] at hf; simp at hf
    | some j => dsimp only; omega

/-- C12, exact domain: `str_partition` and `str_rpartition` with a non-empty separator raise exactly
when the separator does not occur and some child begins before the Ito's end; otherwise they are
Python's. -/
theorem C12_partition_exact (s : List α) (n : Node) (h : WF n) (hl : n.stop ≤ s.length)
    (sep : List α) (hsep : sep ≠ []) :
    (n.strPartition s sep = .error .valueError ↔
      PyStr.find (n.flat s).text sep none none = -1 ∧ ∃ k ∈ n.kids, k.start < n.stop) ∧
    (n.strRpartition s sep = .error .valueError ↔
      PyStr.find (n.flat s).text sep none none = -1 ∧ ∃ k ∈ n.kids, k.start < n.stop) ∧
    (¬ (PyStr.find (n.flat s).text sep none none = -1 ∧ ∃ k ∈ n.kids, k.start < n.stop) →
      (∃ a b c, n.strPartition s sep = .ok (a, b, c) ∧
        ((a.flat s).text, (b.flat s).text, (c.flat s).text) =
          PyStr.partition (n.flat s).text sep) ∧
      ∃ a b c, n.strRpartition s sep = .ok (a, b, c) ∧
        ((a.flat s).text, (b.flat s).text, (c.flat s).text) =
          PyStr.rpartition (n.flat s).text sep) := by
  have hv := flat_valid h hl
  have hgood : ¬ (PyStr.find (n.flat s).text sep none none = -1 ∧ ∃ k ∈ n.kids, k.start < n.stop) →
      (∃ a b c, n.strPartition s sep = .ok (a, b, c) ∧
        ((a.flat s).text, (b.flat s).text, (c.flat s).text) =
          PyStr.partition (n.flat s).text sep) ∧
      ∃ a b c, n.strRpartition s sep = .ok (a, b, c) ∧
        ((a.flat s).text, (b.flat s).text, (c.flat s).text) =
          PyStr.rpartition (n.flat s).text sep := by
    intro hn
    by_cases hf : PyStr.find (n.flat s).text sep none none = -1
    · have hk : ∀ k ∈ n.kids, n.stop ≤ k.start := by
        intro k hk
        by_cases hlt : k.start < n.stop
        · exact absurd ⟨hf, k, hk, hlt⟩ hn
        · omega
      have hrf := (rfind_find_none _ _).mpr hf
      have hc : n.cloneWith s.length (some n.stop) none =
          .ok (.mk ⟨n.stop, n.stop⟩ n.desc n.vf n.kids) := by
        have h0 := h.start_nonneg
        have h1 := h.start_le
        rw [C23_clone_with s.length n h hl (some n.stop) none none true ⟨n.stop, n.stop⟩
          (by rw [fromIndices_span] <;> simp <;> omega)]
        · rfl
        · intro _ k hkm
          have := (h.kidsOK.1 _ (List.mem_map.mpr ⟨k, hkm, rfl⟩))
          have h2 := hk k hkm
          simp only [Node.start, Node.stop, Node.span] at *
          omega
      have ht : ((Node.mk ⟨n.stop, n.stop⟩ n.desc n.vf n.kids).flat s).text = [] := by
        obtain ⟨x, y, hx, hy, hxy, hyl⟩ := hv.exists_nat
        have hy' : n.stop = y := hy
        rw [FIto.text_eq (x := (Node.mk ⟨n.stop, n.stop⟩ n.desc n.vf n.kids).flat s) (a := y) (b := y)
          hy' hy', List.drop_eq_nil_of_le]
        rw [List.length_take]; omega
      have hp : PyStr.partition (n.flat s).text sep = ((n.flat s).text, [], []) := by
        unfold PyStr.partition; unfold PyStr.find at hf
        cases hq : (List.range ((n.flat s).text.length + 1)).find? (okAt (n.flat s).text sep none none) with
        | none => rfl
        | some i => rw [hq] at hf; dsimp only at hf; omega
      have hrp : PyStr.rpartition (n.flat s).text sep = ([], [], (n.flat s).text) := by
        unfold PyStr.rpartition; unfold PyStr.rfind at hrf
        cases hq : (List.range ((n.flat s).text.length + 1)).reverse.find?
            (okAt (n.flat s).text sep none none) with
        | none => rfl
        | some i => rw [hq] at hrf; dsimp only at hrf; omega
      unfold Node.strPartition Node.strRpartition
      rw [if_neg hsep, if_neg hsep, C04_str_find_partial _ hv sep none none (Or.inl hsep),
        C04_str_rfind_partial _ hv sep none none (Or.inl hsep), hf, hrf]
      simp only [bind, Except.bind, pure, Except.pure, hc]
      refine ⟨⟨_, _, _, rfl, ?_⟩, ⟨_, _, _, rfl, ?_⟩⟩
      · rw [ht, hp]
      · rw [ht, hrp]
    · obtain ⟨a, b, c, e1, e2, _⟩ := C12_str_partition_partial s n h hl sep hsep (Or.inl hf)
      obtain ⟨a', b', c', e1', e2', _⟩ := C12_str_rpartition_partial s n h hl sep hsep (Or.inl hf)
      exact ⟨⟨a, b, c, e1, e2⟩, ⟨a', b', c', e1', e2'⟩⟩
  have hbad : (PyStr.find (n.flat s).text sep none none = -1 ∧ ∃ k ∈ n.kids, k.start < n.stop) →
      n.strPartition s sep = .error .valueError ∧ n.strRpartition s sep = .error .valueError := by
    rintro ⟨hf, hk⟩
    exact C12_children_violated s n h hl sep hsep hk hf ((rfind_find_none _ _).mpr hf)
  refine ⟨⟨fun he => ?_, fun hc => (hbad hc).1⟩, ⟨fun he => ?_, fun hc => (hbad hc).2⟩, hgood⟩
  · refine Classical.byContradiction fun hn => ?_
    obtain ⟨⟨a, b, c, e, _⟩, _⟩ := hgood hn
    rw [e] at he; simp at he
  · refine Classical.byContradiction fun hn => ?_
    obtain ⟨_, ⟨a, b, c, e, _⟩⟩ := hgood hn
    rw [e] at he; simp at he

/-- A tree whose only child is zero-width at its end: no occurrence, and no error. -/
example : (Node.mk ⟨0, 2⟩ none .none [.mk ⟨2, 2⟩ none .none []]).strPartition "ab".toList ";".toList =
    .ok (.mk ⟨0, 2⟩ none .none [.mk ⟨2, 2⟩ none .none []],
      .mk ⟨2, 2⟩ none .none [.mk ⟨2, 2⟩ none .none []],
      .mk ⟨2, 2⟩ none .none [.mk ⟨2, 2⟩ none .none []]) := by decide

/-! ## C13: the empty suffix -/

/-- C13 (the missing case): `str_removesuffix('')` gives the empty text at the Ito's start, whatever
the Ito; Python's gives the text.  So it is right exactly for the empty Ito. -/
theorem C13_removesuffix_empty (x : FIto α) (h : x.Valid) :
    ∃ y, x.strRemovesuffix [] = .ok y ∧ SubIto y x ∧ y.text = [] ∧ y.start = x.start ∧
      PyStr.removesuffix x.text [] = x.text ∧
      (y.text = PyStr.removesuffix x.text [] ↔ x.text = []) := by
  have hpy : PyStr.removesuffix x.text [] = x.text := by
    unfold PyStr.removesuffix
    rw [if_pos (by rw [List.isSuffixOf_iff_suffix]; exact List.nil_suffix)]
    simp
  unfold FIto.strRemovesuffix
  rw [C06_str_endswith_partial x h [[]] none none (Or.inr (by simp))]
  have hsw : PyStr.endswithAny x.text [[]] none none = true := by
    simp only [PyStr.endswithAny, List.any_cons, List.any_nil, Bool.or_false]
    exact (startswith_nil x.text none none (by simp [adjStart, adjEnd])).2
  rw [hsw]
  simp only [bind, Except.bind, if_true]
  obtain ⟨y, h1, h2, h3, h4, h5, h6⟩ := C02_nested x h none (some (-(([] : List α).length : Int))) x.desc
  have hs := FIto.window_eq h none (some (-(([] : List α).length : Int)))
  have hy : y = ⟨x.string, ⟨x.start, x.start⟩, x.desc⟩ := by
    have h1' := h1
    unfold FIto.ofIto at h1'
    unfold FIto.window at hs
    rw [hs] at h1'
    simp only [bind, Except.bind, pure, Except.pure, Except.ok.injEq] at h1'
    rw [← h1']
    have : adjEnd x.text.length (some (-(([] : List α).length : Int))) = 0 := by
      simp [adjEnd]; omega
    rw [this]
    simp only [adjStart]
    congr 2 <;> omega
  have hsl : y.text = [] := by
    rw [h6]
    unfold PyStr.slice
    apply List.eq_nil_of_length_eq_zero
    rw [List.length_map, List.length_eq_zero_iff, List.filter_eq_nil_iff]
    rintro ⟨c, i⟩ _
    simp [normIndex]
  refine ⟨y, h1, ⟨h2, by rw [hy], h3, h4, h5⟩, hsl, by rw [hy]; rfl, hpy, ?_⟩
  rw [hsl, hpy]
  exact ⟨Eq.symm, Eq.symm⟩

example : ((FIto.ofStr "xabcx".toList (some 1) (some 4)).strRemovesuffix []).toOption.map
    (fun y => y.span) = some ⟨1, 1⟩ := by decide

/-! ## C14: negative keys -/

/-- C14 (the missing case): for a negative key in range, naming position `i` of the text, the result
is the one-character window ending at `start + i` of the *text* — the character wanted only when
the Ito starts at offset 1. -/
theorem C14_getitem_negative (x : FIto α) (h : x.Valid) (k : Int) (i : Nat)
    (hi : i < x.text.length) (hk : k = (i : Int) - x.text.length) :
    PyStr.getItem x.text k = some x.text[i] ∧
    ∃ y, x.getItemInt k = .ok y ∧ SubIto y x ∧
      y.text = PyStr.slice x.text (some (x.start + i - 1)) (some (x.start + i)) := by
  have hlen := FIto.len_eq_text h
  obtain ⟨a, b, ha, hb, hab, hl⟩ := h.exists_nat
  have htl := FIto.text_length ha hb hl
  constructor
  · unfold PyStr.getItem
    rw [if_neg (by omega), if_pos (by omega), show (k + x.text.length).toNat = i by omega]
    exact List.getElem?_eq_getElem hi
  · unfold FIto.getItemInt
    rw [hlen, if_neg (by omega), if_pos (by omega)]
    obtain ⟨y, h1, h2, h3⟩ := getItem_window x h (some (x.start + i - 1)) (some (x.start + i))
    unfold FIto.getItemSlice at h1
    refine ⟨y, ?_, h2, h3⟩
    rw [show x.stop + k - 1 = x.start + i - 1 by omega]
    dsimp only
    rw [show x.start + i - 1 + 1 = x.start + i by omega]
    exact h1

/-- C14: at offset 0 a negative key gives the character before the wanted one, and nothing for the
first; at offset `a > 1` the character `a - 1` places later, or nothing. -/
theorem C14_negative_texts (x : FIto α) (h : x.Valid) (k : Int) (i : Nat)
    (hi : i < x.text.length) (hk : k = (i : Int) - x.text.length) :
    ∃ y, x.getItemInt k = .ok y ∧
      (0 < x.start → y.text = (x.text.drop (x.start.toNat + i - 1)).take 1) ∧
      (x.start = 0 → 0 < i → y.text = (x.text.drop (i - 1)).take 1) ∧
      (x.start = 0 → i = 0 → y.text = []) := by
  obtain ⟨_, y, h1, _, h3⟩ := C14_getitem_negative x h k i hi hk
  refine ⟨y, h1, ?_, ?_, ?_⟩
  · intro hs
    rw [h3, show x.start + i - 1 = ((x.start.toNat + i - 1 : Nat) : Int) by omega,
      show x.start + i = ((x.start.toNat + i : Nat) : Int) by omega, slice_nat, List.drop_take]
    congr 1
    omega
  · intro hs hi0
    rw [h3, hs, show (0 : Int) + i - 1 = ((i - 1 : Nat) : Int) by omega,
      show (0 : Int) + i = ((i : Nat) : Int) by omega, slice_nat, List.drop_take]
    congr 1
    omega
  · rintro hs rfl
    rw [h3, hs]
    unfold PyStr.slice
    apply List.eq_nil_of_length_eq_zero
    rw [List.length_map, List.length_eq_zero_iff, List.filter_eq_nil_iff]
    rintro ⟨c, j⟩ _
    simp [normIndex]

example : (FIto.ofStr "xxabcde".toList (some 2) none).getItemInt (-5) =
    (FIto.ofStr "xxabcde".toList (some 2) none).getItemInt 1 := by decide

/-! ## C15 -/

/-- C15, exact domain: `str_isprintable` is right exactly on texts whose characters are all printable
or all unprintable. -/
theorem C15_isprintable_exact (x : FIto α) (h : x.Valid) (p : α → Bool) :
    (x.strIsprintable p = x.text.all p ↔
      (∀ c ∈ x.text, p c = true) ∨ (∀ c ∈ x.text, p c = false)) ∧
    (x.strIsprintable p = (x.text.isEmpty || x.text.any p)) := by
  have he : x.strIsprintable p = (x.text.isEmpty || x.text.any p) := by
    unfold FIto.strIsprintable FIto.isAny
    rw [FIto.rangeChars_eq h]
    obtain ⟨a, b, ha, hb, hab, hl⟩ := h.exists_nat
    have htl := FIto.text_length ha hb hl
    by_cases he : x.start = x.stop
    · have : x.text = [] := List.length_eq_zero_iff.mp (by omega)
      simp [he, this]
    · have : x.text ≠ [] := by
        intro h0; rw [h0] at htl; simp at htl; apply he; rw [ha, hb]; omega
      rw [if_neg he]
      cases ht : x.text with
      | nil => exact absurd ht this
      | cons c t => simp
  refine ⟨⟨fun hq => ?_, C15_isprintable_partial x h p⟩, he⟩
  rw [he] at hq
  cases hall : x.text.all p with
  | true => exact Or.inl (List.all_eq_true.mp hall)
  | false =>
    right
    rw [hall, Bool.or_eq_false_iff, List.any_eq_false] at hq
    intro c hc
    simpa using hq.2 c hc

theorem casedLoop_exact (alpha q : α → Bool) (t : List α) (al : Bool) :
    FIto.casedLoop alpha q al t =
      ((al || t.any alpha) && t.all (fun c => !alpha c || q c)) := by
  induction t generalizing al with
  | nil => simp [FIto.casedLoop]
  | cons c t ih =>
    unfold FIto.casedLoop
    cases ha : alpha c <;> cases hq : q c <;> cases al <;> simp_all

/-- C15, what `str_islower`/`str_isupper` compute on every text: some letter, and every letter of the
wanted case. -/
theorem C15_iscased_exact (x : FIto α) (h : x.Valid) (alpha wanted : α → Bool) :
    x.strIsCased alpha wanted = true ↔
      (∃ c ∈ x.text, alpha c = true) ∧ ∀ c ∈ x.text, alpha c = true → wanted c = true := by
  unfold FIto.strIsCased
  rw [FIto.rangeChars_eq h, casedLoop_exact, Bool.false_or, Bool.and_eq_true, List.any_eq_true,
    List.all_eq_true]
  refine and_congr Iff.rfl (forall_congr' fun c => forall_congr' fun _ => ?_)
  cases alpha c <;> cases wanted c <;> simp

/-- C15, exact domain of `str_islower`/`str_isupper`: with `wanted` and `other` the cased characters
of the two kinds, the answer differs from Python's exactly when one of these holds: (1) there is a
wanted character, no other-cased one, but no letter or some letter that is not wanted; (2) there is
a letter, all letters are wanted, but there is no wanted character or an other-cased non-letter. -/
theorem C15_iscased_diff (x : FIto α) (h : x.Valid) (alpha wanted other : α → Bool) :
    x.strIsCased alpha wanted = PyStr.isCase wanted other x.text ↔
      (((∃ c ∈ x.text, alpha c = true) ∧ ∀ c ∈ x.text, alpha c = true → wanted c = true) ↔
        ((∃ c ∈ x.text, wanted c = true) ∧ ∀ c ∈ x.text, other c = false)) := by
  rw [Bool.eq_iff_iff, C15_iscased_exact x h]
  unfold PyStr.isCase
  rw [Bool.and_eq_true, List.any_eq_true, List.all_eq_true]
  simp only [Bool.not_eq_true']

example : (FIto.ofStr "a\nb".toList none none).strIsprintable (fun c => c ≠ '\n') = true ∧
    (FIto.ofStr "a中".toList none none).strIsCased (fun c => c == 'a' || c == '中') (· == 'a') = false := by
  decide

end Pawpaw.Props
