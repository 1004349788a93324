import Verif.Model.LineCol
import Verif.Lemmas.Split
/-!
# C49: `to_line_col`
-/
set_option linter.unusedSectionVars false
namespace PyStr
variable {α : Type} [DecidableEq α]

/-- `sep` cannot overlap itself: no proper non-empty beginning of it is also an ending.  (`"\n"`, `"\r\n"`) -/
def NoOverlap (sep : List α) : Prop := ∀ k, 0 < k → k < sep.length → sep.drop k ≠ sep.take (sep.length - k)

instance (sep : List α) : Decidable (NoOverlap sep) :=
  decidable_of_iff (∀ k, k < sep.length → 0 < k → sep.drop k ≠ sep.take (sep.length - k))
    ⟨fun h k a b => h k b a, fun h k a b => h k b a⟩

theorem firstOcc_none {w sep : List α} (h : firstOcc w sep = none) (i : Nat) : okAt w sep none none i = false := by
  unfold firstOcc at h
  rw [find?_range_iff] at h
  by_cases hi : i < w.length + 1
  · exact h i hi
  · rw [okAt_none]
    have : ¬ i + sep.length ≤ w.length := by omega
    simp [this]

theorem firstOcc_spec {w sep : List α} {j : Nat} (h : firstOcc w sep = some j) :
    okAt w sep none none j = true ∧ ∀ i < j, okAt w sep none none i = false := by
  unfold firstOcc at h
  rw [find?_range_iff] at h
  exact ⟨h.1, h.2.2⟩

theorem firstOcc_eq_some {w sep : List α} {j : Nat} (h1 : okAt w sep none none j = true)
    (h2 : ∀ i < j, okAt w sep none none i = false) : firstOcc w sep = some j := by
  unfold firstOcc
  rw [find?_range_iff]
  refine ⟨h1, ?_, h2⟩
  rw [okAt_none] at h1
  simp only [Bool.and_eq_true, decide_eq_true_eq] at h1
  omega

theorem lastOcc_spec {w sep : List α} {j : Nat} (h : lastOcc w sep = some j) :
    okAt w sep none none j = true ∧ ∀ i, j < i → okAt w sep none none i = false := by
  unfold lastOcc at h
  rw [find?_reverse_range_iff] at h
  refine ⟨h.1, fun i hi => ?_⟩
  by_cases hi' : i < w.length + 1
  · exact h.2.2 i hi hi'
  · rw [okAt_none]
    have : ¬ i + sep.length ≤ w.length := by omega
    simp [this]

theorem lastOcc_none {w sep : List α} (h : lastOcc w sep = none) (i : Nat) : okAt w sep none none i = false := by
  unfold lastOcc at h
  rw [find?_reverse_range_iff] at h
  by_cases hi : i < w.length + 1
  · exact h i hi
  · rw [okAt_none]
    have : ¬ i + sep.length ≤ w.length := by omega
    simp [this]

end PyStr

namespace PyStr
variable {α : Type} [DecidableEq α]

theorem okAt_drop (w sep : List α) {k : Nat} (hk : k ≤ w.length) (i : Nat) :
    okAt (w.drop k) sep none none i = okAt w sep none none (k + i) := by
  rw [okAt_none, okAt_none]
  unfold occursAt
  rw [List.drop_drop, List.length_drop]
  congr 1
  apply decide_eq_decide.mpr
  omega

theorem okAt_take (w sep : List α) {b : Nat} (hb : b ≤ w.length) (i : Nat) :
    okAt (w.take b) sep none none i = (decide (i + sep.length ≤ b) && okAt w sep none none i) := by
  rw [okAt_none, okAt_none]
  unfold occursAt
  rw [List.length_take, Nat.min_eq_left hb]
  by_cases h : i + sep.length ≤ b
  · have h2 : i + sep.length ≤ w.length := by omega
    simp only [h, h2, decide_true, Bool.true_and]
    rw [List.drop_take, List.take_take, Nat.min_eq_left (by omega)]
  · simp [h]

theorem no_overlap {sep : List α} (hn : NoOverlap sep) {w : List α} {i j : Nat} (hij : i < j)
    (hi : okAt w sep none none i = true) (hj : okAt w sep none none j = true) : i + sep.length ≤ j := by
  rw [okAt_none] at hi hj
  simp only [Bool.and_eq_true, decide_eq_true_eq, occursAt, beq_iff_eq] at hi hj
  apply Decidable.byContradiction
  intro hlt
  apply hn (j - i) (by omega) (by omega)
  have e1 : sep.drop (j - i) = (w.drop j).take (sep.length - (j - i)) := by
    rw [show sep.drop (j - i) = ((w.drop i).take sep.length).drop (j - i) by rw [hi.2], List.drop_take,
      List.drop_drop]
    congr 2
    omega
  rw [e1]
  have e2 : sep.take (sep.length - (j - i)) = ((w.drop j).take sep.length).take (sep.length - (j - i)) := by rw [hj.2]
  rw [e2, List.take_take, Nat.min_eq_left (by omega)]

theorem countIn_eq (sep : List α) (hs : sep ≠ []) (w : List α) :
    countIn sep w = match firstOcc w sep with
      | none => 0
      | some j => 1 + countIn sep (w.drop (j + sep.length)) := by
  induction w with
  | nil => rw [firstOcc_nil sep hs, countIn]
  | cons c t ih =>
    rw [firstOcc_cons, countIn]
    by_cases h : sep.isPrefixOf (c :: t) = true
    · rw [if_pos ⟨hs, h⟩, if_pos h]
      simp
    · rw [if_neg (fun hh => h hh.2), if_neg h, ih]
      cases firstOcc t sep with
      | none => rfl
      | some j => simp [Nat.add_right_comm]

theorem split_length (sep : List α) (hs : sep ≠ []) (w : List α) (m : Int) (hm : m < 0) :
    (split w sep m).length = countIn sep w + 1 := by
  induction hn : w.length using Nat.strongRecOn generalizing w m with
  | _ n ih =>
    rw [split_cons w sep hs m (by omega), countIn_eq sep hs]
    cases hf : firstOcc w sep with
    | none => rfl
    | some j =>
      have := (firstOcc_some hf).2
      have hl : 0 < sep.length := List.length_pos_iff.mpr hs
      simp only [List.length_cons]
      rw [ih (w.drop (j + sep.length)).length (by simp; omega) (w.drop (j + sep.length)) (m - 1) (by omega) rfl]
      omega

theorem last_line {sep : List α} (hs : sep ≠ []) (hn : NoOverlap sep) (w : List α) (m : Int) (hm : m < 0) :
    (lastOcc w sep = none → countIn sep w = 0 ∧ (split w sep m).getLast? = some w) ∧
    (∀ j, lastOcc w sep = some j → countIn sep w = countIn sep (w.take j) + 1 ∧
      (split w sep m).getLast? = some (w.drop (j + sep.length))) := by
  induction hk : w.length using Nat.strongRecOn generalizing w m with
  | _ n ih =>
    have hl : 0 < sep.length := List.length_pos_iff.mpr hs
    rw [split_cons w sep hs m (by omega), countIn_eq sep hs]
    cases hf : firstOcc w sep with
    | none =>
      refine ⟨fun _ => ⟨rfl, rfl⟩, fun j hj => ?_⟩
      have := (lastOcc_spec hj).1
      rw [firstOcc_none hf j] at this
      cases this
    | some i =>
      obtain ⟨hi, hi'⟩ := firstOcc_spec hf
      have hle := (firstOcc_some hf).2
      refine ⟨fun h => ?_, fun j hj => ?_⟩
      · rw [lastOcc_none h i] at hi; cases hi
      obtain ⟨hj1, hj2⟩ := lastOcc_spec hj
      have hjle := (lastOcc_some hj).2
      have hsp : ∀ l : List (List α), l ≠ [] → (w.take i :: l).getLast? = l.getLast? := by
        intro l hl; cases l with
        | nil => exact absurd rfl hl
        | cons a l => simp [List.getLast?_cons_cons]
      have hne : split (w.drop (i + sep.length)) sep (m - 1) ≠ [] := by
        intro h
        have := split_length sep hs (w.drop (i + sep.length)) (m - 1) (by omega)
        rw [h] at this
        simp at this
      simp only [hsp _ hne]
      obtain ⟨ih1, ih2⟩ := ih (w.drop (i + sep.length)).length (by simp; omega) (w.drop (i + sep.length)) (m - 1)
        (by omega) rfl
      by_cases hij : j = i
      · subst hij
        have hno : lastOcc (w.drop (j + sep.length)) sep = none := by
          cases hL : lastOcc (w.drop (j + sep.length)) sep with
          | none => rfl
          | some k =>
            have := (lastOcc_spec hL).1
            rw [okAt_drop w sep hle, hj2 _ (by omega)] at this
            cases this
        have h0 : countIn sep (w.take j) = 0 := by
          rw [countIn_eq sep hs]
          cases hF : firstOcc (w.take j) sep with
          | none => rfl
          | some k =>
            have h1 := (firstOcc_spec hF).1
            rw [okAt_take w sep (by omega)] at h1
            simp only [Bool.and_eq_true, decide_eq_true_eq] at h1
            rw [hi' k (by omega)] at h1
            cases h1.2
        rw [(ih1 hno).1, (ih1 hno).2, h0]
        exact ⟨rfl, rfl⟩
      · have hlt : i < j := by
          rcases Nat.lt_trichotomy j i with h | h | h
          · rw [hi' j h] at hj1; cases hj1
          · exact absurd h hij
          · exact h
        have hov := no_overlap hn hlt hi hj1
        have hL : lastOcc (w.drop (i + sep.length)) sep = some (j - (i + sep.length)) := by
          unfold lastOcc
          rw [find?_reverse_range_iff]
          refine ⟨?_, by simp; omega, fun k hk _ => ?_⟩
          · rw [okAt_drop w sep hle, show i + sep.length + (j - (i + sep.length)) = j by omega]; exact hj1
          · rw [okAt_drop w sep hle]; exact hj2 _ (by omega)
        obtain ⟨c1, c2⟩ := ih2 _ hL
        rw [c1, c2]
        have hF : firstOcc (w.take j) sep = some i := by
          apply firstOcc_eq_some
          · rw [okAt_take w sep (by omega), hi]; simpa using hov
          · intro k hk
            rw [okAt_take w sep (by omega), hi' k hk, Bool.and_false]
        refine ⟨?_, ?_⟩
        · rw [countIn_eq sep hs (w.take j), hF]
          simp only
          rw [List.drop_take]
          omega
        · rw [List.drop_drop]
          congr 2
          omega

/-- The pieces of a prefix of a text, but for the last, are the first pieces of the text. -/
theorem split_prefix {sep : List α} (hs : sep ≠ []) (p r : List α) (m m' : Int) (hm : m < 0) (hm' : m' < 0) :
    ∃ hd u rest, split p sep m = hd ++ [u] ∧ split (p ++ r) sep m' = hd ++ rest ∧ rest ≠ [] := by
  induction hk : p.length using Nat.strongRecOn generalizing p m m' with
  | _ n ih =>
    have hl : 0 < sep.length := List.length_pos_iff.mpr hs
    rw [split_cons p sep hs m (by omega)]
    cases hf : firstOcc p sep with
    | none =>
      refine ⟨[], p, split (p ++ r) sep m', rfl, rfl, ?_⟩
      intro h
      have := split_length sep hs (p ++ r) m' hm'
      rw [h] at this
      simp at this
    | some i =>
      obtain ⟨hi, hi'⟩ := firstOcc_spec hf
      have hle := (firstOcc_some hf).2
      have hp : p = (p ++ r).take p.length := by simp
      have hF : firstOcc (p ++ r) sep = some i := by
        have key : ∀ k, k + sep.length ≤ p.length → okAt p sep none none k = okAt (p ++ r) sep none none k := by
          intro k hk
          conv => lhs; rw [hp]
          rw [okAt_take _ sep (by simp)]
          simp [hk]
        apply firstOcc_eq_some
        · rw [← key i hle]; exact hi
        · intro k hk; rw [← key k (by omega)]; exact hi' k hk
      obtain ⟨hd, u, rest, e1, e2, e3⟩ := ih (p.drop (i + sep.length)).length (by simp; omega)
        (p.drop (i + sep.length)) (m - 1) (m' - 1) (by omega) (by omega) rfl
      refine ⟨p.take i :: hd, u, rest, by simp only [e1]; rfl, ?_, e3⟩
      rw [split_cons (p ++ r) sep hs m' (by omega), hF]
      simp only
      rw [List.take_append_of_le_length (by omega), List.drop_append_of_le_length (by omega), e2]
      rfl

theorem intercalate_length (sep : List α) (hd : List (List α)) (u : List α) :
    (sep.intercalate (hd ++ [u])).length = (hd.map (fun l => l.length + sep.length)).sum + u.length := by
  induction hd with
  | nil => simp [List.intercalate]
  | cons a hd ih =>
    cases hd with
    | nil => simp [List.intercalate, List.intersperse]; omega
    | cons b hd =>
      have : sep.intercalate (a :: b :: hd ++ [u]) = a ++ sep ++ sep.intercalate (b :: hd ++ [u]) := by
        simp [List.intercalate, List.intersperse]
      rw [this]
      simp only [List.length_append, List.map_cons, List.sum_cons] at ih ⊢
      omega

/-- Number of pieces and length of the last piece of `s[:a]` determine `a`. -/
theorem prefix_unique {sep : List α} (hs : sep ≠ []) (s : List α) {a b : Nat} (ha : a ≤ s.length) (hb : b ≤ s.length)
    (h1 : (split (s.take a) sep (-1)).length = (split (s.take b) sep (-1)).length)
    (h2 : ((split (s.take a) sep (-1)).getLast?.map List.length) = ((split (s.take b) sep (-1)).getLast?.map List.length)) :
    a = b := by
  have main : ∀ a b, a ≤ b → b ≤ s.length →
      (split (s.take a) sep (-1)).length = (split (s.take b) sep (-1)).length →
      ((split (s.take a) sep (-1)).getLast?.map List.length) = ((split (s.take b) sep (-1)).getLast?.map List.length) →
      a = b := by
    intro a b hab hb h1 h2
    have hsplit : s.take b = s.take a ++ (s.take b).drop a := by
      rw [show s.take a = (s.take b).take a by rw [List.take_take, Nat.min_eq_left hab], List.take_append_drop]
    obtain ⟨hd, u, rest, e1, e2, e3⟩ := split_prefix hs (s.take a) ((s.take b).drop a) (-1) (-1) (by omega) (by omega)
    rw [← hsplit] at e2
    have i1 := (splitGo_intercalate sep hs (limitOf (-1)) [] (s.take a)).1
    have i2 := (splitGo_intercalate sep hs (limitOf (-1)) [] (s.take b)).1
    change sep.intercalate (split (s.take a) sep (-1)) = _ at i1
    change sep.intercalate (split (s.take b) sep (-1)) = _ at i2
    rw [e1, e2] at h1 h2
    obtain ⟨v, rfl⟩ : ∃ v, rest = [v] := by
      cases rest with
      | nil => exact absurd rfl e3
      | cons v rest =>
        simp at h1
        exact ⟨v, by rw [h1]⟩
    have huv : u.length = v.length := by simpa using h2
    have l1 := congrArg List.length i1
    have l2 := congrArg List.length i2
    rw [e1, intercalate_length] at l1
    rw [e2, intercalate_length] at l2
    simp at l1 l2
    omega
  rcases Nat.le_total a b with h | h
  · exact main a b h hb h1 h2
  · exact (main b a h ha h1.symm h2.symm).symm

end PyStr

namespace Pawpaw.Props
open PyStr
variable {α : Type} [DecidableEq α]

/-- C49: for an end-of-line marker that cannot overlap itself, `to_line_col` is (number of lines, length of
the last line + 1) of the text before the Ito, as Python's `split` cuts it.  Missing: markers that can
overlap themselves, where it is false, see `C49_overlap_violated`. -/
theorem C49_line_col_partial (x : FIto α) (hx : x.Valid) (eol : List α) (he : eol ≠ []) (hn : NoOverlap eol) :
    ∃ lines last, split (x.string.take x.start.toNat) eol (-1) = lines ++ [last] ∧
      x.toLineCol eol = ((lines.length : Int) + 1, (last.length : Int) + 1) := by
  obtain ⟨a, b, ha, hb, hab, hbl⟩ := hx.exists_nat
  have hr := (FIto.find_between x.string eol (i := 0) (b := a) (by omega) (by omega)).2
  rw [List.drop_zero] at hr
  have hl := last_line he hn (x.string.take a) (-1) (by omega)
  have hlen := split_length eol he (x.string.take a) (-1) (by omega)
  have hlw : (x.string.take a).length = a := by simp; omega
  rw [ha, Int.toNat_natCast]
  unfold FIto.toLineCol
  simp only [ha]
  rw [show (some (0 : Int)) = some ((0 : Nat) : Int) from rfl, hr]
  have hcut : ∀ u, (split (x.string.take a) eol (-1)).getLast? = some u →
      ∃ lines, split (x.string.take a) eol (-1) = lines ++ [u] := by
    intro u h
    exact ⟨_, ((List.getLast?_eq_some_iff).mp h).choose_spec⟩
  cases hL : lastOcc (x.string.take a) eol with
  | none =>
    obtain ⟨c1, c2⟩ := hl.1 hL
    obtain ⟨lines, e⟩ := hcut _ c2
    refine ⟨lines, _, e, ?_⟩
    rw [e, c1] at hlen
    simp at hlen
    simp [hlen]
    omega
  | some j =>
    obtain ⟨c1, c2⟩ := hl.2 j hL
    obtain ⟨lines, e⟩ := hcut _ c2
    have hj := (lastOcc_some hL).2
    refine ⟨lines, _, e, ?_⟩
    rw [e, c1] at hlen
    simp only [List.length_append, List.length_cons, List.length_nil] at hlen
    simp only
    rw [if_neg (by omega)]
    have hc : PyStr.count x.string eol (some ((0 : Nat) : Int)) (some (((0 : Nat) : Int) + (j : Int))) =
        countIn eol ((x.string.take a).take j) := by
      unfold PyStr.count
      simp only [adjStart, adjEnd]
      rw [if_neg he]
      rw [List.take_take, Nat.min_eq_left (by omega)]
      have h1 : ¬ (((0 : Nat) : Int) + (j : Int) > (x.string.length : Int)) := by omega
      have h2 : ¬ (((0 : Nat) : Int) + (j : Int) < 0) := by omega
      rw [if_neg h1, if_neg h2, if_neg (by omega), show (((0 : Nat) : Int) + (j : Int)).toNat = j by omega]
      rfl
    rw [hc]
    simp only [Prod.mk.injEq, List.length_drop]
    omega

/-- C49: line and column determine the start of the Ito (same marker and string). -/
theorem C49_line_col_injective_partial (x y : FIto α) (hx : x.Valid) (hy : y.Valid) (hs : x.string = y.string)
    (eol : List α) (he : eol ≠ []) (hn : NoOverlap eol) (h : x.toLineCol eol = y.toLineCol eol) :
    x.start = y.start := by
  obtain ⟨l1, u1, e1, f1⟩ := C49_line_col_partial x hx eol he hn
  obtain ⟨l2, u2, e2, f2⟩ := C49_line_col_partial y hy eol he hn
  obtain ⟨a, b, ha, hb, hab, hbl⟩ := hx.exists_nat
  obtain ⟨a', b', ha', hb', hab', hbl'⟩ := hy.exists_nat
  rw [f1, f2] at h
  simp only [Prod.mk.injEq] at h
  rw [ha, Int.toNat_natCast] at e1
  rw [ha', Int.toNat_natCast, ← hs] at e2
  have := prefix_unique he x.string (a := a) (b := a') (by omega) (by rw [hs]; omega)
    (by rw [e1, e2]; simp; omega) (by rw [e1, e2]; simp; omega)
  omega

/-- C49 is false of a marker that overlaps itself: before the end of `aaa`, cut at `aa`, there are the lines
"" and "a", so (2, 2); `to_line_col` says (2, 1). -/
theorem C49_overlap_violated : (⟨['a', 'a', 'a'], ⟨3, 3⟩, none⟩ : FIto Char).toLineCol ['a', 'a'] = (2, 1) ∧
    split (['a', 'a', 'a'] : List Char) ['a', 'a'] (-1) = [[], ['a']] := by
  refine ⟨?_, ?_⟩
  · have : PyStr.count (['a', 'a', 'a'] : List Char) ['a', 'a'] (some 0) (some 1) = 0 := by
      simp [PyStr.count, adjStart, adjEnd, countIn]
    unfold FIto.toLineCol
    rw [show PyStr.rfind (⟨['a', 'a', 'a'], ⟨3, 3⟩, none⟩ : FIto Char).string ['a', 'a'] (some 0)
      (some (FIto.start (⟨['a', 'a', 'a'], ⟨3, 3⟩, none⟩ : FIto Char))) = 1 by decide]
    simp only
    rw [if_neg (by decide), this]
    rfl
  · simp [split, limitOf, splitGo]

/-- The lines of the first `n` characters, cut at the given spans; `k` is where the current line starts. -/
def cutAt (n : Int) : Int → List Span → List Span
  | k, [] => [⟨k, n⟩]
  | k, m :: ms => ⟨k, m.start⟩ :: cutAt n m.stop ms

/-- C49 for a pattern: (number of lines, length of the last line + 1) of the text before the Ito, cut at the
matches that end before it. -/
theorem C49_line_col_regex (x : FIto α) (ms : List Span) :
    ∃ lines last, cutAt x.start 0 ms = lines ++ [last] ∧
      x.toLineColRe ms = ((lines.length : Int) + 1, (last.stop - last.start) + 1) := by
  have key : ∀ (ms : List Span) (k : Int), ∃ lines, cutAt x.start k ms =
      lines ++ [⟨(ms.getLast?.map Span.stop).getD k, x.start⟩] ∧ lines.length = ms.length := by
    intro ms
    induction ms with
    | nil => intro k; exact ⟨[], rfl, rfl⟩
    | cons m ms ih =>
      intro k
      obtain ⟨lines, e, el⟩ := ih m.stop
      refine ⟨⟨k, m.start⟩ :: lines, ?_, by simp [el]⟩
      rw [cutAt, e]
      cases ms with
      | nil => rfl
      | cons m' ms =>
        rw [List.getLast?_cons_cons, List.getLast?_eq_some_getLast (List.cons_ne_nil m' ms)]
        rfl
  obtain ⟨lines, e, el⟩ := key ms 0
  refine ⟨lines, _, e, ?_⟩
  unfold FIto.toLineColRe
  cases hg : ms.getLast? with
  | none =>
    have : ms = [] := List.getLast?_eq_none_iff.mp hg
    subst this
    simp [el]
    omega
  | some m =>
    simp [el]
    omega

/-- Non-vacuity: line ends of one and two characters, and a position on the third line. -/
example : NoOverlap (['\n'] : List Char) ∧ NoOverlap (['\r', '\n'] : List Char) ∧
    ¬ NoOverlap (['a', 'a'] : List Char) ∧
    (⟨['a', '\n', '\n', 'b', 'c'], ⟨4, 5⟩, none⟩ : FIto Char).Valid ∧
    (⟨['a', '\n', '\n', 'b', 'c'], ⟨4, 5⟩, none⟩ : FIto Char).toLineColRe [⟨1, 2⟩, ⟨2, 3⟩] = (3, 2) := by
  refine ⟨by decide, by decide, by decide, ?_, by decide⟩
  unfold FIto.Valid
  decide

end Pawpaw.Props
