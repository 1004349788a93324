import Verif.Props.LineCol
/-!
# C49: exactly when `to_line_col` is right, for any end-of-line text
-/
set_option linter.unusedSectionVars false
namespace PyStr
variable {α : Type} [DecidableEq α]

/-- The last line of a text and the marker before it, for any non-empty marker. -/
theorem scan_last {sep : List α} (hs : sep ≠ []) (w : List α) (m : Int) (hm : m < 0) :
    (lastOcc w sep = none ∧ split w sep m = [w]) ∨
    ∃ lines u j, split w sep m = lines ++ [u] ∧ lines ≠ [] ∧ w.drop j = sep ++ u ∧ j + sep.length ≤ w.length ∧
      okAt w sep none none j = true ∧ countIn sep (w.take j) + 1 = lines.length ∧
      ∀ i, j + sep.length ≤ i → okAt w sep none none i = false := by
  induction hk : w.length using Nat.strongRecOn generalizing w m with
  | _ n ih =>
    have hl : 0 < sep.length := List.length_pos_iff.mpr hs
    rw [split_cons w sep hs m (by omega)]
    cases hf : firstOcc w sep with
    | none =>
      refine Or.inl ⟨?_, rfl⟩
      cases hj : lastOcc w sep with
      | none => rfl
      | some j =>
        have := (lastOcc_spec hj).1
        rw [firstOcc_none hf j] at this
        cases this
    | some i =>
      refine Or.inr ?_
      obtain ⟨hi, hi'⟩ := firstOcc_spec hf
      have hle := (firstOcc_some hf).2
      have hocc : (w.drop i).take sep.length = sep := by
        rw [okAt_none] at hi
        simp only [Bool.and_eq_true, occursAt, beq_iff_eq] at hi
        exact hi.2
      dsimp only
      rcases ih (w.drop (i + sep.length)).length (by simp; omega) (w.drop (i + sep.length)) (m - 1) (by omega) rfl with
        ⟨h1, h2⟩ | ⟨lines, u, j, h1, h2, h3, h4, h5, h6, h7⟩
      · refine ⟨[w.take i], w.drop (i + sep.length), i, by rw [h2]; rfl, by simp, ?_, by omega, hi, ?_, ?_⟩
        · rw [← List.drop_drop]
          conv => lhs; rw [← List.take_append_drop sep.length (w.drop i), hocc]
        · have h0 : countIn sep (w.take i) = 0 := by
            rw [countIn_eq sep hs]
            cases hF : firstOcc (w.take i) sep with
            | none => rfl
            | some k =>
              have h1 := (firstOcc_spec hF).1
              rw [okAt_take w sep (by omega)] at h1
              simp only [Bool.and_eq_true, decide_eq_true_eq] at h1
              rw [hi' k (by omega)] at h1
              cases h1.2
          rw [h0]; rfl
        · intro k hk'
          have := lastOcc_none h1 (k - (i + sep.length))
          rw [okAt_drop w sep hle, show i + sep.length + (k - (i + sep.length)) = k by omega] at this
          exact this
      · rw [List.length_drop] at h4
        refine ⟨w.take i :: lines, u, i + sep.length + j, by rw [h1]; rfl, by simp, ?_, by omega, ?_, ?_, ?_⟩
        · rw [← List.drop_drop]; exact h3
        · rw [← okAt_drop w sep hle]; exact h5
        · have hF : firstOcc (w.take (i + sep.length + j)) sep = some i := by
            apply firstOcc_eq_some
            · rw [okAt_take w sep (by omega), hi]; simp <;> omega
            · intro k hk
              rw [okAt_take w sep (by omega), hi' k hk, Bool.and_false]
          rw [countIn_eq sep hs (w.take (i + sep.length + j)), hF]
          simp only [List.length_cons]
          rw [List.drop_take, show i + sep.length + j - (i + sep.length) = j by omega]
          omega
        · intro k hk'
          have := h7 (k - (i + sep.length)) (by omega)
          rw [okAt_drop w sep hle, show i + sep.length + (k - (i + sep.length)) = k by omega] at this
          exact this

end PyStr

namespace Pawpaw.Props
open Pawpaw PyStr
variable {α : Type} [DecidableEq α]

theorem count_prefix (s eol : List α) (he : eol ≠ []) {a j : Nat} (hj : j ≤ a) (ha : a ≤ s.length) :
    PyStr.count s eol (some 0) (some (j : Int)) = countIn eol ((s.take a).take j) := by
  unfold PyStr.count
  simp only [adjStart, adjEnd]
  rw [if_neg he]
  rw [List.take_take, Nat.min_eq_left (by omega)]
  have h1 : ¬ ((j : Int) > (s.length : Int)) := by omega
  have h2 : ¬ ((j : Int) < 0) := by omega
  rw [if_neg h1, if_neg h2, if_neg (by omega), show ((j : Int)).toNat = j by omega]
  rfl

/-- C49, exactly, for every non-empty end-of-line text: `to_line_col` is (number of lines, length of the last line
+ 1) of the text before the Ito, as `split` cuts it, if and only if there is one line only, or the end-of-line text
occurs in the last marker followed by the last line (`eol + last`) at its start only. -/
theorem C49_line_col_exact (x : FIto α) (hx : x.Valid) (eol : List α) (he : eol ≠ []) (lines : List (List α))
    (last : List α) (hsp : split (x.string.take x.start.toNat) eol (-1) = lines ++ [last]) :
    x.toLineCol eol = ((lines.length : Int) + 1, (last.length : Int) + 1) ↔
      lines = [] ∨ PyStr.rfind (eol ++ last) eol none none = 0 := by
  obtain ⟨a, b, ha, hb, hab, hbl⟩ := hx.exists_nat
  have hr := (FIto.find_between x.string eol (i := 0) (b := a) (by omega) (by omega)).2
  rw [List.drop_zero] at hr
  have hlw : (x.string.take a).length = a := by simp; omega
  rw [ha, Int.toNat_natCast] at hsp
  unfold FIto.toLineCol
  simp only [ha]
  rw [show (some (0 : Int)) = some ((0 : Nat) : Int) from rfl, hr]
  have hl : 0 < eol.length := List.length_pos_iff.mpr he
  rcases scan_last he (x.string.take a) (-1) (by omega) with ⟨h1, h2⟩ | ⟨ls, u, j, h1, h2, h3, h4, h5, h6, h7⟩
  · rw [hsp] at h2
    have hnil : lines = [] := by
      have := congrArg List.length h2
      simp only [List.length_append, List.length_cons, List.length_nil] at this
      exact List.length_eq_zero_iff.mp (by omega)
    subst hnil
    simp only [List.nil_append, List.cons.injEq, and_true] at h2
    rw [h1, h2]
    simp
    omega
  · rw [hsp] at h1
    obtain ⟨e1, e2⟩ := List.append_inj' h1 rfl
    simp only [List.cons.injEq, and_true] at e2
    subst e1 e2
    rw [hlw] at h4
    have hlen : j + eol.length + last.length = a := by
      have := congrArg List.length h3
      simp only [List.length_drop, List.length_append, hlw] at this
      omega
    cases hL : lastOcc (x.string.take a) eol with
    | none => rw [lastOcc_none hL j] at h5; cases h5
    | some k =>
      obtain ⟨k1, k2⟩ := lastOcc_spec hL
      have hk := (lastOcc_some hL).2
      rw [hlw] at hk
      have hjk : j ≤ k := by
        apply Decidable.byContradiction
        intro h
        rw [k2 j (by omega)] at h5
        cases h5
      have hre : PyStr.rfind (eol ++ last) eol none none = 0 ↔ k = j := by
        have hd : ∀ i, okAt (eol ++ last) eol none none i = okAt (x.string.take a) eol none none (j + i) := by
          intro i
          rw [← h3]
          exact okAt_drop _ eol (by omega) i
        have hlast : lastOcc (eol ++ last) eol = some (k - j) := by
          unfold lastOcc
          rw [find?_reverse_range_iff]
          refine ⟨?_, by simp; omega, fun i hi _ => ?_⟩
          · rw [hd, show j + (k - j) = k by omega]; exact k1
          · rw [hd]; exact k2 _ (by omega)
        have hrf : PyStr.rfind (eol ++ last) eol none none = ((k - j : Nat) : Int) := by
          unfold PyStr.rfind
          unfold lastOcc at hlast
          rw [hlast]
        rw [hrf]
        omega
      rw [hre]
      simp only
      rw [if_neg (by omega)]
      have hc := count_prefix x.string eol he (a := a) (j := k) (by omega) (by omega)
      rw [show (((0 : Nat) : Int) + (k : Int)) = (k : Int) by omega, show ((0 : Nat) : Int) = 0 from rfl, hc]
      simp only [h2, false_or, Prod.mk.injEq]
      constructor
      · rintro ⟨_, h⟩; omega
      · rintro rfl
        omega

/-- The criterion holds in ordinary cases, and fails in the case of `C49_overlap_violated`. -/
example : PyStr.rfind (['\r', '\n'] ++ ['a', 'b']) ['\r', '\n'] none none = 0 := by decide
example : PyStr.rfind (['a', 'a'] ++ ['a']) ['a', 'a'] none none = 1 := by decide
/-- A self-overlapping marker where it is right nevertheless. -/
example : (⟨['a', 'a', 'b'], ⟨3, 3⟩, none⟩ : FIto Char).Valid ∧
    split ((['a', 'a', 'b'] : List Char).take 3) ['a', 'a'] (-1) = [[]] ++ [['b']] ∧
    PyStr.rfind (['a', 'a'] ++ ['b']) ['a', 'a'] none none = 0 := by
  refine ⟨by refine ⟨?_, ?_, ?_⟩ <;> decide, by simp [split, limitOf, splitGo], by decide⟩

end Pawpaw.Props
