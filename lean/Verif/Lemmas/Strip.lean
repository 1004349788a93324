import Verif.Lemmas.Affix
/-! Lemmas for the strip loops, ranges of characters, clones. -/
set_option linter.unusedSectionVars false
namespace Pawpaw
open PyStr
variable {α : Type} [DecidableEq α]

theorem dropWhile_eq_drop (p : α → Bool) (l : List α) :
    l.dropWhile p = l.drop (l.takeWhile p).length := by
  induction l with
  | nil => rfl
  | cons c t ih => by_cases h : p c <;> simp [List.dropWhile_cons, List.takeWhile_cons, h, ih]

theorem takeWhile_take_length (p : α → Bool) (l : List α) (m : Nat) :
    ((l.take m).takeWhile p).length = min (l.takeWhile p).length m := by
  induction l generalizing m with
  | nil => simp
  | cons c t ih =>
    cases m with
    | zero => simp
    | succ m =>
      by_cases h : p c
      · simp only [List.take_succ_cons, List.takeWhile_cons, h, if_true, List.length_cons, ih]
        omega
      · simp [List.take_succ_cons, List.takeWhile_cons, h]

namespace FIto

theorem clone_text (x : FIto α) {i j : Nat} (hij : i ≤ j) (hj : j ≤ x.string.length) :
    (x.clone (some (i : Int)) (some (j : Int))).text = (x.string.take j).drop i := by
  rw [clone_span_nat x hij hj, text_eq (a := i) (b := j) rfl rfl]

theorem clone_some_none (x : FIto α) (i : Int) :
    x.clone (some i) none = x.clone (some i) (some x.stop) := rfl

theorem clone_none_some (x : FIto α) (i : Int) :
    x.clone none (some i) = x.clone (some x.start) (some i) := rfl

theorem lstripLoop_eq (p : α → Bool) (s : List α) (b : Nat) (hb : b ≤ s.length) (n i : Nat)
    (hn : i + n = b) :
    lstripLoop p s (b : Int) n (i : Int) = ((i + (((s.take b).drop i).takeWhile p).length : Nat) : Int) := by
  induction n generalizing i with
  | zero =>
    have : i = b := by omega
    subst this
    simp [lstripLoop]
  | succ n ih =>
    have hi : i < (s.take b).length := by simp; omega
    rw [List.drop_eq_getElem_cons hi]
    unfold lstripLoop
    have hc : charAt p s (i : Int) = p ((s.take b)[i]) := by
      unfold charAt
      rw [if_neg (by omega)]
      simp only [Int.toNat_natCast]
      rw [List.getElem?_eq_getElem (by omega)]
      simp
    rw [hc]
    have hlt : (i : Int) < b := by omega
    by_cases hp : p ((s.take b)[i]) = true
    · rw [if_pos ⟨hlt, hp⟩, List.takeWhile_cons, if_pos hp]
      have := ih (i + 1) (by omega)
      rw [show (i : Int) + 1 = ((i + 1 : Nat) : Int) by omega, this]
      simp only [List.length_cons]
      omega
    · rw [if_neg (fun h => hp h.2), List.takeWhile_cons, if_neg hp]
      simp

theorem rstripLoop_eq (p : α → Bool) (s : List α) (b : Nat) (hb : b ≤ s.length) :
    rstripLoop p s b ((b : Int) - 1) = (b : Int) - 1 - ((s.take b).reverse.takeWhile p).length := by
  induction b with
  | zero => simp [rstripLoop]
  | succ b ih =>
    unfold rstripLoop
    have hb' : b < s.length := by omega
    have hrev : (s.take (b + 1)).reverse = s[b] :: (s.take b).reverse := by
      rw [List.take_succ_eq_append_getElem hb', List.reverse_append]; rfl
    have hc : charAt p s (((b + 1 : Nat) : Int) - 1) = p s[b] := by
      unfold charAt
      rw [if_neg (by omega), show (((b + 1 : Nat) : Int) - 1).toNat = b by omega,
        List.getElem?_eq_getElem hb']
    rw [hc, hrev, List.takeWhile_cons]
    by_cases hp : p s[b] = true
    · rw [if_pos ⟨by omega, hp⟩, if_pos hp,
        show (((b + 1 : Nat) : Int) - 1 - 1) = (b : Int) - 1 by omega, ih (by omega)]
      simp only [List.length_cons]
      omega
    · rw [if_neg (fun h => hp h.2), if_neg hp]
      simp

theorem filterMap_range (s : List α) (n a : Nat) :
    (List.range n).filterMap (fun k => s[a + k]?) = (s.drop a).take n := by
  induction n generalizing a with
  | zero => simp
  | succ n ih =>
    rw [List.range_succ_eq_map, List.filterMap_cons, List.filterMap_map]
    have ih' := ih (a + 1)
    have hf : ((fun k => s[a + k]?) ∘ Nat.succ) = fun k => s[a + 1 + k]? := by
      funext k; simp only [Function.comp]; congr 1; omega
    rw [hf, ih', Nat.add_zero]
    by_cases h : a < s.length
    · rw [List.getElem?_eq_getElem h, List.drop_eq_getElem_cons h, List.take_succ_cons]
    · rw [List.getElem?_eq_none (by omega), List.drop_eq_nil_of_le (by omega),
        List.drop_eq_nil_of_le (by omega)]
      simp

theorem rangeChars_eq {x : FIto α} (h : x.Valid) : x.rangeChars = x.text := by
  obtain ⟨a, b, ha, hb, hab, hl⟩ := h.exists_nat
  unfold rangeChars
  rw [text_eq ha hb, ha, hb, show ((b : Int) - a).toNat = b - a by omega, Int.toNat_natCast,
    filterMap_range, List.drop_take]

end FIto
end Pawpaw
