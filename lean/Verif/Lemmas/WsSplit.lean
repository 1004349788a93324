import Verif.Model.WsSplit
import Verif.Props.StrOps
/-! Lemmas for whitespace splitting. -/
set_option linter.unusedSectionVars false
namespace Pawpaw
open PyStr
variable {α : Type} [DecidableEq α]
namespace FIto

theorem nearestFwd_some (x : FIto α) (ws : α → Bool) {b : Nat} (hb : b ≤ x.string.length)
    (n i : Nat) (hn : i + n = b) (j : Int) :
    nearestFwd x ws n i (some j) = .ok (some (x.clone (some j)
      (some ((b - (((x.string.take b).drop i).dropWhile (fun c => !ws c)).length : Nat) : Int)))) := by
  induction n generalizing i with
  | zero =>
    have : i = b := by omega
    subst this
    simp [nearestFwd]
  | succ n ih =>
    have hi : i < (x.string.take b).length := by simp; omega
    unfold nearestFwd
    rw [Int.toNat_natCast, List.getElem?_eq_getElem (by omega), List.drop_eq_getElem_cons hi,
      List.dropWhile_cons]
    simp only [List.getElem_take]
    by_cases hc : ws x.string[i] = true
    · simp only [hc, if_true, Bool.not_true, Bool.false_eq_true, if_false, List.length_cons,
        List.length_drop, List.length_take]
      congr 4
      omega
    · simp only [hc, if_false, Bool.not_false, if_true]
      rw [show (i : Int) + 1 = ((i + 1 : Nat) : Int) by omega, ih (i + 1) (by omega)]
      rfl

theorem nearestFwd_none (x : FIto α) (ws : α → Bool) {b : Nat} (hb : b ≤ x.string.length)
    (n i : Nat) (hn : i + n = b) :
    nearestFwd x ws n i none = .ok (match ((x.string.take b).drop i).dropWhile ws with
      | [] => none
      | c :: t => some (x.clone (some ((b - (c :: t).length : Nat) : Int))
          (some ((b - ((c :: t).dropWhile (fun c => !ws c)).length : Nat) : Int)))) := by
  induction n generalizing i with
  | zero =>
    have : i = b := by omega
    subst this
    simp [nearestFwd]
  | succ n ih =>
    have hi : i < (x.string.take b).length := by simp; omega
    unfold nearestFwd
    rw [Int.toNat_natCast, List.getElem?_eq_getElem (by omega), List.drop_eq_getElem_cons hi,
      List.dropWhile_cons]
    simp only [List.getElem_take]
    by_cases hc : ws x.string[i] = true
    · simp only [hc, if_true]
      rw [show (i : Int) + 1 = ((i + 1 : Nat) : Int) by omega, ih (i + 1) (by omega)]
    · simp only [hc, if_false, Bool.false_eq_true]
      rw [show (i : Int) + 1 = ((i + 1 : Nat) : Int) by omega,
        nearestFwd_some x ws hb n (i + 1) (by omega)]
      simp only [List.dropWhile_cons, hc, Bool.not_false, if_true, List.length_cons,
        List.length_drop, List.length_take]
      congr 4
      omega

theorem nearestRev_some (x : FIto α) (ws : α → Bool) (k : Nat) (hk : k ≤ x.string.length) (j : Int) :
    nearestRev x ws k ((k : Int) - 1) (some j) = .ok (some (x.clone
      (some (((x.string.take k).reverse.dropWhile (fun c => !ws c)).length : Int)) (some (j + 1)))) := by
  induction k with
  | zero => simp [nearestRev]
  | succ k ih =>
    have hk' : k < x.string.length := by omega
    have hrev : (x.string.take (k + 1)).reverse = x.string[k] :: (x.string.take k).reverse := by
      rw [List.take_succ_eq_append_getElem hk', List.reverse_append]; rfl
    unfold nearestRev
    rw [show (((k + 1 : Nat) : Int) - 1) = (k : Int) by omega, Int.toNat_natCast,
      List.getElem?_eq_getElem hk', hrev, List.dropWhile_cons]
    by_cases hc : ws x.string[k] = true
    · simp only [hc, if_true, Bool.not_true, Bool.false_eq_true, if_false, List.length_cons,
        List.length_reverse, List.length_take]
      congr 4
      omega
    · simp only [hc, if_false, Bool.not_false, if_true]
      exact ih (by omega)

theorem nearestRev_none (x : FIto α) (ws : α → Bool) (k : Nat) (hk : k ≤ x.string.length) :
    nearestRev x ws k ((k : Int) - 1) none = .ok (match (x.string.take k).reverse.dropWhile ws with
      | [] => none
      | c :: t => some (x.clone (some (((c :: t).dropWhile (fun c => !ws c)).length : Int))
          (some ((c :: t).length : Int)))) := by
  induction k with
  | zero => simp [nearestRev]
  | succ k ih =>
    have hk' : k < x.string.length := by omega
    have hrev : (x.string.take (k + 1)).reverse = x.string[k] :: (x.string.take k).reverse := by
      rw [List.take_succ_eq_append_getElem hk', List.reverse_append]; rfl
    unfold nearestRev
    rw [show (((k + 1 : Nat) : Int) - 1) = (k : Int) by omega, Int.toNat_natCast,
      List.getElem?_eq_getElem hk', hrev, List.dropWhile_cons]
    by_cases hc : ws x.string[k] = true
    · simp only [hc, if_true]
      exact ih (by omega)
    · simp only [hc, if_false, Bool.false_eq_true]
      rw [nearestRev_some x ws k (by omega)]
      simp only [List.dropWhile_cons, hc, Bool.not_false, if_true, List.length_cons,
        List.length_reverse, List.length_take]
      congr 4
      omega

theorem dropWhile_suffix_drop (p : α → Bool) (l : List α) :
    ∃ k, k ≤ l.length ∧ l.dropWhile p = l.drop k ∧ l.takeWhile p = l.take k := by
  refine ⟨(l.takeWhile p).length, (List.takeWhile_sublist p).length_le, dropWhile_eq_drop p l, ?_⟩
  induction l with
  | nil => rfl
  | cons c t ih => 
    rw [List.takeWhile_cons]
    by_cases h : p c
    · simp only [h, if_true, List.length_cons, List.take_succ_cons]; rw [← ih]
    · simp [h]

theorem limitOf_pred (m : Int) (hm : m ≠ 0) : (limitOf m).map (· - 1) = limitOf (m - 1) := by
  unfold limitOf
  by_cases h : m < 0
  · rw [if_pos h, if_pos (by omega)]; rfl
  · rw [if_neg h, if_neg (by omega)]; simp

theorem limitOf_ne (m : Int) (hm : m ≠ 0) : limitOf m ≠ some 0 := by
  unfold limitOf; split <;> simp; omega

theorem splitWs_cons (ws : α → Bool) (k : Option Nat) (hk : k ≠ some 0) (s : List α) (c : α)
    (t : List α) (h : s.dropWhile ws = c :: t) :
    splitWs ws k s = (c :: t).takeWhile (fun x => !ws x) ::
      splitWs ws (k.map (· - 1)) ((c :: t).dropWhile (fun x => !ws x)) := by
  rw [splitWs]
  split
  · next h' => rw [h] at h'; simp at h'
  · next c' t' h' =>
    rw [h] at h'
    simp only [List.cons.injEq] at h'
    obtain ⟨rfl, rfl⟩ := h'
    split
    · simp at hk
    · rfl

theorem splitWs_nil (ws : α → Bool) (k : Option Nat) (s : List α) (h : s.dropWhile ws = []) :
    splitWs ws k s = [] := by
  rw [splitWs]
  split
  · rfl
  · next c' t' h' => rw [h] at h'; simp at h'

theorem splitWs_zero (ws : α → Bool) (s : List α) :
    splitWs ws (some 0) s = match s.dropWhile ws with
      | [] => []
      | l => [l] := by
  rw [splitWs]
  split
  · next h' => rw [h']
  · next c' t' h' => rw [h']; rfl

/-- What `str_split(None)` leaves over once `maxsplit` has run out. -/
def leftover (ws : α → Bool) (s : List α) : List (List α) :=
  match s.dropWhile ws with
  | [] => []
  | l => [l]

theorem splitWsLoop_spec (x : FIto α) (h : x.Valid) (h0 : x.start = 0) (ws : α → Bool) {b : Nat}
    (hb : x.stop = b) (hbl : b ≤ x.string.length) (n i : Nat) (m : Int) (hib : i ≤ b)
    (hn : b - i < n) :
    ∃ ps m', splitWsLoop x ws n i m = .ok (ps, m') ∧ (∀ p ∈ ps, Props.SubIto p x) ∧
      ∃ r : Nat, r ≤ b ∧ (match ps.getLast? with | none => (i : Int) | some l => l.stop) = (r : Int) ∧
        splitWs ws (limitOf m) ((x.string.take b).drop i) =
          ps.map text ++ (if m' = 0 then leftover ws ((x.string.take b).drop r) else []) := by
  induction n generalizing i m with
  | zero => omega
  | succ n ih =>
    unfold splitWsLoop nearestNonWs
    rw [h0, hb, Int.add_zero, show ((b : Int) - i).toNat = b - i by omega,
      nearestFwd_none x ws hbl (b - i) i (by omega)]
    simp only [bind, Except.bind, pure, Except.pure]
    cases hd : ((x.string.take b).drop i).dropWhile ws with
    | nil =>
      refine ⟨[], m, rfl, by simp, i, hib, by simp, ?_⟩
      rw [splitWs_nil ws _ _ hd]
      simp [leftover, hd]
    | cons c t =>
      simp only []
      by_cases hm : m = 0
      · subst hm
        refine ⟨[], 0, by simp, by simp, i, hib, by simp, ?_⟩
        rw [show limitOf 0 = some 0 from rfl, splitWs_zero, hd]
        simp [leftover, hd]
      · rw [if_pos hm]
        obtain ⟨k, hk1, hk2, _⟩ := dropWhile_suffix_drop ws ((x.string.take b).drop i)
        rw [hd, List.drop_drop] at hk2
        obtain ⟨k', hk1', hk2', hk3'⟩ := dropWhile_suffix_drop (fun x => !ws x) (c :: t)
        have hlenct : (c :: t).length = b - (i + k) := by rw [hk2]; simp; omega
        have hik : i + k < b := by
          have : 0 < (c :: t).length := by simp
          omega
        have hk'pos : 0 < k' := by
          have hc : ws c = false := by
            have := List.head_dropWhile_not (l := (x.string.take b).drop i) ws (by rw [hd]; simp)
            simpa [hd] using this
          rcases Nat.eq_zero_or_pos k' with hz | hz
          · subst hz
            rw [List.take_zero, List.takeWhile_cons, hc] at hk3'
            simp at hk3'
          · exact hz
        have hr : ((c :: t).dropWhile (fun x => !ws x)).length = b - (i + k + k') := by
          rw [hk2', List.length_drop, hlenct]; omega
        rw [hlenct, hr, show b - (b - (i + k)) = i + k by omega,
          show b - (b - (i + k + k')) = i + k + k' by omega]
        have hst : (x.clone (some ((i + k : Nat) : Int)) (some ((i + k + k' : Nat) : Int))).stop =
            ((i + k + k' : Nat) : Int) := by
          rw [clone_span_nat x (by omega) (by omega)]; rfl
        rw [hst]
        obtain ⟨ps, m', e1, e2, r, e3, e4, e5⟩ := ih (i + k + k') (m - 1) (by omega) (by omega)
        rw [e1]
        refine ⟨_, m', rfl, ?_, r, e3, ?_, ?_⟩
        · intro p hp
          rw [List.mem_cons] at hp
          rcases hp with rfl | hp
          · exact (Props.clone_sub h (by omega) (by omega) (by omega)).1
          · exact e2 p hp
        · cases hps : ps.getLast? with
          | none =>
            rw [hps] at e4
            have : ps = [] := List.getLast?_eq_none_iff.mp hps
            subst this
            simp only [List.getLast?_singleton]
            rw [hst]
            exact e4
          | some l =>
            rw [hps] at e4
            rw [List.getLast?_cons, hps]
            exact e4
        · rw [splitWs_cons ws _ (limitOf_ne m hm) _ c t hd, limitOf_pred m hm, hk3', hk2', hk2,
            List.drop_drop, e5, List.map_cons, clone_text x (by omega) (by omega)]
          rw [List.cons_append]
          congr 1
          rw [List.take_drop, List.take_take]
          congr 2
          omega

theorem rsplitWsLoop_spec (x : FIto α) (h : x.Valid) (h0 : x.start = 0) (ws : α → Bool) {b : Nat}
    (hb : x.stop = b) (hbl : b ≤ x.string.length) (n k : Nat) (m : Int) (hkb : k ≤ b)
    (hn : k < n) :
    ∃ ps m', rsplitWsLoop x ws n ((k : Int) - 1) m = .ok (ps, m') ∧ (∀ p ∈ ps, Props.SubIto p x) ∧
      ∃ r : Nat, r ≤ b ∧ (match ps.getLast? with | none => (k : Int) | some l => l.start) = (r : Int) ∧
        splitWs ws (limitOf m) (x.string.take k).reverse =
          ps.map (fun p => p.text.reverse) ++
            (if m' = 0 then leftover ws (x.string.take r).reverse else []) := by
  induction n generalizing k m with
  | zero => omega
  | succ n ih =>
    unfold rsplitWsLoop nearestNonWsRev
    rw [h0, Int.add_zero, show ((k : Int) - 1 - 0 + 1).toNat = k by omega,
      nearestRev_none x ws k (by omega)]
    simp only [bind, Except.bind, pure, Except.pure]
    cases hd : (x.string.take k).reverse.dropWhile ws with
    | nil =>
      refine ⟨[], m, rfl, by simp, k, hkb, by simp, ?_⟩
      rw [splitWs_nil ws _ _ hd]
      simp [leftover, hd]
    | cons c t =>
      simp only []
      by_cases hm : m = 0
      · subst hm
        refine ⟨[], 0, by simp, by simp, k, hkb, by simp, ?_⟩
        rw [show limitOf 0 = some 0 from rfl, splitWs_zero, hd]
        simp [leftover, hd]
      · rw [if_pos hm]
        obtain ⟨j, hj1, hj2, _⟩ := dropWhile_suffix_drop ws (x.string.take k).reverse
        obtain ⟨j', hj1', hj2', hj3'⟩ := dropWhile_suffix_drop (fun x => !ws x) (c :: t)
        rw [hd, List.drop_reverse, List.take_take] at hj2
        have htl : (x.string.take k).length = k := by simp; omega
        rw [htl, Nat.min_eq_left (by omega)] at hj2
        have hlenct : (c :: t).length = k - j := by rw [hj2]; simp; omega
        have hkj : 0 < k - j := by
          have : 0 < (c :: t).length := by simp
          omega
        have hj'pos : 0 < j' := by
          have hc : ws c = false := by
            have := List.head_dropWhile_not (l := (x.string.take k).reverse) ws (by rw [hd]; simp)
            simpa [hd] using this
          rcases Nat.eq_zero_or_pos j' with hz | hz
          · subst hz
            rw [List.take_zero, List.takeWhile_cons, hc] at hj3'
            simp at hj3'
          · exact hz
        have hr : ((c :: t).dropWhile (fun x => !ws x)).length = k - j - j' := by
          rw [hj2', List.length_drop, hlenct]
        rw [hlenct, hr]
        have hst : (x.clone (some ((k - j - j' : Nat) : Int)) (some ((k - j : Nat) : Int))).start =
            ((k - j - j' : Nat) : Int) := by
          rw [clone_span_nat x (by omega) (by omega)]; rfl
        rw [hst]
        obtain ⟨ps, m', e1, e2, r, e3, e4, e5⟩ := ih (k - j - j') (m - 1) (by omega) (by omega)
        rw [e1]
        refine ⟨_, m', rfl, ?_, r, e3, ?_, ?_⟩
        · intro p hp
          rw [List.mem_cons] at hp
          rcases hp with rfl | hp
          · exact (Props.clone_sub h (by omega) (by omega) (by omega)).1
          · exact e2 p hp
        · cases hps : ps.getLast? with
          | none =>
            rw [hps] at e4
            have : ps = [] := List.getLast?_eq_none_iff.mp hps
            subst this
            simp only [List.getLast?_singleton]
            rw [hst]
            exact e4
          | some l =>
            rw [hps] at e4
            rw [List.getLast?_cons, hps]
            exact e4
        · rw [splitWs_cons ws _ (limitOf_ne m hm) _ c t hd, limitOf_pred m hm, hj3', hj2', hj2,
            List.drop_reverse, List.take_take]
          have hl2 : (x.string.take (k - j)).length = k - j := by simp; omega
          rw [hl2, Nat.min_eq_left (by omega), e5, List.map_cons, clone_text x (by omega) (by omega)]
          rw [List.cons_append]
          congr 1
          rw [List.take_reverse, hl2]

end FIto
end Pawpaw
