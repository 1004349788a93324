import Verif.Model.Bisect
/-!
# `bisect` finds the boundary position in a sorted list
-/
namespace Pawpaw

/-- Keys in non-decreasing order. -/
def Sorted (a : List Int) : Prop := a.Pairwise (· ≤ ·)

theorem Sorted.getD_le {a : List Int} (h : Sorted a) {i j : Nat} (hij : i ≤ j) (hj : j < a.length) :
    a.getD i 0 ≤ a.getD j 0 := by
  rw [List.getD_eq_getElem?_getD, List.getD_eq_getElem?_getD, List.getElem?_eq_getElem hj,
    List.getElem?_eq_getElem (by omega)]
  simp only [Option.getD_some]
  rcases Nat.lt_or_ge i j with h' | h'
  · exact List.pairwise_iff_getElem.mp h i j (by omega) hj h'
  · have : i = j := by omega
    subst this; exact Int.le_refl _

theorem bisectLeftLoop_spec {a : List Int} (hs : Sorted a) (x : Int) (n lo hi : Nat)
    (hlo : lo ≤ hi) (hhi : hi ≤ a.length) (hn : hi - lo ≤ n)
    (h1 : ∀ i, i < lo → a.getD i 0 < x) (h2 : ∀ i, hi ≤ i → i < a.length → x ≤ a.getD i 0) :
    bisectLeftLoop a x n lo hi ≤ a.length ∧
    (∀ i, i < bisectLeftLoop a x n lo hi → a.getD i 0 < x) ∧
    (∀ i, bisectLeftLoop a x n lo hi ≤ i → i < a.length → x ≤ a.getD i 0) := by
  induction n generalizing lo hi with
  | zero =>
    have : lo = hi := by omega
    subst this
    exact ⟨hhi, h1, h2⟩
  | succ n ih =>
    unfold bisectLeftLoop
    by_cases hlt : lo < hi
    · rw [if_pos hlt]
      dsimp only
      by_cases hm : a.getD ((lo + hi) / 2) 0 < x
      · rw [if_pos hm]
        refine ih _ _ (by omega) hhi (by omega) (fun i hi' => ?_) h2
        have := hs.getD_le (i := i) (j := (lo + hi) / 2) (by omega) (by omega)
        omega
      · rw [if_neg hm]
        refine ih _ _ (by omega) (by omega) (by omega) h1 (fun i hi' hl => ?_)
        have := hs.getD_le (i := (lo + hi) / 2) (j := i) (by omega) hl
        omega
    · rw [if_neg hlt]
      have : lo = hi := by omega
      subst this
      exact ⟨hhi, h1, h2⟩

/-- `bisect_left` on a sorted list: everything before is smaller, everything from there is not. -/
theorem bisectLeft_spec {a : List Int} (hs : Sorted a) (x : Int) :
    bisectLeft a x ≤ a.length ∧ (∀ i, i < bisectLeft a x → a.getD i 0 < x) ∧
    (∀ i, bisectLeft a x ≤ i → i < a.length → x ≤ a.getD i 0) :=
  bisectLeftLoop_spec hs x _ _ _ (by omega) (Nat.le_refl _) (by omega) (by omega) (by omega)

theorem bisectRightLoop_spec {a : List Int} (hs : Sorted a) (x : Int) (n lo hi : Nat)
    (hlo : lo ≤ hi) (hhi : hi ≤ a.length) (hn : hi - lo ≤ n)
    (h1 : ∀ i, i < lo → a.getD i 0 ≤ x) (h2 : ∀ i, hi ≤ i → i < a.length → x < a.getD i 0) :
    bisectRightLoop a x n lo hi ≤ a.length ∧
    (∀ i, i < bisectRightLoop a x n lo hi → a.getD i 0 ≤ x) ∧
    (∀ i, bisectRightLoop a x n lo hi ≤ i → i < a.length → x < a.getD i 0) := by
  induction n generalizing lo hi with
  | zero =>
    have : lo = hi := by omega
    subst this
    exact ⟨hhi, h1, h2⟩
  | succ n ih =>
    unfold bisectRightLoop
    by_cases hlt : lo < hi
    · rw [if_pos hlt]
      dsimp only
      by_cases hm : x < a.getD ((lo + hi) / 2) 0
      · rw [if_pos hm]
        refine ih _ _ (by omega) (by omega) (by omega) h1 (fun i hi' hl => ?_)
        have := hs.getD_le (i := (lo + hi) / 2) (j := i) (by omega) hl
        omega
      · rw [if_neg hm]
        refine ih _ _ (by omega) hhi (by omega) (fun i hi' => ?_) h2
        have := hs.getD_le (i := i) (j := (lo + hi) / 2) (by omega) (by omega)
        omega
    · rw [if_neg hlt]
      have : lo = hi := by omega
      subst this
      exact ⟨hhi, h1, h2⟩

theorem bisectRight_spec {a : List Int} (hs : Sorted a) (x : Int) :
    bisectRight a x ≤ a.length ∧ (∀ i, i < bisectRight a x → a.getD i 0 ≤ x) ∧
    (∀ i, bisectRight a x ≤ i → i < a.length → x < a.getD i 0) :=
  bisectRightLoop_spec hs x _ _ _ (by omega) (Nat.le_refl _) (by omega) (by omega) (by omega)

/-- Even on an unsorted list the result is a position of the list. -/
theorem bisectLeftLoop_le (a : List Int) (x : Int) (n lo hi : Nat) (h : lo ≤ hi) :
    lo ≤ bisectLeftLoop a x n lo hi ∧ bisectLeftLoop a x n lo hi ≤ hi := by
  induction n generalizing lo hi with
  | zero => exact ⟨Nat.le_refl _, h⟩
  | succ n ih =>
    unfold bisectLeftLoop
    split
    · dsimp only
      split
      · have := ih ((lo + hi) / 2 + 1) hi (by omega); omega
      · have := ih lo ((lo + hi) / 2) (by omega); omega
    · omega

theorem bisectLeft_le (a : List Int) (x : Int) : bisectLeft a x ≤ a.length :=
  (bisectLeftLoop_le a x _ _ _ (by omega)).2

theorem bisectRightLoop_le (a : List Int) (x : Int) (n lo hi : Nat) (h : lo ≤ hi) :
    lo ≤ bisectRightLoop a x n lo hi ∧ bisectRightLoop a x n lo hi ≤ hi := by
  induction n generalizing lo hi with
  | zero => exact ⟨Nat.le_refl _, h⟩
  | succ n ih =>
    unfold bisectRightLoop
    split
    · dsimp only
      split
      · have := ih lo ((lo + hi) / 2) (by omega); omega
      · have := ih ((lo + hi) / 2 + 1) hi (by omega); omega
    · omega

theorem bisectRight_le (a : List Int) (x : Int) : bisectRight a x ≤ a.length :=
  (bisectRightLoop_le a x _ _ _ (by omega)).2

end Pawpaw
