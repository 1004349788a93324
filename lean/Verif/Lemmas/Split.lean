import Verif.Lemmas.Strip
/-! Lemmas relating the split loops to the recursive specification. -/
set_option linter.unusedSectionVars false
namespace PyStr
variable {α : Type} [DecidableEq α]

/-- First occurrence, as an option. -/
def firstOcc (w sep : List α) : Option Nat :=
  (List.range (w.length + 1)).find? (okAt w sep none none)

def lastOcc (w sep : List α) : Option Nat :=
  (List.range (w.length + 1)).reverse.find? (okAt w sep none none)

theorem occursAt_zero (s sub : List α) : occursAt s sub 0 = sub.isPrefixOf s := by
  unfold occursAt
  rw [List.drop_zero, Bool.eq_iff_iff, beq_iff_eq, List.isPrefixOf_iff_prefix,
    List.prefix_iff_eq_take]
  exact eq_comm

theorem okAt_none (s sub : List α) (i : Nat) :
    okAt s sub none none i = (decide (i + sub.length ≤ s.length) && occursAt s sub i) := by
  unfold okAt adjStart adjEnd
  have h1 : decide ((0 : Int) ≤ (i : Int)) = true := by simp
  simp only [h1, Bool.true_and]
  congr 1
  rw [Bool.eq_iff_iff]
  simp only [decide_eq_true_eq]
  omega

theorem okAt_none_iff (s sub : List α) (i : Nat) :
    okAt s sub none none i = true ↔ ∃ l r, s = l ++ sub ++ r ∧ l.length = i := by
  rw [okAt_none]
  simp only [Bool.and_eq_true, decide_eq_true_eq]
  unfold occursAt
  rw [beq_iff_eq]
  constructor
  · rintro ⟨h1, h2⟩
    refine ⟨s.take i, s.drop (i + sub.length), ?_, by simp; omega⟩
    have hd : s.drop i = sub ++ s.drop (i + sub.length) := by
      conv => lhs; rw [← List.take_append_drop sub.length (s.drop i), h2]
      rw [List.drop_drop]
    rw [List.append_assoc, ← hd, List.take_append_drop]
  · rintro ⟨l, r, rfl, rfl⟩
    constructor
    · simp
    · simp [List.append_assoc]

theorem okAt_cons_succ (c : α) (t sub : List α) (i : Nat) :
    okAt (c :: t) sub none none (i + 1) = okAt t sub none none i := by
  rw [okAt_none, okAt_none]
  unfold occursAt
  simp only [List.drop_succ_cons, List.length_cons]
  congr 1
  rw [Bool.eq_iff_iff]
  simp only [decide_eq_true_eq]
  omega

theorem okAt_zero (s sub : List α) : okAt s sub none none 0 = sub.isPrefixOf s := by
  rw [okAt_none, occursAt_zero, Bool.eq_iff_iff]
  simp only [Bool.and_eq_true, decide_eq_true_eq, List.isPrefixOf_iff_prefix]
  constructor
  · exact fun h => h.2
  · intro h; exact ⟨by have := h.length_le; omega, h⟩

theorem firstOcc_cons (c : α) (t sep : List α) :
    firstOcc (c :: t) sep =
      if sep.isPrefixOf (c :: t) then some 0 else (firstOcc t sep).map (· + 1) := by
  unfold firstOcc
  rw [List.length_cons, List.range_succ_eq_map, List.find?_cons, okAt_zero]
  cases h : sep.isPrefixOf (c :: t) with
  | true => simp
  | false =>
    simp only [Bool.false_eq_true, if_false, List.find?_map]
    have : (okAt (c :: t) sep none none ∘ Nat.succ) = okAt t sep none none := by
      funext i; exact okAt_cons_succ c t sep i
    rw [this]

theorem firstOcc_nil (sep : List α) (h : sep ≠ []) : firstOcc [] sep = none := by
  unfold firstOcc
  cases sep with
  | nil => simp at h
  | cons c t => rfl

theorem splitGo_zero (sep acc w : List α) : splitGo sep (some 0) acc w = [acc ++ w] := by
  cases w <;> simp [splitGo]

theorem splitGo_eq (sep : List α) (hs : sep ≠ []) (k : Option Nat) (hk : k ≠ some 0)
    (acc w : List α) :
    splitGo sep k acc w = match firstOcc w sep with
      | none => [acc ++ w]
      | some j => (acc ++ w.take j) :: splitGo sep (k.map (· - 1)) [] (w.drop (j + sep.length)) := by
  induction w generalizing acc with
  | nil =>
    rw [firstOcc_nil sep hs]
    rcases k with _ | _ | k
    · simp [splitGo]
    · simp at hk
    · simp [splitGo]
  | cons c t ih =>
    rw [firstOcc_cons]
    rw [splitGo]
    case x_3 => intro h; exact hk h
    by_cases h : sep.isPrefixOf (c :: t) = true
    · rw [if_pos ⟨hs, h⟩, if_pos h]
      simp
    · rw [if_neg (fun hh => h hh.2), if_neg h, ih]
      cases hf : firstOcc t sep with
      | none => simp
      | some j =>
        simp [Nat.add_right_comm]

theorem firstOcc_some {w sep : List α} {j : Nat} (h : firstOcc w sep = some j) :
    w = w.take j ++ sep ++ w.drop (j + sep.length) ∧ j + sep.length ≤ w.length := by
  unfold firstOcc at h
  rw [find?_range_iff] at h
  obtain ⟨h1, _, _⟩ := h
  obtain ⟨l, r, rfl, rfl⟩ := (okAt_none_iff _ _ _).mp h1
  simp [List.append_assoc]

theorem lastOcc_some {w sep : List α} {j : Nat} (h : lastOcc w sep = some j) :
    w = w.take j ++ sep ++ w.drop (j + sep.length) ∧ j + sep.length ≤ w.length := by
  unfold lastOcc at h
  rw [find?_reverse_range_iff] at h
  obtain ⟨h1, _, _⟩ := h
  obtain ⟨l, r, rfl, rfl⟩ := (okAt_none_iff _ _ _).mp h1
  simp [List.append_assoc]

/-- Splitting then interleaving with the separator rebuilds the text. -/
theorem splitGo_intercalate (sep : List α) (hs : sep ≠ []) (k : Option Nat) (acc w : List α) :
    sep.intercalate (splitGo sep k acc w) = acc ++ w ∧ splitGo sep k acc w ≠ [] := by
  induction hn : w.length using Nat.strongRecOn generalizing w acc k with
  | _ n ih =>
  by_cases hk : k = some 0
  · subst hk; rw [splitGo_zero]; simp [List.intercalate]
  · rw [splitGo_eq sep hs k hk]
    cases hf : firstOcc w sep with
    | none => simp [List.intercalate]
    | some j =>
      obtain ⟨h1, h2⟩ := firstOcc_some hf
      have hsl : 0 < sep.length := List.length_pos_iff.mpr hs
      have := ih (w.drop (j + sep.length)).length (by simp; omega) (k.map (· - 1)) []
        (w.drop (j + sep.length)) rfl
      refine ⟨?_, by simp⟩
      dsimp only
      generalize splitGo sep (k.map (· - 1)) [] (w.drop (j + sep.length)) = r at this ⊢
      obtain ⟨hr, hne⟩ := this
      cases r with
      | nil => simp at hne
      | cons y ys =>
        have e : sep.intercalate ((acc ++ w.take j) :: y :: ys) =
            (acc ++ w.take j) ++ sep ++ sep.intercalate (y :: ys) := by
          simp [List.intercalate, List.intersperse]
        rw [e, hr]
        conv => rhs; rw [h1]
        simp [List.append_assoc]

theorem firstOcc_reverse (w sep : List α) :
    firstOcc w.reverse sep.reverse = (lastOcc w sep).map (fun j => w.length - sep.length - j) := by
  unfold firstOcc
  have hok : ∀ i j, i + j + sep.length = w.length →
      okAt w.reverse sep.reverse none none i = okAt w sep none none j := by
    intro i j hij
    rw [Bool.eq_iff_iff, okAt_none_iff, okAt_none_iff]
    constructor
    · rintro ⟨l, r, h, hl⟩
      refine ⟨r.reverse, l.reverse, ?_, ?_⟩
      · have := congrArg List.reverse h
        simpa [List.append_assoc] using this
      · have := congrArg List.length h
        simp at this ⊢
        omega
    · rintro ⟨l, r, h, hl⟩
      refine ⟨r.reverse, l.reverse, ?_, ?_⟩
      · rw [h]; simp [List.append_assoc]
      · have := congrArg List.length h
        simp at this ⊢
        omega
  have hbig : ∀ i, okAt w.reverse sep.reverse none none i = true → i + sep.length ≤ w.length := by
    intro i h
    rw [okAt_none] at h
    simp at h
    exact h.1
  have hbig' : ∀ i, okAt w sep none none i = true → i + sep.length ≤ w.length := by
    intro i h
    rw [okAt_none] at h
    simp at h
    exact h.1
  rw [find?_range_iff]
  cases hl : lastOcc w sep with
  | none =>
    unfold lastOcc at hl
    rw [find?_reverse_range_iff] at hl
    simp only [Option.map_none]
    intro j hj
    refine Bool.eq_false_iff.mpr fun hc => ?_
    have hb := hbig j hc
    rw [hok j (w.length - sep.length - j) (by omega)] at hc
    have := hl (w.length - sep.length - j) (by omega)
    simp_all
  | some i =>
    unfold lastOcc at hl
    rw [find?_reverse_range_iff] at hl
    simp only [Option.map_some]
    obtain ⟨h1, h2, h3⟩ := hl
    have hb := hbig' i h1
    refine ⟨?_, by simp; omega, fun j hj => ?_⟩
    · rw [hok _ i (by omega)]; exact h1
    · refine Bool.eq_false_iff.mpr fun hc => ?_
      have hb := hbig j hc
      rw [hok j (w.length - sep.length - j) (by omega)] at hc
      have := h3 (w.length - sep.length - j) (by omega) (by omega)
      simp_all

theorem split_cons (w sep : List α) (hs : sep ≠ []) (m : Int) (hm : m ≠ 0) :
    split w sep m = match firstOcc w sep with
      | none => [w]
      | some j => w.take j :: split (w.drop (j + sep.length)) sep (m - 1) := by
  unfold split
  rw [splitGo_eq sep hs]
  · cases hf : firstOcc w sep with
    | none => simp
    | some j =>
      simp only [List.nil_append]
      congr 2
      unfold limitOf
      by_cases h : m < 0
      · rw [if_pos h, if_pos (by omega)]; rfl
      · rw [if_neg h, if_neg (by omega)]; simp
  · unfold limitOf
    split
    · simp
    · simp; omega

theorem split_zero (w sep : List α) : split w sep 0 = [w] := by
  unfold split limitOf
  simp [splitGo_zero]

theorem rsplit_zero (w sep : List α) : rsplit w sep 0 = [w] := by
  unfold rsplit; rw [split_zero]; simp

theorem rsplit_concat (w sep : List α) (hs : sep ≠ []) (m : Int) (hm : m ≠ 0) :
    rsplit w sep m = match lastOcc w sep with
      | none => [w]
      | some j => rsplit (w.take j) sep (m - 1) ++ [w.drop (j + sep.length)] := by
  unfold rsplit
  rw [split_cons _ _ (by simpa using hs) m hm, firstOcc_reverse]
  cases hl : lastOcc w sep with
  | none => simp
  | some j =>
    obtain ⟨_, hle⟩ := lastOcc_some hl
    simp only [Option.map_some, List.map_cons, List.reverse_cons, List.length_reverse]
    congr 2
    · congr 3
      rw [List.drop_reverse]
      congr 1
      congr 1
      omega
    · congr 1
      rw [List.take_reverse, List.reverse_reverse]
      congr 1
      omega

end PyStr

namespace Pawpaw
open PyStr
variable {α : Type} [DecidableEq α]
namespace FIto

/-- `find` on the raw string between two in-range positions. -/
theorem find_between (s sep : List α) {i b : Nat} (hib : i ≤ b) (hb : b ≤ s.length) :
    PyStr.find s sep (some (i : Int)) (some (b : Int)) =
      (match firstOcc ((s.take b).drop i) sep with
      | none => -1
      | some j => (i : Int) + j) ∧
    PyStr.rfind s sep (some (i : Int)) (some (b : Int)) =
      (match lastOcc ((s.take b).drop i) sep with
      | none => -1
      | some j => (i : Int) + j) := by
  let y : FIto α := ⟨s, ⟨i, b⟩, none⟩
  have hy : y.Valid := by refine ⟨?_, ?_, ?_⟩ <;> simp [y] <;> omega
  have ht : y.text = (s.take b).drop i := text_eq (x := y) (a := i) (b := b) rfl rfl
  have hw : y.window none none = .ok ⟨i, b⟩ := by
    rw [window_eq hy, ht]
    have : ((s.take b).drop i).length = b - i := by simp; omega
    rw [this]
    simp only [adjStart, adjEnd]
    simp only [FIto.start, y]
    congr 2 <;> omega
  have hle : adjStart y.text.length none ≤ adjEnd y.text.length none := by
    simp [adjStart, adjEnd]
  obtain ⟨h1, h2⟩ := okAt_window hy (a := i) (b := b) rfl rfl hw sep (Or.inr hle)
  rw [ht] at h1
  constructor
  · unfold PyStr.find firstOcc
    rw [find?_range_shift _ _ _ (((s.take b).drop i).length + 1) i h1 h2
      (fun j => okAt_lt _ _ _ _ j) (fun j => okAt_lt _ _ _ _ j)]
    cases (List.range (((s.take b).drop i).length + 1)).find?
      (okAt ((s.take b).drop i) sep none none) <;> simp
  · unfold PyStr.rfind lastOcc
    rw [find?_reverse_range_shift _ _ _ (((s.take b).drop i).length + 1) i h1 h2
      (fun j => okAt_lt _ _ _ _ j) (fun j => okAt_lt _ _ _ _ j)]
    cases (List.range (((s.take b).drop i).length + 1)).reverse.find?
      (okAt ((s.take b).drop i) sep none none) <;> simp

theorem splitLoop_spec (x : FIto α) (sep : List α) (hs : sep ≠ []) {b : Nat} (hb : x.stop = b)
    (hbl : b ≤ x.string.length) (n i : Nat) (m : Int) (hib : i ≤ b) (hn : b - i < n) :
    ∃ r : Nat, (splitLoop x sep n i m).2 = r ∧ i ≤ r ∧ r ≤ b ∧
      ((splitLoop x sep n i m).1 = [] → r = i) ∧
      (splitLoop x sep n i m).1.map text ++ [(x.string.take b).drop r] =
        PyStr.split ((x.string.take b).drop i) sep m ∧
      ∀ p ∈ (splitLoop x sep n i m).1, p.Valid ∧ p.string = x.string ∧ p.desc = x.desc ∧
        (i : Int) ≤ p.start ∧ p.stop ≤ b := by
  induction n generalizing i m with
  | zero => omega
  | succ n ih =>
    unfold splitLoop
    simp only []
    rw [hb, (find_between x.string sep hib hbl).1]
    by_cases hm : m = 0
    · subst hm
      simp only [ne_eq, not_true_eq_false, and_false, if_false]
      exact ⟨i, rfl, by omega, hib, fun _ => rfl, by rw [split_zero]; simp, by simp⟩
    · rw [split_cons _ _ hs m hm]
      cases hf : firstOcc ((x.string.take b).drop i) sep with
      | none =>
        simp only [ge_iff_le, Int.reduceNeg, Int.reduceLE, false_and, if_false]
        exact ⟨i, rfl, by omega, hib, fun _ => rfl, by simp, by simp⟩
      | some j =>
        obtain ⟨_, hle⟩ := firstOcc_some hf
        have hsl : 0 < sep.length := List.length_pos_iff.mpr hs
        have hlen : ((x.string.take b).drop i).length = b - i := by simp; omega
        rw [hlen] at hle
        simp only []
        rw [if_pos ⟨by omega, hm⟩]
        simp only []
        have hcast : (i : Int) + j + sep.length = ((i + j + sep.length : Nat) : Int) := by omega
        rw [hcast, show (i : Int) + j = ((i + j : Nat) : Int) by omega]
        obtain ⟨r, h1, h2, h3, h4, h5, h6⟩ := ih (i + j + sep.length) (m - 1) (by omega) (by omega)
        refine ⟨r, h1, by omega, h3, by simp, ?_, ?_⟩
        · rw [List.map_cons, clone_text x (by omega) (by omega), List.cons_append, h5]
          congr 1
          · rw [List.take_drop, List.take_take]
            congr 2
            omega
          · rw [List.drop_drop]
            congr 2
            omega
        · intro p hp
          rw [List.mem_cons] at hp
          rcases hp with rfl | hp
          · rw [clone_span_nat x (by omega) (by omega)]
            refine ⟨⟨by dsimp only; omega, by dsimp only; omega, by dsimp only; omega⟩, rfl, rfl, by simp [FIto.start],
              by simp [FIto.stop]; omega⟩
          · obtain ⟨g1, g2, g3, g4, g5⟩ := h6 p hp
            exact ⟨g1, g2, g3, by omega, g5⟩

theorem rsplitLoop_spec (x : FIto α) (sep : List α) (hs : sep ≠ []) {a : Nat} (ha : x.start = a)
    (n i : Nat) (m : Int) (acc : List (FIto α)) (hai : a ≤ i) (hil : i ≤ x.string.length)
    (hn : i - a < n) :
    ∃ (r : Nat) (ps : List (FIto α)), rsplitLoop x sep n i m acc = (ps ++ acc, (r : Int)) ∧
      a ≤ r ∧ r ≤ i ∧ (ps = [] → r = i) ∧
      [(x.string.take r).drop a] ++ ps.map text =
        PyStr.rsplit ((x.string.take i).drop a) sep m ∧
      ∀ p ∈ ps, p.Valid ∧ p.string = x.string ∧ p.desc = x.desc ∧
        (a : Int) ≤ p.start ∧ p.stop ≤ i := by
  induction n generalizing i m acc with
  | zero => omega
  | succ n ih =>
    unfold rsplitLoop
    simp only []
    rw [ha, (find_between x.string sep hai hil).2]
    by_cases hm : m = 0
    · subst hm
      simp only [ne_eq, not_true_eq_false, and_false, if_false]
      exact ⟨i, [], rfl, by omega, by omega, fun _ => rfl, by rw [rsplit_zero]; simp, by simp⟩
    · rw [rsplit_concat _ _ hs m hm]
      cases hf : lastOcc ((x.string.take i).drop a) sep with
      | none =>
        simp only [ge_iff_le, Int.reduceNeg, Int.reduceLE, false_and, if_false]
        exact ⟨i, [], rfl, by omega, by omega, fun _ => rfl, by simp, by simp⟩
      | some j =>
        obtain ⟨_, hle⟩ := lastOcc_some hf
        have hsl : 0 < sep.length := List.length_pos_iff.mpr hs
        have hlen : ((x.string.take i).drop a).length = i - a := by simp; omega
        rw [hlen] at hle
        simp only []
        rw [if_pos ⟨by omega, hm⟩]
        have hcast : (a : Int) + j + sep.length = ((a + j + sep.length : Nat) : Int) := by omega
        rw [hcast, show (a : Int) + j = ((a + j : Nat) : Int) by omega]
        obtain ⟨r, ps, h1, h2, h3, h4, h5, h6⟩ := ih (a + j) (m - 1)
          (x.clone (some ((a + j + sep.length : Nat) : Int)) (some (i : Int)) :: acc)
          (by omega) (by omega) (by omega)
        refine ⟨r, ps ++ [x.clone (some ((a + j + sep.length : Nat) : Int)) (some (i : Int))],
          ?_, h2, by omega, by simp, ?_, ?_⟩
        · rw [h1]; simp
        · rw [List.map_append, ← List.append_assoc, h5]
          congr 1
          · congr 1
            rw [List.take_drop, List.take_take]
            congr 2
            omega
          · simp only [List.map_cons, List.map_nil]
            rw [clone_text x (by omega) hil, List.drop_drop]
            congr 2
            omega
        · intro p hp
          rw [List.mem_append, List.mem_singleton] at hp
          rcases hp with hp | rfl
          · obtain ⟨g1, g2, g3, g4, g5⟩ := h6 p hp
            exact ⟨g1, g2, g3, g4, by omega⟩
          · rw [clone_span_nat x (by omega) hil]
            refine ⟨⟨by dsimp only; omega, by dsimp only; omega, by dsimp only; omega⟩, rfl, rfl,
              by simp [FIto.start]; omega, by simp [FIto.stop]⟩

end FIto
end Pawpaw
