import Verif.Props.WsSplit
/-!
# C09: what white-space `str_split` and `str_rsplit` do at every offset

`Props/WsSplit.lean` proves both right at offset 0 and gives counterexamples elsewhere.  Here: at
offset `a`, `str_split()` loses the `a` characters after every piece, so it is right exactly when
no white space between two words is shorter than `a`; and `str_rsplit()` returns at all exactly
when there is nothing but white space.
-/
set_option linter.unusedSectionVars false
namespace Pawpaw.Props
open Pawpaw PyStr SpanSpec
variable {α : Type} [DecidableEq α]

/-! ## Splitting while skipping -/

theorem mem_takeWhile_sat {β : Type} {p : β → Bool} {l : List β} {c : β} (h : c ∈ l.takeWhile p) :
    p c = true := by
  induction l with
  | nil => simp at h
  | cons d t ih =>
    rw [List.takeWhile_cons] at h
    by_cases hd : p d = true
    · rw [if_pos hd, List.mem_cons] at h
      rcases h with rfl | h
      · exact hd
      · exact ih h
    · rw [if_neg hd] at h; simp at h

/-- The words of `s`, when `a` characters are skipped after each word found. -/
def skipSplit (ws : α → Bool) (a : Nat) (s : List α) : List (List α) :=
  match h : s.dropWhile ws with
  | [] => []
  | c :: t => (c :: t).takeWhile (fun x => !ws x) ::
      skipSplit ws a (((c :: t).dropWhile (fun x => !ws x)).drop a)
termination_by s.length
decreasing_by
  have h1 : (s.dropWhile ws).length ≤ s.length := (List.dropWhile_sublist ws).length_le
  have hc : ws c = false := by
    have := List.head_dropWhile_not (l := s) ws (by rw [h]; simp)
    simpa [h] using this
  have h2 : ((c :: t).dropWhile (fun x => !ws x)).length < (c :: t).length := by
    rw [List.dropWhile_cons]
    simp only [hc, Bool.not_false, if_true, List.length_cons]
    have := (List.dropWhile_sublist (l := t) (fun x => !ws x)).length_le
    omega
  rw [h] at h1
  rw [List.length_drop]
  omega

theorem skip_nil (ws : α → Bool) (a : Nat) (s : List α) (h : s.dropWhile ws = []) :
    skipSplit ws a s = [] := by
  rw [skipSplit]
  split
  · rfl
  · next c' t' h' => rw [h] at h'; simp at h'

theorem skip_cons (ws : α → Bool) (a : Nat) (s : List α) (c : α) (t : List α)
    (h : s.dropWhile ws = c :: t) :
    skipSplit ws a s = (c :: t).takeWhile (fun x => !ws x) ::
      skipSplit ws a (((c :: t).dropWhile (fun x => !ws x)).drop a) := by
  rw [skipSplit]
  split
  · next h' => rw [h] at h'; simp at h'
  · next c' t' h' =>
    rw [h] at h'
    simp only [List.cons.injEq] at h'
    obtain ⟨rfl, rfl⟩ := h'
    rfl

theorem splitWsLoop_skip (x : FIto α) (h : x.Valid) (ws : α → Bool) {a b : Nat} (ha : x.start = a)
    (hb : x.stop = b) (hbl : b ≤ x.string.length) (n i : Nat) (m : Int) (hm : m < 0)
    (hn : b - (i + a) < n) :
    ∃ ps m', x.splitWsLoop ws n i m = .ok (ps, m') ∧ m' < 0 ∧ (∀ p ∈ ps, SubIto p x) ∧
      ps.map FIto.text = skipSplit ws a ((x.string.take b).drop (i + a)) := by
  induction n generalizing i m with
  | zero => omega
  | succ n ih =>
    unfold FIto.splitWsLoop FIto.nearestNonWs
    rw [ha, hb, show (i : Int) + a = ((i + a : Nat) : Int) by omega]
    by_cases hib : b < i + a
    · rw [show ((b : Int) - ((i + a : Nat) : Int)).toNat = 0 by omega]
      simp only [FIto.nearestFwd, bind, Except.bind, pure, Except.pure]
      refine ⟨[], m, rfl, hm, by simp, ?_⟩
      rw [skip_nil ws a _ (by rw [List.drop_eq_nil_of_le (by simp; omega)]; rfl)]
      rfl
    · rw [show ((b : Int) - ((i + a : Nat) : Int)).toNat = b - (i + a) by omega,
        FIto.nearestFwd_none x ws hbl (b - (i + a)) (i + a) (by omega)]
      simp only [bind, Except.bind, pure, Except.pure]
      generalize hI : i + a = I at *
      cases hd : ((x.string.take b).drop I).dropWhile ws with
      | nil =>
        refine ⟨[], m, rfl, hm, by simp, ?_⟩
        rw [skip_nil ws a _ hd]
        rfl
      | cons c t =>
        simp only []
        rw [if_pos (by omega)]
        obtain ⟨k, hk1, hk2, _⟩ := FIto.dropWhile_suffix_drop ws ((x.string.take b).drop I)
        rw [hd, List.drop_drop] at hk2
        obtain ⟨k', hk1', hk2', hk3'⟩ := FIto.dropWhile_suffix_drop (fun x => !ws x) (c :: t)
        have hlenct : (c :: t).length = b - (I + k) := by rw [hk2]; simp; omega
        have hik : I + k < b := by
          have : 0 < (c :: t).length := by simp
          omega
        have hk'pos : 0 < k' := by
          have hc : ws c = false := by
            have := List.head_dropWhile_not (l := (x.string.take b).drop I) ws (by rw [hd]; simp)
            simpa [hd] using this
          rcases Nat.eq_zero_or_pos k' with hz | hz
          · subst hz
            rw [List.take_zero, List.takeWhile_cons, hc] at hk3'
            simp at hk3'
          · exact hz
        have hr : ((c :: t).dropWhile (fun x => !ws x)).length = b - (I + k + k') := by
          rw [hk2', List.length_drop, hlenct]; omega
        rw [hlenct, hr, show b - (b - (I + k)) = I + k by omega,
          show b - (b - (I + k + k')) = I + k + k' by omega]
        have hst : (x.clone (some ((I + k : Nat) : Int)) (some ((I + k + k' : Nat) : Int))).stop =
            ((I + k + k' : Nat) : Int) := by
          rw [FIto.clone_span_nat x (by omega) (by omega)]; rfl
        rw [hst]
        obtain ⟨ps, m', e1, e2, e3, e4⟩ := ih (I + k + k') (m - 1) (by omega) (by omega)
        rw [e1]
        refine ⟨_, m', rfl, e2, ?_, ?_⟩
        · intro p hp
          rw [List.mem_cons] at hp
          rcases hp with rfl | hp
          · exact (clone_sub h (by omega) (by omega) (by omega)).1
          · exact e3 p hp
        · rw [skip_cons ws a _ c t hd, hk3', hk2', hk2, List.drop_drop, List.drop_drop,
            List.map_cons, e4, FIto.clone_text x (by omega) (by omega), List.take_drop, List.take_take]
          congr 2
          · congr 1
            omega
          · congr 1
            omega

/-- C09, at every offset: `str_split()` without limit terminates; its pieces lie inside the Ito, and
are the words found when as many characters are skipped after each word as the Ito has before it. -/
theorem C09_split_any_offset (x : FIto α) (h : x.Valid) (ws : α → Bool) (m : Int) (hm : m < 0)
    (fuel : Nat) (hf : x.string.length < fuel) :
    ∃ ps, x.strSplitNone ws fuel m = .ok ps ∧ (∀ p ∈ ps, SubIto p x) ∧
      ps.map FIto.text = skipSplit ws x.start.toNat x.text := by
  obtain ⟨a, b, ha, hb, hab, hl⟩ := h.exists_nat
  unfold FIto.strSplitNone
  by_cases hne : x.string = []
  · rw [if_pos hne]
    refine ⟨[], rfl, by simp, ?_⟩
    have : x.text = [] := by rw [FIto.text_eq ha hb, hne]; simp
    rw [this, skip_nil ws _ _ (by simp)]
    rfl
  · rw [if_neg hne]
    obtain ⟨ps, m', e1, e2, e3, e4⟩ :=
      splitWsLoop_skip x h ws ha hb hl fuel 0 m hm (by omega)
    rw [show ((0 : Nat) : Int) = 0 from rfl] at e1
    simp only [bind, Except.bind, e1, pure, Except.pure]
    rw [if_neg (by omega)]
    refine ⟨ps, rfl, e3, ?_⟩
    rw [e4, ha, Int.toNat_natCast, Nat.zero_add, FIto.text_eq ha hb]

/-! ## When skipping does no harm -/

/-- Position `i` of `t` holds a non-white character. -/
def InWord (ws : α → Bool) (t : List α) (i : Nat) : Prop := ∃ c, t[i]? = some c ∧ ws c = false

/-- Between two words of `t` there are at least `a` characters. -/
def GapsAtLeast (ws : α → Bool) (a : Nat) (t : List α) : Prop :=
  ∀ i j, i + 1 < j → InWord ws t i → InWord ws t j → (∀ k, i < k → k < j → ¬ InWord ws t k) →
    i + 1 + a ≤ j

theorem inWord_drop (ws : α → Bool) (t : List α) (n i : Nat) :
    InWord ws (t.drop n) i ↔ InWord ws t (n + i) := by
  unfold InWord; rw [List.getElem?_drop]

theorem skip_flat_le (ws : α → Bool) (a : Nat) (n : Nat) (s : List α) (hn : s.length < n) :
    (skipSplit ws a s).flatten.length ≤ (s.filter (fun c => !ws c)).length := by
  induction n generalizing s with
  | zero => omega
  | succ n ih =>
    cases hd : s.dropWhile ws with
    | nil => rw [skip_nil ws a s hd]; simp
    | cons c t =>
      rw [skip_cons ws a s c t hd]
      have h1 : s = s.takeWhile ws ++ (c :: t) := by rw [← hd, List.takeWhile_append_dropWhile]
      have h2 : c :: t = (c :: t).takeWhile (fun x => !ws x) ++ (c :: t).dropWhile (fun x => !ws x) :=
        (List.takeWhile_append_dropWhile).symm
      have h3 : ((c :: t).takeWhile (fun x => !ws x)).filter (fun x => !ws x) =
          (c :: t).takeWhile (fun x => !ws x) := by
        rw [List.filter_eq_self]
        intro e he
        exact mem_takeWhile_sat (p := fun x => !ws x) he
      have hc : ws c = false := by
        have := List.head_dropWhile_not (l := s) ws (by rw [hd]; simp)
        simpa [hd] using this
      have h4 : ((c :: t).dropWhile (fun x => !ws x)).length < (c :: t).length := by
        rw [List.dropWhile_cons]
        simp only [hc, Bool.not_false, if_true, List.length_cons]
        have := (List.dropWhile_sublist (l := t) (fun x => !ws x)).length_le
        omega
      have h5 : (c :: t).length ≤ s.length := by rw [← hd]; exact (List.dropWhile_sublist ws).length_le
      have hih := ih (((c :: t).dropWhile (fun x => !ws x)).drop a)
        (by rw [List.length_drop]; omega)
      have h6 : (((c :: t).dropWhile (fun x => !ws x)).drop a |>.filter (fun c => !ws c)).length ≤
          (((c :: t).dropWhile (fun x => !ws x)).filter (fun c => !ws c)).length :=
        ((List.drop_sublist a _).filter _).length_le
      rw [h1, List.filter_append, List.length_append]
      have h7 : ((c :: t).filter (fun c => !ws c)).length =
          ((c :: t).takeWhile (fun x => !ws x)).length +
          (((c :: t).dropWhile (fun x => !ws x)).filter (fun c => !ws c)).length := by
        conv => lhs; rw [h2, List.filter_append, h3, List.length_append]
      rw [h7, List.flatten_cons, List.length_append]
      omega

theorem splitWs_skip (ws : α → Bool) (n : Nat) (s : List α) (hn : s.length < n) :
    splitWs ws none s = skipSplit ws 0 s := by
  induction n generalizing s with
  | zero => omega
  | succ n ih =>
    cases hd : s.dropWhile ws with
    | nil => rw [skip_nil ws 0 s hd, FIto.splitWs_nil ws none s hd]
    | cons c t =>
      rw [skip_cons ws 0 s c t hd, FIto.splitWs_cons ws none (by simp) s c t hd, List.drop_zero]
      have hc : ws c = false := by
        have := List.head_dropWhile_not (l := s) ws (by rw [hd]; simp)
        simpa [hd] using this
      have h4 : ((c :: t).dropWhile (fun x => !ws x)).length < (c :: t).length := by
        rw [List.dropWhile_cons]
        simp only [hc, Bool.not_false, if_true, List.length_cons]
        have := (List.dropWhile_sublist (l := t) (fun x => !ws x)).length_le
        omega
      have h5 : (c :: t).length ≤ s.length := by rw [← hd]; exact (List.dropWhile_sublist ws).length_le
      rw [Option.map_none, ih _ (by omega)]

theorem splitWs_flat (ws : α → Bool) (n : Nat) (s : List α) (hn : s.length < n) :
    (splitWs ws none s).flatten.length = (s.filter (fun c => !ws c)).length := by
  induction n generalizing s with
  | zero => omega
  | succ n ih =>
    cases hd : s.dropWhile ws with
    | nil =>
      rw [FIto.splitWs_nil ws none s hd]
      have h1 : s = s.takeWhile ws := by
        have := List.takeWhile_append_dropWhile (p := ws) (l := s)
        rw [hd, List.append_nil] at this
        exact this.symm
      have h2 : s.filter (fun c => !ws c) = [] := by
        rw [List.filter_eq_nil_iff]
        intro c hc
        rw [h1] at hc
        simp [mem_takeWhile_sat hc]
      rw [h2]; rfl
    | cons c t =>
      rw [FIto.splitWs_cons ws none (by simp) s c t hd]
      have h1 : s = s.takeWhile ws ++ (c :: t) := by rw [← hd, List.takeWhile_append_dropWhile]
      have h2 : c :: t = (c :: t).takeWhile (fun x => !ws x) ++ (c :: t).dropWhile (fun x => !ws x) :=
        (List.takeWhile_append_dropWhile).symm
      have h3 : ((c :: t).takeWhile (fun x => !ws x)).filter (fun x => !ws x) =
          (c :: t).takeWhile (fun x => !ws x) := by
        rw [List.filter_eq_self]
        intro e he
        exact mem_takeWhile_sat (p := fun x => !ws x) he
      have h8 : (s.takeWhile ws).filter (fun x => !ws x) = [] := by
        rw [List.filter_eq_nil_iff]
        intro e he
        simp [mem_takeWhile_sat he]
      have hc : ws c = false := by
        have := List.head_dropWhile_not (l := s) ws (by rw [hd]; simp)
        simpa [hd] using this
      have h4 : ((c :: t).dropWhile (fun x => !ws x)).length < (c :: t).length := by
        rw [List.dropWhile_cons]
        simp only [hc, Bool.not_false, if_true, List.length_cons]
        have := (List.dropWhile_sublist (l := t) (fun x => !ws x)).length_le
        omega
      have h5 : (c :: t).length ≤ s.length := by rw [← hd]; exact (List.dropWhile_sublist ws).length_le
      have hih := ih ((c :: t).dropWhile (fun x => !ws x)) (by omega)
      have h7 : ((c :: t).filter (fun c => !ws c)).length =
          ((c :: t).takeWhile (fun x => !ws x)).length +
          (((c :: t).dropWhile (fun x => !ws x)).filter (fun c => !ws c)).length := by
        conv => lhs; rw [h2, List.filter_append, h3, List.length_append]
      rw [Option.map_none, List.flatten_cons, List.length_append, hih]
      conv => rhs; rw [h1, List.filter_append, h8, List.nil_append]
      rw [h7]

/-- Dropping white space from the front changes no word. -/
theorem splitWs_drop (ws : α → Bool) (s : List α) (n : Nat) (h : ∀ c ∈ s.take n, ws c = true) :
    splitWs ws none (s.drop n) = splitWs ws none s := by
  have hdw : (s.drop n).dropWhile ws = s.dropWhile ws := by
    conv => rhs; rw [← List.take_append_drop n s]
    rw [List.dropWhile_append_of_pos h]
  cases hd : s.dropWhile ws with
  | nil => rw [FIto.splitWs_nil ws none s hd, FIto.splitWs_nil ws none _ (hdw.trans hd)]
  | cons c t =>
    rw [FIto.splitWs_cons ws none (by simp) s c t hd,
      FIto.splitWs_cons ws none (by simp) _ c t (hdw.trans hd)]

/-- C09: skipping `a` characters after each word changes nothing exactly when every stretch of white
space between two words has at least `a` characters. -/
theorem skip_right (ws : α → Bool) (a n : Nat) (s : List α) (hn : s.length < n) :
    skipSplit ws a s = splitWs ws none s ↔ GapsAtLeast ws a s := by
  induction n generalizing s with
  | zero => omega
  | succ n ih =>
    obtain ⟨p, hp1, hp2, hp3⟩ := FIto.dropWhile_suffix_drop ws s
    cases hd : s.dropWhile ws with
    | nil =>
      rw [skip_nil ws a s hd, FIto.splitWs_nil ws none s hd]
      refine ⟨fun _ => ?_, fun _ => rfl⟩
      intro i j _ hi
      exfalso
      obtain ⟨c, hc, hw⟩ := hi
      have h1 : s = s.takeWhile ws := by
        have := List.takeWhile_append_dropWhile (p := ws) (l := s)
        rw [hd, List.append_nil] at this
        exact this.symm
      have hmem : c ∈ s.takeWhile ws := by rw [← h1]; exact List.mem_of_getElem? hc
      rw [mem_takeWhile_sat hmem] at hw
      simp at hw
    | cons c t =>
      have hc : ws c = false := by
        have := List.head_dropWhile_not (l := s) ws (by rw [hd]; simp)
        simpa [hd] using this
      rw [skip_cons ws a s c t hd, FIto.splitWs_cons ws none (by simp) s c t hd, Option.map_none,
        List.cons.injEq]
      obtain ⟨q, hq1, hq2, hq3⟩ := FIto.dropWhile_suffix_drop (fun x => !ws x) (c :: t)
      rw [hd] at hp2
      -- the rest after the first word
      have hrest : (c :: t).dropWhile (fun x => !ws x) = s.drop (p + q) := by
        rw [hq2, hp2, List.drop_drop]
      have hqpos : 0 < q := by
        rcases Nat.eq_zero_or_pos q with hz | hz
        · subst hz
          rw [List.take_zero, List.takeWhile_cons, hc] at hq3
          simp at hq3
        · exact hz
      have hlen : (c :: t).length = s.length - p := by rw [hp2, List.length_drop]
      -- positions of the front part
      have hfront : ∀ i, i < p → ¬ InWord ws s i := by
        rintro i hi ⟨d, hd1, hd2⟩
        have : d ∈ s.take p := by
          rw [List.mem_iff_getElem?]
          exact ⟨i, by rw [List.getElem?_take, if_pos hi]; exact hd1⟩
        rw [← hp3] at this
        rw [mem_takeWhile_sat this] at hd2
        simp at hd2
      have hword : ∀ i, p ≤ i → i < p + q → InWord ws s i := by
        intro i h1 h2
        have hil : i < s.length := by omega
        refine ⟨s[i], List.getElem?_eq_getElem hil, ?_⟩
        have hmem : s[i] ∈ (c :: t).takeWhile (fun x => !ws x) := by
          rw [hq3, hp2, List.mem_iff_getElem?]
          refine ⟨i - p, ?_⟩
          rw [List.getElem?_take, if_pos (by omega), List.getElem?_drop,
            show p + (i - p) = i by omega]
          exact List.getElem?_eq_getElem hil
        simpa using mem_takeWhile_sat hmem
      have hnext : ¬ InWord ws s (p + q) := by
        rintro ⟨d, hd1, hd2⟩
        have hne : (c :: t).dropWhile (fun x => !ws x) ≠ [] := by
          rw [hrest]
          intro hnil
          have := congrArg List.length hnil
          have h3 := (List.getElem?_eq_some_iff.mp hd1).1
          simp at this; omega
        have hh := List.head_dropWhile_not (l := c :: t) (fun x => !ws x) hne
        have hhd : ((c :: t).dropWhile (fun x => !ws x)).head hne = d := by
          have : ((c :: t).dropWhile (fun x => !ws x)).head? = some d := by
            rw [hrest, List.head?_drop]; exact hd1
          rw [List.head?_eq_some_head hne] at this
          exact Option.some.inj this
        rw [hhd, hd2] at hh
        simp at hh
      -- the skipped characters are all white
      have hwhite : (∀ e ∈ (s.drop (p + q)).take a, ws e = true) ↔
          ∀ k, k < a → ¬ InWord ws s (p + q + k) := by
        constructor
        · rintro hall k hk ⟨d, hd1, hd2⟩
          have : d ∈ (s.drop (p + q)).take a := by
            rw [List.mem_iff_getElem?]
            exact ⟨k, by rw [List.getElem?_take, if_pos hk, List.getElem?_drop]; exact hd1⟩
          rw [hall d this] at hd2
          simp at hd2
        · intro hall e he
          rw [List.mem_iff_getElem?] at he
          obtain ⟨k, hk⟩ := he
          rw [List.getElem?_take] at hk
          by_cases hka : k < a
          · rw [if_pos hka, List.getElem?_drop] at hk
            cases hw : ws e with
            | true => rfl
            | false => exact absurd ⟨e, hk, hw⟩ (hall k hka)
          · rw [if_neg hka] at hk; simp at hk
      have hshift : (∀ k, k < a → ¬ InWord ws s (p + q + k)) →
          (GapsAtLeast ws a (s.drop (p + q + a)) ↔ GapsAtLeast ws a s) := by
        intro hw
        constructor
        · intro hg i j hij hi hj hbt
          by_cases h1 : i < p
          · exact absurd hi (hfront i h1)
          · by_cases h2 : i + 1 < p + q
            · exact absurd (hword (i + 1) (by omega) h2) (hbt (i + 1) (by omega) hij)
            · by_cases h3 : i + 1 = p + q
              · by_cases h4 : j < p + q + a
                · have := hw (j - (p + q)) (by omega)
                  rw [show p + q + (j - (p + q)) = j by omega] at this
                  exact absurd hj this
                · omega
              · by_cases h4 : i < p + q + a
                · have := hw (i - (p + q)) (by omega)
                  rw [show p + q + (i - (p + q)) = i by omega] at this
                  exact absurd hi this
                · have := hg (i - (p + q + a)) (j - (p + q + a)) (by omega)
                    ((inWord_drop ws s _ _).mpr (by
                      rw [show p + q + a + (i - (p + q + a)) = i by omega]; exact hi))
                    ((inWord_drop ws s _ _).mpr (by
                      rw [show p + q + a + (j - (p + q + a)) = j by omega]; exact hj))
                    (fun k hk1 hk2 hk => hbt (p + q + a + k) (by omega) (by omega)
                      ((inWord_drop ws s _ _).mp hk))
                  omega
        · intro hg i j hij hi hj hbt
          rw [inWord_drop] at hi hj
          have := hg (p + q + a + i) (p + q + a + j) (by omega) hi hj (fun k hk1 hk2 hk =>
            hbt (k - (p + q + a)) (by omega) (by omega) ((inWord_drop ws s _ _).mpr (by
              rw [show p + q + a + (k - (p + q + a)) = k by omega]; exact hk)))
          omega
      have hL : (s.drop (p + q + a)).length < n := by
        rw [List.length_drop]
        have : 0 < s.length := by
          have : (c :: t).length ≤ s.length := by omega
          simp at this; omega
        omega
      have hL2 : (s.drop (p + q)).length < s.length + 1 := by rw [List.length_drop]; omega
      rw [hrest, List.drop_drop]
      constructor
      · rintro ⟨_, he⟩
        have h1 := skip_flat_le ws a (s.length + 1) (s.drop (p + q + a)) (by
          rw [List.length_drop]; omega)
        rw [he, splitWs_flat ws (s.length + 1) (s.drop (p + q)) hL2] at h1
        have h2 : (s.drop (p + q)).filter (fun c => !ws c) =
            ((s.drop (p + q)).take a).filter (fun c => !ws c) ++
            ((s.drop (p + q + a)).filter (fun c => !ws c)) := by
          rw [← List.drop_drop (i := a) (j := p + q), ← List.filter_append, List.take_append_drop]
        rw [h2, List.length_append] at h1
        have h3 : ((s.drop (p + q)).take a).filter (fun c => !ws c) = [] :=
          List.eq_nil_of_length_eq_zero (by omega)
        rw [List.filter_eq_nil_iff] at h3
        have hall : ∀ e ∈ (s.drop (p + q)).take a, ws e = true := by
          intro e he; have := h3 e he; simpa using this
        rw [← hshift (hwhite.mp hall), ← ih _ hL, he, ← List.drop_drop (i := a) (j := p + q),
          splitWs_drop ws _ a hall]
      · intro hg
        have hw : ∀ k, k < a → ¬ InWord ws s (p + q + k) := by
          -- the first word position at or after `p + q`, if any, is at least `a` further
          intro k hk hin
          have hex : ∃ j, p + q ≤ j ∧ j ≤ p + q + k ∧ InWord ws s j ∧
              ∀ i, p + q ≤ i → i < j → ¬ InWord ws s i := by
            clear hg hk
            induction k using Nat.strongRecOn with
            | ind k ihk =>
              by_cases hlt : ∃ k', k' < k ∧ InWord ws s (p + q + k')
              · obtain ⟨k', h1, h2⟩ := hlt
                obtain ⟨j, j1, j2, j3, j4⟩ := ihk k' h1 h2
                exact ⟨j, j1, by omega, j3, j4⟩
              · refine ⟨p + q + k, by omega, by omega, hin, fun i h1 h2 hi => ?_⟩
                exact hlt ⟨i - (p + q), by omega, by
                  rw [show p + q + (i - (p + q)) = i by omega]; exact hi⟩
          obtain ⟨j, j1, j2, j3, j4⟩ := hex
          have hjne : j ≠ p + q := fun e => hnext (e ▸ j3)
          have := hg (p + q - 1) j (by omega) (hword (p + q - 1) (by omega) (by omega)) j3
            (fun i h1 h2 => j4 i (by omega) h2)
          omega
        refine ⟨rfl, ?_⟩
        rw [(ih _ hL).mpr ((hshift hw).mpr hg), ← List.drop_drop (i := a) (j := p + q), splitWs_drop ws _ a (hwhite.mpr hw)]

/-- C09, exact domain of `str_split()` (no limit): it is Python's `split()` exactly when every stretch
of white space between two words is at least as long as the Ito's offset in its string. -/
theorem C09_split_exact (x : FIto α) (h : x.Valid) (ws : α → Bool) (m : Int) (hm : m < 0)
    (fuel : Nat) (hf : x.string.length < fuel) :
    (∃ ps, x.strSplitNone ws fuel m = .ok ps ∧ ps.map FIto.text = PyStr.splitNone ws x.text m) ↔
      GapsAtLeast ws x.start.toNat x.text := by
  obtain ⟨ps, h1, _, h3⟩ := C09_split_any_offset x h ws m hm fuel hf
  have hpy : PyStr.splitNone ws x.text m = splitWs ws none x.text := by
    unfold PyStr.splitNone limitOf; rw [if_pos hm]
  rw [← skip_right ws x.start.toNat (x.text.length + 1) x.text (by omega), hpy]
  constructor
  · rintro ⟨ps', h1', h3'⟩
    rw [h1] at h1'
    cases h1'
    rw [← h3, h3']
  · intro he
    exact ⟨ps, h1, by rw [h3, he]⟩

/-- An Ito at offset 2: `a  bc` is right, `a bc` is not. -/
example : ((FIto.ofStr "xxa  bc".toList (some 2) none).strSplitNone (· == ' ') 20 (-1)).toOption.map
      (fun ps => ps.map FIto.text) = some [['a'], ['b', 'c']] ∧
    ((FIto.ofStr "xxa bc".toList (some 2) none).strSplitNone (· == ' ') 20 (-1)).toOption.map
      (fun ps => ps.map FIto.text) = some [['a'], ['c']] := by decide

/-! ## `str_rsplit()` away from offset 0 -/

theorem nearestRev_hit (x : FIto α) (ws : α → Bool) {a : Nat} (n : Nat) (i : Int) (o : Option Int)
    (hi : i = (a : Int) + n - 1) (hn : o ≠ none ∨ ∃ p : Nat, a ≤ p ∧ (p : Int) ≤ i ∧ InWord ws x.string p)
    (ho : ∀ j, o = some j → i < j ∧ j < x.string.length ∧ InWord ws x.string (i + 1).toNat)
    (r : Option (FIto α)) (hr : x.nearestRev ws n i o = .ok r) :
    ∃ y, r = some y ∧ (a : Int) ≤ y.start ∧ InWord ws x.string y.start.toNat := by
  induction n generalizing i o with
  | zero =>
    cases o with
    | none =>
      rcases hn with hn | ⟨p, hp1, hp2, _⟩
      · exact absurd rfl hn
      · omega
    | some j =>
      obtain ⟨h1, h2, h3⟩ := ho j rfl
      simp only [FIto.nearestRev, Except.ok.injEq] at hr
      refine ⟨_, hr.symm, ?_⟩
      have hs : (x.clone (some (i + 1)) (some (j + 1))).start = a := by
        rw [show i + 1 = ((a : Nat) : Int) by omega, show j + 1 = (((j + 1).toNat : Nat) : Int) by omega,
          FIto.clone_span_nat x (by omega) (by omega)]; rfl
      rw [hs]
      refine ⟨Int.le_refl _, ?_⟩
      rw [Int.toNat_natCast, show a = (i + 1).toNat by omega]; exact h3
  | succ n ih =>
    unfold FIto.nearestRev at hr
    cases hc : x.string[i.toNat]? with
    | none => rw [hc] at hr; simp at hr
    | some c =>
      rw [hc] at hr
      cases o with
      | none =>
        dsimp only at hr
        by_cases hw : ws c = true
        · rw [if_pos hw] at hr
          refine ih (i - 1) none (by omega) ?_ (by simp) hr
          rcases hn with hn | ⟨p, hp1, hp2, d, hd1, hd2⟩
          · exact absurd rfl hn
          · right
            refine ⟨p, hp1, ?_, d, hd1, hd2⟩
            by_cases he : (p : Int) = i
            · have : i.toNat = p := by omega
              rw [this, hd1] at hc
              simp only [Option.some.injEq] at hc
              rw [hc, hw] at hd2; simp at hd2
            · omega
        · rw [if_neg hw] at hr
          refine ih (i - 1) (some i) (by omega) (Or.inl (by simp)) ?_ hr
          intro j hj
          simp only [Option.some.injEq] at hj
          subst hj
          have hlt := (List.getElem?_eq_some_iff.mp hc).1
          refine ⟨by omega, by omega, c, ?_, by simpa using hw⟩
          rw [show (i - 1 + 1).toNat = i.toNat by omega]; exact hc
      | some j =>
        obtain ⟨h1, h2, h3⟩ := ho j rfl
        dsimp only at hr
        by_cases hw : ws c = true
        · rw [if_pos hw] at hr
          simp only [Except.ok.injEq] at hr
          refine ⟨_, hr.symm, ?_⟩
          have hs : (x.clone (some (i + 1)) (some (j + 1))).start = i + 1 := by
            rw [show i + 1 = (((i + 1).toNat : Nat) : Int) by omega,
              show j + 1 = (((j + 1).toNat : Nat) : Int) by omega,
              FIto.clone_span_nat x (by omega) (by omega)]; rfl
          rw [hs]
          exact ⟨by omega, h3⟩
        · rw [if_neg hw] at hr
          refine ih (i - 1) (some j) (by omega) (Or.inl (by simp)) ?_ hr
          intro j' hj'
          simp only [Option.some.injEq] at hj'
          subst hj'
          refine ⟨by omega, h2, c, ?_, by simpa using hw⟩
          rw [show (i - 1 + 1).toNat = i.toNat by omega]; exact hc

theorem rsplitWsLoop_never (x : FIto α) (ws : α → Bool) {a : Nat} (ha : x.start = a) (ha1 : 1 ≤ a)
    (n : Nat) (i m : Int) (hm : m < 0)
    (hp : ∃ p : Nat, a ≤ p ∧ (p : Int) ≤ i + a ∧ InWord ws x.string p) (r : List (FIto α) × Int) :
    x.rsplitWsLoop ws n i m ≠ .ok r := by
  induction n generalizing i m r with
  | zero => simp [FIto.rsplitWsLoop]
  | succ n ih =>
    intro hr
    unfold FIto.rsplitWsLoop FIto.nearestNonWsRev at hr
    rw [ha] at hr
    cases hq : x.nearestRev ws (i + a - a + 1).toNat (i + a) none with
    | error e => rw [hq] at hr; simp [bind, Except.bind] at hr
    | ok o =>
      rw [hq] at hr
      obtain ⟨p, hp1, hp2, hp3⟩ := hp
      obtain ⟨y, hy, hy1, hy2⟩ := nearestRev_hit x ws (a := a) _ _ none (by omega)
        (Or.inr ⟨p, hp1, hp2, hp3⟩) (by simp) o hq
      subst hy
      simp only [bind, Except.bind, pure, Except.pure] at hr
      rw [if_pos (by omega)] at hr
      cases hrec : x.rsplitWsLoop ws n (y.start - 1) (m - 1) with
      | error e => rw [hrec] at hr; simp at hr
      | ok r' =>
        exact ih (y.start - 1) (m - 1) (by omega)
          ⟨y.start.toNat, by omega, by omega, hy2⟩ r' hrec

/-- C09, exact domain of `str_rsplit()` (no limit) away from offset 0: if the text has any non-white
character it never returns, however long it runs (it loops for ever or raises `IndexError`). -/
theorem C09_rsplit_offset_violated (x : FIto α) (h : x.Valid) (hs : 0 < x.start) (ws : α → Bool)
    (c : α) (hc : c ∈ x.text) (hw : ws c = false) (m : Int) (hm : m < 0) (fuel : Nat)
    (ps : List (FIto α)) : x.strRsplitNone ws fuel m ≠ .ok ps := by
  obtain ⟨a, b, ha, hb, hab, hl⟩ := h.exists_nat
  have htl := FIto.text_length ha hb hl
  rw [FIto.text_eq ha hb] at hc
  obtain ⟨k, hk⟩ := List.mem_iff_getElem?.mp hc
  rw [List.getElem?_drop] at hk
  have hkb : a + k < b := by
    have := (List.getElem?_eq_some_iff.mp hk).1
    rw [List.length_take] at this
    omega
  rw [List.getElem?_take, if_pos hkb] at hk
  intro hr
  unfold FIto.strRsplitNone at hr
  by_cases hne : x.string = []
  · rw [hne] at hk; simp at hk
  · rw [if_neg hne] at hr
    have hlen : x.len = (b : Int) - a := by unfold FIto.len; rw [ha, hb]
    cases hq : x.rsplitWsLoop ws fuel (x.len - 1) m with
    | error e => rw [hq] at hr; simp [bind, Except.bind] at hr
    | ok r =>
      exact rsplitWsLoop_never x ws ha (by omega) fuel (x.len - 1) m hm
        ⟨a + k, by omega, by omega, c, hk, hw⟩ r hq

example : (FIto.ofStr "x ab".toList (some 1) none).Valid ∧
    (0 : Int) < (FIto.ofStr "x ab".toList (some 1) none).start ∧
    'a' ∈ (FIto.ofStr "x ab".toList (some 1) none).text := by
  refine ⟨C01_ctor_valid _ _ _ _, by decide, by decide⟩

end Pawpaw.Props
