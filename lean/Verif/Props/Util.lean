import Verif.Model.Util
import Verif.Spec.Util
import Verif.Lemmas.Affix
import Verif.Props.StrOps
/-!
# C42, C43: `find_escapes`, `find_unescaped`, `split_unescaped`, `find_balanced`
-/
set_option linter.unusedSectionVars false
namespace Pawpaw.Props
open Pawpaw PyStr UtilSpec Util FIto
variable {α : Type} [DecidableEq α]

/-! ## Auxiliary -/

theorem runBefore_succ (esc : α) (pre cs : List α) (c : α) :
    runBefore esc (pre ++ c :: cs) (pre.length + 1) =
      if c = esc then runBefore esc (pre ++ c :: cs) pre.length + 1 else 0 := by
  have h1 : (pre ++ c :: cs).take (pre.length + 1) = pre ++ [c] := by
    rw [List.take_append, List.take_of_length_le (by omega)]; simp
  have h2 : (pre ++ c :: cs).take pre.length = pre := by simp
  unfold runBefore
  rw [h1, h2]
  by_cases h : c = esc <;> simp [h, List.takeWhile_cons]

theorem escaped_succ (esc : α) (pre cs : List α) (c : α) :
    Escaped esc (pre ++ c :: cs) (pre.length + 1) ↔
      c = esc ∧ ¬ Escaped esc (pre ++ c :: cs) pre.length := by
  unfold Escaped
  rw [runBefore_succ]
  by_cases hc : c = esc
  · rw [if_pos hc]; constructor
    · intro h; exact ⟨hc, by omega⟩
    · rintro ⟨_, h⟩; omega
  · simp [hc]

theorem findUnescapedLoop_spec (chars : List α) (esc : α) (off base : Int) (cs : List α) :
    ∀ (pre : List α) (e : Bool), e = decide (Escaped esc (pre ++ cs) pre.length) →
    (findUnescapedLoop chars esc off e (base + pre.length) cs).out =
      ((List.range' pre.length cs.length).filter
        (fun k => decide (UnescapedAt chars esc (pre ++ cs) k))).map (fun k : Nat => base + (k : Int) - off) ∧
    (findUnescapedLoop chars esc off e (base + pre.length) cs).exc =
      if Escaped esc (pre ++ cs) (pre ++ cs).length then some .valueError else none := by
  induction cs with
  | nil =>
    intro pre e he
    subst he
    simp only [findUnescapedLoop, List.append_nil]
    by_cases h : Escaped esc pre pre.length <;> simp [h, Run.raise, Run.done]
  | cons c cs ih =>
    intro pre e he
    have hpre : pre ++ c :: cs = (pre ++ [c]) ++ cs := by simp
    have hlen : base + ((pre ++ [c]).length : Int) = base + pre.length + 1 := by simp; omega
    have hget : (pre ++ c :: cs)[pre.length]? = some c := by simp
    have hrun := escaped_succ esc pre cs c
    have hrange : List.range' pre.length (c :: cs).length =
        pre.length :: List.range' (pre ++ [c]).length cs.length := by
      simp [List.range'_succ]
    have hstep : ∀ e' : Bool, e' = decide (Escaped esc (pre ++ c :: cs) (pre.length + 1)) →
        _ := fun e' he' => ih (pre ++ [c]) e' (by rw [he', hpre]; simp)
    rw [hlen, ← hpre] at hstep
    rw [hrange]
    unfold findUnescapedLoop
    have hU : UnescapedAt chars esc (pre ++ c :: cs) pre.length ↔
        (c ∈ chars ∧ c ≠ esc) ∧ ¬ Escaped esc (pre ++ c :: cs) pre.length := by
      unfold UnescapedAt
      rw [hget]
      constructor
      · rintro ⟨⟨d, h1, h2, h3⟩, h4⟩
        cases h2
        exact ⟨⟨h1, h3⟩, h4⟩
      · rintro ⟨⟨h1, h3⟩, h4⟩
        exact ⟨⟨c, h1, rfl, h3⟩, h4⟩
    by_cases hE : Escaped esc (pre ++ c :: cs) pre.length
    · have he1 : e = true := by rw [he]; simp [hE]
      subst he1
      have hs := hstep false (decide_eq_false (fun h' => (hrun.1 h').2 hE)).symm
      have hnU : ¬ UnescapedAt chars esc (pre ++ c :: cs) pre.length := fun h => (hU.1 h).2 hE
      simp only [if_true]
      rw [List.filter_cons_of_neg (by simpa using hnU)]
      exact hs
    · have he1 : e = false := by rw [he]; simp [hE]
      subst he1
      simp only [Bool.false_eq_true, if_false]
      by_cases hc : c = esc
      · have hs := hstep true (decide_eq_true (hrun.2 ⟨hc, hE⟩)).symm
        have hnU : ¬ UnescapedAt chars esc (pre ++ c :: cs) pre.length := fun h => (hU.1 h).1.2 hc
        rw [if_pos hc, List.filter_cons_of_neg (by simpa using hnU)]
        exact hs
      · have hs := hstep false (decide_eq_false (fun h' => hc (hrun.1 h').1)).symm
        rw [if_neg hc]
        by_cases hm : c ∈ chars
        · rw [if_pos hm, List.filter_cons_of_pos (by simpa using hU.2 ⟨⟨hm, hc⟩, hE⟩)]
          simp only [Run.yield, List.map_cons]
          exact ⟨by rw [hs.1], hs.2⟩
        · have hnU : ¬ UnescapedAt chars esc (pre ++ c :: cs) pre.length :=
            fun h => hm (hU.1 h).1.1
          rw [if_neg hm, List.filter_cons_of_neg (by simpa using hnU)]
          exact hs

theorem findEscapesLoop_spec (esc : α) (base : Int) (cs : List α) :
    ∀ (pre : List α) (e : Bool), e = decide (Escaped esc (pre ++ cs) pre.length) →
    findEscapesLoop esc e (base + pre.length) cs =
      ⟨((List.range' pre.length cs.length).filter
        (fun k => decide (Escaped esc (pre ++ cs) k ∧ (pre ++ cs)[k]? ≠ some esc))).map
          (fun k : Nat => base + (k : Int) - 1), none⟩ := by
  induction cs with
  | nil =>
    intro pre e he
    simp [findEscapesLoop, Run.done]
  | cons c cs ih =>
    intro pre e he
    have hpre : pre ++ c :: cs = (pre ++ [c]) ++ cs := by simp
    have hlen : base + ((pre ++ [c]).length : Int) = base + pre.length + 1 := by simp; omega
    have hget : (pre ++ c :: cs)[pre.length]? = some c := by simp
    have hrun := escaped_succ esc pre cs c
    have hrange : List.range' pre.length (c :: cs).length =
        pre.length :: List.range' (pre ++ [c]).length cs.length := by
      simp [List.range'_succ]
    have hstep : ∀ e' : Bool, e' = decide (Escaped esc (pre ++ c :: cs) (pre.length + 1)) →
        _ := fun e' he' => ih (pre ++ [c]) e' (by rw [he', hpre]; simp)
    rw [hlen, ← hpre] at hstep
    rw [hrange]
    unfold findEscapesLoop
    by_cases hc : c = esc
    · have hs := hstep (!e) (by
        rw [he, ← decide_not]
        exact decide_eq_decide.2 ⟨fun h => hrun.2 ⟨hc, h⟩, fun h => (hrun.1 h).2⟩)
      rw [if_pos hc, List.filter_cons_of_neg (by simp [hget, hc])]
      exact hs
    · have hs := hstep false (decide_eq_false (fun h' => hc (hrun.1 h').1)).symm
      rw [if_neg hc]
      by_cases hE : Escaped esc (pre ++ c :: cs) pre.length
      · have he1 : e = true := by rw [he]; simp [hE]
        rw [he1, List.filter_cons_of_pos (by simp only [hget]; simp [hE, hc])]
        simp only [if_true, Run.yield, hs, List.map_cons]
      · have he1 : e = false := by rw [he]; simp [hE]
        rw [he1, List.filter_cons_of_neg (by simp [hE])]
        simpa using hs

theorem filterMap_range (s : List α) (i n : Nat) :
    (List.range n).filterMap (fun k => s[i + k]?) = (s.drop i).take n := by
  induction n with
  | zero => simp
  | succ n ih =>
    rw [List.range_succ, List.filterMap_append, ih, List.take_add_one]
    congr 1
    rw [List.getElem?_drop]
    cases h : s[i + n]? <;> simp [h]

theorem charsIn_eq (s : List α) (i j : Nat) :
    charsIn s ⟨i, j⟩ = (s.take j).drop i := by
  unfold charsIn
  have h : ((j : Int) - (i : Int)).toNat = j - i := by omega
  simp only [h, Int.toNat_natCast]
  rw [filterMap_range, List.drop_take]

/-- Where the window begins, relative to the Ito. -/
def windowBase (n : Nat) (st : Option Int) : Nat := (min (n : Int) (adjStart n st)).toNat

theorem window_chars {x : FIto α} (h : x.Valid) (st en : Option Int) :
    ∃ w, x.window st en = .ok w ∧ w.start = x.start + windowBase x.text.length st ∧
      charsIn x.string w = PyStr.slice x.text st en := by
  obtain ⟨i, j, hw, h1, h2, h3, h4, h5⟩ := window_nat h st en
  have hw2 := window_eq h st en
  rw [hw] at hw2
  injection hw2 with hw2
  injection hw2 with hs _
  refine ⟨⟨i, j⟩, hw, ?_, ?_⟩
  · simp only [hs, windowBase]
    have := adjStart_nonneg x.text.length st
    omega
  · rw [charsIn_eq, h5]

/-! ## C42 -/

/-- C42: `find_unescaped` yields, in order, exactly the positions (relative to the Ito, from the start of
the window) holding one of `chars` preceded, in the window, by an even run of escapes; it raises
`ValueError` exactly when the window ends in a dangling escape. -/
theorem C42_find_unescaped (x : FIto α) (h : x.Valid) (chars : List α) (hc : chars ≠ []) (esc : α)
    (st en : Option Int) :
    let w := PyStr.slice x.text st en
    (findUnescaped x chars esc st en).out =
      (positions w (UnescapedAt chars esc w)).map (fun k : Nat =>
        min (x.text.length : Int) (adjStart x.text.length st) + k) ∧
    (findUnescaped x chars esc st en).exc =
      if Escaped esc w w.length then some .valueError else none := by
  intro w
  obtain ⟨sp, hw, hs, hr⟩ := window_chars h st en
  have := findUnescapedLoop_spec chars esc x.start sp.start w [] false (by simp [Escaped, runBefore])
  unfold findUnescaped
  rw [hw]
  simp only [if_neg hc, hr]
  simp only [List.length_nil, List.nil_append, Int.natCast_zero, Int.add_zero] at this
  refine ⟨?_, this.2⟩
  rw [this.1]
  unfold positions
  rw [List.range_eq_range']
  apply List.map_congr_left
  intro k _
  rw [hs]
  have := adjStart_nonneg x.text.length st
  unfold windowBase
  omega

/-- Non-vacuity: in `a\\,b,c\\\\,d` (an Ito inside a longer string) only the last two commas are
unescaped; and a dangling escape raises. -/
example : (FIto.ofStr "__a\\,b,c\\\\,d".toList (some 2) none).Valid ∧
    (findUnescaped (FIto.ofStr "__a\\,b,c\\\\,d".toList (some 2) none) [','] '\\' none none).out = [4, 8] ∧
    (findUnescaped (FIto.ofStr "a,\\".toList none none) [','] '\\' none none).exc =
      some .valueError := ⟨ofStr_valid _ _ _ _, by decide, by decide⟩

/-- C42: `find_escapes` yields, in order, exactly the positions of the escapes which are not themselves
escaped and precede a non-escape character.  Unlike `find_unescaped`, its positions are positions in the
underlying string. -/
theorem C42_find_escapes (x : FIto α) (h : x.Valid) (esc : α) (st en : Option Int) :
    let w := PyStr.slice x.text st en
    findEscapes x esc st en =
      ⟨(positions w (EscapeAt esc w)).map (fun k : Nat =>
        x.start + min (x.text.length : Int) (adjStart x.text.length st) + k), none⟩ := by
  intro w
  obtain ⟨sp, hw, hs, hr⟩ := window_chars h st en
  have hl := findEscapesLoop_spec esc sp.start w [] false (by simp [Escaped, runBefore])
  unfold findEscapes
  rw [hw]
  simp only [hr]
  simp only [List.length_nil, List.nil_append, Int.natCast_zero, Int.add_zero] at hl
  rw [hl]
  congr 1
  have hb : sp.start = x.start + min (x.text.length : Int) (adjStart x.text.length st) := by
    rw [hs]
    have := adjStart_nonneg x.text.length st
    unfold windowBase
    omega
  rw [hb]
  unfold positions
  -- shift by one
  have key : ∀ n, n ≤ w.length → (List.range' 0 n).filter
      (fun k => decide (Escaped esc w k ∧ w[k]? ≠ some esc)) =
      ((List.range (n - 1)).filter (fun k => decide (EscapeAt esc w k))).map (· + 1) := by
    intro n hn
    induction n with
    | zero => simp
    | succ n ih =>
      rw [List.range'_concat, List.filter_append, ih (by omega)]
      cases n with
      | zero => simp [Escaped, runBefore]
      | succ n =>
        have h1 : n + 1 + 1 - 1 = n + 1 := by omega
        have h2 : n + 1 - 1 = n := by omega
        rw [h1, h2, List.range_succ, List.filter_append, List.map_append]
        congr 1
        have hlt : n < w.length := by omega
        have hsplit : w = w.take n ++ w[n] :: w.drop (n + 1) := by
          rw [← List.drop_eq_getElem_cons hlt, List.take_append_drop]
        have hsucc := escaped_succ esc (w.take n) (w.drop (n + 1)) w[n]
        rw [← hsplit] at hsucc
        have hlen : (w.take n).length = n := by simp; omega
        rw [hlen] at hsucc
        have hiff : (Escaped esc w (n + 1) ∧ w[n + 1]? ≠ some esc) ↔ EscapeAt esc w n := by
          unfold EscapeAt
          rw [hsucc, List.getElem?_eq_getElem hlt]
          constructor
          · rintro ⟨⟨a, b⟩, c⟩; exact ⟨by rw [a], b, by omega, c⟩
          · rintro ⟨a, b, _, c⟩; injection a with a; exact ⟨⟨a, b⟩, c⟩
        by_cases hE : EscapeAt esc w n
        · simp [hE, hiff.2 hE]
        · have := mt hiff.1 hE
          simp [hE, this]
  rw [key _ (Nat.le_refl _), List.map_map]
  have hlast : (List.range w.length).filter (fun k => decide (EscapeAt esc w k)) =
      (List.range (w.length - 1)).filter (fun k => decide (EscapeAt esc w k)) := by
    cases hn : w.length with
    | zero => simp
    | succ n =>
      rw [List.range_succ, List.filter_append]
      have : ¬ EscapeAt esc w n := by unfold EscapeAt; omega
      simp [this]
  rw [hlast]
  apply List.map_congr_left
  intro k _
  simp only [Function.comp]
  omega

/-- Non-vacuity: of the escapes of `%a%%b%%%c%`, those at 0 and 7 are found. -/
example : findEscapes (FIto.ofStr "%a%%b%%%c%".toList none none) '%' none none = ⟨[0, 7], none⟩ := by
  decide

theorem slice_nat_none (s : List α) (a : Nat) : slice s (some (a : Int)) none = s.drop a := by
  rw [slice_none_right, slice_nat]
  simp

theorem splitUnescapedLoop_spec (x : FIto α) (h : x.Valid) (ps : List Nat) :
    ∀ cur : Nat,
    ((splitUnescapedLoop x cur (ps.map (fun k : Nat => (k : Int))) none).out.map FIto.text =
      cutAt x.text cur ps ∧
    (∀ y ∈ (splitUnescapedLoop x cur (ps.map (fun k : Nat => (k : Int))) none).out, SubIto y x) ∧
    (splitUnescapedLoop x cur (ps.map (fun k : Nat => (k : Int))) none).exc = none) ∧
    (∀ e, (splitUnescapedLoop x cur (ps.map (fun k : Nat => (k : Int))) (some e)).exc = some e) := by
  induction ps with
  | nil =>
    intro cur
    obtain ⟨y, hy, hs, ht⟩ := C14_slice x h (some (cur : Int)) none
    refine ⟨⟨?_, ?_, ?_⟩, fun e => rfl⟩
    · simp [splitUnescapedLoop, hy, Run.yield, Run.done, cutAt, ht, slice_nat_none]
    · simp only [List.map_nil, splitUnescapedLoop, hy, Run.yield, Run.done]
      intro z hz
      rw [List.mem_singleton] at hz
      rw [hz]; exact hs
    · simp [splitUnescapedLoop, hy, Run.yield, Run.done]
  | cons k ks ih =>
    intro cur
    obtain ⟨y, hy, hs, ht⟩ := C14_slice x h (some (cur : Int)) (some (k : Int))
    obtain ⟨⟨h1, h2, h3⟩, h4⟩ := ih (k + 1)
    have hk : ((k + 1 : Nat) : Int) = (k : Int) + 1 := by omega
    rw [hk] at h1 h2 h3
    refine ⟨⟨?_, ?_, ?_⟩, fun e => ?_⟩
    · simp only [List.map_cons, splitUnescapedLoop, hy, Run.yield, cutAt, ht, slice_nat]
      rw [← h1]
    · simp only [List.map_cons, splitUnescapedLoop, hy, Run.yield]
      intro z hz
      rcases List.mem_cons.1 hz with hz | hz
      · rw [hz]; exact hs
      · exact h2 z hz
    · simpa [splitUnescapedLoop, hy, Run.yield] using h3
    · have := h4 e
      rw [hk] at this
      simpa [splitUnescapedLoop, hy, Run.yield] using this

/-- C42: when the window has no dangling escape, `split_unescaped` yields sub-Itos whose texts are the
receiver's text cut exactly at the unescaped occurrences of `char` in the window; with a dangling escape
it raises `ValueError`. -/
theorem C42_split_unescaped (x : FIto α) (h : x.Valid) (char esc : α) (st en : Option Int) :
    let w := PyStr.slice x.text st en
    let cuts := (positions w (UnescapedAt [char] esc w)).map
      (fun k => (min (x.text.length : Int) (adjStart x.text.length st)).toNat + k)
    (¬ Escaped esc w w.length →
      (splitUnescaped x char esc st en).out.map FIto.text = cutAt x.text 0 cuts ∧
      (∀ y ∈ (splitUnescaped x char esc st en).out, SubIto y x) ∧
      (splitUnescaped x char esc st en).exc = none) ∧
    (Escaped esc w w.length → (splitUnescaped x char esc st en).exc = some .valueError) := by
  intro w cuts
  obtain ⟨h1, h2⟩ := C42_find_unescaped x h [char] (by simp) esc st en
  have hcuts : (findUnescaped x [char] esc st en).out = cuts.map (fun k : Nat => (k : Int)) := by
    rw [h1]
    simp only [cuts, List.map_map]
    apply List.map_congr_left
    intro k _
    simp only [Function.comp]
    have := adjStart_nonneg x.text.length st
    omega
  have hl := splitUnescapedLoop_spec x h cuts 0
  unfold splitUnescaped
  simp only [hcuts, h2]
  constructor
  · intro hE
    rw [if_neg hE]
    exact hl.1
  · intro hE
    rw [if_pos hE]
    exact hl.2 _

theorem intercalate_cutAt (t : List α) (c : α) (ps : List Nat) :
    ∀ cur : Nat, (∀ k ∈ ps, cur ≤ k ∧ t[k]? = some c) → ps.Pairwise (· < ·) →
      [c].intercalate (cutAt t cur ps) = t.drop cur := by
  induction ps with
  | nil => intro cur _ _; simp [cutAt, List.intercalate]
  | cons k ks ih =>
    intro cur h1 h2
    have hk := h1 k (by simp)
    rw [List.pairwise_cons] at h2
    have hrest := ih (k + 1) (fun j hj => ⟨h2.1 j hj, (h1 j (by simp [hj])).2⟩) h2.2
    have hlt : k < t.length := by
      rcases Nat.lt_or_ge k t.length with hl | hl
      · exact hl
      · rw [List.getElem?_eq_none hl] at hk; cases hk.2
    have hne : ∃ p ps', cutAt t (k + 1) ks = p :: ps' := by
      cases ks <;> exact ⟨_, _, rfl⟩
    obtain ⟨p, ps', hp⟩ := hne
    simp only [cutAt]
    rw [hp] at hrest ⊢
    rw [List.intercalate_cons_cons, hrest]
    have hc : t[k] = c := by
      have := hk.2
      rw [List.getElem?_eq_getElem hlt] at this
      exact Option.some.inj this
    have h3 : t.drop k = c :: t.drop (k + 1) := by
      rw [← hc, List.drop_eq_getElem_cons hlt]
    have h4 : (t.take k).drop cur ++ t.drop k = t.drop cur := by
      rw [List.drop_take]
      have h5 : t.drop k = (t.drop cur).drop (k - cur) := by
        rw [List.drop_drop]; congr 1; omega
      rw [h5, List.take_append_drop]
    rw [← h4, h3]
    simp

theorem positions_sorted (w : List α) (P : Nat → Prop) [DecidablePred P] :
    (positions w P).Pairwise (· < ·) :=
  List.Pairwise.filter _ List.pairwise_lt_range

/-- C42: the pieces of `split_unescaped`, joined by `char`, are the text. -/
theorem C42_split_unescaped_rebuilds (x : FIto α) (h : x.Valid) (char esc : α)
    (hE : ¬ Escaped esc x.text x.text.length) :
    [char].intercalate ((splitUnescaped x char esc none none).out.map FIto.text) = x.text := by
  have hw : PyStr.slice x.text none none = x.text := by
    rw [slice_none_left, slice_none_right]
    have := slice_nat x.text 0 x.text.length
    simpa using this
  have hsp := (C42_split_unescaped x h char esc none none).1
  simp only [hw] at hsp
  rw [(hsp hE).1]
  have h0 : (min (x.text.length : Int) (adjStart x.text.length none)).toNat = 0 := by
    simp only [adjStart]; omega
  rw [h0]
  rw [intercalate_cutAt x.text char _ 0]
  · simp
  · intro k hk
    obtain ⟨j, hj, rfl⟩ := List.mem_map.1 hk
    refine ⟨Nat.zero_le _, ?_⟩
    unfold positions at hj
    rw [List.mem_filter] at hj
    obtain ⟨⟨d, hd, he, _⟩, _⟩ := of_decide_eq_true hj.2
    rw [List.mem_singleton] at hd
    rw [Nat.zero_add, he, hd]
  · rw [List.pairwise_map]
    exact (positions_sorted _ _).imp (by intro a b hab; omega)

/-- Non-vacuity: `a\\,b,c` is cut once. -/
example : ¬ Escaped '\\' (FIto.ofStr "a\\,b,c".toList none none).text 6 ∧
    (splitUnescaped (FIto.ofStr "a\\,b,c".toList none none) ',' '\\' none none).out.map FIto.text =
      ["a\\,b".toList, "c".toList] := by decide

/-! ## C43 -/

theorem getItemSlice_nat (x : FIto α) (h : x.Valid) (i j : Nat) (hij : i ≤ j)
    (hj : j < x.text.length) :
    x.getItemSlice (some (i : Int)) (some ((j : Int) + 1)) =
      .ok ⟨x.string, ⟨x.start + i, x.start + j + 1⟩, x.desc⟩ := by
  obtain ⟨a, b, ha, hb, hab, hbl⟩ := h.exists_nat
  have htl := FIto.text_length ha hb hbl
  have hw := window_eq h (some (i : Int)) (some ((j : Int) + 1))
  have h1 : adjStart x.text.length (some (i : Int)) = i := adjStart_some_nat _ _
  have h2 : adjEnd x.text.length (some ((j : Int) + 1)) = (j : Int) + 1 := by
    have := adjEnd_some_nat x.text.length (j + 1) (by omega)
    simpa using this
  rw [h1, h2] at hw
  have h3 : (x.start + min (x.text.length : Int) i) = ((a + i : Nat) : Int) := by omega
  have h4 : (x.start + max (min (x.text.length : Int) i) ((j : Int) + 1)) = ((a + j + 1 : Nat) : Int) := by
    omega
  rw [h3, h4] at hw
  unfold getItemSlice
  rw [hw]
  simp only [bind, Except.bind, pure, Except.pure]
  have h5 : (x.start + (i : Int)) = ((a + i : Nat) : Int) := by omega
  have h6 : (x.start + (j : Int) + 1) = ((a + j + 1 : Nat) : Int) := by omega
  rw [h5, h6]
  by_cases he : x.span = ⟨((a + i : Nat) : Int), ((a + j + 1 : Nat) : Int)⟩
  · rw [if_pos he, ← he]
  · rw [if_neg he, clone_span_nat x (by omega) (by omega)]

/-- `d` unmatched lefts precede: the rest closes them. -/
def Closes : Nat → List Bool → Prop
  | 0, ks => Balanced ks
  | d + 1, ks => ∃ b rest, ks = b ++ false :: rest ∧ Balanced b ∧ Closes d rest

theorem Balanced.append {a b : List Bool} (ha : Balanced a) (hb : Balanced b) :
    Balanced (a ++ b) := by
  induction ha with
  | nil => exact hb
  | @cons c d hc _ _ ihd =>
    have : true :: c ++ false :: d ++ b = true :: c ++ false :: (d ++ b) := by simp
    rw [this]
    exact .cons hc ihd

theorem Closes.append {a : List Bool} (ha : Balanced a) :
    ∀ {d : Nat} {b : List Bool}, Closes d b → Closes d (a ++ b)
  | 0, _, hb => Balanced.append ha hb
  | d + 1, _, ⟨c, rest, h1, h2, h3⟩ => ⟨a ++ c, rest, by rw [h1]; simp, Balanced.append ha h2, h3⟩

theorem closes_true {d : Nat} {ks : List Bool} : Closes d (true :: ks) ↔ Closes (d + 1) ks := by
  constructor
  · intro h
    cases d with
    | zero =>
      have h' : Balanced (true :: ks) := h
      cases h' with
      | @cons a b ha hb => exact ⟨a, b, rfl, ha, hb⟩
    | succ d =>
      obtain ⟨b, rest, h1, h2, h3⟩ := h
      cases h2 with
      | nil => cases h1
      | @cons a c ha hc =>
        simp only [List.cons_append, List.append_assoc, List.cons.injEq, true_and] at h1
        exact ⟨a, c ++ false :: rest, h1, ha, ⟨c, rest, rfl, hc, h3⟩⟩
  · rintro ⟨b, rest, h1, h2, h3⟩
    have hb : Balanced (true :: b ++ [false]) := .cons h2 .nil
    have := Closes.append hb h3
    rw [h1]
    simpa using this

theorem closes_false {d : Nat} {ks : List Bool} : Closes (d + 1) (false :: ks) ↔ Closes d ks := by
  constructor
  · rintro ⟨b, rest, h1, h2, h3⟩
    cases h2 with
    | nil => simp at h1; rw [h1]; exact h3
    | cons _ _ => cases h1
  · intro h; exact ⟨[], ks, rfl, .nil, h⟩

theorem not_closes_false {ks : List Bool} : ¬ Closes 0 (false :: ks) := by
  intro h; cases (show Balanced (false :: ks) from h)

theorem closes_nil {d : Nat} : Closes d [] ↔ d = 0 := by
  cases d with
  | zero => exact ⟨fun _ => rfl, fun _ => .nil⟩
  | succ d =>
    constructor
    · rintro ⟨b, rest, h1, _, _⟩; simp at h1
    · intro h; omega

/-- The segment from relative position `i` to relative position `j`, both included. -/
def seg (x : FIto α) (i j : Nat) : FIto α := ⟨x.string, ⟨x.start + i, x.start + j + 1⟩, x.desc⟩

theorem string_at (x : FIto α) (h : x.Valid) (k : Nat) (hk : k < x.text.length) :
    x.string[(x.start + (k : Int)).toNat]? = x.text[k]? := by
  obtain ⟨a, b, ha, hb, hab, hbl⟩ := h.exists_nat
  have htl := FIto.text_length ha hb hbl
  rw [FIto.text_eq ha hb, List.getElem?_drop, List.getElem?_take_of_lt (by omega)]
  congr 1
  omega

theorem findBalancedLoop_spec (x : FIto α) (h : x.Valid) (l r : α) (hlr : l ≠ r)
    (e : Option PyErr) (he : e = none ∨ e = some .valueError) (ks : List Nat) :
    ∀ (lefts : List Nat), (∀ k ∈ ks, x.text[k]? = some l ∨ x.text[k]? = some r) →
    (∀ a ∈ lefts, ∀ k ∈ ks, a ≤ k) → ks.Pairwise (· < ·) →
    let isLeft := fun k => decide (x.text[k]? = some l)
    let run := findBalancedLoop x l r (lefts.map (fun k : Nat => (k : Int)))
      (ks.map (fun k : Nat => (k : Int))) e
    (run.exc = none ∨ run.exc = some .valueError) ∧
    (run.exc = none ↔ e = none ∧ Closes lefts.length (ks.map isLeft)) ∧
    (run.exc = none → lefts = [] → ∃ gs : List Group, gs.flatMap Group.all = ks ∧
      (∀ g ∈ gs, g.Matched isLeft) ∧ run.out = gs.map (fun g => seg x g.left g.right)) ∧
    (run.exc = none → ∀ pre j, lefts = pre ++ [j] → ∃ (m : List Nat) (i : Nat) (gs : List Group),
      ks = m ++ i :: gs.flatMap Group.all ∧ isLeft i = false ∧ Closes pre.length (m.map isLeft) ∧
      (∀ g ∈ gs, g.Matched isLeft) ∧
      run.out = seg x j i :: gs.map (fun g => seg x g.left g.right)) := by
  induction ks with
  | nil =>
    intro lefts _ _ _ isLeft run
    rcases he with he | he
    · subst he
      cases lefts with
      | nil =>
        have hr : run = ⟨[], none⟩ := by simp [run, findBalancedLoop, Run.done]
        rw [hr]
        refine ⟨Or.inl rfl, ?_, ?_, ?_⟩
        · simp [closes_nil]
        · intro _ _; exact ⟨[], by simp, by simp, by simp⟩
        · intro _ pre j hpj; simp at hpj
      | cons a as =>
        have hr : run = ⟨[], some .valueError⟩ := by simp [run, findBalancedLoop, Run.raise]
        rw [hr]
        refine ⟨Or.inr rfl, ?_, ?_, ?_⟩
        · simp [closes_nil]
        · intro hc; cases hc
        · intro hc; cases hc
    · subst he
      have hr : run = ⟨[], some .valueError⟩ := by simp [run, findBalancedLoop, Run.raise]
      rw [hr]
      refine ⟨Or.inr rfl, ?_, ?_, ?_⟩
      · simp
      · intro hc; cases hc
      · intro hc; cases hc
  | cons k ks ih =>
    intro lefts hch hle hsorted isLeft run
    rw [List.pairwise_cons] at hsorted
    have hklt : k < x.text.length := by
      rcases Nat.lt_or_ge k x.text.length with hl | hl
      · exact hl
      · have := hch k (by simp)
        rw [List.getElem?_eq_none hl] at this
        rcases this with hh | hh <;> cases hh
    have hat := string_at x h k hklt
    have hch' : ∀ k ∈ ks, x.text[k]? = some l ∨ x.text[k]? = some r :=
      fun j hj => hch j (by simp [hj])
    by_cases hkl : x.text[k]? = some l
    · have hL : isLeft k = true := by simp [isLeft, hkl]
      have hrun : run = findBalancedLoop x l r ((k :: lefts).map (fun k : Nat => (k : Int)))
          (ks.map (fun k : Nat => (k : Int))) e := by
        simp only [run, List.map_cons, findBalancedLoop, hat, hkl, hlr, ne_eq, not_false_eq_true,
          true_or, and_self, if_true]
      obtain ⟨i1, i2, _, i4⟩ := ih (k :: lefts) hch' (by
        intro a ha j hj
        rcases List.mem_cons.1 ha with ha | ha
        · rw [ha]; exact Nat.le_of_lt (hsorted.1 j hj)
        · exact hle a ha j (by simp [hj])) hsorted.2
      rw [← hrun] at i1 i2 i4
      refine ⟨i1, ?_, ?_, ?_⟩
      · rw [i2, List.map_cons, hL, closes_true]; rfl
      · intro hexc hnil
        subst hnil
        obtain ⟨m, i, gs, g1, g2, g3, g4, g5⟩ := i4 hexc [] k rfl
        refine ⟨⟨k, m, i⟩ :: gs, ?_, ?_, ?_⟩
        · rw [g1]; simp [Group.all]
        · intro g hg
          rcases List.mem_cons.1 hg with hg | hg
          · rw [hg]; exact ⟨hL, g2, g3⟩
          · exact g4 g hg
        · rw [g5]; rfl
      · intro hexc pre j hpj
        obtain ⟨m, i, gs, g1, g2, g3, g4, g5⟩ := i4 hexc (k :: pre) j (by rw [hpj]; rfl)
        refine ⟨k :: m, i, gs, by rw [g1]; rfl, g2, ?_, g4, g5⟩
        rw [List.map_cons, hL, closes_true]
        exact g3
    · have hkr : x.text[k]? = some r := by
        rcases hch k (by simp) with hh | hh
        · exact absurd hh hkl
        · exact hh
      have hL : isLeft k = false := by simp [isLeft, hkl]
      have hrl : ¬ r = l := fun hh => hlr hh.symm
      cases lefts with
      | nil =>
        have hrun : run = ⟨[], some .valueError⟩ := by
          simp [run, findBalancedLoop, hat, hkr, hrl, Run.raise]
        rw [hrun]
        refine ⟨Or.inr rfl, ?_, ?_, ?_⟩
        · constructor
          · intro hc; cases hc
          · rintro ⟨_, hc⟩
            rw [List.map_cons, hL] at hc
            exact absurd hc not_closes_false
        · intro hc; cases hc
        · intro hc; cases hc
      | cons a as =>
        obtain ⟨i1, i2, i3, i4⟩ := ih as hch' (fun b hb j hj => hle b (by simp [hb]) j (by simp [hj]))
          hsorted.2
        cases as with
        | nil =>
          have hsl := getItemSlice_nat x h a k (hle a (by simp) k (by simp)) hklt
          have hrun : run = .yield (seg x a k) (findBalancedLoop x l r []
              (ks.map (fun k : Nat => (k : Int))) e) := by
            simp only [run, List.map_cons, List.map_nil, findBalancedLoop, hat, hkr, hrl, false_and,
              if_false, hsl]
            rfl
          have hexc : run.exc = (findBalancedLoop x l r []
              (ks.map (fun k : Nat => (k : Int))) e).exc := by rw [hrun]; rfl
          have hout : run.out = seg x a k :: (findBalancedLoop x l r []
              (ks.map (fun k : Nat => (k : Int))) e).out := by rw [hrun]; rfl
          simp only [List.map_nil] at i1 i2 i3
          rw [← hexc] at i1 i2 i3
          refine ⟨i1, ?_, ?_, ?_⟩
          · rw [i2, List.map_cons, hL]
            simp only [List.length_cons, List.length_nil]
            rw [closes_false]
          · intro _ hc; cases hc
          · intro hx pre j hpj
            have hp : pre = [] ∧ a = j := by
              cases pre with
              | nil => simp at hpj; exact ⟨rfl, hpj⟩
              | cons _ _ => simp at hpj
            obtain ⟨rfl, rfl⟩ := hp
            obtain ⟨gs, g1, g2, g3⟩ := i3 hx trivial
            exact ⟨[], k, gs, by simp [g1], hL, .nil, g2, by rw [hout, g3]⟩
        | cons b bs =>
          have hrun : run = findBalancedLoop x l r ((b :: bs).map (fun k : Nat => (k : Int)))
              (ks.map (fun k : Nat => (k : Int))) e := by
            simp only [run, List.map_cons, findBalancedLoop, hat, hkr, hrl, false_and, if_false]
          rw [← hrun] at i1 i2 i4
          refine ⟨i1, ?_, ?_, ?_⟩
          · rw [i2, List.map_cons, hL]
            simp only [List.length_cons]
            rw [closes_false]
          · intro _ hc; cases hc
          · intro hx pre j hpj
            cases pre with
            | nil => simp at hpj
            | cons p pre =>
              simp only [List.cons_append, List.cons.injEq] at hpj
              obtain ⟨m, i, gs, g1, g2, g3, g4, g5⟩ := i4 hx pre j hpj.2
              refine ⟨k :: m, i, gs, by rw [g1]; rfl, g2, ?_, g4, g5⟩
              rw [List.map_cons, hL]
              simp only [List.length_cons]
              rw [closes_false]
              exact g3

/-- The positions (relative to the Ito) of the unescaped brackets in the window. -/
def brackets (x : FIto α) (l r esc : α) (st en : Option Int) : List Nat :=
  let w := PyStr.slice x.text st en
  (positions w (UnescapedAt [l, r] esc w)).map
    (fun k => (min (x.text.length : Int) (adjStart x.text.length st)).toNat + k)

theorem brackets_spec (x : FIto α) (h : x.Valid) (l r esc : α) (st en : Option Int) :
    (findUnescaped x [l, r] esc st en).out = (brackets x l r esc st en).map (fun k : Nat => (k : Int)) ∧
    (∀ k ∈ brackets x l r esc st en, x.text[k]? = some l ∨ x.text[k]? = some r) ∧
    (brackets x l r esc st en).Pairwise (· < ·) := by
  have ha := adjStart_nonneg x.text.length st
  refine ⟨?_, ?_, ?_⟩
  · rw [(C42_find_unescaped x h [l, r] (by simp) esc st en).1]
    simp only [brackets, List.map_map]
    apply List.map_congr_left
    intro k _
    simp only [Function.comp]
    omega
  · intro k hk
    unfold brackets at hk
    obtain ⟨j, hj, rfl⟩ := List.mem_map.1 hk
    unfold positions at hj
    rw [List.mem_filter] at hj
    obtain ⟨⟨d, hd, he, _⟩, _⟩ := of_decide_eq_true hj.2
    have hsl : PyStr.slice x.text st en =
        (x.text.take (adjEnd x.text.length en).toNat).drop (adjStart x.text.length st).toNat :=
      slice_eq_adj _ _ _
    rw [hsl, List.getElem?_drop] at he
    have hlt : (adjStart x.text.length st).toNat + j < x.text.length := by
      rcases Nat.lt_or_ge ((adjStart x.text.length st).toNat + j) x.text.length with hl | hl
      · exact hl
      · rw [List.getElem?_take] at he
        split at he
        · rw [List.getElem?_eq_none hl] at he; cases he
        · cases he
    have hmin : (min (x.text.length : Int) (adjStart x.text.length st)).toNat =
        (adjStart x.text.length st).toNat := by omega
    rw [hmin]
    have he2 : x.text[(adjStart x.text.length st).toNat + j]? = some d := by
      rw [List.getElem?_take] at he
      split at he
      · exact he
      · cases he
    rw [he2]
    simp only [List.mem_cons, List.not_mem_nil, or_false] at hd
    rcases hd with hd | hd
    · left; rw [hd]
    · right; rw [hd]
  · unfold brackets
    rw [List.pairwise_map]
    exact (positions_sorted _ _).imp (by intro a b hab; omega)

/-- C43, distinct brackets: `find_balanced` succeeds exactly when the window has no dangling escape and
its unescaped brackets are balanced (otherwise `ValueError`); then the brackets fall, in order, into
groups, each a left bracket, a balanced inside and a right bracket, and the yielded Itos are, in order,
the segments from the left to the right bracket of each group. -/
theorem C43_find_balanced (x : FIto α) (h : x.Valid) (l r esc : α) (hlr : l ≠ r)
    (st en : Option Int) :
    let w := PyStr.slice x.text st en
    let isLeft := fun k => decide (x.text[k]? = some l)
    let run := findBalanced x l r esc st en
    (run.exc = none ∨ run.exc = some .valueError) ∧
    (run.exc = none ↔
      ¬ Escaped esc w w.length ∧ Balanced ((brackets x l r esc st en).map isLeft)) ∧
    (run.exc = none → ∃ gs : List Group, gs.flatMap Group.all = brackets x l r esc st en ∧
      (∀ g ∈ gs, g.Matched isLeft) ∧ run.out = gs.map (fun g => seg x g.left g.right)) := by
  intro w isLeft run
  obtain ⟨h1, h2⟩ := C42_find_unescaped x h [l, r] (by simp) esc st en
  obtain ⟨b1, b2, b3⟩ := brackets_spec x h l r esc st en
  have hs := findBalancedLoop_spec x h l r hlr (findUnescaped x [l, r] esc st en).exc (by
    rw [h2]; split <;> simp) (brackets x l r esc st en) [] b2 (by simp) b3
  have hrun : run = findBalancedLoop x l r (([] : List Nat).map (fun k : Nat => (k : Int)))
      ((brackets x l r esc st en).map (fun k : Nat => (k : Int)))
      (findUnescaped x [l, r] esc st en).exc := by
    simp only [run, findBalanced, b1, List.map_nil]
  simp only at hs
  rw [← hrun] at hs
  obtain ⟨s1, s2, s3, _⟩ := hs
  refine ⟨s1, ?_, fun hx => s3 hx trivial⟩
  rw [s2, h2]
  have : Closes ([] : List Nat).length ((brackets x l r esc st en).map isLeft) ↔
    Balanced ((brackets x l r esc st en).map isLeft) := Iff.rfl
  rw [← this]
  by_cases hE : Escaped esc w w.length
  · simp [w] at hE; simp [w, hE]
  · simp [w] at hE; simp [w, hE, isLeft]

theorem findBalancedLoop_same (x : FIto α) (h : x.Valid) (l : α)
    (e : Option PyErr) (he : e = none ∨ e = some .valueError) (n : Nat) :
    ∀ (ks : List Nat), ks.length ≤ n → (∀ k ∈ ks, x.text[k]? = some l) → ks.Pairwise (· < ·) →
    let run := findBalancedLoop x l l [] (ks.map (fun k : Nat => (k : Int))) e
    (run.exc = none ∨ run.exc = some .valueError) ∧
    (run.exc = none ↔ e = none ∧ ks.length % 2 = 0) ∧
    (run.exc = none → ∃ gs : List (Nat × Nat), gs.flatMap (fun p => [p.1, p.2]) = ks ∧
      run.out = gs.map (fun p => seg x p.1 p.2)) := by
  have hlt : ∀ k, x.text[k]? = some l → k < x.text.length := by
    intro k hk
    rcases Nat.lt_or_ge k x.text.length with hl | hl
    · exact hl
    · rw [List.getElem?_eq_none hl] at hk; cases hk
  induction n with
  | zero =>
    intro ks hn _ _
    have : ks = [] := List.eq_nil_of_length_eq_zero (by omega)
    subst this
    rcases he with he | he
    · subst he
      refine ⟨Or.inl rfl, ?_, fun _ => ⟨[], rfl, rfl⟩⟩
      simp [findBalancedLoop, Run.done]
    · subst he
      refine ⟨Or.inr rfl, ?_, fun hc => ?_⟩
      · simp [findBalancedLoop, Run.raise]
      · simp [findBalancedLoop, Run.raise] at hc
  | succ n ih =>
    intro ks hn hch hsorted
    match ks with
    | [] => exact ih [] (by simp) (by simp) List.Pairwise.nil
    | [a] =>
      have ha := hch a (by simp)
      have hat := string_at x h a (hlt a ha)
      rcases he with he | he <;> subst he
      · simp [findBalancedLoop, hat, ha, Run.raise]
      · simp [findBalancedLoop, hat, ha, Run.raise]
    | a :: b :: ks =>
      have ha := hch a (by simp)
      have hb := hch b (by simp)
      have hata := string_at x h a (hlt a ha)
      have hatb := string_at x h b (hlt b hb)
      rw [List.pairwise_cons, List.pairwise_cons] at hsorted
      have hab : a < b := hsorted.1 b (by simp)
      have hsl := getItemSlice_nat x h a b (by omega) (hlt b hb)
      have hrun : findBalancedLoop x l l [] ((a :: b :: ks).map (fun k : Nat => (k : Int))) e =
          .yield (seg x a b) (findBalancedLoop x l l [] (ks.map (fun k : Nat => (k : Int))) e) := by
        simp only [List.map_cons, findBalancedLoop, hata, ha, hatb, hb, ne_eq, not_true_eq_false,
          false_or, and_self, if_true, List.cons_ne_nil, and_false, if_false, reduceCtorEq, hsl]
        rfl
      intro run
      obtain ⟨i1, i2, i3⟩ := ih ks (by simp at hn; omega)
        (fun k hk => hch k (by simp [hk])) hsorted.2.2
      have hexc : run.exc = (findBalancedLoop x l l [] (ks.map (fun k : Nat => (k : Int))) e).exc := by
        simp only [run]; rw [hrun]; rfl
      have hout : run.out = seg x a b ::
          (findBalancedLoop x l l [] (ks.map (fun k : Nat => (k : Int))) e).out := by
        simp only [run]; rw [hrun]; rfl
      rw [hexc]
      refine ⟨i1, ?_, ?_⟩
      · rw [i2]
        simp only [List.length_cons]
        constructor
        · rintro ⟨h1, h2⟩; exact ⟨h1, by omega⟩
        · rintro ⟨h1, h2⟩; exact ⟨h1, by omega⟩
      · intro hx
        obtain ⟨gs, g1, g2⟩ := i3 hx
        exact ⟨(a, b) :: gs, by simp [g1], by rw [hout, g2]; rfl⟩

/-- C43, equal brackets (quotes): success exactly when there is no dangling escape and an even number of
unescaped quotes (otherwise `ValueError`); the yielded Itos are, in order, the segments from each
odd-numbered quote to the next. -/
theorem C43_find_balanced_quotes (x : FIto α) (h : x.Valid) (q esc : α) (st en : Option Int) :
    let w := PyStr.slice x.text st en
    let run := findBalanced x q q esc st en
    (run.exc = none ∨ run.exc = some .valueError) ∧
    (run.exc = none ↔
      ¬ Escaped esc w w.length ∧ (brackets x q q esc st en).length % 2 = 0) ∧
    (run.exc = none → ∃ gs : List (Nat × Nat),
      gs.flatMap (fun p => [p.1, p.2]) = brackets x q q esc st en ∧
      run.out = gs.map (fun p => seg x p.1 p.2)) := by
  intro w run
  obtain ⟨h1, h2⟩ := C42_find_unescaped x h [q, q] (by simp) esc st en
  obtain ⟨b1, b2, b3⟩ := brackets_spec x h q q esc st en
  have hs := findBalancedLoop_same x h q (findUnescaped x [q, q] esc st en).exc (by
    rw [h2]; split <;> simp) _ (brackets x q q esc st en) (Nat.le_refl _)
    (fun k hk => (b2 k hk).elim id id) b3
  have hrun : run = findBalancedLoop x q q []
      ((brackets x q q esc st en).map (fun k : Nat => (k : Int)))
      (findUnescaped x [q, q] esc st en).exc := by
    simp only [run, findBalanced, b1]
  simp only at hs
  rw [← hrun] at hs
  obtain ⟨s1, s2, s3⟩ := hs
  refine ⟨s1, ?_, s3⟩
  rw [s2, h2]
  by_cases hE : Escaped esc w w.length
  · simp [w] at hE; simp [w, hE]
  · simp [w] at hE; simp [w, hE]

/-- Non-vacuity: nested and escaped parentheses; an unbalanced text raises; quotes. -/
example :
    (findBalanced (FIto.ofStr "a(b(c)\\)d)e(f)".toList none none) '(' ')' '\\' none none).out.map
      FIto.text = ["(b(c)\\)d)".toList, "(f)".toList] ∧
    (findBalanced (FIto.ofStr "a(b(c)".toList none none) '(' ')' '\\' none none).exc =
      some .valueError ∧
    (findBalanced (FIto.ofStr "a'b'c'd'".toList none none) '\'' '\'' '\\' none none).out.map
      FIto.text = ["'b'".toList, "'d'".toList] := by decide

end Pawpaw.Props
