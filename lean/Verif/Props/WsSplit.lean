import Verif.Lemmas.WsSplit
import Verif.Spec.Spans
/-!
# C09–C11: whitespace splitting, `str_splitlines`, `split_iter`
-/
set_option linter.unusedSectionVars false
namespace Pawpaw.Props
open Pawpaw PyStr SpanSpec
variable {α : Type} [DecidableEq α]

/-! ## C09 -/

/-- C09, partial: for an Ito at offset 0 of its string, `str_split(None, maxsplit)` terminates and
has the texts of Python's `split(None, maxsplit)`; `ws` is `str.isspace`.  Missing: other offsets,
where the claim is false (`C09_split_offset_violated`). -/
theorem C09_str_split_none_partial (x : FIto α) (h : x.Valid) (h0 : x.start = 0) (ws : α → Bool)
    (m : Int) (fuel : Nat) (hf : x.string.length < fuel) :
    ∃ ps, x.strSplitNone ws fuel m = .ok ps ∧ ps.map FIto.text = PyStr.splitNone ws x.text m ∧
      ∀ p ∈ ps, SubIto p x := by
  obtain ⟨a, b, ha, hb, hab, hl⟩ := h.exists_nat
  have ha0 : a = 0 := by omega
  subst ha0
  unfold FIto.strSplitNone PyStr.splitNone
  by_cases hne : x.string = []
  · rw [if_pos hne]
    refine ⟨[], rfl, ?_, by simp⟩
    have : x.text = [] := by rw [FIto.text_eq ha hb, hne]; simp
    rw [this, FIto.splitWs_nil ws _ _ (by simp)]
    rfl
  · rw [if_neg hne]
    obtain ⟨ps, m', e1, e2, r, e3, e4, e5⟩ :=
      FIto.splitWsLoop_spec x h h0 ws hb hl fuel 0 m (by omega) (by omega)
    rw [List.drop_zero] at e5
    have htext : x.text = x.string.take b := by rw [FIto.text_eq ha hb, List.drop_zero]
    rw [show ((0 : Nat) : Int) = 0 from rfl] at e1
    simp only [bind, Except.bind, e1, pure, Except.pure]
    rw [htext, e5]
    by_cases hm : m' = 0
    · rw [if_pos hm, if_pos hm]
      have hts : x.tailStart ps = (r : Int) := by
        unfold FIto.tailStart
        rw [← e4]
        cases ps.getLast? with
        | none => simp [h0]
        | some l => rfl
      rw [hts, FIto.clone_some_none, hb]
      obtain ⟨c1, c2⟩ := clone_sub h (i := r) (j := b) (by omega) e3 (by omega)
      obtain ⟨l1, l2⟩ := lstrip_by _ c1.2.2.1 ws none
      rw [c2] at l2
      have hsub : SubIto ((x.clone (some (r : Int)) (some (b : Int))).strLstrip ws none) x := by
        obtain ⟨p1, p2, p3, p4, p5⟩ := l1
        obtain ⟨q1, q2, q3, q4, q5⟩ := c1
        exact ⟨p1.trans q1, p2.trans q2, p3, by omega, by omega⟩
      generalize (x.clone (some (r : Int)) (some (b : Int))).strLstrip ws none = tl at *
      rw [FIto.len_eq_text hsub.2.2.1, l2]
      unfold FIto.leftover PyStr.lstripBy FIto.stripPred at *
      cases hd : ((x.string.take b).drop r).dropWhile ws with
      | nil =>
        refine ⟨ps, by simp, by simp, e2⟩
      | cons c t =>
        rw [if_pos (by simp)]
        refine ⟨_, rfl, by simp [l2, hd], ?_⟩
        intro p hp
        rw [List.mem_append, List.mem_singleton] at hp
        rcases hp with hp | rfl
        · exact e2 p hp
        · exact hsub
    · rw [if_neg hm, if_neg hm]
      exact ⟨ps, rfl, by simp, e2⟩

/-- C09, partial: `str_rsplit(None, maxsplit)` likewise, for an Ito at offset 0.  Missing: other
offsets, where it may not terminate (`C09_rsplit_nontermination_violated`). -/
theorem C09_str_rsplit_none_partial (x : FIto α) (h : x.Valid) (h0 : x.start = 0) (ws : α → Bool)
    (m : Int) (fuel : Nat) (hf : x.string.length < fuel) :
    ∃ ps, x.strRsplitNone ws fuel m = .ok ps ∧ ps.map FIto.text = PyStr.rsplitNone ws x.text m ∧
      ∀ p ∈ ps, SubIto p x := by
  obtain ⟨a, b, ha, hb, hab, hl⟩ := h.exists_nat
  have ha0 : a = 0 := by omega
  subst ha0
  unfold FIto.strRsplitNone PyStr.rsplitNone PyStr.splitNone
  by_cases hne : x.string = []
  · rw [if_pos hne]
    refine ⟨[], rfl, ?_, by simp⟩
    have : x.text = [] := by rw [FIto.text_eq ha hb, hne]; simp
    rw [this, FIto.splitWs_nil ws _ _ (by simp)]
    rfl
  · rw [if_neg hne]
    obtain ⟨ps, m', e1, e2, r, e3, e4, e5⟩ :=
      FIto.rsplitWsLoop_spec x h h0 ws hb hl fuel b m (by omega) (by omega)
    have htext : x.text = x.string.take b := by rw [FIto.text_eq ha hb, List.drop_zero]
    have hlen : x.len = (b : Int) := by unfold FIto.len; omega
    rw [hlen]
    simp only [bind, Except.bind, e1, pure, Except.pure]
    rw [htext, e5]
    by_cases hm : m' = 0
    · rw [if_pos hm, if_pos hm]
      have hts : x.headStop ps.reverse = (r : Int) := by
        unfold FIto.headStop
        rw [← e4, List.head?_reverse]
        cases ps.getLast? with
        | none => simp [hb]
        | some l => rfl
      rw [hts, FIto.clone_none_some, h0]
      obtain ⟨c1, c2⟩ := clone_sub h (i := 0) (j := r) (by omega) (by omega) (by omega)
      rw [show ((0 : Nat) : Int) = 0 from rfl] at c1 c2
      obtain ⟨l1, l2⟩ := rstrip_by _ c1.2.2.1 ws none
      rw [c2, List.drop_zero] at l2
      have hsub : SubIto ((x.clone (some 0) (some (r : Int))).strRstrip ws none) x := by
        obtain ⟨p1, p2, p3, p4, p5⟩ := l1
        obtain ⟨q1, q2, q3, q4, q5⟩ := c1
        exact ⟨p1.trans q1, p2.trans q2, p3, by omega, by omega⟩
      generalize (x.clone (some 0) (some (r : Int))).strRstrip ws none = tl at *
      rw [FIto.len_eq_text hsub.2.2.1, l2]
      unfold FIto.leftover PyStr.rstripBy FIto.stripPred at *
      cases hd : (x.string.take r).reverse.dropWhile ws with
      | nil =>
        refine ⟨ps.reverse, by simp, by simp [List.map_reverse, Function.comp_def], ?_⟩
        intro p hp; exact e2 p (by simpa using hp)
      | cons c t =>
        rw [if_pos (by simp)]
        refine ⟨_, rfl, by simp [l2, hd, List.map_reverse, Function.comp_def], ?_⟩
        intro p hp
        rw [List.mem_cons, List.mem_reverse] at hp
        rcases hp with rfl | hp
        · exact hsub
        · exact e2 p hp
    · rw [if_neg hm, if_neg hm]
      refine ⟨ps.reverse, rfl, by simp [List.map_reverse, Function.comp_def], ?_⟩
      intro p hp; exact e2 p (by simpa using hp)

/-- C09 is false away from offset 0: `Ito('  a b c', 2).str_split()` is `['a', 'c']`. -/
theorem C09_split_offset_violated :
    ∃ ps, (FIto.ofStr "  a b c".toList (some 2) none).strSplitNone (· == ' ') 100 (-1) = .ok ps ∧
      ps.map FIto.text = [['a'], ['c']] ∧
      (FIto.ofStr "  a b c".toList (some 2) none).text = "a b c".toList ∧
      PyStr.splitNone (· == ' ') "a b c".toList (-1) = [['a'], ['b'], ['c']] := by
  refine ⟨[⟨"  a b c".toList, ⟨2, 3⟩, none⟩, ⟨"  a b c".toList, ⟨6, 7⟩, none⟩], by decide, by decide,
    by decide, ?_⟩
  unfold PyStr.splitNone
  rw [FIto.splitWs_cons (c := 'a') (t := " b c".toList) _ _ (by decide) _ (by decide),
    FIto.splitWs_cons (c := 'b') (t := " c".toList) _ _ (by decide) _ (by decide),
    FIto.splitWs_cons (c := 'c') (t := []) _ _ (by decide) _ (by decide),
    FIto.splitWs_nil _ _ _ (by decide)]
  decide

theorem rsplit_stuck (n : Nat) (m : Int) (hm : m < 0) :
    FIto.rsplitWsLoop (FIto.ofStr " a b".toList (some 1) none) (· == ' ') n 2 m =
      .error .nonTermination := by
  induction n generalizing m with
  | zero => rfl
  | succ n ih =>
    unfold FIto.rsplitWsLoop
    have e : (FIto.ofStr " a b".toList (some 1) none).nearestNonWsRev (· == ' ') 2 =
        .ok (some ⟨" a b".toList, ⟨3, 4⟩, none⟩) := by decide
    rw [e]
    simp only [bind, Except.bind]
    rw [if_pos (by omega)]
    have := ih (m - 1) (by omega)
    simp only [FIto.start, Int.reduceSub]
    rw [this]

/-- C09, non-termination: on `Ito(' a b', 1)` the loop of `str_rsplit()` never ends — no number of
iterations suffices. -/
theorem C09_rsplit_nontermination_violated (fuel : Nat) :
    (FIto.ofStr " a b".toList (some 1) none).strRsplitNone (· == ' ') fuel (-1) =
      .error .nonTermination := by
  unfold FIto.strRsplitNone
  rw [if_neg (by decide)]
  have e : (FIto.ofStr " a b".toList (some 1) none).len - 1 = 2 := by decide
  rw [e, rsplit_stuck fuel (-1) (by omega)]
  rfl

example : ((FIto.ofStr " a  b c ".toList none none).strSplitNone (· == ' ') 100 1).toOption.map
    (fun ps => ps.map FIto.text) = some ["a".toList, "b c ".toList] := by decide
example : ((FIto.ofStr " a  b c ".toList none none).strRsplitNone (· == ' ') 100 1).toOption.map
    (fun ps => ps.map FIto.text) = some [" a  b".toList, "c".toList] := by decide

/-! ## C11 -/

theorem splitIterLoop_tiles (x : FIto α) (h : x.Valid) (ms : Int) (hms : ms ≤ 0)
    (desc : Option String) (l : List Span) (i : Nat) (hi : x.start ≤ i) 
    (hl : OrderedIn i x.stop l) :
    ∃ r : Nat, (i : Int) ≤ r ∧ (r : Int) ≤ x.stop ∧
      (∀ keep, (FIto.splitIterLoop x ms keep desc i l).2 = r ∧
        (FIto.splitIterLoop x ms keep desc i l).1.length = l.length ∧
        ∀ p ∈ (FIto.splitIterLoop x ms keep desc i l).1, p.string = x.string ∧ p.desc = desc ∧
          p.Valid ∧ x.start ≤ p.start ∧ p.stop ≤ x.stop) ∧
      Tiles i r ((FIto.splitIterLoop x ms true desc i l).1.map FIto.span) ∧
      Tiles i r (interleave ((FIto.splitIterLoop x ms false desc i l).1.map FIto.span) l) := by
  induction l generalizing i with
  | nil =>
    refine ⟨i, by omega, hl, fun keep => ⟨rfl, rfl, by simp [FIto.splitIterLoop]⟩, rfl, rfl⟩
  | cons m t ih =>
    obtain ⟨h1, h2, h3⟩ := hl
    have h3' : m.stop ≤ x.stop := by
      have : ∀ (l : List Span) (a : Int), OrderedIn a x.stop l → a ≤ x.stop := by
        intro l
        induction l with
        | nil => intro a ha; exact ha
        | cons s ss ih => intro a ha; have := ih _ ha.2.2; have := ha.1; have := ha.2.1; omega
      exact this t _ h3
    have hlen : x.stop ≤ x.string.length := h.2.2
    obtain ⟨ms', hm⟩ := Int.eq_ofNat_of_zero_le (show 0 ≤ m.start by omega)
    obtain ⟨me, hme⟩ := Int.eq_ofNat_of_zero_le (show 0 ≤ m.stop by omega)
    obtain ⟨r, r1, r2, r3, r4, r5⟩ := ih me (by omega) (by rw [hme] at h3; exact h3)
    have hguard : ¬ (ms ≠ 0 ∧ ms ≥ 0) := by omega
    refine ⟨r, by omega, r2, fun keep => ?_, ?_, ?_⟩
    · unfold FIto.splitIterLoop
      rw [if_neg hguard]
      obtain ⟨q1, q2, q3⟩ := r3 keep
      rw [hme]
      refine ⟨q1, by simp [q2], ?_⟩
      intro p hp
      rw [List.mem_cons] at hp
      rcases hp with rfl | hp
      · cases keep
        · simp only [Bool.false_eq_true, if_false, hm]
          unfold FIto.clone FIto.ofStr
          rw [fromIndices_eq]
          simp only [Option.getD_some, adjStart_some_nat]
          rw [adjEnd_some_nat _ _ (by omega)]
          refine ⟨by simp, by simp, ⟨?_, ?_, ?_⟩, ?_, ?_⟩ <;> (try simp only [FIto.start, FIto.stop] at *) <;> omega
        · simp only [if_true]
          unfold FIto.clone FIto.ofStr
          rw [fromIndices_eq]
          simp only [Option.getD_some, adjStart_some_nat]
          rw [adjEnd_some_nat _ _ (by omega)]
          refine ⟨by simp, by simp, ⟨?_, ?_, ?_⟩, ?_, ?_⟩ <;> (try simp only [FIto.start, FIto.stop] at *) <;> omega
      · exact q3 p hp
    · unfold FIto.splitIterLoop
      rw [if_neg hguard]
      simp only [if_true, hme, List.map_cons]
      unfold FIto.clone FIto.ofStr
      rw [fromIndices_eq]
      simp only [Option.getD_some, adjStart_some_nat]
      rw [adjEnd_some_nat _ _ (by omega)]
      rw [show min (x.string.length : Int) (i : Int) = i by omega, show max (i : Int) (me : Int) = me by omega]
      exact ⟨rfl, by (try dsimp only); omega, r4⟩
    · unfold FIto.splitIterLoop
      rw [if_neg hguard]
      simp only [Bool.false_eq_true, if_false, hm, hme, List.map_cons, interleave]
      unfold FIto.clone FIto.ofStr
      rw [fromIndices_eq]
      simp only [Option.getD_some, adjStart_some_nat]
      rw [adjEnd_some_nat _ _ (by omega)]
      rw [show min (x.string.length : Int) (i : Int) = i by omega,
        show max (i : Int) (ms' : Int) = ms' by omega]
      refine ⟨rfl, by (try dsimp only); omega, by (try dsimp only); omega, by (try dsimp only); omega, ?_⟩
      rw [hme]
      exact r5

theorem Tiles.append {a b c : Int} {l l' : List Span} (h : Tiles a b l) (h' : Tiles b c l') :
    Tiles a c (l ++ l') := by
  induction l generalizing a with
  | nil => simp only [Tiles] at h; subst h; exact h'
  | cons s ss ih => exact ⟨h.1, h.2.1, ih h.2.2⟩

theorem interleave_append (ps ss l : List Span) (h : ps.length = ss.length) :
    interleave (ps ++ l) ss = interleave ps ss ++ l := by
  induction ps generalizing ss with
  | nil =>
    cases ss with
    | nil => cases l <;> simp [interleave]
    | cons s ss => simp at h
  | cons p ps ih =>
    cases ss with
    | nil => simp at h
    | cons s ss => simp only [List.cons_append, interleave]; rw [ih ss (by simpa using h)]

theorem splitIter_shape (x : FIto α) (h : x.Valid) (l : List Span) (hl : OrderedIn x.start x.stop l)
    (ms : Int) (hms : ms ≤ 0) (desc : Option String) :
    ∃ r : Nat, (r : Int) ≤ x.stop ∧ ∀ keep, ∃ qs last, x.splitIter l ms keep desc = qs ++ [last] ∧
      qs.length = l.length ∧ last.span = ⟨r, x.stop⟩ ∧
      (∀ p ∈ qs ++ [last], p.string = x.string ∧ p.desc = desc ∧ p.Valid ∧
        x.start ≤ p.start ∧ p.stop ≤ x.stop) ∧
      Tiles x.start r (if keep then qs.map FIto.span else interleave (qs.map FIto.span) l) := by
  obtain ⟨a, b, ha, hb, hab, hbl⟩ := h.exists_nat
  rw [ha] at hl
  obtain ⟨r, r1, r2, r3, r4, r5⟩ := splitIterLoop_tiles x h ms hms desc l a (by omega) hl
  refine ⟨r, r2, fun keep => ?_⟩
  obtain ⟨q1, q2, q3⟩ := r3 keep
  unfold FIto.splitIter
  dsimp only
  rw [ha, q1, hb]
  have hclone : ∀ k : Nat, k = b → x.clone (some (r : Int)) (some (k : Int)) (some desc) =
      ⟨x.string, ⟨r, b⟩, desc⟩ := by
    rintro k rfl
    unfold FIto.clone FIto.ofStr
    rw [fromIndices_eq]
    simp only [Option.getD_some, adjStart_some_nat]
    rw [adjEnd_some_nat _ _ (by omega)]
    congr 2 <;> omega
  have hres : (if (r : Int) < b then (FIto.splitIterLoop x ms keep desc a l).1 ++
        [x.clone (some (r : Int)) none (some desc)]
      else if (r : Int) = b then (FIto.splitIterLoop x ms keep desc a l).1 ++
        [x.clone (some (r : Int)) (some (r : Int)) (some desc)]
      else (FIto.splitIterLoop x ms keep desc a l).1) =
      (FIto.splitIterLoop x ms keep desc a l).1 ++ [⟨x.string, ⟨r, b⟩, desc⟩] := by
    by_cases hlt : (r : Int) < b
    · rw [if_pos hlt]
      congr 2
      have : x.clone (some (r : Int)) none (some desc) =
        x.clone (some (r : Int)) (some x.stop) (some desc) := rfl
      rw [this, hb]
      exact hclone b rfl
    · rw [if_neg hlt, if_pos (by omega), hclone r (by omega)]
  rw [hres]
  refine ⟨_, _, rfl, q2, rfl, ?_, ?_⟩
  · intro p hp
    rw [List.mem_append, List.mem_singleton] at hp
    rcases hp with hp | rfl
    · obtain ⟨g1, g2, g3, g4, g5⟩ := q3 p hp
      exact ⟨g1, g2, g3, by omega, by omega⟩
    · refine ⟨by simp, by simp, ⟨?_, ?_, ?_⟩, ?_, ?_⟩ <;> (try simp only [FIto.start, FIto.stop] at *) <;> omega
  · cases keep
    · exact r5
    · exact r4

/-- C11, partial (`max_split ≤ 0`, i.e. the default "no limit"): with separators kept, the pieces
tile the receiver's span exactly, one more than there are matches. -/
theorem C11_split_keep_tiles_partial (x : FIto α) (h : x.Valid) (ms : List Span)
    (hms : OrderedIn x.start x.stop ms) (n : Int) (hn : n ≤ 0) (desc : Option String) :
    Tiles x.start x.stop ((x.splitIter ms n true desc).map FIto.span) ∧
    (x.splitIter ms n true desc).length = ms.length + 1 ∧
    (∀ p ∈ x.splitIter ms n true desc, p.string = x.string ∧ p.desc = desc ∧ p.Valid) := by
  obtain ⟨r, hr, hk⟩ := splitIter_shape x h ms hms n hn desc
  obtain ⟨qs, last, e1, e2, e3, e4, e5⟩ := hk true
  rw [e1]
  refine ⟨?_, by simp [e2], fun p hp => ?_⟩
  · rw [List.map_append, List.map_cons, List.map_nil, e3]
    exact Tiles.append e5 ⟨rfl, by (try dsimp only); omega, rfl⟩
  · obtain ⟨g1, g2, g3, _⟩ := e4 p hp
    exact ⟨g1, g2, g3⟩

/-- C11, partial (`max_split ≤ 0`): with separators dropped, the pieces alternate with the matches
to tile the receiver's span exactly.  Missing in both: a positive `max_split`, where the claim is
false (`C11_max_split_violated`). -/
theorem C11_split_drop_tiles_partial (x : FIto α) (h : x.Valid) (ms : List Span)
    (hms : OrderedIn x.start x.stop ms) (n : Int) (hn : n ≤ 0) (desc : Option String) :
    Tiles x.start x.stop (interleave ((x.splitIter ms n false desc).map FIto.span) ms) ∧
    (x.splitIter ms n false desc).length = ms.length + 1 ∧
    (∀ p ∈ x.splitIter ms n false desc, p.string = x.string ∧ p.desc = desc ∧ p.Valid) := by
  obtain ⟨r, hr, hk⟩ := splitIter_shape x h ms hms n hn desc
  obtain ⟨qs, last, e1, e2, e3, e4, e5⟩ := hk false
  rw [e1]
  refine ⟨?_, by simp [e2], fun p hp => ?_⟩
  · rw [List.map_append, List.map_cons, List.map_nil, e3,
      interleave_append _ _ _ (by simpa using e2)]
    exact Tiles.append e5 ⟨rfl, by (try dsimp only); omega, rfl⟩
  · obtain ⟨g1, g2, g3, _⟩ := e4 p hp
    exact ⟨g1, g2, g3⟩

/-- C11 is false for a positive `max_split`: no split at all is performed, whatever the matches —
the result is always the single piece spanning the whole Ito. -/
theorem C11_max_split_violated (x : FIto α) (h : x.Valid) (ms : List Span) (n : Int) (hn : 0 < n)
    (keep : Bool) (desc : Option String) :
    (x.splitIter ms n keep desc).map FIto.span = [x.span] := by
  obtain ⟨a, b, ha, hb, hab, hbl⟩ := h.exists_nat
  have hspan : x.span = ⟨a, b⟩ := by
    rw [← ha, ← hb]; rfl
  have hloop : FIto.splitIterLoop x n keep desc x.start ms = ([], x.start) := by
    cases ms with
    | nil => rfl
    | cons m t => unfold FIto.splitIterLoop; rw [if_pos (by omega)]
  unfold FIto.splitIter
  rw [hloop]
  dsimp only
  rw [ha, hb, hspan]
  have hclone : x.clone (some (a : Int)) (some (b : Int)) (some desc) =
      ⟨x.string, ⟨a, b⟩, desc⟩ := by
    unfold FIto.clone FIto.ofStr
    rw [fromIndices_eq]
    simp only [Option.getD_some, adjStart_some_nat]
    rw [adjEnd_some_nat _ _ (by omega)]
    congr 2 <;> omega
  by_cases hlt : (a : Int) < b
  · rw [if_pos hlt]
    have : x.clone (some (a : Int)) none (some desc) =
        x.clone (some (a : Int)) (some x.stop) (some desc) := rfl
    rw [this, hb, hclone]
    rfl
  · rw [if_neg hlt, if_pos (by omega)]
    have : b = a := by omega
    subst this
    rw [hclone]
    rfl

/-- Non-vacuity: two adjacent matches and a zero-width one meet the contract. -/
example : OrderedIn 1 9 [⟨2, 4⟩, ⟨4, 5⟩, ⟨9, 9⟩] := by simp [OrderedIn]
example : ((FIto.ofStr "xab,cd,efx".toList (some 1) (some 9)).splitIter [⟨3, 4⟩, ⟨6, 7⟩] 0 false
    none).map FIto.text = ["ab".toList, "cd".toList, "ef".toList] := by decide

/-! ## C10 -/

theorem lineBreaks_ordered (t : List Char) (i : Int) :
    OrderedIn i (i + t.length) (FIto.lineBreaks i t) := by
  fun_induction FIto.lineBreaks i t with
  | case1 => simp [OrderedIn]
  | case2 i t ih =>
    refine ⟨by (try dsimp only); omega, by (try dsimp only); omega, ?_⟩
    simp only [List.length_cons]
    rw [show i + ((t.length + 1 + 1 : Nat) : Int) = i + 2 + t.length by omega]
    exact ih
  | case3 i c t hx hc ih =>
    refine ⟨by (try dsimp only); omega, by (try dsimp only); omega, ?_⟩
    simp only [List.length_cons]
    rw [show i + ((t.length + 1 : Nat) : Int) = i + 1 + t.length by omega]
    exact ih
  | case4 i c t hx hc ih =>
    have mono : ∀ (l : List Span) (a a' b : Int), a' ≤ a → OrderedIn a b l → OrderedIn a' b l := by
      intro l a a' b h ho
      cases l with
      | nil => simp only [OrderedIn] at *; omega
      | cons s ss => exact ⟨by have := ho.1; omega, ho.2⟩
    simp only [List.length_cons]
    rw [show i + ((t.length + 1 : Nat) : Int) = i + 1 + t.length by omega]
    exact mono _ _ _ _ (by omega) ih

theorem isLineBreak_iff (c : Char) : FIto.isLineBreak c = decide (c ∈ PyStr.lineBoundary) := by
  rw [Bool.eq_iff_iff]
  simp only [FIto.isLineBreak, PyStr.lineBoundary, Bool.or_eq_true, beq_iff_eq, decide_eq_true_eq,
    List.mem_cons, List.not_mem_nil, or_false]
  constructor
  · rintro (((((((((h | h) | h) | h) | h) | h) | h) | h) | h) | h) <;> simp [h]
  · rintro (h | h | h | h | h | h | h | h | h | h) <;> simp [h]

/-- The loop over the line breaks collects exactly the terminated lines of the specification. -/
theorem splitlines_loop (x : FIto Char) (keep : Bool) (desc : Option String) {b : Nat}
    (hb : b ≤ x.string.length) (t : List Char) (i k : Nat) (hik : i ≤ k)
    (ht : t = (x.string.take b).drop k) (hkb : k ≤ b) :
    ∃ r : Nat, (FIto.splitIterLoop x 0 keep desc i (FIto.lineBreaks k t)).2 = r ∧ i ≤ r ∧ r ≤ b ∧
      (FIto.splitIterLoop x 0 keep desc i (FIto.lineBreaks k t)).1.map FIto.text ++
        (if (x.string.take b).drop r = [] then [] else [(x.string.take b).drop r]) =
      PyStr.splitlinesGo keep ((x.string.take k).drop i) t := by
  induction hn : t.length using Nat.strongRecOn generalizing t i k with
  | _ n ih =>
  have clone_eq : ∀ u v : Nat, u ≤ v → v ≤ x.string.length →
      (x.clone (some (u : Int)) (some (v : Int)) (some desc)).text = (x.string.take v).drop u := by
    intro u v huv hv
    have : (x.clone (some (u : Int)) (some (v : Int)) (some desc)) = ⟨x.string, ⟨u, v⟩, desc⟩ := by
      unfold FIto.clone FIto.ofStr
      rw [fromIndices_eq]
      simp only [Option.getD_some, adjStart_some_nat]
      rw [adjEnd_some_nat _ _ hv]
      congr 2 <;> omega
    rw [this, FIto.text_eq (a := u) (b := v) rfl rfl]
  have hstep : ∀ (c : Char) (t' : List Char), t = c :: t' →
      k < b ∧ t' = (x.string.take b).drop (k + 1) ∧
      ∀ u, u ≤ k → (x.string.take (k + 1)).drop u = (x.string.take k).drop u ++ [c] := by
    intro c t' hct
    have hkl : k < b := by
      have := congrArg List.length ht
      rw [hct] at this
      simp at this
      omega
    have hk' : k < (x.string.take b).length := by simp; omega
    rw [List.drop_eq_getElem_cons hk'] at ht
    rw [hct] at ht
    simp only [List.cons.injEq] at ht
    refine ⟨hkl, ht.2, fun u hu => ?_⟩
    rw [List.take_succ_eq_append_getElem (by omega), List.drop_append_of_le_length (by simp; omega)]
    rw [ht.1]
    simp
  match t, hn, hstep with
  | [], hn, hstep =>
    have hkb' : k = b := by
      have := congrArg List.length ht
      simp at this
      omega
    subst hkb'
    refine ⟨i, rfl, by omega, by omega, ?_⟩
    simp only [FIto.lineBreaks, FIto.splitIterLoop, PyStr.splitlinesGo]
    simp
  | c :: t', hn, hstep =>
    obtain ⟨h1, h2, h3⟩ := hstep c t' rfl
    by_cases hrn : c = '\r' ∧ ∃ t'', t' = '\n' :: t''
    · obtain ⟨rfl, t'', rfl⟩ := hrn
      obtain ⟨h1, h2, h3⟩ := hstep '\r' ('\n' :: t'') rfl
      have hk1 : k + 1 < b := by
        have := congrArg List.length h2
        simp at this
        omega
      have hk' : k + 1 < (x.string.take b).length := by simp; omega
      have h2' := h2
      rw [List.drop_eq_getElem_cons hk', List.cons.injEq] at h2'
      obtain ⟨r, r1, r2, r3, r4⟩ := ih t''.length (by rw [← hn]; simp; omega) t'' (k + 2) (k + 2)
        (by omega) h2'.2 (by omega) rfl
      refine ⟨r, ?_, by omega, r3, ?_⟩
      · rw [FIto.lineBreaks.eq_2, FIto.splitIterLoop.eq_2, if_neg (by omega)]
        exact r1
      · rw [FIto.lineBreaks.eq_2, FIto.splitIterLoop.eq_2, if_neg (by omega), PyStr.splitlinesGo.eq_2]
        simp only [List.map_cons, List.cons_append]
        have r4' := r4
        rw [List.drop_eq_nil_of_le (as := x.string.take (k + 2)) (i := k + 2) (by simp; omega)] at r4'
        rw [show (k : Int) + 2 = ((k + 2 : Nat) : Int) by omega]
        rw [r4']
        congr 1
        cases keep
        · simp only [Bool.false_eq_true, if_false]
          exact clone_eq i k hik (by omega)
        · simp only [if_true]
          rw [clone_eq i (k + 2) (by omega) (by omega)]
          have hl : k + 1 < x.string.length := by omega
          rw [show k + 2 = (k + 1) + 1 from rfl, List.take_succ_eq_append_getElem hl,
            List.drop_append_of_le_length (by simp; omega), h3 i hik]
          have : x.string[k + 1] = '\n' := by
            have := h2'.1
            simp only [List.getElem_take] at this
            exact this.symm
          rw [this]
          simp
    · have hx : ∀ t'', c = '\r' → t' = '\n' :: t'' → False := fun t'' h1 h2 => hrn ⟨h1, t'', h2⟩
      rw [FIto.lineBreaks.eq_3 _ _ _ (by intro t'' a b; exact hx t'' a b),
        PyStr.splitlinesGo.eq_3 _ _ _ _ (by intro t'' a b; exact hx t'' a b), isLineBreak_iff]
      by_cases hc : c ∈ PyStr.lineBoundary
      · simp only [hc, decide_true, if_true]
        obtain ⟨r, r1, r2, r3, r4⟩ := ih t'.length (by rw [← hn]; simp) t' (k + 1) (k + 1)
          (by omega) h2 (by omega) rfl
        refine ⟨r, ?_, by omega, r3, ?_⟩
        · unfold FIto.splitIterLoop
          rw [if_neg (by omega)]
          exact r1
        · unfold FIto.splitIterLoop
          rw [if_neg (by omega)]
          simp only [List.map_cons, List.cons_append]
          have r4' := r4
          rw [List.drop_eq_nil_of_le (as := x.string.take (k + 1)) (i := k + 1) (by simp; omega)] at r4'
          rw [show (k : Int) + 1 = ((k + 1 : Nat) : Int) by omega]
          rw [r4']
          congr 1
          cases keep
          · simp only [Bool.false_eq_true, if_false]
            exact clone_eq i k hik (by omega)
          · simp only [if_true]
            rw [clone_eq i (k + 1) (by omega) (by omega), h3 i hik]
      · simp only [hc, decide_false, Bool.false_eq_true, if_false]
        obtain ⟨r, r1, r2, r3, r4⟩ := ih t'.length (by rw [← hn]; simp) t' i (k + 1)
          (by omega) h2 (by omega) rfl
        refine ⟨r, r1, r2, r3, ?_⟩
        rw [← h3 i hik]
        exact r4

/-- C10: `str_splitlines(keepends)` has exactly the texts of Python's `splitlines(keepends)`. -/
theorem C10_str_splitlines (x : FIto Char) (h : x.Valid) (keepends : Bool) (desc : Option String) :
    (x.strSplitlines keepends desc).map FIto.text = PyStr.splitlines x.text keepends ∧
    ∀ p ∈ x.strSplitlines keepends desc, p.string = x.string ∧ p.Valid ∧
      x.start ≤ p.start ∧ p.stop ≤ x.stop := by
  obtain ⟨a, b, ha, hb, hab, hl⟩ := h.exists_nat
  have htl := FIto.text_length ha hb hl
  have hord : OrderedIn x.start x.stop (FIto.lineBreaks x.start x.text) := by
    have := lineBreaks_ordered x.text x.start
    rw [htl] at this
    rw [show x.stop = x.start + ((b - a : Nat) : Int) by omega]
    exact this
  obtain ⟨r, hr, hk⟩ := splitIter_shape x h _ hord 0 (by omega) desc
  obtain ⟨qs, last, e1, e2, e3, e4, e5⟩ := hk keepends
  obtain ⟨r', s1, s2, s3, s4⟩ := splitlines_loop x keepends desc hl x.text a a (by omega)
    (FIto.text_eq ha hb) hab
  rw [List.drop_eq_nil_of_le (as := x.string.take a) (i := a) (by simp; omega)] at s4
  have hq : qs = (FIto.splitIterLoop x 0 keepends desc a (FIto.lineBreaks a x.text)).1 ∧ r = r' := by
    unfold FIto.splitIter at e1
    rw [ha, hb] at e1
    dsimp only at e1
    rw [s1] at e1
    by_cases hlt : (r' : Int) < b
    · rw [if_pos hlt] at e1
      obtain ⟨g1, g2⟩ := List.append_inj' e1 rfl
      refine ⟨g1.symm, ?_⟩
      have := congrArg FIto.span (List.cons.inj g2).1
      rw [e3] at this
      rw [show x.clone (some (r' : Int)) none (some desc) =
        x.clone (some (r' : Int)) (some x.stop) (some desc) from rfl, hb] at this
      unfold FIto.clone FIto.ofStr at this
      rw [fromIndices_eq] at this
      simp only [Option.getD_some, adjStart_some_nat, Span.mk.injEq] at this
      omega
    · rw [if_neg hlt, if_pos (by omega)] at e1
      obtain ⟨g1, g2⟩ := List.append_inj' e1 rfl
      refine ⟨g1.symm, ?_⟩
      have := congrArg FIto.span (List.cons.inj g2).1
      rw [e3] at this
      unfold FIto.clone FIto.ofStr at this
      rw [fromIndices_eq] at this
      simp only [Option.getD_some, adjStart_some_nat, Span.mk.injEq] at this
      omega
  obtain ⟨hq, rfl⟩ := hq
  unfold FIto.strSplitlines PyStr.splitlines
  dsimp only
  rw [e1, List.getLast?_concat]
  dsimp only
  rw [← s4, ← hq]
  have hlast : last.text = (x.string.take b).drop r := by
    have hls := (e4 last (by simp)).1
    rw [← hls]
    exact FIto.text_eq (by rw [FIto.start, e3]) (by rw [FIto.stop, e3, hb])
  have hlv := (e4 last (by simp)).2.2.1
  rw [FIto.len_eq_text hlv, hlast]
  by_cases hz : (x.string.take b).drop r = []
  · rw [hz, if_pos (c := (((([] : List Char).length : Nat) : Int) = 0)) rfl, if_pos rfl, List.dropLast_concat]
    refine ⟨by simp, fun p hp => ?_⟩
    obtain ⟨g1, g2, g3, g4, g5⟩ := e4 p (by simp [hp])
    exact ⟨g1, g3, g4, g5⟩
  · have hz' : ¬ ((((x.string.take b).drop r).length : Nat) : Int) = 0 := by
      intro hh
      exact hz (List.length_eq_zero_iff.mp (by omega))
    rw [if_neg hz', if_neg hz]
    refine ⟨by simp [hlast], fun p hp => ?_⟩
    obtain ⟨g1, g2, g3, g4, g5⟩ := e4 p hp
    exact ⟨g1, g3, g4, g5⟩

example : ((FIto.ofStr "xa\r\n\nb\rx".toList (some 1) (some 7)).strSplitlines false none).map
    FIto.text = ["a".toList, [], "b".toList] := by decide
/-- A `\r\n` pair cut by the end of the Ito. -/
example : ((FIto.ofStr "a\r\nb".toList none (some 2)).strSplitlines true none).map
    FIto.text = ["a\r".toList] := by decide

end Pawpaw.Props
