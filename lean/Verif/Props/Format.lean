import Verif.Lemmas.Format
import Verif.Props.QueryIndex
import Verif.Props.Util
/-!
# C47, C48: `Ito.__format__`
-/
set_option linter.unusedSectionVars false
namespace Pawpaw.Props
open Pawpaw Pawpaw.Format FormatSpec PyStr
open Pawpaw.Query (isDigit digitsVal)

theorem slice_to (s : List Char) {a : Int} (h : 0 ≤ a) : slice s none (some a) = s.take a.toNat := by
  obtain ⟨n, rfl⟩ := Int.eq_ofNat_of_zero_le h
  rw [slice_none_left]
  have := slice_nat s 0 n
  simpa using this

theorem slice_from (s : List Char) {a : Int} (h : 0 ≤ a) : slice s (some a) none = s.drop a.toNat := by
  obtain ⟨n, rfl⟩ := Int.eq_ofNat_of_zero_le h
  rw [slice_none_right]
  have := slice_nat s n s.length
  simpa using this

theorem slice_from_none (s : List Char) : slice s none none = s := by
  rw [slice_none_left, slice_from _ (by omega)]
  simp

theorem slice_last (s : List Char) {a : Int} (h : 0 < a) :
    slice s (some (-a)) none = s.drop (s.length - a.toNat) := by
  rw [slice_none_right, slice_some_some]
  unfold normIndex
  rw [if_pos (by omega), if_neg (by omega)]
  congr 1
  · omega
  · simp

/-- The width block yields a fitted text. -/
theorem abbreviate_fitted (t : List Char) (w : Width) :
    Fitted t w.pos.toList (digitsVal w.width) (w.abbr.getD []) (abbreviate t (some w)) := by
  generalize hn : digitsVal w.width = n
  generalize ha : w.abbr.getD [] = a
  unfold abbreviate
  simp only [hn, ha]
  by_cases h : (n : Int) < t.length
  · rw [if_pos h]
    by_cases h2 : (a.length : Int) ≥ n
    · rw [if_pos h2, slice_from _ (by omega)]
      refine ⟨?_, fun h' => by omega, fun _ _ => List.drop_suffix _ _, fun _ h' => by omega⟩
      rw [List.length_drop]; omega
    · rw [if_neg h2]
      by_cases h3 : w.pos = some '<'
      · rw [if_pos h3]
        have e : ((a.length : Int) - n) = -((n : Int) - a.length) := by omega
        rw [e, slice_last _ (by omega)]
        refine ⟨?_, fun h' => by omega, fun _ h' => by omega, fun _ h' => ⟨?_, ?_, ?_⟩⟩
        · rw [List.length_append, List.length_drop]; omega
        · intro _; exact ⟨_, List.drop_suffix _ _, rfl⟩
        · rw [h3]; intro h; exact absurd h (by decide)
        · rw [h3]; intro h; exact absurd h (by decide)
      · rw [if_neg h3]
        by_cases h4 : w.pos = some '^'
        · rw [if_pos h4]
          have key : ∀ (post : List Char), post <:+ t → post.length = (n - a.length) / 2 →
              Fitted t w.pos.toList n a
                (slice t none (some ((n : Int) - post.length - a.length)) ++ a ++ post) := by
            intro post hpost hl
            rw [slice_to _ (by omega)]
            have hb : (t.take ((n : Int) - post.length - a.length).toNat).length =
                n - post.length - a.length := by
              rw [List.length_take]; omega
            refine ⟨?_, fun h' => by omega, fun _ h' => by omega, fun _ h' => ⟨?_, ?_, ?_⟩⟩
            · rw [List.length_append, List.length_append, hb]; omega
            · rw [h4]; intro h; exact absurd h (by decide)
            · rw [h4]; intro h; exact absurd h (by decide)
            · intro _
              refine ⟨_, post, List.take_prefix _ _, hpost, rfl, ?_⟩
              rw [hb]
              omega
          by_cases h5 : ((n : Int) - a.length) / 2 > 0
          · rw [if_pos h5]
            apply key
            · rw [slice_last _ (by omega)]; exact List.drop_suffix _ _
            · rw [slice_last _ (by omega), List.length_drop]; omega
          · rw [if_neg h5]
            exact key [] (List.nil_suffix) (by simp only [List.length_nil]; omega)
        · rw [if_neg h4, slice_to _ (by omega)]
          have hb : (t.take ((n : Int) - a.length).toNat).length = n - a.length := by
            rw [List.length_take]; omega
          refine ⟨?_, fun h' => by omega, fun _ h' => by omega, fun _ h' => ⟨?_, ?_, ?_⟩⟩
          · rw [List.length_append, hb]; omega
          · intro h
            rcases hw : w.pos with _ | c
            · rw [hw] at h; exact absurd h (by decide)
            · rw [hw] at h h3
              simp at h
              exact absurd (by rw [h]) h3
          · intro _
            exact ⟨_, List.take_prefix _ _, rfl⟩
          · intro h
            rcases hw : w.pos with _ | c
            · rw [hw] at h; exact absurd h (by decide)
            · rw [hw] at h h4
              simp at h
              exact absurd (by rw [h]) h4
  · rw [if_neg h]
    exact ⟨by omega, fun _ => rfl, fun h' => by omega, fun h' => by omega⟩

/-! ### Substitution -/

/-- A match as a piece of the format string. -/
def FMatch.text (fs : List Char) (m : FMatch) : List Char := (fs.take m.stop).drop m.start

/-- Matches in order, disjoint, inside the text and from `cur` on. -/
def Ordered (n : Nat) : Nat → List FMatch → Prop
  | _, [] => True
  | cur, m :: ms => cur ≤ m.start ∧ m.start ≤ m.stop ∧ m.stop ≤ n ∧ Ordered n m.stop ms

/-- The segments cut out by matches. -/
def segsOf (fs : List Char) : Nat → List FMatch → List Seg
  | cur, [] => [.lit (fs.drop cur)]
  | cur, m :: ms => .lit ((fs.take m.start).drop cur) :: .dir (FMatch.text fs m) :: segsOf fs m.stop ms

/-- The text with every match replaced. -/
def spliced (fs : List Char) (r : FMatch → List Char) : Nat → List FMatch → List Char
  | cur, [] => fs.drop cur
  | cur, m :: ms => (fs.take m.start).drop cur ++ r m ++ spliced fs r m.stop ms

theorem substituteAll_snoc (env : FmtEnv) (x : FIto Char) (fs : List Char) (m : FMatch) :
    ∀ (ms : List FMatch) (rv : List Char), substituteAll env x fs (ms ++ [m]) rv =
      match substituteAll env x fs ms rv with
      | .error e => .error e
      | .ok rv => substitute env x fs rv m
  | [], rv => by
    simp only [List.nil_append, substituteAll]
    cases substitute env x fs rv m <;> rfl
  | m' :: ms, rv => by
    simp only [List.cons_append, substituteAll]
    cases substitute env x fs rv m' with
    | error e => rfl
    | ok rv' => exact substituteAll_snoc env x fs m ms rv'

theorem drop_take_append (fs : List Char) {a b : Nat} (h : a ≤ b) :
    (fs.take b).drop a ++ fs.drop b = fs.drop a := by
  have h1 : fs.take b ++ fs.drop b = fs := List.take_append_drop b fs
  by_cases hb : b ≤ fs.length
  · have := congrArg (List.drop a) h1
    rw [List.drop_append_of_le_length (by rw [List.length_take]; omega)] at this
    exact this
  · rw [List.take_of_length_le (by omega), List.drop_of_length_le (i := b) (by omega), List.append_nil]

/-- The loop, run from the last match to the first, leaves the text before the first match alone. -/
theorem substituteAll_spliced (env : FmtEnv) (x : FIto Char) (fs : List Char) (r : FMatch → List Char) :
    ∀ (ms : List FMatch) (cur : Nat), cur ≤ fs.length → Ordered fs.length cur ms →
      (∀ m ∈ ms, render env x fs m = .ok (r m)) →
      substituteAll env x fs ms.reverse fs = .ok (fs.take cur ++ spliced fs r cur ms)
  | [], cur, _, _, _ => by simp [substituteAll, spliced]
  | m :: ms, cur, hcur, ⟨h1, h2, h3, h4⟩, hr => by
    have ih := substituteAll_spliced env x fs r ms m.stop h3 h4
      (fun m' hm' => hr m' (List.mem_cons_of_mem _ hm'))
    rw [List.reverse_cons, substituteAll_snoc, ih]
    simp only [substitute, hr m (List.mem_cons_self), spliced]
    rw [slice_to _ (by omega), slice_from _ (by omega)]
    simp only [Int.toNat_natCast]
    congr 1
    rw [List.take_append_of_le_length (by rw [List.length_take]; omega), List.take_take]
    rw [List.drop_append_of_le_length (by rw [List.length_take]; omega)]
    rw [show min m.start m.stop = m.start by omega]
    rw [List.drop_of_length_le (l := fs.take m.stop) (by rw [List.length_take]; omega), List.nil_append]
    have : fs.take m.start = fs.take cur ++ (fs.take m.start).drop cur := by
      have := (List.take_append_drop cur (fs.take m.start)).symm
      rw [List.take_take, show min cur m.start = cur by omega] at this
      exact this
    simp only [← List.append_assoc]
    rw [← this]

/-- If a rendering raises, so does the loop. -/
theorem substituteAll_error (env : FmtEnv) (x : FIto Char) (fs : List Char) :
    ∀ (ms : List FMatch) (rv : List Char),
      (∃ m ∈ ms, ∃ e, render env x fs m = .error e) → ∃ e, substituteAll env x fs ms rv = .error e
  | [], _, ⟨m, hm, _⟩ => absurd hm (by simp)
  | m :: ms, rv, ⟨m', hm', e, he⟩ => by
    simp only [substituteAll, substitute]
    rcases h : render env x fs m with e' | sub
    · exact ⟨e', rfl⟩
    · simp only
      apply substituteAll_error env x fs ms
      rcases List.mem_cons.1 hm' with rfl | hm'
      · rw [h] at he; exact absurd he (by simp)
      · exact ⟨m', hm', e, he⟩

theorem segsOf_src (fs : List Char) : ∀ (ms : List FMatch) (cur : Nat), Ordered fs.length cur ms →
    (segsOf fs cur ms).flatMap Seg.src = fs.drop cur
  | [], cur, _ => by simp [segsOf, Seg.src]
  | m :: ms, cur, ⟨h1, h2, h3, h4⟩ => by
    simp only [segsOf, List.flatMap_cons, Seg.src, segsOf_src fs ms m.stop h4, FMatch.text]
    rw [drop_take_append _ h2, drop_take_append _ h1]

theorem segsOf_dirs (fs : List Char) : ∀ (ms : List FMatch) (cur : Nat), Ordered fs.length cur ms →
    dirsAt cur (segsOf fs cur ms) = ms.map (fun m => (m.start, FMatch.text fs m))
  | [], cur, _ => by simp [segsOf, dirsAt]
  | m :: ms, cur, ⟨h1, h2, h3, h4⟩ => by
    simp only [segsOf, dirsAt, List.map_cons]
    have e1 : cur + ((fs.take m.start).drop cur).length = m.start := by
      rw [List.length_drop, List.length_take]; omega
    have e2 : m.start + (FMatch.text fs m).length = m.stop := by
      unfold FMatch.text
      rw [List.length_drop, List.length_take]; omega
    rw [e1, e2, segsOf_dirs fs ms m.stop h4]

theorem segsOf_out (fs : List Char) (r : List Char → List Char) :
    ∀ (ms : List FMatch) (cur : Nat),
      (segsOf fs cur ms).flatMap (Seg.out r) = spliced fs (fun m => r (FMatch.text fs m)) cur ms
  | [], cur => by simp [segsOf, Seg.out, spliced]
  | m :: ms, cur => by
    simp only [segsOf, List.flatMap_cons, Seg.out, spliced, segsOf_out fs r ms m.stop,
      List.append_assoc]

/-! ### The matches of a format string -/

/-- The windows handed to the matcher. -/
theorem mem_reMatches (fs : List Char) : ∀ (idxs : List Nat), idxs.Pairwise (· < ·) →
    (∀ i ∈ idxs, i < fs.length) → ∀ m, m ∈ reMatches fs idxs ↔
      ∃ i ∈ idxs, ∃ e, e ≤ fs.length ∧ i < e ∧ (e = fs.length ∨ e ∈ idxs) ∧
        (∀ j ∈ idxs, i < j → e ≤ j) ∧ reMatch i ((fs.take e).drop i) = some m
  | [], _, _, m => by simp [reMatches]
  | [i], _, hl, m => by
    simp only [reMatches, Option.mem_toList]
    constructor
    · intro h
      refine ⟨i, by simp, fs.length, Nat.le_refl _, hl i (by simp), Or.inl rfl, ?_, ?_⟩
      · intro j hj; simp at hj; omega
      · rw [List.take_length]; exact h
    · rintro ⟨j, hj, e, he, hje, hor, _, h⟩
      simp at hj
      subst hj
      rcases hor with rfl | hor
      · rw [List.take_length] at h; exact h
      · simp at hor; omega
  | i :: j :: is, hp, hl, m => by
    have ih := mem_reMatches fs (j :: is) (List.Pairwise.of_cons hp)
      (fun k hk => hl k (List.mem_cons_of_mem _ hk)) m
    have hlt := (List.pairwise_cons.1 hp).1
    have hlt2 := (List.pairwise_cons.1 (List.pairwise_cons.1 hp).2).1
    simp only [reMatches, List.mem_append, Option.mem_toList, ih]
    constructor
    · rintro (h | ⟨k, hk, e, he, hke, hor, hmin, h⟩)
      · refine ⟨i, by simp, j, Nat.le_of_lt (hl j (by simp)), hlt j (by simp), Or.inr (by simp), ?_, h⟩
        intro k hk hik
        rcases List.mem_cons.1 hk with rfl | hk
        · omega
        · rcases List.mem_cons.1 hk with rfl | hk
          · omega
          · have := hlt2 k hk; omega
      · refine ⟨k, List.mem_cons_of_mem _ hk, e, he, hke, ?_, ?_, h⟩
        · rcases hor with h | h
          · exact Or.inl h
          · exact Or.inr (List.mem_cons_of_mem _ h)
        · intro k' hk' hkk'
          rcases List.mem_cons.1 hk' with rfl | hk'
          · have := hlt k hk; omega
          · exact hmin k' hk' hkk'
    · rintro ⟨k, hk, e, he, hke, hor, hmin, h⟩
      rcases List.mem_cons.1 hk with rfl | hk2
      · left
        have h1 := hmin j (by simp) (hlt j (by simp))
        rcases hor with rfl | hor
        · have := hl j (by simp); omega
        · rcases List.mem_cons.1 hor with rfl | hor
          · omega
          · rcases List.mem_cons.1 hor with rfl | hor
            · exact h
            · have := hlt2 e hor; omega
      · right
        refine ⟨k, hk2, e, he, hke, ?_, fun k' hk' => hmin k' (List.mem_cons_of_mem _ hk'), h⟩
        rcases hor with h | hor
        · exact Or.inl h
        · rcases List.mem_cons.1 hor with rfl | hor
          · have := hlt k hk2; omega
          · exact Or.inr hor

/-- The matches are in order and disjoint. -/
theorem reMatches_ordered (fs : List Char) : ∀ (idxs : List Nat), idxs.Pairwise (· < ·) →
    (∀ i ∈ idxs, i < fs.length) → ∀ cur, (∀ i ∈ idxs, cur ≤ i) →
      Ordered fs.length cur (reMatches fs idxs)
  | [], _, _, cur, _ => trivial
  | [i], _, hl, cur, hc => by
    simp only [reMatches]
    rcases h : reMatch i (fs.drop i) with _ | m
    · trivial
    · obtain ⟨k, h1, h2, _, h4, _⟩ := reMatch_spec h
      rw [List.length_drop] at h4
      have := hl i (by simp)
      have := hc i (by simp)
      simp only [Option.toList_some, Ordered, h1, h2]
      refine ⟨by omega, by omega, by omega, trivial⟩
  | i :: j :: is, hp, hl, cur, hc => by
    have hlt := (List.pairwise_cons.1 hp).1
    have hlt2 := (List.pairwise_cons.1 (List.pairwise_cons.1 hp).2).1
    have ih := reMatches_ordered fs (j :: is) (List.Pairwise.of_cons hp)
      (fun k hk => hl k (List.mem_cons_of_mem _ hk))
    have hjs : ∀ k ∈ j :: is, j ≤ k := by
      intro k hk
      rcases List.mem_cons.1 hk with rfl | hk
      · omega
      · have := hlt2 k hk; omega
    have hij := hlt j (by simp)
    have hjl := hl j (by simp)
    have hci := hc i (by simp)
    simp only [reMatches]
    rcases h : reMatch i ((fs.take j).drop i) with _ | m
    · simp only [Option.toList_none, List.nil_append]
      exact ih cur (fun k hk => by have := hjs k hk; omega)
    · obtain ⟨k, h1, h2, _, h4, _⟩ := reMatch_spec h
      rw [List.length_drop, List.length_take] at h4
      simp only [Option.toList_some, List.cons_append, List.nil_append, Ordered, h1, h2]
      refine ⟨by omega, by omega, by omega, ?_⟩
      exact ih (i + k) (fun k' hk' => by have := hjs k' hk'; omega)

/-- The positions the code looks at. -/
def intros (fs : List Char) : List Nat := UtilSpec.positions fs (Intro fs)

theorem mem_intros {fs : List Char} {i : Nat} : i ∈ intros fs ↔ Intro fs i := by
  unfold intros UtilSpec.positions
  rw [List.mem_filter, List.mem_range, decide_eq_true_eq]
  constructor
  · exact fun h => h.2
  · intro h
    exact ⟨Nat.lt_trans (Nat.lt_succ_self i) h.2.2.1, h⟩

theorem intros_sorted (fs : List Char) : (intros fs).Pairwise (· < ·) := positions_sorted _ _

theorem intros_lt {fs : List Char} : ∀ i ∈ intros fs, i < fs.length := by
  intro i hi
  exact Nat.lt_trans (Nat.lt_succ_self i) (mem_intros.1 hi).2.2.1

theorem idxs_eq (fs : List Char) :
    (Util.findEscapes (FIto.ofStr fs none none) '%' none none).out.map Int.toNat = intros fs := by
  have hv : (FIto.ofStr fs none none).Valid := FIto.ofStr_valid _ _ _ _
  have h := C42_find_escapes (FIto.ofStr fs none none) hv '%' none none
  have ht : (FIto.ofStr fs none none).text = fs := by
    have h1 : (FIto.ofStr fs none none).start = ((0 : Nat) : Int) := by
      simp [FIto.ofStr, FIto.start, Span.fromIndices]
    have h2 : (FIto.ofStr fs none none).stop = ((fs.length : Nat) : Int) := by
      simp [FIto.ofStr, FIto.stop, Span.fromIndices]
    rw [FIto.text_eq h1 h2]
    simp [FIto.ofStr]
  have hs : (FIto.ofStr fs none none).start = 0 := by
    simp [FIto.ofStr, FIto.start, Span.fromIndices]
  have hsl : PyStr.slice fs none none = fs := by
    rw [slice_from_none]
  simp only [ht, hs, hsl] at h
  rw [h]
  simp only [List.map_map, intros]
  conv => rhs; rw [← List.map_id (UtilSpec.positions fs (Intro fs))]
  apply List.map_congr_left
  intro k _
  simp [adjStart]
  omega

theorem runBefore_drop (fs : List Char) (i k : Nat) (hk : 2 ≤ k) (hi : i + 1 < fs.length)
    (hn : fs[i + 1]? ≠ some '%') :
    UtilSpec.runBefore '%' fs (i + k) = UtilSpec.runBefore '%' (fs.drop i) k := by
  unfold UtilSpec.runBefore
  rw [List.take_add, List.reverse_append, List.takeWhile_append]
  rw [if_neg]
  intro hlen
  have hall : ∀ c ∈ ((fs.drop i).take k).reverse, decide (c = '%') = true := by
    have := List.all_takeWhile (p := fun c => decide (c = '%')) (l := ((fs.drop i).take k).reverse)
    rw [(List.takeWhile_prefix _).eq_of_length hlen, List.all_eq_true] at this
    exact this
  have hmem : fs[i + 1] ∈ ((fs.drop i).take k).reverse := by
    rw [List.mem_reverse, List.mem_iff_getElem?]
    refine ⟨1, ?_⟩
    rw [List.getElem?_take, if_pos (by omega), List.getElem?_drop, List.getElem?_eq_getElem hi]
  have := hall _ hmem
  rw [decide_eq_true_eq] at this
  apply hn
  rw [List.getElem?_eq_getElem hi, this]

theorem runBefore_prefix {d t : List Char} {k : Nat} (h : k ≤ d.length) :
    UtilSpec.runBefore '%' (d ++ t) k = UtilSpec.runBefore '%' d k := by
  unfold UtilSpec.runBefore
  rw [List.take_append_of_le_length h]

/-- Where directives may start inside a piece of a format string which begins where one may start. -/
theorem intro_piece {fs d : List Char} {i : Nat} (hi : Intro fs i) (hd : d <+: fs.drop i) (k : Nat) :
    Intro d k ↔ k + 1 < d.length ∧ Intro fs (i + k) := by
  obtain ⟨t, ht⟩ := hd
  obtain ⟨h1, h2, h3, h4⟩ := hi
  have hget : ∀ j, j < d.length → d[j]? = fs[i + j]? := by
    intro j hj
    rw [← List.getElem?_drop, ← ht, List.getElem?_append_left hj]
  have hle : i + d.length ≤ fs.length := by
    have := congrArg List.length ht
    rw [List.length_append, List.length_drop] at this
    have : d.length ≤ fs.length - i := by omega
    omega
  have key : k + 1 < d.length → (Intro d k ↔ Intro fs (i + k)) := by
    intro hk
    have e1 := hget k (by omega)
    have e2 := hget (k + 1) hk
    unfold Intro UtilSpec.EscapeAt UtilSpec.Escaped
    rw [e1, e2]
    match k with
    | 0 =>
      have : UtilSpec.runBefore '%' d 0 = 0 := by simp [UtilSpec.runBefore]
      simp only [Nat.add_zero, this]
      have hk' : 0 + 1 < d.length := hk
      have h2' : ¬ UtilSpec.runBefore '%' fs i % 2 = 1 := h2
      simp only [h1, h2', h3, h4, hk', Nat.zero_mod, Nat.zero_ne_one, not_false_eq_true,
        ne_eq, and_self, Nat.zero_add]
    | 1 =>
      constructor
      · rintro ⟨h, _⟩; exact absurd h h4
      · rintro ⟨h, _⟩; exact absurd h h4
    | k + 2 =>
      rw [runBefore_drop fs i (k + 2) (by omega) h3 h4, ← ht, runBefore_prefix (by omega)]
      have a1 : (k + 2 + 1 < d.length) = True := eq_true hk
      have a2 : (i + (k + 2) + 1 < fs.length) = True := eq_true (by omega)
      rw [a1, a2]
      rfl
  constructor
  · intro h
    have hk := h.2.2.1
    exact ⟨hk, (key hk).1 h⟩
  · rintro ⟨hk, h⟩
    exact (key hk).2 h

theorem window_take (fs : List Char) {i k e : Nat} (h : i + k ≤ e) :
    ((fs.take e).drop i).take k = (fs.take (i + k)).drop i := by
  rw [List.drop_take, List.drop_take, List.take_take]
  congr 1
  omega

theorem eq_singleton_of_sorted {l : List Nat} (hs : l.Pairwise (· < ·)) (h : ∀ k, k ∈ l ↔ k = 0) :
    l = [0] := by
  match l with
  | [] => exact absurd ((h 0).2 rfl) (by simp)
  | [a] => rw [(h a).1 (by simp)]
  | a :: b :: l =>
    have h1 := (h a).1 (by simp)
    have h2 := (h b).1 (by simp)
    have := (List.pairwise_cons.1 hs).1 b (by simp)
    omega

theorem directive_length {d : List Char} (h : IsDirective d) : 2 ≤ d.length := by
  cases h with
  | zws => decide
  | int name spec hn hs =>
    obtain ⟨d, rfl⟩ := intDir_of_name hn
    cases d <;> simp [IntDir.name]
  | str name conv width hn hc hw =>
    obtain ⟨d, rfl⟩ := strDir_of_name hn
    cases d <;> simp [StrDir.name]

/-- The renderings are the same whether the directive stands alone or in its format string. -/
theorem render_alone (env : FmtEnv) (x : FIto Char) {fs : List Char} {i e k : Nat} {m : FMatch}
    (_he : e ≤ fs.length) (hk : k ≤ ((fs.take e).drop i).length)
    (_hs : m.start = i) (hst : m.stop = i + k) (hf : m.found = m.found.at i) (hlt : i < e) :
    render env x fs m = render env x (((fs.take e).drop i).take k) ⟨0, 0 + k, m.found.at 0⟩ := by
  have hd : ((fs.take e).drop i).take k = (fs.take (i + k)).drop i := by
    rw [List.length_drop, List.length_take] at hk
    exact window_take fs (by omega)
  have hsl : ∀ n : Nat, slice fs (some (((i + 1 + n : Nat) : Int) + 1)) (some (m.stop : Int)) =
      slice ((fs.take (i + k)).drop i) (some (((0 + 1 + n : Nat) : Int) + 1)) (some ((0 + k : Nat) : Int)) := by
    intro n
    have e1 : ((i + 1 + n : Nat) : Int) + 1 = ((i + 1 + n + 1 : Nat) : Int) := by omega
    have e2 : ((0 + 1 + n : Nat) : Int) + 1 = ((0 + 1 + n + 1 : Nat) : Int) := by omega
    rw [e1, e2, slice_nat, slice_nat, hst]
    rw [List.drop_take, List.drop_take, List.drop_take, List.drop_take]
    rw [List.take_take, List.drop_drop]
    rw [show i + (0 + 1 + n + 1) = i + 1 + n + 1 by omega]
    congr 1
    omega
  rw [hd]
  unfold render
  rw [hf]
  cases hfd : m.found with
  | zws => simp [Found.at]
  | int d n => simp only [Found.at, hsl]
  | str d c w => simp only [Found.at]

/-- A directive standing alone is rendered by itself. -/
theorem format_alone (env : FmtEnv) (x : FIto Char) {d : List Char} {m : FMatch} {k : Nat}
    (hint : ∀ j, Intro d j ↔ j = 0) (hm : reMatch 0 d = some m) (hk : k = d.length)
    (h1 : m.start = 0) (h2 : m.stop = k) :
    format env x d = render env x d m := by
  have hne : d ≠ [] := by
    intro h
    have := ((hint 0).2 rfl).2.2.1
    rw [h] at this
    simp at this
  unfold format
  rw [if_neg hne]
  simp only [idxs_eq]
  rw [eq_singleton_of_sorted (intros_sorted d) (fun j => mem_intros.trans (hint j))]
  simp only [reMatches, List.drop_zero, hm, Option.toList_some, List.reverse_cons, List.reverse_nil,
    List.nil_append, substituteAll, substitute]
  cases hr : render env x d m with
  | error e => rfl
  | ok sub =>
    simp only
    rw [h1, h2, hk, slice_to _ (by omega), slice_from _ (by omega)]
    simp

/-- The matches of a format string are its directives. -/
theorem mem_matches_iff (fs : List Char) (i : Nat) (d : List Char) :
    (∃ m ∈ reMatches fs (intros fs), m.start = i ∧ FMatch.text fs m = d) ↔ DirectiveAt fs i d := by
  constructor
  · rintro ⟨m, hm, rfl, rfl⟩
    obtain ⟨i, hi, e, he, hie, hor, hmin, h⟩ :=
      (mem_reMatches fs _ (intros_sorted fs) intros_lt m).1 hm
    obtain ⟨k, h1, h2, _, h4, h5, h6, h7, _⟩ := reMatch_spec h
    have hk := h4
    rw [List.length_drop, List.length_take] at hk
    have ht : FMatch.text fs m = ((fs.take e).drop i).take k := by
      unfold FMatch.text
      rw [h1, h2, window_take fs (by omega)]
    have htl : (FMatch.text fs m).length = k := by rw [ht, List.length_take]; omega
    rw [h1]
    refine ⟨mem_intros.1 hi, ⟨?_, ?_, ?_⟩, ?_⟩
    · rw [ht]; exact h6
    · rw [ht]
      exact (List.take_prefix _ _).trans (by
        rw [List.drop_take]; exact List.take_prefix _ _)
    · intro j hj hij
      have := hmin j (mem_intros.2 hj) hij
      rw [htl]; omega
    · rintro d' ⟨hd', hp', hj'⟩
      rw [htl]
      apply h7 d' hd'
      rw [List.drop_take, List.prefix_take_iff]
      refine ⟨hp', ?_⟩
      rcases hor with rfl | hor
      · have := hp'.length_le
        rw [List.length_drop] at this
        exact this
      · have := hj' e (mem_intros.1 hor) hie
        omega
  · rintro ⟨hi, ⟨hd, hp, hj⟩, hmax⟩
    -- the next place, or the end
    have hnext : ∃ e, e ≤ fs.length ∧ i < e ∧ (e = fs.length ∨ e ∈ intros fs) ∧
        ∀ j ∈ intros fs, i < j → e ≤ j := by
      by_cases hex : ∃ j ∈ intros fs, i < j
      · rcases hf : (intros fs).find? (fun j => decide (i < j)) with _ | e
        · obtain ⟨j, hj1, hj2⟩ := hex
          rw [List.find?_eq_none] at hf
          exact absurd (decide_eq_true hj2) (hf j hj1)
        · have hlt := List.find?_some hf
          rw [decide_eq_true_eq] at hlt
          have hmem := List.mem_of_find?_eq_some hf
          refine ⟨e, Nat.le_of_lt (intros_lt e hmem), hlt, Or.inr hmem, ?_⟩
          intro j hj1 hj2
          obtain ⟨_, as, bs, hl, has⟩ := List.find?_eq_some_iff_append.1 hf
          have hs := intros_sorted fs
          rw [hl] at hj1 hs
          rcases List.mem_append.1 hj1 with h | h
          · have := has j h
            simp at this
            omega
          · rcases List.mem_cons.1 h with rfl | h
            · omega
            · have := (List.pairwise_cons.1 (List.pairwise_append.1 hs).2.1).1 j h
              omega
      · refine ⟨fs.length, Nat.le_refl _, intros_lt i (mem_intros.2 hi), Or.inl rfl, ?_⟩
        intro j hj1 hj2
        exact absurd ⟨j, hj1, hj2⟩ hex
    obtain ⟨e, he, hie, hor, hmin⟩ := hnext
    have hpw : ∀ d', d' <+: fs.drop i → (∀ j, Intro fs j → i < j → i + d'.length ≤ j) →
        d' <+: (fs.take e).drop i := by
      intro d' hp' hj'
      rw [List.drop_take, List.prefix_take_iff]
      refine ⟨hp', ?_⟩
      rcases hor with rfl | hor
      · have := hp'.length_le
        rw [List.length_drop] at this
        exact this
      · have := hj' e (mem_intros.1 hor) hie
        omega
    obtain ⟨m, hm⟩ := reMatch_of_directive (i := i) hd (hpw d hp hj)
    obtain ⟨k, h1, h2, _, h4, h5, h6, h7, _⟩ := reMatch_spec hm
    have hk := h4
    rw [List.length_drop, List.length_take] at hk
    have ht : FMatch.text fs m = ((fs.take e).drop i).take k := by
      unfold FMatch.text
      rw [h1, h2, window_take fs (by omega)]
    have htl : (((fs.take e).drop i).take k).length = k := by rw [List.length_take]; omega
    refine ⟨m, (mem_reMatches fs _ (intros_sorted fs) intros_lt m).2
      ⟨i, mem_intros.2 hi, e, he, hie, hor, hmin, hm⟩, h1, ?_⟩
    rw [ht]
    have hge := h7 d hd (hpw d hp hj)
    have hle := hmax _ ⟨h6, (List.take_prefix _ _).trans (by
        rw [List.drop_take]; exact List.take_prefix _ _), by
      intro j hj1 hj2
      have := hmin j (mem_intros.2 hj1) hj2
      rw [htl]; omega⟩
    rw [htl] at hle
    have : d = (fs.take e |>.drop i).take d.length := by
      obtain ⟨t, ht⟩ := hpw d hp hj
      rw [← ht, List.take_left]
    rw [this]
    congr 1
    omega

/-- Each match renders as its text does when formatted alone. -/
theorem render_eq_format (env : FmtEnv) (x : FIto Char) (fs : List Char) (m : FMatch)
    (hm : m ∈ reMatches fs (intros fs)) : render env x fs m = format env x (FMatch.text fs m) := by
  obtain ⟨i, hi, e, he, hie, hor, hmin, h⟩ :=
    (mem_reMatches fs _ (intros_sorted fs) intros_lt m).1 hm
  obtain ⟨k, h1, h2, h3, h4, h5, h6, h7, h8⟩ := reMatch_spec h
  have hk := h4
  rw [List.length_drop, List.length_take] at hk
  have ht : FMatch.text fs m = ((fs.take e).drop i).take k := by
    unfold FMatch.text
    rw [h1, h2, window_take fs (by omega)]
  have htl : (((fs.take e).drop i).take k).length = k := by rw [List.length_take]; omega
  have hpre : ((fs.take e).drop i).take k <+: fs.drop i :=
    (List.take_prefix _ _).trans (by rw [List.drop_take]; exact List.take_prefix _ _)
  rw [render_alone env x he h4 h1 h2 h5 hie, ht]
  symm
  refine format_alone env x ?_ (h8 0) htl.symm rfl (by simp)
  intro j
  rw [intro_piece (mem_intros.1 hi) hpre, htl]
  constructor
  · rintro ⟨hj, hin⟩
    by_cases h0 : j = 0
    · exact h0
    · have := hmin (i + j) (mem_intros.2 hin) (by omega)
      omega
  · rintro rfl
    refine ⟨?_, mem_intros.1 hi⟩
    -- every directive has at least two characters
    have := directive_length h6
    omega

/-- **C48.** Every non-empty format string has a segmentation into literal text and its directives
(`FormatSpec.Segmentation`, which depends on the format string alone); formatting yields the segments in
order, literal text unchanged and each directive replaced by what the directive yields when formatted on
its own.  If some directive raises, so does the whole. -/
theorem C48_format (fs : List Char) (hne : fs ≠ []) :
    ∃ segs, Segmentation fs segs ∧ ∀ (env : FmtEnv) (x : FIto Char),
      (∀ r : List Char → List Char, (∀ d, Seg.dir d ∈ segs → format env x d = .ok (r d)) →
        format env x fs = .ok (segs.flatMap (Seg.out r))) ∧
      ((∃ d e, Seg.dir d ∈ segs ∧ format env x d = .error e) → ∃ e, format env x fs = .error e) := by
  have hord := reMatches_ordered fs (intros fs) (intros_sorted fs) intros_lt 0 (fun _ _ => Nat.zero_le _)
  have hmem : ∀ (ms : List FMatch) cur d, Seg.dir d ∈ segsOf fs cur ms ↔ ∃ m ∈ ms, FMatch.text fs m = d := by
    intro ms
    induction ms with
    | nil => intro cur d; simp [segsOf]
    | cons m ms ih =>
      intro cur d
      simp only [segsOf, List.mem_cons, ih]
      constructor
      · rintro (h | h | ⟨m', hm', h⟩)
        · exact absurd h (by simp)
        · exact ⟨m, Or.inl rfl, (Seg.dir.inj h).symm⟩
        · exact ⟨m', Or.inr hm', h⟩
      · rintro ⟨m', rfl | hm', h⟩
        · exact Or.inr (Or.inl (by rw [h]))
        · exact Or.inr (Or.inr ⟨m', hm', h⟩)
  refine ⟨segsOf fs 0 (reMatches fs (intros fs)), ⟨?_, ?_⟩, ?_⟩
  · rw [segsOf_src fs _ 0 hord, List.drop_zero]
  · intro i d
    rw [segsOf_dirs fs _ 0 hord, ← mem_matches_iff, List.mem_map]
    constructor
    · rintro ⟨m, hm, h⟩
      obtain ⟨h1, h2⟩ := Prod.mk.inj h
      exact ⟨m, hm, h1, h2⟩
    · rintro ⟨m, hm, rfl, rfl⟩
      exact ⟨m, hm, rfl⟩
  · intro env x
    have hfmt : format env x fs = substituteAll env x fs (reMatches fs (intros fs)).reverse fs := by
      unfold format
      rw [if_neg hne]
      simp only [idxs_eq]
    constructor
    · intro r hr
      rw [hfmt, segsOf_out]
      have := substituteAll_spliced env x fs (fun m => r (FMatch.text fs m)) _ 0 (Nat.zero_le _) hord
        (by
          intro m hm
          rw [render_eq_format env x fs m hm]
          exact hr _ ((hmem _ _ _).2 ⟨m, hm, rfl⟩))
      rw [this]
      simp
    · rintro ⟨d, e, hd, he⟩
      obtain ⟨m, hm, rfl⟩ := (hmem _ _ _).1 hd
      rw [hfmt]
      apply substituteAll_error
      exact ⟨m, List.mem_reverse.2 hm, e, by rw [render_eq_format env x fs m hm]; exact he⟩

/-- **C48**, text without `%` comes out unchanged. -/
theorem C48_literal (env : FmtEnv) (x : FIto Char) (fs : List Char) (hne : fs ≠ []) (h : '%' ∉ fs) :
    format env x fs = .ok fs := by
  have h0 : intros fs = [] := by
    rw [List.eq_nil_iff_forall_not_mem]
    intro i hi
    exact h (List.mem_of_getElem? (mem_intros.1 hi).1)
  unfold format
  rw [if_neg hne]
  simp only [idxs_eq, h0, reMatches, List.reverse_nil, substituteAll]

theorem intro_only_zero {t : List Char} (h : '%' ∉ t) (hne : t ≠ []) (j : Nat) :
    Intro ('%' :: t) j ↔ j = 0 := by
  constructor
  · intro hj
    rcases j with _ | j
    · rfl
    · have := hj.1
      rw [List.getElem?_cons_succ] at this
      exact absurd (List.mem_of_getElem? this) h
  · rintro rfl
    rcases t with _ | ⟨c, t⟩
    · exact absurd rfl hne
    · refine ⟨rfl, by simp [UtilSpec.Escaped, UtilSpec.runBefore], by simp, ?_⟩
      simp only [Nat.zero_add, List.getElem?_cons_succ, List.getElem?_cons_zero, ne_eq,
        Option.some.injEq]
      intro hc
      exact h (by rw [hc]; simp)

/-- What an int directive yields for a format spec. -/
def intOut (env : FmtEnv) (x : FIto Char) (f : List Char) : IntDir → Except PyErr (List Char)
  | .start => env.fmtInt x.start f
  | .stop => env.fmtInt x.stop f
  | .span => do
    let a ← env.fmtInt x.start f
    let b ← env.fmtInt x.stop f
    return "(".toList ++ a ++ ", ".toList ++ b ++ ")".toList

theorem format_int (env : FmtEnv) (x : FIto Char) (d : IntDir) (tail : List Char)
    (ht : tail = [] ∨ ∃ s, tail = ':' :: s ∧ IntSpec s) (h : '%' ∉ tail) :
    format env x ('%' :: (d.name ++ tail)) = intOut env x (tail.drop 1) d := by
  have hsk : skipSpec tail = [] := by
    have := (longest_skipSpec tail).2 tail ht List.prefix_rfl
    exact List.eq_nil_of_length_eq_zero (by omega)
  rw [format_alone env x (intro_only_zero (by cases d <;> simpa [IntDir.name] using h)
    (by cases d <;> simp [IntDir.name])) (reMatch_int 0 d tail) rfl rfl (by rw [hsk]; simp)]
  have hsl : slice ('%' :: (d.name ++ tail)) (some (((0 + 1 + d.name.length : Nat) : Int) + 1))
      (some ((0 + (('%' :: (d.name ++ tail)).length - (skipSpec tail).length) : Nat) : Int)) =
      tail.drop 1 := by
    have e : ((0 + 1 + d.name.length : Nat) : Int) + 1 = ((d.name.length + 2 : Nat) : Int) := by omega
    rw [e, slice_nat, hsk, List.take_of_length_le (by simp)]
    rw [show d.name.length + 2 = (d.name.length + 1) + 1 by rfl, List.drop_succ_cons, List.drop_append,
      List.drop_of_length_le (by omega), List.nil_append]
    congr 1
    omega
  unfold render
  simp only [hsl]
  cases d
  · simp only [intOut]
    cases env.fmtInt x.start (tail.drop 1) with
    | error e => rfl
    | ok a =>
      cases env.fmtInt x.stop (tail.drop 1) with
      | error e => rfl
      | ok b => rfl
  · rfl
  · rfl

/-- **C48**, what `%start` and `%stop` yield: Python's `format(ito.start, spec)`, where `spec` is what
follows the colon. -/
theorem C48_start_stop (env : FmtEnv) (x : FIto Char) (tail : List Char)
    (ht : tail = [] ∨ ∃ s, tail = ':' :: s ∧ IntSpec s) (h : '%' ∉ tail) :
    format env x ("%start".toList ++ tail) = env.fmtInt x.start (tail.drop 1) ∧
    format env x ("%stop".toList ++ tail) = env.fmtInt x.stop (tail.drop 1) :=
  ⟨format_int env x .start tail ht h, format_int env x .stop tail ht h⟩

/-- **C48**, what `%span` yields: `(start, stop)`, each formatted. -/
theorem C48_span (env : FmtEnv) (x : FIto Char) (tail : List Char)
    (ht : tail = [] ∨ ∃ s, tail = ':' :: s ∧ IntSpec s) (h : '%' ∉ tail) (a b : List Char)
    (ha : env.fmtInt x.start (tail.drop 1) = .ok a) (hb : env.fmtInt x.stop (tail.drop 1) = .ok b) :
    format env x ("%span".toList ++ tail) = .ok ("(".toList ++ a ++ ", ".toList ++ b ++ ")".toList) := by
  have := format_int env x .span tail ht h
  simp only [intOut, ha, hb] at this
  exact this

theorem format_str (env : FmtEnv) (x : FIto Char) (d : StrDir) (tail : List Char)
    (ht : StrTail tail) (h : '%' ∉ tail) :
    format env x ('%' :: (d.name ++ tail)) =
      match strText env x d with
      | .error e => .error e
      | .ok sub => .ok (abbreviate (convert env sub (matchConv tail).1)
          (matchWidth (matchConv tail).2).1) := by
  have hsk : (matchWidth (matchConv tail).2).2 = [] := by
    have := (longest_str tail).2 tail ht List.prefix_rfl
    simp only at this
    exact List.eq_nil_of_length_eq_zero (by omega)
  rw [format_alone env x (intro_only_zero (by cases d <;> simpa [StrDir.name] using h)
    (by cases d <;> simp [StrDir.name])) (reMatch_str 0 d tail) rfl rfl (by rw [hsk]; simp)]
  unfold render
  cases hd : strText env x d <;> simp [hd]

/-- **C48**, what the plain text directives yield. -/
theorem C48_text (env : FmtEnv) (x : FIto Char) :
    format env x [] = .ok x.text ∧
    format env x "%substr".toList = .ok x.text ∧
    format env x "%string".toList = .ok x.string ∧
    format env x "%desc".toList = .ok (x.desc.getD "").toList ∧
    format env x "%value".toList = env.value x ∧
    format env x "% ".toList = .ok [] := by
  have hn : StrTail [] := ⟨[], [], rfl, Or.inl rfl, Or.inl rfl⟩
  refine ⟨rfl, format_str env x .substr [] hn (by simp), format_str env x .string [] hn (by simp),
    format_str env x .desc [] hn (by simp), ?_, ?_⟩
  · have := format_str env x .value [] hn (by simp)
    refine Eq.trans this ?_
    simp only [strText]
    cases env.value x <;> rfl
  · have h := format_alone env x (d := "% ".toList) (m := ⟨0, 2, .zws⟩) (k := 2)
      (intro_only_zero (t := [' ']) (by decide) (by simp)) rfl rfl rfl rfl
    rw [h]; rfl

theorem digits?_append_eq {r W : List Char} (hr : r = [] ∨ Digits r)
    (hW : ∀ c, W.head? = some c → isDigit c = false) :
    digits? (r ++ W) = (if r = [] then none else some r, W) := by
  have h := takeWhile_digits (w := r) (r := W) (by
    intro d hd
    rcases hr with rfl | hr
    · simp at hd
    · exact (isDigit_spec d).2 (hr.2 d hd)) hW
  unfold digits?
  simp only [h.1, h.2]

/-- A conversion is recognised, whatever follows it (if it cannot be taken for a part of it). -/
theorem matchConv_append {conv : List Char} (hc : conv = [] ∨ ConvSpec conv) :
    ∃ cv, ∀ W : List Char, (∀ c, W.head? = some c → c = ':') → matchConv (conv ++ W) = (cv, W) := by
  rcases hc with rfl | ⟨l, c, r, rfl, hl, hc, hr⟩
  · refine ⟨none, fun W hW => ?_⟩
    rcases W with _ | ⟨c, W⟩
    · rfl
    · have := hW c (by simp)
      subst this
      rfl
  · refine ⟨some ⟨if l = [] then none else some l, c, if r = [] then none else some r⟩, fun W hW => ?_⟩
    have e : '!' :: (l ++ c :: r) ++ W =
        '!' :: ((if l = [] then none else some l : Option (List Char)).getD [] ++ c :: (r ++ W)) := by
      by_cases h0 : l = []
      · simp [h0]
      · simp [h0]
    rw [e, matchConv_eq _ _ _ (by
      intro l' hl'
      by_cases h0 : l = []
      · simp [h0] at hl'
      · simp only [h0, if_false, Option.some.injEq] at hl'
        subst hl'
        rcases hl with h | h
        · exact absurd h h0
        · exact h) hc]
    rw [digits?_append_eq hr (by
      intro d hd
      rw [hW d hd]
      decide)]

theorem conv_no_percent {conv : List Char} (hc : conv = [] ∨ ConvSpec conv) : '%' ∉ conv := by
  have dig : ∀ l : List Char, (l = [] ∨ Digits l) → '%' ∉ l := by
    rintro l (rfl | hl) h
    · simp at h
    · exact absurd (hl.2 _ h) (by decide)
  rcases hc with rfl | ⟨l, c, r, rfl, hl, hc, hr⟩
  · simp
  · intro h
    simp only [List.mem_cons, List.mem_append] at h
    rcases h with h | h | h | h
    · exact absurd h (by decide)
    · exact dig l hl h
    · rw [← h] at hc; exact absurd hc (by decide)
    · exact dig r hr h

theorem toString_digits (n : Nat) : Digits (toString n : String).toList :=
  ⟨digits_ne_nil n, fun c hc => (isDigit_spec c).1 (digits_isDigit n c hc)⟩

/-- The text conversions, `!a` and `!r`: `ascii` / `repr`, then `l` characters dropped in front and `r`
at the end. -/
theorem C48_conversion (env : FmtEnv) (x : FIto Char) (name : List Char)
    (hn : name ∈ ["desc".toList, "string".toList, "substr".toList, "value".toList])
    (t : List Char) (ht : format env x ('%' :: name) = .ok t) (l r : Nat) :
    let cut (u : List Char) := (u.take (u.length - r)).drop l
    format env x ('%' :: (name ++ '!' :: ((toString l : String).toList ++ 'a' :: (toString r : String).toList))) =
      .ok (cut (env.ascii t)) ∧
    format env x ('%' :: (name ++ '!' :: ((toString l : String).toList ++ 'r' :: (toString r : String).toList))) =
      .ok (cut (env.repr t)) ∧
    format env x ('%' :: (name ++ "!a".toList)) = .ok (env.ascii t) ∧
    format env x ('%' :: (name ++ "!r".toList)) = .ok (env.repr t) := by
  intro cut
  obtain ⟨d, rfl⟩ := strDir_of_name hn
  have hn0 : StrTail [] := ⟨[], [], rfl, Or.inl rfl, Or.inl rfl⟩
  have ht0 : strText env x d = .ok t := by
    have := format_str env x d [] hn0 (by simp)
    rw [List.append_nil, ht] at this
    cases hs : strText env x d with
    | error e => rw [hs] at this; exact absurd this (by simp)
    | ok u =>
      rw [hs] at this
      simpa [matchConv, matchWidth, convert, abbreviate] using this.symm
  have main : ∀ c ∈ "ar".toList, ∀ f : List Char → List Char,
      (f = if c = 'a' then env.ascii else env.repr) →
      format env x ('%' :: (d.name ++ '!' :: ((toString l : String).toList ++ c ::
        (toString r : String).toList))) = .ok (cut (f t)) ∧
      format env x ('%' :: (d.name ++ ['!', c])) = .ok (f t) := by
    intro c hc f hf
    have hcv : ConvSpec ('!' :: ((toString l : String).toList ++ c :: (toString r : String).toList)) :=
      ⟨_, _, _, rfl, Or.inr (toString_digits l), hc, Or.inr (toString_digits r)⟩
    have hcv2 : ConvSpec ['!', c] := ⟨[], c, [], rfl, Or.inl rfl, hc, Or.inl rfl⟩
    have hf' : ∀ u, (if c = 'a' then env.ascii u else env.repr u) = f u := by
      intro u; rw [hf]; split <;> rfl
    constructor
    · rw [format_str env x d _ ⟨_, [], (List.append_nil _).symm, Or.inr hcv, Or.inl rfl⟩
        (conv_no_percent (Or.inr hcv)), ht0]
      have hm := matchConv_eq (some (toString l : String).toList) c (toString r : String).toList
        (by rintro _ ⟨rfl⟩; exact toString_digits l) hc
      have hd := digits?_append_eq (W := []) (Or.inr (toString_digits r)) (by simp)
      rw [List.append_nil, if_neg (digits_ne_nil r)] at hd
      rw [hd] at hm
      simp only [Option.getD_some] at hm
      simp only [hm, convert, hf', digitsVal_digits, matchWidth, abbreviate]
      congr 1
      by_cases hr0 : r = 0
      · subst hr0
        rw [if_pos (by decide), slice_from _ (by omega)]
        simp [cut]
      · rw [if_neg]
        · rw [slice_some_some]
          unfold normIndex
          rw [if_neg (by omega), if_pos (by omega)]
          simp only [cut]
          congr 1
          congr 1
          omega
        · intro h
          have := digitsVal_digits r
          rw [h] at this
          exact hr0 (by rw [← this]; decide)
    · rw [format_str env x d _ ⟨_, [], (List.append_nil _).symm, Or.inr hcv2, Or.inl rfl⟩
        (conv_no_percent (Or.inr hcv2)), ht0]
      have hm := matchConv_eq none c [] (by simp) hc
      simp only [Option.getD_none, List.nil_append] at hm
      rw [show digits? [] = (none, []) from rfl] at hm
      simp only [hm, convert, hf', matchWidth, abbreviate]
      congr 1
      rw [slice_from _ (by omega)]
      simp
  have ha := main 'a' (by decide) env.ascii (by simp)
  have hr := main 'r' (by decide) env.repr (by simp)
  exact ⟨ha.1, hr.1, ha.2, hr.2⟩

/-- **C47.** `%name[conversion]:[pos]n[abbr]` yields the text `t` of `%name[conversion]` cut to `n`
characters: see `FormatSpec.Fitted`. -/
theorem C47_width (env : FmtEnv) (x : FIto Char) (name conv pos abbr t : List Char) (n : Nat)
    (hn : name ∈ ["desc".toList, "string".toList, "substr".toList, "value".toList])
    (hc : conv = [] ∨ ConvSpec conv) (hp : Opt "<^>".toList pos)
    (ha : '%' ∉ abbr) (ha' : ∀ c, abbr.head? = some c → ¬ ('0' ≤ c ∧ c ≤ '9'))
    (ht : format env x ('%' :: (name ++ conv)) = .ok t) :
    ∃ r, format env x ('%' :: (name ++ conv ++ ':' :: (pos ++ (toString n : String).toList ++ abbr))) =
        .ok r ∧ Fitted t pos n abbr r := by
  obtain ⟨d, rfl⟩ := strDir_of_name hn
  obtain ⟨cv, hcv⟩ := matchConv_append hc
  have h1 := format_str env x d conv ⟨conv, [], (List.append_nil _).symm, hc, Or.inl rfl⟩
    (conv_no_percent hc)
  have hcv0 := hcv [] (by simp)
  rw [List.append_nil] at hcv0
  rw [ht, hcv0] at h1
  have hnd : ∀ c, abbr.head? = some c → isDigit c = false := by
    intro c h
    rw [Bool.eq_false_iff]
    intro h'
    exact ha' c h ((isDigit_spec c).1 h')
  have hW : ∃ w : Width, w.pos.toList = pos ∧ w.width = (toString n : String).toList ∧
      w.abbr.getD [] = abbr ∧
      matchWidth (':' :: (pos ++ (toString n : String).toList ++ abbr)) = (some w, []) := by
    have hd := digits?_append_eq (Or.inr (toString_digits n)) hnd
    rw [if_neg (digits_ne_nil n)] at hd
    have habbr : (if abbr = [] then none else some abbr : Option (List Char)).getD [] = abbr := by
      by_cases h0 : abbr = []
      · simp [h0]
      · simp [h0]
    rcases hp with rfl | ⟨c, hc', rfl⟩
    · refine ⟨⟨none, (toString n : String).toList, if abbr = [] then none else some abbr⟩, rfl, rfl, habbr, ?_⟩
      obtain ⟨e, ds, hds⟩ := List.exists_cons_of_ne_nil (digits_ne_nil n)
      have he : isPos e = false := by
        have hde := digits_isDigit n e (by rw [hds]; simp)
        rw [Bool.eq_false_iff]
        intro hpp
        simp only [isPos, Bool.or_eq_true, decide_eq_true_eq] at hpp
        rcases hpp with (rfl | rfl) | rfl <;> exact absurd hde (by decide)
      simp only [List.nil_append, matchWidth]
      have : matchPos ((toString n : String).toList ++ abbr) =
          matchAbbr none ((toString n : String).toList ++ abbr) := by
        rw [hds]
        simp only [List.cons_append, matchPos, he, Bool.false_eq_true, if_false]
      rw [this]
      simp only [matchAbbr, hd]
    · refine ⟨⟨some c, (toString n : String).toList, if abbr = [] then none else some abbr⟩, rfl, rfl, habbr, ?_⟩
      simp only [List.cons_append, List.nil_append, matchWidth, matchPos, (isPos_iff c).2 hc', if_true,
        matchAbbr, hd]
  obtain ⟨w, hw1, hw2, hw3, hw4⟩ := hW
  have h2 := format_str env x d (conv ++ ':' :: (pos ++ (toString n : String).toList ++ abbr))
    ⟨conv, _, rfl, hc, Or.inr ⟨pos, _, abbr, rfl, hp, toString_digits n⟩⟩ (by
      intro h
      rw [List.mem_append] at h
      rcases h with h | h
      · exact conv_no_percent hc h
      · simp only [List.mem_cons, List.mem_append] at h
        rcases h with h | (h | h) | h
        · exact absurd h (by decide)
        · rcases hp with rfl | ⟨c, hc', rfl⟩
          · simp at h
          · rw [List.mem_singleton] at h
            rw [← h] at hc'
            exact absurd hc' (by decide)
        · exact absurd ((toString_digits n).2 _ h) (by decide)
        · exact ha h)
  rw [hcv _ (by simp)] at h2
  simp only [hw4] at h2
  rw [← List.append_assoc] at h2
  rw [h2]
  cases hs : strText env x d with
  | error e => rw [hs] at h1; exact absurd h1 (by simp)
  | ok u =>
    rw [hs] at h1
    simp only [matchWidth, abbreviate, Except.ok.injEq] at h1
    subst h1
    refine ⟨_, rfl, ?_⟩
    have := abbreviate_fitted (convert env u cv) w
    rw [hw1, hw2, hw3, digitsVal_digits] at this
    exact this

/-! ### Examples -/

/-- Stand-ins for Python's built-ins. -/
def exEnv : FmtEnv :=
  { fmtInt := fun i f => if f = [] then .ok (toString i : String).toList else .error .valueError
    ascii := fun s => '\'' :: (s ++ ['\''])
    repr := fun s => '\'' :: (s ++ ['\''])
    value := fun x => .ok x.text }

def exFmt (s : String) : Except PyErr String :=
  (format exEnv ⟨"hello world".toList, ⟨2, 9⟩, some "d"⟩ s.toList).map String.ofList

-- the hypotheses of the theorems are met, and the model computes what Python does
example : exFmt "a%span b%%substr %substr:4… %desc% x" = .ok "a(2, 9) b%%substr ll… dx" := by decide
example : exFmt "<%substr!2r1:^4..>" = .ok "<l..>" := by decide
example : DirectiveAt "x %stop:3d!".toList 2 "%stop:3d".toList :=
  (mem_matches_iff _ _ _).1 ⟨⟨2, 10, .int .stop 7⟩, by decide, rfl, rfl⟩
example : Fitted "llo wor".toList "^".toList 4 "..".toList "l..r".toList := by
  refine ⟨by decide, by decide, by decide, fun _ _ =>
    ⟨fun h => absurd h (by decide), fun h => absurd h (by decide), fun _ => ?_⟩⟩
  exact ⟨['l'], ['r'], ⟨"lo wor".toList, rfl⟩, ⟨"llo wo".toList, rfl⟩, rfl, Or.inl rfl⟩
-- `'0'` as right slice means "to the end", but `'00'` means "up to position 0": a quirk of the code
example : exFmt "%substr!r0" = .ok "'llo wor'" ∧ exFmt "%substr!r00" = .ok "" := by decide

end Pawpaw.Props
