import Verif.Model.Arbor
import Verif.Spec.Arbor
import Verif.Lemmas.Slice
import Verif.Props.Tree
/-!
# C50, C52, C53, C54, C55: arborform components
-/
set_option linter.unusedSectionVars false
set_option linter.unusedSimpArgs false
namespace Pawpaw.Props
open Pawpaw Pawpaw.Arbor ArborSpec SpanSpec PyStr
variable {α : Type} [DecidableEq α]

/-! ### C50: `Split` -/

theorem clone_span (x : FIto α) (d : Option String) {a b : Int} (h0 : 0 ≤ a) (hab : a ≤ b)
    (hb : b ≤ x.string.length) :
    x.clone (some a) (some b) (some d) = ⟨x.string, ⟨a, b⟩, d⟩ := by
  obtain ⟨m, rfl⟩ := Int.eq_ofNat_of_zero_le h0
  obtain ⟨n, rfl⟩ := Int.eq_ofNat_of_zero_le (Int.le_trans h0 hab)
  unfold FIto.clone FIto.ofStr
  rw [fromIndices_eq]
  simp only [Option.getD_some, adjStart_some_nat, adjEnd_some_nat _ _ (Int.ofNat_le.1 hb),
    FIto.mk.injEq, Span.mk.injEq, true_and, and_true]
  omega

theorem piece_span (c : SplitCfg) (x : FIto α) {a b : Int} (h0 : 0 ≤ a) (hab : a ≤ b)
    (hb : b ≤ x.string.length) :
    c.piece x (a, b) = (nonEmpty [⟨a, b⟩]).map (fun s => ⟨x.string, s, c.desc⟩) := by
  unfold SplitCfg.piece nonEmpty
  by_cases h : a ≠ b
  · simp only [if_pos h, List.filter_cons, List.filter_nil, decide_eq_true h, if_true, List.map_cons,
      List.map_nil, clone_span x c.desc h0 hab hb]
  · simp [h]

/-- The spans of what the loop and the last piece give after boundary `p`. -/
def afterSpans (c : SplitCfg) (b : Int) (p : Span) (used : List Span) : List Span :=
  match c.retention with
  | .none => nonEmpty (between p.stop b used)
  | .all => nonEmpty (interleave (between p.stop b used) used)
  | .leading => nonEmpty (leading b (p :: used))
  | .trailing => nonEmpty (trailing p.stop used)

theorem nonEmpty_cons (s : Span) (l : List Span) : nonEmpty (s :: l) = nonEmpty [s] ++ nonEmpty l := by
  unfold nonEmpty
  rw [← List.filter_append, List.singleton_append]

theorem orderedIn_le : ∀ {ss : List Span} {a b : Int}, OrderedIn a b ss → a ≤ b
  | [], _, _, h => h
  | _ :: _, _, _, ⟨h1, h2, h3⟩ => Int.le_trans h1 (Int.le_trans h2 (orderedIn_le h3))

/-- The remaining number of boundaries. -/
def SplitCfg.left (c : SplitCfg) (count : Int) : Option Int := c.limit.map (· - count)

theorem allowed_left_cons (c : SplitCfg) (count : Int) {τ : Type} (s : τ) (ss : List τ) :
    allowed (SplitCfg.left c count) (s :: ss) =
      if c.more count then s :: allowed (SplitCfg.left c (count + 1)) ss else [] := by
  unfold allowed SplitCfg.left SplitCfg.more
  rcases c.limit with _ | n
  · simp
  · simp only [Option.map_some, decide_eq_true_eq]
    split
    · have e : (n - count).toNat = (n - (count + 1)).toNat + 1 := by omega
      rw [e, List.take_succ_cons]
    · have e : (n - count).toNat = 0 := by omega
      rw [e, List.take_zero]

theorem nonEmpty_map_span (x : FIto α) (d : Option String) (l : List Span) :
    (l.map (fun s => (⟨x.string, s, d⟩ : FIto α))).map FIto.span = l := by
  rw [List.map_map]
  exact List.map_id _

theorem loop_base (c : SplitCfg) (x : FIto α) (h0 : 0 ≤ x.start) (hx : x.stop ≤ x.string.length)
    (p : FIto α) (h1 : x.start ≤ p.start) (h2 : p.start ≤ p.stop) (h3 : p.stop ≤ x.stop) :
      (c.last x (some p)).map FIto.span = afterSpans c x.stop p.span [] ∧
        ∀ y ∈ c.last x (some p), y.string = x.string ∧ y.desc = c.desc := by
  have h1' : x.span.start ≤ p.span.start := h1
  have h2' : p.span.start ≤ p.span.stop := h2
  have h0' : 0 ≤ x.span.start := h0
  have hx' : x.span.stop ≤ x.string.length := hx
  have h3' : p.span.stop ≤ x.span.stop := h3
  refine ⟨?_, ?_⟩
  · unfold SplitCfg.last afterSpans
    cases hr : c.retention with
    | none =>
      simp only [FIto.start, FIto.stop] at *
      rw [piece_span c x (by omega) h3 hx, nonEmpty_map_span]
      rfl
    | all =>
      simp only [FIto.start, FIto.stop] at *
      rw [piece_span c x (by omega) h3 hx, nonEmpty_map_span]
      rfl
    | leading =>
      simp only [FIto.start, FIto.stop] at *
      rw [piece_span c x (by omega) (by omega) hx, nonEmpty_map_span]
      rfl
    | trailing => rfl
  · intro y hy
    unfold SplitCfg.last at hy
    cases hr : c.retention with
    | none =>
      simp only [hr, FIto.start, FIto.stop] at *
      rw [piece_span c x (by omega) h3 hx] at hy
      obtain ⟨s, _, rfl⟩ := List.mem_map.1 hy
      exact ⟨rfl, rfl⟩
    | all =>
      simp only [hr, FIto.start, FIto.stop] at *
      rw [piece_span c x (by omega) h3 hx] at hy
      obtain ⟨s, _, rfl⟩ := List.mem_map.1 hy
      exact ⟨rfl, rfl⟩
    | leading =>
      simp only [hr, FIto.start, FIto.stop] at *
      rw [piece_span c x (by omega) (by omega) hx] at hy
      obtain ⟨s, _, rfl⟩ := List.mem_map.1 hy
      exact ⟨rfl, rfl⟩
    | trailing => rw [hr] at hy; simp at hy

theorem loop_after (c : SplitCfg) (x : FIto α) (h0 : 0 ≤ x.start) (hx : x.stop ≤ x.string.length) :
    ∀ (seps : List (FIto α)) (count : Int) (p : FIto α), x.start ≤ p.start → p.start ≤ p.stop →
      OrderedIn p.stop x.stop (seps.map FIto.span) →
      ∃ rv last, c.loop x count (some p) seps none = .ok (rv, some last) ∧
        (rv ++ c.last x (some last)).map FIto.span =
          afterSpans c x.stop p.span (allowed (SplitCfg.left c count) (seps.map FIto.span)) ∧
        ∀ y ∈ rv ++ c.last x (some last), (y.string = x.string ∧ y.desc = c.desc) ∨ y ∈ seps
  | [], count, p, h1, h2, ho => by
    have e : allowed (SplitCfg.left c count) (List.map FIto.span ([] : List (FIto α))) = [] := by
      unfold allowed; cases SplitCfg.left c count <;> simp
    have hb := loop_base c x h0 hx p h1 h2 (orderedIn_le ho)
    refine ⟨[], p, rfl, ?_, ?_⟩
    · rw [List.nil_append, e]; exact hb.1
    · intro y hy; exact Or.inl (hb.2 y hy)
  | cur :: seps, count, p, h1, h2, ho => by
    simp only [List.map_cons] at ho
    have ho' := ho
    obtain ⟨g1, g2, g3⟩ := ho
    have g4 := orderedIn_le g3
    rw [List.map_cons, allowed_left_cons]
    by_cases hm : c.more count = true
    · have e1 : x.start ≤ cur.start := by
        simp only [FIto.start, FIto.stop] at *; omega
      obtain ⟨rv, last, i1, i2, i3⟩ := loop_after c x h0 hx seps (count + 1) cur e1 g2 g3
      rw [if_pos hm]
      refine ⟨c.piece x (c.bounds x (some p) cur) ++
        (if c.retention = .all ∧ cur.start < cur.stop then [cur] else []) ++ rv, last, ?_, ?_, ?_⟩
      · simp only [SplitCfg.loop, hm, if_true, i1]
      · rw [List.append_assoc, List.map_append, i2]
        unfold SplitCfg.bounds afterSpans
        simp only [FIto.start, FIto.stop] at *
        cases hr : c.retention with
        | none =>
          simp only [hr, reduceCtorEq, false_and, if_false, List.append_nil]
          rw [piece_span c x (by omega) g1 (by omega), nonEmpty_map_span]
          simp only [between]
          rw [← nonEmpty_cons]
        | all =>
          simp only [hr, true_and]
          rw [List.map_append, piece_span c x (by omega) g1 (by omega), nonEmpty_map_span]
          simp only [between, interleave]
          rw [nonEmpty_cons ⟨_, cur.span.start⟩ (cur.span :: _), nonEmpty_cons cur.span, ← List.append_assoc]
          congr 2
          unfold nonEmpty
          by_cases hlt : cur.span.start < cur.span.stop
          · rw [if_pos hlt]
            simp [Int.ne_of_lt hlt]
          · rw [if_neg hlt]
            have : cur.span.start = cur.span.stop := by omega
            simp [this]
        | leading =>
          simp only [hr, reduceCtorEq, false_and, if_false, List.append_nil]
          rw [piece_span c x (by omega) (by omega) (by omega), nonEmpty_map_span]
          simp only [leading]
          rw [← nonEmpty_cons]
        | trailing =>
          simp only [hr, reduceCtorEq, false_and, if_false, List.append_nil]
          rw [piece_span c x (by omega) (by omega) (by omega), nonEmpty_map_span]
          simp only [trailing]
          rw [← nonEmpty_cons]
      · intro y hy
        rw [List.append_assoc, List.mem_append, List.mem_append] at hy
        rcases hy with (hy | hy) | hy
        · left
          unfold SplitCfg.bounds at hy
          simp only [FIto.start, FIto.stop] at *
          cases hr : c.retention <;> simp only [hr] at hy
          all_goals
            rw [piece_span c x (by omega) (by omega) (by omega)] at hy
            obtain ⟨s, _, rfl⟩ := List.mem_map.1 hy
            exact ⟨rfl, rfl⟩
        · right
          split at hy
          · rw [List.mem_singleton] at hy; rw [hy]; exact List.mem_cons_self
          · simp at hy
        · rcases i3 y hy with h | h
          · exact Or.inl h
          · exact Or.inr (List.mem_cons_of_mem _ h)
    · rw [if_neg hm]
      -- as in the base case, the loop stops here
      have hb := loop_base c x h0 hx p h1 h2 (orderedIn_le (ss := cur.span :: seps.map FIto.span) ho')
      refine ⟨[], p, ?_, ?_, ?_⟩
      · simp only [SplitCfg.loop, hm, Bool.false_eq_true, if_false]
      · exact hb.1
      · intro y hy; exact Or.inl (hb.2 y hy)

/-- What a split of `[a, b]` at boundaries `used` (at least one) consists of. -/
def splitSpans (r : Retention) (a b : Int) (used : List Span) : List Span :=
  match r with
  | .none => nonEmpty (between a b used)
  | .all => nonEmpty (interleave (between a b used) used)
  | .leading => nonEmpty (leading b used)
  | .trailing => nonEmpty (trailing a used)

/-- **C50.** For every Ito and every ordered, disjoint boundaries inside it: with no boundary (or a limit
of zero or less) `Split` yields the whole or nothing, as asked; otherwise, with the boundaries which the
limit allows, in order and without empty pieces: the pieces between boundaries; or each boundary with
the piece after it; or each with the piece before it; or pieces and boundaries alternating.  The pieces
are on the same string and have the given `desc`. -/
theorem C50_split (c : SplitCfg) (x : FIto α) (hv : x.Valid) (seps : List (FIto α))
    (ho : OrderedIn x.start x.stop (seps.map FIto.span)) :
    ∃ out, c.split x ⟨seps, none⟩ = .ok out ∧
      let used := allowed c.limit (seps.map FIto.span)
      (used = [] → out = if c.zeroSplit then [⟨x.string, x.span, c.desc⟩] else []) ∧
      (used ≠ [] → out.map FIto.span = splitSpans c.retention x.start x.stop used) ∧
      (∀ y ∈ out, (y.string = x.string ∧ y.desc = c.desc) ∨ y ∈ seps) := by
  obtain ⟨v0, v1, v2⟩ := hv
  have hwhole : x.clone none none (some c.desc) = ⟨x.string, x.span, c.desc⟩ := by
    have := clone_span x c.desc v0 v1 v2
    unfold FIto.clone at this ⊢
    simpa [FIto.start, FIto.stop] using this
  unfold SplitCfg.split
  by_cases hz : c.limit = some 0 ∧ c.zeroSplit = true
  · rw [if_pos hz, hwhole]
    refine ⟨_, rfl, ?_, ?_, ?_⟩
    · intro _; rw [if_pos hz.2]
    · intro h
      rw [hz.1] at h
      simp [allowed] at h
    · intro y hy
      rw [List.mem_singleton] at hy
      left; rw [hy]; exact ⟨rfl, rfl⟩
  · rw [if_neg hz]
    have hleft : SplitCfg.left c 0 = c.limit := by
      unfold SplitCfg.left; cases c.limit <;> simp
    -- the case in which no boundary is used
    have hnone : c.loop x 0 none seps none = .ok ([], none) →
        allowed c.limit (seps.map FIto.span) = [] →
        ∃ out, (match c.loop x 0 none seps none with
          | .error e => .error e
          | .ok (rv, prior) =>
            let rv := rv ++ c.last x prior
            if prior = none ∧ rv.length = 0 ∧ c.zeroSplit then .ok (rv ++ [x.clone none none (some c.desc)])
            else .ok rv : Except PyErr (List (FIto α))) = .ok out ∧
          let used := allowed c.limit (seps.map FIto.span)
          (used = [] → out = if c.zeroSplit then [⟨x.string, x.span, c.desc⟩] else []) ∧
          (used ≠ [] → out.map FIto.span = splitSpans c.retention x.start x.stop used) ∧
          (∀ y ∈ out, (y.string = x.string ∧ y.desc = c.desc) ∨ y ∈ seps) := by
      intro hl hu
      rw [hl]
      simp only [SplitCfg.last, List.append_nil, List.length_nil, true_and, List.nil_append]
      by_cases hzs : c.zeroSplit = true
      · refine ⟨[x.clone none none (some c.desc)], by rw [if_pos hzs], ?_, ?_, ?_⟩
        · intro _; rw [if_pos hzs, hwhole]
        · intro h; exact absurd hu h
        · intro y hy
          rw [List.mem_singleton, hwhole] at hy
          left; rw [hy]; exact ⟨rfl, rfl⟩
      · refine ⟨[], by rw [if_neg hzs], ?_, ?_, ?_⟩
        · intro _; rw [if_neg hzs]
        · intro h; exact absurd hu h
        · simp
    cases seps with
    | nil =>
      apply hnone
      · rfl
      · unfold allowed; cases c.limit <;> simp
    | cons cur seps =>
      simp only [List.map_cons] at ho
      obtain ⟨g1, g2, g3⟩ := ho
      have g4 := orderedIn_le g3
      have hal := allowed_left_cons c 0 cur.span (seps.map FIto.span)
      rw [hleft] at hal
      by_cases hm : c.more 0 = true
      · rw [if_pos hm] at hal
        obtain ⟨rv, last, i1, i2, i3⟩ := loop_after c x v0 v2 seps (0 + 1) cur g1 g2 g3
        have hloop : c.loop x 0 none (cur :: seps) none = .ok (c.piece x (c.bounds x none cur) ++
            (if c.retention = .all ∧ cur.start < cur.stop then [cur] else []) ++ rv, some last) := by
          simp only [SplitCfg.loop, hm, if_true, i1]
        simp only [hloop, reduceCtorEq, false_and, if_false]
        refine ⟨_, rfl, ?_, ?_, ?_⟩
        · rw [List.map_cons, hal]; intro h; exact absurd h (by simp)
        · intro _
          rw [List.map_cons, hal, List.append_assoc, List.map_append, i2]
          unfold SplitCfg.bounds afterSpans splitSpans
          simp only [FIto.start, FIto.stop] at *
          cases hr : c.retention with
          | none =>
            simp only [hr, reduceCtorEq, false_and, if_false, List.append_nil]
            rw [piece_span c x (by omega) g1 (by omega), nonEmpty_map_span]
            simp only [between]
            rw [← nonEmpty_cons]
          | all =>
            simp only [hr, true_and]
            rw [List.map_append, piece_span c x (by omega) g1 (by omega), nonEmpty_map_span]
            simp only [between, interleave]
            rw [nonEmpty_cons ⟨_, cur.span.start⟩ (cur.span :: _), nonEmpty_cons cur.span, ← List.append_assoc]
            congr 2
            unfold nonEmpty
            by_cases hlt : cur.span.start < cur.span.stop
            · rw [if_pos hlt]
              simp [Int.ne_of_lt hlt]
            · rw [if_neg hlt]
              have : cur.span.start = cur.span.stop := by omega
              simp [this]
          | leading =>
            simp only [hr, reduceCtorEq, false_and, if_false, List.append_nil, SplitCfg.piece,
              ne_eq, not_true_eq_false, List.map_nil, List.nil_append]
          | trailing =>
            simp only [hr, reduceCtorEq, false_and, if_false, List.append_nil]
            rw [piece_span c x (by omega) (by omega) (by omega), nonEmpty_map_span]
            simp only [trailing]
            rw [← nonEmpty_cons]
        · intro y hy
          rw [List.append_assoc, List.mem_append, List.mem_append] at hy
          rcases hy with (hy | hy) | hy
          · left
            unfold SplitCfg.bounds at hy
            simp only [FIto.start, FIto.stop] at *
            cases hr : c.retention <;> simp only [hr] at hy
            case leading => simp [SplitCfg.piece] at hy
            all_goals
              rw [piece_span c x (by omega) (by omega) (by omega)] at hy
              obtain ⟨s, _, rfl⟩ := List.mem_map.1 hy
              exact ⟨rfl, rfl⟩
          · right
            split at hy
            · rw [List.mem_singleton] at hy; rw [hy]; exact List.mem_cons_self
            · simp at hy
          · rcases i3 y hy with h | h
            · exact Or.inl h
            · exact Or.inr (List.mem_cons_of_mem _ h)
      · rw [if_neg hm] at hal
        apply hnone
        · simp only [SplitCfg.loop, hm, Bool.false_eq_true, if_false]
        · rw [List.map_cons]; exact hal

/-! #### Tilings -/

theorem tiles_nonEmpty : ∀ {l : List Span} {a b : Int}, Tiles a b l → Tiles a b (nonEmpty l)
  | [], _, _, h => h
  | s :: l, a, b, ⟨h1, h2, h3⟩ => by
    rw [nonEmpty_cons]
    have ih := tiles_nonEmpty h3
    by_cases he : s.start = s.stop
    · have : nonEmpty [s] = [] := by simp [nonEmpty, he]
      rw [this, List.nil_append, ← h1, he]
      exact ih
    · have : nonEmpty [s] = [s] := by simp [nonEmpty, he]
      rw [this]
      exact ⟨h1, h2, ih⟩

theorem tiles_interleave : ∀ (ss : List Span) {a b : Int}, OrderedIn a b ss →
    Tiles a b (interleave (between a b ss) ss)
  | [], _, _, h => ⟨rfl, h, rfl⟩
  | _ :: ss, _, _, ⟨h1, h2, h3⟩ => ⟨rfl, h1, rfl, h2, tiles_interleave ss h3⟩

theorem tiles_leading : ∀ (ss : List Span) (s : Span) {a b : Int}, OrderedIn a b (s :: ss) →
    Tiles s.start b (leading b (s :: ss))
  | [], _, _, _, ⟨_, h2, h3⟩ => ⟨rfl, Int.le_trans h2 h3, rfl⟩
  | s' :: ss, _, _, _, ⟨_, h2, h3⟩ => ⟨rfl, Int.le_trans h2 h3.1, tiles_leading ss s' h3⟩

/-- Where the last boundary ends. -/
def lastStop (a : Int) (ss : List Span) : Int := (ss.getLast?.map Span.stop).getD a

theorem tiles_trailing : ∀ (ss : List Span) {a b : Int}, OrderedIn a b ss →
    Tiles a (lastStop a ss) (trailing a ss)
  | [], _, _, _ => rfl
  | [s], _, _, ⟨h1, h2, _⟩ => ⟨rfl, Int.le_trans h1 h2, rfl⟩
  | s :: s' :: ss, _, _, ⟨h1, h2, h3⟩ => by
    refine ⟨rfl, Int.le_trans h1 h2, ?_⟩
    have := tiles_trailing (s' :: ss) h3
    unfold lastStop at this ⊢
    rw [List.getLast?_cons_cons]
    cases hg : (s' :: ss).getLast? with
    | none => simp at hg
    | some q => rw [hg] at this; exact this

theorem orderedIn_take : ∀ (ss : List Span) (n : Nat) {a b : Int}, OrderedIn a b ss →
    OrderedIn a b (ss.take n)
  | ss, 0, _, _, h => by rw [List.take_zero]; exact orderedIn_le h
  | [], _ + 1, _, _, h => h
  | _ :: ss, n + 1, _, _, ⟨h1, h2, h3⟩ => ⟨h1, h2, orderedIn_take ss n h3⟩

theorem orderedIn_allowed (l : Option Int) {ss : List Span} {a b : Int} (h : OrderedIn a b ss) :
    OrderedIn a b (allowed l ss) := by
  unfold allowed
  cases l with
  | none => exact h
  | some n => exact orderedIn_take ss _ h

/-- **C50.** Keeping all boundaries, the results of `Split` tile the Ito. -/
theorem C50_tiles_all (c : SplitCfg) (x : FIto α) (hv : x.Valid) (seps : List (FIto α))
    (ho : OrderedIn x.start x.stop (seps.map FIto.span)) (hr : c.retention = .all)
    (hz : c.zeroSplit = true) :
    ∃ out, c.split x ⟨seps, none⟩ = .ok out ∧ Tiles x.start x.stop (out.map FIto.span) := by
  obtain ⟨out, h1, h2, h3, -⟩ := C50_split c x hv seps ho
  refine ⟨out, h1, ?_⟩
  by_cases hu : allowed c.limit (seps.map FIto.span) = []
  · rw [h2 hu, if_pos hz]
    exact ⟨rfl, hv.2.1, rfl⟩
  · rw [h3 hu, hr]
    exact tiles_nonEmpty (tiles_interleave _ (orderedIn_allowed _ ho))

/-- **C50.** Keeping boundaries as prefixes, the results tile the Ito from the first boundary on: what is
before the first boundary is dropped. -/
theorem C50_tiles_leading (c : SplitCfg) (x : FIto α) (hv : x.Valid) (seps : List (FIto α))
    (ho : OrderedIn x.start x.stop (seps.map FIto.span)) (hr : c.retention = .leading) (s : Span)
    (hs : (allowed c.limit (seps.map FIto.span)).head? = some s) :
    ∃ out, c.split x ⟨seps, none⟩ = .ok out ∧ Tiles s.start x.stop (out.map FIto.span) := by
  obtain ⟨out, h1, -, h3, -⟩ := C50_split c x hv seps ho
  refine ⟨out, h1, ?_⟩
  have ho' := orderedIn_allowed c.limit ho
  cases hu : allowed c.limit (seps.map FIto.span) with
  | nil => rw [hu] at hs; simp at hs
  | cons s' ss =>
    rw [hu] at hs ho'
    simp only [List.head?_cons, Option.some.injEq] at hs
    subst hs
    rw [h3 (by rw [hu]; simp), hr, hu]
    exact tiles_nonEmpty (tiles_leading ss s' ho')

/-- **C50.** Keeping boundaries as suffixes, the results tile the Ito up to the end of the last boundary:
what is after the last boundary is dropped. -/
theorem C50_tiles_trailing (c : SplitCfg) (x : FIto α) (hv : x.Valid) (seps : List (FIto α))
    (ho : OrderedIn x.start x.stop (seps.map FIto.span)) (hr : c.retention = .trailing) (s : Span)
    (hs : (allowed c.limit (seps.map FIto.span)).getLast? = some s) :
    ∃ out, c.split x ⟨seps, none⟩ = .ok out ∧ Tiles x.start s.stop (out.map FIto.span) := by
  obtain ⟨out, h1, -, h3, -⟩ := C50_split c x hv seps ho
  refine ⟨out, h1, ?_⟩
  have hu : allowed c.limit (seps.map FIto.span) ≠ [] := by
    intro h; rw [h] at hs; simp at hs
  rw [h3 hu, hr]
  have := tiles_trailing _ (orderedIn_allowed c.limit ho)
  unfold lastStop at this
  rw [hs] at this
  exact tiles_nonEmpty this

/-- **C50.** An exception of the splitter, if it comes before the limit is reached, is the exception of
`Split`, which then yields nothing. -/
theorem C50_raises (c : SplitCfg) (x : FIto α) (seps : List (FIto α)) (e : PyErr)
    (hl : ∀ n, c.limit = some n → (seps.length : Int) ≤ n ∧ 0 < n) :
    c.split x ⟨seps, some e⟩ = .error e := by
  have key : ∀ (seps : List (FIto α)) (count : Int) (p : Option (FIto α)),
      (∀ n, c.limit = some n → count + (seps.length : Int) ≤ n) →
      c.loop x count p seps (some e) = .error e := by
    intro seps
    induction seps with
    | nil => intro count p _; cases p <;> rfl
    | cons s seps ih =>
      intro count p h
      have hm : c.more count = true := by
        unfold SplitCfg.more
        cases hc : c.limit with
        | none => rfl
        | some n => have := h n hc; simp only [List.length_cons] at this; simp; omega
      rw [SplitCfg.loop, if_pos hm]
      simp only
      rw [ih (count + 1) (some s) (fun n hc => by
        have := h n hc; simp only [List.length_cons] at this; omega)]
  unfold SplitCfg.split
  rw [if_neg (fun h => by have := (hl 0 h.1).2; omega)]
  simp only
  rw [key seps 0 none (fun n hc => by have := hl n hc; omega)]

section Examples
private def exIto : FIto Nat := ⟨[0, 0, 1, 9, 2, 9, 9, 3, 0, 0], ⟨2, 8⟩, none⟩
private def exSep (a b : Int) : FIto Nat := ⟨exIto.string, ⟨a, b⟩, some "sep"⟩
private def exSeps : List (FIto Nat) := [exSep 3 4, exSep 5 6, exSep 6 7]
example : exIto.Valid ∧ OrderedIn exIto.start exIto.stop (exSeps.map FIto.span) := by
  simp [FIto.Valid, OrderedIn, exIto, exSeps, exSep, FIto.start, FIto.stop]
private def exSpans (r : Except PyErr (List (FIto Nat))) : List Span :=
  match r with
  | .ok l => l.map FIto.span
  | .error _ => []
example : exSpans (SplitCfg.split {} exIto ⟨exSeps, none⟩) = [⟨2, 3⟩, ⟨4, 5⟩, ⟨7, 8⟩] := by decide
example : exSpans (SplitCfg.split { retention := .all } exIto ⟨exSeps, none⟩) =
    [⟨2, 3⟩, ⟨3, 4⟩, ⟨4, 5⟩, ⟨5, 6⟩, ⟨6, 7⟩, ⟨7, 8⟩] := by decide
example : exSpans (SplitCfg.split { retention := .leading } exIto ⟨exSeps, none⟩) =
    [⟨3, 5⟩, ⟨5, 6⟩, ⟨6, 8⟩] := by decide
example : exSpans (SplitCfg.split { retention := .trailing, limit := some 2 } exIto ⟨exSeps, none⟩) =
    [⟨2, 4⟩, ⟨4, 6⟩] := by decide
example : (allowed (some 2) (exSeps.map FIto.span)).head? = some ⟨3, 4⟩ ∧
    (allowed (some 2) (exSeps.map FIto.span)).getLast? = some ⟨5, 6⟩ := by decide
example : SplitCfg.split { limit := some 3 } exIto ⟨exSeps, some .valueError⟩ = .error .valueError :=
  C50_raises _ _ _ _ (by intro n hn; simp only [Option.some.injEq] at hn; subst hn; decide)
end Examples

/-! ### C52: `Nuco` -/

/-- **C52.** `Nuco` yields nothing iff every itorator yields nothing; otherwise what it yields, and how it
ends, is what the first itorator that does not end empty-handed yields, and how that one ends. -/
theorem C52_nuco {τ : Type} (runs : List (Run τ)) :
    ((∀ r ∈ runs, r = ⟨[], none⟩) ∧ nuco runs = ⟨[], none⟩) ∨
    ∃ before r after, runs = before ++ r :: after ∧ (∀ q ∈ before, q = ⟨[], none⟩) ∧
      r ≠ ⟨[], none⟩ ∧ nuco runs = r := by
  induction runs with
  | nil => left; simp [nuco, Run.done]
  | cons r rs ih =>
    obtain ⟨out, exc⟩ := r
    cases out with
    | cons x xs =>
      right
      exact ⟨[], _, rs, rfl, by simp, by simp, rfl⟩
    | nil =>
      cases exc with
      | some e =>
        right
        exact ⟨[], _, rs, rfl, by simp, by simp, rfl⟩
      | none =>
        rcases ih with ⟨h1, h2⟩ | ⟨b, r, a, h1, h2, h3, h4⟩
        · left
          refine ⟨?_, h2⟩
          intro q hq
          rcases List.mem_cons.1 hq with rfl | hq
          · rfl
          · exact h1 q hq
        · right
          refine ⟨⟨[], none⟩ :: b, r, a, by rw [h1]; rfl, ?_, h3, h4⟩
          intro q hq
          rcases List.mem_cons.1 hq with rfl | hq
          · rfl
          · exact h2 q hq

example : nuco [⟨[], none⟩, ⟨[1, 2], none⟩, ⟨[3], none⟩] = (⟨[1, 2], none⟩ : Run Nat) := by decide
example : nuco [⟨[], none⟩, ⟨[], some .valueError⟩, ⟨[3], none⟩] = (⟨[], some .valueError⟩ : Run Nat) := by
  decide

/-! ### C53: `Invert` -/

/-- Childless clone. -/
theorem cloneWith_childless (len : Nat) (n : Node) (hk : n.kids = []) (d : Option String) {a b : Int}
    {st en : Option Int} (e1 : st.getD n.start = a) (e2 : en.getD n.stop = b)
    (h0 : 0 ≤ a) (hab : a ≤ b) (hb : b ≤ len) :
    n.cloneWith len st en (some d) = .ok (.mk ⟨a, b⟩ d n.vf []) := by
  obtain ⟨m, rfl⟩ := Int.eq_ofNat_of_zero_le h0
  obtain ⟨k, rfl⟩ := Int.eq_ofNat_of_zero_le (Int.le_trans h0 hab)
  unfold Node.cloneWith
  dsimp only
  rw [e1, e2, hk, if_pos rfl, fromIndices_span (by omega) (by omega) (by omega)]
  rfl

theorem invertLoop_spec (len : Nat) (n : Node) (hk : n.kids = []) (desc : Option String)
    (h0 : 0 ≤ n.start) (h1 : n.start < n.stop) (h2 : n.stop ≤ len) :
    ∀ (is : List Span) (start : Int) (last : Option Span), n.start ≤ start →
      OrderedIn start n.stop is → (∀ i, last = some i → i.stop = start) →
      (last = none → start = n.start) →
      ∃ gaps, invertLoop len n desc start last is none =
        ⟨gaps.map (fun g => .mk g desc n.vf []), none⟩ ∧ Complement start n.stop is gaps
  | [], start, last, h3, ho, h4, h5 => by
    have ho : start ≤ n.stop := ho
    simp only [invertLoop, invertTail]
    by_cases hs : start = n.start
    · rw [if_pos hs, cloneWith_childless len n hk desc (a := n.start) (b := n.stop) rfl rfl h0
        (by omega) h2]
      refine ⟨[⟨n.start, n.stop⟩], rfl, ?_⟩
      rw [hs]
      exact Complement.tail h1 (by simp)
    · rw [if_neg hs]
      cases last with
      | none => exact absurd (h5 rfl) hs
      | some i =>
        have e := h4 i rfl
        simp only
        by_cases hlt : i.stop < n.stop
        · rw [if_pos hlt, cloneWith_childless len n hk desc (a := i.stop) (b := n.stop) rfl rfl
            (by omega) (by omega) h2]
          refine ⟨[⟨i.stop, n.stop⟩], rfl, ?_⟩
          rw [← e]
          exact Complement.tail hlt (by simp)
        · rw [if_neg hlt]
          exact ⟨[], rfl, Complement.empty _ (by omega)⟩
  | i :: is, start, last, h3, ho, h4, h5 => by
    obtain ⟨g1, g2, g3⟩ := ho
    have g4 := orderedIn_le g3
    obtain ⟨gaps, e, hc⟩ := invertLoop_spec len n hk desc h0 h1 h2 is i.stop (some i) (by omega) g3
      (by intro j hj; rw [Option.some.injEq] at hj; rw [hj]) (by simp)
    simp only [invertLoop]
    by_cases hlt : start < i.start
    · rw [if_pos hlt, cloneWith_childless len n hk desc (a := start) (b := i.start) rfl rfl
        (by omega) (by omega) (by omega)]
      refine ⟨⟨start, i.start⟩ :: gaps, ?_, ?_⟩
      · simp only [e, Run.yield, List.map_cons]
      · have hall : ∀ {l : List Span} {a b : Int}, OrderedIn a b l → ∀ d ∈ l, a ≤ d.start := by
          intro l
          induction l with
          | nil => intro a b _ d hd; simp at hd
          | cons s l ih =>
            intro a b ⟨q1, q2, q3⟩ d hd
            rcases List.mem_cons.1 hd with rfl | hd
            · exact q1
            · have := ih q3 d hd; omega
        by_cases hlt2 : i.start < n.stop
        · exact Complement.gap hlt g2 hlt2 (fun d hd => by have := hall g3 d hd; omega) hc
        · -- a zero-width boundary at the end
          refine ⟨?_, ?_, ?_⟩
          · intro g hg
            rcases List.mem_cons.1 hg with rfl | hg
            · exact ⟨Int.le_refl _, hlt, by dsimp only; omega⟩
            · have := hc.inside g hg; omega
          · refine List.pairwise_cons.2 ⟨fun g hg => ?_, hc.ordered⟩
            have := hc.inside g hg; omega
          · intro k
            have hg : gaps = [] := by
              cases gaps with
              | nil => rfl
              | cons g gs => have := hc.inside g List.mem_cons_self; omega
            subst hg
            simp only [List.mem_singleton, exists_eq_left, Covers]
            constructor
            · rintro ⟨p, q⟩
              refine ⟨p, by omega, fun d hd hcov => ?_⟩
              rcases List.mem_cons.1 hd with rfl | hd
              · omega
              · have := hall g3 d hd; omega
            · rintro ⟨p, q, _⟩
              exact ⟨p, by omega⟩
    · rw [if_neg hlt]
      exact ⟨gaps, e, Complement.covered (by omega) (by omega) hc⟩

/-- **C53.** On a non-empty Ito without children, `Invert` yields exactly the parts which the results of
the inner itorator (in order, disjoint, inside the Ito) do not cover: non-empty, in order, with the
given `desc`. -/
theorem C53_complement_partial (len : Nat) (n : Node) (hk : n.kids = []) (desc : Option String)
    (h0 : 0 ≤ n.start) (h1 : n.start < n.stop) (h2 : n.stop ≤ len) (is : List Span)
    (ho : OrderedIn n.start n.stop is) :
    ∃ gaps, invert len n desc ⟨is, none⟩ = ⟨gaps.map (fun g => .mk g desc n.vf []), none⟩ ∧
      Complement n.start n.stop is gaps :=
  invertLoop_spec len n hk desc h0 h1 h2 is n.start none (Int.le_refl _) ho (by simp) (fun _ => rfl)

/-- **C53.** A zero-width Ito is yielded itself, whether or not the inner itorator finds (at it) anything:
there is nothing to cover, but one (empty) result. -/
theorem C53_zero_width (len : Nat) (n : Node) (hk : n.kids = []) (desc : Option String)
    (h0 : 0 ≤ n.start) (h1 : n.start = n.stop) (h2 : n.stop ≤ len) (is : List Span)
    (ho : OrderedIn n.start n.stop is) :
    invert len n desc ⟨is, none⟩ = ⟨[.mk ⟨n.start, n.stop⟩ desc n.vf []], none⟩ := by
  have key : ∀ (is : List Span) (last : Option Span), OrderedIn n.start n.stop is →
      invertLoop len n desc n.start last is none = ⟨[.mk ⟨n.start, n.stop⟩ desc n.vf []], none⟩ := by
    intro is
    induction is with
    | nil =>
      intro last _
      simp only [invertLoop, invertTail]
      rw [if_pos trivial, cloneWith_childless len n hk desc (a := n.start) (b := n.stop) rfl rfl h0
        (by omega) h2]
      rfl
    | cons i is ih =>
      intro last ⟨g1, g2, g3⟩
      have g4 := orderedIn_le g3
      have e : i.stop = n.start := by omega
      simp only [invertLoop]
      rw [if_neg (by omega), e]
      exact ih _ (by rw [e] at g3; exact g3)
  exact key is none ho

/-- **C53 fails for Itos with children**: the pieces are clones with all the children of the Ito, so
where a child is not in a piece, `Invert` raises instead of yielding the piece. -/
theorem C53_children_violated :
    ∃ (len : Nat) (n : Node) (is : List Span), TreeSpec.WF n ∧ n.stop ≤ len ∧
      OrderedIn n.start n.stop is ∧ invert len n none ⟨is, none⟩ = ⟨[], some .valueError⟩ :=
  ⟨10, .mk ⟨0, 10⟩ none none [.mk ⟨6, 7⟩ none none []], [⟨2, 4⟩],
    .mk (by decide) (by decide) ⟨by decide, by decide⟩ (by
      intro k hk
      rw [List.mem_singleton] at hk
      subst hk
      exact .mk (by decide) (by decide) ⟨by decide, by decide⟩ (by simp)),
    by decide, ⟨by decide, by decide, show (4 : Int) ≤ 10 by decide⟩, by decide⟩

example : invert 10 (.mk ⟨1, 9⟩ none none []) (some "g") ⟨[⟨1, 2⟩, ⟨4, 4⟩, ⟨6, 8⟩], none⟩ =
    ⟨[.mk ⟨2, 4⟩ (some "g") none [], .mk ⟨4, 6⟩ (some "g") none [], .mk ⟨8, 9⟩ (some "g") none []],
      none⟩ := by decide

/-! ### C54: `WindowedJoin` -/

theorem windowedLoop_spec {τ : Type} (n : Nat) (pred : List τ → Bool) (join : List τ → Except PyErr τ) :
    ∀ (xs w : List τ), w.length < n → ∃ gs, Windows n pred (w ++ xs) gs ∧
      windowedLoop n pred join w xs none = ⟨(results join gs).1, (results join gs).2⟩
  | [], w, hw => by
    refine ⟨w.map (fun x => ([x], false)), by rw [List.append_nil]; exact .short hw, ?_⟩
    have e : ∀ w : List τ, results join (w.map (fun x => ([x], false))) = (w, none) := by
      intro w
      induction w with
      | nil => rfl
      | cons x w ih => simp only [List.map_cons, results, ih, List.singleton_append]
    rw [e]; rfl
  | x :: xs, w, hw => by
    rw [windowedLoop]
    have hl : (w ++ [x]).length = w.length + 1 := by simp
    have ea : w ++ x :: xs = (w ++ [x]) ++ xs := by simp
    by_cases hn : (w ++ [x]).length = n
    · rw [if_pos hn]
      by_cases hp : pred (w ++ [x]) = true
      · rw [if_pos hp]
        obtain ⟨gs, h1, h2⟩ := windowedLoop_spec n pred join xs [] (by simp; omega)
        rw [List.nil_append] at h1
        refine ⟨(w ++ [x], true) :: gs, by rw [ea]; exact .joined hn hp h1, ?_⟩
        cases hj : join (w ++ [x]) with
        | error e => simp only [results, hj]; rfl
        | ok y => simp only [results, hj, h2]; rfl
      · rw [if_neg hp]
        cases hws : w ++ [x] with
        | nil => simp at hws
        | cons v ws =>
          have hwl : ws.length < n := by
            rw [hws] at hn; simp only [List.length_cons] at hn; omega
          obtain ⟨gs, h1, h2⟩ := windowedLoop_spec n pred join xs ws hwl
          refine ⟨([v], false) :: gs, ?_, ?_⟩
          · rw [ea, hws, List.cons_append]
            refine .single (by rw [hws] at hn; simp only [List.length_cons, List.length_append,
              List.cons_append] at hn ⊢; omega) ?_ h1
            have : (v :: (ws ++ xs)).take n = v :: ws := by
              rw [← List.cons_append, ← hws, ← hn, List.take_left]
            rw [this, ← hws]
            simpa using hp
          · simp only [h2, results]; rfl
    · rw [if_neg hn]
      obtain ⟨gs, h1, h2⟩ := windowedLoop_spec n pred join xs (w ++ [x]) (by omega)
      exact ⟨gs, by rw [ea]; exact h1, h2⟩

/-- **C54.** For every window size of at least 2, predicate and finite stream, `WindowedJoin` produces
the windowed grouping of the stream: going from left to right, the next `window_size` Itos are joined
if they satisfy the predicate, else the next one is passed on; if fewer are left, they are passed on. -/
theorem C54_windows {τ : Type} (size : Int) (hs : 2 ≤ size) (pred : List τ → Bool)
    (join : List τ → Except PyErr τ) (xs : List τ) :
    ∃ gs, Windows size.toNat pred xs gs ∧
      windowedJoin size pred join ⟨xs, none⟩ = ⟨(results join gs).1, (results join gs).2⟩ := by
  unfold windowedJoin
  rw [if_neg (by omega)]
  exact windowedLoop_spec size.toNat pred join xs [] (by simp; omega)

/-- **C54.** In a windowed grouping every input is in exactly one group, in order; joined groups have
exactly the window's size and satisfy the predicate, and the others are single Itos. -/
theorem C54_partition {τ : Type} {n : Nat} {pred : List τ → Bool} {xs : List τ}
    {gs : List (List τ × Bool)} (h : Windows n pred xs gs) :
    (gs.map Prod.fst).flatten = xs ∧
      ∀ g ∈ gs, (g.2 = true → g.1.length = n ∧ pred g.1 = true) ∧ (g.2 = false → g.1.length = 1) := by
  induction h with
  | @short xs h =>
    constructor
    · rw [List.map_map]
      clear h
      induction xs with
      | nil => rfl
      | cons x xs ih => simpa using ih
    · intro g hg
      obtain ⟨x, _, rfl⟩ := List.mem_map.1 hg
      simp
  | joined h1 h2 _ ih =>
    refine ⟨by simp [ih.1], ?_⟩
    intro g hg
    rcases List.mem_cons.1 hg with rfl | hg
    · simp [h1, h2]
    · exact ih.2 g hg
  | single h1 h2 _ ih =>
    refine ⟨by simp [ih.1], ?_⟩
    intro g hg
    rcases List.mem_cons.1 hg with rfl | hg
    · simp
    · exact ih.2 g hg

/-- **C54.** The windowed grouping of a stream is unique. -/
theorem C54_unique {τ : Type} {n : Nat} {pred : List τ → Bool} {xs : List τ}
    {gs gs' : List (List τ × Bool)} (h : Windows n pred xs gs) (h' : Windows n pred xs gs') :
    gs = gs' := by
  induction h generalizing gs' with
  | @short xs h =>
    cases h' with
    | short => rfl
    | joined h1 => exfalso; simp only [List.length_append] at h; omega
    | single h1 => exfalso; omega
  | @joined w xs gs h1 h2 _ ih =>
    generalize hz : w ++ xs = zs at h'
    cases h' with
    | short h => exfalso; rw [← hz] at h; simp only [List.length_append] at h; omega
    | joined h3 h4 h5 =>
      obtain ⟨rfl, rfl⟩ := List.append_inj hz (by omega)
      rw [ih h5]
    | single h3 h4 h5 =>
      exfalso
      rw [← hz, ← h1, List.take_left, h2] at h4
      cases h4
  | @single x xs gs h1 h2 _ ih =>
    generalize hz : x :: xs = zs at h'
    cases h' with
    | short h => exfalso; rw [hz] at h1; omega
    | joined h3 h4 h5 =>
      exfalso
      rw [hz, ← h3, List.take_left, h4] at h2
      cases h2
    | single h3 h4 h5 =>
      obtain ⟨rfl, rfl⟩ := List.cons.inj hz
      rw [ih h5]

/-- **C54.** A window size below 2 is a `ValueError`. -/
theorem C54_size {τ : Type} (size : Int) (hs : size < 2) (pred : List τ → Bool)
    (join : List τ → Except PyErr τ) (r : Run τ) :
    windowedJoin size pred join r = ⟨[], some .valueError⟩ := by
  unfold windowedJoin
  rw [if_pos hs]
  rfl

section Examples
private def exPred (l : List Nat) : Bool := decide (l.sum = 10)
private def exJoin (l : List Nat) : Except PyErr Nat := .ok (l.sum * 100)
example : windowedJoin 2 exPred exJoin ⟨[1, 9, 9, 1, 2, 3, 7, 5], none⟩ =
    ⟨[1000, 1000, 2, 1000, 5], none⟩ := by decide
end Examples

/-! ### C55: `StackedReduce` -/

/-- The pop predicate as the loop uses it: absent, it never pops. -/
def popOf {τ : Type} (pop : Option (List τ → τ → Bool)) : List τ → τ → Bool :=
  match pop with
  | some p => p
  | none => fun _ _ => false

theorem stackedLoop_spec {τ : Type} (reduce : List τ → Except PyErr τ) (push : List τ → τ → Bool)
    (pop : Option (List τ → τ → Bool)) :
    ∀ (xs : List τ),
      (∃ gs, Stacks push (popOf pop) xs gs ∧
        stackedLoop reduce push pop [] xs none = ⟨(results reduce gs).1, (results reduce gs).2⟩) ∧
      (∀ x ys, push [] x = true →
        (∀ i, (h : i < ys.length) → popOf pop (x :: ys.take i) ys[i] = false) →
        ∃ gs, Stacks push (popOf pop) (x :: (ys ++ xs)) gs ∧
          stackedLoop reduce push pop (x :: ys) xs none =
            ⟨(results reduce gs).1, (results reduce gs).2⟩)
  | [] => by
    refine ⟨⟨[], .done, rfl⟩, ?_⟩
    intro x ys h1 h2
    refine ⟨[(x :: ys, true)], .group h1 h2 (by simp) .done, ?_⟩
    simp only [stackedLoop, List.length_cons, Nat.zero_lt_succ, gt_iff_lt, if_true, results]
    cases reduce (x :: ys) <;> rfl
  | z :: xs => by
    obtain ⟨⟨gs, i1, i2⟩, i3⟩ := stackedLoop_spec reduce push pop xs
    have fresh : ∃ gs, Stacks push (popOf pop) (z :: xs) gs ∧
        (if push [] z then stackedLoop reduce push pop [z] xs none
          else .yield z (stackedLoop reduce push pop [] xs none)) =
          ⟨(results reduce gs).1, (results reduce gs).2⟩ := by
      by_cases hp : push [] z = true
      · rw [if_pos hp]
        exact i3 z [] hp (by simp)
      · rw [if_neg hp]
        refine ⟨([z], false) :: gs, .pass (by simpa using hp) i1, ?_⟩
        rw [i2]
        rfl
    refine ⟨?_, ?_⟩
    · obtain ⟨gs', h1, h2⟩ := fresh
      refine ⟨gs', h1, ?_⟩
      rw [stackedLoop.eq_def]
      simp only [List.length_nil, gt_iff_lt, Nat.lt_irrefl, if_false]
      exact h2
    · intro x ys h1 h2
      by_cases hp : popOf pop (x :: ys) z = true
      · obtain ⟨gs', g1, g2⟩ := fresh
        refine ⟨(x :: ys, true) :: gs', .group h1 h2 (by
          intro y hy
          simp only [List.head?_cons, Option.some.injEq] at hy
          rw [← hy]; exact hp) g1, ?_⟩
        rw [stackedLoop.eq_def]
        cases pop with
        | none => exact absurd hp (by simp [popOf])
        | some p =>
          have hp' : p (x :: ys) z = true := hp
          simp only [List.length_cons, Nat.zero_lt_succ, gt_iff_lt, if_true, hp', results, g2]
          cases reduce (x :: ys) <;> rfl
      · have e : x :: (ys ++ z :: xs) = x :: ((ys ++ [z]) ++ xs) := by simp
        obtain ⟨gs', g1, g2⟩ := i3 x (ys ++ [z]) h1 (by
          intro i hi
          simp only [List.length_append, List.length_cons, List.length_nil] at hi
          by_cases hlt : i < ys.length
          · rw [List.take_append_of_le_length (by omega), List.getElem_append_left hlt]
            exact h2 i hlt
          · have : i = ys.length := by omega
            subst this
            rw [List.take_left]
            simpa using hp)
        refine ⟨gs', by rw [e]; exact g1, ?_⟩
        rw [stackedLoop.eq_def]
        cases pop with
        | none =>
          simp only [List.length_cons, Nat.zero_lt_succ, gt_iff_lt, if_true, Bool.false_eq_true,
            if_false]
          exact g2
        | some p =>
          have hp' : ¬ p (x :: ys) z = true := hp
          simp only [List.length_cons, Nat.zero_lt_succ, gt_iff_lt, if_true, if_neg hp']
          exact g2

/-- **C55.** For every finite stream, `StackedReduce` produces the stacked grouping: an Ito the push
predicate rejects is passed on; one it accepts starts a group, which takes the following Itos up to the
first at which the pop predicate holds; that one is then treated like a first.  A group still open at
the end is reduced.  Without a pop predicate nothing pops. -/
theorem C55_stacks {τ : Type} (reduce : List τ → Except PyErr τ) (push : List τ → τ → Bool)
    (pop : Option (List τ → τ → Bool)) (xs : List τ) :
    ∃ gs, Stacks push (popOf pop) xs gs ∧
      stackedReduce reduce push pop ⟨xs, none⟩ = ⟨(results reduce gs).1, (results reduce gs).2⟩ :=
  (stackedLoop_spec reduce push pop xs).1

/-- **C55.** In a stacked grouping every input is in exactly one group, in order; reduced groups start at
an Ito accepted by the push predicate, and others are single Itos which it rejects. -/
theorem C55_partition {τ : Type} {push pop : List τ → τ → Bool} {xs : List τ}
    {gs : List (List τ × Bool)} (h : Stacks push pop xs gs) :
    (gs.map Prod.fst).flatten = xs ∧
      ∀ g ∈ gs, ∃ x ys, g.1 = x :: ys ∧ push [] x = g.2 ∧ (g.2 = false → ys = []) := by
  induction h with
  | done => simp
  | @pass x xs gs h1 _ ih =>
    refine ⟨by simp [ih.1], ?_⟩
    intro g hg
    rcases List.mem_cons.1 hg with rfl | hg
    · exact ⟨x, [], rfl, h1, fun _ => rfl⟩
    · exact ih.2 g hg
  | @group x ys zs gs h1 _ _ _ ih =>
    refine ⟨by simp [ih.1], ?_⟩
    intro g hg
    rcases List.mem_cons.1 hg with rfl | hg
    · exact ⟨x, ys, rfl, h1, by simp⟩
    · exact ih.2 g hg

/-- Of two ways to take a group, neither is shorter. -/
theorem group_not_shorter {τ : Type} {pop : List τ → τ → Bool} {x : τ} {ys ys' zs zs' : List τ}
    (e : ys ++ zs = ys' ++ zs') (h2 : ∀ z, zs.head? = some z → pop (x :: ys) z = true)
    (h3 : ∀ i, (h : i < ys'.length) → pop (x :: ys'.take i) ys'[i] = false) :
    ys'.length ≤ ys.length := by
  apply Nat.le_of_not_lt
  intro hlt
  have ht : ys'.take ys.length = ys := by
    have := congrArg (List.take ys.length) e
    rw [List.take_left, List.take_append_of_le_length (by omega)] at this
    exact this.symm
  have hz : zs.head? = some ys'[ys.length] := by
    have := congrArg (fun l => l[ys.length]?) e
    simp only [List.getElem?_append_right (Nat.le_refl ys.length), Nat.sub_self,
      List.getElem?_append_left hlt, List.getElem?_eq_getElem hlt] at this
    rw [List.head?_eq_getElem?]
    exact this
  have a := h2 _ hz
  have b := h3 ys.length hlt
  rw [ht, a] at b
  cases b

/-- **C55.** The stacked grouping of a stream is unique. -/
theorem C55_unique {τ : Type} {push pop : List τ → τ → Bool} {xs : List τ}
    {gs gs' : List (List τ × Bool)} (h : Stacks push pop xs gs) (h' : Stacks push pop xs gs') :
    gs = gs' := by
  induction h generalizing gs' with
  | done => cases h'; rfl
  | pass h1 _ ih =>
    cases h' with
    | pass _ h => rw [ih h]
    | group h2 => rw [h1] at h2; cases h2
  | @group x ys zs gs h1 h2 h3 _ ih =>
    generalize hw : x :: (ys ++ zs) = ws at h'
    cases h' with
    | done => cases hw
    | pass h4 =>
      obtain ⟨rfl, _⟩ := List.cons.inj hw
      rw [h1] at h4; cases h4
    | @group x' ys' zs' _ h4 h5 h6 h7 =>
      obtain ⟨rfl, e⟩ := List.cons.inj hw
      have l1 := group_not_shorter e h3 h5
      have l2 := group_not_shorter e.symm h6 h2
      obtain ⟨rfl, rfl⟩ := List.append_inj e (by omega)
      rw [ih h7]

section Examples
private def exPush (_ : List Nat) (x : Nat) : Bool := decide (x = 1)
private def exPop (s : List Nat) (x : Nat) : Bool := decide (x = 1) || decide (s.length = 3)
example : stackedReduce exJoin exPush (some exPop) ⟨[5, 1, 2, 1, 1, 2, 3, 4, 1, 9], none⟩ =
    ⟨[5, 300, 100, 600, 4, 1000], none⟩ := by decide
example : stackedReduce exJoin exPush none ⟨[5, 1, 2, 1], none⟩ = ⟨[5, 400], none⟩ := by decide
end Examples

end Pawpaw.Props
