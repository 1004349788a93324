import Verif.Model.Gaps
import Verif.Lemmas.Slice
import Verif.Lemmas.Find
import Verif.Spec.Spans
/-!
# C16: `from_gaps`; C20: `from_substrings`
-/
set_option linter.unusedSectionVars false
namespace Pawpaw.Props
open Pawpaw PyStr SpanSpec
variable {α : Type} [DecidableEq α]

/-- A `str` is always a valid basis; an `Ito` when its span lies in its string (C01). -/
def SrcValid (src : Src α) : Prop := 0 ≤ src.start ∧ src.start ≤ src.stop ∧ src.stop ≤ src.basis.length

theorem ofStr_span (s : List α) {a b : Int} (h0 : 0 ≤ a) (h1 : a ≤ b) (h2 : b ≤ s.length)
    (d : Option String) : FIto.ofStr s (some a) (some b) d = ⟨s, ⟨a, b⟩, d⟩ := by
  obtain ⟨m, rfl⟩ := Int.eq_ofNat_of_zero_le h0
  obtain ⟨n, rfl⟩ := Int.eq_ofNat_of_zero_le (show 0 ≤ b by omega)
  unfold FIto.ofStr
  rw [fromIndices_eq, adjStart_some_nat, adjEnd_some_nat _ _ (by omega)]
  congr 2 <;> omega

theorem _root_.SpanSpec.Complement.covered {a b : Int} {c : Span} {rest gaps : List Span} (h1 : c.start ≤ a)
    (h2 : a ≤ c.stop) (h : Complement c.stop b rest gaps) : Complement a b (c :: rest) gaps := by
  refine ⟨fun g hg => ?_, h.ordered, fun k => ?_⟩
  · have := h.inside g hg; omega
  · rw [h.exact k]
    simp only [List.forall_mem_cons, Covers]
    constructor
    · rintro ⟨p, q, r⟩; exact ⟨by omega, q, by omega, r⟩
    · rintro ⟨p, q, r, s⟩; exact ⟨by omega, q, s⟩

theorem _root_.SpanSpec.Complement.gap {a b : Int} {c : Span} {rest gaps : List Span} (h0 : a < c.start)
    (h1 : c.start ≤ c.stop) (h2 : c.start < b) (h3 : ∀ d ∈ rest, c.start ≤ d.start)
    (h : Complement c.stop b rest gaps) : Complement a b (c :: rest) (⟨a, c.start⟩ :: gaps) := by
  refine ⟨fun g hg => ?_, ?_, fun k => ?_⟩
  · rw [List.mem_cons] at hg
    rcases hg with rfl | hg
    · exact ⟨Int.le_refl _, h0, by (try dsimp only); omega⟩
    · have := h.inside g hg; omega
  · refine List.pairwise_cons.mpr ⟨fun g hg => ?_, h.ordered⟩
    have := h.inside g hg
    dsimp only; omega
  · rw [List.forall_mem_cons]
    simp only [List.mem_cons, or_and_right, exists_or, exists_eq_left]
    rw [h.exact k]
    unfold Covers
    constructor
    · rintro (⟨p, q⟩ | ⟨p, q, r⟩)
      · dsimp only at p q
        refine ⟨p, by omega, by omega, fun d hd hc => ?_⟩
        have := h3 d hd; omega
      · exact ⟨by omega, q, by omega, r⟩
    · rintro ⟨p, q, r, s⟩
      by_cases hk : k < c.start
      · exact Or.inl ⟨p, hk⟩
      · exact Or.inr ⟨by omega, q, s⟩

theorem _root_.SpanSpec.Complement.tail {a b : Int} {cover : List Span} (h0 : a < b) (h : ∀ d ∈ cover, b ≤ d.start) :
    Complement a b cover [⟨a, b⟩] := by
  refine ⟨by simpa using h0, by simp, fun k => ?_⟩
  simp only [List.mem_singleton, exists_eq_left, Covers]
  constructor
  · rintro ⟨p, q⟩; exact ⟨p, q, fun d hd hc => by have := h d hd; omega⟩
  · rintro ⟨p, q, _⟩; exact ⟨p, q⟩

theorem _root_.SpanSpec.Complement.empty {a b : Int} (cover : List Span) (h0 : b ≤ a) : Complement a b cover [] :=
  ⟨by simp, by simp, fun k => by
    constructor
    · rintro ⟨g, hg, _⟩; simp at hg
    · rintro ⟨p, q, _⟩; omega⟩

theorem gapsTail_spec (src : Src α) (hv : SrcValid src) (desc : Option String) (last : Span)
    (h1 : src.start ≤ last.stop) (cover : List Span) (hc : ∀ d ∈ cover, src.stop ≤ d.start) :
    (gapsTail src desc last).exc = none ∧
    Complement last.stop src.stop cover ((gapsTail src desc last).out.map FIto.span) ∧
    ∀ g ∈ (gapsTail src desc last).out, g.string = src.basis ∧ g.desc = desc := by
  obtain ⟨v1, v2, v3⟩ := hv
  unfold gapsTail
  split
  · rw [ofStr_span _ (by omega) (by omega) (by omega)]
    refine ⟨rfl, ?_, by simp [Run.yield, Run.done]⟩
    simpa [Run.yield, Run.done] using Complement.tail (by assumption) hc
  · exact ⟨rfl, Complement.empty _ (by omega), by simp [Run.done]⟩

theorem gapsLoop_spec (src : Src α) (hv : SrcValid src) (desc : Option String)
    (ngs : List (NonGap α)) (rs : List Span)
    (hres : ngs.map (NonGap.resolve src) = rs.map Except.ok) (last : Span)
    (hl : src.start ≤ last.stop) (hlast : last.start ≤ last.stop)
    (hmono : (last :: rs).Pairwise (fun s t => s.start ≤ t.start ∧ s.stop ≤ t.stop))
    (hspan : ∀ s ∈ rs, s.start ≤ s.stop) :
    (gapsLoop src desc false last ngs).exc = none ∧
    Complement last.stop src.stop rs ((gapsLoop src desc false last ngs).out.map FIto.span) ∧
    ∀ g ∈ (gapsLoop src desc false last ngs).out, g.string = src.basis ∧ g.desc = desc := by
  induction ngs generalizing rs last with
  | nil =>
    have : rs = [] := by simpa using hres.symm
    subst this
    unfold gapsLoop
    exact gapsTail_spec src hv desc last hl [] (by simp)
  | cons ng rest ih =>
    cases rs with
    | nil => simp at hres
    | cons cur rs =>
      simp only [List.map_cons, List.cons.injEq] at hres
      obtain ⟨hmono1, hmono2⟩ := List.pairwise_cons.mp hmono
      have hcur := hmono1 cur (by simp)
      have hsp := hspan cur (by simp)
      have ih' := ih rs hres.2 cur (by omega) hsp hmono2 (fun s hs => hspan s (by simp [hs]))
      unfold gapsLoop
      by_cases hend : last.stop < src.stop
      · rw [if_pos hend, hres.1]
        dsimp only
        rw [if_neg (by omega)]
        by_cases h1 : cur.start < last.stop
        · rw [if_pos h1]
          exact ⟨ih'.1, ih'.2.1.covered (by omega) (by omega), ih'.2.2⟩
        · rw [if_neg h1]
          by_cases h2 : cur.start = last.stop
          · rw [if_pos h2]
            simp only [Bool.false_eq_true, if_false]
            exact ⟨ih'.1, ih'.2.1.covered (by omega) (by omega), ih'.2.2⟩
          · rw [if_neg h2]
            have hrest : ∀ d ∈ rs, cur.start ≤ d.start := fun d hd =>
              ((List.pairwise_cons.mp hmono2).1 d hd).1
            by_cases h3 : cur.start ≥ src.stop
            · rw [if_pos h3]
              refine gapsTail_spec src hv desc last hl _ ?_
              intro d hd
              rw [List.mem_cons] at hd
              rcases hd with rfl | hd
              · exact h3
              · have := hrest d hd; omega
            · rw [if_neg h3]
              obtain ⟨v1, v2, v3⟩ := hv
              rw [ofStr_span _ (by omega) (by omega) (by omega)]
              refine ⟨ih'.1, ?_, ?_⟩
              · exact ih'.2.1.gap (by omega) hsp (by omega) hrest
              · intro g hg
                simp only [Run.yield, List.mem_cons] at hg
                rcases hg with rfl | hg
                · exact ⟨rfl, rfl⟩
                · exact ih'.2.2 g hg
      · rw [if_neg hend]
        unfold gapsTail
        rw [if_neg hend]
        exact ⟨rfl, Complement.empty _ (by omega), by simp [Run.done]⟩

/-- C16, partial: when the non-gaps (as absolute spans `rs`) are non-decreasing in start *and* stop and
none ends before the basis starts, `from_gaps` ends normally and yields exactly the complement.
Missing: a non-gap nested in an earlier one, or lying wholly before `src`, where the claim is false
(`C16_nested_violated`, `C16_before_violated`), or an empty basis with a non-gap after it
(`C16_empty_src_violated`). -/
theorem C16_from_gaps_partial (src : Src α) (hv : SrcValid src) (ngs : List (NonGap α))
    (rs : List Span) (hres : ngs.map (NonGap.resolve src) = rs.map Except.ok)
    (hmono : rs.Pairwise (fun s t => s.start ≤ t.start ∧ s.stop ≤ t.stop))
    (hspan : ∀ s ∈ rs, s.start ≤ s.stop ∧ src.start ≤ s.stop)
    (hne : src.start < src.stop ∨ ∀ s ∈ rs, s.start ≤ src.stop) (desc : Option String) :
    (fromGaps src ngs desc false).exc = none ∧
    Complement src.start src.stop rs ((fromGaps src ngs desc false).out.map FIto.span) ∧
    ∀ g ∈ (fromGaps src ngs desc false).out, g.string = src.basis ∧ g.desc = desc := by
  have hv' := hv
  obtain ⟨v1, v2, v3⟩ := hv
  cases ngs with
  | nil =>
    have : rs = [] := by simpa using hres.symm
    subst this
    unfold fromGaps
    dsimp only
    split
    · rw [ofStr_span _ (by omega) (by omega) (by omega)]
      refine ⟨rfl, ?_, by simp [Run.yield, Run.done]⟩
      simpa [Run.yield, Run.done] using Complement.tail (by assumption) (by simp)
    · exact ⟨rfl, Complement.empty _ (by omega), by simp [Run.done]⟩
  | cons ng rest =>
    cases rs with
    | nil => simp at hres
    | cons last rs =>
      simp only [List.map_cons, List.cons.injEq] at hres
      have hlast := hspan last (by simp)
      obtain ⟨i1, i2, i3⟩ := gapsLoop_spec src hv' desc rest rs hres.2 last hlast.2 hlast.1 hmono
        (fun s hs => (hspan s (by simp [hs])).1)
      have hrest : ∀ d ∈ rs, last.start ≤ d.start := fun d hd =>
        ((List.pairwise_cons.mp hmono).1 d hd).1
      unfold fromGaps
      dsimp only
      rw [hres.1]
      dsimp only
      by_cases h1 : src.start < last.start
      · rw [if_pos h1, ofStr_span _ (by omega) (by omega) (by omega)]
        refine ⟨i1, ?_, ?_⟩
        · by_cases h2 : last.start < src.stop
          · rw [show min last.start src.stop = last.start by omega]
            exact i2.gap h1 hlast.1 h2 hrest
          · rw [show min last.start src.stop = src.stop by omega]
            have hnil : (gapsLoop src desc false last rest).out.map FIto.span = [] := by
              cases hl : (gapsLoop src desc false last rest).out.map FIto.span with
              | nil => rfl
              | cons g gs =>
                have := i2.inside g (by rw [hl]; simp)
                omega
            simp only [Run.yield, List.map_cons, hnil]
            have hne' : src.start < src.stop := by
              rcases hne with hne | hne
              · exact hne
              · have := hne last (by simp); omega
            refine Complement.tail hne' ?_
            intro d hd
            rw [List.mem_cons] at hd
            rcases hd with rfl | hd
            · omega
            · have := hrest d hd; omega
        · intro g hg
          simp only [Run.yield, List.mem_cons] at hg
          rcases hg with rfl | hg
          · exact ⟨rfl, rfl⟩
          · exact i3 g hg
      · rw [if_neg h1]
        exact ⟨i1, i2.covered (by omega) hlast.2, i3⟩

theorem gapsTail_pos (src : Src α) (hv : SrcValid src) (desc : Option String) (last : Span)
    (h : 0 ≤ last.stop) : ∀ g ∈ (gapsTail src desc last).out, g.start < g.stop := by
  obtain ⟨v1, v2, v3⟩ := hv
  unfold gapsTail
  split
  · rw [ofStr_span _ (by omega) (by omega) (by omega)]
    simp only [Run.yield, Run.done, List.mem_singleton, forall_eq, FIto.start, FIto.stop]
    assumption
  · simp [Run.done]

theorem gapsLoop_zw (src : Src α) (hv : SrcValid src) (desc : Option String)
    (ngs : List (NonGap α)) (hng : ∀ ng ∈ ngs, ∀ s, ng.resolve src = .ok s → 0 ≤ s.stop)
    (last : Span) (hl : 0 ≤ last.stop) :
    (gapsLoop src desc false last ngs).exc = (gapsLoop src desc true last ngs).exc ∧
    (gapsLoop src desc false last ngs).out =
      (gapsLoop src desc true last ngs).out.filter (fun g => decide (g.start < g.stop)) := by
  have key : ∀ last : Span, 0 ≤ last.stop → (gapsTail src desc last).out =
      (gapsTail src desc last).out.filter (fun g => decide (g.start < g.stop)) := fun last hl =>
    (List.filter_eq_self.mpr fun g hg => by simpa using gapsTail_pos src hv desc last hl g hg).symm
  induction ngs generalizing last with
  | nil => unfold gapsLoop; exact ⟨rfl, key last hl⟩
  | cons ng rest ih =>
    have ih' := ih (fun ng hn => hng ng (by simp [hn]))
    unfold gapsLoop
    by_cases hend : last.stop < src.stop
    · rw [if_pos hend, if_pos hend]
      cases hr : ng.resolve src with
      | error e => exact ⟨rfl, rfl⟩
      | ok cur =>
        have hc := hng ng (by simp) cur hr
        obtain ⟨i1, i2⟩ := ih' cur hc
        dsimp only
        by_cases h0 : cur.start < last.start
        · rw [if_pos h0, if_pos h0]; exact ⟨rfl, rfl⟩
        rw [if_neg h0, if_neg h0]
        by_cases h1 : cur.start < last.stop
        · rw [if_pos h1, if_pos h1]; exact ⟨i1, i2⟩
        rw [if_neg h1, if_neg h1]
        obtain ⟨v1, v2, v3⟩ := hv
        by_cases h2 : cur.start = last.stop
        · rw [if_pos h2, if_pos h2]
          simp only [Bool.false_eq_true, if_false, if_true]
          rw [ofStr_span _ (by omega) (by omega) (by omega)]
          refine ⟨i1, ?_⟩
          rw [i2]
          simp [Run.yield, FIto.start, FIto.stop, h2]
        rw [if_neg h2, if_neg h2]
        by_cases h3 : cur.start ≥ src.stop
        · rw [if_pos h3, if_pos h3]; exact ⟨rfl, key last hl⟩
        rw [if_neg h3, if_neg h3]
        rw [ofStr_span _ (by omega) (by omega) (by omega)]
        refine ⟨i1, ?_⟩
        have : last.stop < cur.start := by omega
        simp [Run.yield, FIto.start, FIto.stop, this, i2]
    · rw [if_neg hend, if_neg hend]
      exact ⟨rfl, key last hl⟩

/-- C16: `return_zero_widths=True` only adds zero-width results: dropping them gives exactly the result
(and the exception, if any) without the option.  For every sequence of non-gaps, ordered or not. -/
theorem C16_zero_widths (src : Src α) (hv : SrcValid src) (hne : src.start < src.stop)
    (ngs : List (NonGap α)) (hng : ∀ ng ∈ ngs, ∀ s, ng.resolve src = .ok s → 0 ≤ s.stop)
    (desc : Option String) :
    (fromGaps src ngs desc false).exc = (fromGaps src ngs desc true).exc ∧
    (fromGaps src ngs desc false).out =
      (fromGaps src ngs desc true).out.filter (fun g => decide (g.start < g.stop)) := by
  have hv' := hv
  obtain ⟨v1, v2, v3⟩ := hv
  unfold fromGaps
  cases ngs with
  | nil =>
    dsimp only
    rw [if_pos hne, ofStr_span _ (by omega) (by omega) (by omega)]
    simp [Run.yield, Run.done, FIto.start, FIto.stop, hne]
  | cons ng rest =>
    dsimp only
    cases hr : ng.resolve src with
    | error e => exact ⟨rfl, rfl⟩
    | ok last =>
      dsimp only
      obtain ⟨i1, i2⟩ := gapsLoop_zw src hv' desc rest (fun n hn => hng n (by simp [hn])) last
        (hng ng (by simp) last hr)
      by_cases h1 : src.start < last.start
      · rw [if_pos h1, if_pos h1, ofStr_span _ (by omega) (by omega) (by omega)]
        refine ⟨i1, ?_⟩
        have : src.start < min last.start src.stop := by omega
        simp [Run.yield, FIto.start, FIto.stop, this, i2]
      · rw [if_neg h1, if_neg h1]
        exact ⟨i1, i2⟩

/-- The exception of the loop when, after non-gaps that have not yet reached the end of the basis, one
starts before its predecessor. -/
theorem gapsLoop_unordered (src : Src α) (desc : Option String) (zw : Bool)
    (pre : List (NonGap α)) (rs : List Span) (bad : NonGap α) (post : List (NonGap α)) (b : Span)
    (hres : pre.map (NonGap.resolve src) = rs.map Except.ok) (hbad : bad.resolve src = .ok b)
    (last : Span)
    (hord : (last :: rs).Pairwise (fun s t => s.start ≤ t.start))
    (hend : ∀ s ∈ last :: rs, s.start < src.stop ∧ s.stop < src.stop)
    (hlt : ∀ u, (last :: rs).getLast? = some u → b.start < u.start) :
    (gapsLoop src desc zw last (pre ++ bad :: post)).exc = some .valueError := by
  induction pre generalizing rs last with
  | nil =>
    have : rs = [] := by simpa using hres.symm
    subst this
    simp only [List.nil_append]
    unfold gapsLoop
    rw [if_pos (hend last (by simp)).2, hbad]
    dsimp only
    rw [if_pos (hlt last (by simp))]
    rfl
  | cons ng rest ih =>
    cases rs with
    | nil => simp at hres
    | cons cur rs =>
      simp only [List.map_cons, List.cons.injEq] at hres
      obtain ⟨o1, o2⟩ := List.pairwise_cons.mp hord
      have i := ih rs hres.2 cur o2 (fun s hs => hend s (by
        rw [List.mem_cons]; exact Or.inr hs)) (fun u hu => hlt u (by
          rw [List.getLast?_cons_cons]; exact hu))
      have c1 := o1 cur (by simp)
      have c2 := hend cur (by simp)
      simp only [List.cons_append]
      unfold gapsLoop
      rw [if_pos (hend last (by simp)).2, hres.1]
      dsimp only
      rw [if_neg (by omega)]
      by_cases h1 : cur.start < last.stop
      · rw [if_pos h1]; exact i
      rw [if_neg h1]
      by_cases h2 : cur.start = last.stop
      · rw [if_pos h2]
        cases zw
        · simpa using i
        · simpa [Run.yield] using i
      rw [if_neg h2, if_neg (by omega)]
      simpa [Run.yield] using i

/-- C16, partial: a non-gap that starts before its predecessor raises `ValueError`, provided no earlier
non-gap reached the end of the basis.  Missing: after one did, the code stops reading and does not
notice (`C16_unordered_violated`). -/
theorem C16_unordered_partial (src : Src α) (pre : List (NonGap α)) (rs : List Span)
    (bad : NonGap α) (post : List (NonGap α)) (u b : Span)
    (hres : pre.map (NonGap.resolve src) = rs.map Except.ok) (hbad : bad.resolve src = .ok b)
    (hord : rs.Pairwise (fun s t => s.start ≤ t.start))
    (hend : ∀ s ∈ rs, s.start < src.stop ∧ s.stop < src.stop)
    (hlast : rs.getLast? = some u) (hlt : b.start < u.start) (desc : Option String) (zw : Bool) :
    (fromGaps src (pre ++ bad :: post) desc zw).exc = some .valueError := by
  cases pre with
  | nil =>
    have : rs = [] := by simpa using hres.symm
    subst this
    simp at hlast
  | cons ng rest =>
    cases rs with
    | nil => simp at hres
    | cons last rs =>
      simp only [List.map_cons, List.cons.injEq] at hres
      have i := gapsLoop_unordered src desc zw rest rs bad post b hres.2 hbad last hord hend
        (fun w hw => by rw [hlast] at hw; cases hw; exact hlt)
      unfold fromGaps
      simp only [List.cons_append]
      rw [hres.1]
      dsimp only
      split
      · simpa [Run.yield] using i
      · exact i

/-- C16 is false for a nested non-gap: `from_gaps('x'*12, [(0,10),(2,4)])` yields `(4,12)`, which
covers positions 4–9. -/
theorem C16_nested_violated :
    (fromGaps (.str (List.replicate 12 'x')) [.span ⟨0, 10⟩, .span ⟨2, 4⟩] none false).out.map
      FIto.span = [⟨4, 12⟩] ∧ Covers ⟨4, 12⟩ 5 ∧ Covers ⟨0, 10⟩ 5 := by decide

/-- C16 is false for a non-gap before the basis: the gap starts outside `src = (4, 6)`. -/
theorem C16_before_violated :
    (fromGaps (.ito ⟨List.replicate 8 'x', ⟨4, 6⟩, none⟩)
      [.ito ⟨List.replicate 8 'x', ⟨0, 1⟩, none⟩] none false).out.map FIto.span = [⟨1, 6⟩] := by decide

/-- C16 is false for an empty basis followed by a non-gap: a zero-width gap is yielded. -/
theorem C16_empty_src_violated :
    (fromGaps (.ito ⟨List.replicate 8 'x', ⟨4, 4⟩, none⟩)
      [.ito ⟨List.replicate 8 'x', ⟨5, 6⟩, none⟩] none false).out.map FIto.span = [⟨4, 4⟩] := by decide

/-- C16 is false for unordered input after a non-gap that reaches the end: no exception, and the
covered position 0 is yielded. -/
theorem C16_unordered_violated :
    fromGaps (.str "abcde".toList) [.span ⟨3, 5⟩, .span ⟨0, 1⟩] none false =
      ⟨[⟨"abcde".toList, ⟨0, 3⟩, none⟩], none⟩ := by decide

/-- Overlapping, adjacent and zero-width non-gaps. -/
example : (fromGaps (.ito ⟨List.replicate 20 'x', ⟨1, 18⟩, none⟩)
    [.span ⟨1, 4⟩, .span ⟨3, 5⟩, .span ⟨5, 7⟩, .span ⟨9, 9⟩] none false).out.map FIto.span =
    [⟨1, 2⟩, ⟨8, 10⟩, ⟨10, 18⟩] := by decide
example : ([NonGap.span ⟨1, 4⟩, .span ⟨3, 5⟩, .span ⟨5, 7⟩, .span ⟨9, 9⟩] : List (NonGap Char)).map
    (NonGap.resolve (.ito ⟨List.replicate 20 'x', ⟨1, 18⟩, none⟩)) =
    [⟨2, 5⟩, ⟨4, 6⟩, ⟨6, 8⟩, ⟨10, 10⟩].map Except.ok := by decide
example : (fromGaps (.str (List.replicate 9 'x')) [.span ⟨1, 2⟩, .span ⟨3, 4⟩, .span ⟨2, 5⟩] none
    false).exc = some .valueError := by decide

/-! ## C20 -/

theorem find_nat_spec (s sub : List α) (i j : Nat) (hj : j ≤ s.length) :
    (PyStr.find s sub (some (i : Int)) (some (j : Int)) = -1 ∧
      ∀ q, i ≤ q → q + sub.length ≤ j → (s.drop q).take sub.length ≠ sub) ∨
    ∃ p : Nat, PyStr.find s sub (some (i : Int)) (some (j : Int)) = p ∧ i ≤ p ∧ p + sub.length ≤ j ∧
      (s.drop p).take sub.length = sub ∧ ∀ q, i ≤ q → q < p → (s.drop q).take sub.length ≠ sub := by
  have hok : ∀ q, okAt s sub (some (i : Int)) (some (j : Int)) q = true ↔
      i ≤ q ∧ q + sub.length ≤ j ∧ (s.drop q).take sub.length = sub := by
    intro q
    unfold okAt occursAt
    rw [adjStart_some_nat, adjEnd_some_nat _ _ hj]
    simp only [Bool.and_eq_true, decide_eq_true_eq, beq_iff_eq]
    constructor
    · rintro ⟨⟨a, b⟩, c⟩; exact ⟨by omega, by omega, c⟩
    · rintro ⟨a, b, c⟩; exact ⟨⟨by omega, by omega⟩, c⟩
  unfold PyStr.find
  cases hr : (List.range (s.length + 1)).find? (okAt s sub (some (i : Int)) (some (j : Int))) with
  | none =>
    rw [find?_range_iff] at hr
    refine Or.inl ⟨rfl, fun q h1 h2 h3 => ?_⟩
    have := hr q (by omega)
    rw [(hok q).mpr ⟨h1, h2, h3⟩] at this
    cases this
  | some p =>
    rw [find?_range_iff] at hr
    obtain ⟨r1, r2, r3⟩ := hr
    obtain ⟨h1, h2, h3⟩ := (hok p).mp r1
    refine Or.inr ⟨p, rfl, h1, h2, h3, fun q q1 q2 q3 => ?_⟩
    have := r3 q q2
    rw [(hok q).mpr ⟨q1, by omega, q3⟩] at this
    cases this

theorem substringsLoop_spec (s : List α) (j : Nat) (hj : j ≤ s.length) (desc : Option String)
    (subs : List (List α)) (i : Nat) (hi : i ≤ j) :
    ∃ found rest, subs = found ++ rest ∧
      LeftmostChain s j i found ((substringsLoop s j desc i subs).out.map FIto.span) ∧
      (substringsLoop s j desc i subs).out.map FIto.text = found ∧
      (∀ g ∈ (substringsLoop s j desc i subs).out, g.string = s ∧ g.desc = desc) ∧
      (((substringsLoop s j desc i subs).exc = none ∧ rest = []) ∨
       ((substringsLoop s j desc i subs).exc = some .valueError ∧ ∃ sub rest', rest = sub :: rest' ∧
          ∀ q : Nat, resume i ((substringsLoop s j desc i subs).out.map FIto.span) ≤ q →
            q + sub.length ≤ j → (s.drop q).take sub.length ≠ sub)) := by
  induction subs generalizing i with
  | nil =>
    exact ⟨[], [], rfl, rfl, rfl, by simp [substringsLoop, Run.done], Or.inl ⟨rfl, rfl⟩⟩
  | cons sub subs ih =>
    unfold substringsLoop FIto.pyIndex
    rcases find_nat_spec s sub i j hj with ⟨e, h⟩ | ⟨p, e, h1, h2, h3, h4⟩
    · rw [e]
      refine ⟨[], sub :: subs, rfl, rfl, rfl, by simp [Run.raise], Or.inr ⟨rfl, sub, subs, rfl, ?_⟩⟩
      intro q hq
      simp [Run.raise, resume] at hq
      exact h q (by omega)
    · rw [e]
      dsimp only
      rw [if_neg (by omega)]
      dsimp only
      rw [show (p : Int) + (sub.length : Int) = ((p + sub.length : Nat) : Int) by omega,
        ofStr_span _ (by omega) (by omega) (by omega)]
      obtain ⟨found, rest, g1, g2, g3, g4, g5⟩ := ih (p + sub.length) h2
      refine ⟨sub :: found, rest, by simp [g1], ?_, ?_, ?_, ?_⟩
      · exact ⟨p, _, rfl, h1, h2, h3, h4, g2⟩
      · simp only [Run.yield, List.map_cons, g3]
        rw [FIto.text_eq (a := p) (b := p + sub.length) rfl rfl]
        simp only
        rw [List.drop_take, show p + sub.length - p = sub.length by omega, h3]
      · intro g hg
        simp only [Run.yield, List.mem_cons] at hg
        rcases hg with rfl | hg
        · exact ⟨rfl, rfl⟩
        · exact g4 g hg
      · rcases g5 with ⟨x1, x2⟩ | ⟨x1, sub', rest', x2, x3⟩
        · exact Or.inl ⟨x1, x2⟩
        · refine Or.inr ⟨x1, sub', rest', x2, fun q hq => x3 q ?_⟩
          simp only [Run.yield, List.map_cons] at hq
          unfold resume at hq ⊢
          rw [List.getLast?_cons] at hq
          cases hg : List.getLast? (List.map FIto.span
              (substringsLoop s j desc ((p + sub.length : Nat) : Int) subs).out) with
          | none => rw [hg] at hq; simpa using hq
          | some l => rw [hg] at hq; simpa using hq

/-- C20: `from_substrings(src, *subs)` yields, for a prefix `found` of `subs`, the leftmost chain of
occurrences inside `src`, with those texts; it ends normally iff all substrings were found, and
otherwise raises `ValueError` because the next one has no occurrence after the previous ones. -/
theorem C20_from_substrings (src : Src α) (hv : SrcValid src) (subs : List (List α))
    (desc : Option String) :
    ∃ found rest, subs = found ++ rest ∧
      LeftmostChain src.basis src.stop.toNat src.start.toNat found
        ((fromSubstrings src subs desc).out.map FIto.span) ∧
      (fromSubstrings src subs desc).out.map FIto.text = found ∧
      (∀ g ∈ (fromSubstrings src subs desc).out, g.string = src.basis ∧ g.desc = desc) ∧
      (((fromSubstrings src subs desc).exc = none ∧ rest = []) ∨
       ((fromSubstrings src subs desc).exc = some .valueError ∧ ∃ sub rest', rest = sub :: rest' ∧
          ∀ q : Nat, resume src.start ((fromSubstrings src subs desc).out.map FIto.span) ≤ q →
            (q + sub.length : Int) ≤ src.stop → (src.basis.drop q).take sub.length ≠ sub)) := by
  obtain ⟨v1, v2, v3⟩ := hv
  unfold fromSubstrings
  obtain ⟨m, hm⟩ := Int.eq_ofNat_of_zero_le v1
  obtain ⟨n, hn⟩ := Int.eq_ofNat_of_zero_le (show 0 ≤ src.stop by omega)
  rw [hm, hn]
  obtain ⟨f, r, h1, h2, h3, h4, h5⟩ := substringsLoop_spec src.basis n (by omega) desc subs m (by omega)
  refine ⟨f, r, h1, h2, h3, h4, ?_⟩
  rcases h5 with h5 | ⟨x1, sub', rest', x2, x3⟩
  · exact Or.inl h5
  · exact Or.inr ⟨x1, sub', rest', x2, fun q hq hq' => x3 q hq (by omega)⟩

example : (fromSubstrings (.ito ⟨"xababcex".toList, ⟨1, 7⟩, none⟩) ["ab".toList, "ce".toList] none).out.map
    FIto.span = [⟨1, 3⟩, ⟨5, 7⟩] := by decide
example : (fromSubstrings (.str "ababce".toList) ["ab".toList, "ce".toList, "b".toList] none).exc =
    some .valueError := by decide

/-! ## C21, `join` -/

/-- C21: `join` of Itos on one string has the smallest span containing every argument. -/
theorem C21_join (x : FIto α) (xs : List (FIto α)) (hv : ∀ y ∈ x :: xs, y.Valid)
    (hs : ∀ y ∈ xs, y.string = x.string) (desc : Option String) :
    ∃ r, join (x :: xs) desc = .ok r ∧ r.string = x.string ∧ r.desc = desc ∧ r.Valid ∧
      TightHull ((x :: xs).map FIto.span) r.span := by
  have loop : ∀ (xs : List (FIto α)) (a b : Int), (∀ y ∈ xs, y.string = x.string) →
      ∃ a' b', joinLoop x.string a b xs = .ok (a', b') ∧ a' ≤ a ∧ b ≤ b' ∧
        (∀ y ∈ xs, a' ≤ y.start ∧ y.stop ≤ b') ∧
        (a' = a ∨ ∃ y ∈ xs, y.start = a') ∧ (b' = b ∨ ∃ y ∈ xs, y.stop = b') := by
    intro xs
    induction xs with
    | nil => intro a b _; exact ⟨a, b, rfl, by omega, by omega, by simp, Or.inl rfl, Or.inl rfl⟩
    | cons y ys ih =>
      intro a b hs
      obtain ⟨a', b', e, h1, h2, h3, h4, h5⟩ := ih (min a y.start) (max b y.stop)
        (fun z hz => hs z (by simp [hz]))
      have g1 : a' ≤ a ∧ a' ≤ y.start := by clear h3 h4 h5; omega
      have g2 : b ≤ b' ∧ y.stop ≤ b' := by clear h3 h4 h5; omega
      refine ⟨a', b', ?_, g1.1, g2.1, ?_, ?_, ?_⟩
      · unfold joinLoop
        rw [if_neg (by simp [hs y (by simp)])]
        exact e
      · intro z hz
        rw [List.mem_cons] at hz
        rcases hz with rfl | hz
        · exact ⟨g1.2, g2.2⟩
        · exact h3 z hz
      · rcases h4 with h4 | ⟨z, hz, h4⟩
        · rcases Int.le_total a y.start with h | h
          · exact Or.inl (by clear h3 h5; omega)
          · exact Or.inr ⟨y, by simp, by clear h3 h5; omega⟩
        · exact Or.inr ⟨z, by simp [hz], h4⟩
      · rcases h5 with h5 | ⟨z, hz, h5⟩
        · rcases Int.le_total y.stop b with h | h
          · exact Or.inl (by clear h3 h4; omega)
          · exact Or.inr ⟨y, by simp, by clear h3 h4; omega⟩
        · exact Or.inr ⟨z, by simp [hz], h5⟩
  obtain ⟨a, b, e, h1, h2, h3, h4, h5⟩ := loop xs x.start x.stop hs
  have hx := hv x (by simp)
  have ha : 0 ≤ a := by
    rcases h4 with rfl | ⟨y, hy, rfl⟩
    · exact hx.1
    · exact (hv y (by simp [hy])).1
  have hb : b ≤ x.string.length := by
    rcases h5 with rfl | ⟨y, hy, rfl⟩
    · exact hx.2.2
    · rw [← hs y hy]; exact (hv y (by simp [hy])).2.2
  have hab : a ≤ b := by have := hx.2.1; simp only [FIto.start, FIto.stop] at h1 h2 this; clear h3 h4 h5; omega
  refine ⟨⟨x.string, ⟨a, b⟩, desc⟩, ?_, rfl, rfl, ⟨ha, hab, hb⟩, ?_, ?_, ?_⟩
  · unfold join
    dsimp only
    rw [e]
    simp only [bind, Except.bind, pure, Except.pure]
    rw [ofStr_span _ ha hab hb]
  · intro s hs'
    simp only [List.map_cons, List.mem_cons, List.mem_map] at hs'
    rcases hs' with rfl | ⟨y, hy, rfl⟩
    · exact ⟨h1, h2⟩
    · exact h3 y hy
  · rcases h4 with h4 | ⟨y, hy, h4⟩
    · exact ⟨x.span, by simp, h4.symm⟩
    · exact ⟨y.span, by simp only [List.map_cons, List.mem_cons, List.mem_map]; exact Or.inr ⟨y, hy, rfl⟩, h4⟩
  · rcases h5 with h5 | ⟨y, hy, h5⟩
    · exact ⟨x.span, by simp, h5.symm⟩
    · exact ⟨y.span, by simp only [List.map_cons, List.mem_cons, List.mem_map]; exact Or.inr ⟨y, hy, rfl⟩, h5⟩

/-- C21: no argument, or an argument on another string, raises `ValueError`. -/
theorem C21_join_raises (desc : Option String) :
    join ([] : List (FIto α)) desc = .error .valueError ∧
    ∀ (x : FIto α) (xs : List (FIto α)), (∃ y ∈ xs, y.string ≠ x.string) →
      join (x :: xs) desc = .error .valueError := by
  refine ⟨rfl, fun x xs h => ?_⟩
  have loop : ∀ (xs : List (FIto α)) (a b : Int), (∃ y ∈ xs, y.string ≠ x.string) →
      joinLoop x.string a b xs = .error .valueError := by
    intro xs
    induction xs with
    | nil => intro a b h; simp at h
    | cons y ys ih =>
      intro a b h
      unfold joinLoop
      by_cases hy : x.string ≠ y.string
      · rw [if_pos hy]
      · rw [if_neg hy]
        apply ih
        obtain ⟨z, hz, hne⟩ := h
        rw [List.mem_cons] at hz
        rcases hz with rfl | hz
        · exact absurd hne (by simpa [eq_comm] using hy)
        · exact ⟨z, hz, hne⟩
  unfold join
  dsimp only
  rw [loop xs _ _ h]
  rfl

/-- C21: a tight hull is unique and does not depend on the order of the arguments, so neither does
`join`'s span. -/
theorem C21_join_order (x y : FIto α) (xs ys : List (FIto α)) (hv : ∀ z ∈ x :: xs, z.Valid)
    (hs : ∀ z ∈ xs, z.string = x.string) (hp : (x :: xs).Perm (y :: ys)) (desc : Option String) :
    join (x :: xs) desc = join (y :: ys) desc := by
  have hall : ∀ z ∈ x :: xs, z.string = x.string := by
    intro z hz
    rw [List.mem_cons] at hz
    rcases hz with rfl | hz
    · rfl
    · exact hs z hz
  have hyx : y.string = x.string := hall y (hp.mem_iff.mpr (by simp))
  have hs' : ∀ z ∈ ys, z.string = y.string := fun z hz => by
    rw [hyx]; exact hall z (hp.mem_iff.mpr (by simp [hz]))
  obtain ⟨r, e, a1, a2, _, t⟩ := C21_join x xs hv hs desc
  obtain ⟨r', e', b1, b2, _, t'⟩ := C21_join y ys (fun z hz => hv z (hp.mem_iff.mpr hz)) hs' desc
  rw [e, e']
  have hm : ∀ s, s ∈ (x :: xs).map FIto.span ↔ s ∈ (y :: ys).map FIto.span := fun s =>
    (hp.map FIto.span).mem_iff
  obtain ⟨u, hu, eu⟩ := t.startAttained
  obtain ⟨v, hv, ev⟩ := t.stopAttained
  obtain ⟨u', hu', eu'⟩ := t'.startAttained
  obtain ⟨v', hv', ev'⟩ := t'.stopAttained
  have c1 := t'.contains u ((hm u).mp hu)
  have c2 := t'.contains v ((hm v).mp hv)
  have c3 := t.contains u' ((hm u').mpr hu')
  have c4 := t.contains v' ((hm v').mpr hv')
  cases r with | mk s1 p1 d1 => cases r' with | mk s2 p2 d2 =>
  cases p1; cases p2
  simp only at *
  subst a2; subst b2
  congr 2
  · rw [a1, b1, hyx]
  · congr 1 <;> omega

example : join [⟨"abcdef".toList, ⟨3, 4⟩, none⟩, ⟨"abcdef".toList, ⟨1, 2⟩, some "x"⟩] (some "j") =
    .ok ⟨"abcdef".toList, ⟨1, 4⟩, some "j"⟩ := by decide
example : join [⟨"abcdef".toList, ⟨3, 4⟩, none⟩, ⟨"abcdeg".toList, ⟨1, 2⟩, some "x"⟩] (some "j") =
    .error .valueError := by decide

end Pawpaw.Props
