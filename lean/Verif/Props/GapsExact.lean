import Verif.Props.Gaps
/-!
# C16: exactly which gaps `from_gaps` gives for start-ordered non-gaps, and exactly when that is right
-/
set_option linter.unusedSectionVars false
namespace Pawpaw.Props
open Pawpaw SpanSpec

variable {α : Type} [DecidableEq α]

/-- The non-gap `r`, with `pre` before it and `post` after it, opens a gap: it and those before it end before
`e`, and the next one starts after it ends. -/
def Opens (e : Int) (pre : List Span) (r : Span) (post : List Span) : Prop :=
  (∀ s ∈ pre, s.stop < e) ∧ r.stop < e ∧ ∀ t ∈ post.head?, r.stop < t.start

/-- Where the gap after `r` ends: at the next non-gap, at most at `e`. -/
def gapEnd (e : Int) (post : List Span) : Int :=
  match post with
  | [] => e
  | t :: _ => min e t.start

theorem gapsTail_eq (src : Src α) (hv : SrcValid src) (desc : Option String) (last : Span) (h0 : 0 ≤ last.stop) :
    (gapsTail src desc last).exc = none ∧ (gapsTail src desc last).out =
      if last.stop < src.stop then [⟨src.basis, ⟨last.stop, src.stop⟩, desc⟩] else [] := by
  obtain ⟨v1, v2, v3⟩ := hv
  unfold gapsTail
  split
  · rw [ofStr_span _ (by omega) (by omega) (by omega)]
    exact ⟨rfl, rfl⟩
  · exact ⟨rfl, rfl⟩

theorem opens_cons {e : Int} {last : Span} {rs : List Span} {P : List Span → Span → List Span → Prop} :
    (∃ pre r post, last :: rs = pre ++ r :: post ∧ Opens e pre r post ∧ P pre r post) ↔
      (Opens e [] last rs ∧ P [] last rs) ∨
      (last.stop < e ∧ ∃ pre r post, rs = pre ++ r :: post ∧ Opens e pre r post ∧ P (last :: pre) r post) := by
  constructor
  · rintro ⟨pre, r, post, h1, h2, h3⟩
    cases pre with
    | nil =>
      simp only [List.nil_append, List.cons.injEq] at h1
      obtain ⟨rfl, rfl⟩ := h1
      exact Or.inl ⟨h2, h3⟩
    | cons x pre =>
      simp only [List.cons_append, List.cons.injEq] at h1
      obtain ⟨rfl, rfl⟩ := h1
      exact Or.inr ⟨h2.1 _ (by simp), pre, r, post, rfl, ⟨fun s hs => h2.1 s (by simp [hs]), h2.2⟩, h3⟩
  · rintro (⟨h2, h3⟩ | ⟨hl, pre, r, post, rfl, h2, h3⟩)
    · exact ⟨[], last, rs, rfl, h2, h3⟩
    · refine ⟨last :: pre, r, post, rfl, ⟨?_, h2.2⟩, h3⟩
      intro s hs
      rcases List.mem_cons.mp hs with rfl | hs
      · exact hl
      · exact h2.1 s hs

theorem gapsLoop_exact (src : Src α) (hv : SrcValid src) (desc : Option String) :
    ∀ (ngs : List (NonGap α)) (rs : List Span) (last : Span), ngs.map (NonGap.resolve src) = rs.map Except.ok →
    (last :: rs).Pairwise (fun s t => s.start ≤ t.start) → (∀ s ∈ last :: rs, 0 ≤ s.start ∧ s.start ≤ s.stop) →
    (gapsLoop src desc false last ngs).exc = none ∧
    (∀ g, g ∈ (gapsLoop src desc false last ngs).out.map FIto.span ↔
      ∃ pre r post, last :: rs = pre ++ r :: post ∧ Opens src.stop pre r post ∧ g = ⟨r.stop, gapEnd src.stop post⟩) ∧
    ((gapsLoop src desc false last ngs).out.map FIto.span).Pairwise (fun g g' => g.stop ≤ g'.start) ∧
    ∀ g ∈ (gapsLoop src desc false last ngs).out, g.string = src.basis ∧ g.desc = desc
  | [], rs, last, hres, _, hsp => by
    have : rs = [] := by simpa using hres.symm
    subst this
    have h0 := hsp last (by simp)
    obtain ⟨t1, t2⟩ := gapsTail_eq src hv desc last (by omega)
    unfold gapsLoop
    rw [t1, t2]
    refine ⟨rfl, ?_, ?_, ?_⟩
    · intro g
      rw [opens_cons (P := fun _ r post => g = ⟨r.stop, gapEnd src.stop post⟩)]
      by_cases h : last.stop < src.stop
      · rw [if_pos h]
        simp [Opens, gapEnd, h]
      · rw [if_neg h]
        simp [Opens, h]
    · split <;> simp
    · split <;> simp
  | ng :: rest, rs, last, hres, hord, hsp => by
    cases rs with
    | nil => simp at hres
    | cons cur rs =>
      simp only [List.map_cons, List.cons.injEq] at hres
      obtain ⟨o1, o2⟩ := List.pairwise_cons.mp hord
      have hlc := o1 cur (by simp)
      have h0 := hsp last (by simp)
      have h1 := hsp cur (by simp)
      obtain ⟨i1, i2, i3, i4⟩ := gapsLoop_exact src hv desc rest rs cur hres.2 o2 (fun s hs => hsp s (List.mem_cons_of_mem _ hs))
      obtain ⟨t1, t2⟩ := gapsTail_eq src hv desc last (by omega)
      have hlate : ∀ pre r post, cur :: rs = pre ++ r :: post → cur.start ≤ r.start ∧ r.start ≤ r.stop := by
        intro pre r post e
        have hr : r ∈ cur :: rs := by rw [e]; simp
        refine ⟨?_, (hsp r (List.mem_cons_of_mem _ hr)).2⟩
        rcases List.mem_cons.mp hr with rfl | hr
        · exact Int.le_refl _
        · exact (List.pairwise_cons.mp o2).1 r hr
      have step : ∀ g, (∃ pre r post, last :: cur :: rs = pre ++ r :: post ∧ Opens src.stop pre r post ∧
          g = (⟨r.stop, gapEnd src.stop post⟩ : Span)) ↔
          ((last.stop < src.stop ∧ last.stop < cur.start) ∧ g = ⟨last.stop, min src.stop cur.start⟩) ∨
          (last.stop < src.stop ∧ ∃ pre r post, cur :: rs = pre ++ r :: post ∧ Opens src.stop pre r post ∧
            g = ⟨r.stop, gapEnd src.stop post⟩) := by
        intro g
        rw [opens_cons (P := fun _ r post => g = ⟨r.stop, gapEnd src.stop post⟩)]
        simp [Opens, gapEnd]
      unfold gapsLoop
      by_cases hend : last.stop < src.stop
      · rw [if_pos hend, hres.1]
        dsimp only
        rw [if_neg (by omega)]
        by_cases c1 : cur.start < last.stop
        · rw [if_pos c1]
          refine ⟨i1, ?_, i3, i4⟩
          intro g
          rw [step, i2]
          constructor
          · exact fun h => Or.inr ⟨hend, h⟩
          · rintro (⟨⟨_, h⟩, _⟩ | ⟨_, h⟩)
            · omega
            · exact h
        · rw [if_neg c1]
          by_cases c2 : cur.start = last.stop
          · rw [if_pos c2]
            simp only [Bool.false_eq_true, if_false]
            refine ⟨i1, ?_, i3, i4⟩
            intro g
            rw [step, i2]
            constructor
            · exact fun h => Or.inr ⟨hend, h⟩
            · rintro (⟨⟨_, h⟩, _⟩ | ⟨_, h⟩)
              · omega
              · exact h
          · rw [if_neg c2]
            by_cases c3 : cur.start ≥ src.stop
            · rw [if_pos c3, t1, t2, if_pos hend]
              refine ⟨rfl, ?_, by simp, by simp⟩
              intro g
              rw [step, show min src.stop cur.start = src.stop by omega]
              simp only [List.map_cons, List.map_nil, List.mem_singleton]
              constructor
              · exact fun h => Or.inl ⟨⟨hend, by omega⟩, h⟩
              · rintro (⟨_, h⟩ | ⟨_, pre, r, post, e, ho, _⟩)
                · exact h
                · have := hlate pre r post e
                  have := ho.2.1
                  omega
            · rw [if_neg c3]
              obtain ⟨v1, v2, v3⟩ := hv
              rw [ofStr_span _ (by omega) (by omega) (by omega)]
              refine ⟨i1, ?_, ?_, ?_⟩
              · intro g
                rw [step, show min src.stop cur.start = cur.start by omega]
                simp only [Run.yield, List.map_cons, List.mem_cons]
                rw [i2]
                constructor
                · rintro (h | h)
                  · exact Or.inl ⟨⟨hend, by omega⟩, h⟩
                  · exact Or.inr ⟨hend, h⟩
                · rintro (⟨_, h⟩ | ⟨_, h⟩)
                  · exact Or.inl h
                  · exact Or.inr h
              · simp only [Run.yield, List.map_cons]
                rw [List.pairwise_cons]
                refine ⟨?_, i3⟩
                intro g hg
                obtain ⟨pre, r, post, e, _, rfl⟩ := (i2 g).mp hg
                have := hlate pre r post e
                dsimp only
                omega
              · intro g hg
                simp only [Run.yield, List.mem_cons] at hg
                rcases hg with rfl | hg
                · exact ⟨rfl, rfl⟩
                · exact i4 g hg
      · rw [if_neg hend, t1, t2, if_neg hend]
        refine ⟨rfl, ?_, by simp, by simp⟩
        intro g
        rw [step]
        simp only [List.map_nil, List.not_mem_nil, false_iff]
        rintro (⟨⟨h, _⟩, _⟩ | ⟨h, _⟩) <;> exact hend h

/-- What `from_gaps` gives for start-ordered non-gaps `rs` of a non-empty source. -/
theorem fromGaps_exact (src : Src α) (hv : SrcValid src) (hne : src.start < src.stop) (ngs : List (NonGap α))
    (rs : List Span) (hres : ngs.map (NonGap.resolve src) = rs.map Except.ok)
    (hord : rs.Pairwise (fun s t => s.start ≤ t.start)) (hsp : ∀ s ∈ rs, 0 ≤ s.start ∧ s.start ≤ s.stop)
    (desc : Option String) :
    (fromGaps src ngs desc false).exc = none ∧
    (∀ g, g ∈ (fromGaps src ngs desc false).out.map FIto.span ↔
      ((∀ t ∈ rs.head?, src.start < t.start) ∧ g = ⟨src.start, gapEnd src.stop rs⟩) ∨
      ∃ pre r post, rs = pre ++ r :: post ∧ Opens src.stop pre r post ∧ g = ⟨r.stop, gapEnd src.stop post⟩) ∧
    ((fromGaps src ngs desc false).out.map FIto.span).Pairwise (fun g g' => g.stop ≤ g'.start) ∧
    ∀ g ∈ (fromGaps src ngs desc false).out, g.string = src.basis ∧ g.desc = desc := by
  have hv' := hv
  obtain ⟨v1, v2, v3⟩ := hv
  cases ngs with
  | nil =>
    have : rs = [] := by simpa using hres.symm
    subst this
    unfold fromGaps
    dsimp only
    rw [if_pos hne, ofStr_span _ (by omega) (by omega) (by omega)]
    refine ⟨rfl, ?_, by simp [Run.yield, Run.done], by simp [Run.yield, Run.done]⟩
    intro g
    simp [Run.yield, Run.done, gapEnd]
  | cons ng rest =>
    cases rs with
    | nil => simp at hres
    | cons last rs =>
      simp only [List.map_cons, List.cons.injEq] at hres
      have hl := hsp last (by simp)
      obtain ⟨i1, i2, i3, i4⟩ := gapsLoop_exact src hv' desc rest rs last hres.2 hord hsp
      unfold fromGaps
      dsimp only
      rw [hres.1]
      dsimp only
      by_cases h1 : src.start < last.start
      · rw [if_pos h1, ofStr_span _ (by omega) (by omega) (by omega)]
        refine ⟨i1, ?_, ?_, ?_⟩
        · intro g
          simp only [Run.yield, List.map_cons, List.mem_cons]
          rw [i2, show min last.start src.stop = min src.stop last.start by omega]
          simp [gapEnd, h1]
        · simp only [Run.yield, List.map_cons]
          rw [List.pairwise_cons]
          refine ⟨?_, i3⟩
          intro g hg
          obtain ⟨pre, r, post, e, _, rfl⟩ := (i2 g).mp hg
          have hr : r ∈ last :: rs := by rw [e]; simp
          have h2 := (hsp r hr).2
          have h3 : last.start ≤ r.start := by
            rcases List.mem_cons.mp hr with rfl | hr
            · exact Int.le_refl _
            · exact (List.pairwise_cons.mp hord).1 r hr
          dsimp only
          omega
        · intro g hg
          simp only [Run.yield, List.mem_cons] at hg
          rcases hg with rfl | hg
          · exact ⟨rfl, rfl⟩
          · exact i4 g hg
      · rw [if_neg h1]
        refine ⟨i1, ?_, i3, i4⟩
        intro g
        rw [i2]
        simp [h1]

theorem last_before {k : Int} : ∀ (rs : List Span), rs.Pairwise (fun s t => s.start ≤ t.start) →
    (∀ t ∈ rs.head?, k < t.start) ∨
    ∃ pre r post, rs = pre ++ r :: post ∧ r.start ≤ k ∧ (∀ s ∈ pre, s.start ≤ k) ∧ ∀ t ∈ post, k < t.start
  | [], _ => Or.inl (by simp)
  | s :: rs, h => by
    obtain ⟨h1, h2⟩ := List.pairwise_cons.mp h
    by_cases hs : k < s.start
    · exact Or.inl (by simpa using hs)
    · refine Or.inr ?_
      rcases last_before rs h2 with h3 | ⟨pre, r, post, e, h3, h4, h5⟩
      · refine ⟨[], s, rs, rfl, by omega, by simp, ?_⟩
        intro t ht
        cases rs with
        | nil => cases ht
        | cons u us =>
          have hu := h3 u (by simp)
          rcases List.mem_cons.mp ht with rfl | ht
          · exact hu
          · have := (List.pairwise_cons.mp h2).1 t ht; omega
      · refine ⟨s :: pre, r, post, by rw [e]; rfl, h3, ?_, h5⟩
        intro x hx
        rcases List.mem_cons.mp hx with rfl | hx
        · omega
        · exact h4 x hx

/-- C16, exactly: for every non-empty source and every start-ordered sequence of non-gaps (overlapping,
nested, zero-width, before or after the source), `from_gaps` ends normally; its results are non-empty,
disjoint, in order, end inside the source and include every uncovered position; and they are exactly the
uncovered positions if and only if every non-gap that opens a gap (it ends before the end of the source and
before the next one starts, and none before it reaches the end of the source) ends no earlier than the start of
the source and than all the non-gaps before it. -/
theorem C16_from_gaps_exact (src : Src α) (hv : SrcValid src) (hne : src.start < src.stop) (ngs : List (NonGap α))
    (rs : List Span) (hres : ngs.map (NonGap.resolve src) = rs.map Except.ok)
    (hord : rs.Pairwise (fun s t => s.start ≤ t.start)) (hsp : ∀ s ∈ rs, 0 ≤ s.start ∧ s.start ≤ s.stop)
    (desc : Option String) :
    (fromGaps src ngs desc false).exc = none ∧
    (∀ g ∈ (fromGaps src ngs desc false).out, g.string = src.basis ∧ g.desc = desc ∧ g.start < g.stop ∧ g.stop ≤ src.stop) ∧
    ((fromGaps src ngs desc false).out.map FIto.span).Pairwise (fun g g' => g.stop ≤ g'.start) ∧
    (∀ k, src.start ≤ k → k < src.stop → (∀ c ∈ rs, ¬ Covers c k) →
      ∃ g ∈ (fromGaps src ngs desc false).out.map FIto.span, Covers g k) ∧
    (Complement src.start src.stop rs ((fromGaps src ngs desc false).out.map FIto.span) ↔
      ∀ pre r post, rs = pre ++ r :: post → Opens src.stop pre r post →
        src.start ≤ r.stop ∧ ∀ s ∈ pre, s.stop ≤ r.stop) := by
  obtain ⟨i1, i2, i3, i4⟩ := fromGaps_exact src hv hne ngs rs hres hord hsp desc
  have hend : ∀ post, gapEnd src.stop post ≤ src.stop ∧ ∀ t ∈ post.head?, gapEnd src.stop post ≤ t.start := by
    intro post
    cases post with
    | nil => simp [gapEnd]
    | cons t ts =>
      simp only [gapEnd, List.head?_cons, Option.mem_some_iff, forall_eq']
      omega
  have hlow : ∀ a post, a < src.stop → (∀ t ∈ post.head?, a < t.start) → a < gapEnd src.stop post := by
    intro a post h1 h2
    cases post with
    | nil => exact h1
    | cons t ts =>
      have := h2 t (by simp)
      simp only [gapEnd]
      omega
  have hshape : ∀ g ∈ (fromGaps src ngs desc false).out.map FIto.span, g.start < g.stop ∧ g.stop ≤ src.stop := by
    intro g hg
    rcases (i2 g).mp hg with ⟨h1, rfl⟩ | ⟨pre, r, post, e, ho, rfl⟩
    · exact ⟨hlow _ _ hne h1, (hend rs).1⟩
    · exact ⟨hlow _ _ ho.2.1 ho.2.2, (hend post).1⟩
  have hafter : ∀ {k : Int} {post : List Span}, post.Pairwise (fun s t => s.start ≤ t.start) →
      k < gapEnd src.stop post → ∀ t ∈ post, k < t.start := by
    intro k post hp hk t ht
    cases post with
    | nil => cases ht
    | cons u us =>
      have hu : k < u.start := by simp only [gapEnd] at hk; omega
      rcases List.mem_cons.mp ht with rfl | ht
      · exact hu
      · have := (List.pairwise_cons.mp hp).1 t ht; omega
  have hcomplete : ∀ k, src.start ≤ k → k < src.stop → (∀ c ∈ rs, ¬ Covers c k) →
      ∃ g ∈ (fromGaps src ngs desc false).out.map FIto.span, Covers g k := by
    intro k k1 k2 hc
    have hc' : ∀ c ∈ rs, c.start ≤ k → c.stop ≤ k := by
      intro c hcm h
      have := hc c hcm
      unfold Covers at this
      omega
    rcases last_before (k := k) rs hord with h | ⟨pre, r, post, e, h3, h4, h5⟩
    · refine ⟨_, (i2 _).mpr (Or.inl ⟨fun t ht => ?_, rfl⟩), ?_⟩
      · have := h t ht; omega
      · exact ⟨k1, hlow k rs k2 h⟩
    · have hr := hc' r (by rw [e]; simp) h3
      refine ⟨_, (i2 _).mpr (Or.inr ⟨pre, r, post, e, ⟨?_, by omega, ?_⟩, rfl⟩), ?_⟩
      · intro s hs
        have := hc' s (by rw [e]; simp [hs]) (h4 s hs)
        omega
      · intro t ht
        have := h5 t (List.mem_of_mem_head? ht)
        omega
      · exact ⟨hr, hlow k post k2 fun t ht => h5 t (List.mem_of_mem_head? ht)⟩
  refine ⟨i1, ?_, i3, hcomplete, ?_⟩
  · intro g hg
    obtain ⟨a, b⟩ := i4 g hg
    obtain ⟨c, d⟩ := hshape g.span (List.mem_map.mpr ⟨g, hg, rfl⟩)
    exact ⟨a, b, c, d⟩
  · constructor
    · intro hC pre r post e ho
      have hg : (⟨r.stop, gapEnd src.stop post⟩ : Span) ∈ (fromGaps src ngs desc false).out.map FIto.span :=
        (i2 _).mpr (Or.inr ⟨pre, r, post, e, ho, rfl⟩)
      obtain ⟨k1, k2, k3⟩ := (hC.exact r.stop).mp ⟨_, hg, Int.le_refl _, hlow _ _ ho.2.1 ho.2.2⟩
      refine ⟨k1, ?_⟩
      intro s hs
      have h1 := k3 s (by rw [e]; simp [hs])
      have h2 : s.start ≤ r.start := by
        rw [e, List.pairwise_append] at hord
        exact hord.2.2 s hs r (by simp)
      have h3 := hsp r (by rw [e]; simp)
      unfold Covers at h1
      omega
    · intro hcond
      refine ⟨?_, i3, ?_⟩
      · intro g hg
        obtain ⟨c, d⟩ := hshape g hg
        refine ⟨?_, c, d⟩
        rcases (i2 g).mp hg with ⟨_, rfl⟩ | ⟨pre, r, post, e, ho, rfl⟩
        · exact Int.le_refl _
        · exact (hcond pre r post e ho).1
      · intro k
        constructor
        · rintro ⟨g, hg, g1, g2⟩
          rcases (i2 g).mp hg with ⟨h1, rfl⟩ | ⟨pre, r, post, e, ho, rfl⟩
          · dsimp only at g1 g2
            refine ⟨g1, by have := (hend rs).1; omega, ?_⟩
            intro c hc hcov
            have := hafter hord g2 c hc
            unfold Covers at hcov
            omega
          · dsimp only at g1 g2
            obtain ⟨c1, c2⟩ := hcond pre r post e ho
            refine ⟨by omega, by have := (hend post).1; omega, ?_⟩
            intro c hc hcov
            unfold Covers at hcov
            rw [e, List.mem_append, List.mem_cons] at hc
            rcases hc with hc | rfl | hc
            · have := c2 c hc; omega
            · omega
            · rw [e, List.pairwise_append, List.pairwise_cons] at hord
              have := hafter hord.2.1.2 g2 c hc
              omega
        · rintro ⟨k1, k2, k3⟩
          exact hcomplete k k1 k2 k3

/-- The criterion distinguishes: `(0,10),(2,4)` in a text of 12 fails it (`C16_nested_violated`), `(0,3),(2,4)`
meets it. -/
example : Opens 12 [⟨0, 10⟩] ⟨2, 4⟩ [] ∧ ¬ ∀ s ∈ ([⟨0, 10⟩] : List Span), s.stop ≤ (4 : Int) := by
  refine ⟨⟨by decide, by decide, by simp⟩, by decide⟩
example : (fromGaps (.str (List.replicate 12 'x')) [.span ⟨0, 3⟩, .span ⟨2, 4⟩, .span ⟨3, 3⟩] none false).out.map FIto.span =
    [⟨3, 12⟩] := by decide
example : (fromGaps (.str (List.replicate 12 'x')) [.span ⟨0, 3⟩, .span ⟨2, 4⟩] none false).out.map FIto.span =
    [⟨4, 12⟩] := by decide

end Pawpaw.Props
