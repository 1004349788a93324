import Verif.Lemmas.Tree
import Verif.Props.Gaps
import Verif.Props.Index
/-!
# C12, C17, C21 (`strip_to_children`), C23 (values), C32
-/
set_option linter.unusedSectionVars false
namespace Pawpaw.Props
open Pawpaw PyStr SpanSpec TreeSpec
variable {α : Type} [DecidableEq α]

/-! ## C23 -/

/-- C23: `clone()` of a well-formed tree on a string of length `len` never raises and gives a tree
equal to it in every span, desc, value function and child list, at every depth. -/
theorem C23_clone_equal (len : Nat) (n : Node) (h : WF n) (hl : n.stop ≤ len) :
    n.clone len = .ok n := Node.clone_eq len n h hl

/-- C23: `clone(start, stop, desc, clone_children)` succeeds when the children still fit, and changes
only the given fields; spans given are normalised as by the constructor. -/
theorem C23_clone_with (len : Nat) (n : Node) (h : WF n) (hl : n.stop ≤ len) (st en : Option Int)
    (d : Option (Option String)) (cc : Bool) (sp : Span)
    (hsp : sp = Span.fromIndices len (some (st.getD n.start)) (some (en.getD n.stop)))
    (hin : cc = true → ∀ k ∈ n.kids, sp.start ≤ k.start ∧ k.stop ≤ sp.stop) :
    n.cloneWith len st en d cc =
      .ok (.mk sp (d.getD n.desc) n.vf (if cc then n.kids else [])) := by
  unfold Node.cloneWith
  dsimp only
  rw [← hsp]
  cases cc with
  | false => rfl
  | true =>
    simp only [if_true]
    rw [Node.cloneAll_eq len n.kids (fun k hk => h.kid hk)
      (fun k hk => by have := h.kid_inside hk; omega)]
    dsimp only
    have hk := h.kidsOK
    rw [Kids.addAll_ordered [] n.kids]
    · rfl
    · refine ⟨?_, by simpa using hk.ordered⟩
      intro c hc
      simp only [List.nil_append, List.mem_map] at hc
      obtain ⟨k, hk', rfl⟩ := hc
      have := hin rfl k hk'
      have := hk.inside k.span (List.mem_map.mpr ⟨k, hk', rfl⟩)
      simp only [Node.start, Node.stop] at *
      omega

/-- C23: if a child does not fit in the new span, `clone(start, stop)` raises `ValueError`. -/
theorem C23_clone_with_raises (len : Nat) (n : Node) (h : WF n) (hl : n.stop ≤ len)
    (st en : Option Int) (d : Option (Option String)) (sp : Span)
    (hsp : sp = Span.fromIndices len (some (st.getD n.start)) (some (en.getD n.stop)))
    (hout : ∃ k ∈ n.kids, ¬ (sp.start ≤ k.start ∧ k.stop ≤ sp.stop)) :
    n.cloneWith len st en d true = .error .valueError := by
  unfold Node.cloneWith
  dsimp only
  rw [← hsp]
  simp only [if_true]
  rw [Node.cloneAll_eq len n.kids (fun k hk => h.kid hk)
    (fun k hk => by have := h.kid_inside hk; omega)]
  dsimp only
  rw [Kids.addAll_outside [] n.kids (by simpa using h.kidsOK.ordered)
    (by simpa using fun k hk => (h.kid hk).start_le) (by simp) hout]

/-- A two-level tree used in examples: `(1,9)` with children `(1,4) ⊃ (2,3)`, `(4,4)`, `(6,9)`. -/
def exTree : Node :=
  .mk ⟨1, 9⟩ (some "a") none
    [.mk ⟨1, 4⟩ (some "b") (some 7) [.leaf ⟨2, 3⟩], .leaf ⟨4, 4⟩, .leaf ⟨6, 9⟩ (some "c")]

theorem exTree_WF : WF exTree := by
  refine .mk (by decide) (by decide) ⟨by decide, by decide⟩ ?_
  intro k hk
  simp only [List.mem_cons, List.not_mem_nil, or_false] at hk
  rcases hk with rfl | rfl | rfl
  · refine .mk (by decide) (by decide) ⟨by decide, by decide⟩ ?_
    intro k hk
    simp only [List.mem_singleton] at hk
    subst hk
    exact .mk (by decide) (by decide) ⟨by decide, by decide⟩ (by simp)
  · exact .mk (by decide) (by decide) ⟨by decide, by decide⟩ (by simp)
  · exact .mk (by decide) (by decide) ⟨by decide, by decide⟩ (by simp)

example : exTree.clone 10 = .ok exTree := by decide
example : exTree.cloneWith 10 (some 0) none (some none) = .ok (.mk ⟨0, 9⟩ none none exTree.kids) := by
  decide
example : exTree.cloneWith 10 (some 2) none = .error .valueError := by decide

/-! ## C12 -/

theorem flat_valid {s : List α} {n : Node} (h : WF n) (hl : n.stop ≤ s.length) :
    (n.flat s).Valid := ⟨h.start_nonneg, h.start_le, hl⟩

/-- A separator found at `i`: the three pieces, their texts and adjacency. -/
theorem partition_pieces {s : List α} {n : Node} (h : WF n) (hl : n.stop ≤ s.length) (sep : List α)
    (i : Nat) (hi : okAt (n.flat s).text sep none none i = true) :
    ∃ a b c, n.cloneWith s.length none (some ((i : Int) + n.start)) none false = .ok a ∧
      n.cloneWith s.length (some ((i : Int) + n.start)) (some ((i : Int) + n.start + sep.length)) none false
        = .ok b ∧
      n.cloneWith s.length (some ((i : Int) + n.start + sep.length)) none none false = .ok c ∧
      (a.flat s).text = (n.flat s).text.take i ∧ (b.flat s).text = sep ∧
      (c.flat s).text = (n.flat s).text.drop (i + sep.length) ∧
      a.start = n.start ∧ a.stop = b.start ∧ b.stop = c.start ∧ c.stop = n.stop := by
  obtain ⟨x, y, hx, hy, hxy, hyl⟩ := (flat_valid h hl).exists_nat
  have hx' : n.start = x := hx
  have hy' : n.stop = y := hy
  have hstr : (n.flat s).string = s := rfl
  rw [hstr] at hyl
  have htl := FIto.text_length hx hy hyl
  have htext := FIto.text_eq hx hy
  rw [hstr] at htext
  unfold okAt occursAt at hi
  simp only [Bool.and_eq_true, decide_eq_true_eq, beq_iff_eq] at hi
  obtain ⟨⟨_, hi2⟩, hi3⟩ := hi
  have hi2' := adjEnd_le (n.flat s).text.length none
  rw [htl] at hi2 hi2'
  have hle : i + sep.length ≤ y - x := by omega
  have cw : ∀ (st en : Option Int) (u v : Nat), st.getD n.start = u → en.getD n.stop = v → u ≤ v →
      v ≤ s.length → n.cloneWith s.length st en none false = .ok (.mk ⟨u, v⟩ n.desc n.vf []) := by
    intro st en u v e1 e2 h1 h2
    rw [C23_clone_with s.length n h hl st en none false ⟨u, v⟩ ?_ (by simp)]
    · rfl
    · rw [e1, e2, fromIndices_span (by omega) (by omega) (by omega)]
  refine ⟨_, _, _, cw none _ x (i + x) hx' (by simp [hx']) (by omega) (by omega),
    cw _ _ (i + x) (i + x + sep.length) (by simp [hx']) (by simp [hx']) (by omega) (by omega),
    cw _ none (i + x + sep.length) y (by simp [hx']) hy' (by omega) (by omega), ?_, ?_, ?_, ?_, ?_, ?_, ?_⟩
  · rw [FIto.text_eq (a := x) (b := i + x) rfl rfl, htext]
    show List.drop x (List.take (i + x) s) = _
    rw [List.drop_take, List.drop_take, List.take_take]
    congr 1; omega
  · rw [FIto.text_eq (a := i + x) (b := i + x + sep.length) rfl rfl]
    show List.drop (i + x) (List.take (i + x + sep.length) s) = _
    rw [htext, List.drop_drop, List.drop_take, List.take_take] at hi3
    rw [List.drop_take, show i + x + sep.length - (i + x) = sep.length by omega]
    rw [show min sep.length (y - (x + i)) = sep.length by omega, Nat.add_comm x i] at hi3
    exact hi3
  · rw [FIto.text_eq (a := i + x + sep.length) (b := y) rfl rfl, htext, List.drop_drop]
    show List.drop _ (List.take y s) = _
    congr 1; omega
  · simp only [Node.start, Node.span] at *; omega
  · rfl
  · rfl
  · simp only [Node.stop, Node.span] at *; omega

/-- C12, partial: when the separator occurs, or the Ito has no children, the three pieces have the
texts of Python's `partition`, and adjoin one another and cover the Ito when it occurs.  Missing: an
Ito with children in which the separator does not occur (`C12_children_violated`). -/
theorem C12_str_partition_partial (s : List α) (n : Node) (h : WF n) (hl : n.stop ≤ s.length)
    (sep : List α) (hsep : sep ≠ [])
    (hk : PyStr.find (n.flat s).text sep none none ≠ -1 ∨ n.kids = []) :
    ∃ a b c, n.strPartition s sep = .ok (a, b, c) ∧
      ((a.flat s).text, (b.flat s).text, (c.flat s).text) = PyStr.partition (n.flat s).text sep ∧
      (PyStr.find (n.flat s).text sep none none ≠ -1 →
        a.start = n.start ∧ a.stop = b.start ∧ b.stop = c.start ∧ c.stop = n.stop) := by
  have hv := flat_valid h hl
  unfold Node.strPartition PyStr.partition
  rw [if_neg hsep, C04_str_find_partial _ hv sep none none (Or.inl hsep)]
  simp only [bind, Except.bind, pure, Except.pure]
  unfold PyStr.find at hk ⊢
  cases hf : (List.range ((n.flat s).text.length + 1)).find? (okAt (n.flat s).text sep none none) with
  | none =>
    rw [hf] at hk
    have hkids : n.kids = [] := by simpa using hk
    have hc : n.cloneWith s.length (some n.stop) none = .ok (.mk ⟨n.stop, n.stop⟩ n.desc n.vf n.kids) := by
      have h0 := h.start_nonneg
      have h1 := h.start_le
      rw [C23_clone_with s.length n h hl (some n.stop) none none true ⟨n.stop, n.stop⟩
        (by rw [fromIndices_span] <;> simp <;> omega) (by simp [hkids])]
      rfl
    dsimp only
    rw [if_pos (by omega), hc]
    refine ⟨_, _, _, rfl, ?_, by simp⟩
    obtain ⟨x, y, hx, hy, hxy, hyl⟩ := hv.exists_nat
    have hy' : n.stop = y := hy
    have : ((Node.mk ⟨n.stop, n.stop⟩ n.desc n.vf n.kids).flat s).text = [] := by
      rw [FIto.text_eq (x := (Node.mk ⟨n.stop, n.stop⟩ n.desc n.vf n.kids).flat s) (a := y) (b := y) hy' hy',
        List.drop_eq_nil_of_le]
      rw [List.length_take]; omega
    rw [this]
  | some i =>
    have hi := List.find?_some hf
    obtain ⟨a, b, c, e1, e2, e3, t1, t2, t3, r⟩ := partition_pieces h hl sep i hi
    dsimp only
    rw [if_neg (by omega), e1, e2, e3]
    exact ⟨a, b, c, rfl, by rw [t1, t2, t3], fun _ => r⟩

/-- C12, partial: `str_rpartition`, likewise. -/
theorem C12_str_rpartition_partial (s : List α) (n : Node) (h : WF n) (hl : n.stop ≤ s.length)
    (sep : List α) (hsep : sep ≠ [])
    (hk : PyStr.find (n.flat s).text sep none none ≠ -1 ∨ n.kids = []) :
    ∃ a b c, n.strRpartition s sep = .ok (a, b, c) ∧
      ((a.flat s).text, (b.flat s).text, (c.flat s).text) = PyStr.rpartition (n.flat s).text sep ∧
      (PyStr.find (n.flat s).text sep none none ≠ -1 →
        a.start = n.start ∧ a.stop = b.start ∧ b.stop = c.start ∧ c.stop = n.stop) := by
  have hv := flat_valid h hl
  unfold Node.strRpartition PyStr.rpartition
  rw [if_neg hsep, C04_str_rfind_partial _ hv sep none none (Or.inl hsep)]
  simp only [bind, Except.bind, pure, Except.pure]
  unfold PyStr.rfind
  cases hf : (List.range ((n.flat s).text.length + 1)).reverse.find?
      (okAt (n.flat s).text sep none none) with
  | none =>
    have hnone : PyStr.find (n.flat s).text sep none none = -1 := by
      unfold PyStr.find
      have : (List.range ((n.flat s).text.length + 1)).find? (okAt (n.flat s).text sep none none) =
          none := by
        rw [List.find?_eq_none] at hf ⊢
        exact fun j hj => hf j (by simpa using hj)
      rw [this]
    have hkids : n.kids = [] := by simpa [hnone] using hk
    have hc : n.cloneWith s.length (some n.stop) none = .ok (.mk ⟨n.stop, n.stop⟩ n.desc n.vf n.kids) := by
      have h0 := h.start_nonneg
      have h1 := h.start_le
      rw [C23_clone_with s.length n h hl (some n.stop) none none true ⟨n.stop, n.stop⟩
        (by rw [fromIndices_span] <;> simp <;> omega) (by simp [hkids])]
      rfl
    dsimp only
    rw [if_pos (by omega), hc]
    refine ⟨_, _, _, rfl, ?_, by simp [hnone]⟩
    obtain ⟨x, y, hx, hy, hxy, hyl⟩ := hv.exists_nat
    have hy' : n.stop = y := hy
    have : ((Node.mk ⟨n.stop, n.stop⟩ n.desc n.vf n.kids).flat s).text = [] := by
      rw [FIto.text_eq (x := (Node.mk ⟨n.stop, n.stop⟩ n.desc n.vf n.kids).flat s) (a := y) (b := y) hy' hy',
        List.drop_eq_nil_of_le]
      rw [List.length_take]; omega
    rw [this]
  | some i =>
    have hi := List.find?_some hf
    obtain ⟨a, b, c, e1, e2, e3, t1, t2, t3, r⟩ := partition_pieces h hl sep i hi
    dsimp only
    rw [if_neg (by omega), e1, e2, e3]
    exact ⟨a, b, c, rfl, by rw [t1, t2, t3], fun _ => r⟩

/-- C12: an empty separator raises `ValueError`. -/
theorem C12_empty_sep (s : List α) (n : Node) :
    n.strPartition s [] = .error .valueError ∧ n.strRpartition s [] = .error .valueError := ⟨rfl, rfl⟩

/-- C12 is false for every Ito with a child not at its very end, whenever the separator does not occur:
both methods raise `ValueError`. -/
theorem C12_children_violated (s : List α) (n : Node) (h : WF n) (hl : n.stop ≤ s.length)
    (sep : List α) (hsep : sep ≠ []) (hk : ∃ k ∈ n.kids, k.start < n.stop)
    (hno : PyStr.find (n.flat s).text sep none none = -1)
    (hno' : PyStr.rfind (n.flat s).text sep none none = -1) :
    n.strPartition s sep = .error .valueError ∧ n.strRpartition s sep = .error .valueError := by
  have hv := flat_valid h hl
  have h0 := h.start_nonneg
  have h1 := h.start_le
  have hc : n.cloneWith s.length (some n.stop) none = .error .valueError := by
    refine C23_clone_with_raises s.length n h hl (some n.stop) none none ⟨n.stop, n.stop⟩ ?_ ?_
    · rw [fromIndices_span] <;> simp <;> omega
    · obtain ⟨k, hk, hlt⟩ := hk
      exact ⟨k, hk, by dsimp only; omega⟩
  unfold Node.strPartition Node.strRpartition
  rw [if_neg hsep, if_neg hsep, C04_str_find_partial _ hv sep none none (Or.inl hsep),
    C04_str_rfind_partial _ hv sep none none (Or.inl hsep), hno, hno']
  simp only [bind, Except.bind, hc]
  exact ⟨rfl, rfl⟩

example : ((exTree.strPartition "_ab,cd,ef_".toList ",".toList).toOption.map
    fun t => (t.1.span, t.2.1.span, t.2.2.span)) = some (⟨1, 3⟩, ⟨3, 4⟩, ⟨4, 9⟩) := by decide
example : exTree.strPartition "_ab,cd,ef_".toList ";".toList = .error .valueError := by decide

/-! ## C17 -/

theorem complement_kidsOK {p : Span} {cover gaps : List Span} (h : Complement p.start p.stop cover gaps) :
    KidsOK p gaps := by
  refine ⟨fun g hg => by have := h.inside g hg; omega, ?_⟩
  refine List.Pairwise.imp_of_mem ?_ h.ordered
  intro a b ha hb hab
  have := h.inside a ha
  omega

/-- C17: `invert_children` never raises; the result has the same span, desc and value function, and its
children are childless, carry `desc`, and are exactly the complement of the children in the Ito.
(The original is a value here; that the heap object is untouched is part of C23.) -/
theorem C17_invert_children (s : List α) (n : Node) (h : WF n) (hl : n.stop ≤ s.length)
    (desc : Option String) :
    ∃ r, n.invertChildren s desc = .ok r ∧ r.span = n.span ∧ r.desc = n.desc ∧ r.vf = n.vf ∧ WF r ∧
      Complement n.start n.stop (n.kids.map Node.span) (r.kids.map Node.span) ∧
      ∀ k ∈ r.kids, k.kids = [] ∧ k.desc = desc := by
  have h0 := h.start_nonneg
  have h1 := h.start_le
  have hc : n.cloneWith s.length none none none false = .ok (.mk n.span n.desc n.vf []) := by
    rw [C23_clone_with s.length n h hl none none none false n.span ?_ (by simp)]
    · rfl
    · simp only [Option.getD_none]
      rw [fromIndices_span h0 h1 hl]
      rfl
  unfold Node.invertChildren
  rw [hc]
  dsimp only
  have hwf : ∀ ks : List Node, KidsOK n.span (ks.map Node.span) → (∀ k ∈ ks, k.kids = []) →
      WF (.mk n.span n.desc n.vf ks) := by
    intro ks hks hch
    refine .mk h0 h1 hks (fun k hk => ?_)
    cases k with | mk ks' kd kv kk =>
    have := hch _ hk
    simp only [Node.kids] at this
    subst this
    have hi := hks.inside ks' (List.mem_map.mpr ⟨_, hk, rfl⟩)
    simp only [Node.start] at h0
    exact .mk (by omega) (by omega) (Kids.kidsOK_nil _) (by simp)
  by_cases hz : n.stop - n.start = 0
  · rw [if_pos hz]
    exact ⟨_, rfl, rfl, rfl, rfl, hwf [] (Kids.kidsOK_nil _) (by simp),
      Complement.empty _ (by omega), by simp [Node.kids]⟩
  · rw [if_neg hz]
    have hk := h.kidsOK
    obtain ⟨g1, g2, g3⟩ := C16_from_gaps_partial (.ito ((Node.mk n.span n.desc n.vf []).flat s))
      ⟨h0, h1, hl⟩ (n.kids.map fun k => .ito (k.flat s)) (n.kids.map Node.span)
      (by
        rw [List.map_map, List.map_map]
        apply List.map_congr_left
        intro k _
        simp [NonGap.resolve, Node.flat, Src.basis])
      (by
        refine List.Pairwise.imp_of_mem ?_ hk.ordered
        intro a b ha hb hab
        have := hk.inside b hb
        omega)
      (by
        intro c hc
        have := hk.inside c hc
        refine ⟨this.2.1, ?_⟩
        show n.span.start ≤ _
        omega)
      (Or.inl (by show n.start < n.stop; omega)) desc
    rw [g1]
    dsimp only
    have hko : KidsOK n.span (((fromGaps (.ito ((Node.mk n.span n.desc n.vf []).flat s))
        (n.kids.map fun k => .ito (k.flat s)) desc false).out.map Node.ofFlat).map Node.span) := by
      rw [List.map_map]
      exact complement_kidsOK (p := n.span) g2
    rw [show (Node.mk n.span n.desc n.vf []).span = n.span from rfl,
      show (Node.mk n.span n.desc n.vf []).kids = [] from rfl,
      Kids.addAll_ordered [] _ (by simpa using hko)]
    refine ⟨_, rfl, rfl, rfl, rfl, hwf _ (by simpa using hko) ?_, ?_, ?_⟩
    · intro k hk
      simp only [List.nil_append, List.mem_map] at hk
      obtain ⟨x, _, rfl⟩ := hk
      rfl
    · simp only [Node.kids, List.nil_append, List.map_map]
      exact g2
    · intro k hk
      simp only [Node.kids, List.nil_append, List.mem_map] at hk
      obtain ⟨x, hx, rfl⟩ := hk
      exact ⟨rfl, (g3 x hx).2⟩

example : (exTree.invertChildren "0123456789".toList (some "gap")).toOption.map
    (fun r => r.kids.map Node.span) = some [⟨4, 6⟩] := by decide

/-! ## C21, `strip_to_children` -/

/-- C21: `strip_to_children` of an Ito with children never raises and gives an Ito whose span is the
smallest containing the children, with equal children and the same desc. -/
theorem C21_strip_to_children (len : Nat) (n : Node) (h : WF n) (hl : n.stop ≤ len)
    (hk : n.kids ≠ []) :
    ∃ r, n.stripToChildren len = .ok r ∧ TightHull (n.kids.map Node.span) r.span ∧
      r.kids = n.kids ∧ r.desc = n.desc ∧ r.vf = n.vf := by
  have hko := h.kidsOK
  cases hf : n.kids with
  | nil => exact absurd hf hk
  | cons f t =>
    obtain ⟨l, hlast⟩ : ∃ l, n.kids.getLast? = some l := by
      rw [hf, List.getLast?_cons]; exact ⟨_, rfl⟩
    have hfm : f ∈ n.kids := by rw [hf]; simp
    have hlm : l ∈ n.kids := List.mem_of_getLast? hlast
    have hstart : ∀ k ∈ n.kids, f.start ≤ k.start := by
      intro k hk'
      have ho := hko.ordered
      rw [hf, List.map_cons] at ho
      rw [hf, List.mem_cons] at hk'
      rcases hk' with rfl | hk'
      · exact Int.le_refl _
      · have := (List.pairwise_cons.mp ho).1 k.span (List.mem_map.mpr ⟨k, hk', rfl⟩)
        simp only [Node.start]; omega
    have hstop : ∀ k ∈ n.kids, k.stop ≤ l.stop := by
      intro k hk'
      rcases List.eq_nil_or_concat n.kids with e | ⟨i, l', e⟩
      · exact absurd e hk
      · rw [List.concat_eq_append] at e
        have : l' = l := by
          rw [e] at hlast; simpa using hlast
        subst this
        have ho := hko.ordered
        rw [e, List.map_append] at ho
        rw [e, List.mem_append, List.mem_singleton] at hk'
        rcases hk' with hk' | rfl
        · have := (List.pairwise_append.mp ho).2.2 k.span (List.mem_map.mpr ⟨k, hk', rfl⟩) l'.span
            (by simp)
          have h2 := hko.inside l'.span (List.mem_map.mpr ⟨l', hlm, rfl⟩)
          simp only [Node.stop]; omega
        · exact Int.le_refl _
    have hull : ∀ sp : Span, sp.start = f.start → sp.stop = l.stop →
        TightHull (n.kids.map Node.span) sp := by
      intro sp e1 e2
      refine ⟨?_, ⟨f.span, List.mem_map.mpr ⟨f, hfm, rfl⟩, e1.symm⟩,
        ⟨l.span, List.mem_map.mpr ⟨l, hlm, rfl⟩, e2.symm⟩⟩
      intro c hc
      obtain ⟨k, hk', rfl⟩ := List.mem_map.mp hc
      rw [e1, e2]
      exact ⟨hstart k hk', hstop k hk'⟩
    have fi := h.kid_inside hfm
    have li := h.kid_inside hlm
    have hfl : f.start ≤ l.stop := by
      have := hstop f hfm
      have := (h.kid hfm).start_le
      omega
    unfold Node.stripToChildren
    rw [hlast]
    rw [hf] at hull ⊢
    simp only [List.head?_cons]
    by_cases hc : f.start > n.start ∨ l.stop < n.stop
    · rw [if_pos hc]
      have h0 := h.start_nonneg
      rw [C23_clone_with len n h hl (some f.start) (some l.stop) none true ⟨f.start, l.stop⟩
        (by rw [fromIndices_span] <;> simp <;> omega)
        (fun _ k hk' => ⟨hstart k hk', hstop k hk'⟩)]
      exact ⟨_, rfl, hull _ rfl rfl, by simp only [if_true, Node.kids]; exact hf, rfl, rfl⟩
    · rw [if_neg hc]
      exact ⟨n, rfl, hull _ (by simp only [Node.start] at *; omega)
        (by simp only [Node.stop] at *; omega), hf, rfl, rfl⟩

example : ((Node.mk ⟨0, 9⟩ none none exTree.kids).stripToChildren 10).toOption.map Node.span =
    some ⟨1, 9⟩ := by decide

/-! ## C32 -/

/-- C32: `walk_descendants_levels(start)` of the node at path `p` yields exactly the proper
descendants, each with its level, in document order (so each exactly once). -/
theorem C32_walk (n : Node) (p : List Nat) (lvl : Int) :
    (∀ l q, (l, q) ∈ n.walkLevels false lvl p ↔
      ∃ i r, q = p ++ i :: r ∧ IsNode n (i :: r) ∧ l = lvl + r.length) ∧
    (n.walkLevels false lvl p).Pairwise (fun a b => DocLt a.2 b.2) :=
  ⟨fun l q => Node.walkLevels_mem false lvl p (l, q) n, Node.walkLevels_sorted lvl p n⟩

/-- C32: `reverse=True` yields exactly the reversed sequence, levels included. -/
theorem C32_walk_reverse (n : Node) (p : List Nat) (lvl : Int) :
    n.walkLevels true lvl p = (n.walkLevels false lvl p).reverse := Node.walkLevels_rev lvl p n

/-- C32: `walk_descendants` is the same sequence of nodes. -/
theorem C32_walk_descendants (n : Node) (p : List Nat) :
    (∀ q, q ∈ n.walk false p ↔ ∃ i r, q = p ++ i :: r ∧ IsNode n (i :: r)) ∧
    (n.walk false p).Pairwise DocLt ∧ n.walk true p = (n.walk false p).reverse := by
  unfold Node.walk
  refine ⟨fun q => ?_, ?_, ?_⟩
  · simp only [List.mem_map, Prod.exists, exists_and_right, exists_eq_right]
    constructor
    · rintro ⟨l, h⟩
      obtain ⟨i, r, h1, h2, _⟩ := ((C32_walk n p 0).1 l q).mp h
      exact ⟨i, r, h1, h2⟩
    · rintro ⟨i, r, h1, h2⟩
      exact ⟨0 + r.length, ((C32_walk n p 0).1 _ q).mpr ⟨i, r, h1, h2, rfl⟩⟩
  · rw [List.pairwise_map]
    exact (C32_walk n p 0).2
  · rw [C32_walk_reverse, List.map_reverse]

example : exTree.walkLevels false 0 [] = [(0, [0]), (1, [0, 0]), (0, [1]), (0, [2])] := by decide
example : exTree.walk true [] = [[2], [1], [0, 0], [0]] := by decide

end Pawpaw.Props
