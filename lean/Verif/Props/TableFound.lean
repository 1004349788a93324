import Verif.Props.TableItor
/-!
# C97: when a table with an indentation is found, and when it is not
-/
set_option linter.unusedSectionVars false
set_option linter.unusedSimpArgs false
namespace Pawpaw.Props
open Pawpaw Pawpaw.Regex Pawpaw.Match Pawpaw.Xml Pawpaw.Table RegexSpec TreeSpec TableSpec

/-- Two texts with the same first line. -/
theorem line_inj : ∀ {a b u v : List Char}, '\n' ∉ a → '\n' ∉ b → a ++ '\n' :: u = b ++ '\n' :: v → a = b ∧ u = v
  | [], [], u, v, _, _, h => by simpa using h
  | [], c :: b, u, v, _, hb, h => by
    simp only [List.nil_append, List.cons_append, List.cons.injEq] at h
    simp [← h.1] at hb
  | c :: a, [], u, v, ha, _, h => by
    simp only [List.nil_append, List.cons_append, List.cons.injEq] at h
    simp [h.1] at ha
  | c :: a, d :: b, u, v, ha, hb, h => by
    simp only [List.cons_append, List.cons.injEq] at h
    simp only [List.mem_cons, not_or] at ha hb
    obtain ⟨h1, h2⟩ := line_inj ha.2 hb.2 h.2
    exact ⟨by rw [h.1, h1], h2⟩

theorem ind_inj {p : Char → Prop} : ∀ {a b u v : List Char} {c d : Char}, (∀ x ∈ a, p x) → (∀ x ∈ b, p x) → ¬ p c → ¬ p d →
    a ++ c :: u = b ++ d :: v → a = b
  | [], [], _, _, _, _, _, _, _, _, _ => rfl
  | [], e :: b, u, v, c, d, _, hb, hc, _, h => by
    simp only [List.nil_append, List.cons_append, List.cons.injEq] at h
    exact absurd (hb e (by simp)) (by rw [← h.1]; exact hc)
  | e :: a, [], u, v, c, d, ha, _, _, hd, h => by
    simp only [List.nil_append, List.cons_append, List.cons.injEq] at h
    exact absurd (ha e (by simp)) (by rw [h.1]; exact hd)
  | e :: a, f :: b, u, v, c, d, ha, hb, hc, hd, h => by
    simp only [List.cons_append, List.cons.injEq] at h
    rw [h.1, ind_inj (fun x hx => ha x (by simp [hx])) (fun x hx => hb x (by simp [hx])) hc hd h.2]

/-- The start of a line that lies in a run of lines is the start of one of them. -/
theorem line_boundary : ∀ {bl : List (List Char)} {d X R : List Char}, (∀ l ∈ bl, '\n' ∉ l) → (d = [] ∨ ∃ w, d = w ++ ['\n']) →
    d ++ X = joined bl ++ R → d.length < (joined bl).length → ∃ l1 l2, bl = l1 ++ l2 ∧ d = joined l1 ∧ l2 ≠ []
  | [], d, X, R, _, _, _, h => by simp [joined] at h
  | l :: bl, d, X, R, h1, h2, h3, h4 => by
    rcases h2 with rfl | ⟨w, rfl⟩
    · exact ⟨[], l :: bl, rfl, rfl, by simp⟩
    · rw [joined_cons] at h3 h4
      -- the line break that ends `w` is not within `l`
      have hle : l.length ≤ w.length := by
        rcases Nat.lt_or_ge w.length l.length with h | h
        · exfalso
          have := congrArg (fun z => z[w.length]?) h3
          simp only [List.append_assoc, List.singleton_append] at this
          rw [List.getElem?_append_right (Nat.le_refl _), List.getElem?_append_left h] at this
          simp at this
          exact h1 l (by simp) (List.mem_of_getElem? this.symm)
        · exact h
      obtain ⟨e, he⟩ : ∃ e, w ++ ['\n'] = l ++ '\n' :: e ∧ (e = [] ∨ ∃ w', e = w' ++ ['\n']) := by
        have h5 := congrArg (List.take (w.length + 1)) h3
        rw [List.take_left' (by simp)] at h5
        rw [List.append_assoc, List.take_append, List.take_of_length_le (by omega)] at h5
        obtain ⟨k, hk⟩ : ∃ k, w.length + 1 - l.length = k + 1 := ⟨w.length - l.length, by omega⟩
        rw [hk, List.cons_append, List.take_succ_cons] at h5
        refine ⟨_, h5, ?_⟩
        rcases List.eq_nil_or_concat (List.take k (joined bl ++ R)) with h0 | ⟨q, c, h0⟩
        · exact Or.inl h0
        · rw [h0, List.concat_eq_append] at h5 ⊢
          right
          have h5' : w ++ ['\n'] = (l ++ '\n' :: q) ++ [c] := by rw [h5]; simp
          have := (List.append_inj' h5' rfl).2
          exact ⟨q, by rw [← this]⟩
      obtain ⟨he1, he2⟩ := he
      rw [he1] at h3 h4
      have h6 : e ++ X = joined bl ++ R := by
        simp only [List.append_assoc, List.cons_append] at h3
        have := List.append_cancel_left h3
        simpa using this
      have h7 : e.length < (joined bl).length := by
        simp only [List.length_append, List.length_cons] at h4
        omega
      obtain ⟨l1, l2, g1, g2, g3⟩ := line_boundary (fun l hl => h1 l (by simp [hl])) he2 h6 h7
      exact ⟨l :: l1, l2, by rw [g1]; rfl, by rw [he1, joined_cons, g2], g3⟩

/-- Lines of a text that follow the start of a run, where the run is as long as can be. -/
theorem lines_prefix {ind : List Char} : ∀ {ls bl : List (List Char)} {A R : List Char}, (∀ l ∈ ls, IsLine ind l ∧ '\n' ∉ l) →
    (∀ l ∈ bl, '\n' ∉ l) → (∀ l w, IsLine ind l → R ≠ l ++ '\n' :: w) → joined bl ++ R = joined ls ++ A → ∃ l3, bl = ls ++ l3
  | [], bl, _, _, _, _, _, _ => ⟨bl, rfl⟩
  | l :: ls, [], A, R, h1, _, h3, h4 => by
    rw [joined_cons] at h4
    simp only [joined, List.flatMap_nil, List.nil_append, List.append_assoc, List.cons_append] at h4
    exact absurd h4 (h3 l _ (h1 l (by simp)).1)
  | l :: ls, m :: bl, A, R, h1, h2, h3, h4 => by
    rw [joined_cons, joined_cons] at h4
    simp only [List.append_assoc, List.cons_append] at h4
    obtain ⟨e1, e2⟩ := line_inj (h2 m (by simp)) (h1 l (by simp)).2 h4
    obtain ⟨l3, e3⟩ := lines_prefix (fun l hl => h1 l (by simp [hl])) (fun l hl => h2 l (by simp [hl])) h3 e2
    exact ⟨l3, by rw [e1, e3]; rfl⟩

/-- **C97 (partial).** A table with an indentation is found: in a text in which no line is blank, where the parts of a table
stand, the first line at the start of a line of the text, and every line of it with the same indentation and at least two
characters, there is a table of the result.  Missing: texts with blank lines (`C97_lost_violated`). -/
theorem C97_found_partial (S : Style) (hS : PlainStyle S) (he : S.equi = true) (seen : Nat → Nat) (x : FIto Char)
    (hx : 0 ≤ x.start ∧ x.start ≤ x.stop ∧ x.stop ≤ x.string.length) (hn : NoBlankLine (x.string.take x.stop.toNat))
    (before ind after : List Char) (P : Parts) (hP : Fits S P) (lines : List (List Char))
    (hs : x.string.take x.stop.toNat = before ++ ind ++ textOf (P.pieces ind) ++ after) (hb : x.start ≤ before.length)
    (hseen : seen x.start.toNat = 0 ∨ seen x.start.toNat < before.length) (h1 : AtLineStart before) (h2 : AtLineEnd after)
    (hind : ∀ c ∈ ind, c = ' ' ∨ c = '\t') (hl : ind ++ textOf (P.pieces ind) ++ ['\n'] = joined lines)
    (hlines : ∀ l ∈ lines, IsLine ind l ∧ '\n' ∉ l) :
    ∃ l, getItor S seen x = .ok l ∧ ∃ n ∈ l, n.span.start ≤ before.length + ind.length ∧ before.length < n.span.stop := by
  have hnl : '\n' ∈ textOf (P.pieces ind) := by
    cases hr : P.rows with
    | nil => exact absurd hr (sepsFit_ne hP.seps)
    | cons r rs =>
      rw [pieces_eq]
      simp only [textOf_append, textOf_rows, hr, List.mem_append]
      left; right
      simp [rowsText, cellText, nl]
  have hlen2 : 2 ≤ lines.length := by
    match lines, hl with
    | [], hl => simp [joined] at hl
    | [l], hl =>
      rw [show joined [l] = l ++ ['\n'] by simp [joined]] at hl
      have := (List.append_inj' hl rfl).1
      exact absurd (by rw [← this]; simp [hnl]) (hlines l (by simp)).2
    | _ :: _ :: _, _ => simp
  -- the table as a block
  have hsx : ∃ A, x.string.take x.stop.toNat ++ ['\n'] = before ++ (joined lines ++ A) := by
    rcases h2 with rfl | ⟨w, rfl⟩
    · exact ⟨[], by rw [hs, ← hl]; simp⟩
    · exact ⟨w ++ ['\n'], by rw [hs, ← hl]; simp⟩
  have hcov : ∃ u a', x.string.take x.stop.toNat = before ++ u ++ a' ∧ Block ind lines u a' := by
    rcases h2 with rfl | ⟨w, rfl⟩
    · exact ⟨ind ++ textOf (P.pieces ind), [], by rw [hs]; simp, hind, hlen2, fun l hl => (hlines l hl).1, Or.inr ⟨hl, Or.inl rfl⟩⟩
    · exact ⟨ind ++ textOf (P.pieces ind) ++ ['\n'], w, by rw [hs]; simp, hind, hlen2, fun l hl => (hlines l hl).1, Or.inl hl⟩
  obtain ⟨u0, a0, hs0, hB0⟩ := hcov
  obtain ⟨bs, g1, g2, g3, g4⟩ := blocks_found seen x hx
  obtain ⟨b, hbm, c1, c2⟩ := g4 before ind lines u0 a0 hs0 hb hseen h1 hB0
  have hbin := g2 b hbm
  obtain ⟨bb, bu, ba, e1, e2, e3, e4, e5, e6, e7⟩ := g2 b hbm
  have hclean := block_clean hn e1 e5 e6
  -- the block, and what follows it
  obtain ⟨R, r1, r2, r3⟩ : ∃ R, x.string.take x.stop.toNat ++ ['\n'] = bb ++ (joined b.lines ++ R) ∧
      (∀ l w, IsLine b.ind l → R ≠ l ++ '\n' :: w) ∧ bu.length ≤ (joined b.lines).length := by
    obtain ⟨_, _, _, f4⟩ := e6
    rcases f4 with f4 | ⟨f4, f5⟩
    · refine ⟨ba ++ ['\n'], by rw [e1, f4]; simp, ?_, by rw [f4]; exact Nat.le_refl _⟩
      intro l w hl' h
      obtain ⟨q1, q2⟩ := e7 l hl'
      rcases List.eq_nil_or_concat w with rfl | ⟨w', c, rfl⟩
      · exact q1 (List.append_inj' h rfl).1
      · have := dropLast_split h (by simp)
        exact q2 _ this
    · refine ⟨ba, ?_, ?_, by rw [← f4]; simp⟩
      · rcases f5 with rfl | rfl
        · rw [e1, ← f4]; simp
        · rw [e1, ← f4]; simp
      · intro l w hl' h
        have := congrArg List.length h
        have := isLine_length hl'
        rcases f5 with rfl | rfl <;> simp at * <;> omega
  obtain ⟨A, hA⟩ := hsx
  -- the first line of the table is a line of the block
  obtain ⟨d, hd⟩ : ∃ d, before = bb ++ d := by
    have : bb <+: before := by
      have p1 : bb <+: x.string.take x.stop.toNat ++ ['\n'] := by rw [r1]; exact List.prefix_append _ _
      have p2 : before <+: x.string.take x.stop.toNat ++ ['\n'] := by rw [hA]; exact List.prefix_append _ _
      exact List.prefix_of_prefix_length_le p1 p2 (by omega)
    obtain ⟨d, hd⟩ := this
    exact ⟨d, hd.symm⟩
  subst hd
  have hdd : d ++ (joined lines ++ A) = joined b.lines ++ R := by
    rw [r1, List.append_assoc] at hA
    exact (List.append_cancel_left hA).symm
  have hdl : d.length < (joined b.lines).length := by
    rw [List.length_append] at c2
    omega
  have hds : d = [] ∨ ∃ w, d = w ++ ['\n'] := by
    rcases List.eq_nil_or_concat d with rfl | ⟨q, c, rfl⟩
    · exact Or.inl rfl
    · right
      rcases h1 with h | ⟨w, h⟩
      · simp at h
      · rw [List.concat_eq_append, ← List.append_assoc] at h
        have := (List.append_inj' h rfl).2
        simp at this
        exact ⟨q, by rw [List.concat_eq_append, this]⟩
  obtain ⟨l1, l2, k1, k2, k3⟩ := line_boundary hclean hds hdd hdl
  have hrest : joined l2 ++ R = joined lines ++ A := by
    rw [k1, k2, joined_append, List.append_assoc] at hdd
    exact (List.append_cancel_left hdd).symm
  -- it has the same indentation
  have hii : b.ind = ind := by
    cases l2 with
    | nil => exact absurd rfl k3
    | cons m l2 =>
      cases lines with
      | nil => simp at hlen2
      | cons l ls =>
        rw [joined_cons, joined_cons] at hrest
        simp only [List.append_assoc, List.cons_append] at hrest
        obtain ⟨q, _⟩ := line_inj (hclean m (by rw [k1]; simp)) (hlines l (by simp)).2 hrest
        obtain ⟨c, v, o1, o2, o3⟩ := isLine_clean (e6.2.2.1 m (by rw [k1]; simp))
        obtain ⟨c', v', o1', o2', o3'⟩ := isLine_clean (hlines l (by simp)).1
        exact ind_inj (p := fun c => c = ' ' ∨ c = '\t') (c := c) (d := c') e6.1 hind (by simp [o1, o2]) (by simp [o1', o2']) (by rw [← o3, q, ← o3'])
  rw [hii] at r2
  obtain ⟨l3, k4⟩ := lines_prefix hlines (fun l hl => hclean l (by rw [k1]; simp [hl])) r2 hrest
  -- so the table lies in the block
  obtain ⟨a2, m1, m2⟩ : ∃ a2, bb ++ bu = (bb ++ d) ++ (ind ++ (textOf (P.pieces ind) ++ a2)) ∧ AtLineEnd a2 := by
    have hj : joined b.lines = d ++ (ind ++ (textOf (P.pieces ind) ++ '\n' :: joined l3)) := by
      rw [k1, k4, joined_append, joined_append, ← hl, k2]; simp
    rcases e6.2.2.2 with f4 | ⟨f4, _⟩
    · exact ⟨'\n' :: joined l3, by rw [f4, hj]; simp, Or.inr ⟨_, rfl⟩⟩
    · rw [hj] at f4
      refine ⟨('\n' :: joined l3).dropLast, ?_, ?_⟩
      · have := congrArg List.dropLast f4
        rw [List.dropLast_concat, List.dropLast_append_of_ne_nil (by simp), List.dropLast_append_of_ne_nil (by simp),
          List.dropLast_append_of_ne_nil (by simp)] at this
        rw [this]; simp
      · cases joined l3 with
        | nil => left; rfl
        | cons c q => right; exact ⟨_, rfl⟩
  obtain ⟨y1, y2, y3, y4⟩ := blk_ok hx hbin
  have hstop : (b.ito x).string.take (b.ito x).stop.toNat = bb ++ bu := by
    show x.string.take ((b.stop : Int)).toNat = bb ++ bu
    have hle : b.stop ≤ x.stop.toNat := by
      have : (b.stop : Int) ≤ x.stop := y4
      omega
    have : x.string.take b.stop = (x.string.take x.stop.toNat).take b.stop := by rw [List.take_take, Nat.min_eq_left hle]
    rw [Int.toNat_natCast, this, e1, List.take_left' (by rw [List.length_append]; omega)]
  obtain ⟨ts, t1, t2, t3, t4⟩ := tables_found S hS seen (b.ito x) ⟨y1, y2, y3⟩
  obtain ⟨t, ht, v1, v2⟩ := t4 (bb ++ d) (ind ++ (textOf (P.pieces ind) ++ a2)) (by rw [hstop, m1]) (by
      show (b.start : Int) ≤ _
      omega) (by
    unfold buildRe
    rw [he]
    simp only [if_true]
    have hm := plain_complete (r := Table.blank) trivial (st := ⟨(bb ++ d).length, ind ++ (textOf (P.pieces ind) ++ a2), []⟩) (u := ind)
      (w := textOf (P.pieces ind) ++ a2) rfl ((lang_many_chr _ _).2 (by
        intro c hc
        rcases hind c hc with h | h <;> simp [h]))
    rw [out.eq_11, out.eq_6]
    intro h0
    rw [List.flatMap_eq_nil_iff] at h0
    have h0 := h0 _ (List.mem_map_of_mem hm)
    dsimp only at h0
    rw [Nat.add_sub_cancel_left, List.take_left] at h0
    exact body_ne hS hP rfl m2 h0)
  obtain ⟨hs', u1, u2, u3⟩ := itor_found S hS he seen x hx bs g2
  have hmem : b ∈ hs'.map (·.1) := by rw [u2]; exact hbm
  obtain ⟨p, hp, hpe⟩ := List.mem_map.1 hmem
  subst hpe
  have heq := (u3 p hp).1
  rw [t1] at heq
  have hmap := Except.ok.inj heq
  refine ⟨hs'.flatMap fun p => p.2.map fun t => tableTree t.ind t.at_ t.parts, ?_, tableTree t.ind t.at_ t.parts, ?_, ?_, ?_⟩
  · unfold getItor
    rw [he, g1]
    simp only [if_true]
    exact u1
  · refine List.mem_flatMap.2 ⟨p, hp, ?_⟩
    rw [← hmap]
    exact List.mem_map_of_mem (f := fun t : Hit => tableTree t.ind t.at_ t.parts) ht
  · show ((t.at_ : Nat) : Int) ≤ _
    -- the indentation of the table found cannot reach beyond that of the line
    rcases Nat.lt_or_ge ((bb ++ d).length + ind.length) t.at_ with hlt | hge
    · exfalso
      obtain ⟨B, Z, z1, z2, z3, z4, z5⟩ := (t2 t ht).place
      rw [hstop, m1] at z1
      obtain ⟨c, v, o1, o2, o3⟩ : ∃ c v, c ≠ ' ' ∧ c ≠ '\t' ∧ ind ++ (textOf (P.pieces ind) ++ a2) = ind ++ c :: v := by
        cases lines with
        | nil => simp at hlen2
        | cons l ls =>
          obtain ⟨c, v, o1, o2, o3⟩ := isLine_clean (hlines l (by simp)).1
          rw [joined_cons, o3] at hl
          cases ht0 : textOf (P.pieces ind) with
          | nil => rw [ht0] at hnl; cases hnl
          | cons c' v' =>
            rw [ht0] at hl
            simp only [List.append_assoc, List.cons_append] at hl
            have := List.append_cancel_left hl
            simp only [List.cons.injEq] at this
            exact ⟨c', v' ++ a2, by rw [this.1]; exact o1, by rw [this.1]; exact o2, by simp⟩
      rw [o3] at z1
      have hL : ((bb ++ d) ++ (ind ++ c :: v))[(bb ++ d).length + ind.length]? = some c := by
        rw [List.getElem?_append_right (by omega), Nat.add_sub_cancel_left, List.getElem?_append_right (Nat.le_refl _), Nat.sub_self]
        rfl
      have hR : ∀ (X : List Char) (n : Nat), B.length ≤ n → n < B.length + t.ind.length →
          (B ++ t.ind ++ X ++ Z)[n]? = t.ind[n - B.length]? := by
        intro X n q1 q2
        rw [List.append_assoc, List.append_assoc, List.getElem?_append_right q1, List.getElem?_append_left (by omega)]
      have hget := hR (textOf (t.parts.pieces t.ind)) ((bb ++ d).length + ind.length) (by omega) (by omega)
      rw [← z1, hL] at hget
      have := (t2 t ht).blank c (List.mem_of_getElem? hget.symm)
      rcases this with h | h
      · exact o1 h
      · exact o2 h
    · omega
  · show (((bb ++ d).length : Nat) : Int) < ((t.stop : Nat) : Int)
    omega

/-- **C97 fails here.** Tables of a block are not told apart: when a table is followed by a line with its indentation, a later table
with the same indentation has but one row, and there is none if the style has no end of its own; all between is taken for
rows of the first. -/
theorem C97_one_table_violated (S : Style) (hS : PlainStyle S) (hpc : S.postCaption = none) (seen : Nat → Nat) (x : FIto Char)
    (hx : 0 ≤ x.start ∧ x.start ≤ x.stop ∧ x.stop ≤ x.string.length) :
    ∃ ts : List Hit, tables S seen x = .ok (ts.map fun t => tableTree t.ind t.at_ t.parts) ∧
      ts.Pairwise fun a b => a.ind = b.ind → nl a.ind <+: (x.string.take x.stop.toNat).drop a.stop →
        S.tableEnd ≠ none ∧ b.parts.rows.length = 1 := by
  have hlen : x.text.length = x.stop.toNat - x.start.toNat :=
    FIto.text_length (x := x) (a := x.start.toNat) (b := x.stop.toNat) (by omega) (by omega) (by omega)
  have htext : x.text = (x.string.take x.stop.toNat).drop x.start.toNat :=
    FIto.text_eq (x := x) (a := x.start.toNat) (b := x.stop.toNat) (by omega) (by omega)
  have hok := finditer_ok (noLook_build hS (x.string.take x.stop.toNat) (seen x.start.toNat)) (i := x.start.toNat) (rest := x.text)
  obtain ⟨ts, g1, g2, g3, g5, g4⟩ := loop_tables hS x.string.length (x.string.take x.stop.toNat) (seen x.start.toNat) x.start.toNat
    x.text (by omega) (finditer (buildRe S (x.string.take x.stop.toNat) (seen x.start.toNat)) x.start.toNat x.text) []
    (fun f hf => hf) hok.2
  refine ⟨ts, ?_, ?_⟩
  · unfold tables extractRe fromRe
    rw [g1]
    simp
  refine List.Pairwise.imp_of_mem ?_ g4
  intro t1 t ht1 ht hle hi hp
  obtain ⟨f1, _, pre1, s1, z1, m1, e3, e1⟩ := g3 t1 ht1
  obtain ⟨f2, _, pre2, s2, z2, m2, e2, e4⟩ := g3 t ht
  rw [← hi] at m2 hle
  have q1 := m1.stop
  have q2 := m2.start
  have q3 := m2.pos
  refine second_match hpc m1 m2 (by omega) ?_
  have hz : z1.rest = x.text.drop (t1.stop - x.start.toNat) := by
    have a2 := m1.body.reads.2
    have a3 := m1.pos
    rw [m1.split, m1.body.reads.1, ← List.append_assoc, List.drop_left' (by simp only [List.length_append]; omega)]
  have hge : x.start.toNat ≤ t1.stop := by
    have a2 := m1.body.reads.2
    have a3 := m1.pos
    omega
  rw [hz, htext, List.drop_drop, Nat.add_sub_of_le hge]
  exact hp

end Pawpaw.Props
