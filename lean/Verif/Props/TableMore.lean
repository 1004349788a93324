import Verif.Props.Table
/-!
# C96: which tables are found, and how many
-/
set_option linter.unusedSectionVars false
set_option linter.unusedSimpArgs false
namespace Pawpaw.Props
open Pawpaw Pawpaw.Regex Pawpaw.Match Pawpaw.Xml Pawpaw.Table RegexSpec TreeSpec TableSpec

/-- Where the parts of a table stand, its pattern matches. -/
theorem body_ne {S : Style} (hS : PlainStyle S) {ind : List Char} {P : Parts} (hP : Fits S P) {st : St} {w : List Char}
    (hr : st.rest = textOf (P.pieces ind) ++ w) (hw : AtLineEnd w) : out (bodyRe S ind) st ≠ [] := by
  rw [body_out]
  rw [pieces_eq] at hr
  simp only [textOf_append, textOf_rows, List.append_assoc] at hr
  obtain ⟨c1, m1⟩ := out_complete (preRe S ind) st _ _ hr (by
    unfold preRe prePieces
    cases hp : P.pre with
    | none =>
      cases S.preCaption with
      | none => exact rfl
      | some p => exact Or.inr rfl
    | some u =>
      obtain ⟨p, h1, h2⟩ := hP.pre u hp
      rw [h1]
      exact Or.inl ⟨u, nl ind, by simp [textOf], h2, (lang_br ind _).2 rfl⟩)
  obtain ⟨c2, m2⟩ := out_complete S.tableStart ⟨_, _, c1⟩ P.start _ (show textOf [(none, P.start)] ++ _ = P.start ++ _ by
      rw [show textOf [(none, P.start)] = P.start by simp [textOf]]) hP.start
  obtain ⟨c3, m3⟩ := out_complete (headerRe S ind) ⟨_, _, c2⟩ (textOf (headPieces ind P.header)) _ rfl (by
    unfold headerRe headPieces
    cases hp : P.header with
    | none =>
      cases S.headerRowEnd with
      | none => exact rfl
      | some p => exact Or.inr rfl
    | some h =>
      obtain ⟨h, s⟩ := h
      obtain ⟨h0, p, h1, h2⟩ := hP.header h s hp
      rw [h1]
      exact Or.inl ((lang_cell _).2 ⟨h, s, h0, h2, by rw [textOf_cell]⟩))
  intro h0
  rw [List.flatMap_eq_nil_iff] at h0
  have h0 := h0 _ m1
  rw [List.flatMap_eq_nil_iff] at h0
  have h0 := h0 _ m2
  rw [List.flatMap_eq_nil_iff] at h0
  have h0 := h0 _ m3
  refine rows_ne (ind := ind) (tail_ne hS (g := fun s => { s with caps := s.caps ++ [("table", st.pos, s.pos)] }) (fun _ => rfl))
    hP.rows hP.seps rfl ?_ h0
  have h3 := hP.post
  unfold CanPost postPieces
  cases hp : S.postCaption with
  | none =>
    rw [hp] at h3
    simp only at h3 ⊢
    rw [h3]
    exact hw
  | some p =>
    rw [hp] at h3
    obtain ⟨u, h4, h5⟩ := h3
    rw [h4]
    exact ⟨u, w, by simp [textOf, List.append_assoc], h5, hw⟩

theorem lineStart_complete' {text : List Char} {lo i : Nat} (hl : lo = 0 ∨ lo < i) (h2 : i ≤ text.length)
    (h : AtLineStart (text.take i)) : NlpRe.endsHere (.alt .bos (.chr (· == '\n'))) text lo i = true := by
  rcases hl with hl | hl
  · exact lineStart_complete hl h2 h
  · have := lineStart_complete (lo := 0) rfl h2 h
    unfold NlpRe.endsHere at this ⊢
    rw [List.any_eq_true] at this ⊢
    obtain ⟨j, hj, h3⟩ := this
    refine ⟨j, hj, ?_⟩
    rw [Bool.and_eq_true] at h3 ⊢
    refine ⟨?_, h3.2⟩
    have h3 := h3.2
    rw [List.any_eq_true] at h3
    obtain ⟨st, hst, hp⟩ := h3
    have hp := eq_of_beq hp
    obtain ⟨u, hu, hl'⟩ : ∃ u : List Char, Reads ⟨j, text.drop j, []⟩ u st ∧ u.length ≤ 1 := by
      rw [out.eq_4] at hst
      rcases List.mem_append.1 hst with hst | hst
      · rw [out] at hst
        split at hst
        · rw [List.mem_singleton] at hst
          subst hst
          exact ⟨[], ⟨rfl, rfl⟩, by simp⟩
        · cases hst
      · rw [out] at hst
        dsimp only at hst
        cases hd : text.drop j with
        | nil => rw [hd] at hst; cases hst
        | cons c cs =>
          rw [hd] at hst
          dsimp only at hst
          split at hst
          · rw [List.mem_singleton] at hst
            subst hst
            exact ⟨[c], ⟨rfl, rfl⟩, by simp⟩
          · cases hst
    have := hu.2
    dsimp only at this
    simp only [decide_eq_true_eq]
    omega

/-- **C96.** No table is passed over, when the style does not look for indentation: where the parts of a table stand, from
the start of a line to the end of a line, there starts a table of the result or one of them lies over the place. -/
theorem C96_complete (S : Style) (hS : PlainStyle S) (he : S.equi = false) (seen : Nat → Nat) (x : FIto Char)
    (hx : 0 ≤ x.start ∧ x.start ≤ x.stop ∧ x.stop ≤ x.string.length) (before after : List Char) (P : Parts) (hP : Fits S P)
    (hs : x.string.take x.stop.toNat = before ++ textOf (P.pieces []) ++ after) (hb : x.start ≤ before.length)
    (hseen : seen x.start.toNat = 0 ∨ seen x.start.toNat < before.length)
    (h1 : AtLineStart before) (h2 : AtLineEnd after) :
    ∃ l, tables S seen x = .ok l ∧ ∃ n ∈ l, n.span.start ≤ before.length ∧ before.length < n.span.stop := by
  have hlen : x.text.length = x.stop.toNat - x.start.toNat :=
    FIto.text_length (x := x) (a := x.start.toNat) (b := x.stop.toNat) (by omega) (by omega) (by omega)
  have htext : x.text = (x.string.take x.stop.toNat).drop x.start.toNat :=
    FIto.text_eq (x := x) (a := x.start.toNat) (b := x.stop.toNat) (by omega) (by omega)
  have hok := finditer_ok (noLook_build hS (x.string.take x.stop.toNat) (seen x.start.toNat)) (i := x.start.toNat) (rest := x.text)
  obtain ⟨ts, g1, g2, g3, g5, g4⟩ := loop_tables hS x.string.length (x.string.take x.stop.toNat) (seen x.start.toNat) x.start.toNat
    x.text (by omega) (finditer (buildRe S (x.string.take x.stop.toNat) (seen x.start.toNat)) x.start.toNat x.text) []
    (fun f hf => hf) hok.2
  refine ⟨ts.map fun t => tableTree t.ind t.at_ t.parts, ?_, ?_⟩
  · unfold tables extractRe fromRe
    rw [g1]
    simp
  have hbl : before.length ≤ x.stop.toNat := by
    have := congrArg List.length hs
    simp only [List.length_append, List.length_take] at this
    omega
  have hpre : (x.string.take x.stop.toNat).take before.length = before := by
    rw [hs, List.append_assoc, List.take_left]
  have hsplit : x.text = before.drop x.start.toNat ++ (textOf (P.pieces []) ++ after) := by
    rw [htext, hs, List.append_assoc, List.drop_append_of_le_length (by omega)]
  have hpos : x.start.toNat + (before.drop x.start.toNat).length = before.length := by
    rw [List.length_drop]; omega
  have hout : out (buildRe S (x.string.take x.stop.toNat) (seen x.start.toNat))
      ⟨x.start.toNat + (before.drop x.start.toNat).length, textOf (P.pieces []) ++ after, []⟩ ≠ [] := by
    rw [hpos]
    unfold buildRe
    rw [he]
    simp only [Bool.false_eq_true, if_false]
    rw [out.eq_3]
    unfold lineStart NlpRe.behind
    rw [out]
    have hlb := lineStart_complete' (text := x.string.take x.stop.toNat) (i := before.length) hseen
      (by rw [List.length_take]; omega) (by rw [hpre]; exact h1)
    rw [if_pos hlb]
    simp only [List.flatMap_cons, List.flatMap_nil, List.append_nil]
    exact body_ne hS hP rfl h2
  obtain ⟨f, hf, hfs⟩ := finditer_covers hout
  rw [← hsplit] at hf
  rw [hpos] at hfs
  obtain ⟨t, ht, e1, e2⟩ := g5 f hf
  obtain ⟨f', hf', pre, s0, z, hm, e3, e4⟩ := g3 t ht
  have hi := (hm.noEqui he).1
  rw [hi] at e1
  simp only [List.length_nil, Nat.add_zero] at e1
  have hne := body_nonempty hm.body
  refine ⟨_, List.mem_map_of_mem ht, ?_, ?_⟩
  · show ((t.at_ : Nat) : Int) ≤ before.length
    omega
  · show ((before.length : Nat) : Int) < ((t.stop : Nat) : Int)
    omega

theorem pairwise_split {τ : Type} {R : τ → τ → Prop} {l : List τ} (h : l.Pairwise R) {b : τ} (hb : b ∈ l.tail) :
    ∃ a ∈ l, R a b := by
  cases l with
  | nil => cases hb
  | cons a l => exact ⟨a, by simp, (List.pairwise_cons.1 h).1 b hb⟩

/-- A second match, in the same text as a first which is followed by a line break and its indentation, has but one row. -/
theorem second_match {S : Style} {text : List Char} {lo i : Nat} {rest : List Char}
    (hpc : S.postCaption = none) {f1 f2 : Found} {pre1 pre2 ind : List Char} {s1 s2 z1 z2 : St} {P1 P2 : Parts}
    (m1 : MatchOf S text lo i rest f1 pre1 ind s1 z1 P1) (m2 : MatchOf S text lo i rest f2 pre2 ind s2 z2 P2)
    (h : f1.stop ≤ f2.start) (hp : nl ind <+: z1.rest) : S.tableEnd ≠ none ∧ P2.rows.length = 1 := by
  have hz1 : rest = (pre1 ++ ind ++ textOf (P1.pieces ind)) ++ z1.rest := by
    rw [m1.split, m1.body.reads.1]; simp [List.append_assoc]
  have hs2 : rest = pre2 ++ (ind ++ s2.rest) := by rw [m2.split]; simp
  have p1 := m1.pos
  have p2 := m2.start
  have p3 := m1.body.reads.2
  have p4 := m1.stop
  -- what lies between the two
  obtain ⟨g0, hgap⟩ : ∃ g0, z1.rest = (g0 ++ ind) ++ s2.rest := by
    have hle : (pre1 ++ ind ++ textOf (P1.pieces ind)).length ≤ pre2.length := by
      rw [List.length_append, List.length_append]
      omega
    refine ⟨pre2.drop (pre1 ++ ind ++ textOf (P1.pieces ind)).length, ?_⟩
    have := congrArg (List.drop (pre1 ++ ind ++ textOf (P1.pieces ind)).length) (hz1.symm.trans hs2)
    rw [List.drop_left, List.drop_append_of_le_length hle] at this
    exact this.trans (List.append_assoc _ _ _).symm
  have hread := m2.body.reads.1
  have hpost : P2.post = none := by
    have := m2.body.fits.post
    rw [hpc] at this
    exact this
  -- the text up to the rows of the second
  obtain ⟨front, hfront⟩ : ∃ front, textOf (P2.pieces ind) = front ++ rowsText ind P2.rows := by
    rw [pieces_eq, hpost]
    simp only [textOf_append, textOf_rows]
    exact ⟨textOf (prePieces ind P2.pre) ++ P2.start ++ textOf (headPieces ind P2.header), by simp [postPieces, textOf]⟩
  rw [hfront] at hread
  have hall : z1.rest = (g0 ++ ind ++ front) ++ (rowsText ind P2.rows ++ z2.rest) := by
    rw [hgap, hread]; simp [List.append_assoc]
  have hrow := m2.body.fits.rows
  -- any first row of the second, with what comes before it, could be a row of the first
  have key : ∀ r sp rs, P2.rows = (r, sp) :: rs → Lang S.rowSep sp → ¬ CanGo S ind AtLineEnd (rowsText ind rs ++ z2.rest) := by
    intro r sp rs hr hl
    rw [hr] at hall
    have hr0 : r ≠ [] := hrow (r, sp) (by rw [hr]; simp)
    have ht : rowsText ind ((r, sp) :: rs) = nl ind ++ r ++ nl ind ++ sp ++ rowsText ind rs := by
      simp [rowsText, cellText]
    rw [ht] at hall
    rcases Nat.lt_or_ge (g0 ++ ind ++ front).length (nl ind).length with hlt | hge
    · have hg0 : g0 = [] := by
        rw [← List.length_eq_zero_iff]
        simp only [List.length_append, nl, List.length_cons] at hlt
        omega
      have hf0 : front = [] := by
        rw [← List.length_eq_zero_iff]
        simp only [List.length_append, nl, List.length_cons] at hlt
        omega
      subst hg0 hf0
      have hi0 : ind = [] := by
        cases hi : ind with
        | nil => rfl
        | cons c q =>
          obtain ⟨w, hw⟩ := hp
          rw [hall, hi] at hw
          simp only [nl, List.cons_append, List.nil_append, List.append_nil, List.cons.injEq] at hw
          rcases m1.blank c (by rw [hi]; simp) with h | h <;> rw [h] at hw <;> simp at hw
      subst hi0
      exact m1.body.noMore hpc r sp _ hr0 hl (by rw [hall]; simp [cellText])
    · obtain ⟨q, hq⟩ : nl ind <+: g0 ++ ind ++ front :=
        List.prefix_of_prefix_length_le hp (by rw [hall]; exact List.prefix_append _ _) hge
      rw [← hq] at hall
      exact m1.body.noMore hpc (q ++ nl ind ++ r) sp _ (by simp [nl]) hl (by rw [hall]; simp [cellText])
  have hfit := m2.body.fits.seps
  have hstop := m2.body.stops
  unfold SepsFit at hfit
  cases hte : S.tableEnd with
  | none =>
    rw [hte] at hfit
    obtain ⟨hne, hall'⟩ := hfit
    cases hr : P2.rows with
    | nil => exact absurd hr hne
    | cons r rs =>
      obtain ⟨r, sp⟩ := r
      exfalso
      refine key r sp rs hr (hall' (r, sp) (by rw [hr]; simp)) ?_
      unfold CanGo
      rw [hte]
      refine ⟨rs, z2.rest, rfl, ?_, hstop⟩
      intro x hx
      exact ⟨hrow x (by rw [hr]; simp [hx]), hall' x (by rw [hr]; simp [hx])⟩
  | some p =>
    rw [hte] at hfit
    obtain ⟨rs, r, s, h1, h2, h3⟩ := hfit
    refine ⟨by simp, ?_⟩
    cases rs with
    | nil => rw [h1]; rfl
    | cons x rs =>
      obtain ⟨r0, sp⟩ := x
      exfalso
      refine key r0 sp (rs ++ [(r, s)]) (by rw [h1]; rfl) (h2 (r0, sp) (by simp)) ?_
      unfold CanGo
      rw [hte]
      refine ⟨rs, cellText ind (r, s) ++ z2.rest, by rw [rowsText_append, rowsText_single, List.append_assoc], ?_, ?_⟩
      · intro x hx
        exact ⟨hrow x (by rw [h1]; simp [hx]), h2 x (by simp [hx])⟩
      · exact ⟨r, s, z2.rest, hrow (r, s) (by rw [h1]; simp), h3, rfl, hstop⟩

/-- **C96 fails here.** Tables are not told apart: when a style has no caption below and does not look for indentation, a
table reaches down to the last line in the text that could end it, and takes all between for its rows.  So at most the first
table of a text has more than one row, and a style without an end of its own never gives a second one. -/
theorem C96_one_table_violated (S : Style) (hS : PlainStyle S) (he : S.equi = false) (hpc : S.postCaption = none)
    (seen : Nat → Nat) (x : FIto Char) (hx : 0 ≤ x.start ∧ x.start ≤ x.stop ∧ x.stop ≤ x.string.length) :
    ∃ ts : List Hit, tables S seen x = .ok (ts.map fun t => tableTree t.ind t.at_ t.parts) ∧
      (∀ t ∈ ts.tail, t.parts.rows.length = 1) ∧ (S.tableEnd = none → ts.length ≤ 1) := by
  have hlen : x.text.length = x.stop.toNat - x.start.toNat :=
    FIto.text_length (x := x) (a := x.start.toNat) (b := x.stop.toNat) (by omega) (by omega) (by omega)
  have hok := finditer_ok (noLook_build hS (x.string.take x.stop.toNat) (seen x.start.toNat)) (i := x.start.toNat) (rest := x.text)
  obtain ⟨ts, g1, g2, g3, g5, g4⟩ := loop_tables hS x.string.length (x.string.take x.stop.toNat) (seen x.start.toNat) x.start.toNat
    x.text (by omega) (finditer (buildRe S (x.string.take x.stop.toNat) (seen x.start.toNat)) x.start.toNat x.text) []
    (fun f hf => hf) hok.2
  have key : ∀ t ∈ ts.tail, S.tableEnd ≠ none ∧ t.parts.rows.length = 1 := by
    intro t ht
    obtain ⟨t1, h1, hle⟩ := pairwise_split (g4.imp fun h => Nat.le_trans (Nat.le_add_right _ _) h) ht
    obtain ⟨f1, _, pre1, s1, z1, m1, e3, e1⟩ := g3 t1 h1
    obtain ⟨f2, _, pre2, s2, z2, m2, e2, e4⟩ := g3 t (List.mem_of_mem_tail ht)
    have i1 := (m1.noEqui he).1
    have i2 := (m2.noEqui he).1
    rw [i1] at m1
    rw [i2] at m2
    have q1 := m1.stop
    have q2 := m2.start
    have q3 := m2.pos
    rw [List.length_nil] at q3
    refine second_match hpc m1 m2 (by omega) ?_
    rcases m1.body.stops with h0 | ⟨w, hw⟩
    · exfalso
      have a1 := congrArg List.length m1.split
      have a2 := congrArg List.length m1.body.reads.1
      have a3 := m1.body.reads.2
      have a4 := m1.pos
      have b1 := congrArg List.length m2.split
      have b2 := congrArg List.length m2.body.reads.1
      have b3 := m2.body.reads.2
      have b4 := body_nonempty m2.body
      rw [h0] at a2
      simp only [List.length_append, List.length_nil] at a1 a2 a4 b1 b2
      omega
    · exact ⟨w, by rw [hw]; rfl⟩
  refine ⟨ts, ?_, fun t ht => (key t ht).2, ?_⟩
  · unfold tables extractRe fromRe
    rw [g1]
    simp
  · intro hte
    cases ts with
    | nil => simp
    | cons a l =>
      cases l with
      | nil => simp
      | cons b l => exact absurd hte (key b (by simp)).1

end Pawpaw.Props
