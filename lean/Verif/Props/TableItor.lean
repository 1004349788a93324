import Verif.Props.TableBlock
/-!
# C97: the tables found by the itorator of a style with indentation
-/
set_option linter.unusedSectionVars false
set_option linter.unusedSimpArgs false
namespace Pawpaw.Props
open Pawpaw Pawpaw.Regex Pawpaw.Match Pawpaw.Xml Pawpaw.Table RegexSpec TreeSpec TableSpec

/-- The tables, and that none is missing. -/
theorem tables_found (S : Style) (hS : PlainStyle S) (seen : Nat → Nat) (x : FIto Char)
    (hx : 0 ≤ x.start ∧ x.start ≤ x.stop ∧ x.stop ≤ x.string.length) :
    ∃ ts : List Hit, tables S seen x = .ok (ts.map fun t => tableTree t.ind t.at_ t.parts) ∧ (∀ t ∈ ts, Stands S x t) ∧
      (ts.Pairwise fun a b => a.stop ≤ b.at_) ∧
      ∀ before suf, x.string.take x.stop.toNat = before ++ suf → x.start ≤ before.length →
        out (buildRe S (x.string.take x.stop.toNat) (seen x.start.toNat)) ⟨before.length, suf, []⟩ ≠ [] →
        ∃ t ∈ ts, t.at_ ≤ before.length + t.ind.length ∧ before.length < t.stop := by
  obtain ⟨ts0, a1, a2, a3⟩ := C96_tables S hS seen x hx
  have hlen : x.text.length = x.stop.toNat - x.start.toNat :=
    FIto.text_length (x := x) (a := x.start.toNat) (b := x.stop.toNat) (by omega) (by omega) (by omega)
  have htext : x.text = (x.string.take x.stop.toNat).drop x.start.toNat :=
    FIto.text_eq (x := x) (a := x.start.toNat) (b := x.stop.toNat) (by omega) (by omega)
  have hok := finditer_ok (noLook_build hS (x.string.take x.stop.toNat) (seen x.start.toNat)) (i := x.start.toNat) (rest := x.text)
  obtain ⟨ts, g1, g2, g3, g5, g4⟩ := loop_tables hS x.string.length (x.string.take x.stop.toNat) (seen x.start.toNat) x.start.toNat
    x.text (by omega) (finditer (buildRe S (x.string.take x.stop.toNat) (seen x.start.toNat)) x.start.toNat x.text) []
    (fun f hf => hf) hok.2
  refine ⟨ts, ?_, fun t ht => stands_of hx (g3 t ht), g4.imp fun h => Nat.le_trans (Nat.le_add_right _ _) h, ?_⟩
  · unfold tables extractRe fromRe
    rw [g1]
    simp
  intro before suf hs hb hout
  have hsplit : x.text = before.drop x.start.toNat ++ suf := by
    rw [htext, hs, List.drop_append_of_le_length (by omega)]
  have hpos : x.start.toNat + (before.drop x.start.toNat).length = before.length := by
    rw [List.length_drop]; omega
  rw [← hpos] at hout
  obtain ⟨f, hf, hfs⟩ := finditer_covers hout
  rw [← hsplit] at hf
  rw [hpos] at hfs
  obtain ⟨t, ht, e1, e2⟩ := g5 f hf
  obtain ⟨f', hf', pre, s0, z, hm, e3, e4⟩ := g3 t ht
  have hne := body_nonempty hm.body
  have := (hok.1 f hf).1.le
  refine ⟨t, ht, ?_, ?_⟩ <;> omega

theorem isLine_clean {ind l : List Char} (h : IsLine ind l) : ∃ c w, c ≠ ' ' ∧ c ≠ '\t' ∧ l = ind ++ c :: w := by
  obtain ⟨c, w, h1, h2, _, _, h5⟩ := h
  exact ⟨c, w, h1, h2, h5⟩

theorem dropLast_split {A B u : List Char} {c : Char} (h : u ++ ['\n'] = A ++ c :: B) (hB : B ≠ []) : u = A ++ c :: B.dropLast := by
  have := congrArg List.dropLast h
  rw [List.dropLast_concat, List.dropLast_append_of_ne_nil (by simp), List.dropLast_cons_of_ne_nil hB] at this
  exact this

/-- In a text without blank lines the lines of a block are lines. -/
theorem block_clean {text before u after ind : List Char} {ls : List (List Char)} (hn : NoBlankLine text)
    (ht : text = before ++ u ++ after) (h1 : AtLineStart before) (hB : Block ind ls u after) : ∀ l ∈ ls, '\n' ∉ l := by
  obtain ⟨b1, b2, b3, b4⟩ := hB
  intro l hl hm
  obtain ⟨l1, l2, rfl⟩ := List.append_of_mem hl
  obtain ⟨c, w, c1, c2, c3, c4, rfl⟩ := b3 l hl
  have hc : c = '\n' := by
    rcases List.mem_append.1 hm with h | h
    · rcases b1 _ h with h | h <;> simp at h
    · rcases List.mem_cons.1 h with h | h
      · exact h.symm
      · exact absurd h c4
  subst hc
  have hu : ∃ q, u = joined l1 ++ ind ++ '\n' :: q := by
    rcases b4 with b4 | ⟨b4, _⟩
    · exact ⟨w ++ '\n' :: joined l2, by rw [b4, joined_append, joined_cons]; simp⟩
    · refine ⟨_, dropLast_split (A := joined l1 ++ ind) (c := '\n') (B := w ++ '\n' :: joined l2) ?_ (by simp)⟩
      rw [b4, joined_append, joined_cons]; simp
  obtain ⟨q, rfl⟩ := hu
  obtain ⟨d, hd, d1, d2⟩ := hn (before ++ joined l1) ind (q ++ after) (by rw [ht]; simp) (by
    rcases List.eq_nil_or_concat l1 with rfl | ⟨l0, l, rfl⟩
    · simpa [joined] using h1
    · right
      refine ⟨before ++ joined l0 ++ l, ?_⟩
      rw [List.concat_eq_append, joined_append]
      simp [joined])
  rcases b1 d hd with h | h
  · exact d1 h
  · exact d2 h

/-- **C97 (partial).** In a text in which no line is blank, the lines of each block are single lines, all with the same
indentation.  In general they need not be: see `C97_blank_line_violated`. -/
theorem C97_lines_partial (seen : Nat → Nat) (x : FIto Char) (hx : 0 ≤ x.start ∧ x.start ≤ x.stop ∧ x.stop ≤ x.string.length)
    (hn : NoBlankLine (x.string.take x.stop.toNat)) :
    ∃ bs : List Blk, chunks seen x = .ok (bs.map fun b => .leaf ⟨b.start, b.stop⟩ (some "chunk")) ∧
      ∀ b ∈ bs, BlkIn x b ∧ ∀ l ∈ b.lines, '\n' ∉ l := by
  obtain ⟨bs, h1, h2, _⟩ := C97_blocks seen x hx
  refine ⟨bs, h1, fun b hb => ⟨h2 b hb, ?_⟩⟩
  obtain ⟨before, u, after, e1, _, _, _, e5, e6, _⟩ := h2 b hb
  exact block_clean hn e1 e5 e6

/-- The Ito of a block is one. -/
theorem blk_ok {x : FIto Char} (hx : 0 ≤ x.start ∧ x.start ≤ x.stop ∧ x.stop ≤ x.string.length) {b : Blk} (h : BlkIn x b) :
    0 ≤ (b.ito x).start ∧ (b.ito x).start ≤ (b.ito x).stop ∧ (b.ito x).stop ≤ (b.ito x).string.length ∧ (b.ito x).stop ≤ x.stop := by
  obtain ⟨before, u, after, e1, e2, e3, _⟩ := h
  have := congrArg List.length e1
  simp only [List.length_append, List.length_take] at this
  show (0 : Int) ≤ b.start ∧ (b.start : Int) ≤ b.stop ∧ (b.stop : Int) ≤ x.string.length ∧ (b.stop : Int) ≤ x.stop
  omega

/-- What the itorator gives. -/
theorem itor_found (S : Style) (hS : PlainStyle S) (he : S.equi = true) (seen : Nat → Nat) (x : FIto Char)
    (hx : 0 ≤ x.start ∧ x.start ≤ x.stop ∧ x.stop ≤ x.string.length) : ∀ bs : List Blk, (∀ b ∈ bs, BlkIn x b) →
    ∃ hs : List (Blk × List Hit), delegate (tables S seen) x.string (bs.map fun b => .leaf ⟨b.start, b.stop⟩ (some "chunk")) =
        .ok (hs.flatMap fun p => p.2.map fun t => tableTree t.ind t.at_ t.parts) ∧ hs.map (·.1) = bs ∧
      ∀ p ∈ hs, tables S seen (p.1.ito x) = .ok (p.2.map fun t => tableTree t.ind t.at_ t.parts) ∧
        (∀ t ∈ p.2, Stands S (p.1.ito x) t) ∧ p.2.Pairwise fun a b => a.stop ≤ b.at_
  | [], _ => ⟨[], rfl, rfl, by simp⟩
  | b :: bs, h => by
    obtain ⟨hs, h1, h2, h3⟩ := itor_found S hS he seen x hx bs fun b hb => h b (List.mem_cons_of_mem _ hb)
    obtain ⟨b1, b2, b3, _⟩ := blk_ok hx (h b (by simp))
    obtain ⟨ts, t1, t2, t3⟩ := C96_tables S hS seen (b.ito x) ⟨b1, b2, b3⟩
    refine ⟨(b, ts) :: hs, ?_, by simp [h2], ?_⟩
    · rw [List.map_cons, delegate, h1]
      have : tables S seen ⟨x.string, (Node.leaf ⟨(b.start : Int), (b.stop : Int)⟩ (some "chunk")).span,
          (Node.leaf ⟨(b.start : Int), (b.stop : Int)⟩ (some "chunk")).desc⟩ = _ := t1
      rw [this]
      simp
    · intro p hp
      rcases List.mem_cons.1 hp with rfl | hp
      · exact ⟨t1, t2, t3⟩
      · exact h3 p hp

/-- **C97.** The itorator of a style with indentation, whatever Ito it is applied to, gives the tables of each block of
lines with equal indentation, one block after the other: each a tree as for `C96_tables`, standing within its block. -/
theorem C97_tables (S : Style) (hS : PlainStyle S) (he : S.equi = true) (seen : Nat → Nat) (x : FIto Char)
    (hx : 0 ≤ x.start ∧ x.start ≤ x.stop ∧ x.stop ≤ x.string.length) :
    ∃ hs : List (Blk × List Hit), getItor S seen x = .ok (hs.flatMap fun p => p.2.map fun t => tableTree t.ind t.at_ t.parts) ∧
      (∀ p ∈ hs, BlkIn x p.1 ∧ (∀ t ∈ p.2, Stands S (p.1.ito x) t) ∧ p.2.Pairwise fun a b => a.stop ≤ b.at_) ∧
      hs.Pairwise fun p q => p.1.stop ≤ q.1.start := by
  obtain ⟨bs, h1, h2, h3⟩ := C97_blocks seen x hx
  obtain ⟨hs, g1, g2, g3⟩ := itor_found S hS he seen x hx bs h2
  refine ⟨hs, ?_, ?_, ?_⟩
  · unfold getItor
    rw [he, h1]
    simp only [if_true]
    exact g1
  · intro p hp
    refine ⟨h2 p.1 (by rw [← g2]; exact List.mem_map_of_mem hp), (g3 p hp).2⟩
  · rw [← g2, List.pairwise_map] at h3
    exact h3

end Pawpaw.Props
