import Verif.Lemmas.RegexSem
import Verif.Spec.Table
/-!
# The best match of the patterns of tables
-/
set_option linter.unusedSectionVars false
set_option linter.unusedSimpArgs false
namespace Pawpaw.Table
open Pawpaw.Regex RegexSpec TableSpec

theorem plain_free : ∀ r : Re, Plain r → Free r
  | .eps, _ | .chr _, _ => trivial
  | .seq a b, h => ⟨plain_free a h.1, plain_free b h.2⟩
  | .alt a b, h => ⟨plain_free a h.1, plain_free b h.2⟩
  | .star _ a, h => plain_free a h

theorem iter_keeps {g : Bool} {f : St → List St} (hf : ∀ st st', st' ∈ f st → st'.caps = st.caps) :
    ∀ (n : Nat) (st st' : St), st' ∈ iter g f n st → st'.caps = st.caps
  | 0, st, st', h => by
    rw [iter, List.mem_singleton] at h
    subst h
    rfl
  | n + 1, st, st', h => by
    have key : st' = st ∨ st' ∈ (f st).flatMap (fun st' => if st.pos < st'.pos then iter g f n st' else []) := by
      rw [iter] at h
      cases g
      · simpa using h
      · simp only [if_true, List.mem_append, List.mem_singleton] at h
        exact h.symm
    rcases key with rfl | h
    · rfl
    · obtain ⟨s1, h1, h2⟩ := List.mem_flatMap.1 h
      split at h2
      · exact (iter_keeps hf n s1 st' h2).trans (hf st s1 h1)
      · cases h2

/-- A plain pattern captures nothing. -/
theorem plain_caps : ∀ (r : Re), Plain r → ∀ (st st' : St), st' ∈ out r st → st'.caps = st.caps
  | .eps, _, st, st', h => by
    rw [out, List.mem_singleton] at h
    rw [h]
  | .chr p, _, st, st', h => by
    rw [out] at h
    split at h
    · cases h
    · split at h
      · rw [List.mem_singleton] at h; rw [h]
      · cases h
  | .seq a b, hr, st, st', h => by
    rw [out] at h
    obtain ⟨s1, h1, h2⟩ := List.mem_flatMap.1 h
    exact (plain_caps b hr.2 s1 st' h2).trans (plain_caps a hr.1 st s1 h1)
  | .alt a b, hr, st, st', h => by
    rw [out] at h
    rcases List.mem_append.1 h with h | h
    · exact plain_caps a hr.1 st st' h
    · exact plain_caps b hr.2 st st' h
  | .star g a, hr, st, st', h => by
    rw [out] at h
    exact iter_keeps (plain_caps a hr) _ st st' h

/-- What a plain pattern does. -/
theorem plain_out {r : Re} (hr : Plain r) {st st' : St} (h : st' ∈ out r st) :
    ∃ u, Reads st u st' ∧ Lang r u ∧ st'.caps = st.caps :=
  let ⟨u, h1, h2⟩ := out_sound r (plain_free r hr) st st' h
  ⟨u, h1, h2, plain_caps r hr st st' h⟩

theorem plain_complete {r : Re} (hr : Plain r) {st : St} {u w : List Char} (h : st.rest = u ++ w) (hl : Lang r u) :
    ⟨st.pos + u.length, w, st.caps⟩ ∈ out r st := by
  obtain ⟨c, hc⟩ := out_complete r st u w h hl
  have := plain_caps r hr st _ hc
  dsimp only at this
  rw [this] at hc
  exact hc

theorem plain_lit : ∀ cs, Plain (lit cs)
  | [] => trivial
  | [_] => trivial
  | _ :: d :: cs => ⟨trivial, plain_lit (d :: cs)⟩

theorem plain_br (ind : List Char) : Plain (br ind) := ⟨trivial, plain_lit ind⟩

theorem lang_br (ind u : List Char) : Lang (br ind) u ↔ u = nl ind := by
  constructor
  · rintro ⟨v, w, rfl, ⟨c, hc, rfl⟩, hw⟩
    rw [(lang_lit ind w).1 hw, eq_of_beq hc]
    rfl
  · rintro rfl
    exact ⟨['\n'], ind, rfl, ⟨'\n', rfl, rfl⟩, (lang_lit ind ind).2 rfl⟩

theorem br_out {ind : List Char} {st st' : St} (h : st' ∈ out (br ind) st) : Reads st (nl ind) st' ∧ st'.caps = st.caps := by
  obtain ⟨u, h1, h2, h3⟩ := plain_out (plain_br ind) h
  rw [(lang_br ind u).1 h2] at h1
  exact ⟨h1, h3⟩

theorem br_complete {ind : List Char} {st : St} {w : List Char} (h : st.rest = nl ind ++ w) :
    ⟨st.pos + (nl ind).length, w, st.caps⟩ ∈ out (br ind) st := plain_complete (plain_br ind) h ((lang_br ind _).2 rfl)

/-! ### The lazy text of a row -/

theorem chr_any (st : St) : out (.chr fun _ => true) st = match st.rest with
    | [] => []
    | _ :: cs => [⟨st.pos + 1, cs, st.caps⟩] := by
  rw [out]
  cases st.rest <;> simp

theorem iter_any : ∀ (rest : List Char) (i : Nat) (k : List (String × Nat × Nat)),
    iter false (out (.chr fun _ => true)) rest.length ⟨i, rest, k⟩ =
      (List.range (rest.length + 1)).map fun j => ⟨i + j, rest.drop j, k⟩
  | [], i, k => by simp [iter]
  | c :: cs, i, k => by
    rw [List.length_cons, iter, chr_any]
    simp only [Bool.false_eq_true, if_false, List.flatMap_cons, List.flatMap_nil, List.append_nil]
    rw [if_pos (by omega), iter_any cs (i + 1) k, List.range_succ_eq_map (n := cs.length + 1)]
    simp only [List.map_cons, List.map_map, Function.comp_def, List.drop_zero, Nat.add_zero, List.drop_succ_cons,
      Nat.succ_eq_add_one]
    congr 1
    apply List.map_congr_left
    intro j _
    congr 1
    omega

theorem out_some1 (st : St) : out some1 st =
    (List.range st.rest.length).map fun j => ⟨st.pos + 1 + j, st.rest.drop (j + 1), st.caps⟩ := by
  unfold some1
  rw [out, chr_any]
  obtain ⟨i, rest, k⟩ := st
  cases rest with
  | nil => simp
  | cons c cs =>
    simp only [List.flatMap_cons, List.flatMap_nil, List.append_nil]
    rw [out]
    dsimp only
    rw [iter_any]
    rfl

/-- The first of several that goes on. -/
theorem head_range {τ σ : Type} (g : Nat → τ) (h : τ → List σ) (z : σ) : ∀ n : Nat,
    (((List.range n).map g).flatMap h).head? = some z →
    ∃ j < n, (h (g j)).head? = some z ∧ ∀ i < j, h (g i) = []
  | 0, hz => by simp at hz
  | n + 1, hz => by
    rw [List.range_succ, List.map_append, List.flatMap_append, List.head?_append] at hz
    cases hh : (((List.range n).map g).flatMap h).head? with
    | some w =>
      rw [hh] at hz
      simp only [Option.some_or, Option.some.injEq] at hz
      subst hz
      obtain ⟨j, h1, h2⟩ := head_range g h w n hh
      exact ⟨j, by omega, h2⟩
    | none =>
      rw [hh] at hz
      simp only [Option.none_or, List.map_cons, List.map_nil, List.flatMap_cons, List.flatMap_nil, List.append_nil] at hz
      refine ⟨n, by omega, hz, ?_⟩
      intro i hi
      rw [List.head?_eq_none_iff, List.flatMap_eq_nil_iff] at hh
      exact hh _ (List.mem_map_of_mem (List.mem_range.2 hi))

theorem head_first {τ σ : Type} (f : τ → List σ) : ∀ (l : List τ) (h : σ), (l.flatMap f).head? = some h →
    ∃ x ∈ l, (f x).head? = some h
  | [], _, h => by simp at h
  | x :: l, y, h => by
    rw [List.flatMap_cons, List.head?_append] at h
    cases hx : (f x).head? with
    | none =>
      rw [hx] at h
      obtain ⟨z, h1, h2⟩ := head_first f l y h
      exact ⟨z, by simp [h1], h2⟩
    | some w =>
      rw [hx] at h
      exact ⟨x, by simp, by rw [hx]; exact h⟩

theorem head_ne {τ : Type} {l : List τ} {z : τ} (h : l.head? = some z) : l ≠ [] := by
  rintro rfl; cases h

/-! ### One row -/

/-- The text of a row with the line under it. -/
def cellText (ind : List Char) (r : List Char × List Char) : List Char := nl ind ++ r.1 ++ nl ind ++ r.2

/-- A row, then what follows. -/
theorem cell_best {ind : List Char} {name : String} {stop : Re} (hs : Plain stop) {h : St → List St} {st z : St}
    (hz : ((out (cell ind name stop) st).flatMap h).head? = some z) :
    ∃ r s e, r ≠ [] ∧ Lang stop s ∧ Reads st (cellText ind (r, s)) e ∧
      e.caps = st.caps ++ [(name, st.pos + (nl ind).length, st.pos + (nl ind).length + r.length)] ∧ (h e).head? = some z ∧
      ∀ a b s0 y, r = a ++ b → a ≠ [] → b ≠ [] → b ++ nl ind ++ s ++ e.rest = nl ind ++ s0 ++ y → Lang stop s0 →
        ∃ e', Reads st (cellText ind (a, s0)) e' ∧ e'.rest = y ∧ h e' = [] := by
  unfold cell at hz
  simp only [out.eq_3, List.flatMap_assoc] at hz
  obtain ⟨s1, m1, hz⟩ := head_first _ _ _ hz
  obtain ⟨r1, c1⟩ := br_out m1
  rw [out.eq_6, List.flatMap_map, out_some1] at hz
  obtain ⟨j, hj, hz, hmin⟩ := head_range _ _ _ _ hz
  dsimp only at hz hmin
  obtain ⟨s3, m3, hz⟩ := head_first _ _ _ hz
  obtain ⟨e, m4, hz⟩ := head_first _ _ _ hz
  obtain ⟨r3, c3⟩ := br_out m3
  obtain ⟨s, r4, l4, c4⟩ := plain_out hs m4
  have hsplit : s1.rest = s1.rest.take (j + 1) ++ s1.rest.drop (j + 1) := (List.take_append_drop _ _).symm
  have hlen : (s1.rest.take (j + 1)).length = j + 1 := by rw [List.length_take]; omega
  have hread : Reads s1 (s1.rest.take (j + 1) ++ nl ind ++ s) e := by
    have h3 := r3.1
    have h3' := r3.2
    dsimp only at h3 h3'
    refine ⟨?_, ?_⟩
    · rw [List.append_assoc, List.append_assoc, ← r4.1, ← h3]
      exact hsplit
    · rw [r4.2, h3']
      simp only [List.length_append, hlen]
      omega
  refine ⟨s1.rest.take (j + 1), s, e, ?_, l4, ?_, ?_, hz, ?_⟩
  · intro h0; rw [h0] at hlen; simp at hlen
  · have := r1.trans hread
    simpa [cellText, List.append_assoc] using this
  · rw [c4, c3, c1, r1.2, hlen]
    simp only
    congr 3
    rw [Prod.mk.injEq]
    refine ⟨rfl, ?_⟩
    omega
  · intro a b s0 y hr ha hb he hl
    have hla := List.length_pos_iff.2 ha
    have hlb := List.length_pos_iff.2 hb
    have hab : a.length + b.length = j + 1 := by rw [← hlen, hr, List.length_append]
    have hm := hmin (a.length - 1) (by omega)
    have hrest : s1.rest.drop (a.length - 1 + 1) = nl ind ++ s0 ++ y := by
      have : s1.rest = a ++ (nl ind ++ s0 ++ y) := by
        rw [← he, hread.1, hr]
        simp [List.append_assoc]
      rw [this, show a.length - 1 + 1 = a.length by omega, List.drop_left]
    rw [List.flatMap_eq_nil_iff] at hm
    have hm := hm _ (br_complete (w := s0 ++ y) (by dsimp only; rw [hrest, List.append_assoc]))
    rw [List.flatMap_eq_nil_iff] at hm
    refine ⟨_, ⟨?_, ?_⟩, rfl, hm _ (plain_complete hs (u := s0) (w := y) rfl hl)⟩
    · rw [r1.1, hread.1, hr]
      simp only [cellText, List.append_assoc] at he ⊢
      rw [he]
    · dsimp only
      rw [r1.2]
      simp only [cellText, List.length_append]
      omega

theorem lang_some1 (u : List Char) : Lang some1 u ↔ u ≠ [] := by
  have := lang_plus_chr (fun _ => true) u
  unfold plus at this
  refine Iff.trans (Iff.trans ?_ this) (by simp)
  exact Iff.rfl

theorem free_cell {ind : List Char} {name : String} {stop : Re} (hs : Plain stop) : Free (cell ind name stop) :=
  ⟨plain_free _ (plain_br ind), ⟨trivial, trivial⟩, plain_free _ (plain_br ind), plain_free _ hs⟩

theorem lang_cell {ind : List Char} {name : String} {stop : Re} (u : List Char) :
    Lang (cell ind name stop) u ↔ ∃ r s, r ≠ [] ∧ Lang stop s ∧ u = cellText ind (r, s) := by
  constructor
  · rintro ⟨v, w, rfl, h1, v2, w2, rfl, h2, v3, w3, rfl, h3, h4⟩
    rw [lang_br] at h1 h3
    subst h1 h3
    exact ⟨v2, w3, (lang_some1 v2).1 h2, h4, by simp [cellText, List.append_assoc]⟩
  · rintro ⟨r, s, h1, h2, rfl⟩
    exact ⟨nl ind, r ++ (nl ind ++ s), by simp [cellText, List.append_assoc], (lang_br _ _).2 rfl, r, nl ind ++ s, rfl,
      (lang_some1 r).2 h1, nl ind, s, rfl, (lang_br _ _).2 rfl, h2⟩

/-! ### Rows -/

/-- The text of rows. -/
def rowsText (ind : List Char) (rows : List (List Char × List Char)) : List Char := rows.flatMap (cellText ind)

/-- Rows as they should be. -/
def RowsOK (sep : Re) (rows : List (List Char × List Char)) : Prop := ∀ r ∈ rows, r.1 ≠ [] ∧ Lang sep r.2

/-- Rows can be read, and then what satisfies `C`. -/
def CanRows (ind : List Char) (sep : Re) (C : List Char → Prop) (y : List Char) : Prop :=
  ∃ rows w, y = rowsText ind rows ++ w ∧ RowsOK sep rows ∧ C w

theorem many_rows {ind : List Char} {name : String} {sep : Re} {u : List Char} :
    Many (Lang (cell ind name sep)) u ↔ ∃ rows, u = rowsText ind rows ∧ RowsOK sep rows := by
  constructor
  · intro h
    induction h with
    | nil => exact ⟨[], rfl, by simp [RowsOK]⟩
    | cons h1 _ ih =>
      obtain ⟨rows, rfl, h2⟩ := ih
      obtain ⟨r, s, a, b, rfl⟩ := (lang_cell _).1 h1
      refine ⟨(r, s) :: rows, by simp [rowsText], ?_⟩
      intro x hx
      rcases List.mem_cons.1 hx with rfl | hx
      · exact ⟨a, b⟩
      · exact h2 x hx
  · rintro ⟨rows, rfl, h⟩
    induction rows with
    | nil => exact .nil
    | cons r rows ih =>
      have h1 := h r (by simp)
      have : rowsText ind (r :: rows) = cellText ind r ++ rowsText ind rows := by simp [rowsText]
      rw [this]
      exact .cons ((lang_cell _).2 ⟨r.1, r.2, h1.1, h1.2, rfl⟩) (ih fun x hx => h x (by simp [hx]))

/-- Whether there is a way on, after any number of rows. -/
theorem star_ne {ind : List Char} {name : String} {sep : Re} (hs : Plain sep) {h : St → List St} {C : List Char → Prop}
    (hC : ∀ e, h e ≠ [] ↔ C e.rest) {n : Nat} {st : St} (hn : st.rest.length ≤ n) :
    (iter true (out (cell ind name sep)) n st).flatMap h ≠ [] ↔ CanRows ind sep C st.rest := by
  constructor
  · intro hne
    obtain ⟨z, hz⟩ := List.exists_mem_of_ne_nil _ hne
    obtain ⟨e, he, hz⟩ := List.mem_flatMap.1 hz
    obtain ⟨u, r1, l1⟩ := iter_sound (out_sound _ (free_cell hs)) n st e he
    obtain ⟨rows, rfl, hr⟩ := many_rows.1 l1
    exact ⟨rows, e.rest, r1.1, hr, (hC e).1 (List.ne_nil_of_mem hz)⟩
  · rintro ⟨rows, w, e, hr, hw⟩
    obtain ⟨c, hc⟩ := iter_complete (g := true) (f := out (cell ind name sep)) (L := Lang (cell ind name sep))
      (fun st u w h1 h2 => out_complete _ st u w h1 h2) (many_nonempty (many_rows.2 ⟨rows, rfl, hr⟩)) n st w
      (by rw [e, List.length_append] at hn; omega) e
    intro h0
    rw [List.flatMap_eq_nil_iff] at h0
    exact (hC ⟨_, w, c⟩).2 hw (h0 _ hc)

/-- The captures of rows. -/
def rowMarks (ind : List Char) (name : String) : Nat → List (List Char × List Char) → List (String × Nat × Nat)
  | _, [] => []
  | i, r :: rows => (name, i + (nl ind).length, i + (nl ind).length + r.1.length) ::
    rowMarks ind name (i + (cellText ind r).length) rows

/-- No row could have been shorter. -/
def Short (ind : List Char) (sep : Re) (C : List Char → Prop) : List (List Char × List Char) → List Char → Prop
  | [], _ => True
  | (r, s) :: rows, w =>
    (∀ a b s0 y, r = a ++ b → a ≠ [] → b ≠ [] → b ++ nl ind ++ s ++ (rowsText ind rows ++ w) = nl ind ++ s0 ++ y →
      Lang sep s0 → ¬ CanRows ind sep C y) ∧ Short ind sep C rows w

/-- There could not have been one more row. -/
def NoMore (ind : List Char) (sep : Re) (C : List Char → Prop) (w : List Char) : Prop :=
  ∀ a s0 y, a ≠ [] → Lang sep s0 → w = cellText ind (a, s0) ++ y → ¬ CanRows ind sep C y

/-- The best way to read rows, before what satisfies `C`. -/
theorem star_best {ind : List Char} {name : String} {sep : Re} (hs : Plain sep) {h : St → List St} {C : List Char → Prop}
    (hC : ∀ e, h e ≠ [] ↔ C e.rest) : ∀ (n : Nat) (st z : St), st.rest.length ≤ n →
    ((iter true (out (cell ind name sep)) n st).flatMap h).head? = some z →
    ∃ rows e, RowsOK sep rows ∧ Reads st (rowsText ind rows) e ∧ e.caps = st.caps ++ rowMarks ind name st.pos rows ∧
      (h e).head? = some z ∧ Short ind sep C rows e.rest ∧ NoMore ind sep C e.rest
  | 0, st, z, hn, hz => by
    rw [iter] at hz
    simp only [List.flatMap_cons, List.flatMap_nil, List.append_nil] at hz
    refine ⟨[], st, by simp [RowsOK], .nil _, by simp [rowMarks], hz, trivial, ?_⟩
    intro a s0 y _ _ he
    have := congrArg List.length he
    simp [cellText, nl] at this
    omega
  | n + 1, st, z, hn, hz => by
    rw [iter] at hz
    simp only [if_true, List.flatMap_append, List.flatMap_assoc, List.flatMap_cons, List.flatMap_nil, List.append_nil,
      List.head?_append] at hz
    cases hm : ((out (cell ind name sep) st).flatMap fun x =>
        (if st.pos < x.pos then iter true (out (cell ind name sep)) n x else []).flatMap h).head? with
    | some z' =>
      rw [hm] at hz
      simp only [Option.some_or, Option.some.injEq] at hz
      subst hz
      obtain ⟨r, s, e1, hr, hl, hread, hcaps, he, hmin⟩ := cell_best hs hm
      have hpos : st.pos < e1.pos := by
        rw [hread.2]; simp [cellText, nl]
      rw [if_pos hpos] at he
      have hlen : e1.rest.length ≤ n := by
        have := congrArg List.length hread.1
        simp [cellText, nl] at this
        omega
      obtain ⟨rows, e, q1, q2, q3, q4, q5, q6⟩ := star_best hs hC n e1 z' hlen he
      refine ⟨(r, s) :: rows, e, ?_, ?_, ?_, q4, ⟨?_, q5⟩, q6⟩
      · intro x hx
        rcases List.mem_cons.1 hx with rfl | hx
        · exact ⟨hr, hl⟩
        · exact q1 x hx
      · have := hread.trans q2
        simpa [rowsText] using this
      · rw [q3, hcaps, rowMarks, hread.2, List.append_assoc]
        rfl
      · intro a b s0 y h1 h2 h3 h4 h5
        rw [← q2.1] at h4
        obtain ⟨e', g0, g1, g2⟩ := hmin a b s0 y h1 h2 h3 h4 h5
        have hlt : st.pos < e'.pos := by
          rw [g0.2]; simp [cellText, nl]
        rw [if_pos hlt] at g2
        intro hcan
        rw [← g1] at hcan
        refine (star_ne (name := name) hs hC (n := n) ?_).2 hcan g2
        have := congrArg List.length g0.1
        simp [cellText, nl] at this
        omega
    | none =>
      rw [hm] at hz
      simp only [Option.none_or] at hz
      refine ⟨[], st, by simp [RowsOK], .nil _, by simp [rowMarks], hz, trivial, ?_⟩
      intro a s0 y ha hl he hcan
      rw [List.head?_eq_none_iff, List.flatMap_eq_nil_iff] at hm
      obtain ⟨c, hc⟩ := out_complete (cell ind name sep) st _ y he ((lang_cell _).2 ⟨a, s0, ha, hl, rfl⟩)
      have := hm _ hc
      rw [if_pos (by simp [cellText, nl])] at this
      refine (star_ne (name := name) hs hC (n := n) ?_).2 hcan this
      have := congrArg List.length he
      simp [cellText, nl] at this
      dsimp only
      omega

/-- A row, then what satisfies `C`. -/
def CanCell (ind : List Char) (stop : Re) (C : List Char → Prop) (y : List Char) : Prop :=
  ∃ r s w, r ≠ [] ∧ Lang stop s ∧ y = cellText ind (r, s) ++ w ∧ C w

theorem cell_ne {ind : List Char} {name : String} {stop : Re} (hs : Plain stop) {h : St → List St} {C : List Char → Prop}
    (hC : ∀ e, h e ≠ [] ↔ C e.rest) (st : St) :
    (out (cell ind name stop) st).flatMap h ≠ [] ↔ CanCell ind stop C st.rest := by
  constructor
  · intro hne
    obtain ⟨z, hz⟩ := List.exists_mem_of_ne_nil _ hne
    obtain ⟨e, he, hz⟩ := List.mem_flatMap.1 hz
    obtain ⟨u, r1, l1⟩ := out_sound _ (free_cell hs) st e he
    obtain ⟨r, s, a, b, rfl⟩ := (lang_cell _).1 l1
    exact ⟨r, s, e.rest, a, b, r1.1, (hC e).1 (List.ne_nil_of_mem hz)⟩
  · rintro ⟨r, s, w, a, b, e, hw⟩
    obtain ⟨c, hc⟩ := out_complete (cell ind name stop) st _ w e ((lang_cell _).2 ⟨r, s, a, b, rfl⟩)
    intro h0
    rw [List.flatMap_eq_nil_iff] at h0
    exact (hC ⟨_, w, c⟩).2 hw (h0 _ hc)

/-- What can follow a separator line. -/
def CanGo (S : Style) (ind : List Char) (C : List Char → Prop) (y : List Char) : Prop :=
  match S.tableEnd with
  | none => CanRows ind S.rowSep C y
  | some p => CanRows ind S.rowSep (CanCell ind p C) y

theorem rowsText_append (ind : List Char) (a b : List (List Char × List Char)) :
    rowsText ind (a ++ b) = rowsText ind a ++ rowsText ind b := by simp [rowsText]

theorem rowsText_single (ind : List Char) (r : List Char × List Char) : rowsText ind [r] = cellText ind r := by simp [rowsText]

theorem rowMarks_append (ind : List Char) (name : String) : ∀ (a b : List (List Char × List Char)) (i : Nat),
    rowMarks ind name i (a ++ b) = rowMarks ind name i a ++ rowMarks ind name (i + (rowsText ind a).length) b
  | [], b, i => by simp [rowMarks, rowsText]
  | r :: a, b, i => by
    rw [List.cons_append, rowMarks, rowMarks, rowMarks_append ind name a b, List.cons_append]
    have : i + (cellText ind r).length + (rowsText ind a).length = i + (rowsText ind (r :: a)).length := by
      simp [rowsText]; omega
    rw [this]

/-- Rows that could not be shorter hold no separator line. -/
theorem short_holds {ind : List Char} {sep : Re} {C : List Char → Prop} : ∀ {rows : List (List Char × List Char)} {w : List Char},
    RowsOK sep rows → Short ind sep C rows w → C w → ∀ r ∈ rows, ¬ HoldsSep sep ind r.1
  | [], _, _, _, _, r, hr => by cases hr
  | (r, s) :: rows, w, hok, hsh, hw, r', hr' => by
    rcases List.mem_cons.1 hr' with rfl | hr'
    · rintro ⟨a, s0, b, ha, hb, hs0, he⟩
      refine hsh.1 a (nl ind ++ s0 ++ nl ind ++ b) s0 (nl ind ++ b ++ nl ind ++ s ++ (rowsText ind rows ++ w)) ?_ ha
        (by simp [nl]) (by simp [List.append_assoc]) hs0 ?_
      · show r = _
        dsimp only at he
        rw [he]; simp [List.append_assoc]
      · refine ⟨(b, s) :: rows, w, ?_, ?_, hw⟩
        · simp [rowsText, cellText, List.append_assoc]
        · intro x hx
          rcases List.mem_cons.1 hx with rfl | hx
          · exact ⟨hb, (hok (r, s) (by simp)).2⟩
          · exact hok x (by simp [hx])
    · exact short_holds (fun x hx => hok x (by simp [hx])) hsh.2 hw r' hr'

theorem rows_best {S : Style} (hS : PlainStyle S) {ind : List Char} {h : St → List St} {C : List Char → Prop}
    (hC : ∀ e, h e ≠ [] ↔ C e.rest) {st z : St} (hz : ((out (rowsRe S ind) st).flatMap h).head? = some z) :
    ∃ rows e, (∀ r ∈ rows, r.1 ≠ []) ∧ SepsFit S rows ∧ Reads st (rowsText ind rows) e ∧
      e.caps = st.caps ++ rowMarks ind "row" st.pos rows ∧ (h e).head? = some z ∧
      (∀ r ∈ rows, ¬ HoldsSep S.rowSep ind r.1) ∧
      (∀ a s0 y, a ≠ [] → Lang S.rowSep s0 → e.rest = cellText ind (a, s0) ++ y → ¬ CanGo S ind C y) := by
  unfold rowsRe at hz
  unfold SepsFit CanGo
  cases he : S.tableEnd with
  | none =>
    rw [he] at hz
    simp only at hz ⊢
    unfold plus at hz
    simp only [out.eq_3, out.eq_5, List.flatMap_assoc] at hz
    obtain ⟨r, s, e1, hr, hl, hread, hcaps, hh, hmin⟩ := cell_best hS.sep hz
    obtain ⟨rows, e, q1, q2, q3, q4, q5, q6⟩ := star_best hS.sep hC _ e1 z (Nat.le_refl _) hh
    have hok : RowsOK S.rowSep ((r, s) :: rows) := by
      intro x hx
      rcases List.mem_cons.1 hx with rfl | hx
      · exact ⟨hr, hl⟩
      · exact q1 x hx
    have hCe : C e.rest := (hC e).1 (head_ne q4)
    refine ⟨(r, s) :: rows, e, fun x hx => (hok x hx).1, ⟨by simp, fun x hx => (hok x hx).2⟩, ?_, ?_, q4, ?_, q6⟩
    · simpa [rowsText] using hread.trans q2
    · rw [q3, hcaps, rowMarks, hread.2, List.append_assoc]
      rfl
    · refine short_holds (C := C) hok ⟨?_, q5⟩ hCe
      intro a b s0 y h1 h2 h3 h4 h5
      rw [← q2.1] at h4
      obtain ⟨e', g0, g1, g2⟩ := hmin a b s0 y h1 h2 h3 h4 h5
      intro hcan
      rw [← g1] at hcan
      exact (star_ne (name := "row") hS.sep hC (n := e'.rest.length) (Nat.le_refl _)).2 hcan g2
  | some p =>
    rw [he] at hz
    simp only at hz ⊢
    have hp := hS.stop p he
    unfold many at hz
    simp only [out.eq_3, out.eq_5, List.flatMap_assoc] at hz
    obtain ⟨rows, e1, q1, q2, q3, q4, q5, q6⟩ := star_best hS.sep (cell_ne hp hC) _ st z (Nat.le_refl _) hz
    obtain ⟨r, s, e, hr, hl, hread, hcaps, hh, hmin⟩ := cell_best hp q4
    have hCe : C e.rest := (hC e).1 (head_ne hh)
    refine ⟨rows ++ [(r, s)], e, ?_, ⟨rows, r, s, rfl, fun x hx => (q1 x hx).2, hl⟩, ?_, ?_, hh, ?_, ?_⟩
    · intro x hx
      rcases List.mem_append.1 hx with hx | hx
      · exact (q1 x hx).1
      · rw [List.mem_singleton] at hx; rw [hx]; exact hr
    · rw [rowsText_append, rowsText_single]
      exact q2.trans hread
    · rw [rowMarks_append, hcaps, q3, q2.2, List.append_assoc]
      rfl
    · intro x hx
      rcases List.mem_append.1 hx with hx | hx
      · exact short_holds q1 q5 ⟨r, s, e.rest, hr, hl, hread.1, hCe⟩ x hx
      · rw [List.mem_singleton] at hx
        rw [hx]
        rintro ⟨a, s0, b, ha, hb, hs0, heq⟩
        refine q6 a s0 (cellText ind (b, s) ++ e.rest) ha hs0 ?_ ⟨[], _, by simp [rowsText]; rfl, by simp [RowsOK], ?_⟩
        · rw [hread.1]
          simp only at heq
          simp [cellText, heq, List.append_assoc]
        · exact ⟨b, s, e.rest, hb, hl, rfl, hCe⟩
    · intro a s0 y ha hs0 heq hcan
      refine q6 (r ++ nl ind ++ s ++ nl ind ++ a) s0 y (by simp [ha]) hs0 ?_ hcan
      rw [hread.1, heq]
      simp [cellText, List.append_assoc]

theorem free_rows {S : Style} (hS : PlainStyle S) (ind : List Char) : Free (rowsRe S ind) := by
  unfold rowsRe
  cases he : S.tableEnd with
  | none => exact ⟨free_cell hS.sep, free_cell hS.sep⟩
  | some p => exact ⟨free_cell hS.sep, free_cell (hS.stop p he)⟩

theorem lang_rows {S : Style} {ind : List Char} (u : List Char) : Lang (rowsRe S ind) u ↔
    ∃ rows, (∀ r ∈ rows, r.1 ≠ []) ∧ SepsFit S rows ∧ u = rowsText ind rows := by
  unfold rowsRe SepsFit
  cases he : S.tableEnd with
  | none =>
    simp only
    constructor
    · rintro ⟨v, w, rfl, h1, h2⟩
      obtain ⟨r, s, a, b, rfl⟩ := (lang_cell _).1 h1
      obtain ⟨rows, rfl, hr⟩ := many_rows.1 h2
      refine ⟨(r, s) :: rows, ?_, ⟨by simp, ?_⟩, by simp [rowsText]⟩
      · intro x hx
        rcases List.mem_cons.1 hx with rfl | hx
        · exact a
        · exact (hr x hx).1
      · intro x hx
        rcases List.mem_cons.1 hx with rfl | hx
        · exact b
        · exact (hr x hx).2
    · rintro ⟨rows, h1, ⟨h2, h3⟩, rfl⟩
      cases rows with
      | nil => exact absurd rfl h2
      | cons r rows =>
        exact ⟨cellText ind r, rowsText ind rows, by simp [rowsText],
          (lang_cell _).2 ⟨r.1, r.2, h1 r (by simp), h3 r (by simp), rfl⟩,
          many_rows.2 ⟨rows, rfl, fun x hx => ⟨h1 x (by simp [hx]), h3 x (by simp [hx])⟩⟩⟩
  | some p =>
    simp only
    constructor
    · rintro ⟨v, w, rfl, h1, h2⟩
      obtain ⟨rows, rfl, hr⟩ := many_rows.1 h1
      obtain ⟨r, s, a, b, rfl⟩ := (lang_cell _).1 h2
      refine ⟨rows ++ [(r, s)], ?_, ⟨rows, r, s, rfl, fun x hx => (hr x hx).2, b⟩, by rw [rowsText_append, rowsText_single]⟩
      intro x hx
      rcases List.mem_append.1 hx with hx | hx
      · exact (hr x hx).1
      · rw [List.mem_singleton] at hx; rw [hx]; exact a
    · rintro ⟨rows, h1, ⟨rs, r, s, rfl, h2, h3⟩, rfl⟩
      exact ⟨rowsText ind rs, cellText ind (r, s), by rw [rowsText_append, rowsText_single],
        many_rows.2 ⟨rs, rfl, fun x hx => ⟨h1 x (by simp [hx]), h2 x hx⟩⟩,
        (lang_cell _).2 ⟨r, s, h1 (r, s) (by simp), h3, rfl⟩⟩

/-! ### The end of a table -/

theorem not_empty_iff {τ : Type} (l : List τ) : (!l.isEmpty) = true ↔ l ≠ [] := by cases l <;> simp

theorem ahead_out {r : Re} (st : St) :
    out (NlpRe.ahead r) st = if (!(out r ⟨st.pos, st.rest, []⟩).isEmpty) = true then [st] else [] := rfl

theorem ahead_mem {r : Re} (hr : ∀ i rest, out r ⟨i, rest, []⟩ ≠ [] ↔ AtLineEnd rest) {st st' : St} :
    st' ∈ out (NlpRe.ahead r) st ↔ st' = st ∧ AtLineEnd st.rest := by
  rw [ahead_out]
  have h1 := (not_empty_iff (out r ⟨st.pos, st.rest, []⟩)).trans (hr st.pos st.rest)
  split
  · rename_i h
    rw [List.mem_singleton]
    exact ⟨fun e => ⟨e, h1.1 h⟩, fun e => e.1⟩
  · rename_i h
    constructor
    · intro e; cases e
    · intro e; exact absurd (h1.2 e.2) h

theorem end1 (i : Nat) (rest : List Char) : out (.alt .eos (.chr (· == '\n'))) ⟨i, rest, []⟩ ≠ [] ↔ AtLineEnd rest := by
  rw [out, out, out]
  unfold AtLineEnd
  cases rest with
  | nil => simp
  | cons c cs =>
    by_cases hc : c = '\n'
    · subst hc; simp
    · simp [hc]

theorem end2 (i : Nat) (rest : List Char) : out (.alt (.chr (· == '\n')) .eos) ⟨i, rest, []⟩ ≠ [] ↔ AtLineEnd rest := by
  rw [out, out, out]
  unfold AtLineEnd
  cases rest with
  | nil => simp
  | cons c cs =>
    by_cases hc : c = '\n'
    · subst hc; simp
    · simp [hc]

theorem lineEnd_mem {st st' : St} : st' ∈ out lineEnd st ↔ st' = st ∧ AtLineEnd st.rest := ahead_mem end1

/-- What can follow the rows. -/
def CanPost (S : Style) (ind : List Char) (y : List Char) : Prop :=
  match S.postCaption with
  | none => AtLineEnd y
  | some p => ∃ u w, y = nl ind ++ u ++ w ∧ Lang p u ∧ AtLineEnd w

/-- The pieces after the rows. -/
def postPieces (ind : List Char) : Option (List Char) → Pieces
  | none => []
  | some u => [(none, nl ind), (some "post_caption", u)]

/-- The pieces before the first line. -/
def prePieces (ind : List Char) : Option (List Char) → Pieces
  | none => []
  | some u => [(some "pre_caption", u), (none, nl ind)]

/-- The pieces of the header. -/
def headPieces (ind : List Char) : Option (List Char × List Char) → Pieces
  | none => []
  | some h => cellPieces ind "header_row" h

theorem pieces_eq (P : Parts) (ind : List Char) : P.pieces ind = prePieces ind P.pre ++ [(none, P.start)] ++
    headPieces ind P.header ++ P.rows.flatMap (cellPieces ind "row") ++ postPieces ind P.post := rfl

theorem textOf_append (p q : Pieces) : textOf (p ++ q) = textOf p ++ textOf q := by simp [textOf]

theorem marks_append : ∀ (p q : Pieces) (i : Nat), marks i (p ++ q) = marks i p ++ marks (i + (textOf p).length) q
  | [], q, i => by simp [marks, textOf]
  | (none, u) :: p, q, i => by
    rw [List.cons_append, marks, marks, marks_append p q]
    have : i + u.length + (textOf p).length = i + (textOf ((none, u) :: p)).length := by simp [textOf]; omega
    rw [this]
  | (some d, u) :: p, q, i => by
    rw [List.cons_append, marks, marks, marks_append p q, List.cons_append]
    have : i + u.length + (textOf p).length = i + (textOf ((some d, u) :: p)).length := by simp [textOf]; omega
    rw [this]

theorem textOf_cell (ind : List Char) (name : String) (r : List Char × List Char) :
    textOf (cellPieces ind name r) = cellText ind r := by simp [textOf, cellPieces, cellText, List.append_assoc]

theorem textOf_rows (ind : List Char) (name : String) : ∀ rows : List (List Char × List Char),
    textOf (rows.flatMap (cellPieces ind name)) = rowsText ind rows
  | [] => rfl
  | r :: rows => by
    rw [List.flatMap_cons, textOf_append, textOf_cell, textOf_rows ind name rows]
    simp [rowsText]

theorem marks_cell (ind : List Char) (name : String) (r : List Char × List Char) (i : Nat) :
    marks i (cellPieces ind name r) = [(name, i + (nl ind).length, i + (nl ind).length + r.1.length)] := by
  simp [marks, cellPieces]

theorem marks_rows (ind : List Char) (name : String) : ∀ (rows : List (List Char × List Char)) (i : Nat),
    marks i (rows.flatMap (cellPieces ind name)) = rowMarks ind name i rows
  | [], i => rfl
  | r :: rows, i => by
    rw [List.flatMap_cons, marks_append, marks_cell, marks_rows ind name rows, textOf_cell]
    rfl

/-- The captions of a table as the style says. -/
def PostFit (S : Style) (post : Option (List Char)) : Prop :=
  match S.postCaption with
  | none => post = none
  | some p => ∃ u, post = some u ∧ Lang p u

/-- What comes after the rows, up to the end of the match. -/
def tail (S : Style) (ind : List Char) (g : St → St) (e : St) : List St := ((out (postRe S ind) e).map g).flatMap (out lineEnd)

theorem tail_best {S : Style} (hS : PlainStyle S) {ind : List Char} {g : St → St} (hg : ∀ s, (g s).rest = s.rest)
    {e z : St} (hz : z ∈ tail S ind g e) : ∃ post s, PostFit S post ∧ Reads e (textOf (postPieces ind post)) s ∧
      s.caps = e.caps ++ marks e.pos (postPieces ind post) ∧ z = g s ∧ AtLineEnd s.rest := by
  unfold tail at hz
  obtain ⟨s', hs', hz⟩ := List.mem_flatMap.1 hz
  obtain ⟨s, hs, rfl⟩ := List.mem_map.1 hs'
  obtain ⟨rfl, hend⟩ := lineEnd_mem.1 hz
  rw [hg] at hend
  unfold postRe at hs
  unfold PostFit
  cases hp : S.postCaption with
  | none =>
    rw [hp] at hs
    simp only at hs ⊢
    rw [out, List.mem_singleton] at hs
    subst hs
    exact ⟨none, _, rfl, .nil _, by simp [postPieces, marks], rfl, hend⟩
  | some p =>
    rw [hp] at hs
    simp only at hs ⊢
    rw [out] at hs
    obtain ⟨s1, h1, hs⟩ := List.mem_flatMap.1 hs
    rw [out] at hs
    obtain ⟨s2, h2, hs⟩ := List.mem_flatMap.1 hs
    obtain ⟨rfl, _⟩ := (ahead_mem end2).1 hs
    rw [out] at h2
    obtain ⟨s3, h3, rfl⟩ := List.mem_map.1 h2
    obtain ⟨r1, c1⟩ := br_out h1
    obtain ⟨u, r2, l2, c2⟩ := plain_out (hS.post p hp) h3
    refine ⟨some u, _, ⟨u, rfl, l2⟩, ?_, ?_, rfl, hend⟩
    · have := r1.trans r2
      exact ⟨by simpa [postPieces, textOf] using this.1, by simpa [postPieces, textOf] using this.2⟩
    · simp only [postPieces, marks]
      rw [c2, c1, r2.2, r1.2]

theorem tail_ne {S : Style} (hS : PlainStyle S) {ind : List Char} {g : St → St} (hg : ∀ s, (g s).rest = s.rest)
    (e : St) : tail S ind g e ≠ [] ↔ CanPost S ind e.rest := by
  constructor
  · intro h
    obtain ⟨z, hz⟩ := List.exists_mem_of_ne_nil _ h
    obtain ⟨post, s, h1, h2, _, _, h4⟩ := tail_best hS hg hz
    unfold PostFit at h1
    unfold CanPost
    cases hp : S.postCaption with
    | none =>
      rw [hp] at h1
      simp only at h1 ⊢
      subst h1
      have := h2.1
      simp [postPieces, textOf] at this
      rw [this]; exact h4
    | some p =>
      rw [hp] at h1
      simp only at h1 ⊢
      obtain ⟨u, rfl, hu⟩ := h1
      exact ⟨u, s.rest, by simpa [postPieces, textOf] using h2.1, hu, h4⟩
  · intro h
    unfold CanPost at h
    have key : ∃ s ∈ out (postRe S ind) e, AtLineEnd s.rest := by
      unfold postRe
      cases hp : S.postCaption with
      | none =>
        rw [hp] at h
        simp only at h ⊢
        exact ⟨e, by rw [out]; simp, h⟩
      | some p =>
        rw [hp] at h
        simp only at h ⊢
        obtain ⟨u, w, h1, h2, h3⟩ := h
        have m3 := plain_complete (hS.post p hp) (st := ⟨e.pos + (nl ind).length, u ++ w, e.caps⟩) (u := u) (w := w) rfl h2
        have m2 := List.mem_map_of_mem (f := fun s' : St =>
          { s' with caps := s'.caps ++ [("post_caption", e.pos + (nl ind).length, s'.pos)] }) m3
        have m1 := br_complete (st := e) (w := u ++ w) (by rw [h1, List.append_assoc])
        dsimp only at m2
        refine ⟨⟨e.pos + (nl ind).length + u.length, w, e.caps ++ [("post_caption", e.pos + (nl ind).length,
          e.pos + (nl ind).length + u.length)]⟩, ?_, ?_⟩
        · rw [out.eq_3]
          refine List.mem_flatMap.2 ⟨_, m1, ?_⟩
          rw [out.eq_3, out.eq_6]
          exact List.mem_flatMap.2 ⟨_, m2, (ahead_mem end2).2 ⟨rfl, h3⟩⟩
        · exact h3
    obtain ⟨s, hs, he⟩ := key
    intro h0
    unfold tail at h0
    rw [List.flatMap_eq_nil_iff] at h0
    have := h0 (g s) (List.mem_map_of_mem hs)
    have hm : g s ∈ out lineEnd (g s) := lineEnd_mem.2 ⟨rfl, by rw [hg]; exact he⟩
    rw [this] at hm
    cases hm

/-! ### The whole table -/

/-- What a match of the pattern of a table is. -/
structure BodyOf (S : Style) (ind : List Char) (st z : St) (P : Parts) : Prop where
  fits : Fits S P
  reads : Reads st (textOf (P.pieces ind)) z
  caps : z.caps = st.caps ++ marks st.pos (P.pieces ind) ++ [("table", st.pos, z.pos)]
  stops : AtLineEnd z.rest
  rows : ∀ r ∈ P.rows, ¬ HoldsSep S.rowSep ind r.1
  header : ∀ h p, P.header = some h → S.headerRowEnd = some p → ¬ HoldsSep p ind h.1
  noMore : S.postCaption = none → ∀ a s0 y, a ≠ [] → Lang S.rowSep s0 → z.rest = cellText ind (a, s0) ++ y →
    ¬ CanGo S ind AtLineEnd y

theorem body_out (S : Style) (ind : List Char) (st : St) : out (bodyRe S ind) st =
    (out (preRe S ind) st).flatMap fun s1 => (out S.tableStart s1).flatMap fun s2 => (out (headerRe S ind) s2).flatMap fun s3 =>
      (out (rowsRe S ind) s3).flatMap (tail S ind fun s => { s with caps := s.caps ++ [("table", st.pos, s.pos)] }) := by
  unfold bodyRe tail
  simp only [out.eq_3, out.eq_6, List.flatMap_assoc, List.flatMap_map, List.map_flatMap]

/-- Whether the rows and what follows can be read. -/
theorem rows_ne {S : Style} {ind : List Char} {h : St → List St} {C : List Char → Prop}
    (hC : ∀ e, h e ≠ [] ↔ C e.rest) {st : St} {rows : List (List Char × List Char)} {w : List Char}
    (h1 : ∀ r ∈ rows, r.1 ≠ []) (h2 : SepsFit S rows) (he : st.rest = rowsText ind rows ++ w) (hw : C w) :
    (out (rowsRe S ind) st).flatMap h ≠ [] := by
  obtain ⟨c, hc⟩ := out_complete (rowsRe S ind) st _ w he ((lang_rows _).2 ⟨rows, h1, h2, rfl⟩)
  intro h0
  rw [List.flatMap_eq_nil_iff] at h0
  exact (hC ⟨_, w, c⟩).2 hw (h0 _ hc)

theorem sepsFit_ne {S : Style} {rows : List (List Char × List Char)} (h : SepsFit S rows) : rows ≠ [] := by
  unfold SepsFit at h
  cases he : S.tableEnd with
  | none => rw [he] at h; exact h.1
  | some p =>
    rw [he] at h
    obtain ⟨rs, r, s, rfl, _⟩ := h
    simp

theorem sepsFit_head {S : Style} {r r' s : List Char} {rows : List (List Char × List Char)} (h : SepsFit S ((r, s) :: rows)) :
    SepsFit S ((r', s) :: rows) := by
  unfold SepsFit at h ⊢
  cases he : S.tableEnd with
  | none =>
    rw [he] at h
    refine ⟨by simp, ?_⟩
    intro x hx
    rcases List.mem_cons.1 hx with rfl | hx
    · exact h.2 (r, s) (by simp)
    · exact h.2 x (by simp [hx])
  | some p =>
    rw [he] at h
    obtain ⟨rs, q, t, e, h1, h2⟩ := h
    cases rs with
    | nil =>
      simp only [List.nil_append, List.cons.injEq, Prod.mk.injEq] at e
      obtain ⟨⟨_, rfl⟩, rfl⟩ := e
      exact ⟨[], r', s, rfl, by simp, h2⟩
    | cons x rs =>
      simp only [List.cons_append, List.cons.injEq] at e
      obtain ⟨rfl, rfl⟩ := e
      refine ⟨(r', s) :: rs, q, t, rfl, ?_, h2⟩
      intro y hy
      rcases List.mem_cons.1 hy with rfl | hy
      · exact h1 (r, s) (by simp)
      · exact h1 y (by simp [hy])

/-- The header. -/
theorem header_best {S : Style} (hS : PlainStyle S) {ind : List Char} {h : St → List St} {st z : St}
    (hz : ((out (headerRe S ind) st).flatMap h).head? = some z) :
    ∃ (header : Option (List Char × List Char)) (e : St), (∀ r s, header = some (r, s) → r ≠ [] ∧ ∃ p, S.headerRowEnd = some p ∧ Lang p s) ∧
      Reads st (textOf (headPieces ind header)) e ∧ e.caps = st.caps ++ marks st.pos (headPieces ind header) ∧
      (h e).head? = some z ∧
      ∀ r s, header = some (r, s) → ∀ p, S.headerRowEnd = some p → ∀ a b s0 y, r = a ++ b → a ≠ [] → b ≠ [] →
        b ++ nl ind ++ s ++ e.rest = nl ind ++ s0 ++ y → Lang p s0 → ∃ e', e'.rest = y ∧ h e' = [] := by
  have hskip : ((h st).head? = some z) → _ := fun hz' => (⟨none, st, by simp, .nil _, by simp [headPieces, marks], hz', by simp⟩ :
    ∃ (header : Option (List Char × List Char)) (e : St), (∀ r s, header = some (r, s) → r ≠ [] ∧ ∃ p, S.headerRowEnd = some p ∧ Lang p s) ∧
      Reads st (textOf (headPieces ind header)) e ∧ e.caps = st.caps ++ marks st.pos (headPieces ind header) ∧
      (h e).head? = some z ∧
      ∀ r s, header = some (r, s) → ∀ p, S.headerRowEnd = some p → ∀ a b s0 y, r = a ++ b → a ≠ [] → b ≠ [] →
        b ++ nl ind ++ s ++ e.rest = nl ind ++ s0 ++ y → Lang p s0 → ∃ e', e'.rest = y ∧ h e' = [])
  unfold headerRe at hz
  cases hp : S.headerRowEnd with
  | none =>
    rw [hp] at hz hskip
    simp only [out.eq_1, List.flatMap_cons, List.flatMap_nil, List.append_nil] at hz
    exact hskip hz
  | some p =>
    rw [hp] at hz hskip
    simp only [opt, out.eq_4, out.eq_1, List.flatMap_append, List.flatMap_cons, List.flatMap_nil, List.append_nil,
      List.head?_append] at hz
    cases hm : ((out (cell ind "header_row" p) st).flatMap h).head? with
    | none =>
      rw [hm] at hz
      exact hskip (by simpa using hz)
    | some z' =>
      rw [hm] at hz
      simp only [Option.some_or, Option.some.injEq] at hz
      subst hz
      obtain ⟨r, s, e, hr, hl, hread, hcaps, hh, hmin⟩ := cell_best (hS.header p hp) hm
      refine ⟨some (r, s), e, ?_, ?_, ?_, hh, ?_⟩
      · intro r' s' he
        cases he
        exact ⟨hr, p, rfl, hl⟩
      · rw [headPieces, textOf_cell]; exact hread
      · rw [headPieces, marks_cell, hcaps]
      · intro r' s' he p' hp'
        cases he
        cases hp'
        intro a b s0 y h1 h2 h3 h4 h5
        obtain ⟨e', _, g⟩ := hmin a b s0 y h1 h2 h3 h4 h5
        exact ⟨e', g⟩

/-- The caption before a table. -/
theorem pre_best {S : Style} (hS : PlainStyle S) {ind : List Char} {st s1 : St} (h : s1 ∈ out (preRe S ind) st) :
    ∃ pre, (∀ u, pre = some u → ∃ p, S.preCaption = some p ∧ Lang p u) ∧ Reads st (textOf (prePieces ind pre)) s1 ∧
      s1.caps = st.caps ++ marks st.pos (prePieces ind pre) := by
  unfold preRe at h
  cases hp : S.preCaption with
  | none =>
    rw [hp] at h
    simp only at h
    rw [out, List.mem_singleton] at h
    subst h
    exact ⟨none, by simp, .nil _, by simp [prePieces, marks]⟩
  | some p =>
    rw [hp] at h
    simp only [opt, out.eq_4, out.eq_1, out.eq_3, out.eq_6] at h
    rcases List.mem_append.1 h with h | h
    · obtain ⟨s2, h2, h3⟩ := List.mem_flatMap.1 h
      obtain ⟨s3, h4, rfl⟩ := List.mem_map.1 h2
      obtain ⟨u, r1, l1, c1⟩ := plain_out (hS.pre p hp) h4
      obtain ⟨r2, c2⟩ := br_out h3
      refine ⟨some u, ?_, ?_, ?_⟩
      · intro u' e; cases e; exact ⟨p, rfl, l1⟩
      · have r2' : Reads s3 (nl ind) s1 := ⟨r2.1, r2.2⟩
        simpa [prePieces, textOf] using r1.trans r2'
      · rw [c2]
        simp only [prePieces, marks]
        rw [c1, r1.2]
    · rw [List.mem_singleton] at h
      subst h
      exact ⟨none, by simp, .nil _, by simp [prePieces, marks]⟩

/-- A table read off the best match. -/
theorem body_best {S : Style} (hS : PlainStyle S) {ind : List Char} {st z : St} (hz : (out (bodyRe S ind) st).head? = some z) :
    ∃ P, BodyOf S ind st z P := by
  rw [body_out] at hz
  obtain ⟨s1, m1, hz⟩ := head_first _ _ _ hz
  obtain ⟨s2, m2, hz⟩ := head_first _ _ _ hz
  obtain ⟨pre, p1, p2, p3⟩ := pre_best hS m1
  obtain ⟨start, t1, t2, t3⟩ := plain_out hS.start m2
  obtain ⟨header, s3, h1, h2, h3, hz, hmin⟩ := header_best hS hz
  have hT := fun e => tail_ne hS (ind := ind) (g := fun s => { s with caps := s.caps ++ [("table", st.pos, s.pos)] })
    (fun _ => rfl) e
  obtain ⟨rows, e, r1, r2, r3, r4, hz, r6, r7⟩ := rows_best hS (C := CanPost S ind) hT hz
  have hne := head_ne hz
  obtain ⟨post, s, q1, q2, q3, q4, q5⟩ := tail_best hS (g := fun s => { s with caps := s.caps ++ [("table", st.pos, s.pos)] })
    (fun _ => rfl) (List.mem_of_mem_head? (by rw [hz]; rfl))
  have hread : Reads st (textOf ((⟨pre, start, header, rows, post⟩ : Parts).pieces ind)) s := by
    have := (((p2.trans t1).trans h2).trans r3).trans q2
    rw [pieces_eq]
    simp only [textOf_append, textOf_rows]
    simpa [textOf] using this
  refine ⟨⟨pre, start, header, rows, post⟩, ⟨p1, t2, h1, r1, r2, q1⟩, ?_, ?_, ?_, r6, ?_, ?_⟩
  · rw [q4]; exact hread
  · rw [q4]
    dsimp only
    rw [q3, r4, h3, t3, p3, pieces_eq]
    simp only [marks_append, textOf_append, textOf_rows, marks_rows, List.append_assoc]
    have e1 : (textOf [((none : Option String), start)]).length = start.length := by simp [textOf]
    rw [e1, show s2.pos = st.pos + (textOf (prePieces ind pre)).length + start.length by rw [t1.2, p2.2],
      show s3.pos = st.pos + (textOf (prePieces ind pre)).length + start.length + (textOf (headPieces ind header)).length by
        rw [h2.2, t1.2, p2.2],
      show e.pos = st.pos + (textOf (prePieces ind pre)).length + start.length + (textOf (headPieces ind header)).length +
        (rowsText ind rows).length by rw [r3.2, h2.2, t1.2, p2.2]]
    simp [marks]
  · rw [q4]; exact q5
  · rintro ⟨h, s'⟩ p hh hp ⟨a, s0, b, ha, hb, hs0, heq⟩
    dsimp only at hh heq
    obtain ⟨e', g1, g2⟩ := hmin h s' hh p hp a (nl ind ++ s0 ++ nl ind ++ b) s0 (nl ind ++ b ++ nl ind ++ s' ++ s3.rest)
      (by rw [heq]; simp [List.append_assoc]) ha (by simp [nl]) (by simp [List.append_assoc]) hs0
    cases rows with
    | nil => exact absurd rfl (sepsFit_ne r2)
    | cons r rows =>
      obtain ⟨r, sp⟩ := r
      refine rows_ne (ind := ind) hT (st := e') (rows := (b ++ nl ind ++ s' ++ nl ind ++ r, sp) :: rows) (w := e.rest) ?_ (sepsFit_head r2) ?_
        ((hT e).1 hne) g2
      · intro x hx
        rcases List.mem_cons.1 hx with rfl | hx
        · simp [hb]
        · exact r1 x (by simp [hx])
      · rw [g1, r3.1]
        simp [rowsText, cellText, List.append_assoc]
  · intro hpc a s0 y ha hs heq
    have hCP : CanPost S ind = AtLineEnd := by
      funext y
      unfold CanPost
      rw [hpc]
    rw [hCP] at r7
    refine r7 a s0 y ha hs ?_
    have : post = none := by
      unfold PostFit at q1
      rw [hpc] at q1
      exact q1
    subst this
    have h2' := q2.1
    simp only [postPieces, textOf, List.flatMap_nil, List.nil_append] at h2'
    rw [h2', ← heq, q4]

end Pawpaw.Table
