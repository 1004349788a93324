import Verif.Lemmas.TableRe
import Verif.Props.MatchExact
import Verif.Props.RegexForest
/-!
# C96: the tables found in a text
-/
set_option linter.unusedSectionVars false
set_option linter.unusedSimpArgs false
namespace Pawpaw.Props
open Pawpaw Pawpaw.Regex Pawpaw.Match Pawpaw.Xml Pawpaw.Table RegexSpec TreeSpec TableSpec

/-! ### From captures to a tree -/

theorem marks_bound : ∀ (ps : Pieces) (i : Nat), ∀ c ∈ marks i ps, i ≤ c.2.1 ∧ c.2.1 ≤ c.2.2 ∧ c.2.2 ≤ i + (textOf ps).length
  | [], _, c, hc => by cases hc
  | (none, u) :: ps, i, c, hc => by
    rw [marks] at hc
    have := marks_bound ps _ c hc
    have e : (textOf ((none, u) :: ps)).length = u.length + (textOf ps).length := by simp [textOf]
    omega
  | (some d, u) :: ps, i, c, hc => by
    rw [marks] at hc
    have e : (textOf ((some d, u) :: ps)).length = u.length + (textOf ps).length := by simp [textOf]
    rcases List.mem_cons.1 hc with rfl | hc
    · dsimp only; omega
    · have := marks_bound ps _ c hc
      omega

/-- After a piece with a name comes nothing, or a piece without a name that is not empty. -/
def Spaced : Pieces → Prop
  | [] => True
  | (none, _) :: ps => Spaced ps
  | (some _, _) :: ps => (match ps with
    | [] => True
    | (none, u) :: _ => u ≠ []
    | (some _, _) :: _ => False) ∧ Spaced ps

theorem marks_spaced : ∀ (ps : Pieces) (i : Nat), Spaced ps → (marks i ps).Pairwise fun a b => a.2.2 < b.2.1
  | [], _, _ => by simp [marks]
  | (none, u) :: ps, i, h => by
    rw [marks]
    exact marks_spaced ps _ h
  | (some d, u) :: ps, i, h => by
    rw [marks, List.pairwise_cons]
    refine ⟨?_, marks_spaced ps _ h.2⟩
    intro c hc
    cases ps with
    | nil => cases hc
    | cons p ps =>
      obtain ⟨n, v⟩ := p
      cases n with
      | some _ => exact h.1.elim
      | none =>
        rw [marks] at hc
        have := marks_bound ps _ c hc
        have hv := List.length_pos_iff.2 (show v ≠ [] from h.1)
        dsimp only
        omega

theorem spaced_cell {ind : List Char} {name : String} {r : List Char × List Char} {ps : Pieces} (h : Spaced ps) :
    Spaced (cellPieces ind name r ++ ps) := by
  simp [cellPieces, Spaced, nl, h]

theorem spaced_rows {ind : List Char} {name : String} {ps : Pieces} (h : Spaced ps) :
    ∀ rows : List (List Char × List Char), Spaced (rows.flatMap (cellPieces ind name) ++ ps)
  | [] => h
  | r :: rows => by
    rw [List.flatMap_cons, List.append_assoc]
    exact spaced_cell (spaced_rows h rows)

theorem spaced_pieces (P : Parts) (ind : List Char) : Spaced (P.pieces ind) := by
  rw [pieces_eq]
  have h1 : Spaced (postPieces ind P.post) := by
    cases P.post <;> simp [postPieces, Spaced]
  have h2 := spaced_rows (ind := ind) (name := "row") h1 P.rows
  have h3 : Spaced (headPieces ind P.header ++ (P.rows.flatMap (cellPieces ind "row") ++ postPieces ind P.post)) := by
    cases P.header with
    | none => exact h2
    | some h => exact spaced_cell h2
  have h4 : Spaced ([(none, P.start)] ++ (headPieces ind P.header ++ (P.rows.flatMap (cellPieces ind "row") ++
    postPieces ind P.post))) := h3
  simp only [List.append_assoc] at h4 ⊢
  cases P.pre with
  | none => exact h4
  | some u => exact ⟨by simp [nl], h4⟩

theorem mark_names (P : Parts) (ind : List Char) (i : Nat) : ∀ c ∈ marks i (P.pieces ind),
    c.1 ∈ ["pre_caption", "header_row", "row", "post_caption"] := by
  have key : ∀ (ps : Pieces) (i : Nat), (∀ p ∈ ps, ∀ d, p.1 = some d → d ∈ ["pre_caption", "header_row", "row", "post_caption"]) →
      ∀ c ∈ marks i ps, c.1 ∈ ["pre_caption", "header_row", "row", "post_caption"] := by
    intro ps
    induction ps with
    | nil => intro i _ c hc; cases hc
    | cons p ps ih =>
      obtain ⟨n, u⟩ := p
      intro i h c hc
      cases n with
      | none => exact ih _ (fun q hq => h q (by simp [hq])) c hc
      | some d =>
        rw [marks] at hc
        rcases List.mem_cons.1 hc with rfl | hc
        · exact h (some d, u) (by simp) d rfl
        · exact ih _ (fun q hq => h q (by simp [hq])) c hc
  apply key
  intro p hp d hd
  rw [pieces_eq] at hp
  simp only [List.mem_append, List.mem_flatMap] at hp
  rcases hp with (((hp | hp) | hp) | ⟨r, _, hp⟩) | hp
  · cases hpre : P.pre <;> rw [hpre] at hp <;> simp [prePieces] at hp
    rcases hp with rfl | rfl <;> simp_all
  · simp only [List.mem_singleton] at hp; subst hp; cases hd
  · cases hh : P.header <;> rw [hh] at hp <;> simp [headPieces, cellPieces] at hp
    rcases hp with rfl | rfl | rfl <;> simp_all
  · simp [cellPieces] at hp
    rcases hp with rfl | rfl | rfl <;> simp_all
  · cases hpost : P.post <;> rw [hpost] at hp <;> simp [postPieces] at hp
    rcases hp with rfl | rfl <;> simp_all

/-- An Ito for each named part of a table, in one for the table. -/
def tableTree (ind : List Char) (i : Nat) (P : Parts) : Node :=
  .mk ⟨(i : Int), ((i + (textOf (P.pieces ind)).length : Nat) : Int)⟩ (some "table") none
    ((marks i (P.pieces ind)).map fun c => .leaf ⟨(c.2.1 : Int), (c.2.2 : Int)⟩ (some c.1))

theorem preorderAll_leaves {τ : Type} (f : τ → Span) (g : τ → Option String) : ∀ l : List τ,
    preorderAll (l.map fun c => Node.leaf (f c) (g c)) = l.map fun c => (f c, g c)
  | [] => rfl
  | c :: l => by
    rw [List.map_cons, preorderAll, preorderAll_leaves f g l]
    rfl

theorem canon_leaf {s : Span} {d : Option String} (h0 : 0 ≤ s.start) (h1 : s.start ≤ s.stop) : Canon (.leaf s d) :=
  .mk h0 h1 ⟨by simp, by simp⟩ (by simp) (by simp)

theorem canon_table (ind : List Char) (i : Nat) (P : Parts) : Canon (tableTree ind i P) := by
  have hb := marks_bound (P.pieces ind) i
  have hp := marks_spaced (P.pieces ind) i (spaced_pieces P ind)
  unfold tableTree
  refine .mk (by dsimp only; omega) (by dsimp only; omega) ⟨?_, ?_⟩ ?_ ?_
  · intro c hc
    rw [List.map_map] at hc
    obtain ⟨m, hm, rfl⟩ := List.mem_map.1 hc
    have := hb m hm
    show (i : Int) ≤ m.2.1 ∧ (m.2.1 : Int) ≤ m.2.2 ∧ (m.2.2 : Int) ≤ ((i + (textOf (P.pieces ind)).length : Nat) : Int)
    omega
  · rw [List.map_map, List.pairwise_map]
    refine List.Pairwise.imp_of_mem ?_ hp
    intro a b ha hb' h
    have h1 := hb a ha
    have h2 := hb b hb'
    show (a.2.1 : Int) < b.2.1 ∧ (a.2.2 : Int) ≤ b.2.1
    omega
  · rw [List.map_map, List.pairwise_map]
    refine List.Pairwise.imp_of_mem ?_ hp
    intro a b ha hb' h
    have h1 := hb a ha
    have h2 := hb b hb'
    show (a.2.2 : Int) < b.2.2
    omega
  · intro k hk
    obtain ⟨m, hm, rfl⟩ := List.mem_map.1 hk
    have := hb m hm
    exact canon_leaf (by dsimp only; omega) (by dsimp only; omega)

theorem keys_perm {τ : Type} (e : String × Nat × Nat → String → τ) : ∀ (ks : List String), ks.Nodup → ∀ caps : List (String × Nat × Nat),
    (ks.flatMap fun g => (caps.filter fun c => c.1 == g).map fun c => e c g).Perm
      ((caps.filter fun c => decide (c.1 ∈ ks)).map fun c => e c c.1)
  | [], _, caps => by simp
  | k :: ks, hn, caps => by
    obtain ⟨h1, h2⟩ := List.nodup_cons.1 hn
    rw [List.flatMap_cons]
    have ih := keys_perm e ks h2 caps
    refine (List.Perm.append_left _ ih).trans ?_
    have e1 : ((caps.filter fun c => c.1 == k).map fun c => e c k) = (caps.filter fun c => c.1 == k).map fun c => e c c.1 := by
      apply List.map_congr_left
      intro c hc
      rw [eq_of_beq (List.mem_filter.1 hc).2]
    rw [e1, ← List.map_append]
    apply List.Perm.map
    have := List.filter_append_perm (fun c : String × Nat × Nat => c.1 == k) (caps.filter fun c => decide (c.1 ∈ k :: ks))
    refine List.Perm.trans ?_ this
    rw [List.filter_filter, List.filter_filter]
    have f1 : caps.filter (fun c => c.1 == k && decide (c.1 ∈ k :: ks)) = caps.filter (fun c => c.1 == k) := by
      apply List.filter_congr
      intro c _
      by_cases hc : c.1 = k <;> simp [hc]
    have f2 : caps.filter (fun c => !(c.1 == k) && decide (c.1 ∈ k :: ks)) = caps.filter (fun c => decide (c.1 ∈ ks)) := by
      apply List.filter_congr
      intro c _
      by_cases hc : c.1 = k
      · simp [hc, h1]
      · simp [hc]
    rw [f1, f2]

theorem filter_perm_eq {τ : Type} [DecidableEq τ] {σ : Type} {a b : List (τ × σ)} (h : a.Perm b)
    (hn : a.Pairwise fun x y => x.1 ≠ y.1) (s : τ) : a.filter (fun e => e.1 == s) = b.filter (fun e => e.1 == s) := by
  have hp := h.filter (fun e => e.1 == s)
  have hl : (a.filter (fun e => e.1 == s)).length ≤ 1 := by
    have hn' := hn.sublist (List.filter_sublist (p := fun e => e.1 == s))
    cases hf : a.filter (fun e => e.1 == s) with
    | nil => simp
    | cons x l =>
      cases l with
      | nil => simp
      | cons y l =>
        rw [hf] at hn'
        have h1 : x ∈ a.filter (fun e => e.1 == s) := by rw [hf]; simp
        have h2 : y ∈ a.filter (fun e => e.1 == s) := by rw [hf]; simp
        have h1 := eq_of_beq (List.mem_filter.1 h1).2
        have h2 := eq_of_beq (List.mem_filter.1 h2).2
        exact absurd (h1.trans h2.symm) ((List.pairwise_cons.1 hn').1 y (by simp))
  cases hf : a.filter (fun e => e.1 == s) with
  | nil =>
    rw [hf] at hp
    exact (List.nil_perm.1 hp).symm
  | cons x l =>
    rw [hf] at hp hl
    cases l with
    | nil => exact (List.perm_singleton.1 hp.symm).symm
    | cons y l => simp at hl

/-- The length of the pieces without a name. -/
def unnamed : Pieces → Nat
  | [] => 0
  | (none, u) :: ps => u.length + unnamed ps
  | (some _, _) :: ps => unnamed ps

theorem unnamed_append : ∀ p q : Pieces, unnamed (p ++ q) = unnamed p + unnamed q
  | [], q => by simp [unnamed]
  | (none, u) :: p, q => by rw [List.cons_append, unnamed, unnamed, unnamed_append p q]; omega
  | (some _, _) :: p, q => by rw [List.cons_append, unnamed, unnamed, unnamed_append p q]

theorem unnamed_pieces (P : Parts) (ind : List Char) (h : P.rows ≠ []) : 0 < unnamed (P.pieces ind) := by
  rw [pieces_eq]
  simp only [unnamed_append]
  cases hr : P.rows with
  | nil => exact absurd hr h
  | cons r rows =>
    rw [List.flatMap_cons, unnamed_append]
    have : 0 < unnamed (cellPieces ind "row" r) := by simp [cellPieces, unnamed, nl]; omega
    omega

theorem unnamed_le : ∀ ps : Pieces, unnamed ps ≤ (textOf ps).length
  | [] => by simp [unnamed]
  | (none, u) :: ps => by
    have := unnamed_le ps
    have e : (textOf ((none, u) :: ps)).length = u.length + (textOf ps).length := by simp [textOf]
    rw [unnamed]; omega
  | (some d, u) :: ps => by
    have := unnamed_le ps
    have e : (textOf ((some d, u) :: ps)).length = u.length + (textOf ps).length := by simp [textOf]
    rw [unnamed]; omega

theorem mark_shorter : ∀ (ps : Pieces) (i : Nat), ∀ c ∈ marks i ps, c.2.2 + unnamed ps ≤ c.2.1 + (textOf ps).length
  | [], _, c, hc => by cases hc
  | (none, u) :: ps, i, c, hc => by
    rw [marks] at hc
    have := mark_shorter ps _ c hc
    have e : (textOf ((none, u) :: ps)).length = u.length + (textOf ps).length := by simp [textOf]
    rw [unnamed]; omega
  | (some d, u) :: ps, i, c, hc => by
    rw [marks] at hc
    have e : (textOf ((some d, u) :: ps)).length = u.length + (textOf ps).length := by simp [textOf]
    rw [unnamed]
    rcases List.mem_cons.1 hc with rfl | hc
    · have := unnamed_le ps
      dsimp only; omega
    · have := mark_shorter ps _ c hc
      omega

/-- What the captures of a match of a table become. -/
theorem fromMatch_table (len : Nat) (f : Found) (ind : List Char) (i : Nat) (P : Parts) (extra : List (String × Nat × Nat))
    (he : ∀ c ∈ extra, c.1 ∉ Table.keys) (hc : f.caps = extra ++ marks i (P.pieces ind) ++ [("table", i, i + (textOf (P.pieces ind)).length)])
    (hl : i + (textOf (P.pieces ind)).length ≤ len) (hr : P.rows ≠ []) :
    fromMatch len (spansOf Table.keys f) = .ok [tableTree ind i P] := by
  have hb := marks_bound (P.pieces ind) i
  have hp := marks_spaced (P.pieces ind) i (spaced_pieces P ind)
  have hlist : preorderAll [tableTree ind i P] = (⟨(i : Int), ((i + (textOf (P.pieces ind)).length : Nat) : Int)⟩, some "table") ::
      (marks i (P.pieces ind)).map (fun c => ((⟨(c.2.1 : Int), (c.2.2 : Int)⟩ : Span), some c.1)) := by
    rw [preorderAll_single]
    show _ :: preorderAll _ = _
    rw [preorderAll_leaves (fun c : String × Nat × Nat => (⟨(c.2.1 : Int), (c.2.2 : Int)⟩ : Span)) (fun c => some c.1)]
  have hP : ∀ c ∈ marks i (P.pieces ind), c.2.2 - c.2.1 < (textOf (P.pieces ind)).length := by
    intro c hcm
    have h1 := mark_shorter (P.pieces ind) i c hcm
    have h2 := unnamed_pieces P ind hr
    have := hb c hcm
    omega
  have hdist : (preorderAll [tableTree ind i P]).Pairwise fun x y => x.1 ≠ y.1 := by
    rw [hlist, List.pairwise_cons]
    refine ⟨?_, ?_⟩
    · intro y hy
      obtain ⟨m, hm, rfl⟩ := List.mem_map.1 hy
      have := hP m hm
      have := hb m hm
      intro h
      have h1 := congrArg Span.start h
      have h2 := congrArg Span.stop h
      dsimp only at h1 h2
      omega
    · rw [List.pairwise_map]
      refine List.Pairwise.imp_of_mem ?_ hp
      intro a b ha hb' h
      have h1 := hb a ha
      intro h
      have h1 := congrArg Span.start h
      dsimp only at h1
      omega
  have hperm : (preorderAll [tableTree ind i P]).Perm ((spansOf Table.keys f).flatMap fun g => g.2.map fun s => (s, g.1)) := by
    rw [captured_eq]
    unfold captured
    refine List.Perm.trans ?_ (keys_perm (fun c g => ((⟨(c.2.1 : Int), (c.2.2 : Int)⟩ : Span), some g)) Table.keys (by decide) f.caps).symm
    rw [hlist, hc, List.filter_append, List.filter_append]
    have f1 : extra.filter (fun c => decide (c.1 ∈ Table.keys)) = [] := by
      rw [List.filter_eq_nil_iff]
      intro c hc
      simpa using he c hc
    have f2 : (marks i (P.pieces ind)).filter (fun c => decide (c.1 ∈ Table.keys)) = marks i (P.pieces ind) := by
      rw [List.filter_eq_self]
      intro c hc
      have := mark_names P ind i c hc
      simp only [List.mem_cons, List.not_mem_nil, or_false] at this
      rcases this with h | h | h | h <;> rw [h] <;> decide
    rw [f1, f2]
    simp only [List.nil_append, List.map_append]
    exact (List.perm_append_comm (l₁ := [_])).trans (List.Perm.refl _)
  refine C18_from_match_exact len _ _ ?_ (by simp) hperm ?_ (fun s => filter_perm_eq hperm hdist s)
  · intro n hn
    rw [List.mem_singleton] at hn
    subst hn
    refine ⟨canon_table ind i P, ?_⟩
    show (((i + (textOf (P.pieces ind)).length : Nat)) : Int) ≤ len
    omega
  · rw [hlist, List.pairwise_cons]
    refine ⟨?_, ?_⟩
    · intro y hy
      obtain ⟨m, hm, rfl⟩ := List.mem_map.1 hy
      have := hb m hm
      dsimp only
      omega
    · rw [List.pairwise_map]
      refine List.Pairwise.imp_of_mem ?_ hp
      intro a b ha hb' h
      have h1 := hb a ha
      dsimp only
      omega

/-! ### From the text to captures -/

/-- A lookbehind for the start of a line. -/
theorem lineStart_sound {text : List Char} {lo i : Nat}
    (h : NlpRe.endsHere (.alt .bos (.chr (· == '\n'))) text lo i = true) : AtLineStart (text.take i) := by
  unfold NlpRe.endsHere at h
  rw [List.any_eq_true] at h
  obtain ⟨j, _, h⟩ := h
  rw [Bool.and_eq_true, List.any_eq_true] at h
  obtain ⟨_, st, hst, hp⟩ := h
  have hp := eq_of_beq hp
  rw [out, out, out] at hst
  rcases List.mem_append.1 hst with hst | hst
  · split at hst
    · rename_i h0
      rw [List.mem_singleton] at hst
      subst hst
      left
      dsimp only at hp h0
      rw [← hp, h0]
      rfl
    · cases hst
  · dsimp only at hst
    cases hd : text.drop j with
    | nil => rw [hd] at hst; cases hst
    | cons c cs =>
      rw [hd] at hst
      dsimp only at hst
      split at hst
      · rename_i hc
        rw [List.mem_singleton] at hst
        subst hst
        dsimp only at hp
        right
        refine ⟨text.take j, ?_⟩
        have hlt : j < text.length := by
          have := congrArg List.length hd
          rw [List.length_drop, List.length_cons] at this
          omega
        rw [← hp, List.take_succ_eq_append_getElem hlt]
        have : text[j] = c := by
          have := List.getElem_drop (xs := text) (i := j) (j := 0) (h := by rw [hd]; simp)
          simp only [hd, List.getElem_cons_zero, Nat.add_zero] at this
          exact this.symm
        rw [this, eq_of_beq hc]
      · cases hst

theorem lineStart_complete {text : List Char} {lo i : Nat} (hl : lo = 0) (h2 : i ≤ text.length)
    (h : AtLineStart (text.take i)) : NlpRe.endsHere (.alt .bos (.chr (· == '\n'))) text lo i = true := by
  subst hl
  unfold NlpRe.endsHere
  rw [List.any_eq_true]
  rcases h with h | ⟨w, h⟩
  · have h0 : i = 0 := by
      have := congrArg List.length h
      rw [List.length_take, List.length_nil] at this
      omega
    subst h0
    refine ⟨0, by simp, ?_⟩
    rw [out, out]
    simp [out]
  · have hl := congrArg List.length h
    rw [List.length_take, List.length_append, List.length_singleton] at hl
    refine ⟨w.length, by rw [List.mem_range]; omega, ?_⟩
    have hd : text.drop w.length = '\n' :: text.drop i := by
      have h1 : text = w ++ ['\n'] ++ text.drop i := by rw [← h, List.take_append_drop]
      conv => lhs; rw [h1]
      rw [List.append_assoc, List.drop_left]
      rfl
    rw [hd, out, out, out]
    simp
    omega

/-- A match of the pattern of a style. -/
structure MatchOf (S : Style) (text : List Char) (lo i : Nat) (rest : List Char) (f : Found) (pre ind : List Char) (s0 z : St)
    (P : Parts) : Prop where
  split : rest = pre ++ ind ++ s0.rest
  pos : s0.pos = i + pre.length + ind.length
  body : BodyOf S ind s0 z P
  start : f.start = i + pre.length
  stop : f.stop = z.pos
  caps : f.caps = z.caps
  extra : ∀ c ∈ s0.caps, c.1 ∉ Table.keys
  blank : ∀ c ∈ ind, c = ' ' ∨ c = '\t'
  noEqui : S.equi = false → ind = [] ∧ AtLineStart (text.take f.start)

theorem body_nonempty {S : Style} {ind : List Char} {s0 z : St} {P : Parts} (h : BodyOf S ind s0 z P) : s0.pos < z.pos := by
  have h1 := unnamed_pieces P ind (sepsFit_ne h.fits.seps)
  have h2 := unnamed_le (P.pieces ind)
  have h3 := h.reads.2
  omega

theorem build_best {S : Style} (hS : PlainStyle S) {text : List Char} {lo p : Nat} {suf : List Char} {z : St}
    (hz : (out (buildRe S text lo) ⟨p, suf, []⟩).head? = some z) :
    ∃ ind s0 P, suf = ind ++ s0.rest ∧ s0.pos = p + ind.length ∧ BodyOf S ind s0 z P ∧ (∀ c ∈ s0.caps, c.1 ∉ Table.keys) ∧
      (∀ c ∈ ind, c = ' ' ∨ c = '\t') ∧ (S.equi = false → ind = [] ∧ AtLineStart (text.take p)) := by
  unfold buildRe at hz
  cases he : S.equi with
  | true =>
    rw [he] at hz
    simp only [if_true] at hz
    rw [out.eq_11] at hz
    obtain ⟨s1, m1, hz⟩ := head_first _ _ _ hz
    rw [out] at m1
    obtain ⟨s2, m2, rfl⟩ := List.mem_map.1 m1
    obtain ⟨ind, r1, l1, c1⟩ := plain_out (r := Table.blank) trivial m2
    have ht : List.take (s2.pos - p) suf = ind := r1.take
    rw [ht] at hz
    obtain ⟨P, hP⟩ := body_best hS hz
    have r11 := r1.1
    have r12 := r1.2
    dsimp only at r11 r12
    refine ⟨ind, { s2 with caps := s2.caps ++ [("indent", p, s2.pos)] }, P, r11, r12, hP, ?_, ?_, by simp⟩
    · intro c hc
      rw [c1] at hc
      simp only [List.nil_append, List.mem_singleton] at hc
      rw [hc]
      show "indent" ∉ Table.keys
      decide
    · intro c hc
      have := (lang_many_chr _ _).1 l1 c hc
      simpa using this
  | false =>
    rw [he] at hz
    simp only [Bool.false_eq_true, if_false] at hz
    rw [out.eq_3] at hz
    obtain ⟨s1, m1, hz⟩ := head_first _ _ _ hz
    unfold lineStart NlpRe.behind at m1
    rw [out] at m1
    split at m1
    · rename_i hb
      rw [List.mem_singleton] at m1
      subst m1
      obtain ⟨P, hP⟩ := body_best hS hz
      exact ⟨[], _, P, rfl, rfl, hP, by simp, by simp, fun _ => ⟨rfl, lineStart_sound hb⟩⟩
    · cases m1

theorem found_match {S : Style} (hS : PlainStyle S) {text : List Char} {lo i : Nat} {rest : List Char} {f : Found}
    (hf : f ∈ finditer (buildRe S text lo) i rest) : ∃ pre ind s0 z P, MatchOf S text lo i rest f pre ind s0 z P := by
  obtain ⟨pre, suf, st, e1, e2, _, e4, e5, e6⟩ := finditer_at hf
  have key : (out (buildRe S text lo) ⟨f.start, suf, []⟩).head? = some st := by
    rcases e6 with h | ⟨st0, h1, h2, _⟩
    · exact h
    · obtain ⟨ind, s0, P, _, g2, g3, _⟩ := build_best hS h1
      have := body_nonempty g3
      omega
  obtain ⟨ind, s0, P, g1, g2, g3, g4, g5, g6⟩ := build_best hS key
  exact ⟨pre, ind, s0, st, P, by rw [e1, g1, List.append_assoc], by rw [g2, e2], g3, e2, e4, e5, g4, g5, g6⟩

theorem noLook_plain : ∀ r : Re, Plain r → NoLook r
  | .eps, _ | .chr _, _ => trivial
  | .seq a b, h => ⟨noLook_plain a h.1, noLook_plain b h.2⟩
  | .alt a b, h => ⟨noLook_plain a h.1, noLook_plain b h.2⟩
  | .star _ a, h => noLook_plain a h

theorem noLook_cell {ind : List Char} {name : String} {stop : Re} (h : Plain stop) : NoLook (cell ind name stop) :=
  ⟨noLook_plain _ (plain_br ind), ⟨trivial, trivial⟩, noLook_plain _ (plain_br ind), noLook_plain _ h⟩

theorem noLook_body {S : Style} (hS : PlainStyle S) (ind : List Char) : NoLook (bodyRe S ind) := by
  refine ⟨⟨?_, noLook_plain _ hS.start, ?_, ?_, ?_⟩, trivial⟩
  · unfold preRe
    cases h : S.preCaption with
    | none => trivial
    | some p => exact ⟨⟨(noLook_plain p (hS.pre p h) : NoLook p), noLook_plain _ (plain_br ind)⟩, trivial⟩
  · unfold headerRe
    cases h : S.headerRowEnd with
    | none => trivial
    | some p => exact ⟨noLook_cell (hS.header p h), trivial⟩
  · unfold rowsRe
    cases h : S.tableEnd with
    | none => exact ⟨noLook_cell hS.sep, noLook_cell hS.sep⟩
    | some p => exact ⟨noLook_cell hS.sep, noLook_cell (hS.stop p h)⟩
  · unfold postRe
    cases h : S.postCaption with
    | none => trivial
    | some p => exact ⟨noLook_plain _ (plain_br ind), (noLook_plain p (hS.post p h) : NoLook p), trivial⟩

theorem noLook_build {S : Style} (hS : PlainStyle S) (text : List Char) (lo : Nat) : NoLook (buildRe S text lo) := by
  unfold buildRe
  split
  · exact ⟨trivial, noLook_body hS⟩
  · exact ⟨trivial, noLook_body hS []⟩

/-- A table found: where it starts, its indentation and its parts. -/
structure Hit where
  at_ : Nat
  ind : List Char
  parts : Parts

/-- Its end. -/
def Hit.stop (t : Hit) : Nat := t.at_ + (textOf (t.parts.pieces t.ind)).length

/-- A table stands in the text of an Ito: it has the parts the style says; its lines after the first have the same
indentation, and so has the first, if the style wants that, and otherwise it starts at a line; it ends where a line ends; none
of its rows has a separator line within. -/
structure Stands (S : Style) (x : FIto Char) (t : Hit) : Prop where
  fits : Fits S t.parts
  place : ∃ before after, x.string.take x.stop.toNat = before ++ t.ind ++ textOf (t.parts.pieces t.ind) ++ after ∧
    t.at_ = before.length + t.ind.length ∧ x.start ≤ before.length ∧ AtLineEnd after ∧
    (S.equi = false → t.ind = [] ∧ AtLineStart before)
  blank : ∀ c ∈ t.ind, c = ' ' ∨ c = '\t'
  rows : ∀ r ∈ t.parts.rows, ¬ HoldsSep S.rowSep t.ind r.1
  header : ∀ h p, t.parts.header = some h → S.headerRowEnd = some p → ¬ HoldsSep p t.ind h.1

theorem loop_tables {S : Style} (hS : PlainStyle S) (len : Nat) (text : List Char) (lo i : Nat) (rest : List Char)
    (hlen : i + rest.length ≤ len) : ∀ (ms : List Found) (rv : List Node), (∀ f ∈ ms, f ∈ finditer (buildRe S text lo) i rest) →
    ms.Pairwise (fun a b => a.stop ≤ b.start) →
    ∃ ts : List Hit, fromReLoop len none rv (ms.map (spansOf Table.keys)) = .ok (rv ++ ts.map fun t => tableTree t.ind t.at_ t.parts) ∧
      ts.length = ms.length ∧
      (∀ t ∈ ts, ∃ f ∈ ms, ∃ pre s0 z, MatchOf S text lo i rest f pre t.ind s0 z t.parts ∧ s0.pos = t.at_ ∧ z.pos = t.stop) ∧
      (∀ f ∈ ms, ∃ t ∈ ts, f.start + t.ind.length = t.at_ ∧ f.stop = t.stop) ∧
      ts.Pairwise fun a b => a.stop + b.ind.length ≤ b.at_
  | [], rv, _, _ => ⟨[], by simp [fromReLoop], rfl, by simp, by simp, by simp⟩
  | m :: ms, rv, h, hp => by
    obtain ⟨p1, p2⟩ := List.pairwise_cons.1 hp
    obtain ⟨pre, ind, s0, z, P, hm⟩ := found_match hS (h m (by simp))
    have hlen' : z.pos ≤ len := by
      have h1 := congrArg List.length hm.split
      have h2 := congrArg List.length hm.body.reads.1
      have h3 := hm.body.reads.2
      have h4 := hm.pos
      simp only [List.length_append] at h1 h2
      omega
    have hz : z.pos = s0.pos + (textOf (P.pieces ind)).length := hm.body.reads.2
    have hfm := fromMatch_table len m ind s0.pos P s0.caps hm.extra (by rw [hm.caps, hm.body.caps, hz]) (by omega)
      (sepsFit_ne hm.body.fits.seps)
    obtain ⟨ts, g1, g2, g3, g5, g4⟩ := loop_tables hS len text lo i rest hlen ms (rv ++ [tableTree ind s0.pos P])
      (fun f hf => h f (by simp [hf])) p2
    refine ⟨⟨s0.pos, ind, P⟩ :: ts, ?_, by simp [g2], ?_, ?_, ?_⟩
    · rw [List.map_cons, fromReLoop, hfm]
      simp only
      rw [g1]
      simp
    · intro t ht
      rcases List.mem_cons.1 ht with rfl | ht
      · exact ⟨m, by simp, pre, s0, z, hm, rfl, hz⟩
      · obtain ⟨f, hf, r⟩ := g3 t ht
        exact ⟨f, by simp [hf], r⟩
    · intro f hf
      rcases List.mem_cons.1 hf with rfl | hf
      · refine ⟨_, List.mem_cons_self, ?_, ?_⟩
        · show f.start + ind.length = s0.pos
          rw [hm.start, hm.pos]
        · rw [hm.stop]; exact hz
      · obtain ⟨t, ht, r⟩ := g5 f hf
        exact ⟨t, by simp [ht], r⟩
    · rw [List.pairwise_cons]
      refine ⟨?_, g4⟩
      intro t ht
      obtain ⟨f, hf, pre', s0', z', hm', e1, e2⟩ := g3 t ht
      have := p1 f hf
      have h1 := hm'.start
      have h2 := hm'.pos
      have h3 := hm.stop
      show s0.pos + (textOf (P.pieces ind)).length + t.ind.length ≤ t.at_
      omega

theorem stands_of {S : Style} {seen : Nat → Nat} {x : FIto Char} (hx : 0 ≤ x.start ∧ x.start ≤ x.stop ∧ x.stop ≤ x.string.length)
    {t : Hit} {ms : List Found} (h : ∃ f ∈ ms, ∃ pre s0 z, MatchOf S (x.string.take x.stop.toNat) (seen x.start.toNat) x.start.toNat
      x.text f pre t.ind s0 z t.parts ∧ s0.pos = t.at_ ∧ z.pos = t.stop) : Stands S x t := by
  have htext : x.text = (x.string.take x.stop.toNat).drop x.start.toNat :=
    FIto.text_eq (x := x) (a := x.start.toNat) (b := x.stop.toNat) (by omega) (by omega)
  obtain ⟨f, _, pre, s0, z, hm, e1, e2⟩ := h
  refine ⟨hm.body.fits, ?_, hm.blank, hm.body.rows, hm.body.header⟩
  have hsl : (x.string.take x.stop.toNat).length = x.stop.toNat := by rw [List.length_take]; omega
  have hbl : ((x.string.take x.stop.toNat).take x.start.toNat ++ pre).length = x.start.toNat + pre.length := by
    rw [List.length_append, List.length_take, hsl]; omega
  refine ⟨(x.string.take x.stop.toNat).take x.start.toNat ++ pre, z.rest, ?_, ?_, ?_, hm.body.stops, ?_⟩
  · conv => lhs; rw [← List.take_append_drop x.start.toNat (x.string.take x.stop.toNat)]
    rw [← htext, hm.split, hm.body.reads.1]
    simp [List.append_assoc]
  · rw [hbl, ← e1, hm.pos]
  · rw [hbl]; omega
  · intro he
    obtain ⟨h1, h2⟩ := hm.noEqui he
    refine ⟨h1, ?_⟩
    rw [hm.start] at h2
    have : (x.string.take x.stop.toNat).take (x.start.toNat + pre.length) =
        (x.string.take x.stop.toNat).take x.start.toNat ++ pre := by
      conv => lhs; rw [← List.take_append_drop x.start.toNat (x.string.take x.stop.toNat)]
      rw [← htext, hm.split]
      have : (List.take x.start.toNat (List.take x.stop.toNat x.string)).length = x.start.toNat := by
        rw [List.length_take, hsl]; omega
      rw [List.take_append, this, Nat.add_sub_cancel_left, List.append_assoc, List.take_left,
        List.take_of_length_le (by omega)]
    rw [← this]
    exact h2


/-- **C96.** The `Extract` of a style, whatever Ito it is applied to, gives a tree for each table it finds: an Ito `table`
with one child for each caption and row, in order, at exactly its place; each table stands in the text as the style says, and they
do not overlap. -/
theorem C96_tables (S : Style) (hS : PlainStyle S) (seen : Nat → Nat) (x : FIto Char)
    (hx : 0 ≤ x.start ∧ x.start ≤ x.stop ∧ x.stop ≤ x.string.length) :
    ∃ ts : List Hit, tables S seen x = .ok (ts.map fun t => tableTree t.ind t.at_ t.parts) ∧ (∀ t ∈ ts, Stands S x t) ∧
      ts.Pairwise fun a b => a.stop ≤ b.at_ := by
  have hlen : x.text.length = x.stop.toNat - x.start.toNat :=
    FIto.text_length (x := x) (a := x.start.toNat) (b := x.stop.toNat) (by omega) (by omega) (by omega)
  have hok := finditer_ok (noLook_build hS (x.string.take x.stop.toNat) (seen x.start.toNat)) (i := x.start.toNat) (rest := x.text)
  obtain ⟨ts, g1, g2, g3, _, g4⟩ := loop_tables hS x.string.length (x.string.take x.stop.toNat) (seen x.start.toNat) x.start.toNat
    x.text (by omega) (finditer (buildRe S (x.string.take x.stop.toNat) (seen x.start.toNat)) x.start.toNat x.text) []
    (fun f hf => hf) hok.2
  refine ⟨ts, ?_, fun t ht => stands_of hx (g3 t ht), g4.imp fun h => Nat.le_trans (Nat.le_add_right _ _) h⟩
  · unfold tables extractRe fromRe
    rw [g1]
    simp

end Pawpaw.Props
