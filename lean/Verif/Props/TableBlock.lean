import Verif.Props.TableMore
import Verif.Lemmas.RegexSem
/-!
# C97: tables with an indentation
-/
set_option linter.unusedSectionVars false
set_option linter.unusedSimpArgs false
namespace Pawpaw.Props
open Pawpaw Pawpaw.Regex Pawpaw.Match Pawpaw.Xml Pawpaw.Table RegexSpec TreeSpec TableSpec

theorem joined_append (a b : List (List Char)) : joined (a ++ b) = joined a ++ joined b := by simp [joined]
theorem joined_cons (l : List Char) (ls : List (List Char)) : joined (l :: ls) = l ++ '\n' :: joined ls := by simp [joined]

theorem isLine_length {ind l : List Char} (h : IsLine ind l) : 2 ≤ l.length := by
  obtain ⟨c, w, _, _, h3, _, rfl⟩ := h
  have := List.length_pos_iff.2 h3
  simp
  omega

theorem joined_length {ind : List Char} : ∀ {ls : List (List Char)}, (∀ l ∈ ls, IsLine ind l) → 3 * ls.length ≤ (joined ls).length
  | [], _ => by simp
  | l :: ls, h => by
    have h1 := isLine_length (h l (by simp))
    have h2 := joined_length (fun l hl => h l (List.mem_cons_of_mem _ hl)) (ls := ls)
    rw [joined_cons, List.length_append, List.length_cons, List.length_cons]
    omega

theorem sem_lit (cs : List Char) (i : Nat) (u w : List Char) : Sem (lit cs) i u w ↔ u = cs := by
  rw [sem_free _ (plain_free _ (plain_lit cs)), lang_lit]

theorem sem_chunkLine (i : Nat) (u w : List Char) : Sem chunkLine i u w ↔
    ∃ c v, c ≠ ' ' ∧ c ≠ '\t' ∧ v ≠ [] ∧ '\n' ∉ v ∧ u = c :: v := by
  rw [sem_free chunkLine ⟨trivial, trivial, trivial⟩]
  constructor
  · rintro ⟨a, b, rfl, ⟨c, hc, rfl⟩, p, q, rfl, ⟨d, hd, rfl⟩, hq⟩
    have hq := (lang_many_chr (fun x => x != '\n') q).1 hq
    simp at hc hd
    refine ⟨c, d :: q, hc.1, hc.2, by simp, ?_, rfl⟩
    intro hm
    rcases List.mem_cons.1 hm with h | h
    · exact hd h.symm
    · simpa using hq _ h
  · rintro ⟨c, v, h1, h2, h3, h4, rfl⟩
    cases v with
    | nil => exact absurd rfl h3
    | cons d q =>
      refine ⟨[c], d :: q, rfl, ⟨c, by simp [h1, h2], rfl⟩, [d], q, rfl, ⟨d, ?_, rfl⟩, ?_⟩
      · simp only [List.mem_cons, not_or] at h4
        simpa using fun h => h4.1 h.symm
      · refine (lang_many_chr (fun x => x != '\n') q).2 ?_
        intro x hx
        simp only [List.mem_cons, not_or] at h4
        simp only [bne_iff_ne, ne_eq]
        rintro rfl
        exact h4.2 hx

/-- A further line of a block. -/
abbrev moreLine (ind : List Char) : Re := .seq (lit ind) (.seq chunkLine (.alt (.chr (· == '\n')) .eos))

theorem sem_moreLine (ind : List Char) (i : Nat) (u w : List Char) : Sem (moreLine ind) i u w ↔
    ∃ l, IsLine ind l ∧ (u = l ++ ['\n'] ∨ (u = l ∧ (w = [] ∨ w = ['\n']))) := by
  constructor
  · rintro ⟨a, b, rfl, ha, c, d, rfl, hc, hd⟩
    rw [sem_lit] at ha
    subst ha
    obtain ⟨x, v, h1, h2, h3, h4, rfl⟩ := (sem_chunkLine _ _ _).1 hc
    refine ⟨a ++ x :: v, ⟨x, v, h1, h2, h3, h4, rfl⟩, ?_⟩
    rcases hd with ⟨y, hy, rfl⟩ | ⟨rfl, hw⟩
    · left; simp at hy; subst hy; simp
    · right; exact ⟨by simp, hw⟩
  · rintro ⟨l, ⟨x, v, h1, h2, h3, h4, rfl⟩, hu⟩
    rcases hu with rfl | ⟨rfl, hw⟩
    · exact ⟨ind, x :: v ++ ['\n'], by simp, (sem_lit _ _ _ _).2 rfl, x :: v, ['\n'], rfl,
        (sem_chunkLine _ _ _).2 ⟨x, v, h1, h2, h3, h4, rfl⟩, Or.inl ⟨'\n', by simp, rfl⟩⟩
    · exact ⟨ind, x :: v, by simp, (sem_lit _ _ _ _).2 rfl, x :: v, [], by simp,
        (sem_chunkLine _ _ _).2 ⟨x, v, h1, h2, h3, h4, rfl⟩, Or.inr ⟨rfl, hw⟩⟩

/-- Lines read one after the other. -/
theorem rep_lines {ind : List Char} {i : Nat} {u w : List Char} (h : Rep (Sem (moreLine ind)) i u w) :
    ∃ ls, (∀ l ∈ ls, IsLine ind l) ∧ (u = joined ls ∨ (ls ≠ [] ∧ u ++ ['\n'] = joined ls ∧ (w = [] ∨ w = ['\n']))) := by
  induction h with
  | nil => exact ⟨[], by simp, Or.inl rfl⟩
  | @cons i u v w hR _ ih =>
    obtain ⟨l, hl, hu⟩ := (sem_moreLine _ _ _ _).1 hR
    obtain ⟨ls, h1, h2⟩ := ih
    rcases hu with rfl | ⟨rfl, hw⟩
    · refine ⟨l :: ls, ?_, ?_⟩
      · intro x hx
        rcases List.mem_cons.1 hx with rfl | hx
        · exact hl
        · exact h1 x hx
      · rcases h2 with rfl | ⟨h2, h3, h4⟩
        · left; rw [joined_cons]; simp
        · right; refine ⟨by simp, ?_, h4⟩; rw [joined_cons, ← h3]; simp
    · have hlen := joined_length h1
      have hv : v.length + w.length ≤ 1 := by
        rcases hw with h | h <;> have := congrArg List.length h <;> rw [List.length_append] at this <;> simp only [List.length_nil, List.length_singleton] at this <;> omega
      have hls : ls = [] := by
        rw [← List.length_eq_zero_iff]
        rcases h2 with h2 | ⟨_, h2, _⟩ <;> have := congrArg List.length h2 <;> try rw [List.length_append, List.length_singleton] at this
        all_goals omega
      subst hls
      have hv0 : v = [] := by
        rcases h2 with h2 | ⟨h2, _⟩
        · exact h2
        · exact absurd rfl h2
      subst hv0
      refine ⟨[u], by simpa using hl, Or.inr ⟨by simp, by simp [joined], by simpa using hw⟩⟩

theorem sem_blank (i : Nat) (u w : List Char) : Sem blank i u w ↔ ∀ c ∈ u, c = ' ' ∨ c = '\t' := by
  rw [sem_free blank trivial]
  unfold blank
  rw [lang_many_chr]
  simp

theorem block_of {ind : List Char} {d : Char} {v y w : List Char} {i : Nat} (hb : ∀ c ∈ ind, c = ' ' ∨ c = '\t')
    (hl : IsLine ind (ind ++ d :: v)) (hR : Rep (Sem (moreLine ind)) i y w) (hy : y ≠ []) :
    ∃ ls, Block ind ls (ind ++ d :: v ++ '\n' :: y) w := by
  obtain ⟨ls, h1, h2⟩ := rep_lines hR
  have hne : ls ≠ [] := by
    rintro rfl
    rcases h2 with h2 | ⟨h2, _⟩
    · exact hy h2
    · exact h2 rfl
  refine ⟨(ind ++ d :: v) :: ls, hb, ?_, ?_, ?_⟩
  · have := List.length_pos_iff.2 hne
    rw [List.length_cons]; omega
  · intro x hx
    rcases List.mem_cons.1 hx with rfl | hx
    · exact hl
    · exact h1 x hx
  · rw [joined_cons]
    rcases h2 with h2 | ⟨_, h2, h3⟩
    · left; rw [← h2]
    · right; refine ⟨?_, h3⟩; rw [← h2]; simp

theorem moreLine_caps (ind : List Char) (st st' : St) (h : st' ∈ out (moreLine ind) st) : st'.caps = st.caps := by
  rw [out.eq_3] at h
  obtain ⟨s1, h1, h⟩ := List.mem_flatMap.1 h
  rw [out.eq_3] at h
  obtain ⟨s2, h2, h⟩ := List.mem_flatMap.1 h
  have e1 := plain_caps _ (plain_lit ind) _ _ h1
  have e2 := plain_caps chunkLine ⟨trivial, trivial, trivial⟩ _ _ h2
  rw [out.eq_4] at h
  rcases List.mem_append.1 h with h | h
  · rw [plain_caps (.chr (· == '\n')) trivial _ _ h, e2, e1]
  · rw [out] at h
    split at h
    · rw [List.mem_singleton] at h
      rw [h, e2, e1]
    · cases h

theorem iter_nonempty {f : St → List St} : ∀ (n : Nat) (st : St), iter true f n st ≠ []
  | 0, st => by simp [iter]
  | n + 1, st => by simp [iter]

/-- A greedy repetition with nothing after it goes on as long as it can. -/
theorem iter_greedy {f : St → List St} (hf : ∀ st st', st' ∈ f st → ∃ u : List Char, u ≠ [] ∧ Reads st u st') :
    ∀ (n : Nat) (st z : St), st.rest.length ≤ n → (iter true f n st).head? = some z → f z = []
  | 0, st, z, hn, h => by
    simp only [iter, List.head?_cons, Option.some.injEq] at h
    subst h
    cases hc : f st with
    | nil => rfl
    | cons s l =>
      obtain ⟨u, h1, h2⟩ := hf st s (by rw [hc]; simp)
      have := congrArg List.length h2.1
      have := List.length_pos_iff.2 h1
      simp only [List.length_append] at *
      omega
  | n + 1, st, z, hn, h => by
    rw [iter] at h
    simp only [if_true, List.head?_append, List.head?_cons] at h
    cases hc : f st with
    | nil =>
      rw [hc] at h
      simp at h
      subst h
      exact hc
    | cons s l =>
      obtain ⟨u, h1, h2⟩ := hf st s (by rw [hc]; simp)
      have hlen := congrArg List.length h2.1
      have hpos := List.length_pos_iff.2 h1
      simp only [List.length_append] at hlen
      have hp := h2.2
      rw [hc] at h
      simp only [List.flatMap_cons, List.head?_append] at h
      rw [if_pos (by omega)] at h
      cases hh : (iter true f n s).head? with
      | none => exact absurd (List.head?_eq_none_iff.1 hh) (iter_nonempty n s)
      | some z' =>
        rw [hh] at h
        simp at h
        subst h
        exact iter_greedy hf n s z' (by omega) hh

theorem moreLine_reads (ind : List Char) (st st' : St) (h : st' ∈ out (moreLine ind) st) :
    ∃ u : List Char, u ≠ [] ∧ Reads st u st' := by
  obtain ⟨u, h1, h2⟩ := out_sem _ _ _ h
  refine ⟨u, ?_, h1⟩
  obtain ⟨l, hl, hu⟩ := (sem_moreLine _ _ _ _).1 h2
  have := isLine_length hl
  rintro rfl
  rcases hu with h | ⟨h, _⟩ <;> have := congrArg List.length h <;> simp at this
  omega

/-- What the pattern for blocks of lines finds. -/
theorem chunk_best {text : List Char} {lo p : Nat} {suf : List Char} {z : St}
    (hz : (out (chunkRe text lo) ⟨p, suf, []⟩).head? = some z) :
    ∃ ind ls u, Reads ⟨p, suf, []⟩ u z ∧ AtLineStart (text.take p) ∧ Block ind ls u z.rest ∧
      z.caps = [("indent", p, p + ind.length), ("chunk", p, z.pos)] ∧ out (moreLine ind) z = [] := by
  unfold chunkRe at hz
  rw [out.eq_3] at hz
  obtain ⟨s0, m0, hz⟩ := head_first _ _ _ hz
  unfold lineStart NlpRe.behind at m0
  rw [out] at m0
  split at m0
  case isFalse => cases m0
  rename_i hb
  rw [List.mem_singleton] at m0
  subst m0
  rw [out.eq_6, List.head?_map] at hz
  obtain ⟨y, hy, rfl⟩ := Option.map_eq_some_iff.1 hz
  rw [out.eq_11] at hy
  obtain ⟨s1, m1, hy⟩ := head_first _ _ _ hy
  rw [out] at m1
  obtain ⟨s2, m2, rfl⟩ := List.mem_map.1 m1
  obtain ⟨ind, r1, l1, c1⟩ := plain_out (r := Table.blank) trivial m2
  have ht : List.take (s2.pos - p) suf = ind := r1.take
  dsimp only at hy
  rw [ht] at hy
  rw [out.eq_3] at hy
  obtain ⟨s3, m3, hy⟩ := head_first _ _ _ hy
  obtain ⟨v, r3, l3, c3⟩ := plain_out (r := chunkLine) ⟨trivial, trivial, trivial⟩ m3
  rw [out.eq_3] at hy
  obtain ⟨s4, m4, hy⟩ := head_first _ _ _ hy
  obtain ⟨n, r4, l4, c4⟩ := plain_out (r := .chr (· == '\n')) trivial m4
  unfold plus at hy
  rw [out.eq_3] at hy
  obtain ⟨s5, m5, hy⟩ := head_first _ _ _ hy
  obtain ⟨u5, r5, l5⟩ := out_sem _ _ _ m5
  have hym := List.mem_of_mem_head? (show y ∈ (out (.star true (moreLine ind)) s5).head? by rw [hy]; rfl)
  obtain ⟨u6, r6, l6⟩ := out_sem _ _ _ hym
  obtain ⟨u5', h5, _⟩ := moreLine_reads ind _ _ m5
  have c5 := moreLine_caps ind _ _ m5
  have c6 : y.caps = s5.caps := by
    rw [out] at hym
    exact iter_keeps (moreLine_caps ind) _ _ _ hym
  obtain ⟨d, w, d1, d2, d3, d4, rfl⟩ := (sem_chunkLine 0 v []).1 ((sem_free chunkLine ⟨trivial, trivial, trivial⟩ _ _ _).2 l3)
  obtain ⟨e, he, rfl⟩ := l4
  simp at he
  subst he
  have hR : Rep (Sem (moreLine ind)) s4.pos (u5 ++ u6) y.rest := Rep.cons (by rw [← r6.1]; exact l5) (by rw [← r5.2]; exact l6)
  have hu5 : u5 ≠ [] := by
    obtain ⟨u, h1, h2⟩ := moreLine_reads ind _ _ m5
    have e1 := h2.2
    have e2 := r5.2
    have := List.length_pos_iff.2 h1
    intro h0
    rw [h0] at e2
    simp at e2
    omega
  obtain ⟨ls, hB⟩ := block_of (by
    intro c hc
    have := (lang_many_chr _ _).1 l1 c hc
    simpa using this) (⟨d, w, d1, d2, d3, d4, rfl⟩ : IsLine ind (ind ++ d :: w)) hR (by simp [hu5])
  have r2 : Reads ⟨p, suf, []⟩ ind ({ s2 with caps := s2.caps ++ [("indent", p, s2.pos)] } : St) := ⟨r1.1, r1.2⟩
  refine ⟨ind, ls, _, ((((r2.trans r3).trans r4).trans r5).trans r6), lineStart_sound hb, ?_, ?_, ?_⟩
  · simpa [List.append_assoc] using hB
  · dsimp only
    rw [c6, c5, c4, c3, c1]
    have := r1.2
    dsimp only at this
    simp [this]
  · have h1 := iter_greedy (moreLine_reads ind) s5.rest.length s5 y (Nat.le_refl _) (by rw [out] at hy; exact hy)
    have h2 : out (moreLine ind) y = [] := h1
    cases hc : out (moreLine ind) ({ y with caps := y.caps ++ [("chunk", p, y.pos)] } : St) with
    | nil => rfl
    | cons s l =>
      obtain ⟨u, g1, g2⟩ := out_sem _ _ s (by rw [hc]; simp : s ∈ _)
      have : out (moreLine ind) ⟨y.pos, y.rest, y.caps⟩ ≠ [] := (out_ne _ _ _ _).2 ⟨u, s.rest, g1.1, g2⟩
      exact absurd h2 this

/-- A block found: where it starts and ends, its indentation and its lines. -/
structure Blk where
  start : Nat
  stop : Nat
  ind : List Char
  lines : List (List Char)

/-- The Ito for it. -/
def Blk.ito (x : FIto Char) (b : Blk) : FIto Char := ⟨x.string, ⟨b.start, b.stop⟩, some "chunk"⟩

/-- A block stands in the text of an Ito: from the start of a line on, lines with the same indentation; and no further line
of that kind follows. -/
def BlkIn (x : FIto Char) (b : Blk) : Prop :=
  ∃ before u after, x.string.take x.stop.toNat = before ++ u ++ after ∧ b.start = before.length ∧
    b.stop = before.length + u.length ∧ x.start ≤ b.start ∧ AtLineStart before ∧ Block b.ind b.lines u after ∧
    ∀ l, IsLine b.ind l → after ≠ l ∧ ∀ w, after ≠ l ++ '\n' :: w

theorem block_pos {ind : List Char} {ls : List (List Char)} {u after : List Char} (h : Block ind ls u after) : u ≠ [] := by
  obtain ⟨_, h2, h3, h4⟩ := h
  have := joined_length h3
  rintro rfl
  rcases h4 with h | ⟨h, _⟩ <;> have := congrArg List.length h <;> simp at this <;> omega

theorem no_more {ind : List Char} {z : St} (h : out (moreLine ind) z = []) :
    ∀ l, IsLine ind l → z.rest ≠ l ∧ ∀ w, z.rest ≠ l ++ '\n' :: w := by
  intro l hl
  have key : ∀ u w, z.rest = u ++ w → ¬ Sem (moreLine ind) z.pos u w := by
    intro u w h1 h2
    exact absurd h ((out_ne (moreLine ind) z.pos z.rest z.caps).2 ⟨u, w, h1, h2⟩)
  refine ⟨?_, ?_⟩
  · intro h1
    exact key l [] (by simpa using h1) ((sem_moreLine _ _ _ _).2 ⟨l, hl, Or.inr ⟨rfl, Or.inl rfl⟩⟩)
  · intro w h1
    exact key (l ++ ['\n']) w (by simpa using h1) ((sem_moreLine _ _ _ _).2 ⟨l, hl, Or.inl rfl⟩)

theorem rep_joined {ind : List Char} : ∀ (ls : List (List Char)) (i : Nat) (w : List Char), (∀ l ∈ ls, IsLine ind l) →
    Rep (Sem (moreLine ind)) i (joined ls) w
  | [], _, _, _ => .nil
  | l :: ls, i, w, h => by
    rw [show joined (l :: ls) = (l ++ ['\n']) ++ joined ls by simp [joined]]
    exact .cons ((sem_moreLine _ _ _ _).2 ⟨l, h l (by simp), Or.inl rfl⟩) (rep_joined ls _ w fun l hl => h l (by simp [hl]))

theorem rep_append {R : Nat → List Char → List Char → Prop} {i : Nat} {u w : List Char} (h : Rep R i u w) :
    ∀ {v w' : List Char}, w = v ++ w' → Rep R (i + u.length) v w' → Rep R i (u ++ v) w' := by
  induction h with
  | nil => intro v w' _ h; simpa using h
  | @cons i u v w h1 _ ih =>
    intro v' w' e h
    rw [List.append_assoc]
    refine .cons (by rw [List.append_assoc, ← e]; exact h1) (ih e ?_)
    rw [List.length_append, ← Nat.add_assoc] at h
    exact h

theorem rep_block {ind : List Char} {ls : List (List Char)} {y w : List Char} (i : Nat) (h1 : ∀ l ∈ ls, IsLine ind l)
    (h2 : y = joined ls ∨ (y ++ ['\n'] = joined ls ∧ (w = [] ∨ w = ['\n']))) : Rep (Sem (moreLine ind)) i y w := by
  rcases h2 with rfl | ⟨h2, hw⟩
  · exact rep_joined ls i w h1
  · rcases List.eq_nil_or_concat ls with rfl | ⟨l0, l, rfl⟩
    · simp [joined] at h2
    · rw [List.concat_eq_append] at h2 h1
      rw [joined_append, show joined [l] = l ++ ['\n'] by simp [joined], ← List.append_assoc] at h2
      have hy := (List.append_inj' h2 rfl).1
      subst hy
      refine rep_append (rep_joined l0 i (l ++ w) fun l hl => h1 l (by simp [hl])) rfl ?_
      have := Rep.cons (R := Sem (moreLine ind)) (i := i + (joined l0).length) (u := l) (v := []) (w := w)
        ((sem_moreLine _ _ _ _).2 ⟨l, h1 l (by simp), Or.inr ⟨rfl, by simpa using hw⟩⟩) .nil
      simpa using this

/-- Where a block stands at the start of a line, the pattern for blocks matches. -/
theorem sem_block {text : List Char} {lo i : Nat} {ind : List Char} {ls : List (List Char)} {u w : List Char}
    (h : Block ind ls u w) (ht : NlpRe.endsHere (.alt .bos (.chr (· == '\n'))) text lo i = true) : Sem (chunkRe text lo) i u w := by
  obtain ⟨h1, h2, h3, h4⟩ := h
  match ls, h2 with
  | l0 :: l1 :: ls, _ =>
    obtain ⟨c, v, c1, c2, c3, c4, rfl⟩ := h3 l0 (by simp)
    obtain ⟨y, hu, hy⟩ : ∃ y, u = ind ++ (c :: v ++ ('\n' :: y)) ∧ (y = joined (l1 :: ls) ∨ (y ++ ['\n'] = joined (l1 :: ls) ∧
        (w = [] ∨ w = ['\n']))) := by
      rcases h4 with h4 | ⟨h4, h5⟩
      · exact ⟨joined (l1 :: ls), by rw [h4, joined_cons]; simp, Or.inl rfl⟩
      · rcases List.eq_nil_or_concat (joined (l1 :: ls)) with h0 | ⟨y, d, hyd⟩
        · rw [joined_cons] at h0; simp at h0
        · rw [List.concat_eq_append] at hyd
          have hd : d = '\n' := by
            have := congrArg List.getLast? hyd
            rw [show joined (l1 :: ls) = joined ((l1 :: ls).dropLast) ++ ((l1 :: ls).getLast (by simp) ++ ['\n']) by
              conv => lhs; rw [← List.dropLast_concat_getLast (by simp : l1 :: ls ≠ []), joined_append]
              simp [joined], ← List.append_assoc, List.getLast?_append, List.getLast?_append] at this
            simpa using this.symm
          subst hd
          refine ⟨y, ?_, Or.inr ⟨hyd.symm, h5⟩⟩
          rw [joined_cons, hyd, show ind ++ c :: v ++ '\n' :: (y ++ ['\n']) = (ind ++ (c :: v ++ '\n' :: y)) ++ ['\n'] by simp] at h4
          exact (List.append_inj' h4 rfl).1
    subst hu
    have hR := rep_block (ind := ind) (i + ind.length + (c :: v).length + ['\n'].length) (fun l hl => h3 l (List.mem_cons_of_mem _ hl)) hy
    have hne : y ≠ [] := by
      rintro rfl
      have := joined_length (ind := ind) (ls := l1 :: ls) fun l hl => h3 l (List.mem_cons_of_mem _ hl)
      rcases hy with h | ⟨h, _⟩ <;> have := congrArg List.length h <;> simp at * <;> omega
    refine ⟨[], ind ++ (c :: v ++ '\n' :: y), rfl, ⟨rfl, ht⟩, ind, c :: v ++ '\n' :: y, rfl, (sem_blank _ _ _).2 h1, c :: v, '\n' :: y,
      rfl, (sem_chunkLine _ _ _).2 ⟨c, v, c1, c2, c3, c4, rfl⟩, ['\n'], y, rfl, ⟨'\n', by simp, rfl⟩, ?_⟩
    cases hR with
    | nil => exact absurd rfl hne
    | @cons _ a b _ ha hb => exact ⟨a, b, rfl, by simpa using ha,
      (show Rep (Sem (moreLine ind)) _ b w by simpa [Nat.add_assoc] using hb)⟩

theorem found_chunk {text : List Char} {lo i : Nat} {rest : List Char} {f : Found} (hf : f ∈ finditer (chunkRe text lo) i rest) :
    ∃ pre u z ind ls, rest = pre ++ u ++ z.rest ∧ f.start = i + pre.length ∧ f.stop = f.start + u.length ∧ z.pos = f.stop ∧
      AtLineStart (text.take f.start) ∧ Block ind ls u z.rest ∧
      f.caps = [("indent", f.start, f.start + ind.length), ("chunk", f.start, f.stop)] ∧ out (moreLine ind) z = [] := by
  obtain ⟨pre, suf, st, e1, e2, _, e4, e5, e6⟩ := finditer_at hf
  have key : (out (chunkRe text lo) ⟨f.start, suf, []⟩).head? = some st := by
    rcases e6 with h | ⟨st0, h1, h2, _⟩
    · exact h
    · obtain ⟨ind, ls, u, r, _, hB, _⟩ := chunk_best h1
      have := List.length_pos_iff.2 (block_pos hB)
      have := r.2
      dsimp only at this
      omega
  obtain ⟨ind, ls, u, r, h1, h2, h3, h4⟩ := chunk_best key
  refine ⟨pre, u, st, ind, ls, ?_, e2, ?_, e4.symm, h1, h2, ?_, h4⟩
  · rw [e1, List.append_assoc]; congr 1; exact r.1
  · rw [e4]; exact r.2
  · rw [e5, h3, e4]

theorem fromMatch_chunk (len : Nat) (f : Found) (a b : Nat) (hc : f.caps = [("indent", a, b), ("chunk", f.start, f.stop)])
    (h1 : f.start ≤ f.stop) (h2 : f.stop ≤ len) :
    fromMatch len (spansOf ["chunk"] f) = .ok [.leaf ⟨(f.start : Int), (f.stop : Int)⟩ (some "chunk")] := by
  have e : ((spansOf ["chunk"] f).flatMap fun g => g.2.map fun s => (s, g.1)) = [(⟨(f.start : Int), (f.stop : Int)⟩, some "chunk")] := by
    rw [captured_eq]
    simp [captured, hc]
  refine C18_from_match_exact len _ _ ?_ (by simp) ?_ ?_ ?_
  · intro n hn
    rw [List.mem_singleton] at hn
    subst hn
    exact ⟨canon_leaf (by dsimp only; omega) (by dsimp only; omega), by show ((f.stop : Nat) : Int) ≤ len; omega⟩
  · rw [e]; exact List.Perm.refl _
  · simp [preorderAll, preorder, Node.leaf]
  · intro s
    rw [e]
    rfl

theorem loop_map (len : Nat) (keys : List String) (F : Found → Node) : ∀ (ms : List Found) (rv : List Node),
    (∀ f ∈ ms, fromMatch len (spansOf keys f) = .ok [F f]) →
    fromReLoop len none rv (ms.map (spansOf keys)) = .ok (rv ++ ms.map F)
  | [], rv, _ => by simp [fromReLoop]
  | m :: ms, rv, h => by
    rw [List.map_cons, fromReLoop, h m (by simp)]
    simp only
    rw [loop_map len keys F ms _ fun f hf => h f (List.mem_cons_of_mem _ hf)]
    simp

theorem noLook_chunk (text : List Char) (lo : Nat) : NoLook (chunkRe text lo) := by
  have hc : NoLook chunkLine := ⟨trivial, trivial, trivial⟩
  have hm : ∀ ind, NoLook (moreLine ind) := fun ind => ⟨noLook_plain _ (plain_lit ind), hc, trivial, trivial⟩
  exact ⟨trivial, trivial, fun ind => ⟨hc, trivial, hm ind, hm ind⟩⟩


theorem blocks_found (seen : Nat → Nat) (x : FIto Char) (hx : 0 ≤ x.start ∧ x.start ≤ x.stop ∧ x.stop ≤ x.string.length) :
    ∃ bs : List Blk, chunks seen x = .ok (bs.map fun b => .leaf ⟨b.start, b.stop⟩ (some "chunk")) ∧ (∀ b ∈ bs, BlkIn x b) ∧
      (bs.Pairwise fun a b => a.stop ≤ b.start) ∧
      ∀ before ind ls u after, x.string.take x.stop.toNat = before ++ u ++ after → x.start ≤ before.length →
        (seen x.start.toNat = 0 ∨ seen x.start.toNat < before.length) → AtLineStart before → Block ind ls u after →
        ∃ b ∈ bs, b.start ≤ before.length ∧ before.length < b.stop := by
  have hlen : x.text.length = x.stop.toNat - x.start.toNat :=
    FIto.text_length (x := x) (a := x.start.toNat) (b := x.stop.toNat) (by omega) (by omega) (by omega)
  have htext : x.text = (x.string.take x.stop.toNat).drop x.start.toNat :=
    FIto.text_eq (x := x) (a := x.start.toNat) (b := x.stop.toNat) (by omega) (by omega)
  have hok := finditer_ok (noLook_chunk (x.string.take x.stop.toNat) (seen x.start.toNat)) (i := x.start.toNat) (rest := x.text)
  have hE := loop_map x.string.length ["chunk"] (fun f => .leaf ⟨(f.start : Int), (f.stop : Int)⟩ (some "chunk"))
    (finditer (chunkRe (x.string.take x.stop.toNat) (seen x.start.toNat)) x.start.toNat x.text) [] (by
      intro f hf
      obtain ⟨pre, u, z, ind, ls, e1, e2, e3, e4, e5, e6, e7, e8⟩ := found_chunk hf
      have := (hok.1 f hf).2.2
      exact fromMatch_chunk _ f _ _ e7 (by omega) (by omega))
  have key : ∀ ms : List Found, (∀ f ∈ ms, f ∈ finditer (chunkRe (x.string.take x.stop.toNat) (seen x.start.toNat)) x.start.toNat x.text) →
      ms.Pairwise (fun a b => a.stop ≤ b.start) →
      ∃ bs : List Blk, ms.map (fun f => (f.start, f.stop)) = bs.map (fun b => (b.start, b.stop)) ∧ (∀ b ∈ bs, BlkIn x b) := by
    intro ms
    induction ms with
    | nil => intro _ _; exact ⟨[], rfl, by simp⟩
    | cons f ms ih =>
      intro h hp
      obtain ⟨bs, g1, g2⟩ := ih (fun f hf => h f (List.mem_cons_of_mem _ hf)) (List.pairwise_cons.1 hp).2
      obtain ⟨pre, u, z, ind, ls, e1, e2, e3, e4, e5, e6, e7, e8⟩ := found_chunk (h f (by simp))
      refine ⟨⟨f.start, f.stop, ind, ls⟩ :: bs, by simp [g1], ?_⟩
      intro b hb
      rcases List.mem_cons.1 hb with rfl | hb
      · have hsl : (x.string.take x.stop.toNat).length = x.stop.toNat := by rw [List.length_take]; omega
        have hbl : ((x.string.take x.stop.toNat).take x.start.toNat ++ pre).length = x.start.toNat + pre.length := by
          rw [List.length_append, List.length_take, hsl]; omega
        have heq : x.string.take x.stop.toNat = (x.string.take x.stop.toNat).take x.start.toNat ++ pre ++ u ++ z.rest := by
          conv => lhs; rw [← List.take_append_drop x.start.toNat (x.string.take x.stop.toNat)]
          rw [← htext, e1]
          simp [List.append_assoc]
        refine ⟨(x.string.take x.stop.toNat).take x.start.toNat ++ pre, u, z.rest, heq, ?_, ?_, ?_, ?_, e6, no_more e8⟩
        · dsimp only; rw [hbl, e2]
        · dsimp only; rw [hbl, e3, e2]
        · dsimp only; omega
        · have : (x.string.take x.stop.toNat).take f.start = (x.string.take x.stop.toNat).take x.start.toNat ++ pre := by
            have := List.take_left (l₁ := (x.string.take x.stop.toNat).take x.start.toNat ++ pre) (l₂ := u ++ z.rest)
            rw [hbl, ← List.append_assoc, ← heq] at this
            rw [e2]
            exact this
          rw [← this]
          exact e5
      · exact g2 b hb
  obtain ⟨bs, g1, g2⟩ := key _ (fun f hf => hf) hok.2
  refine ⟨bs, ?_, g2, ?_, ?_⟩
  · unfold chunks extractRe fromRe
    rw [hE, List.nil_append]
    have : (fun f : Found => (Node.leaf ⟨(f.start : Int), (f.stop : Int)⟩ (some "chunk"))) =
        (fun p : Nat × Nat => Node.leaf ⟨(p.1 : Int), (p.2 : Int)⟩ (some "chunk")) ∘ fun f => (f.start, f.stop) := rfl
    rw [this, ← List.map_map, g1, List.map_map]
    rfl
  · have h1 : (bs.map fun b => (b.start, b.stop)).Pairwise fun a b => a.2 ≤ b.1 := by
      rw [← g1, List.pairwise_map]
      exact hok.2
    rwa [List.pairwise_map] at h1

  · intro before ind ls u after hs hb hseen h1 h2
    have hbl : before.length ≤ x.stop.toNat := by
      have := congrArg List.length hs
      simp only [List.length_append, List.length_take] at this
      omega
    have hpre : (x.string.take x.stop.toNat).take before.length = before := by
      rw [hs, List.append_assoc, List.take_left]
    have hsplit : x.text = before.drop x.start.toNat ++ (u ++ after) := by
      rw [htext, hs, List.append_assoc, List.drop_append_of_le_length (by omega)]
    have hpos : x.start.toNat + (before.drop x.start.toNat).length = before.length := by
      rw [List.length_drop]; omega
    have hlb := lineStart_complete' (text := x.string.take x.stop.toNat) (i := before.length) hseen
      (by rw [List.length_take]; omega) (by rw [hpre]; exact h1)
    have hout : out (chunkRe (x.string.take x.stop.toNat) (seen x.start.toNat))
        ⟨x.start.toNat + (before.drop x.start.toNat).length, u ++ after, []⟩ ≠ [] := by
      rw [hpos]
      exact (out_ne _ _ _ _).2 ⟨u, after, rfl, sem_block h2 hlb⟩
    obtain ⟨f, hf, hfs⟩ := finditer_covers hout
    rw [← hsplit] at hf
    rw [hpos] at hfs
    have hm : (f.start, f.stop) ∈ bs.map fun b => (b.start, b.stop) := by
      rw [← g1]; exact List.mem_map_of_mem (f := fun f : Found => (f.start, f.stop)) hf
    obtain ⟨b, hb, e⟩ := List.mem_map.1 hm
    simp only [Prod.mk.injEq] at e
    obtain ⟨pre, u', z, ind', ls', _, _, e3, _, _, e6, _⟩ := found_chunk hf
    have := List.length_pos_iff.2 (block_pos e6)
    refine ⟨b, hb, ?_, ?_⟩ <;> omega

/-- **C97.** The blocks: each is made of at least two lines with the same indentation, the first from the start of a line on,
and goes on as long as such lines follow; they do not overlap. -/
theorem C97_blocks (seen : Nat → Nat) (x : FIto Char) (hx : 0 ≤ x.start ∧ x.start ≤ x.stop ∧ x.stop ≤ x.string.length) :
    ∃ bs : List Blk, chunks seen x = .ok (bs.map fun b => .leaf ⟨b.start, b.stop⟩ (some "chunk")) ∧ (∀ b ∈ bs, BlkIn x b) ∧
      bs.Pairwise fun a b => a.stop ≤ b.start := by
  obtain ⟨bs, h1, h2, h3, _⟩ := blocks_found seen x hx
  exact ⟨bs, h1, h2, h3⟩

/-- **C97.** No block is passed over: where one stands at the start of a line, a block of the result lies over that place. -/
theorem C97_blocks_complete (seen : Nat → Nat) (x : FIto Char)
    (hx : 0 ≤ x.start ∧ x.start ≤ x.stop ∧ x.stop ≤ x.string.length) (before ind : List Char) (ls : List (List Char))
    (u after : List Char) (hs : x.string.take x.stop.toNat = before ++ u ++ after) (hb : x.start ≤ before.length)
    (hseen : seen x.start.toNat = 0 ∨ seen x.start.toNat < before.length) (h1 : AtLineStart before)
    (h2 : Block ind ls u after) :
    ∃ l, chunks seen x = .ok l ∧ ∃ n ∈ l, n.span.start ≤ before.length ∧ before.length < n.span.stop := by
  obtain ⟨bs, g1, _, _, g4⟩ := blocks_found seen x hx
  obtain ⟨b, hb', e1, e2⟩ := g4 before ind ls u after hs hb hseen h1 h2
  refine ⟨_, g1, _, List.mem_map_of_mem hb', ?_, ?_⟩
  · show ((b.start : Nat) : Int) ≤ before.length
    omega
  · show ((before.length : Nat) : Int) < b.stop
    omega

end Pawpaw.Props
