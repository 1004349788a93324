import Verif.Lemmas.Ecf
/-!
# C37: boolean filter expressions
-/
set_option linter.unusedSectionVars false
namespace Pawpaw.Props
open Pawpaw Pawpaw.Ecf EcfSpec
variable {A E : Type}

/-! ## Token lists -/

theorem operands_cons (ts : List (Tok A)) : ∃ o os, operands ts = o :: os := by
  induction ts with
  | nil => exact ⟨[], [], rfl⟩
  | cons t ts ih =>
    obtain ⟨o, os, h⟩ := ih
    cases t with
    | ch c => exact ⟨c :: o, os, by simp [operands, h]⟩
    | atom a => exact ⟨[], operands ts, rfl⟩

theorem operands_length (ts : List (Tok A)) : (operands ts).length = (atoms ts).length + 1 := by
  induction ts with
  | nil => rfl
  | cons t ts ih =>
    obtain ⟨o, os, h⟩ := operands_cons ts
    cases t with
    | ch c => rw [h] at ih; simp [operands, atoms, h] at ih ⊢; exact ih
    | atom a => simp [operands, atoms, ih]

theorem atoms_append (s t : List (Tok A)) : atoms (s ++ t) = atoms s ++ atoms t := by
  induction s with
  | nil => rfl
  | cons x s ih => cases x <;> simp [atoms, ih]

theorem operands_append (s t : List (Tok A)) : ∀ (P : List (List Char)) (o c : List Char)
    (R : List (List Char)), operands s = P ++ [o] → operands t = c :: R →
    operands (s ++ t) = P ++ (o ++ c) :: R := by
  induction s with
  | nil =>
    intro P o c R h1 h2
    have : P = [] ∧ o = [] := by
      cases P with
      | nil => simp [operands] at h1; exact ⟨rfl, h1⟩
      | cons p P => simp [operands] at h1
    obtain ⟨rfl, rfl⟩ := this
    simpa using h2
  | cons x s ih =>
    intro P o c R h1 h2
    cases x with
    | atom a =>
      simp only [operands] at h1
      cases P with
      | nil =>
        obtain ⟨o', os', h'⟩ := operands_cons s
        rw [h'] at h1; simp at h1
      | cons p P =>
        simp only [List.cons_append, List.cons.injEq] at h1
        rw [List.cons_append, operands, ih P o c R h1.2 h2, ← h1.1]
        rfl
    | ch d =>
      obtain ⟨o', os', h'⟩ := operands_cons s
      simp only [operands, h'] at h1
      cases P with
      | nil =>
        simp only [List.nil_append, List.cons.injEq] at h1
        have := ih [] o' c R (by rw [h', h1.2]; rfl) h2
        rw [List.cons_append, operands, this, ← h1.1]
        rfl
      | cons p P =>
        simp only [List.cons_append, List.cons.injEq] at h1
        have := ih (o' :: P) o c R (by rw [h', h1.2]; rfl) h2
        rw [List.cons_append, operands, this, ← h1.1]
        rfl

theorem mem_operands {ts : List (Tok A)} {o : List Char} {c : Char} (ho : o ∈ operands ts) (hc : c ∈ o) :
    Tok.ch c ∈ ts := by
  induction ts generalizing o with
  | nil => simp [operands] at ho; rw [ho] at hc; cases hc
  | cons t ts ih =>
    cases t with
    | atom a =>
      simp only [operands, List.mem_cons] at ho
      rcases ho with ho | ho
      · rw [ho] at hc; cases hc
      · exact List.mem_cons_of_mem _ (ih ho hc)
    | ch d =>
      obtain ⟨o', os', h'⟩ := operands_cons ts
      simp only [operands, h', List.mem_cons] at ho
      rcases ho with ho | ho
      · rw [ho] at hc
        rcases List.mem_cons.1 hc with hc | hc
        · rw [hc]; simp
        · exact List.mem_cons_of_mem _ (ih (by rw [h']; simp) hc)
      · exact List.mem_cons_of_mem _ (ih (by rw [h']; simp [ho]) hc)

/-- Occurrences of a character outside the atoms. -/
def chCount (c : Char) (ts : List (Tok A)) : Nat := ((operands ts).map (fun op => op.count c)).sum

theorem chCount_ch (c d : Char) (ts : List (Tok A)) :
    chCount c (.ch d :: ts) = (if d = c then 1 else 0) + chCount c ts := by
  obtain ⟨o, os, h⟩ := operands_cons ts
  unfold chCount
  simp only [operands, h, List.map_cons, List.sum_cons, List.count_cons]
  by_cases hd : d = c <;> simp [hd] <;> omega

theorem chCount_atom (c : Char) (a : A) (ts : List (Tok A)) :
    chCount c (.atom a :: ts) = chCount c ts := by
  simp [chCount, operands]

theorem chCount_append (c : Char) (s t : List (Tok A)) :
    chCount c (s ++ t) = chCount c s + chCount c t := by
  induction s with
  | nil => simp [chCount, operands]
  | cons x s ih =>
    cases x with
    | ch d => rw [List.cons_append, chCount_ch, chCount_ch, ih]; omega
    | atom a => rw [List.cons_append, chCount_atom, chCount_atom, ih]

theorem chCount_zero {c : Char} {ts : List (Tok A)} (h : Tok.ch c ∉ ts) : chCount c ts = 0 := by
  induction ts with
  | nil => simp [chCount, operands]
  | cons x s ih =>
    simp only [List.mem_cons, not_or] at h
    cases x with
    | ch d =>
      have : d ≠ c := fun hd => h.1 (by rw [hd])
      rw [chCount_ch, ih h.2]; simp [this]
    | atom a => rw [chCount_atom]; exact ih h.2

theorem chCount_pos {c : Char} {ts : List (Tok A)} (h : Tok.ch c ∈ ts) : 0 < chCount c ts := by
  induction ts with
  | nil => cases h
  | cons x s ih =>
    rcases List.mem_cons.1 h with h1 | h2
    · rw [← h1, chCount_ch]; simp; omega
    · have h3 := ih h2
      cases x with
      | ch d => rw [chCount_ch]; omega
      | atom a => rw [chCount_atom]; exact h3

theorem chCount_unspaced (c : Char) (hc : c ≠ ' ') (ts : List (Tok A)) :
    chCount c (unspaced ts) = chCount c ts := by
  induction ts with
  | nil => rfl
  | cons x s ih =>
    cases x with
    | atom a =>
      have : unspaced (.atom a :: s) = .atom a :: unspaced s := rfl
      rw [this, chCount_atom, chCount_atom, ih]
    | ch d =>
      by_cases hd : d = ' '
      · subst hd
        have : unspaced (Tok.ch ' ' :: s) = unspaced s := rfl
        rw [this, ih, chCount_ch, if_neg (fun h => hc h.symm)]; simp
      · have : unspaced (Tok.ch d :: s) = .ch d :: unspaced s := by
          unfold unspaced
          rw [List.filter_cons_of_pos]
          split
          · rename_i h; injection h with h; exact absurd h hd
          · rfl
        rw [this, chCount_ch, chCount_ch, ih]

theorem atoms_unspaced (ts : List (Tok A)) : atoms (unspaced ts) = atoms ts := by
  induction ts with
  | nil => rfl
  | cons x s ih =>
    cases x with
    | atom a =>
      have : unspaced (.atom a :: s) = .atom a :: unspaced s := rfl
      rw [this]; simp [atoms, ih]
    | ch d =>
      by_cases hd : d = ' '
      · subst hd
        have : unspaced (Tok.ch ' ' :: s) = unspaced s := rfl
        rw [this, ih]; rfl
      · have : unspaced (Tok.ch d :: s) = .ch d :: unspaced s := by
          unfold unspaced
          rw [List.filter_cons_of_pos]
          split
          · rename_i h; injection h with h; exact absurd h hd
          · rfl
        rw [this]; simp [atoms, ih]

/-! ## Splitting spaced texts -/

theorem unspaced_append (s t : List (Tok A)) : unspaced (s ++ t) = unspaced s ++ unspaced t := by
  simp [unspaced]

theorem unspaced_eq_append {ts s t : List (Tok A)} (h : unspaced ts = s ++ t) :
    ∃ s' t', ts = s' ++ t' ∧ unspaced s' = s ∧ unspaced t' = t :=
  (List.filter_eq_append_iff.1 h)

theorem unspaced_eq_cons {ts t : List (Tok A)} {x : Tok A} (h : unspaced ts = x :: t) :
    ∃ (sp : List Char) (t' : List (Tok A)), ts = sp.map Tok.ch ++ x :: t' ∧ unspaced t' = t ∧
      ∀ c ∈ sp, c = ' ' := by
  induction ts with
  | nil => cases h
  | cons y ts ih =>
    cases y with
    | atom a =>
      have : unspaced (.atom a :: ts) = .atom a :: unspaced ts := rfl
      rw [this] at h
      injection h with h1 h2
      exact ⟨[], ts, by rw [← h1]; rfl, h2, by simp⟩
    | ch d =>
      by_cases hd : d = ' '
      · subst hd
        have : unspaced (Tok.ch ' ' :: ts) = unspaced ts := rfl
        rw [this] at h
        obtain ⟨sp, t', h1, h2, h3⟩ := ih h
        exact ⟨' ' :: sp, t', by rw [h1]; rfl, h2, by
          intro c hc
          rcases List.mem_cons.1 hc with hc | hc
          · exact hc
          · exact h3 c hc⟩
      · have : unspaced (Tok.ch d :: ts) = .ch d :: unspaced ts := by
          unfold unspaced
          rw [List.filter_cons_of_pos]
          split
          · rename_i h; injection h with h; exact absurd h hd
          · rfl
        rw [this] at h
        injection h with h1 h2
        exact ⟨[], ts, by rw [← h1]; rfl, h2, by simp⟩

theorem unspaced_eq_nil {ts : List (Tok A)} (h : unspaced ts = []) :
    ∃ sp : List Char, ts = sp.map Tok.ch ∧ ∀ c ∈ sp, c = ' ' := by
  induction ts with
  | nil => exact ⟨[], rfl, by simp⟩
  | cons y ts ih =>
    cases y with
    | atom a => cases h
    | ch d =>
      by_cases hd : d = ' '
      · subst hd
        obtain ⟨sp, h1, h2⟩ := ih h
        exact ⟨' ' :: sp, by rw [h1]; rfl, by
          intro c hc
          rcases List.mem_cons.1 hc with hc | hc
          · exact hc
          · exact h2 c hc⟩
      · have : unspaced (Tok.ch d :: ts) = .ch d :: unspaced ts := by
          unfold unspaced
          rw [List.filter_cons_of_pos]
          split
          · rename_i h; injection h with h; exact absurd h hd
          · rfl
        rw [this] at h; cases h

theorem unspaced_tildes (n : Nat) (a : A) (rest : List (Tok A)) : ∀ ts : List (Tok A),
    unspaced ts = List.replicate n (.ch '~') ++ .atom a :: rest →
    ∃ (s : List Char) (t' : List (Tok A)), ts = s.map Tok.ch ++ .atom a :: t' ∧ unspaced t' = rest ∧
      s.count '~' = n ∧ ∀ c ∈ s, c = '~' ∨ c = ' ' := by
  induction n with
  | zero =>
    intro ts h
    obtain ⟨sp, t', h1, h2, h3⟩ := unspaced_eq_cons (by simpa using h)
    refine ⟨sp, t', h1, h2, ?_, fun c hc => Or.inr (h3 c hc)⟩
    rw [List.count_eq_zero]
    intro hm
    exact absurd (h3 _ hm) (by decide)
  | succ n ih =>
    intro ts h
    rw [List.replicate_succ, List.cons_append] at h
    obtain ⟨sp, t', h1, h2, h3⟩ := unspaced_eq_cons h
    obtain ⟨s, t'', g1, g2, g3, g4⟩ := ih t' h2
    refine ⟨sp ++ '~' :: s, t'', by rw [h1, g1]; simp, g2, ?_, ?_⟩
    · have : sp.count '~' = 0 := by
        rw [List.count_eq_zero]
        intro hm
        exact absurd (h3 _ hm) (by decide)
      rw [List.count_append, this, List.count_cons_self, g3]; omega
    · intro c hc
      rcases List.mem_append.1 hc with hc | hc
      · exact Or.inr (h3 c hc)
      · rcases List.mem_cons.1 hc with hc | hc
        · exact Or.inl hc
        · exact g4 c hc

theorem operands_chars (s : List Char) (ts : List (Tok A)) {o : List Char} {os : List (List Char)}
    (h : operands ts = o :: os) : operands (s.map Tok.ch ++ ts) = (s ++ o) :: os := by
  induction s with
  | nil => exact h
  | cons c s ih => simp [operands, ih]

theorem atoms_chars (s : List Char) (ts : List (Tok A)) : atoms (s.map Tok.ch ++ ts) = atoms ts := by
  induction s with
  | nil => rfl
  | cons c s ih => simpa [atoms] using ih

/-! ## Expressions without parentheses -/

mutual
def tGroups : Term A → Nat
  | .atom _ _ => 0
  | .group _ e => eGroups e + 1
def eGroups : Expr A → Nat
  | .one t => tGroups t
  | .cons t _ e => tGroups t + eGroups e
end

theorem op_char_ne (o : Op) : o.char ≠ '~' ∧ o.char ≠ ' ' ∧ o.char ≠ '(' ∧ o.char ≠ ')' := by
  cases o <;> decide

theorem op_char_inj {o o' : Op} (h : o.char = o'.char) : o = o' := by
  cases o <;> cases o' <;> first | rfl | (revert h; decide)

theorem flat_items (x : E) (val : Filter E → Bool) : ∀ (e : Expr (Filter E)), eGroups e = 0 →
    ∀ (s0 : List Char) (ts : List (Tok (Filter E))), s0.count '~' = 0 → unspaced ts = e.toks →
    (∀ f ∈ atoms ts, f x = .ok (val f)) →
    ∃ (dstr : List Char) (dval : Bool) (Q : List Item) (last : List Char),
      operands (s0.map Tok.ch ++ ts) = dstr :: (Q.map Item.str ++ [last]) ∧
      evalAll x (operands (s0.map Tok.ch ++ ts)) (atoms ts) = .ok (dval :: Q.map Item.val) ∧
      (∀ o : Op, o.char ∈ dstr ↔ o.char ∈ s0) ∧
      e.values val = (dval, Q.map Item.pair) ∧ ∀ q ∈ Q, q.Ok
  | .one (.group _ _), hg => by simp [eGroups, tGroups] at hg
  | .cons (.group _ _) _ _, hg => by simp [eGroups, tGroups] at hg
  | .one (.atom n a), _ => by
    intro s0 ts hs0 hts hval
    obtain ⟨s, t', h1, h2, h3, h4⟩ := unspaced_tildes n a [] ts (by simpa [Expr.toks, Term.toks] using hts)
    obtain ⟨sp, h5, h6⟩ := unspaced_eq_nil h2
    have hop : operands (s0.map Tok.ch ++ ts) = (s0 ++ s) :: ([] ++ [sp]) := by
      have : operands (Tok.atom a :: t') = [] :: [sp] := by
        have := operands_chars sp ([] : List (Tok (Filter E))) (o := []) (os := []) rfl
        simp only [List.append_nil] at this
        rw [operands, h5, this]
      have h7 := operands_chars (s0 ++ s) (Tok.atom a :: t') this
      rw [h1, ← List.append_assoc, ← List.map_append, h7]
      simp
    have hat : atoms ts = [a] := by
      rw [h1, atoms_chars, atoms, h5]
      have := atoms_chars sp ([] : List (Tok (Filter E)))
      simp only [List.append_nil] at this
      rw [this]; rfl
    have hv := hval a (by rw [hat]; simp)
    refine ⟨s0 ++ s, negate n (val a), [], sp, by simpa using hop, ?_, ?_, ?_, by simp⟩
    · rw [hop, hat]
      simp only [evalAll, evalOne, hv, List.map_nil]
      have : (s0 ++ s).count '~' = n := by rw [List.count_append, hs0, h3]; omega
      rw [this]; rfl
    · intro o
      rw [List.mem_append]
      constructor
      · rintro (h | h)
        · exact h
        · rcases h4 _ h with h | h
          · exact absurd h (op_char_ne o).1
          · exact absurd h (op_char_ne o).2.1
      · exact Or.inl
    · rfl
  | .cons (.atom n a) o e, hg => by
    intro s0 ts hs0 hts hval
    obtain ⟨s, t', h1, h2, h3, h4⟩ := unspaced_tildes n a (.ch o.char :: e.toks) ts
      (by simpa [Expr.toks, Term.toks] using hts)
    obtain ⟨sp, t'', h5, h6, h7⟩ := unspaced_eq_cons h2
    have hsp : (sp ++ [o.char]).count '~' = 0 := by
      rw [List.count_eq_zero]
      intro hm
      rcases List.mem_append.1 hm with hm | hm
      · exact absurd (h7 _ hm) (by decide)
      · simp at hm; exact (op_char_ne o).1 hm.symm
    have hat : atoms ts = a :: atoms t'' := by
      rw [h1, atoms_chars, atoms, h5, atoms_chars]; rfl
    obtain ⟨dstr, dval, Q, last, g1, g2, g3, g4, g5⟩ :=
      flat_items x val e (by simp [eGroups, tGroups] at hg; exact hg) (sp ++ [o.char]) t'' hsp h6
        (fun f hf => hval f (by rw [hat]; simp [hf]))
    have ht' : t' = (sp ++ [o.char]).map Tok.ch ++ t'' := by rw [h5]; simp
    have hop : operands (s0.map Tok.ch ++ ts) = (s0 ++ s) :: (dstr :: (Q.map Item.str ++ [last])) := by
      have : operands (Tok.atom a :: t') = [] :: (dstr :: (Q.map Item.str ++ [last])) := by
        rw [operands, ht', g1]
      have h7 := operands_chars (s0 ++ s) (Tok.atom a :: t') this
      rw [h1, ← List.append_assoc, ← List.map_append, h7]
      simp
    have hv := hval a (by rw [hat]; simp)
    refine ⟨s0 ++ s, negate n (val a), ⟨dstr, o, dval⟩ :: Q, last, by simpa using hop, ?_, ?_, ?_, ?_⟩
    · rw [hop, hat]
      rw [g1] at g2
      simp only [evalAll, evalOne, hv, g2]
      have : (s0 ++ s).count '~' = n := by rw [List.count_append, hs0, h3]; omega
      rw [this]; rfl
    · intro o'
      rw [List.mem_append]
      constructor
      · rintro (h | h)
        · exact h
        · rcases h4 _ h with h | h
          · exact absurd h (op_char_ne o').1
          · exact absurd h (op_char_ne o').2.1
      · exact Or.inl
    · simp only [Expr.values, Term.eval, g4, List.map_cons, Item.pair]
    · intro q hq
      rcases List.mem_cons.1 hq with hq | hq
      · rw [hq]
        intro o'
        rw [g3 o', List.mem_append]
        constructor
        · rintro (h | h)
          · exact absurd (h7 _ h) (op_char_ne o').2.1
          · simp at h; exact op_char_inj h
        · intro h; rw [h]; simp
      · exact g5 q hq

theorem flat_func (x : E) (val : Filter E → Bool) (e : Expr (Filter E)) (hg : eGroups e = 0)
    (ts : List (Tok (Filter E))) (hts : unspaced ts = e.toks)
    (hval : ∀ f ∈ atoms ts, f x = .ok (val f)) :
    func (atoms ts) (operands ts) x = .ok (e.eval val) := by
  obtain ⟨dstr, dval, Q, last, h1, h2, _, h4, h5⟩ := flat_items x val e hg [] ts (by simp) hts hval
  simp only [List.map_nil, List.nil_append] at h1 h2
  unfold func
  rw [h2]
  simp only
  have h6 : (operands ts).drop 1 = Q.map Item.str ++ [last] := by rw [h1]; rfl
  rw [h6, List.dropLast_concat]
  have := reduce_spec (Q.length + 1) ⟨dstr, .or, dval⟩ Q rfl rfl h5
  simp only [List.length_cons, List.length_map]
  rw [this]
  unfold Expr.eval
  rw [h4]
  simp only
  rw [evalFlat_fold]
  rfl

/-! ## One round of the parenthesis loop -/

theorem findLast_range (p : Nat → Bool) (k : Nat) : ∀ n, k < n → p k = true →
    (∀ j, k < j → j < n → p j = false) → (List.range n).reverse.find? p = some k := by
  intro n
  induction n with
  | zero => intro h; omega
  | succ n ih =>
    intro h1 h2 h3
    rw [List.range_succ, List.reverse_append, List.reverse_singleton, List.singleton_append, List.find?_cons]
    by_cases hk : k = n
    · subst hk; rw [h2]
    · rw [h3 n (by omega) (by omega)]
      exact ih (by omega) h2 (fun j g1 g2 => h3 j g1 (by omega))

theorem findFirst_range (p : Nat → Bool) (k : Nat) : ∀ (m a : Nat), a ≤ k → k < a + m → p k = true →
    (∀ j, a ≤ j → j < k → p j = false) → (List.range' a m).find? p = some k := by
  intro m
  induction m with
  | zero => intro a h1 h2; omega
  | succ m ih =>
    intro a h1 h2 h3 h4
    rw [List.range'_succ, List.find?_cons]
    by_cases hk : k = a
    · subst hk; rw [h3]
    · rw [h4 a (by omega) (by omega)]
      exact ih (a + 1) (by omega) (by omega) h3 (fun j g1 g2 => h4 j (by omega) g2)

theorem lastOpen_at (P : List (List Char)) (q : List Char) (S : List (List Char)) (h1 : '(' ∈ q)
    (h2 : ∀ s ∈ S, '(' ∉ s) : lastOpen (P ++ q :: S) = some P.length := by
  refine findLast_range _ _ _ (by simp) ?_ ?_
  · simp [List.getD_eq_getElem?_getD, h1]
  · intro j g1 g2
    have : (P ++ q :: S).getD j [] ∈ S := by
      simp only [List.length_append, List.length_cons] at g2
      rw [List.getD_eq_getElem?_getD, List.getElem?_append_right (by omega)]
      obtain ⟨i, hi⟩ : ∃ i, j - P.length = i + 1 := ⟨j - P.length - 1, by omega⟩
      have : i < S.length := by omega
      rw [hi, List.getElem?_cons_succ, List.getElem?_eq_getElem this]
      simp
    exact decide_eq_false (h2 _ this)

theorem nextClosed_at (P : List (List Char)) (q : List Char) (M : List (List Char)) (z : List Char)
    (S : List (List Char)) (h1 : ')' ∈ z) (h2 : ∀ s ∈ M, ')' ∉ s) :
    nextClosed (P ++ q :: (M ++ z :: S)) P.length = some (P.length + 1 + M.length) := by
  refine findFirst_range _ _ _ _ (by omega) (by simp; omega) ?_ ?_
  · have : P.length + 1 + M.length - P.length = M.length + 1 := by omega
    simp [List.getD_eq_getElem?_getD, List.getElem?_append_right, this, h1, show P.length ≤ P.length + 1 + M.length by omega]
  · intro j g1 g2
    have : (P ++ q :: (M ++ z :: S)).getD j [] ∈ M := by
      rw [List.getD_eq_getElem?_getD, List.getElem?_append_right (by omega)]
      obtain ⟨i, hi⟩ : ∃ i, j - P.length = i + 1 := ⟨j - P.length - 1, by omega⟩
      have : i < M.length := by omega
      rw [hi, List.getElem?_cons_succ, List.getElem?_append_left this, List.getElem?_eq_getElem this]
      simp
    exact decide_eq_false (h2 _ this)

theorem partitionChar_at {c : Char} (s t : List Char) (h : c ∉ s) : partitionChar c (s ++ c :: t) = (s, t) := by
  have h1 : ∀ d ∈ s, decide (d ≠ c) = true := fun d hd => decide_eq_true (fun he => h (he ▸ hd))
  unfold partitionChar
  rw [List.takeWhile_append_of_pos h1, List.dropWhile_append_of_pos h1]
  simp [List.takeWhile_cons, List.dropWhile_cons]

theorem rpartitionChar_at {c : Char} (s t : List Char) (h : c ∉ t) :
    rpartitionChar c (s ++ c :: t) = (s, t) := by
  unfold rpartitionChar
  have : (s ++ c :: t).reverse = t.reverse ++ c :: s.reverse := by simp
  rw [this, partitionChar_at _ _ (by simpa using h)]
  simp

theorem operands_split (ts : List (Tok A)) : ∃ P o, operands ts = P ++ [o] := by
  obtain ⟨o, os, h⟩ := operands_cons ts
  have hne : operands ts ≠ [] := by rw [h]; simp
  exact ⟨_, _, (List.dropLast_concat_getLast hne).symm⟩

theorem parens_step (n : Nat) (A' X' B' : List (Tok (Filter E))) (h1 : Tok.ch '(' ∉ X') (h2 : Tok.ch '(' ∉ B')
    (h3 : Tok.ch ')' ∉ X') (h4 : 2 ≤ (atoms X').length) :
    parens (n + 1) (atoms (A' ++ .ch '(' :: (X' ++ .ch ')' :: B')))
        (operands (A' ++ .ch '(' :: (X' ++ .ch ')' :: B'))) =
      parens n (atoms (A' ++ .atom (func (atoms X') (operands X')) :: B'))
        (operands (A' ++ .atom (func (atoms X') (operands X')) :: B')) := by
  obtain ⟨P, o, hP⟩ := operands_split A'
  obtain ⟨b, R, hB⟩ := operands_cons B'
  have hX : ∃ x0 M xn, operands X' = x0 :: (M ++ [xn]) := by
    obtain ⟨Q, q, hq⟩ := operands_split X'
    cases Q with
    | nil =>
      have := operands_length X'
      rw [hq] at this
      simp at this
      rw [this] at h4
      simp at h4
    | cons x0 M => exact ⟨x0, M, q, hq⟩
  obtain ⟨x0, M, xn, hX⟩ := hX
  have lP : P.length = (atoms A').length := by
    have := operands_length A'; rw [hP] at this; simpa using this
  have lM : 1 + M.length = (atoms X').length := by
    have := operands_length X'; rw [hX] at this; simp at this; omega
  have hXB : operands (X' ++ .ch ')' :: B') = x0 :: M ++ (xn ++ ')' :: b) :: R :=
    operands_append X' _ (x0 :: M) xn (')' :: b) R hX (by simp [operands, hB])
  have hT : operands (A' ++ .ch '(' :: (X' ++ .ch ')' :: B')) =
      P ++ (o ++ '(' :: x0) :: (M ++ (xn ++ ')' :: b) :: R) :=
    operands_append A' _ P o ('(' :: x0) _ hP (by simp [operands, hXB])
  have hT' : operands (A' ++ .atom (func (atoms X') (operands X')) :: B') = P ++ o :: b :: R := by
    have := operands_append A' (.atom (func (atoms X') (operands X')) :: B') P o [] (b :: R) hP
      (by simp [operands, hB])
    simpa using this
  have nX1 : ∀ s ∈ operands X', '(' ∉ s := fun s hs hc => h1 (mem_operands hs hc)
  have nX2 : ∀ s ∈ operands X', ')' ∉ s := fun s hs hc => h3 (mem_operands hs hc)
  have nB : ∀ s ∈ operands B', '(' ∉ s := fun s hs hc => h2 (mem_operands hs hc)
  have hlo : lastOpen (P ++ (o ++ '(' :: x0) :: (M ++ (xn ++ ')' :: b) :: R)) = some P.length := by
    refine lastOpen_at _ _ _ (by simp) ?_
    intro s hs
    rcases List.mem_append.1 hs with hs | hs
    · exact nX1 s (by rw [hX]; simp [hs])
    · rcases List.mem_cons.1 hs with hs | hs
      · rw [hs]
        have g1 := nX1 xn (by rw [hX]; simp)
        have g2 := nB b (by rw [hB]; simp)
        simp [g1, g2]
      · exact nB s (by rw [hB]; simp [hs])
  have hnc := nextClosed_at P o M (xn ++ ')' :: b) R (by simp) (fun s hs => nX2 s (by rw [hX]; simp [hs]))
  rw [hT, hT', parens, hlo]
  simp only
  have e1 : (P ++ (o ++ '(' :: x0) :: (M ++ (xn ++ ')' :: b) :: R)).getD P.length [] = o ++ '(' :: x0 := by
    simp [List.getD_eq_getElem?_getD]
  have e2 : (P ++ (o ++ '(' :: x0) :: (M ++ (xn ++ ')' :: b) :: R)).set P.length o =
      P ++ o :: (M ++ (xn ++ ')' :: b) :: R) := by
    simp [List.set_append]
  have e3 : (P ++ o :: (M ++ (xn ++ ')' :: b) :: R)).getD (P.length + 1 + M.length) [] = xn ++ ')' :: b := by
    have : P.length + 1 + M.length - P.length = M.length + 1 := by omega
    simp [List.getD_eq_getElem?_getD, List.getElem?_append_right, this, show P.length ≤ P.length + 1 + M.length by omega]
  have e4 : (P ++ o :: (M ++ (xn ++ ')' :: b) :: R)).set (P.length + 1 + M.length) b =
      P ++ o :: (M ++ b :: R) := by
    have : P.length + 1 + M.length - P.length = M.length + 1 := by omega
    simp [List.set_append, this, show ¬ (P.length + 1 + M.length < P.length) by omega]
  rw [e1, rpartitionChar_at _ _ (nX1 x0 (by rw [hX]; simp))]
  simp only
  rw [if_neg (nX2 x0 (by rw [hX]; simp)), e2, hnc]
  simp only
  rw [e3, partitionChar_at _ _ (nX2 xn (by rw [hX]; simp))]
  simp only
  rw [if_neg (by omega), e4]
  have f0 : atoms (A' ++ .ch '(' :: (X' ++ .ch ')' :: B')) = atoms A' ++ (atoms X' ++ atoms B') := by
    simp [atoms_append, atoms]
  have f0' : atoms (A' ++ .atom (func (atoms X') (operands X')) :: B') =
      atoms A' ++ func (atoms X') (operands X') :: atoms B' := by
    simp [atoms_append, atoms]
  have hnc' : P.length + 1 + M.length = (atoms A').length + (atoms X').length := by omega
  have f1 : ((atoms A' ++ (atoms X' ++ atoms B')).take (P.length + 1 + M.length)).drop P.length = atoms X' := by
    rw [hnc', lP, ← List.append_assoc, List.take_append_of_le_length (by simp), ← List.length_append,
      List.take_length, List.drop_append_of_le_length (by simp), List.drop_length, List.nil_append]
  have f2 : (atoms A' ++ (atoms X' ++ atoms B')).take P.length = atoms A' := by
    rw [lP, List.take_append_of_le_length (by simp), List.take_length]
  have f3 : (atoms A' ++ (atoms X' ++ atoms B')).drop (P.length + 1 + M.length) = atoms B' := by
    rw [hnc', ← List.append_assoc, ← List.length_append, List.drop_append_of_le_length (by simp),
      List.drop_length, List.nil_append]
  have a1 : P ++ o :: (M ++ b :: R) = (P ++ [o]) ++ (M ++ b :: R) := by simp
  have a2 : P ++ o :: (M ++ b :: R) = (P ++ [o] ++ M) ++ b :: R := by simp
  have l1 : P.length + 1 = (P ++ [o]).length := by simp
  have l2 : P.length + 1 + M.length = (P ++ [o] ++ M).length := by simp; omega
  have f4 : ((P ++ o :: (M ++ b :: R)).take (P.length + 1 + M.length)).drop (P.length + 1) = M := by
    rw [a2, l2, List.take_append_of_le_length (by simp), List.take_length, l1,
      List.drop_append_of_le_length (by simp), List.drop_length, List.nil_append]
  have f5 : (P ++ o :: (M ++ b :: R)).take (P.length + 1) = P ++ [o] := by
    rw [a1, l1, List.take_append_of_le_length (by simp), List.take_length]
  have f6 : (P ++ o :: (M ++ b :: R)).drop (P.length + 1 + M.length) = b :: R := by
    rw [a2, l2, List.drop_append_of_le_length (by simp), List.drop_length, List.nil_append]
  rw [f0, f0', f1, f2, f3, f4, f5, f6, hX]
  simp

/-! ## Replacing an innermost group by an atom -/

theorem atoms_replicate (n : Nat) (c : Char) (ts : List (Tok A)) :
    atoms (List.replicate n (.ch c) ++ ts) = atoms ts := by
  induction n with
  | zero => rfl
  | succ n ih => simpa [List.replicate_succ, atoms] using ih

mutual
theorem term_atoms : ∀ t : Term A, 1 ≤ (atoms t.toks).length
  | .atom n a => by simp [Term.toks, atoms_replicate, atoms]
  | .group n e => by
    have := expr_atoms e
    simp [Term.toks, atoms_replicate, atoms, atoms_append]; omega
theorem expr_atoms : ∀ e : Expr A, 1 ≤ (atoms e.toks).length
  | .one t => by have := term_atoms t; simpa [Expr.toks] using this
  | .cons t o e => by
    have := term_atoms t
    simp [Expr.toks, atoms, atoms_append]; omega
end

theorem chCount_replicate {c d : Char} (h : d ≠ c) (n : Nat) (ts : List (Tok A)) :
    chCount c (List.replicate n (.ch d) ++ ts) = chCount c ts := by
  induction n with
  | zero => rfl
  | succ n ih => rw [List.replicate_succ, List.cons_append, chCount_ch, if_neg h, ih]; omega

mutual
theorem term_open : ∀ t : Term A, chCount '(' t.toks = tGroups t ∧ chCount ')' t.toks = tGroups t
  | .atom n a => by
    simp only [Term.toks]
    rw [chCount_replicate (by decide), chCount_replicate (by decide), chCount_atom, chCount_atom]
    simp [chCount, operands, tGroups]
  | .group n e => by
    obtain ⟨h1, h2⟩ := expr_open e
    simp only [Term.toks]
    rw [chCount_replicate (by decide), chCount_replicate (by decide), chCount_ch, chCount_ch, chCount_append,
      chCount_append, h1, h2, chCount_ch, chCount_ch]
    simp [chCount, operands, tGroups]; omega
theorem expr_open : ∀ e : Expr A, chCount '(' e.toks = eGroups e ∧ chCount ')' e.toks = eGroups e
  | .one t => term_open t
  | .cons t o e => by
    obtain ⟨h1, h2⟩ := expr_open e
    obtain ⟨h3, h4⟩ := term_open t
    simp only [Expr.toks]
    rw [chCount_append, chCount_append, chCount_ch, chCount_ch, h1, h2, h3, h4,
      if_neg (op_char_ne o).2.2.1, if_neg (op_char_ne o).2.2.2]
    simp [eGroups]
end

mutual
theorem term_chars (c : Char) : ∀ t : Term A, Tok.ch c ∈ t.toks → c ∈ operators ∨ c ∈ ['(', ')']
  | .atom n a, h => by
    simp [Term.toks] at h
    rw [h.2]; decide
  | .group n e, h => by
    simp only [Term.toks, List.mem_append, List.mem_cons, List.mem_replicate] at h
    rcases h with h | h | h | h | h
    · injection h.2 with h; rw [h]; decide
    · injection h with h; rw [h]; decide
    · exact expr_chars c e h
    · injection h with h; rw [h]; decide
    · cases h
theorem expr_chars (c : Char) : ∀ e : Expr A, Tok.ch c ∈ e.toks → c ∈ operators ∨ c ∈ ['(', ')']
  | .one t, h => term_chars c t h
  | .cons t o e, h => by
    simp only [Expr.toks, List.mem_append, List.mem_cons] at h
    rcases h with h | h | h
    · exact term_chars c t h
    · injection h with h; rw [h]; cases o <;> decide
    · exact expr_chars c e h
end

mutual
theorem term_congr (v w : A → Bool) : ∀ t : Term A, (∀ a ∈ atoms t.toks, v a = w a) → t.eval v = t.eval w
  | .atom n a, h => by
    simp only [Term.eval]
    rw [h a (by simp [Term.toks, atoms_replicate, atoms])]
  | .group n e, h => by
    simp only [Term.eval]
    rw [expr_congr v w e (fun a ha => h a (by simp [Term.toks, atoms_replicate, atoms, atoms_append, ha]))]
theorem expr_congr (v w : A → Bool) : ∀ e : Expr A, (∀ a ∈ atoms e.toks, v a = w a) → e.values v = e.values w
  | .one t, h => by
    simp only [Expr.values]
    rw [term_congr v w t h]
  | .cons t o e, h => by
    simp only [Expr.values]
    rw [term_congr v w t (fun a ha => h a (by simp [Expr.toks, atoms_append, ha])),
      expr_congr v w e (fun a ha => h a (by simp [Expr.toks, atoms_append, atoms, ha]))]
end

/-- The expression has several terms. -/
def Several (e : Expr A) : Prop := ∃ t o e', e = .cons t o e'

theorem not_open_of_flat {e : Expr A} (h : eGroups e = 0) (c : Char) (hc : c = '(' ∨ c = ')') :
    Tok.ch c ∉ e.toks := by
  intro hm
  have h1 := chCount_pos hm
  obtain ⟨h2, h3⟩ := expr_open e
  rcases hc with hc | hc <;> subst hc <;> omega

mutual
theorem term_split : ∀ t : Term A, t.Big → 0 < tGroups t →
    ∃ (L : List (Tok A)) (inner : Expr A) (R : List (Tok A)),
      t.toks = L ++ .ch '(' :: (inner.toks ++ .ch ')' :: R) ∧ eGroups inner = 0 ∧ Several inner ∧
      Tok.ch '(' ∉ R ∧ ∀ g, ∃ t' : Term A, t'.toks = L ++ .atom g :: R ∧ t'.Big ∧ tGroups t' + 1 = tGroups t ∧
        ∀ val : A → Bool, val g = inner.eval val → t'.eval val = t.eval val
  | .atom n a, _, h => by simp [tGroups] at h
  | .group n e, hb, _ => by
    simp only [Term.Big] at hb
    by_cases hg : 0 < eGroups e
    · obtain ⟨L, inner, R, h1, h2, h3, h4, h5⟩ := expr_split e hb.2 hg
      refine ⟨List.replicate n (.ch '~') ++ .ch '(' :: L, inner, R ++ [.ch ')'], ?_, h2, h3, ?_, ?_⟩
      · simp [Term.toks, h1]
      · simp [h4]
      · intro g
        obtain ⟨e', g1, g2, g3, g4, g5⟩ := h5 g
        refine ⟨.group n e', ?_, ?_, ?_, ?_⟩
        · simp [Term.toks, g1]
        · simp only [Term.Big]
          exact ⟨g4 hb.1, g2⟩
        · simp only [tGroups]; omega
        · intro val hv
          simp only [Term.eval]
          rw [g5 val hv]
    · refine ⟨List.replicate n (.ch '~'), e, [], ?_, by omega, hb.1, by simp, ?_⟩
      · simp [Term.toks]
      · intro g
        refine ⟨.atom n g, ?_, ?_, ?_, ?_⟩
        · simp [Term.toks]
        · simp [Term.Big]
        · simp only [tGroups]; omega
        · intro val hv
          simp only [Term.eval]
          rw [hv]; rfl
theorem expr_split : ∀ e : Expr A, e.Big → 0 < eGroups e →
    ∃ (L : List (Tok A)) (inner : Expr A) (R : List (Tok A)),
      e.toks = L ++ .ch '(' :: (inner.toks ++ .ch ')' :: R) ∧ eGroups inner = 0 ∧ Several inner ∧
      Tok.ch '(' ∉ R ∧ ∀ g, ∃ e' : Expr A, e'.toks = L ++ .atom g :: R ∧ e'.Big ∧ eGroups e' + 1 = eGroups e ∧
        (Several e → Several e') ∧
        ∀ val : A → Bool, val g = inner.eval val → e'.values val = e.values val
  | .one t, hb, h => by
    simp only [Expr.Big] at hb
    obtain ⟨L, inner, R, h1, h2, h3, h4, h5⟩ := term_split t hb h
    refine ⟨L, inner, R, h1, h2, h3, h4, ?_⟩
    intro g
    obtain ⟨t', g1, g2, g3, g5⟩ := h5 g
    refine ⟨.one t', g1, g2, g3, ?_, ?_⟩
    · rintro ⟨t, o, e', he⟩; cases he
    · intro val hv
      simp only [Expr.values]
      rw [g5 val hv]
  | .cons t o e, hb, h => by
    simp only [Expr.Big] at hb
    by_cases hg : 0 < eGroups e
    · obtain ⟨L, inner, R, h1, h2, h3, h4, h5⟩ := expr_split e hb.2 hg
      refine ⟨t.toks ++ .ch o.char :: L, inner, R, by simp [Expr.toks, h1], h2, h3, h4, ?_⟩
      intro g
      obtain ⟨e', g1, g2, g3, g4, g5⟩ := h5 g
      refine ⟨.cons t o e', by simp [Expr.toks, g1], ?_, ?_, fun _ => ⟨_, _, _, rfl⟩, ?_⟩
      · simp only [Expr.Big]; exact ⟨hb.1, g2⟩
      · simp only [eGroups]; omega
      · intro val hv
        simp only [Expr.values]
        rw [g5 val hv]
    · simp only [eGroups] at h
      obtain ⟨L, inner, R, h1, h2, h3, h4, h5⟩ := term_split t hb.1 (by omega)
      refine ⟨L, inner, R ++ .ch o.char :: e.toks, by simp [Expr.toks, h1], h2, h3, ?_, ?_⟩
      · have := not_open_of_flat (e := e) (by omega) '(' (Or.inl rfl)
        have := (op_char_ne o).2.2.1
        simp only [List.mem_append, List.mem_cons]
        rintro (h | h | h)
        · exact h4 h
        · injection h with h; exact this h.symm
        · contradiction
      intro g
      obtain ⟨t', g1, g2, g3, g5⟩ := h5 g
      refine ⟨.cons t' o e, by simp [Expr.toks, g1], ?_, ?_, fun _ => ⟨_, _, _, rfl⟩, ?_⟩
      · simp only [Expr.Big]; exact ⟨g2, hb.2⟩
      · simp only [eGroups]; omega
      · intro val hv
        simp only [Expr.values]
        rw [g5 val hv]
end

/-! ## The theorem -/

/-- The value of a filter that does not raise. -/
def valOf (x : E) (f : Filter E) : Bool :=
  match f x with
  | .ok b => b
  | .error _ => false

theorem valOf_eq {x : E} {f : Filter E} {b : Bool} (h : f x = .ok b) : valOf x f = b := by
  unfold valOf; rw [h]

theorem mem_unspaced {c : Char} (hc : c ≠ ' ') {ts : List (Tok A)} (h : Tok.ch c ∈ ts) :
    Tok.ch c ∈ unspaced ts := by
  unfold unspaced
  rw [List.mem_filter]
  refine ⟨h, ?_⟩
  split
  · rename_i h; injection h with h; exact absurd h hc
  · rfl

theorem parens_spec : ∀ (n : Nat) (e : Expr (Filter E)) (ts : List (Tok (Filter E))), eGroups e = n → e.Big →
    unspaced ts = e.toks → ∃ fs os, parens n (atoms ts) (operands ts) = .ok (fs, os) ∧
      ∀ x, (∀ f ∈ atoms ts, f x = .ok (valOf x f)) → func fs os x = .ok (e.eval (valOf x)) := by
  intro n
  induction n with
  | zero =>
    intro e ts hg hb hts
    exact ⟨_, _, rfl, fun x hx => flat_func x _ e hg ts hts hx⟩
  | succ n ih =>
    intro e ts hg hb hts
    obtain ⟨L, inner, R, h1, h2, h3, h4, h5⟩ := expr_split e hb (by omega)
    rw [h1] at hts
    obtain ⟨A', t1, k1, k2, k3⟩ := unspaced_eq_append hts
    obtain ⟨sp1, t2, k4, k5, k6⟩ := unspaced_eq_cons k3
    obtain ⟨X', t3, k7, k8, k9⟩ := unspaced_eq_append k5
    obtain ⟨sp2, B', k10, k11, k12⟩ := unspaced_eq_cons k9
    have sp : ∀ {s : List Char}, (∀ c ∈ s, c = ' ') → unspaced (s.map Tok.ch : List (Tok (Filter E))) = [] := by
      intro s hs
      unfold unspaced
      rw [List.filter_eq_nil_iff]
      intro t ht
      obtain ⟨c, hc, rfl⟩ := List.mem_map.1 ht
      rw [hs c hc]
      simp
    have eqT : ts = (A' ++ sp1.map Tok.ch) ++ .ch '(' :: ((X' ++ sp2.map Tok.ch) ++ .ch ')' :: B') := by
      rw [k1, k4, k7, k10]; simp
    have uX : unspaced (X' ++ sp2.map Tok.ch) = inner.toks := by
      rw [unspaced_append, k8, sp k12, List.append_nil]
    have uA : unspaced (A' ++ sp1.map Tok.ch) = L := by
      rw [unspaced_append, k2, sp k6, List.append_nil]
    generalize A' ++ sp1.map Tok.ch = AA at eqT uA
    generalize X' ++ sp2.map Tok.ch = XX at eqT uX
    have nin : ∀ {c : Char} {s t : List (Tok (Filter E))}, c ≠ ' ' → unspaced s = t → Tok.ch c ∉ t →
        Tok.ch c ∉ s := by
      intro c s t hc hu hn hm
      exact hn (hu ▸ mem_unspaced hc hm)
    have a2 : 2 ≤ (atoms XX).length := by
      rw [← atoms_unspaced, uX]
      obtain ⟨t, o, e', rfl⟩ := h3
      have g1 := term_atoms t
      have g2 := expr_atoms e'
      simp [Expr.toks, atoms_append, atoms]; omega
    have step := parens_step n AA XX B' (nin (by decide) uX (not_open_of_flat h2 _ (Or.inl rfl)))
      (nin (by decide) k11 h4) (nin (by decide) uX (not_open_of_flat h2 _ (Or.inr rfl))) a2
    obtain ⟨e', g1, g2, g3, _, g5⟩ := h5 (func (atoms XX) (operands XX))
    obtain ⟨fs, os, f1, f2⟩ := ih e' (AA ++ .atom (func (atoms XX) (operands XX)) :: B') (by omega) g2 (by
      rw [unspaced_append, uA, g1, ← k11]; rfl)
    refine ⟨fs, os, by rw [eqT, step, f1], ?_⟩
    intro x hx
    have hX : func (atoms XX) (operands XX) x = .ok (inner.eval (valOf x)) := by
      refine flat_func x _ inner h2 XX uX (fun f hf => hx f ?_)
      rw [eqT]; simp [atoms_append, atoms, hf]
    have := f2 x (by
      intro f hf
      simp only [atoms_append, atoms, List.mem_append, List.mem_cons] at hf
      rcases hf with hf | hf | hf
      · exact hx f (by rw [eqT]; simp [atoms_append, atoms, hf])
      · rw [hf, hX, valOf_eq hX]
      · exact hx f (by rw [eqT]; simp [atoms_append, atoms, hf]))
    rw [this]
    unfold Expr.eval
    rw [g5 (valOf x) (valOf_eq hX)]

/-- **C37** (partial).  Any filter expression — atoms combined by `~`, `&`, `^`, `|` and parentheses, with
spaces anywhere between — is accepted and evaluates to the value of the expression with precedence
`~`, `&`, `^`, `|`, provided every parenthesised group holds at least two terms. -/
theorem C37_combined_partial (e : Expr (Filter E)) (hb : e.Big) (ts : List (Tok (Filter E)))
    (hts : unspaced ts = e.toks) :
    ∃ fs os, combined (atoms ts) (operands ts) = .ok (fs, os) ∧
      ∀ (x : E) (val : Filter E → Bool), (∀ f ∈ atoms ts, f x = .ok (val f)) →
        func fs os x = .ok (e.eval val) := by
  obtain ⟨fs, os, h1, h2⟩ := parens_spec (eGroups e) e ts rfl hb hts
  refine ⟨fs, os, ?_, ?_⟩
  · have hlen : (atoms ts).length ≠ 0 := by
      have := expr_atoms e
      rw [← atoms_unspaced, hts]; omega
    have c1 := chCount_unspaced '(' (by decide) ts
    have c2 := chCount_unspaced ')' (by decide) ts
    rw [hts] at c1 c2
    obtain ⟨o1, o2⟩ := expr_open e
    have hany : (operands ts).any (fun op => op.any
        (fun c => decide (c ∉ operators ∧ c ∉ [' ', '(', ')']))) = false := by
      rw [List.any_eq_false]
      intro op hop
      rw [Bool.not_eq_true, List.any_eq_false]
      intro c hc
      rw [Bool.not_eq_true]
      apply decide_eq_false
      rintro ⟨n1, n2⟩
      have hm := mem_operands hop hc
      have hsp : c ≠ ' ' := by intro h; apply n2; rw [h]; decide
      have := mem_unspaced hsp hm
      rw [hts] at this
      rcases expr_chars c e this with h | h
      · exact n1 h
      · apply n2; exact List.mem_cons_of_mem _ h
    unfold combined
    rw [if_neg hlen, if_neg (by rw [operands_length]; simp), hany, if_neg (by simp)]
    show (if chCount '(' ts ≠ chCount ')' ts then _ else parens (chCount '(' ts) _ _) = _
    rw [if_neg (by omega), ← c1, o1, h1]
  · intro x val hv
    have he : e.eval val = e.eval (valOf x) := by
      unfold Expr.eval
      rw [expr_congr val (valOf x) e (fun a ha => by
        rw [← hts, atoms_unspaced] at ha
        rw [valOf_eq (hv a ha)])]
    rw [he]
    exact h2 x (fun f hf => by rw [hv f hf, valOf_eq (hv f hf)])

/-- Constant filters. -/
def constF (b : Bool) : Filter Unit := fun _ => .ok b

/-- `[a] & ~([b] | [c] ^ [d])` meets the hypotheses. -/
example : ∃ e : Expr (Filter Unit), e.Big ∧
    unspaced [.atom (constF true), .ch ' ', .ch '&', .ch ' ', .ch '~', .ch '(', .atom (constF false), .ch ' ',
      .ch '|', .ch ' ', .atom (constF true), .ch '^', .atom (constF true), .ch ')'] = e.toks ∧
    e.eval (valOf ()) = true :=
  ⟨.cons (.atom 0 (constF true)) .and (.one (.group 1 (.cons (.atom 0 (constF false)) .or
    (.cons (.atom 0 (constF true)) .xor (.one (.atom 0 (constF true))))))),
    by simp [Expr.Big, Term.Big], by simp [unspaced, Expr.toks, Term.toks, Op.char], by
      simp [Expr.eval, Expr.values, Term.eval, evalFlat, runs, evalXor, evalAnd, negate, valOf, constF]⟩

/-- **C37 violated** by a single filter in parentheses: the text before `(` is dropped, so `~([a])`
evaluates like `[a]`. -/
theorem C37_violated_negation : ∃ (e : Expr (Filter Unit)) (ts : List (Tok (Filter Unit))) (fs os : _),
    unspaced ts = e.toks ∧ combined (atoms ts) (operands ts) = .ok (fs, os) ∧
      e.eval (valOf ()) = false ∧ func fs os () = .ok true :=
  ⟨.one (.group 1 (.one (.atom 0 (constF true)))), [.ch '~', .ch '(', .atom (constF true), .ch ')'], _, _,
    rfl, rfl, by simp [Expr.eval, Expr.values, Term.eval, evalFlat, runs, evalXor, evalAnd, negate, valOf, constF],
    rfl⟩

/-- **C37 violated**: in `[a] & ([b])` the operator is dropped with the parenthesis, and evaluation raises
`TypeError`. -/
theorem C37_violated_operator : ∃ (e : Expr (Filter Unit)) (ts : List (Tok (Filter Unit))) (fs os : _),
    unspaced ts = e.toks ∧ combined (atoms ts) (operands ts) = .ok (fs, os) ∧
      func fs os () = .error .typeError :=
  ⟨.cons (.atom 0 (constF true)) .and (.one (.group 0 (.one (.atom 0 (constF true))))),
    [.atom (constF true), .ch ' ', .ch '&', .ch ' ', .ch '(', .atom (constF true), .ch ')'], _, _,
    rfl, rfl, rfl⟩

end Pawpaw.Props
