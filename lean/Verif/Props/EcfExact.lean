import Verif.Props.Ecf
import Verif.Spec.EcfLone
/-!
# C37: what the boolean filter expressions of queries mean, exactly
-/
set_option linter.unusedSectionVars false
namespace Pawpaw.Props
open Pawpaw Pawpaw.Ecf EcfSpec
variable {A E : Type}

/-! ## Characters that do not matter -/

theorem partition_strip (keep : Char → Bool) (c : Char) (hc : keep c = true) (s : List Char) :
    partitionChar c (s.filter keep) = ((partitionChar c s).1.filter keep, (partitionChar c s).2.filter keep) := by
  induction s with
  | nil => rfl
  | cons d s ih =>
    simp only [partitionChar, Prod.mk.injEq] at ih ⊢
    by_cases hd : d = c
    · subst hd
      simp [List.filter_cons, hc, List.takeWhile_cons, List.dropWhile_cons]
    · cases hk : keep d with
      | true =>
        simp only [List.filter_cons, hk, if_true, List.takeWhile_cons, List.dropWhile_cons]
        simp only [ne_eq, hd, not_false_eq_true, decide_true, if_true, List.filter_cons, hk]
        exact ⟨by rw [ih.1], ih.2⟩
      | false =>
        simp only [List.filter_cons, hk, List.takeWhile_cons, List.dropWhile_cons]
        simp only [ne_eq, hd, not_false_eq_true, decide_true, if_true, List.filter_cons, hk]
        exact ih

theorem rpartition_strip (keep : Char → Bool) (c : Char) (hc : keep c = true) (s : List Char) :
    rpartitionChar c (s.filter keep) = ((rpartitionChar c s).1.filter keep, (rpartitionChar c s).2.filter keep) := by
  simp only [rpartitionChar]
  rw [← List.filter_reverse, partition_strip keep c hc]
  simp only [List.filter_reverse]

theorem evalAll_strip (keep : Char → Bool) (ht : keep '~' = true) (x : E) : ∀ (os : List (List Char)) (fs : List (Filter E)),
    evalAll x (os.map (·.filter keep)) fs = evalAll x os fs
  | _, [] => by cases ‹List (List Char)› <;> rfl
  | [], _ :: _ => rfl
  | o :: os, f :: fs => by
    simp only [List.map_cons, evalAll]
    rw [evalAll_strip keep ht x os fs]
    have : evalOne (o.filter keep) f x = evalOne o f x := by
      unfold evalOne
      rw [List.count_filter ht]
    rw [this]

theorem mem_strip (keep : Char → Bool) {c : Char} (hc : keep c = true) (s : List Char) : c ∈ s.filter keep ↔ c ∈ s := by
  simp [List.mem_filter, hc]

theorem highest_strip (keep : Char → Bool) : ∀ (ks : List (Char × (Bool → Bool → Bool))), (∀ k ∈ ks, keep k.1 = true) →
    ∀ ops : List (List Char), highestFrom (ops.map (·.filter keep)) ks = highestFrom ops ks
  | [], _, _ => rfl
  | (k, f) :: ks, hk, ops => by
    have h1 : keep k = true := hk (k, f) (by simp)
    simp only [highestFrom]
    rw [highest_strip keep ks (fun q hq => hk q (by simp [hq])) ops, List.findIdx?_map]
    have : (fun op => decide (k ∈ op)) ∘ (fun s : List Char => s.filter keep) = fun op => decide (k ∈ op) := by
      funext s
      simp only [Function.comp, mem_strip keep h1]
    rw [this]

theorem reduce_strip (keep : Char → Bool) (hk : ∀ c ∈ operators, keep c = true) : ∀ (n : Nat) (vals : List Bool)
    (ops : List (List Char)), reduce n vals (ops.map (·.filter keep)) = reduce n vals ops := by
  intro n
  induction n with
  | zero =>
    intro vals ops
    match vals with
    | [] => simp [reduce]
    | [v] => simp [reduce]
    | _ :: _ :: _ => simp [reduce]
  | succ n ih =>
    intro vals ops
    match vals with
    | [] => simp [reduce]
    | [v] => simp [reduce]
    | u :: v :: vs =>
      simp only [reduce]
      rw [highest_strip keep diadic (by
        intro k hkk
        apply hk
        simp only [diadic, List.mem_cons, List.not_mem_nil, or_false] at hkk
        rcases hkk with rfl | rfl | rfl <;> decide) ops]
      cases highestFrom ops diadic with
      | none => rfl
      | some p =>
        obtain ⟨i, f⟩ := p
        dsimp only
        rw [← List.map_take, ← List.map_drop, ← List.map_append]
        simp only [ih]

theorem func_strip (keep : Char → Bool) (hk : ∀ c ∈ operators, keep c = true) (fs : List (Filter E))
    (os : List (List Char)) : func fs (os.map (·.filter keep)) = func fs os := by
  funext x
  unfold func
  rw [evalAll_strip keep (hk _ (by decide)) x os fs]
  cases evalAll x os fs with
  | error e => rfl
  | ok vals =>
    dsimp only
    rw [← List.map_drop, ← List.map_dropLast, reduce_strip keep hk]

theorem getD_strip (keep : Char → Bool) (os : List (List Char)) (i : Nat) :
    (os.map (·.filter keep)).getD i [] = (os.getD i []).filter keep := by
  simp only [List.getD_eq_getElem?_getD, List.getElem?_map]
  cases os[i]? <;> rfl

/-- The results up to the characters. -/
def stripped (keep : Char → Bool) (r : Except PyErr (List (Filter E) × List (List Char))) :
    Except PyErr (List (Filter E) × List (List Char)) :=
  match r with
  | .error e => .error e
  | .ok p => .ok (p.1, p.2.map (·.filter keep))

theorem parens_strip (keep : Char → Bool) (hk : ∀ c ∈ operators, keep c = true) (ho : keep '(' = true)
    (hc : keep ')' = true) : ∀ (n : Nat) (fs : List (Filter E)) (os : List (List Char)),
    parens n fs (os.map (·.filter keep)) = stripped keep (parens n fs os) := by
  intro n
  induction n with
  | zero => intro fs os; rfl
  | succ n ih =>
    intro fs os
    have e1 : lastOpen (os.map (·.filter keep)) = lastOpen os := by
      unfold lastOpen
      rw [List.length_map]
      congr 1
      funext i
      rw [getD_strip, decide_eq_decide, mem_strip keep ho]
    have e2 : ∀ (os : List (List Char)) lo, nextClosed (os.map (·.filter keep)) lo = nextClosed os lo := by
      intro os lo
      unfold nextClosed
      rw [List.length_map]
      congr 1
      funext i
      rw [getD_strip, decide_eq_decide, mem_strip keep hc]
    rw [parens, parens, e1]
    cases lastOpen os with
    | none => rfl
    | some lo =>
      dsimp only
      rw [getD_strip, rpartition_strip keep '(' ho]
      dsimp only
      by_cases h1 : ')' ∈ (rpartitionChar '(' (os.getD lo [])).2
      · rw [if_pos ((mem_strip keep hc _).mpr h1), if_pos h1]; rfl
      · rw [if_neg (fun h => h1 ((mem_strip keep hc _).mp h)), if_neg h1]
        rw [← List.map_set, e2]
        cases nextClosed (os.set lo (rpartitionChar '(' (os.getD lo [])).1) lo with
        | none => rfl
        | some nc =>
          dsimp only
          rw [getD_strip, partition_strip keep ')' hc]
          dsimp only
          rw [← List.map_set]
          by_cases h2 : nc - lo = 1
          · rw [if_pos h2, if_pos h2, ← List.map_set, ih]
          · rw [if_neg h2, if_neg h2]
            have : func ((fs.take nc).drop lo)
                ((rpartitionChar '(' (os.getD lo [])).2.filter keep ::
                  ((((((os.set lo (rpartitionChar '(' (os.getD lo [])).1).set nc
                      (partitionChar ')' ((os.set lo (rpartitionChar '(' (os.getD lo [])).1).getD nc [])).2).map
                      (·.filter keep)).take nc).drop (lo + 1)) ++
                    [(partitionChar ')' ((os.set lo (rpartitionChar '(' (os.getD lo [])).1).getD nc [])).1.filter keep])) =
                func ((fs.take nc).drop lo)
                ((rpartitionChar '(' (os.getD lo [])).2 ::
                  (((((os.set lo (rpartitionChar '(' (os.getD lo [])).1).set nc
                      (partitionChar ')' ((os.set lo (rpartitionChar '(' (os.getD lo [])).1).getD nc [])).2)).take nc).drop
                      (lo + 1) ++
                    [(partitionChar ')' ((os.set lo (rpartitionChar '(' (os.getD lo [])).1).getD nc [])).1])) := by
              refine Eq.trans ?_ (func_strip keep hk _ _)
              simp only [List.map_cons, List.map_append, List.map_drop, List.map_take, List.map_nil]
            rw [this, ← List.map_take, ← List.map_drop, ← List.map_append, ih]

theorem mem_atoms_l {f : A} {s : List (Tok A)} (t : List (Tok A)) (h : f ∈ atoms s) : f ∈ atoms (s ++ t) := by
  rw [atoms_append, List.mem_append]; exact Or.inl h
theorem mem_atoms_r {f : A} (s : List (Tok A)) {t : List (Tok A)} (h : f ∈ atoms t) : f ∈ atoms (s ++ t) := by
  rw [atoms_append, List.mem_append]; exact Or.inr h
theorem atoms_tildes (n : Nat) (c : Char) : atoms (List.replicate n (.ch c) : List (Tok A)) = [] := by
  have := atoms_replicate n c ([] : List (Tok A))
  simpa [atoms] using this

/-! ## One round with a single filter between the parentheses -/

/-- The loop on a list of tokens. -/
def pz (n : Nat) (ts : List (Tok (Filter E))) : Except PyErr (List (Filter E) × List (List Char)) :=
  parens n (atoms ts) (operands ts)

theorem operands_end (A0 : List (Tok A)) (z : A) : ∃ P, operands (A0 ++ [.atom z]) = P ++ [[]] := by
  obtain ⟨P, o, h⟩ := operands_split A0
  exact ⟨P ++ [o], by rw [operands_append A0 [.atom z] P o [] [[]] h rfl]; simp⟩

/-- A list of tokens: up to its last atom, and the characters after it. -/
theorem last_atom (ts : List (Tok A)) : ∃ (A0 : List (Tok A)) (c : List Char), ts = A0 ++ c.map Tok.ch ∧
    ((A0 = [] ∧ atoms ts = []) ∨ ∃ A1 z, A0 = A1 ++ [.atom z]) := by
  induction ts with
  | nil => exact ⟨[], [], rfl, Or.inl ⟨rfl, rfl⟩⟩
  | cons t ts ih =>
    obtain ⟨A0, c, h1, h2⟩ := ih
    cases t with
    | atom a =>
      refine ⟨.atom a :: A0, c, by rw [h1]; rfl, Or.inr ?_⟩
      rcases h2 with ⟨rfl, _⟩ | ⟨A1, z, rfl⟩
      · exact ⟨[], a, rfl⟩
      · exact ⟨.atom a :: A1, z, rfl⟩
    | ch d =>
      rcases h2 with ⟨rfl, h3⟩ | ⟨A1, z, rfl⟩
      · exact ⟨[], d :: c, by rw [h1]; rfl, Or.inl ⟨rfl, by simpa [atoms] using h3⟩⟩
      · exact ⟨.ch d :: (A1 ++ [.atom z]), c, by rw [h1]; rfl, Or.inr ⟨.ch d :: A1, z, rfl⟩⟩

theorem step_single (n : Nat) (A0 : List (Tok (Filter E))) (c x0 x1 : List Char) (a : Filter E) (B : List (Tok (Filter E)))
    (hA : A0 = [] ∨ ∃ A1 z, A0 = A1 ++ [.atom z]) (h1 : '(' ∉ x0 ∧ ')' ∉ x0) (h2 : '(' ∉ x1 ∧ ')' ∉ x1)
    (hB : Tok.ch '(' ∉ B) :
    pz (n + 1) (A0 ++ c.map Tok.ch ++ .ch '(' :: (x0.map Tok.ch ++ .atom a :: (x1.map Tok.ch ++ .ch ')' :: B))) =
      pz n (A0 ++ x0.map Tok.ch ++ .atom a :: B) := by
  obtain ⟨P, hP⟩ : ∃ P, operands A0 = P ++ [[]] := by
    rcases hA with rfl | ⟨A1, z, rfl⟩
    · exact ⟨[], rfl⟩
    · exact operands_end A1 z
  obtain ⟨b, R, hb⟩ := operands_cons B
  have hS : operands (x1.map Tok.ch ++ .ch ')' :: B) = (x1 ++ ')' :: b) :: R :=
    operands_chars x1 _ (by simp [operands, hb])
  have hT : operands (A0 ++ c.map Tok.ch ++
      .ch '(' :: (x0.map Tok.ch ++ .atom a :: (x1.map Tok.ch ++ .ch ')' :: B))) =
      P ++ (c ++ '(' :: x0) :: (([] : List (List Char)) ++ (x1 ++ ')' :: b) :: R) := by
    rw [List.append_assoc]
    have h3 : operands (x0.map Tok.ch ++ .atom a :: (x1.map Tok.ch ++ .ch ')' :: B)) = x0 :: (x1 ++ ')' :: b) :: R := by
      have := operands_chars x0 (.atom a :: (x1.map Tok.ch ++ .ch ')' :: B)) (o := []) (os := (x1 ++ ')' :: b) :: R)
        (by simp [operands, hS])
      simpa using this
    have h4 := operands_chars c (.ch '(' :: (x0.map Tok.ch ++ .atom a :: (x1.map Tok.ch ++ .ch ')' :: B)))
      (o := '(' :: x0) (os := (x1 ++ ')' :: b) :: R) (by simp [operands, h3])
    have := operands_append A0 _ P [] _ _ hP h4
    simpa using this
  have hT' : operands (A0 ++ x0.map Tok.ch ++ .atom a :: B) = P ++ x0 :: b :: R := by
    rw [List.append_assoc]
    have h4 := operands_chars x0 (.atom a :: B) (o := []) (os := b :: R) (by simp [operands, hb])
    have := operands_append A0 _ P [] _ _ hP h4
    simpa using this
  have hat : atoms (A0 ++ c.map Tok.ch ++
      .ch '(' :: (x0.map Tok.ch ++ .atom a :: (x1.map Tok.ch ++ .ch ')' :: B))) =
      atoms (A0 ++ x0.map Tok.ch ++ .atom a :: B) := by
    have e1 : ∀ (s : List Char), atoms (s.map Tok.ch : List (Tok (Filter E))) = [] := by
      intro s
      have := atoms_chars s ([] : List (Tok (Filter E)))
      simpa [atoms] using this
    simp [atoms_append, atoms, e1]
  have nB : ∀ s ∈ operands B, '(' ∉ s := fun s hs hc => hB (mem_operands hs hc)
  have hlo : lastOpen (P ++ (c ++ '(' :: x0) :: (([] : List (List Char)) ++ (x1 ++ ')' :: b) :: R)) = some P.length := by
    refine lastOpen_at _ _ _ (by simp) ?_
    intro s hs
    rw [List.nil_append, List.mem_cons] at hs
    rcases hs with rfl | hs
    · have := nB b (by rw [hb]; simp)
      simp [h2.1, this]
    · exact nB s (by rw [hb]; simp [hs])
  have hnc := nextClosed_at P c ([] : List (List Char)) (x1 ++ ')' :: b) R (by simp) (by simp)
  have e1 : (P ++ (c ++ '(' :: x0) :: (([] : List (List Char)) ++ (x1 ++ ')' :: b) :: R)).getD P.length [] = c ++ '(' :: x0 := by
    simp [List.getD_eq_getElem?_getD]
  have e2 : (P ++ (c ++ '(' :: x0) :: (([] : List (List Char)) ++ (x1 ++ ')' :: b) :: R)).set P.length c =
      P ++ c :: (([] : List (List Char)) ++ (x1 ++ ')' :: b) :: R) := by
    simp [List.set_append]
  have e3 : (P ++ c :: (([] : List (List Char)) ++ (x1 ++ ')' :: b) :: R)).getD (P.length + 1 + 0) [] = x1 ++ ')' :: b := by
    simp [List.getD_eq_getElem?_getD, List.getElem?_append_right]
  have e4 : (P ++ c :: (([] : List (List Char)) ++ (x1 ++ ')' :: b) :: R)).set (P.length + 1 + 0) b = P ++ c :: b :: R := by
    simp [List.set_append, show ¬ (P.length + 1 < P.length) by omega, show P.length + 1 - P.length = 1 by omega]
  have e5 : (P ++ c :: b :: R).set P.length x0 = P ++ x0 :: b :: R := by simp [List.set_append]
  unfold pz
  rw [hat, hT, hT', parens, hlo]
  simp only
  rw [e1, rpartitionChar_at _ _ h1.1]
  simp only
  rw [if_neg h1.2, e2, hnc]
  simp only [List.length_nil]
  rw [e3, partitionChar_at _ _ h2.2]
  simp only
  rw [if_pos (by omega), e4, e5]

theorem pz_none (n : Nat) (ts : List (Tok (Filter E))) (h : Tok.ch '(' ∉ ts) : pz n ts = .ok (atoms ts, operands ts) := by
  unfold pz
  cases n with
  | zero => rfl
  | succ n =>
    have : lastOpen (operands ts) = none := by
      unfold lastOpen
      rw [List.find?_eq_none]
      intro i hi
      simp only [decide_eq_true_eq]
      intro hm
      rw [List.getD_eq_getElem?_getD] at hm
      cases ho : (operands ts)[i]? with
      | none => rw [ho] at hm; cases hm
      | some o =>
        rw [ho] at hm
        exact h (mem_operands (List.mem_of_getElem? ho) hm)
    rw [parens, this]

/-! ## Groups of several terms -/

mutual
/-- Every group replaced by a filter that does its work. -/
def flatT : Term (Filter E) → Term (Filter E)
  | .atom n a => .atom n a
  | .group n e => .atom n (func (atoms (flatE e).toks) (operands (flatE e).toks))
/-- Every group replaced by a filter that does its work. -/
def flatE : Expr (Filter E) → Expr (Filter E)
  | .one t => .one (flatT t)
  | .cons t o e => .cons (flatT t) o (flatE e)
end

theorem flatT_groups (t : Term (Filter E)) : tGroups (flatT t) = 0 := by cases t <;> simp [flatT, tGroups]

theorem flatE_groups : ∀ e : Expr (Filter E), eGroups (flatE e) = 0
  | .one t => by simp [flatE, eGroups, flatT_groups]
  | .cons t o e => by simp [flatE, eGroups, flatT_groups, flatE_groups e]

theorem flat_no_open (e : Expr (Filter E)) (c : Char) (hc : c = '(' ∨ c = ')') : Tok.ch c ∉ (flatE e).toks :=
  not_open_of_flat (flatE_groups e) c hc

theorem flatT_no_open (t : Term (Filter E)) (c : Char) (hc : c = '(' ∨ c = ')') : Tok.ch c ∉ (flatT t).toks :=
  not_open_of_flat (e := .one (flatT t)) (by simp [eGroups, flatT_groups]) c hc

theorem toks_unspaced (e : Expr A) : unspaced e.toks = e.toks := by
  unfold unspaced
  rw [List.filter_eq_self]
  intro t ht
  cases t with
  | atom a => rfl
  | ch c =>
    have : c ≠ ' ' := by
      rintro rfl
      rcases expr_chars ' ' e ht with h | h <;> revert h <;> decide
    split
    · rename_i h; injection h with h; exact absurd h this
    · rfl

mutual
theorem flatT_val (x : E) : ∀ t : Term (Filter E), (∀ f ∈ atoms t.toks, f x = .ok (valOf x f)) →
    (∀ f ∈ atoms (flatT t).toks, f x = .ok (valOf x f)) ∧ (flatT t).eval (valOf x) = t.eval (valOf x)
  | .atom n a, h => ⟨h, rfl⟩
  | .group n e, h => by
    have h' : ∀ f ∈ atoms e.toks, f x = .ok (valOf x f) := by
      intro f hf
      refine h f ?_
      simp only [Term.toks, atoms_replicate, atoms, atoms_append, List.append_nil]
      exact List.mem_append.mpr (Or.inr hf)
    obtain ⟨i1, i2⟩ := flatE_val x e h'
    have hf := flat_func x (valOf x) (flatE e) (flatE_groups e) (flatE e).toks (toks_unspaced _) i1
    have hv := valOf_eq hf
    refine ⟨?_, ?_⟩
    · intro f hm
      simp only [flatT, Term.toks, atoms_replicate, atoms, List.mem_singleton] at hm
      rw [hm, hf, hv]
    · simp only [flatT, Term.eval, hv, Expr.eval, i2]
theorem flatE_val (x : E) : ∀ e : Expr (Filter E), (∀ f ∈ atoms e.toks, f x = .ok (valOf x f)) →
    (∀ f ∈ atoms (flatE e).toks, f x = .ok (valOf x f)) ∧ (flatE e).values (valOf x) = e.values (valOf x)
  | .one t, h => by
    obtain ⟨i1, i2⟩ := flatT_val x t h
    exact ⟨i1, by simp only [flatE, Expr.values, i2]⟩
  | .cons t o e, h => by
    have a1 : ∀ (t : Term (Filter E)) (e : Expr (Filter E)), atoms (Expr.cons t o e).toks = atoms t.toks ++ atoms e.toks := by
      intro t e; simp [Expr.toks, atoms_append, atoms]
    rw [a1] at h
    obtain ⟨i1, i2⟩ := flatT_val x t (fun f hf => h f (by simp [hf]))
    obtain ⟨j1, j2⟩ := flatE_val x e (fun f hf => h f (by simp [hf]))
    refine ⟨?_, by simp only [flatE, Expr.values, i2, j2]⟩
    intro f hf
    rw [flatE, a1, List.mem_append] at hf
    rcases hf with hf | hf
    · exact i1 f hf
    · exact j1 f hf
end

mutual
theorem pz_flatT : ∀ (t : Term (Filter E)), t.lone = false → ∀ (k : Nat) (A B : List (Tok (Filter E))), Tok.ch '(' ∉ B →
    pz (k + tGroups t) (A ++ t.toks ++ B) = pz k (A ++ (flatT t).toks ++ B)
  | .atom n a, _, k, A, B, _ => rfl
  | .group n e, hl, k, A, B, hB => by
    simp only [Term.lone, Bool.or_eq_false_iff] at hl
    have e1 : A ++ (Term.group n e).toks ++ B =
        (A ++ List.replicate n (.ch '~') ++ [.ch '(']) ++ e.toks ++ (.ch ')' :: B) := by simp [Term.toks]
    have e2 : (A ++ List.replicate n (.ch '~') ++ [.ch '(']) ++ (flatE e).toks ++ (.ch ')' :: B) =
        (A ++ List.replicate n (.ch '~')) ++ .ch '(' :: ((flatE e).toks ++ .ch ')' :: B) := by simp
    rw [e1, tGroups, show k + (eGroups e + 1) = (k + 1) + eGroups e by omega,
      pz_flatE e hl.2 (k + 1) _ _ (by simpa using hB), e2]
    unfold pz
    have h2 : 2 ≤ (atoms (flatE e).toks).length := by
      cases e with
      | one t => simp [Expr.isOne] at hl
      | cons t o e' =>
        have g1 := term_atoms (flatT t)
        have g2 := expr_atoms (flatE e')
        simp [flatE, Expr.toks, atoms_append, atoms]; omega
    rw [parens_step k _ _ _ (flat_no_open e _ (Or.inl rfl)) hB (flat_no_open e _ (Or.inr rfl)) h2]
    simp [flatT, Term.toks]
theorem pz_flatE : ∀ (e : Expr (Filter E)), e.lone = false → ∀ (k : Nat) (A B : List (Tok (Filter E))), Tok.ch '(' ∉ B →
    pz (k + eGroups e) (A ++ e.toks ++ B) = pz k (A ++ (flatE e).toks ++ B)
  | .one t, hl, k, A, B, hB => pz_flatT t hl k A B hB
  | .cons t o e, hl, k, A, B, hB => by
    simp only [Expr.lone, Bool.or_eq_false_iff] at hl
    have e1 : A ++ (Expr.cons t o e).toks ++ B = (A ++ t.toks ++ [.ch o.char]) ++ e.toks ++ B := by simp [Expr.toks]
    have e2 : (A ++ t.toks ++ [.ch o.char]) ++ (flatE e).toks ++ B = A ++ t.toks ++ (.ch o.char :: ((flatE e).toks ++ B)) := by
      simp
    rw [e1, eGroups, ← Nat.add_assoc, pz_flatE e hl.2 _ _ B hB, e2, pz_flatT t hl.1 k A _ (by
      simp only [List.mem_cons, List.mem_append, not_or]
      refine ⟨?_, flat_no_open e _ (Or.inl rfl), hB⟩
      intro h
      injection h with h
      exact (op_char_ne o).2.2.1 h.symm)]
    simp [flatE, Expr.toks]
end

/-! ## Lone groups with no filter to their left -/

mutual
theorem not_loneT : ∀ t : Term A, t.late = false → t.early = false → t.lone = false
  | .atom _ _, _, _ => rfl
  | .group n e, h1, h2 => by
    simp only [Term.late, Term.early, Term.lone, Bool.or_eq_false_iff] at h1 h2 ⊢
    exact ⟨h2.1, not_loneE e h1 h2.2⟩
theorem not_loneE : ∀ e : Expr A, e.late = false → e.early = false → e.lone = false
  | .one t, h1, h2 => not_loneT t h1 h2
  | .cons t o e, h1, h2 => by
    simp only [Expr.late, Expr.early, Expr.lone, Bool.or_eq_false_iff] at h1 h2 ⊢
    exact ⟨not_loneT t h1.1 h2, h1.2⟩
end

mutual
theorem spillT_id : ∀ t : Term A, t.early = false → t.spill = .one t
  | .atom _ _, _ => by simp [Term.spill]
  | .group n e, h => by
    simp only [Term.early] at h
    simp [Term.spill, h]
theorem spillE_id : ∀ e : Expr A, e.early = false → e.spill = e
  | .one t, h => by rw [Expr.spill]; exact spillT_id t h
  | .cons t o e, h => by rw [Expr.spill, spillT_id t h]; rfl
end

theorem flat_append : ∀ (e : Expr (Filter E)) (o : Op) (e' : Expr (Filter E)),
    flatE (e.append o e') = (flatE e).append o (flatE e')
  | .one t, o, e' => rfl
  | .cons t p x, o, e' => by simp [Expr.append, flatE, flat_append x o e']

theorem toks_append : ∀ (e : Expr A) (o : Op) (e' : Expr A), (e.append o e').toks = e.toks ++ .ch o.char :: e'.toks
  | .one t, o, e' => rfl
  | .cons t p x, o, e' => by simp [Expr.append, Expr.toks, toks_append x o e']

mutual
theorem spill_atomsT : ∀ t : Term A, atoms t.spill.toks = atoms t.toks
  | .atom n a => by simp [Term.spill, Expr.toks]
  | .group n e => by
    simp only [Term.spill]
    split
    · rw [spill_atomsE e]
      simp [Term.toks, atoms_append, atoms, atoms_tildes]
    · rfl
theorem spill_atomsE : ∀ e : Expr A, atoms e.spill.toks = atoms e.toks
  | .one t => spill_atomsT t
  | .cons t o e => by
    rw [Expr.spill, toks_append, atoms_append, spill_atomsT t]
    simp [Expr.toks, atoms_append]
end

/-- Without the closing parentheses. -/
def unclosed (ts : List (Tok A)) : List (Tok A) :=
  ts.filter (fun t => match t with | .ch ')' => false | _ => true)

theorem unclosed_self {ts : List (Tok A)} (h : Tok.ch ')' ∉ ts) : unclosed ts = ts := by
  unfold unclosed
  rw [List.filter_eq_self]
  intro t ht
  split
  · exact absurd ht h
  · rfl

mutual
theorem pz_spillT : ∀ (t : Term (Filter E)), t.late = false → t.early = true → ∀ (k : Nat) (c : List Char)
    (B : List (Tok (Filter E))), Tok.ch '(' ∉ B →
    ∃ ts', pz (k + tGroups t) (c.map Tok.ch ++ t.toks ++ B) = .ok (atoms (ts' ++ B), operands (ts' ++ B)) ∧
      Tok.ch '(' ∉ ts' ∧ unclosed ts' = (flatE t.spill).toks
  | .atom _ _, _, h => by simp [Term.early] at h
  | .group n e, hl, he => by
    intro k c B hB
    simp only [Term.late] at hl
    have e1 : c.map Tok.ch ++ (Term.group n e).toks ++ B =
        (c ++ List.replicate n '~' ++ ['(']).map Tok.ch ++ e.toks ++ (.ch ')' :: B) := by simp [Term.toks]
    have hB' : Tok.ch '(' ∉ (.ch ')' :: B : List (Tok (Filter E))) := by simpa using hB
    rw [e1, tGroups, show k + (eGroups e + 1) = (k + 1) + eGroups e by omega]
    have hsp : (Term.group n e).spill = e.spill := by
      simp only [Term.early] at he
      simp [Term.spill, he]
    rw [hsp]
    cases hee : e.early with
    | true =>
      obtain ⟨ts', i1, i2, i3⟩ := pz_spillE e hl hee (k + 1) (c ++ List.replicate n '~' ++ ['(']) (.ch ')' :: B) hB'
      refine ⟨ts' ++ [.ch ')'], by rw [i1]; simp, by simpa using i2, ?_⟩
      unfold unclosed at i3 ⊢
      rw [List.filter_append, i3]
      simp
    | false =>
      have hlone := not_loneE e hl hee
      rw [spillE_id e hee, pz_flatE e hlone (k + 1) _ _ hB']
      cases e with
      | cons t o e' => simp [Term.early, Expr.isOne, hee] at he
      | one t =>
        obtain ⟨m, a, hm⟩ : ∃ m a, flatT t = .atom m a := by
          cases t with
          | atom m a => exact ⟨m, a, rfl⟩
          | group m e => exact ⟨m, _, rfl⟩
        have e2 : (c ++ List.replicate n '~' ++ ['(']).map Tok.ch ++ (flatE (.one t)).toks ++ (.ch ')' :: B) =
            [] ++ (c ++ List.replicate n '~').map Tok.ch ++ .ch '(' :: ((List.replicate m '~').map Tok.ch ++
              .atom a :: (([] : List Char).map Tok.ch ++ .ch ')' :: B)) := by
          simp [flatE, Expr.toks, hm, Term.toks]
        rw [e2, step_single k [] _ _ _ a B (Or.inl rfl) (by simp [List.mem_replicate]) (by simp) hB]
        refine ⟨(flatE (.one t)).toks, ?_, flat_no_open _ _ (Or.inl rfl), unclosed_self (flat_no_open _ _ (Or.inr rfl))⟩
        have e3 : [] ++ (List.replicate m '~').map Tok.ch ++ .atom a :: B = (flatE (.one t)).toks ++ B := by
          simp [flatE, Expr.toks, hm, Term.toks]
        rw [e3]
        exact pz_none _ _ (by simp [hB, flat_no_open _ _ (Or.inl rfl)])
theorem pz_spillE : ∀ (e : Expr (Filter E)), e.late = false → e.early = true → ∀ (k : Nat) (c : List Char)
    (B : List (Tok (Filter E))), Tok.ch '(' ∉ B →
    ∃ ts', pz (k + eGroups e) (c.map Tok.ch ++ e.toks ++ B) = .ok (atoms (ts' ++ B), operands (ts' ++ B)) ∧
      Tok.ch '(' ∉ ts' ∧ unclosed ts' = (flatE e.spill).toks
  | .one t, hl, he => pz_spillT t hl he
  | .cons t o e, hl, he => by
    intro k c B hB
    simp only [Expr.late, Bool.or_eq_false_iff] at hl
    have e1 : c.map Tok.ch ++ (Expr.cons t o e).toks ++ B = (c.map Tok.ch ++ t.toks ++ [.ch o.char]) ++ e.toks ++ B := by
      simp [Expr.toks]
    have e2 : (c.map Tok.ch ++ t.toks ++ [.ch o.char]) ++ (flatE e).toks ++ B =
        c.map Tok.ch ++ t.toks ++ (.ch o.char :: ((flatE e).toks ++ B)) := by simp
    rw [e1, eGroups, ← Nat.add_assoc, pz_flatE e hl.2 _ _ B hB, e2]
    have hne : Tok.ch '(' ∉ (.ch o.char :: (flatE e).toks : List (Tok (Filter E))) := by
      simp only [List.mem_cons, not_or]
      refine ⟨?_, flat_no_open e _ (Or.inl rfl)⟩
      intro h
      injection h with h
      exact (op_char_ne o).2.2.1 h.symm
    obtain ⟨ts', i1, i2, i3⟩ := pz_spillT t hl.1 he k c (.ch o.char :: ((flatE e).toks ++ B)) (by
      rw [← List.cons_append, List.mem_append, not_or]
      exact ⟨hne, hB⟩)
    refine ⟨ts' ++ .ch o.char :: (flatE e).toks, by rw [i1]; simp, ?_, ?_⟩
    · rw [List.mem_append, not_or]; exact ⟨i2, hne⟩
    · have : unclosed (.ch o.char :: (flatE e).toks : List (Tok (Filter E))) = .ch o.char :: (flatE e).toks := by
        apply unclosed_self
        simp only [List.mem_cons, not_or]
        refine ⟨?_, flat_no_open e _ (Or.inr rfl)⟩
        intro h
        injection h with h
        exact (op_char_ne o).2.2.2 h.symm
      unfold unclosed at i3 this ⊢
      rw [List.filter_append, i3, this, Expr.spill, flat_append, toks_append]
end

/-! ## Lone groups with a filter to their left -/

/-- The text up to the next filter has neither operator nor parenthesis. -/
def gapAfter : List (Tok A) → Bool
  | [] => false
  | .atom _ :: _ => true
  | .ch c :: ts => decide (c ∉ ['&', '^', '|', '(', ')']) && gapAfter ts

/-- Two filters next to each other with no operator between them. -/
def gapped : List (Tok A) → Bool
  | [] => false
  | .atom _ :: ts => gapAfter ts || gapped ts
  | .ch _ :: ts => gapped ts

theorem gapAfter_append_left {s : List (Tok A)} (t : List (Tok A)) (h : gapAfter s = true) : gapAfter (s ++ t) = true := by
  induction s with
  | nil => simp [gapAfter] at h
  | cons x s ih =>
    cases x with
    | atom a => rfl
    | ch c =>
      simp only [gapAfter, Bool.and_eq_true, List.cons_append] at h ⊢
      exact ⟨h.1, ih h.2⟩

theorem gapped_append_left {s : List (Tok A)} (t : List (Tok A)) (h : gapped s = true) : gapped (s ++ t) = true := by
  induction s with
  | nil => simp [gapped] at h
  | cons x s ih =>
    cases x with
    | atom a =>
      simp only [gapped, Bool.or_eq_true, List.cons_append] at h ⊢
      exact h.imp (gapAfter_append_left t) ih
    | ch c =>
      simp only [gapped, List.cons_append] at h ⊢
      exact ih h

theorem gapped_append_right (s : List (Tok A)) {t : List (Tok A)} (h : gapped t = true) : gapped (s ++ t) = true := by
  induction s with
  | nil => exact h
  | cons x s ih => cases x <;> simp [gapped, ih]

theorem gapAfter_paren (s t : List (Tok A)) {p : Char} (hp : p = '(' ∨ p = ')') : gapAfter (s ++ .ch p :: t) = gapAfter s := by
  induction s with
  | nil => rcases hp with rfl | rfl <;> simp [gapAfter]
  | cons x s ih => cases x <;> simp [gapAfter, ih]

theorem gapped_paren (s t : List (Tok A)) {p : Char} (hp : p = '(' ∨ p = ')') :
    gapped (s ++ .ch p :: t) = (gapped s || gapped t) := by
  induction s with
  | nil => simp [gapped]
  | cons x s ih => cases x <;> simp [gapped, ih, gapAfter_paren s t hp, Bool.or_assoc]

theorem gapAfter_chars (c : List Char) : gapAfter (c.map Tok.ch : List (Tok A)) = false := by
  induction c with
  | nil => rfl
  | cons d c ih => simp [gapAfter, ih]

theorem gapped_chars (c : List Char) : gapped (c.map Tok.ch : List (Tok A)) = false := by
  induction c with
  | nil => rfl
  | cons d c ih => simpa [gapped] using ih

theorem gapAfter_trail (s : List (Tok A)) (c : List Char) : gapAfter (s ++ c.map Tok.ch) = gapAfter s := by
  induction s with
  | nil => exact gapAfter_chars c
  | cons x s ih => cases x <;> simp [gapAfter, ih]

theorem gapped_trail (s : List (Tok A)) (c : List Char) : gapped (s ++ c.map Tok.ch) = gapped s := by
  induction s with
  | nil => exact gapped_chars c
  | cons x s ih => cases x <;> simp [gapped, ih, gapAfter_trail s c]

theorem gapAfter_operand {ts : List (Tok A)} (h : gapAfter ts = true) :
    ∃ o q os, operands ts = o :: q :: os ∧ ∀ p : Op, p.char ∉ o := by
  induction ts with
  | nil => simp [gapAfter] at h
  | cons x ts ih =>
    cases x with
    | atom a =>
      obtain ⟨o, os, e⟩ := operands_cons ts
      exact ⟨[], o, os, by simp [operands, e], by simp⟩
    | ch c =>
      simp only [gapAfter, Bool.and_eq_true, decide_eq_true_eq] at h
      obtain ⟨o, q, os, e, hp⟩ := ih h.2
      refine ⟨c :: o, q, os, by simp [operands, e], ?_⟩
      intro p
      simp only [List.mem_cons, not_or]
      refine ⟨?_, hp p⟩
      rintro rfl
      apply h.1
      cases p <;> decide

theorem gapped_operand {ts : List (Tok A)} (h : gapped ts = true) :
    ∃ o ∈ ((operands ts).drop 1).dropLast, ∀ p : Op, p.char ∉ o := by
  induction ts with
  | nil => simp [gapped] at h
  | cons x ts ih =>
    obtain ⟨o, os, e⟩ := operands_cons ts
    cases x with
    | ch c =>
      obtain ⟨q, hq, hp⟩ := ih h
      refine ⟨q, ?_, hp⟩
      rw [e] at hq
      simpa [operands, e] using hq
    | atom a =>
      simp only [gapped, Bool.or_eq_true] at h
      rcases h with h | h
      · obtain ⟨o', q, os', e', hp⟩ := gapAfter_operand h
        exact ⟨o', by simp [operands, e'], hp⟩
      · obtain ⟨q, hq, hp⟩ := ih h
        refine ⟨q, ?_, hp⟩
        rw [e] at hq
        simp only [List.drop_succ_cons, List.drop_zero] at hq
        simp only [operands, List.drop_succ_cons, List.drop_zero, e]
        cases os with
        | nil => simp at hq
        | cons r os => rw [List.dropLast_cons_cons]; exact List.mem_cons_of_mem _ hq

/-- A value or `TypeError`. -/
def Soft (r : Except PyErr Bool) : Prop := (∃ b, r = .ok b) ∨ r = .error .typeError

theorem highest_some {ops : List (List Char)} {i : Nat} {f : Bool → Bool → Bool}
    (h : highestFrom ops diadic = some (i, f)) : ∃ o, ops[i]? = some o ∧ ∃ p : Op, p.char ∈ o := by
  have key : ∀ (k : Char), ops.findIdx? (fun op => decide (k ∈ op)) = some i → ∃ o, ops[i]? = some o ∧ k ∈ o := by
    intro k hk
    rw [List.findIdx?_eq_some_iff_getElem] at hk
    obtain ⟨h1, h2, _⟩ := hk
    exact ⟨ops[i], List.getElem?_eq_getElem h1, by simpa using h2⟩
  simp only [diadic, highestFrom] at h
  split at h
  · rename_i j hj
    simp only [Option.some.injEq, Prod.mk.injEq] at h
    obtain ⟨o, h1, h2⟩ := key '&' (h.1 ▸ hj)
    exact ⟨o, h1, .and, h2⟩
  · split at h
    · rename_i j hj
      simp only [Option.some.injEq, Prod.mk.injEq] at h
      obtain ⟨o, h1, h2⟩ := key '^' (h.1 ▸ hj)
      exact ⟨o, h1, .xor, h2⟩
    · split at h
      · rename_i j hj
        simp only [Option.some.injEq, Prod.mk.injEq] at h
        obtain ⟨o, h1, h2⟩ := key '|' (h.1 ▸ hj)
        exact ⟨o, h1, .or, h2⟩
      · cases h

theorem reduce_soft : ∀ (n : Nat) (vals : List Bool) (ops : List (List Char)), vals.length = ops.length + 1 →
    vals.length ≤ n → Soft (reduce n vals ops) ∧
      ((∃ o ∈ ops, ∀ p : Op, p.char ∉ o) → reduce n vals ops = .error .typeError) := by
  intro n
  induction n with
  | zero => intro vals ops h1 h2; omega
  | succ n ih =>
    intro vals ops h1 h2
    match vals, h1, h2 with
    | [v], h1, _ =>
      have : ops = [] := List.length_eq_zero_iff.mp (by simpa using h1.symm)
      subst this
      exact ⟨Or.inl ⟨v, by simp [reduce]⟩, by simp⟩
    | u :: v :: vs, h1, h2 =>
      simp only [reduce]
      cases hh : highestFrom ops diadic with
      | none => exact ⟨Or.inr rfl, fun _ => rfl⟩
      | some p =>
        obtain ⟨i, f⟩ := p
        obtain ⟨o, ho, q, hq⟩ := highest_some hh
        obtain ⟨hi, ho'⟩ := List.getElem?_eq_some_iff.mp ho
        simp only [List.length_cons] at h1 h2
        have g1 : i < (u :: v :: vs).length := by simp only [List.length_cons]; omega
        have g2 : i + 1 < (u :: v :: vs).length := by simp only [List.length_cons]; omega
        dsimp only
        rw [List.getElem?_eq_getElem g1, List.getElem?_eq_getElem g2]
        dsimp only
        obtain ⟨i1, i2⟩ := ih ((u :: v :: vs).take i ++ f (u :: v :: vs)[i] (u :: v :: vs)[i + 1] :: (u :: v :: vs).drop (i + 2))
          (ops.take i ++ ops.drop (i + 1)) (by simp; omega) (by simp; omega)
        refine ⟨i1, fun ⟨b, hb, hp⟩ => i2 ⟨b, ?_, hp⟩⟩
        have hsplit : ops = ops.take i ++ o :: ops.drop (i + 1) := by
          rw [← ho', List.getElem_cons_drop, List.take_append_drop]
        rw [hsplit, List.mem_append, List.mem_cons] at hb
        rw [List.mem_append]
        rcases hb with hb | rfl | hb
        · exact Or.inl hb
        · exact absurd hq (hp q)
        · exact Or.inr hb

theorem evalAll_soft (x : E) : ∀ (fs : List (Filter E)) (os : List (List Char)), fs.length ≤ os.length →
    (∀ f ∈ fs, Soft (f x)) → (∃ vals, evalAll x os fs = .ok vals ∧ vals.length = fs.length ∧ ∀ f ∈ fs, ∃ b, f x = .ok b) ∨
      evalAll x os fs = .error .typeError
  | [], os, _, _ => Or.inl ⟨[], by cases os <;> rfl, rfl, by simp⟩
  | f :: fs, [], h, _ => by simp at h
  | f :: fs, o :: os, h, hs => by
    simp only [evalAll, evalOne]
    rcases hs f (by simp) with ⟨b, hb⟩ | hb
    · rw [hb]
      dsimp only
      rcases evalAll_soft x fs os (by simpa using h) (fun g hg => hs g (by simp [hg])) with ⟨vals, h1, h2, h3⟩ | h1
      · rw [h1]
        refine Or.inl ⟨_, rfl, by simp [h2], ?_⟩
        intro g hg
        rcases List.mem_cons.mp hg with rfl | hg
        · exact ⟨b, hb⟩
        · exact h3 g hg
      · rw [h1]; exact Or.inr rfl
    · rw [hb]; exact Or.inr rfl

theorem func_soft (x : E) (ts : List (Tok (Filter E))) (hne : atoms ts ≠ []) (hs : ∀ f ∈ atoms ts, Soft (f x)) :
    Soft (func (atoms ts) (operands ts) x) ∧
      ((gapped ts = true ∨ ∃ f ∈ atoms ts, f x = .error .typeError) →
        func (atoms ts) (operands ts) x = .error .typeError) := by
  have hl := operands_length ts
  have hpos : 0 < (atoms ts).length := List.length_pos_iff.mpr hne
  unfold func
  rcases evalAll_soft x (atoms ts) (operands ts) (by omega) hs with ⟨vals, h1, h2, h3⟩ | h1
  · rw [h1]
    dsimp only
    obtain ⟨i1, i2⟩ := reduce_soft vals.length vals (((operands ts).drop 1).dropLast) (by simp; omega) (Nat.le_refl _)
    refine ⟨i1, ?_⟩
    rintro (h | ⟨f, hf, he⟩)
    · exact i2 (gapped_operand h)
    · obtain ⟨b, hb⟩ := h3 f hf
      rw [he] at hb
      cases hb
  · rw [h1]
    exact ⟨Or.inr rfl, fun _ => rfl⟩

theorem last_open_split {ts : List (Tok A)} {x : Tok A} [DecidableEq (Tok A)] (h : x ∈ ts) :
    ∃ s t, ts = s ++ x :: t ∧ x ∉ t := by
  induction ts with
  | nil => cases h
  | cons y ts ih =>
    by_cases hm : x ∈ ts
    · obtain ⟨s, t, e, hn⟩ := ih hm
      exact ⟨y :: s, t, by rw [e]; rfl, hn⟩
    · rcases List.mem_cons.mp h with rfl | h
      · exact ⟨[], ts, rfl, hm⟩
      · exact absurd h hm

theorem gapped_error (n : Nat) : ∀ (ts : List (Tok (Filter E))), chCount '(' ts ≤ n → atoms ts ≠ [] →
    pz n ts = .error .valueError ∨ ∃ fs os, pz n ts = .ok (fs, os) ∧ ∀ x, (∀ f ∈ atoms ts, Soft (f x)) →
      (gapped ts = true ∨ ∃ f ∈ atoms ts, f x = .error .typeError) → func fs os x = .error .typeError := by
  induction n with
  | zero =>
    intro ts h hne
    have hno : Tok.ch '(' ∉ ts := by
      intro hm
      have := chCount_pos hm
      omega
    exact Or.inr ⟨_, _, pz_none 0 ts hno, fun x hs => (func_soft x ts hne hs).2⟩
  | succ n ih =>
    intro ts h hne
    by_cases hm : Tok.ch '(' ∈ ts
    case neg => exact Or.inr ⟨_, _, pz_none _ ts hm, fun x hs => (func_soft x ts hne hs).2⟩
    classical
    obtain ⟨L, S, e, hS⟩ := last_open_split hm
    subst e
    -- the first closing parenthesis
    by_cases hc : Tok.ch ')' ∈ S
    case neg =>
      left
      obtain ⟨P, o, hP⟩ := operands_split L
      obtain ⟨x0, R, hx⟩ := operands_cons S
      have hT : operands (L ++ .ch '(' :: S) = P ++ (o ++ '(' :: x0) :: R :=
        operands_append L _ P o ('(' :: x0) _ hP (by simp [operands, hx])
      have nS : ∀ s ∈ operands S, '(' ∉ s := fun s hs hc => hS (mem_operands hs hc)
      have nS' : ∀ s ∈ operands S, ')' ∉ s := fun s hs hc' => hc (mem_operands hs hc')
      unfold pz
      rw [hT, parens, lastOpen_at P _ R (by simp) (fun s hs => nS s (by rw [hx]; simp [hs]))]
      simp only
      have e1 : (P ++ (o ++ '(' :: x0) :: R).getD P.length [] = o ++ '(' :: x0 := by simp [List.getD_eq_getElem?_getD]
      have e2 : (P ++ (o ++ '(' :: x0) :: R).set P.length o = P ++ o :: R := by simp [List.set_append]
      rw [e1, rpartitionChar_at _ _ (nS x0 (by rw [hx]; simp))]
      simp only
      rw [if_neg (nS' x0 (by rw [hx]; simp)), e2]
      have hnc : nextClosed (P ++ o :: R) P.length = none := by
        unfold nextClosed
        rw [List.find?_eq_none]
        intro i hi
        simp only [decide_eq_true_eq]
        intro hmem
        rw [List.mem_range'] at hi
        obtain ⟨j, hj, rfl⟩ := hi
        simp only [List.length_append, List.length_cons] at hj
        rw [List.getD_eq_getElem?_getD, List.getElem?_append_right (by omega),
          show P.length + 1 + 1 * j - P.length = j + 1 by omega, List.getElem?_cons_succ] at hmem
        cases hr : R[j]? with
        | none => rw [hr] at hmem; cases hmem
        | some r =>
          rw [hr] at hmem
          exact nS' r (by rw [hx]; simp [List.mem_of_getElem? hr]) hmem
      rw [hnc]
    obtain ⟨X, B, e, hX⟩ := List.eq_append_cons_of_mem hc
    subst e
    have hX1 : Tok.ch '(' ∉ X := fun h => hS (by simp [h])
    have hB : Tok.ch '(' ∉ B := fun h => hS (by simp [h])
    have hcnt : chCount '(' L + 1 ≤ n + 1 := by
      have := chCount_append '(' L (.ch '(' :: (X ++ .ch ')' :: B))
      rw [chCount_ch, if_pos rfl] at this
      omega
    have hgap : gapped (L ++ .ch '(' :: (X ++ .ch ')' :: B)) = (gapped L || (gapped X || gapped B)) := by
      rw [gapped_paren _ _ (Or.inl rfl), gapped_paren _ _ (Or.inr rfl)]
    have hat : atoms (L ++ .ch '(' :: (X ++ .ch ')' :: B)) = atoms L ++ (atoms X ++ atoms B) := by
      simp [atoms_append, atoms]
    rw [hgap, hat]
    by_cases h2 : 2 ≤ (atoms X).length
    · -- a group of several filters
      have hstep := parens_step n L X B hX1 hB hX h2
      have hne' : atoms (L ++ .atom (func (atoms X) (operands X)) :: B) ≠ [] := by simp [atoms_append, atoms]
      have hXne : atoms X ≠ [] := by intro h; rw [h] at h2; simp at h2
      unfold pz at ih ⊢
      rw [hstep]
      rcases ih (L ++ .atom (func (atoms X) (operands X)) :: B) (by
          rw [chCount_append, chCount_atom, chCount_zero hB]; omega) hne' with h | ⟨fs, os, i1, i2⟩
      · exact Or.inl h
      · refine Or.inr ⟨fs, os, i1, fun x hs hbad => i2 x ?_ ?_⟩
        · intro f hf
          simp only [atoms_append, atoms, List.mem_append, List.mem_cons] at hf
          rcases hf with hf | rfl | hf
          · exact hs f (by simp [hf])
          · exact (func_soft x X hXne (fun f hf => hs f (by simp [hf]))).1
          · exact hs f (by simp [hf])
        · have hsub := (func_soft x X hXne (fun f hf => hs f (by simp [hf]))).2
          simp only [atoms_append, atoms]
          rcases hbad with hbad | ⟨f, hf, he⟩
          · simp only [Bool.or_eq_true] at hbad
            rcases hbad with hb | hb | hb
            · exact Or.inl (gapped_append_left _ hb)
            · exact Or.inr ⟨_, by simp, hsub (Or.inl hb)⟩
            · exact Or.inl (gapped_append_right _ (by simp [gapped, hb]))
          · simp only [List.mem_append] at hf
            rcases hf with hf | hf | hf
            · exact Or.inr ⟨f, by simp [hf], he⟩
            · exact Or.inr ⟨_, by simp, hsub (Or.inr ⟨f, hf, he⟩)⟩
            · exact Or.inr ⟨f, by simp [hf], he⟩
    · obtain ⟨X0, x1, eX, hcase⟩ := last_atom X
      rcases hcase with ⟨rfl, hX0⟩ | ⟨X1, a, rfl⟩
      · -- empty parentheses
        left
        rw [List.nil_append] at eX
        subst eX
        obtain ⟨P, o, hP⟩ := operands_split L
        obtain ⟨b, R, hb⟩ := operands_cons B
        have hS' : operands (x1.map Tok.ch ++ .ch ')' :: B) = (x1 ++ ')' :: b) :: R :=
          operands_chars x1 _ (by simp [operands, hb])
        have hT : operands (L ++ .ch '(' :: (x1.map Tok.ch ++ .ch ')' :: B)) = P ++ (o ++ '(' :: (x1 ++ ')' :: b)) :: R :=
          operands_append L _ P o ('(' :: (x1 ++ ')' :: b)) _ hP (by simp [operands, hS'])
        have nS : ∀ s ∈ operands (x1.map Tok.ch ++ .ch ')' :: B), '(' ∉ s := fun s hs hc => hS (mem_operands hs hc)
        unfold pz
        rw [hT, parens, lastOpen_at P _ R (by simp) (fun s hs => nS s (by rw [hS']; simp [hs]))]
        simp only
        have e1 : (P ++ (o ++ '(' :: (x1 ++ ')' :: b)) :: R).getD P.length [] = o ++ '(' :: (x1 ++ ')' :: b) := by
          simp [List.getD_eq_getElem?_getD]
        rw [e1, rpartitionChar_at _ _ (nS _ (by rw [hS']; simp))]
        simp only
        rw [if_pos (by simp)]
      · -- a single filter
        obtain ⟨Z, x0, eZ, hZ⟩ := last_atom X1
        have hlen : (atoms X1).length = 0 := by
          have : atoms X = atoms X1 ++ [a] := by
            have e3 : atoms (x1.map Tok.ch : List (Tok (Filter E))) = [] := by
              have := atoms_chars x1 ([] : List (Tok (Filter E)))
              simpa [atoms] using this
            rw [eX, atoms_append, atoms_append, e3]
            simp [atoms]
          rw [this] at h2
          simp at h2
          simpa using h2
        rcases hZ with ⟨rfl, _⟩ | ⟨Z1, z, rfl⟩
        case inr => rw [eZ] at hlen; simp [atoms_append, atoms] at hlen
        rw [List.nil_append] at eZ
        subst eZ
        subst eX
        obtain ⟨A0, c, eL, hA⟩ := last_atom L
        have hA' : A0 = [] ∨ ∃ A1 z, A0 = A1 ++ [.atom z] := hA.imp (fun h => h.1) id
        have nc : ∀ {p : Char} {s : List Char} {t : List (Tok (Filter E))}, Tok.ch p ∉ t → (∀ y ∈ s.map Tok.ch, y ∈ t) → p ∉ s := by
          intro p s t hn hst hp
          exact hn (hst _ (List.mem_map.mpr ⟨p, hp, rfl⟩))
        have hstep := step_single n A0 c x0 x1 a B hA'
          ⟨nc hX1 (by intro y hy; simp [hy]), nc hX (by intro y hy; simp [hy])⟩
          ⟨nc hX1 (by intro y hy; simp [hy]), nc hX (by intro y hy; simp [hy])⟩ hB
        have eT : L ++ .ch '(' :: (x0.map Tok.ch ++ [.atom a] ++ x1.map Tok.ch ++ .ch ')' :: B) =
            A0 ++ c.map Tok.ch ++ .ch '(' :: (x0.map Tok.ch ++ .atom a :: (x1.map Tok.ch ++ .ch ')' :: B)) := by
          rw [eL]; simp
        rw [eT, hstep]
        have e0 : ∀ s : List Char, atoms (s.map Tok.ch : List (Tok (Filter E))) = [] := by
          intro s
          have := atoms_chars s ([] : List (Tok (Filter E)))
          simpa [atoms] using this
        have eat : atoms (A0 ++ x0.map Tok.ch ++ .atom a :: B) =
            atoms L ++ (atoms (x0.map Tok.ch ++ [.atom a] ++ x1.map Tok.ch) ++ atoms B) := by
          rw [eL]; simp [atoms_append, atoms, e0]
        have nx0 : Tok.ch '(' ∉ (x0.map Tok.ch : List (Tok (Filter E))) := fun h => hX1 (by simp [h])
        rcases ih (A0 ++ x0.map Tok.ch ++ .atom a :: B) (by
            rw [chCount_append, chCount_append, chCount_atom, chCount_zero hB, chCount_zero nx0]
            have : chCount '(' L = chCount '(' A0 + chCount '(' (c.map Tok.ch : List (Tok (Filter E))) := by
              rw [eL, chCount_append]
            omega) (by simp [atoms_append, atoms]) with h | ⟨fs, os, i1, i2⟩
        · exact Or.inl h
        · rw [eat] at i2
          refine Or.inr ⟨fs, os, i1, fun x hs hbad => i2 x hs ?_⟩
          rcases hbad with hbad | hbad
          · left
            have hXg : gapped (x0.map Tok.ch ++ [.atom a] ++ x1.map Tok.ch : List (Tok (Filter E))) = false := by
              rw [gapped_trail]
              have : ∀ s : List Char, gapped (s.map Tok.ch ++ [.atom a] : List (Tok (Filter E))) = false := by
                intro s
                induction s with
                | nil => rfl
                | cons d s ihs => simpa [gapped] using ihs
              exact this x0
            rw [hXg, eL, gapped_trail, Bool.false_or] at hbad
            simp only [Bool.or_eq_true] at hbad
            rcases hbad with hb | hb
            · rw [List.append_assoc]; exact gapped_append_left _ hb
            · exact gapped_append_right _ (by simp [gapped, hb])
          · exact Or.inr hbad

mutual
theorem lateT : ∀ (t : Term (Filter E)) (k : Nat) (L B : List (Tok (Filter E))), Tok.ch '(' ∉ B → chCount '(' L ≤ k →
    (t.late = true ∨ (atoms L ≠ [] ∧ t.lone = true)) →
    ∃ j ts', pz (k + tGroups t) (L ++ t.toks ++ B) = pz j ts' ∧ chCount '(' ts' ≤ j ∧ gapped ts' = true ∧ atoms ts' ≠ [] ∧
      ∀ x, (∀ f ∈ atoms (L ++ t.toks ++ B), f x = .ok (valOf x f)) → ∀ f ∈ atoms ts', f x = .ok (valOf x f)
  | .atom n a, k, L, B, _, _, h => by simp [Term.late, Term.lone] at h
  | .group n e, k, L, B, hB, hk, h => by
    have e1 : L ++ (Term.group n e).toks ++ B =
        (L ++ List.replicate n (.ch '~') ++ [.ch '(']) ++ e.toks ++ (.ch ')' :: B) := by simp [Term.toks]
    have hB' : Tok.ch '(' ∉ (.ch ')' :: B : List (Tok (Filter E))) := by simpa using hB
    have hcr : chCount '(' (List.replicate n (.ch '~') : List (Tok (Filter E))) = 0 :=
      chCount_zero (by simp [List.mem_replicate])
    have hk' : chCount '(' (L ++ List.replicate n (.ch '~') ++ [.ch '(']) ≤ k + 1 := by
      rw [chCount_append, chCount_append, hcr, chCount_ch, if_pos rfl]
      have : chCount '(' ([] : List (Tok (Filter E))) = 0 := rfl
      omega
    rw [e1, tGroups, show k + (eGroups e + 1) = (k + 1) + eGroups e by omega]
    have hrec : e.late = true ∨ (atoms (L ++ List.replicate n (.ch '~') ++ [.ch '(']) ≠ [] ∧ e.lone = true) →
        _ := lateE e (k + 1) (L ++ List.replicate n (.ch '~') ++ [.ch '(']) (.ch ')' :: B) hB' hk'
    have hL : atoms L ≠ [] → atoms (L ++ List.replicate n (.ch '~') ++ [.ch '(']) ≠ [] := by
      intro h hc
      rw [List.append_assoc, atoms_append] at hc
      exact h (List.append_eq_nil_iff.mp hc).1
    rcases h with h | ⟨h1, h2⟩
    · exact hrec (Or.inl h)
    · simp only [Term.lone] at h2
      cases hel : e.lone with
      | true => exact hrec (Or.inr ⟨hL h1, hel⟩)
      | false =>
        rw [hel, Bool.or_false] at h2
        rw [pz_flatE e hel (k + 1) _ _ hB']
        cases e with
        | cons t o e' => simp [Expr.isOne] at h2
        | one t =>
          obtain ⟨m, a, hm⟩ : ∃ m a, flatT t = .atom m a := by
            cases t with
            | atom m a => exact ⟨m, a, rfl⟩
            | group m e => exact ⟨m, _, rfl⟩
          obtain ⟨A0, c, eL, hA⟩ := last_atom L
          rcases hA with ⟨_, hA⟩ | ⟨A1, z, hA⟩
          · exact absurd hA h1
          have e2 : (L ++ List.replicate n (.ch '~') ++ [.ch '(']) ++ (flatE (.one t)).toks ++ (.ch ')' :: B) =
              A0 ++ (c ++ List.replicate n '~').map Tok.ch ++ .ch '(' :: ((List.replicate m '~').map Tok.ch ++
                .atom a :: (([] : List Char).map Tok.ch ++ .ch ')' :: B)) := by
            rw [eL]; simp [flatE, Expr.toks, hm, Term.toks]
          rw [e2, step_single k A0 _ _ _ a B (Or.inr ⟨A1, z, hA⟩) (by simp [List.mem_replicate]) (by simp) hB]
          have nm : Tok.ch '(' ∉ ((List.replicate m '~').map Tok.ch : List (Tok (Filter E))) := by simp [List.mem_replicate]
          refine ⟨k, _, rfl, ?_, ?_, by simp [atoms_append, atoms], ?_⟩
          · rw [chCount_append, chCount_append, chCount_atom, chCount_zero hB, chCount_zero nm]
            have : chCount '(' L = chCount '(' A0 + chCount '(' (c.map Tok.ch : List (Tok (Filter E))) := by
              rw [eL, chCount_append]
            omega
          · have hg : gapAfter ((List.replicate m '~').map Tok.ch ++ .atom a :: B : List (Tok (Filter E))) = true := by
              clear e2 nm hm
              induction m with
              | zero => rfl
              | succ m ih => simpa [List.replicate_succ, gapAfter] using ih
            have : A0 ++ (List.replicate m '~').map Tok.ch ++ .atom a :: B =
                A1 ++ (.atom z :: ((List.replicate m '~').map Tok.ch ++ .atom a :: B)) := by rw [hA]; simp
            rw [this]
            exact gapped_append_right _ (by rw [gapped, hg]; rfl)
          · intro x hx f hf
            have e0 : ∀ s : List Char, atoms (s.map Tok.ch : List (Tok (Filter E))) = [] := by
              intro s
              have := atoms_chars s ([] : List (Tok (Filter E)))
              simpa [atoms] using this
            have hflat := (flatE_val x (.one t) (fun f hf => hx f (mem_atoms_l _ (mem_atoms_r _ hf)))).1
            rw [atoms_append, atoms_append, e0, List.append_nil, List.mem_append, atoms, List.mem_cons] at hf
            rcases hf with hf | rfl | hf
            · refine hx f (mem_atoms_l _ (mem_atoms_l _ (mem_atoms_l _ (mem_atoms_l _ ?_))))
              rw [eL]
              exact mem_atoms_l _ hf
            · exact hflat f (by simp [flatE, Expr.toks, hm, Term.toks, atoms_replicate, atoms])
            · exact hx f (mem_atoms_r _ (by simpa [atoms] using hf))
theorem lateE : ∀ (e : Expr (Filter E)) (k : Nat) (L B : List (Tok (Filter E))), Tok.ch '(' ∉ B → chCount '(' L ≤ k →
    (e.late = true ∨ (atoms L ≠ [] ∧ e.lone = true)) →
    ∃ j ts', pz (k + eGroups e) (L ++ e.toks ++ B) = pz j ts' ∧ chCount '(' ts' ≤ j ∧ gapped ts' = true ∧ atoms ts' ≠ [] ∧
      ∀ x, (∀ f ∈ atoms (L ++ e.toks ++ B), f x = .ok (valOf x f)) → ∀ f ∈ atoms ts', f x = .ok (valOf x f)
  | .one t, k, L, B, hB, hk, h => lateT t k L B hB hk h
  | .cons t o e, k, L, B, hB, hk, h => by
    have e1 : L ++ (Expr.cons t o e).toks ++ B = (L ++ t.toks ++ [.ch o.char]) ++ e.toks ++ B := by simp [Expr.toks]
    rw [e1, eGroups, ← Nat.add_assoc]
    have hoc : o.char ≠ '(' := (op_char_ne o).2.2.1
    cases hel : e.lone with
    | true =>
      refine lateE e (k + tGroups t) (L ++ t.toks ++ [.ch o.char]) B hB ?_ (Or.inr ⟨?_, hel⟩)
      · rw [chCount_append, chCount_append, (term_open t).1, chCount_ch, if_neg hoc]
        have : chCount '(' ([] : List (Tok (Filter E))) = 0 := rfl
        omega
      · intro hc
        have := term_atoms t
        rw [atoms_append, atoms_append] at hc
        have h2 := (List.append_eq_nil_iff.mp (List.append_eq_nil_iff.mp hc).1).2
        rw [h2] at this
        simp at this
    | false =>
      have e2 : (L ++ t.toks ++ [.ch o.char]) ++ (flatE e).toks ++ B = L ++ t.toks ++ (.ch o.char :: ((flatE e).toks ++ B)) := by
        simp
      rw [pz_flatE e hel _ _ B hB, e2]
      obtain ⟨j, ts', i1, i2, i3, i4, i5⟩ := lateT t k L (.ch o.char :: ((flatE e).toks ++ B)) (by
          simp only [List.mem_cons, List.mem_append, not_or]
          refine ⟨?_, flat_no_open e _ (Or.inl rfl), hB⟩
          intro h
          injection h with h
          exact hoc h.symm) hk (by
        simp only [Expr.late, Expr.lone, hel, Bool.or_false] at h
        exact h)
      refine ⟨j, ts', i1, i2, i3, i4, ?_⟩
      intro x hx
      have hflat := (flatE_val x e (fun f hf => hx f (mem_atoms_l _ (mem_atoms_r _ hf)))).1
      refine i5 x ?_
      intro f hf
      simp only [atoms_append, atoms, List.mem_append] at hf
      rcases hf with (hf | hf) | hf | hf
      · exact hx f (mem_atoms_l _ (mem_atoms_l _ (mem_atoms_l _ (mem_atoms_l _ hf))))
      · exact hx f (mem_atoms_l _ (mem_atoms_l _ (mem_atoms_l _ (mem_atoms_r _ hf))))
      · exact hflat f hf
      · exact hx f (mem_atoms_r _ hf)
end

/-! ## The theorem -/

/-- Not a space. -/
def notSpace (c : Char) : Bool := decide (c ≠ ' ')

theorem operands_unspaced (ts : List (Tok A)) : operands (unspaced ts) = (operands ts).map (·.filter notSpace) := by
  induction ts with
  | nil => rfl
  | cons x s ih =>
    cases x with
    | atom a =>
      have : unspaced (.atom a :: s) = .atom a :: unspaced s := rfl
      rw [this]; simp [operands, ih]
    | ch d =>
      obtain ⟨o, os, e⟩ := operands_cons s
      by_cases hd : d = ' '
      · subst hd
        have : unspaced (Tok.ch ' ' :: s) = unspaced s := rfl
        rw [this, ih]; simp [operands, e, notSpace]
      · have : unspaced (Tok.ch d :: s) = .ch d :: unspaced s := by
          unfold unspaced
          rw [List.filter_cons_of_pos]
          split
          · rename_i h; injection h with h; exact absurd h hd
          · rfl
        rw [this]; simp [operands, ih, e, notSpace, hd]

theorem operands_unclosed (ts : List (Tok A)) :
    operands (unclosed ts) = (operands ts).map (·.filter (fun c => decide (c ≠ ')'))) := by
  induction ts with
  | nil => rfl
  | cons x s ih =>
    cases x with
    | atom a =>
      have : unclosed (.atom a :: s) = .atom a :: unclosed s := rfl
      rw [this]; simp [operands, ih]
    | ch d =>
      obtain ⟨o, os, e⟩ := operands_cons s
      by_cases hd : d = ')'
      · subst hd
        have : unclosed (Tok.ch ')' :: s) = unclosed s := rfl
        rw [this, ih]; simp [operands, e]
      · have : unclosed (Tok.ch d :: s) = .ch d :: unclosed s := by
          unfold unclosed
          rw [List.filter_cons_of_pos]
          split
          · rename_i h; injection h with h; exact absurd h hd
          · rfl
        rw [this]; simp [operands, ih, e, hd]

theorem atoms_unclosed (ts : List (Tok A)) : atoms (unclosed ts) = atoms ts := by
  induction ts with
  | nil => rfl
  | cons x s ih =>
    cases x with
    | atom a =>
      have : unclosed (.atom a :: s) = .atom a :: unclosed s := rfl
      rw [this]; simp [atoms, ih]
    | ch d =>
      by_cases hd : d = ')'
      · subst hd
        have : unclosed (Tok.ch ')' :: s) = unclosed s := rfl
        rw [this, ih]; rfl
      · have : unclosed (Tok.ch d :: s) = .ch d :: unclosed s := by
          unfold unclosed
          rw [List.filter_cons_of_pos]
          split
          · rename_i h; injection h with h; exact absurd h hd
          · rfl
        rw [this]; simp [atoms, ih]

/-- The checks of the constructor pass for a written expression. -/
theorem combined_pz (e : Expr (Filter E)) (ts : List (Tok (Filter E))) (hts : unspaced ts = e.toks) :
    stripped notSpace (combined (atoms ts) (operands ts)) = pz (eGroups e) e.toks := by
  have hlen : (atoms ts).length ≠ 0 := by
    have := expr_atoms e
    rw [← atoms_unspaced, hts]; omega
  have c1 := chCount_unspaced '(' (by decide) ts
  have c2 := chCount_unspaced ')' (by decide) ts
  rw [hts] at c1 c2
  obtain ⟨o1, o2⟩ := expr_open e
  have hany : (operands ts).any (fun op => op.any
      (fun c => decide (c ∉ operators ∧ c ∉ [' ', '(', ')']))) = false := by
    rw [List.any_eq_false]
    intro op hop
    rw [Bool.not_eq_true, List.any_eq_false]
    intro c hc
    rw [Bool.not_eq_true]
    apply decide_eq_false
    rintro ⟨n1, n2⟩
    have hm := mem_operands hop hc
    have hsp : c ≠ ' ' := by intro h; apply n2; rw [h]; decide
    have := mem_unspaced hsp hm
    rw [hts] at this
    rcases expr_chars c e this with h | h
    · exact n1 h
    · apply n2; exact List.mem_cons_of_mem _ h
  have hcomb : combined (atoms ts) (operands ts) = parens (eGroups e) (atoms ts) (operands ts) := by
    unfold combined
    rw [if_neg hlen, if_neg (by rw [operands_length]; simp), hany, if_neg (by simp)]
    show (if chCount '(' ts ≠ chCount ')' ts then _ else parens (chCount '(' ts) _ _) = _
    rw [if_neg (by omega), ← c1, o1]
  rw [hcomb, ← parens_strip notSpace (by decide) (by decide) (by decide), ← operands_unspaced, hts]
  unfold pz
  rw [← hts, atoms_unspaced]

/-- C37, exactly: what every filter expression — filters combined by `~`, `&`, `^`, `|` and parentheses, of any depth
and with spaces anywhere — does.  Call a parenthesised group of one term lone.

* If no lone group has a filter to its left, the expression is accepted and a node is selected exactly when the
  expression *without the parentheses and negations to the left of the lone group* (`spill`) is true.  (If there is
  no lone group, `spill` changes nothing.)
* If some lone group has a filter to its left, the expression never works: it is refused with `ValueError`, or
  every evaluation of it raises `TypeError`. -/
theorem C37_exact (e : Expr (Filter E)) (ts : List (Tok (Filter E))) (hts : unspaced ts = e.toks) :
    (e.late = false → ∃ fs os, combined (atoms ts) (operands ts) = .ok (fs, os) ∧
      ∀ (x : E) (val : Filter E → Bool), (∀ f ∈ atoms ts, f x = .ok (val f)) → func fs os x = .ok (e.spill.eval val)) ∧
    (e.late = true → combined (atoms ts) (operands ts) = .error .valueError ∨
      ∃ fs os, combined (atoms ts) (operands ts) = .ok (fs, os) ∧
        ∀ (x : E), (∀ f ∈ atoms ts, ∃ b, f x = .ok b) → func fs os x = .error .typeError) := by
  have hpz := combined_pz e ts hts
  have hat : atoms ts = atoms e.toks := by rw [← hts, atoms_unspaced]
  -- from the text without spaces back to the text
  have back : ∀ {fs os}, pz (eGroups e) e.toks = .ok (fs, os) → ∃ os', combined (atoms ts) (operands ts) = .ok (fs, os') ∧
      func fs os' = func fs os := by
    intro fs os h
    rw [← hpz] at h
    cases hc : combined (atoms ts) (operands ts) with
    | error v => rw [hc] at h; cases h
    | ok p =>
      rw [hc] at h
      simp only [stripped, Except.ok.injEq, Prod.mk.injEq] at h
      obtain ⟨h1, h2⟩ := h
      refine ⟨p.2, by rw [← h1], ?_⟩
      rw [← h2]
      exact (func_strip notSpace (by decide) fs p.2).symm
  refine ⟨?_, ?_⟩
  · intro hl
    -- the value of the expression without what is dropped
    have hspill : ∃ ts', pz (eGroups e) e.toks = .ok (atoms ts', operands ts') ∧ unclosed ts' = (flatE e.spill).toks ∧
        atoms e.spill.toks = atoms e.toks := by
      cases hee : e.early with
      | false =>
        rw [spillE_id e hee]
        have := pz_flatE e (not_loneE e hl hee) 0 [] [] (by simp)
        simp only [Nat.zero_add, List.nil_append, List.append_nil] at this
        refine ⟨(flatE e).toks, ?_, unclosed_self (flat_no_open _ _ (Or.inr rfl)), rfl⟩
        rw [this]; rfl
      | true =>
        obtain ⟨ts', i1, i2, i3⟩ := pz_spillE e hl hee 0 [] [] (by simp)
        simp only [Nat.zero_add, List.map_nil, List.nil_append, List.append_nil] at i1
        refine ⟨ts', i1, i3, ?_⟩
        exact spill_atomsE e
    obtain ⟨ts', h1, h2, h3⟩ := hspill
    obtain ⟨os', b1, b2⟩ := back h1
    refine ⟨_, _, b1, ?_⟩
    intro x val hv
    have hv' : ∀ f ∈ atoms e.toks, f x = .ok (valOf x f) := by
      intro f hf
      have := hv f (by rw [hat]; exact hf)
      rw [this, valOf_eq this]
    rw [b2, ← func_strip (fun c => decide (c ≠ ')')) (by decide), ← operands_unclosed, h2, ← atoms_unclosed, h2]
    obtain ⟨f1, f2⟩ := flatE_val x e.spill (by rw [h3]; exact hv')
    rw [flat_func x (valOf x) (flatE e.spill) (flatE_groups _) _ (toks_unspaced _) f1]
    have he : e.spill.values (valOf x) = e.spill.values val := expr_congr _ _ _ (fun a ha => by
      rw [h3, ← hat] at ha
      exact valOf_eq (hv a ha))
    simp only [Expr.eval, f2, he]
  · intro hl
    obtain ⟨j, ts', i1, i2, i3, i4, i5⟩ := lateE e 0 [] [] (by simp) (Nat.le_refl _) (Or.inl hl)
    simp only [Nat.zero_add, List.nil_append, List.append_nil] at i1 i5
    rcases gapped_error j ts' i2 i4 with h | ⟨fs, os, g1, g2⟩
    · left
      rw [i1, h] at hpz
      cases hc : combined (atoms ts) (operands ts) with
      | error v => rw [hc] at hpz; exact hpz
      | ok p => rw [hc] at hpz; cases hpz
    · right
      obtain ⟨os', b1, b2⟩ := back (i1.trans g1)
      refine ⟨fs, os', b1, ?_⟩
      intro x hx
      rw [b2]
      refine g2 x ?_ (Or.inl i3)
      intro f hf
      have := i5 x (fun f hf => by
        obtain ⟨b, hb⟩ := hx f (by rw [hat]; exact hf)
        rw [hb, valOf_eq hb]) f hf
      exact Or.inl ⟨_, this⟩

/-- `[a] & ([b])` has a lone group with a filter to its left. -/
example : (Expr.cons (.atom 0 'a') .and (.one (.group 0 (.one (.atom 0 'b'))))).late = true := rfl
/-- `~(~([a]) | [b]) & [c]` has none, and is read as `[a] | [b] & [c]`. -/
example : (Expr.cons (.group 1 (.cons (.group 1 (.one (.atom 0 'a'))) .or (.one (.atom 0 'b')))) .and
      (.one (.atom 0 'c'))).late = false ∧
    (Expr.cons (.group 1 (.cons (.group 1 (.one (.atom 0 'a'))) .or (.one (.atom 0 'b')))) .and
      (.one (.atom 0 'c'))).spill =
    .cons (.atom 0 'a') .or (.cons (.atom 0 'b') .and (.one (.atom 0 'c'))) := ⟨rfl, rfl⟩
/-- `([a] | [b]) & ([c])` is refused: the dropped text holds the `)` of the first group. -/
example : combined (atoms [.ch '(', .atom (constF true), .ch '|', .atom (constF true), .ch ')', .ch '&', .ch '(',
      .atom (constF true), .ch ')'])
    (operands [.ch '(', .atom (constF true), .ch '|', .atom (constF true), .ch ')', .ch '&', .ch '(',
      .atom (constF true), .ch ')']) = .error .valueError := rfl

mutual
theorem big_not_loneT : ∀ t : Term A, t.Big → t.lone = false
  | .atom _ _, _ => rfl
  | .group _ e, h => by
    cases e with
    | one t => simp [Term.Big] at h
    | cons t o e =>
      simp only [Term.Big] at h
      simp only [Term.lone, Expr.isOne, Bool.false_or]
      exact big_not_loneE _ (by simpa using h)
theorem big_not_loneE : ∀ e : Expr A, e.Big → e.lone = false
  | .one t, h => big_not_loneT t h
  | .cons t o e, h => by
    simp only [Expr.Big] at h
    simp only [Expr.lone, big_not_loneT t h.1, big_not_loneE e h.2, Bool.or_false]
end

end Pawpaw.Props
