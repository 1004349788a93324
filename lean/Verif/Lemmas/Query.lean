import Verif.Props.QueryText
import Verif.Model.Query
import Verif.Spec.QueryParse
/-!
# Lemmas on query parsing and evaluation
-/
set_option linter.unusedSectionVars false
namespace Pawpaw.Props
open Pawpaw Pawpaw.Query Pawpaw.Util Pawpaw.Ecf QuerySpec UtilSpec

/-! ## Runs -/

section
variable {τ σ ρ : Type}

theorem Run.ext' {a b : Run τ} (h1 : a.out = b.out) (h2 : a.exc = b.exc) : a = b := by
  cases a; cases b; simp at h1 h2; rw [h1, h2]

theorem bind_single (x : τ) (f : τ → Run σ) : (⟨[x], none⟩ : Run τ).bind f = f x := by
  unfold Run.bind Run.bindList
  apply Run.ext'
  · split <;> simp_all [Run.bindList]
  · split <;> simp_all [Run.bindList]

theorem bindList_append (f : τ → Run σ) (e : Option PyErr) (l : List τ) (m : List τ) :
    Run.bindList f e (l ++ m) = match (Run.bindList f none l).exc with
      | some err => ⟨(Run.bindList f none l).out, some err⟩
      | none => ⟨(Run.bindList f none l).out ++ (Run.bindList f e m).out, (Run.bindList f e m).exc⟩ := by
  induction l with
  | nil => rfl
  | cons x l ih =>
    rw [List.cons_append, Run.bindList, Run.bindList]
    cases hx : (f x).exc with
    | some err => rfl
    | none =>
      simp only
      rw [ih]
      cases h2 : (Run.bindList f none l).exc with
      | some err => rfl
      | none => simp [List.append_assoc]

theorem bindList_exc (f : τ → Run σ) (e : Option PyErr) (l : List τ) :
    Run.bindList f e l = match (Run.bindList f none l).exc with
      | some err => ⟨(Run.bindList f none l).out, some err⟩
      | none => ⟨(Run.bindList f none l).out, e⟩ := by
  have := bindList_append f e l []
  rw [List.append_nil] at this
  rw [this]
  cases (Run.bindList f none l).exc with
  | some err => rfl
  | none => simp [Run.bindList]

theorem bind_assoc (r : Run τ) (f : τ → Run σ) (g : σ → Run ρ) :
    (r.bind f).bind g = r.bind (fun x => (f x).bind g) := by
  unfold Run.bind
  generalize r.out = l
  generalize r.exc = e
  induction l with
  | nil => rfl
  | cons x l ih =>
    simp only [Run.bindList]
    cases hx : (f x).exc with
    | some err =>
      simp only
      rw [bindList_exc g (some err) (f x).out]
      cases hg : (Run.bindList g none (f x).out).exc with
      | some err2 => rfl
      | none => rfl
    | none =>
      simp only
      rw [bindList_append, ih]
      cases hg : (Run.bindList g none (f x).out).exc with
      | some err2 => rfl
      | none => rfl

theorem filterList_append (f : τ → Except PyErr Bool) (e : Option PyErr) (l m : List τ) :
    Run.filterList f e (l ++ m) = match (Run.filterList f none l).exc with
      | some err => ⟨(Run.filterList f none l).out, some err⟩
      | none => ⟨(Run.filterList f none l).out ++ (Run.filterList f e m).out, (Run.filterList f e m).exc⟩ := by
  induction l with
  | nil => rfl
  | cons x l ih =>
    rw [List.cons_append, Run.filterList, Run.filterList]
    cases hx : f x with
    | error err => rfl
    | ok b =>
      cases b with
      | false => simpa using ih
      | true =>
        simp only [ih, Run.yield]
        cases h2 : (Run.filterList f none l).exc with
        | some err => rfl
        | none => rfl

theorem filterList_exc (f : τ → Except PyErr Bool) (e : Option PyErr) (l : List τ) :
    Run.filterList f e l = match (Run.filterList f none l).exc with
      | some err => ⟨(Run.filterList f none l).out, some err⟩
      | none => ⟨(Run.filterList f none l).out, e⟩ := by
  have := filterList_append f e l []
  rw [List.append_nil] at this
  rw [this]
  cases (Run.filterList f none l).exc with
  | some err => rfl
  | none => simp [Run.filterList]

theorem filter_bind (f : σ → Except PyErr Bool) (r : Run τ) (g : τ → Run σ) :
    Run.filter f (r.bind g) = r.bind (fun x => Run.filter f (g x)) := by
  unfold Run.bind Run.filter
  generalize r.out = l
  generalize r.exc = e
  induction l with
  | nil => rfl
  | cons x l ih =>
    simp only [Run.bindList]
    cases hx : (g x).exc with
    | some err =>
      simp only
      rw [filterList_exc f (some err) (g x).out]
      cases hg : (Run.filterList f none (g x).out).exc with
      | some err2 => rfl
      | none => rfl
    | none =>
      simp only
      rw [filterList_append, ih]
      cases hg : (Run.filterList f none (g x).out).exc with
      | some err2 => rfl
      | none => rfl

theorem map_bind (f : σ → ρ) (r : Run τ) (g : τ → Run σ) :
    Run.map f (r.bind g) = r.bind (fun x => Run.map f (g x)) := by
  unfold Run.bind Run.map
  generalize r.out = l
  generalize r.exc = e
  induction l with
  | nil => rfl
  | cons x l ih =>
    simp only [Run.bindList]
    cases hx : (g x).exc with
    | some err => rfl
    | none =>
      simp only [← ih, List.map_append]

end

/-! ## Axis texts -/

theorem runLen_stop (c : Char) (n m : Nat) (h : n ≤ m) (rest : List Char) (hr : rest.head? ≠ some c) :
    runLen c m (List.replicate n c ++ rest) = n := by
  have : (List.replicate n c ++ rest).takeWhile (fun d => decide (d = c)) = List.replicate n c := by
    induction n with
    | zero =>
      cases rest with
      | nil => rfl
      | cons d r =>
        have : d ≠ c := by simpa using hr
        simp [List.takeWhile_cons, this]
    | succ n ih => simp [List.replicate_succ, List.takeWhile_cons, ih (by omega)]
  unfold runLen
  rw [this]
  simp; omega

theorem parseKey_text (k : AxisKey) (rest : List Char)
    (h : ∀ c ∈ ['.', '*', '<', '>'], rest.head? ≠ some c) :
    parseKey (keyText k ++ rest) = some (k, (keyText k).length) := by
  have d : ∀ n ≤ 4, runLen '.' 4 (List.replicate n '.' ++ rest) = n :=
    fun n hn => runLen_stop '.' n 4 hn rest (h _ (by simp))
  have s : ∀ n ≤ 3, runLen '*' 3 (List.replicate n '*' ++ rest) = n :=
    fun n hn => runLen_stop '*' n 3 hn rest (h _ (by simp))
  have l : ∀ n ≤ 3, runLen '<' 3 (List.replicate n '<' ++ rest) = n :=
    fun n hn => runLen_stop '<' n 3 hn rest (h _ (by simp))
  have g : ∀ n ≤ 3, runLen '>' 3 (List.replicate n '>' ++ rest) = n :=
    fun n hn => runLen_stop '>' n 3 hn rest (h _ (by simp))
  have d1 := d 1 (by omega)
  have d2 := d 2 (by omega)
  have d3 := d 3 (by omega)
  have d4 := d 4 (by omega)
  have s1 := s 1 (by omega)
  have s2 := s 2 (by omega)
  have s3 := s 3 (by omega)
  have l1 := l 1 (by omega)
  have l2 := l 2 (by omega)
  have l3 := l 3 (by omega)
  have g1 := g 1 (by omega)
  have g2 := g 2 (by omega)
  have g3 := g 3 (by omega)
  have hlt : ∀ r, rest ≠ '<' :: r := by
    intro r hr
    exact h '<' (by simp) (by rw [hr]; rfl)
  simp only [List.replicate, List.cons_append, List.nil_append] at d1 d2 d3 d4 s1 s2 s3 l1 l2 l3 g1 g2 g3
  cases k <;> simp only [keyText, List.cons_append, List.nil_append, parseKey, d1, d2, d3, d4, s1, s2, s3, l1, l2,
    l3, g1, g2, g3] <;> try rfl

theorem parseAxis_text (plus : Bool) (a : Axis) (rest : List Char)
    (h : ∀ c ∈ ['.', '*', '<', '>', '!'], rest.head? ≠ some c) :
    parseAxis (axisText plus a ++ rest) = .ok (a, (axisText plus a).length) := by
  obtain ⟨k, rev, os⟩ := a
  have hos : ∀ c ∈ ['.', '*', '<', '>'], (orSelfText os ++ rest).head? ≠ some c := by
    intro c hc
    cases os with
    | no =>
      refine h c ?_
      simp only [List.mem_cons, List.not_mem_nil, or_false] at hc ⊢
      rcases hc with hc | hc | hc | hc <;> simp [hc]
    | ifEmpty =>
      simp only [List.mem_cons, List.not_mem_nil, or_false] at hc
      rcases hc with hc | hc | hc | hc <;> rw [hc] <;> simp [orSelfText]
    | always =>
      simp only [List.mem_cons, List.not_mem_nil, or_false] at hc
      rcases hc with hc | hc | hc | hc <;> rw [hc] <;> simp [orSelfText]
  have hk := parseKey_text k (orSelfText os ++ rest) hos
  have hr : ∀ n, (n = 0 ∧ os = .no ∨ n = 1 ∧ os = .ifEmpty ∨ n = 2 ∧ os = .always) →
      runLen '!' 2 (orSelfText os ++ rest) = n := by
    intro n hn
    rcases hn with ⟨rfl, rfl⟩ | ⟨rfl, rfl⟩ | ⟨rfl, rfl⟩
    · exact runLen_stop '!' 0 2 (by omega) rest (h _ (by simp))
    · exact runLen_stop '!' 1 2 (by omega) rest (h _ (by simp))
    · exact runLen_stop '!' 2 2 (by omega) rest (h _ (by simp))
  have hne : ∃ c t, keyText k = c :: t ∧ c ≠ '+' ∧ c ≠ '-' := by
    cases k <;> exact ⟨_, _, rfl, by decide, by decide⟩
  obtain ⟨c, t, hkt, hc1, hc2⟩ := hne
  have key : ∀ (pre p : List Char), p = pre ++ (keyText k ++ (orSelfText os ++ rest)) →
      orderLen p = pre.length → decide (p.head? = some '-') = rev →
      parseAxis p = .ok (⟨k, rev, os⟩, (pre ++ keyText k ++ orSelfText os).length) := by
    intro pre p hp ho hd
    unfold parseAxis
    simp only [ho, hd]
    have e1 : p.drop pre.length = keyText k ++ (orSelfText os ++ rest) := by rw [hp, List.drop_left]
    have e2 : p.drop (pre.length + (keyText k).length) = orSelfText os ++ rest := by
      rw [← List.drop_drop, e1, List.drop_left]
    rw [e1, hk]
    simp only
    rw [e2]
    cases os with
    | no => rw [hr 0 (by simp)]; simp [orSelfText, Nat.add_assoc]
    | ifEmpty => rw [hr 1 (by simp)]; simp [orSelfText, Nat.add_assoc]
    | always => rw [hr 2 (by simp)]; simp [orSelfText, Nat.add_assoc]
  cases rev with
  | true =>
    have := key ['-'] (axisText plus ⟨k, true, os⟩ ++ rest) (by simp [axisText]) (by simp [axisText, orderLen]) (by simp [axisText])
    rw [this]; simp [axisText]
  | false =>
    cases plus with
    | true =>
      have := key ['+'] (axisText true ⟨k, false, os⟩ ++ rest) (by simp [axisText]) (by simp [axisText, orderLen])
        (by simp [axisText])
      rw [this]; simp [axisText]
    | false =>
      have := key [] (axisText false ⟨k, false, os⟩ ++ rest) (by simp [axisText])
        (by simp [axisText, hkt, orderLen, hc1, hc2])
        (by simp [axisText, hkt, hc2])
      rw [this]; simp [axisText]

/-! ## Literal text inside brackets -/

/-- Characters with a meaning for the parsers. -/
def structuralChars : List Char := ['\\', '[', ']', '{', '}', '/']

/-- Text in which every structural character is escaped. -/
inductive Lit : List Char → Prop where
  | nil : Lit []
  | plain (c : Char) (s : List Char) : c ∉ structuralChars → Lit s → Lit (c :: s)
  | esc (c : Char) (s : List Char) : Lit s → Lit ('\\' :: c :: s)

theorem Lit.append {a b : List Char} (ha : Lit a) (hb : Lit b) : Lit (a ++ b) := by
  induction ha with
  | nil => exact hb
  | plain c s h _ ih => exact .plain c _ h ih
  | esc c s _ ih => exact .esc c _ ih

theorem lit_escape (s : List Char) : Lit (escape s) := by
  rw [C41_escape_spec]
  induction s with
  | nil => exact .nil
  | cons c s ih =>
    rw [List.flatMap_cons]
    refine Lit.append ?_ ih
    unfold escChar
    split
    · exact .esc c [] .nil
    · rename_i h
      refine .plain c [] ?_ .nil
      simp only [structuralChars, List.mem_cons, List.not_mem_nil, or_false]
      intro h2
      apply h
      rcases h2 with h2 | h2 | h2 | h2 | h2 | h2 <;> simp [h2]

theorem lit_of_plain (s : List Char) (h : ∀ c ∈ s, c ∉ structuralChars) : Lit s := by
  induction s with
  | nil => exact .nil
  | cons c s ih => exact .plain c s (h c (by simp)) (ih (fun d hd => h d (by simp [hd])))

theorem not_structural {c : Char} (h : c ∉ structuralChars) :
    c ≠ '\\' ∧ c ≠ '[' ∧ c ≠ ']' ∧ c ≠ '{' ∧ c ≠ '}' ∧ c ≠ '/' := by
  simp only [structuralChars, List.mem_cons, List.not_mem_nil, or_false, not_or] at h
  exact h

theorem goPhr_lit {b : List Char} (h : Lit b) : ∀ (cnt : Int) (acc rest : List Char),
    goPhr false cnt acc (b ++ rest) = goPhr false cnt (acc ++ b) rest := by
  induction h with
  | nil => intro cnt acc rest; simp
  | plain c s hc _ ih =>
    intro cnt acc rest
    obtain ⟨h1, h2, h3, h4, h5, h6⟩ := not_structural hc
    rw [List.cons_append, goPhr]
    simp only [Bool.false_eq_true, if_false, h1, h4, h5, h6, false_and]
    rw [ih]; simp
  | esc c s _ ih =>
    intro cnt acc rest
    rw [List.cons_append, List.cons_append, goPhr]
    simp only [Bool.false_eq_true, if_false, if_true]
    rw [goPhr]
    simp only [if_true]
    rw [ih]; simp

theorem findUnescapedLoop_lit {b : List Char} (h : Lit b) (off : Int) : ∀ (i : Int) (rest : List Char),
    findUnescapedLoop ['{'] '\\' off false i (b ++ rest) =
      findUnescapedLoop ['{'] '\\' off false (i + b.length) rest := by
  induction h with
  | nil => intro i rest; simp
  | plain c s hc _ ih =>
    intro i rest
    obtain ⟨h1, h2, h3, h4, h5, h6⟩ := not_structural hc
    rw [List.cons_append, findUnescapedLoop]
    simp only [Bool.false_eq_true, if_false, h1, List.mem_singleton, h4]
    rw [ih]
    congr 1
    simp; omega
  | esc c s _ ih =>
    intro i rest
    rw [List.cons_append, List.cons_append, findUnescapedLoop]
    simp only [Bool.false_eq_true, if_false, if_true]
    rw [findUnescapedLoop]
    simp only [if_true]
    rw [ih]
    congr 1
    simp; omega

theorem countUnescaped_lit {b : List Char} (h : Lit b) (c : Char) (hc : c = '[' ∨ c = ']') :
    ∀ rest, countUnescaped c false (b ++ rest) = countUnescaped c false rest := by
  have hcb : '\\' ≠ c := by rcases hc with hc | hc <;> rw [hc] <;> decide
  induction h with
  | nil => intro rest; rfl
  | plain d s hd _ ih =>
    intro rest
    obtain ⟨h1, h2, h3, h4, h5, h6⟩ := not_structural hd
    have : d ≠ c := by rcases hc with hc | hc <;> rw [hc] <;> assumption
    rw [List.cons_append, countUnescaped]
    simp [this, h1, ih]
  | esc d s _ ih =>
    intro rest
    rw [List.cons_append, List.cons_append, countUnescaped]
    simp only [Bool.not_false, Bool.true_and, Bool.and_true, decide_eq_false hcb, Bool.false_eq_true, if_false,
      decide_true]
    rw [countUnescaped]
    simp [ih]

theorem balancedLen_lit {b : List Char} (h : Lit b) : ∀ (prev : Bool) (rest : List Char),
    (b = [] → prev = false) → b.getLast? ≠ some '\\' →
    balancedLen '[' ']' 0 prev (b ++ ']' :: rest) = some (b.length + 1) := by
  induction h with
  | nil => intro prev rest hp _; rw [hp rfl]; rfl
  | plain c s hc hs ih =>
    intro prev rest _ hl
    obtain ⟨h1, h2, h3, h4, h5, h6⟩ := not_structural hc
    have hl' : s.getLast? ≠ some '\\' := by
      cases s with
      | nil => simp
      | cons d s => simpa [List.getLast?_cons_cons] using hl
    rw [List.cons_append, balancedLen]
    simp only [decide_eq_false h3, decide_eq_false h2, decide_eq_false h1, Bool.and_false, Bool.false_eq_true, if_false]
    rw [ih false rest (fun _ => rfl) hl']
    simp
  | esc c s hs ih =>
    intro prev rest _ hl
    have hl' : s.getLast? ≠ some '\\' := by
      cases s with
      | nil => simp
      | cons d s => simpa [List.getLast?_cons_cons] using hl
    rw [List.cons_append, List.cons_append, balancedLen]
    simp only [show decide ('\\' = ']') = false from by decide, show decide ('\\' = '[') = false from by decide,
      Bool.and_false, Bool.false_eq_true, if_false, decide_true]
    rw [balancedLen]
    simp only [Bool.not_true, Bool.false_and, Bool.false_eq_true, if_false]
    rw [ih _ rest ?_ hl']
    · simp
    · intro hs
      subst hs
      apply decide_eq_false
      intro hc
      subst hc
      exact hl rfl

theorem groups_skip (o c : Char) (b : List Char) : ∀ (prev : Bool) (i : Nat),
    groups o c b.length prev i b = [] := by
  induction b with
  | nil => intro prev i; rfl
  | cons d b ih => intro prev i; rw [List.length_cons, groups, ih]

end Pawpaw.Props
