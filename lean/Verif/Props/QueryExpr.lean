import Verif.Props.QuerySub
import Verif.Props.EcfExact
import Verif.Spec.QueryExpr
/-!
# C37, C75: expressions of filters and of sub-queries, as texts
-/
set_option linter.unusedSectionVars false
namespace Pawpaw.Props
open Pawpaw Pawpaw.Query Pawpaw.Util Pawpaw.Ecf QuerySpec UtilSpec TreeSpec PyStr EcfSpec

/-! ## Expressions with other atoms -/

section Map
variable {A B : Type}

def mapTok (f : A → B) : Tok A → Tok B
  | .ch c => .ch c
  | .atom a => .atom (f a)

mutual
def mapT (f : A → B) : Term A → Term B
  | .atom n a => .atom n (f a)
  | .group n e => .group n (mapE f e)
def mapE (f : A → B) : Expr A → Expr B
  | .one t => .one (mapT f t)
  | .cons t o e => .cons (mapT f t) o (mapE f e)
end

mutual
theorem mapT_toks (f : A → B) : ∀ t : Term A, (mapT f t).toks = t.toks.map (mapTok f)
  | .atom n a => by simp [mapT, Term.toks, mapTok]
  | .group n e => by simp [mapT, Term.toks, mapTok, mapE_toks f e]
theorem mapE_toks (f : A → B) : ∀ e : Expr A, (mapE f e).toks = e.toks.map (mapTok f)
  | .one t => by simp [mapE, Expr.toks, mapT_toks f t]
  | .cons t o e => by simp [mapE, Expr.toks, mapT_toks f t, mapE_toks f e, mapTok]
end

theorem mapE_isOne (f : A → B) (e : Expr A) : (mapE f e).isOne = e.isOne := by cases e <;> rfl

mutual
theorem mapT_lone (f : A → B) : ∀ t : Term A, (mapT f t).lone = t.lone
  | .atom n a => rfl
  | .group n e => by simp [mapT, Term.lone, mapE_isOne, mapE_lone f e]
theorem mapE_lone (f : A → B) : ∀ e : Expr A, (mapE f e).lone = e.lone
  | .one t => by simp [mapE, Expr.lone, mapT_lone f t]
  | .cons t o e => by simp [mapE, Expr.lone, mapT_lone f t, mapE_lone f e]
end

mutual
theorem mapT_late (f : A → B) : ∀ t : Term A, (mapT f t).late = t.late
  | .atom n a => rfl
  | .group n e => by simp [mapT, Term.late, mapE_late f e]
theorem mapE_late (f : A → B) : ∀ e : Expr A, (mapE f e).late = e.late
  | .one t => by simp [mapE, Expr.late, mapT_late f t]
  | .cons t o e => by simp [mapE, Expr.late, mapT_late f t, mapE_lone f e]
end

mutual
theorem mapT_early (f : A → B) : ∀ t : Term A, (mapT f t).early = t.early
  | .atom n a => rfl
  | .group n e => by simp [mapT, Term.early, mapE_isOne, mapE_early f e]
theorem mapE_early (f : A → B) : ∀ e : Expr A, (mapE f e).early = e.early
  | .one t => by simp [mapE, Expr.early, mapT_early f t]
  | .cons t o e => by simp [mapE, Expr.early, mapT_early f t]
end

theorem mapE_append (f : A → B) : ∀ (e : Expr A) (o : Op) (e' : Expr A),
    mapE f (e.append o e') = (mapE f e).append o (mapE f e')
  | .one t, o, e' => rfl
  | .cons t p x, o, e' => by simp [mapE, Expr.append, mapE_append f x]

mutual
theorem mapT_spill (f : A → B) : ∀ t : Term A, (mapT f t).spill = mapE f t.spill
  | .atom n a => rfl
  | .group n e => by
    simp only [mapT, Term.spill, mapE_isOne, mapE_early]
    split
    · exact mapE_spill f e
    · rfl
theorem mapE_spill (f : A → B) : ∀ e : Expr A, (mapE f e).spill = mapE f e.spill
  | .one t => by simp [mapE, Expr.spill, mapT_spill f t]
  | .cons t o e => by simp [mapE, Expr.spill, mapT_spill f t, mapE_append]
end

mutual
theorem mapT_eval (f : A → B) (val : B → Bool) : ∀ t : Term A, (mapT f t).eval val = t.eval (fun a => val (f a))
  | .atom n a => rfl
  | .group n e => by simp [mapT, Term.eval, mapE_values f val e]
theorem mapE_values (f : A → B) (val : B → Bool) : ∀ e : Expr A, (mapE f e).values val = e.values (fun a => val (f a))
  | .one t => by simp [mapE, Expr.values, mapT_eval f val t]
  | .cons t o e => by simp [mapE, Expr.values, mapT_eval f val t, mapE_values f val e]
end

theorem mapE_eval (f : A → B) (val : B → Bool) (e : Expr A) : (mapE f e).eval val = e.eval (fun a => val (f a)) := by
  simp [Expr.eval, mapE_values]

theorem unspaced_keep (t : Tok A) (h : t ≠ .ch ' ') (ts : List (Tok A)) : unspaced (t :: ts) = t :: unspaced ts := by
  unfold unspaced
  rw [List.filter_cons_of_pos]
  split
  · exact absurd rfl h
  · rfl

theorem unspaced_drop (ts : List (Tok A)) : unspaced (.ch ' ' :: ts) = unspaced ts := rfl

theorem unspaced_map (f : A → B) (ts : List (Tok A)) : unspaced (ts.map (mapTok f)) = (unspaced ts).map (mapTok f) := by
  induction ts with
  | nil => rfl
  | cons t ts ih =>
    cases t with
    | atom a => rw [List.map_cons, mapTok, unspaced_keep _ (by simp), unspaced_keep _ (by simp), ih]; rfl
    | ch c =>
      by_cases h : c = ' '
      · subst h; rw [List.map_cons, mapTok, unspaced_drop, unspaced_drop, ih]
      · rw [List.map_cons, mapTok, unspaced_keep _ (by simp [h]), unspaced_keep _ (by simp [h]), ih]; rfl

theorem atoms_map (f : A → B) (ts : List (Tok A)) : atoms (ts.map (mapTok f)) = (atoms ts).map f := by
  induction ts with
  | nil => rfl
  | cons t ts ih => cases t <;> simp [mapTok, atoms, ih]

end Map

/-! ## Reading an expression -/

/-- The characters operands are made of. -/
def opChar (c : Char) : Prop := c ∈ ['~', '&', '^', '|', '(', ')', ' ']

/-- A text that the scanners take for one group. -/
structure ClosedGroup (o c : Char) (b : List Char) : Prop where
  count : ∃ n, ∀ d, d = o ∨ d = c → ∀ rest, countUnescaped d false (o :: (b ++ c :: rest)) = n + countUnescaped d false rest
  len : ∀ rest, balancedLen o c 0 false (b ++ c :: rest) = some (b.length + 1)

theorem closedGroup_lit {b : List Char} (hb : Lit b) (hl : b.getLast? ≠ some '\\') : ClosedGroup '[' ']' b := by
  refine ⟨⟨1, ?_⟩, fun rest => balancedLen_lit hb false rest (fun _ => rfl) hl⟩
  intro d hd rest
  rw [countUnescaped, show (decide ('[' = '\\') && !false) = false from by decide, countUnescaped_lit hb d hd, countUnescaped,
    show (decide (']' = '\\') && !false) = false from by decide]
  rcases hd with rfl | rfl <;> simp

theorem closedGroup_braced {b : List Char} (hb : Braced b) : ClosedGroup '{' '}' b := by
  obtain ⟨n, hn⟩ := countUnescaped_braced hb
  refine ⟨⟨n + 1, ?_⟩, fun rest => ?_⟩
  · intro d hd rest
    rw [countUnescaped, show (decide ('{' = '\\') && !false) = false from by decide, hn d hd, countUnescaped,
      show (decide ('}' = '\\') && !false) = false from by decide]
    rcases hd with rfl | rfl <;> simp <;> omega
  · rw [balancedLen_braced hb 0 false _ (by simp)]
    simp only [balancedLen, Bool.not_false, Bool.true_and, decide_true, if_true, Option.map_some]
    congr 1; omega

/-- Brackets: the two kinds. -/
def Kinds (o c : Char) : Prop := (o = '[' ∧ c = ']') ∨ (o = '{' ∧ c = '}')

theorem kinds_ne {o c : Char} (h : Kinds o c) : o ≠ '\\' ∧ c ≠ '\\' ∧ isSpace o = false ∧ isSpace c = false ∧
    ∀ d, opChar d → d ≠ o ∧ d ≠ c ∧ d ≠ '\\' := by
  rcases h with ⟨rfl, rfl⟩ | ⟨rfl, rfl⟩ <;>
  · refine ⟨by decide, by decide, by decide, by decide, ?_⟩
    intro d hd
    simp only [opChar, List.mem_cons, List.not_mem_nil, or_false] at hd
    rcases hd with h | h | h | h | h | h | h <;> subst h <;> decide

theorem opChar_space {c : Char} (h : opChar c) : isSpace c = true ↔ c = ' ' := by
  simp only [opChar, List.mem_cons, List.not_mem_nil, or_false] at h
  rcases h with h | h | h | h | h | h | h <;> subst h <;> decide

theorem groups_pass (o c : Char) : ∀ (b : List Char) (prev : Bool) (i : Nat) (rest : List Char), b.getLast? ≠ some '\\' → b ≠ [] →
    groups o c b.length prev i (b ++ rest) = groups o c 0 false (i + b.length) rest := by
  intro b
  induction b with
  | nil => intro _ _ _ _ h; exact absurd rfl h
  | cons d b ih =>
    intro prev i rest hl _
    rw [List.length_cons, List.cons_append, groups]
    cases b with
    | nil =>
      have : d ≠ '\\' := by simpa using hl
      simp [this]
    | cons e b =>
      rw [ih _ _ _ (by simpa [List.getLast?_cons_cons] using hl) (by simp)]
      congr 1
      simp only [List.length_cons]; omega

/-- The spans of the groups of a token list. -/
def tokSpans : Nat → List (Tok (List Char)) → List (Nat × Nat)
  | _, [] => []
  | i, .ch _ :: ts => tokSpans (i + 1) ts
  | i, .atom b :: ts => (i, i + (b.length + 2)) :: tokSpans (i + (b.length + 2)) ts

theorem groups_written {o c : Char} (hk : Kinds o c) : ∀ (ts : List (Tok (List Char))) (i : Nat), (∀ d, .ch d ∈ ts → opChar d) →
    (∀ b ∈ atoms ts, ClosedGroup o c b) → groups o c 0 false i (written o c ts) = tokSpans i ts := by
  obtain ⟨ko, kc, _, _, kd⟩ := kinds_ne hk
  intro ts
  induction ts with
  | nil => intro i _ _; rfl
  | cons t ts ih =>
    intro i h1 h2
    cases t with
    | ch d =>
      obtain ⟨n1, n2, n3⟩ := kd d (h1 d (by simp))
      rw [written, groups, decide_eq_false n1, decide_eq_false n3, tokSpans]
      simp only [Bool.and_false, Bool.false_eq_true, if_false]
      exact ih _ (fun d hd => h1 d (by simp [hd])) (fun b hb => h2 b (by simpa [atoms] using hb))
    | atom b =>
      have hb := h2 b (by simp [atoms])
      rw [written, groups, hb.len, tokSpans]
      simp only [Bool.not_false, Bool.true_and, decide_true, if_true]
      have := groups_pass o c (b ++ [c]) false (i + 1) (written o c ts) (by simp [kc]) (by simp)
      simp only [List.append_assoc, List.singleton_append, List.length_append, List.length_singleton] at this
      rw [this, show i + 1 + (b.length + 1) = i + (b.length + 2) from by omega,
        ih _ (fun d hd => h1 d (by simp [hd])) (fun b hb => h2 b (by simp [atoms, hb]))]

theorem count_written {o c : Char} (hk : Kinds o c) : ∀ (ts : List (Tok (List Char))), (∀ d, .ch d ∈ ts → opChar d) →
    (∀ b ∈ atoms ts, ClosedGroup o c b) → countUnescaped o false (written o c ts) = countUnescaped c false (written o c ts) := by
  obtain ⟨ko, kc, _, _, kd⟩ := kinds_ne hk
  intro ts
  induction ts with
  | nil => intro _ _; rfl
  | cons t ts ih =>
    intro h1 h2
    cases t with
    | ch d =>
      obtain ⟨n1, n2, n3⟩ := kd d (h1 d (by simp))
      rw [written, countUnescaped, countUnescaped, decide_eq_false n1, decide_eq_false n2, decide_eq_false n3]
      simp only [Bool.and_false, Bool.false_and, Bool.false_eq_true, if_false]
      rw [ih (fun d hd => h1 d (by simp [hd])) (fun b hb => h2 b (by simpa [atoms] using hb))]
    | atom b =>
      obtain ⟨n, hn⟩ := (h2 b (by simp [atoms])).count
      rw [written, hn o (Or.inl rfl), hn c (Or.inr rfl),
        ih (fun d hd => h1 d (by simp [hd])) (fun b hb => h2 b (by simp [atoms, hb]))]

section Gather
variable {E : Type}

/-- The loop over the groups, on tokens. -/
def gather (o c : Char) (mk : List Char → Except PyErr (Filter E)) : Bool → List Char → List (Tok (List Char)) →
    Except PyErr (List (Filter E) × List (List Char))
  | first, op, [] => .ok ([], if first then [] else [op])
  | first, op, .ch d :: ts => gather o c mk first (op ++ [d]) ts
  | first, op, .atom b :: ts =>
    if !first && decide (strip op = []) then .error .valueError
    else
      match mk (o :: (b ++ [c])) with
      | .error e => .error e
      | .ok f =>
        match gather o c mk false [] ts with
        | .error e => .error e
        | .ok (fs, os) => .ok (f :: fs, strip op :: os)

theorem collect_gather (o c : Char) (mk : List Char → Except PyErr (Filter E)) : ∀ (ts : List (Tok (List Char))) (first : Bool)
    (done op : List Char), collect mk (done ++ op ++ written o c ts) first done.length (tokSpans (done ++ op).length ts) =
      gather o c mk first op ts := by
  intro ts
  induction ts with
  | nil =>
    intro first done op
    simp only [written, tokSpans, collect, gather, List.append_nil, List.drop_left]
  | cons t ts ih =>
    intro first done op
    cases t with
    | ch d =>
      have := ih first done (op ++ [d])
      rw [written, tokSpans, gather, ← this]
      simp [Nat.add_assoc]
    | atom b =>
      have hx := ih false (done ++ op ++ (o :: (b ++ [c]))) []
      have e1 : (List.take (done ++ op).length (done ++ op ++ written o c (.atom b :: ts))).drop done.length = op := by
        rw [List.take_left, List.drop_left]
      have e2 : (List.take ((done ++ op).length + (b.length + 2)) (done ++ op ++ written o c (.atom b :: ts))).drop (done ++ op).length =
          o :: (b ++ [c]) := by
        have : done ++ op ++ written o c (.atom b :: ts) = done ++ op ++ (o :: (b ++ [c])) ++ written o c ts := by
          simp [written]
        rw [this, show (done ++ op).length + (b.length + 2) = (done ++ op ++ (o :: (b ++ [c]))).length from by simp; omega,
          List.take_left, List.drop_left]
      have e3 : done ++ op ++ written o c (.atom b :: ts) = done ++ op ++ (o :: (b ++ [c])) ++ [] ++ written o c ts := by
        simp [written]
      rw [tokSpans, collect]
      simp only [e1, e2]
      rw [gather]
      split
      · rfl
      · cases mk (o :: (b ++ [c])) with
        | error e => rfl
        | ok f =>
          simp only
          rw [e3, show (done ++ op).length + (b.length + 2) = (done ++ op ++ (o :: (b ++ [c]))).length from by simp; omega]
          rw [List.append_nil] at hx
          rw [List.append_nil, hx]
          cases gather o c mk false [] ts <;> rfl

theorem filter_dropWhile (p q : Char → Bool) (h : ∀ c, q c = true → p c = false) (s : List Char) :
    (s.dropWhile q).filter p = s.filter p := by
  induction s with
  | nil => rfl
  | cons c s ih =>
    rw [List.dropWhile_cons]
    split
    · rename_i hc
      rw [ih, List.filter_cons_of_neg (by rw [h c hc]; simp)]
    · rfl

theorem dropWhile_congr_mem {p q : Char → Bool} : ∀ {s : List Char}, (∀ c ∈ s, p c = q c) → s.dropWhile p = s.dropWhile q
  | [], _ => rfl
  | c :: s, h => by
    rw [List.dropWhile_cons, List.dropWhile_cons, h c (by simp), dropWhile_congr_mem (fun d hd => h d (by simp [hd]))]

/-- Stripping an operand removes nothing but spaces. -/
theorem strip_op {op : List Char} (h : ∀ d ∈ op, opChar d) : (strip op).filter (· ≠ ' ') = op.filter (· ≠ ' ') ∧
    ∀ d ∈ strip op, opChar d := by
  have e : ∀ s : List Char, (∀ d ∈ s, opChar d) → s.dropWhile isSpace = s.dropWhile (fun c => decide (c = ' ')) := by
    intro s hs
    apply dropWhile_congr_mem
    intro c hc
    rw [Bool.eq_iff_iff, opChar_space (hs c hc), decide_eq_true_eq]
  have hm : ∀ (s : List Char) d, d ∈ s.dropWhile (fun c => decide (c = ' ')) → d ∈ s :=
    fun s d hd => (List.dropWhile_suffix _).subset hd
  have hf : ∀ s : List Char, (s.dropWhile (fun c => decide (c = ' '))).filter (· ≠ ' ') = s.filter (· ≠ ' ') := by
    intro s
    exact filter_dropWhile (fun c => decide (c ≠ ' ')) _ (by intro c hc; simpa using hc) s
  unfold strip PyStr.stripBy PyStr.lstripBy PyStr.rstripBy
  rw [e op h]
  rw [e _ (by intro d hd; exact h d (hm _ _ (List.mem_reverse.mp hd)))]
  constructor
  · rw [List.filter_reverse, hf, List.filter_reverse, List.reverse_reverse, hf]
  · intro d hd
    exact h d (hm _ _ (List.mem_reverse.mp (hm _ _ (List.mem_reverse.mp hd))))

theorem unspaced_chars {A : Type} (s : List Char) : unspaced (s.map (Tok.ch : Char → Tok A)) = (s.filter (· ≠ ' ')).map Tok.ch := by
  induction s with
  | nil => rfl
  | cons c s ih =>
    by_cases h : c = ' '
    · subst h
      rw [List.filter_cons_of_neg (by simp), List.map_cons, unspaced_drop, ih]
    · rw [List.filter_cons_of_pos (by simpa using h), List.map_cons, List.map_cons, unspaced_keep _ (by simp [h]), ih]

theorem operands_chs {A : Type} (s : List Char) : operands (s.map (Tok.ch : Char → Tok A)) = [s] := by
  induction s with
  | nil => rfl
  | cons c s ih => rw [List.map_cons, operands, ih]

theorem operands_chs_atom {A : Type} (s : List Char) (a : A) (ts : List (Tok A)) :
    operands (s.map Tok.ch ++ .atom a :: ts) = s :: operands ts := by
  induction s with
  | nil => rfl
  | cons c s ih => rw [List.map_cons, List.cons_append, operands, ih]

theorem atoms_chs {A : Type} (s : List Char) (ts : List (Tok A)) : atoms (s.map Tok.ch ++ ts) = atoms ts := by
  induction s with
  | nil => rfl
  | cons c s ih => rw [List.map_cons, List.cons_append, atoms, ih]

/-- Two groups with nothing between them but spaces. -/
def apart : Bool → List (Tok (List Char)) → Bool
  | _, [] => true
  | near, .ch d :: ts => apart (near && decide (d = ' ')) ts
  | near, .atom _ :: ts => !near && apart true ts

theorem strip_blank {op : List Char} (h : ∀ d ∈ op, opChar d) : strip op = [] ↔ op.all (fun d => decide (d = ' ')) = true := by
  obtain ⟨h1, h2⟩ := strip_op h
  constructor
  · intro hs
    rw [hs] at h1
    rw [List.all_eq_true]
    intro d hd
    have := (List.filter_eq_nil_iff.mp h1.symm) d hd
    simpa using this
  · intro ha
    have e : op.dropWhile isSpace = [] := by
      have : ∀ s : List Char, (∀ d ∈ s, isSpace d = true) → s.dropWhile isSpace = [] := by
        intro s
        induction s with
        | nil => intro _; rfl
        | cons d s ih =>
          intro hs
          rw [List.dropWhile_cons, if_pos (hs d (by simp)), ih (fun e he => hs e (by simp [he]))]
      apply this
      intro d hd
      exact (opChar_space (h d hd)).mpr (of_decide_eq_true (List.all_eq_true.mp ha d hd))
    unfold strip PyStr.stripBy PyStr.lstripBy PyStr.rstripBy
    rw [e]; rfl

theorem gather_ok (o c : Char) (mk : List Char → Except PyErr (Filter E)) (F : List Char → Filter E) :
    ∀ (ts : List (Tok (List Char))) (first : Bool) (op : List Char), (∀ d ∈ op, opChar d) → (∀ d, .ch d ∈ ts → opChar d) →
    (∀ b ∈ atoms ts, mk (o :: (b ++ [c])) = .ok (F b)) → (first = true → atoms ts ≠ []) →
    apart (!first && op.all (fun d => decide (d = ' '))) ts = true →
    ∃ ts' : List (Tok (Filter E)), gather o c mk first op ts = .ok (atoms ts', operands ts') ∧
      unspaced ts' = unspaced (op.map Tok.ch ++ ts.map (mapTok F)) := by
  intro ts
  induction ts with
  | nil =>
    intro first op _ _ _ h _
    have : first = false := by
      cases first with
      | false => rfl
      | true => exact absurd rfl (h rfl)
    subst this
    refine ⟨op.map Tok.ch, ?_, by simp⟩
    rw [gather, operands_chs]
    have := atoms_chs op ([] : List (Tok (Filter E)))
    rw [List.append_nil] at this
    rw [this]; rfl
  | cons t ts ih =>
    intro first op ho hc hm hne hap
    cases t with
    | ch d =>
      obtain ⟨ts', h1, h2⟩ := ih first (op ++ [d]) (by
          intro e he
          rcases List.mem_append.mp he with he | he
          · exact ho e he
          · rw [List.mem_singleton.mp he]; exact hc d (by simp))
        (fun e he => hc e (by simp [he])) (fun b hb => hm b (by simpa [atoms] using hb)) (by simpa [atoms] using hne)
        (by
          rw [apart] at hap
          rw [List.all_append]
          simpa [Bool.and_assoc] using hap)
      refine ⟨ts', by rw [gather]; exact h1, ?_⟩
      rw [h2]; simp [mapTok]
    | atom b =>
      rw [apart, Bool.and_eq_true, Bool.not_eq_true'] at hap
      obtain ⟨hb, hap⟩ := hap
      have hns : (!first && decide (strip op = [])) = false := by
        cases first with
        | true => rfl
        | false =>
          simp only [Bool.not_false, Bool.true_and] at hb ⊢
          apply decide_eq_false
          intro h
          rw [(strip_blank ho).mp h] at hb
          cases hb
      obtain ⟨ts', h1, h2⟩ := ih false [] (by simp) (fun e he => hc e (by simp [he])) (fun b hb => hm b (by simp [atoms, hb])) (by simp)
        (by simpa using hap)
      refine ⟨(strip op).map Tok.ch ++ .atom (F b) :: ts', ?_, ?_⟩
      · rw [gather, hns, hm b (by simp [atoms]), h1]
        simp only [Bool.false_eq_true, if_false]
        rw [operands_chs_atom, atoms_chs, atoms]
      · rw [unspaced_append, unspaced_append, unspaced_chars, unspaced_chars, (strip_op ho).1, List.map_cons, mapTok]
        congr 1
        rw [show (Tok.atom (F b) :: ts') = [Tok.atom (F b)] ++ ts' from rfl,
          show (Tok.atom (F b) :: ts.map (mapTok F)) = [Tok.atom (F b)] ++ ts.map (mapTok F) from rfl,
          unspaced_append, unspaced_append, h2]
        simp

theorem ecf_written {o c : Char} (hk : Kinds o c) (mk : List Char → Except PyErr (Filter E)) (F : List Char → Filter E)
    (ts : List (Tok (List Char))) (hc : ∀ d, .ch d ∈ ts → opChar d) (hg : ∀ b ∈ atoms ts, ClosedGroup o c b)
    (hm : ∀ b ∈ atoms ts, mk (o :: (b ++ [c])) = .ok (F b)) (hne : atoms ts ≠ []) (hap : apart false ts = true) :
    ∃ ts' : List (Tok (Filter E)), unspaced ts' = (unspaced ts).map (mapTok F) ∧ ecf o c mk (written o c ts) =
      match combined (atoms ts') (operands ts') with
      | .error e => .error e
      | .ok (fs, os) => .ok (func fs os) := by
  obtain ⟨ts', h1, h2⟩ := gather_ok o c mk F ts true [] (by simp) hc hm (fun _ => hne) (by simpa using hap)
  refine ⟨ts', by rw [h2]; simp [unspaced_map], ?_⟩
  have h3 := collect_gather o c mk ts true [] []
  simp only [List.append_nil, List.nil_append, List.length_nil] at h3
  unfold ecf
  rw [if_neg (by rw [count_written hk ts hc hg]; simp), groups_written hk ts 0 hc hg, h3, h1]
  simp only
  cases combined (atoms ts') (operands ts') <;> rfl

/-! ## Expressions -/

theorem apart_unspaced : ∀ (ts : List (Tok (List Char))) (near : Bool), apart near ts = apart near (unspaced ts) := by
  intro ts
  induction ts with
  | nil => intro near; rfl
  | cons t ts ih =>
    intro near
    cases t with
    | atom b => rw [unspaced_keep _ (by simp), apart, apart, ih]
    | ch c =>
      by_cases h : c = ' '
      · subst h; rw [unspaced_drop, apart, decide_eq_true rfl, Bool.and_true, ih]
      · rw [unspaced_keep _ (by simp [h]), apart, apart, ih]

theorem apart_mono : ∀ {ts : List (Tok (List Char))}, apart true ts = true → apart false ts = true
  | [], _ => rfl
  | .ch c :: ts, h => by
    rw [apart] at h ⊢
    by_cases hc : c = ' '
    · simp only [hc, decide_true, Bool.and_true] at h ⊢; exact apart_mono h
    · simpa [hc] using h
  | .atom b :: ts, h => by simp [apart] at h

theorem apart_tildes (n : Nat) (ts : List (Tok (List Char))) : apart false (List.replicate n (.ch '~') ++ ts) = apart false ts := by
  induction n with
  | zero => simp
  | succ n ih => rw [List.replicate_succ, List.cons_append, apart]; simpa using ih

mutual
theorem apartT : ∀ (t : Term (List Char)) (rest : List (Tok (List Char))), apart true rest = true → apart false (t.toks ++ rest) = true
  | .atom n a, rest, h => by
    rw [Term.toks, List.append_assoc, apart_tildes]
    simpa [apart] using h
  | .group n e, rest, h => by
    rw [Term.toks, List.append_assoc, apart_tildes, List.cons_append, apart, List.append_assoc]
    exact apartE e _ (by rw [List.singleton_append, apart]; simpa using apart_mono h)
theorem apartE : ∀ (e : Expr (List Char)) (rest : List (Tok (List Char))), apart true rest = true → apart false (e.toks ++ rest) = true
  | .one t, rest, h => apartT t rest h
  | .cons t o e, rest, h => by
    rw [Expr.toks, List.append_assoc]
    apply apartT
    rw [List.cons_append, apart]
    have : o.char ≠ ' ' := (op_char_ne o).2.1
    simpa [this] using apartE e rest h
end

theorem expr_opChars {ts : List (Tok (List Char))} {e : Expr (List Char)} (h : unspaced ts = e.toks) (d : Char) (hd : .ch d ∈ ts) :
    opChar d := by
  by_cases hs : d = ' '
  · subst hs; simp [opChar]
  · have := mem_unspaced hs hd
    rw [h] at this
    have h2 := expr_chars d e this
    simp only [operators, List.mem_cons, List.not_mem_nil, or_false] at h2
    simp only [opChar, List.mem_cons, List.not_mem_nil, or_false]
    rcases h2 with (h | h | h | h) | (h | h) <;> simp [h]

theorem written_append (o c : Char) (s t : List (Tok (List Char))) : written o c (s ++ t) = written o c s ++ written o c t := by
  induction s with
  | nil => rfl
  | cons x s ih => cases x <;> simp [written, ih]

theorem rstrip_space (s : List Char) : PyStr.rstripBy isSpace (s ++ [' ']) = PyStr.rstripBy isSpace s := by
  unfold PyStr.rstripBy
  rw [List.reverse_append, List.reverse_singleton, List.singleton_append, List.dropWhile_cons, if_pos (by decide)]

theorem rstrip_solid (s : List Char) (d : Char) (h : isSpace d = false) : PyStr.rstripBy isSpace (s ++ [d]) = s ++ [d] := by
  unfold PyStr.rstripBy
  rw [List.reverse_append, List.reverse_singleton, List.singleton_append, List.dropWhile_cons, if_neg (by simp [h])]
  simp

theorem lstrip_written {o c : Char} (hk : Kinds o c) : ∀ (ts : List (Tok (List Char))), (∀ d, .ch d ∈ ts → opChar d) →
    ∃ ts', PyStr.lstripBy isSpace (written o c ts) = written o c ts' ∧ unspaced ts' = unspaced ts ∧ ∀ d, .ch d ∈ ts' → opChar d := by
  intro ts
  induction ts with
  | nil => intro _; exact ⟨[], rfl, rfl, by simp⟩
  | cons t ts ih =>
    intro h
    cases t with
    | atom b =>
      refine ⟨.atom b :: ts, ?_, rfl, h⟩
      unfold PyStr.lstripBy
      rw [written, List.dropWhile_cons, if_neg (by rw [(kinds_ne hk).2.2.1]; simp)]
    | ch d =>
      by_cases hd : d = ' '
      · subst hd
        obtain ⟨ts', h1, h2, h3⟩ := ih (fun e he => h e (by simp [he]))
        refine ⟨ts', ?_, by rw [h2, unspaced_drop], h3⟩
        rw [← h1]
        unfold PyStr.lstripBy
        rw [written, List.dropWhile_cons, if_pos (by decide)]
      · refine ⟨.ch d :: ts, ?_, rfl, h⟩
        unfold PyStr.lstripBy
        rw [written, List.dropWhile_cons, if_neg]
        rw [opChar_space (h d (by simp))]; exact hd

theorem rstrip_written {o c : Char} (hk : Kinds o c) : ∀ (n : Nat) (ts : List (Tok (List Char))), ts.length = n →
    (∀ d, .ch d ∈ ts → opChar d) →
    ∃ ts', PyStr.rstripBy isSpace (written o c ts) = written o c ts' ∧ unspaced ts' = unspaced ts := by
  intro n
  induction n with
  | zero => intro ts h _; rw [List.length_eq_zero_iff.mp h]; exact ⟨[], rfl, rfl⟩
  | succ n ih =>
    intro ts hn h
    rcases List.eq_nil_or_concat ts with h0 | ⟨s, x, h0⟩
    · rw [h0] at hn; cases hn
    · rw [List.concat_eq_append] at h0
      subst h0
      cases x with
      | atom b =>
        refine ⟨s ++ [.atom b], ?_, rfl⟩
        rw [written_append]
        simp only [written]
        have := rstrip_solid (written o c s ++ o :: b) c (kinds_ne hk).2.2.2.1
        simpa using this
      | ch d =>
        by_cases hd : d = ' '
        · subst hd
          obtain ⟨ts', h1, h2⟩ := ih s (by simpa using hn) (fun e he => h e (by simp [he]))
          refine ⟨ts', ?_, ?_⟩
          · rw [written_append]
            simp only [written]
            rw [rstrip_space, h1]
          · rw [unspaced_append, h2, unspaced_drop]
            simp [unspaced]
        · refine ⟨s ++ [.ch d], ?_, rfl⟩
          rw [written_append]
          simp only [written]
          apply rstrip_solid
          rw [← Bool.not_eq_true, opChar_space (h d (by simp))]; exact hd

theorem strip_written {o c : Char} (hk : Kinds o c) (ts : List (Tok (List Char))) (h : ∀ d, .ch d ∈ ts → opChar d) :
    ∃ ts', strip (written o c ts) = written o c ts' ∧ unspaced ts' = unspaced ts := by
  obtain ⟨ts1, h1, h2, h3⟩ := lstrip_written hk ts h
  obtain ⟨ts2, h4, h5⟩ := rstrip_written hk _ ts1 rfl h3
  exact ⟨ts2, by rw [strip, PyStr.stripBy, h1, h4], by rw [h5, h2]⟩

/-- What becomes of the text of an expression. -/
theorem ecf_expr {o c : Char} (hk : Kinds o c) (mk : List Char → Except PyErr (Filter E)) (F : List Char → Filter E)
    (e : Expr (List Char)) (ts : List (Tok (List Char))) (hts : unspaced ts = e.toks) (hg : ∀ b ∈ atoms e.toks, ClosedGroup o c b)
    (hm : ∀ b ∈ atoms e.toks, mk (o :: (b ++ [c])) = .ok (F b)) :
    (e.late = false → ∃ g, ecf o c mk (strip (written o c ts)) = .ok g ∧
      ∀ (x : E) (val : List Char → Bool), (∀ b ∈ atoms e.toks, F b x = .ok (val b)) → g x = .ok (e.spill.eval val)) ∧
    (e.late = true → ecf o c mk (strip (written o c ts)) = .error .valueError ∨
      ∃ g, ecf o c mk (strip (written o c ts)) = .ok g ∧
        ∀ (x : E), (∀ b ∈ atoms e.toks, ∃ v, F b x = .ok v) → g x = .error .typeError) := by
  obtain ⟨ts1, h1, h2⟩ := strip_written hk ts (fun d hd => expr_opChars hts d hd)
  have h3 : unspaced ts1 = e.toks := h2.trans hts
  have hat : atoms ts1 = atoms e.toks := by rw [← h3, atoms_unspaced]
  obtain ⟨ts', h4, h5⟩ := ecf_written hk mk F ts1 (fun d hd => expr_opChars h3 d hd) (by rw [hat]; exact hg) (by rw [hat]; exact hm)
    (by rw [hat]; intro h; have := expr_atoms e; rw [h] at this; simp at this)
    (by
      rw [apart_unspaced, h3]
      have := apartE e [] rfl
      rwa [List.append_nil] at this)
  have h6 : unspaced ts' = (mapE F e).toks := by rw [h4, h3, mapE_toks]
  have hat' : atoms ts' = (atoms e.toks).map F := by rw [← atoms_unspaced, h6, mapE_toks, atoms_map]
  obtain ⟨c1, c2⟩ := C37_exact (mapE F e) ts' h6
  rw [mapE_late] at c1 c2
  rw [h1, h5]
  refine ⟨?_, ?_⟩
  · intro hl
    obtain ⟨fs, os, e1, e2⟩ := c1 hl
    refine ⟨func fs os, by rw [e1], ?_⟩
    intro x val hv
    have := e2 x (valOf x) (by
      intro f hf
      rw [hat', List.mem_map] at hf
      obtain ⟨b, hb, rfl⟩ := hf
      rw [hv b hb, valOf_eq (hv b hb)])
    rw [this, mapE_spill, mapE_eval]
    congr 1
    unfold Expr.eval
    rw [expr_congr (fun a => valOf x (F a)) val e.spill]
    intro a ha
    rw [spill_atomsE] at ha
    exact valOf_eq (hv a ha)
  · intro hl
    rcases c2 hl with e1 | ⟨fs, os, e1, e2⟩
    · left; rw [e1]
    · refine Or.inr ⟨func fs os, by rw [e1], ?_⟩
      intro x hx
      refine e2 x ?_
      intro f hf
      rw [hat', List.mem_map] at hf
      obtain ⟨b, hb, rfl⟩ := hf
      exact hx b hb

end Gather
end Pawpaw.Props
