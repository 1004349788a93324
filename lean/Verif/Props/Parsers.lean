import Verif.Model.PatternsMore
import Verif.Lemmas.ReBest
import Verif.Lemmas.ReRead
import Verif.Lemmas.ReadMore
import Verif.Spec.QueryParse
/-!
# Hand-written parsers and the pattern texts of the source
-/
namespace Pawpaw.Props
open Pawpaw Pawpaw.Regex RegexSpec ReSyntax Patterns Pawpaw.Query QuerySpec

/-! ### Axes -/

/-- `c{1,n+1}` -/
def runRe (c : Char) (n : Nat) : Re := .seq (.chr (· == c)) (upTo true (.chr (· == c)) n)

/-- The group `key`. -/
def keyRe : Re := .alt (runRe '.' 3) (.alt (runRe '*' 2) (.alt (.seq (.chr (· == '>')) (.chr (· == '<'))) (.alt (runRe '<' 2) (runRe '>' 2))))

/-- The whole pattern. -/
def axisRe : Re :=
  .seq (.grp "order" (.alt (.chr fun c => c == '+' || c == '-') .eps))
    (.seq (.grp "key" keyRe) (.grp "or_self" (.alt (runRe '!' 1) .eps)))

theorem runLen_eq (c : Char) (m : Nat) (l : List Char) : runLen c m l = min m (runOf (· == c) l) := rfl

theorem run_stop {c : Char} {l : List Char} (h : l.head? ≠ some c) : runOf (· == c) l = 0 :=
  runOf_stop fun d hd => by
    cases e : d == c with
    | false => rfl
    | true => rw [hd, eq_of_beq e] at h; exact absurd rfl h

theorem run_none {c : Char} {l : List Char} (h : l.head? ≠ some c) (n i : Nat) (k : List (String × Nat × Nat)) :
    out (runRe c n) ⟨i, l, k⟩ = [] := by
  refine seq_none (chr_none (fun d hd => ?_) i k)
  cases e : d == c with
  | false => rfl
  | true => rw [hd, eq_of_beq e] at h; exact absurd rfl h

theorem run_best {c : Char} {l : List Char} (h : l.head? = some c) (n i : Nat) (k : List (String × Nat × Nat)) :
    best (runRe c n) ⟨i, l, k⟩ = some ⟨i + runLen c (n + 1) l, l.drop (runLen c (n + 1) l), k⟩ := by
  rw [runLen_eq]
  refine best_run ?_ n i k
  cases l with
  | nil => cases h
  | cons d l =>
    obtain rfl := Option.some.inj h
    rw [runOf_cons (by simp)]
    omega

theorem run_take (c : Char) (m : Nat) (l : List Char) : l.take (runLen c m l) = List.replicate (runLen c m l) c := by
  rw [runLen_eq, List.eq_replicate_iff]
  have hle : min m (runOf (· == c) l) ≤ runOf (· == c) l := Nat.min_le_right _ _
  refine ⟨?_, fun d hd => ?_⟩
  · rw [List.length_take]
    have := runOf_le (· == c) l
    omega
  · have : d ∈ l.takeWhile (· == c) := by
      rw [← take_runOf, ← List.take_append_drop (min m (runOf (· == c) l)) (l.take (runOf (· == c) l)), List.take_take,
        Nat.min_eq_left hle]
      exact List.mem_append_left _ hd
    have h2 := List.all_takeWhile (p := (· == c)) (l := l)
    rw [List.all_eq_true] at h2
    exact eq_of_beq (h2 d this)

theorem run_pos {c : Char} {l : List Char} (h : l.head? = some c) (m : Nat) : 1 ≤ runLen c (m + 1) l ∧ runLen c (m + 1) l ≤ m + 1 := by
  cases l with
  | nil => cases h
  | cons d l =>
    obtain rfl := Option.some.inj h
    rw [runLen_eq, runOf_cons (by simp)]
    omega

theorem key_none {p : List Char} (h : parseKey p = none) (i : Nat) (k : List (String × Nat × Nat)) : out keyRe ⟨i, p, k⟩ = [] := by
  unfold parseKey at h
  split at h
  · cases h
  · cases h
  · cases h
  · cases h
  · cases h
  · rename_i h1 h2 h3 h4 h5
    have g : ∀ c, (∀ t, p = c :: t → False) → p.head? ≠ some c := by
      intro c hc e
      cases p with
      | nil => cases e
      | cons d p => obtain rfl := Option.some.inj e; exact hc p rfl
    refine alt_none (run_none (g _ h1) _ _ _) (alt_none (run_none (g _ h2) _ _ _) (alt_none ?_ (alt_none (run_none (g _ h4) _ _ _)
      (run_none (g _ h5) _ _ _))))
    refine seq_none (chr_none (fun d hd => ?_) i k)
    cases e : d == '>' with
    | false => rfl
    | true => rw [eq_of_beq e] at hd; exact absurd hd (g _ h5)

theorem key_some {p : List Char} {key : AxisKey} {n : Nat} (h : parseKey p = some (key, n)) (i : Nat) (k : List (String × Nat × Nat)) :
    best keyRe ⟨i, p, k⟩ = some ⟨i + n, p.drop n, k⟩ ∧ p.take n = keyText key := by
  unfold parseKey at h
  have ne : ∀ {c d : Char} {t : List Char}, c ≠ d → (c :: t).head? ≠ some d := by
    intro c d t h e; exact h (Option.some.inj e)
  have hgt : ∀ {c : Char} {t : List Char} {b : Re}, c ≠ '>' → out (.seq (.chr (· == '>')) b) ⟨i, c :: t, k⟩ = [] := by
    intro c t b hc
    refine seq_none (chr_none (fun d hd => ?_) i k)
    obtain rfl := Option.some.inj hd
    simpa using hc
  split at h
  · rename_i t
    simp only [Option.some.injEq, Prod.mk.injEq] at h
    obtain ⟨h1, rfl⟩ := h
    refine ⟨best_altl (run_best rfl 3 i k), ?_⟩
    rw [run_take, ← h1]
    obtain ⟨g1, g2⟩ := run_pos (c := '.') (l := '.' :: t) rfl 3
    generalize runLen '.' 4 ('.' :: t) = m at g1 g2 ⊢
    obtain rfl | rfl | rfl | rfl : m = 1 ∨ m = 2 ∨ m = 3 ∨ m = 4 := by omega
    all_goals rfl
  · rename_i t
    simp only [Option.some.injEq, Prod.mk.injEq] at h
    obtain ⟨h1, rfl⟩ := h
    refine ⟨?_, ?_⟩
    · unfold keyRe
      rw [best_alt_right (run_none (ne (by decide)) _ _ _)]
      exact best_altl (run_best rfl 2 i k)
    · rw [run_take, ← h1]
      obtain ⟨g1, g2⟩ := run_pos (c := '*') (l := '*' :: t) rfl 2
      generalize runLen '*' 3 ('*' :: t) = m at g1 g2 ⊢
      obtain rfl | rfl | rfl : m = 1 ∨ m = 2 ∨ m = 3 := by omega
      all_goals rfl
  · rename_i t
    simp only [Option.some.injEq, Prod.mk.injEq] at h
    obtain ⟨rfl, rfl⟩ := h
    refine ⟨?_, rfl⟩
    unfold keyRe
    rw [best_alt_right (run_none (ne (by decide)) _ _ _), best_alt_right (run_none (ne (by decide)) _ _ _)]
    exact best_altl (best_seq (best_chr rfl i _ k) (best_chr rfl (i + 1) _ k))
  · rename_i t
    simp only [Option.some.injEq, Prod.mk.injEq] at h
    obtain ⟨h1, rfl⟩ := h
    refine ⟨?_, ?_⟩
    · unfold keyRe
      rw [best_alt_right (run_none (ne (by decide)) _ _ _), best_alt_right (run_none (ne (by decide)) _ _ _),
        best_alt_right (hgt (by decide))]
      exact best_altl (run_best rfl 2 i k)
    · rw [run_take, ← h1]
      obtain ⟨g1, g2⟩ := run_pos (c := '<') (l := '<' :: t) rfl 2
      generalize runLen '<' 3 ('<' :: t) = m at g1 g2 ⊢
      obtain rfl | rfl | rfl : m = 1 ∨ m = 2 ∨ m = 3 := by omega
      all_goals rfl
  · rename_i t hx
    simp only [Option.some.injEq, Prod.mk.injEq] at h
    obtain ⟨h1, rfl⟩ := h
    refine ⟨?_, ?_⟩
    · unfold keyRe
      rw [best_alt_right (run_none (ne (by decide)) _ _ _), best_alt_right (run_none (ne (by decide)) _ _ _)]
      have : out (.seq (.chr (· == '>')) (.chr (· == '<'))) ⟨i, '>' :: t, k⟩ = [] := by
        rw [out, out_chr_cons, if_pos (by decide)]
        rw [List.flatMap_cons, List.flatMap_nil, List.append_nil]
        refine chr_none (fun d hd => ?_) _ _
        cases e : d == '<' with
        | false => rfl
        | true =>
          rw [eq_of_beq e] at hd
          cases t with
          | nil => cases hd
          | cons x t => obtain rfl := Option.some.inj hd; exact (hx t rfl).elim
      rw [best_alt_right this, best_alt_right (run_none (ne (by decide)) _ _ _)]
      exact run_best rfl 2 i k
    · rw [run_take, ← h1]
      obtain ⟨g1, g2⟩ := run_pos (c := '>') (l := '>' :: t) rfl 2
      generalize runLen '>' 3 ('>' :: t) = m at g1 g2 ⊢
      obtain rfl | rfl | rfl : m = 1 ∨ m = 2 ∨ m = 3 := by omega
      all_goals rfl
  · cases h

theorem denotes_axis (E : ReSyntax.Env) (h : E.fold = none) : Denotes E false axis axisRe := by
  obtain ⟨dg, sp, wd, ls, tx, lo, da, fo⟩ := E
  dsimp only at h; subst h
  exact denotes_of read_axis (same_of_flat rfl)

/-- What a denoted expression finds first. -/
theorem best_of_denotes {E : ReSyntax.Env} {v : Bool} {t : List Char} {R : Re} (h : Denotes E v t R) :
    ∃ r, compile E v t = some r ∧ ∀ st, out r st = out R st := h

theorem matchStart_some {r : Re} {p : List Char} {st : St} (h : best r ⟨0, p, []⟩ = some st) :
    matchStart r p = some ⟨0, st.pos, st.caps⟩ := by
  unfold matchStart; unfold best at h; rw [h]; rfl

theorem order_take (p : List Char) : (p.head? = some '-' ↔ some (p.take (orderLen p)) = some ['-']) ∧
    (¬ p.head? = some '-' ↔ some (p.take (orderLen p)) = some ['+'] ∨ some (p.take (orderLen p)) = some []) := by
  cases p with
  | nil => simp [orderLen]
  | cons c p =>
    unfold orderLen
    by_cases h1 : c = '-'
    · subst h1; simp
    · by_cases h2 : c = '+'
      · subst h2; simp
      · simp [h1, h2]

/-- The axis of a phrase: the pattern of the source matches exactly when the axis is accepted, it takes as many characters, and the
groups `key`, `order` and `or_self` are the texts that the axis is made of. -/
theorem C118_axis (E : ReSyntax.Env) (hf : E.fold = none) : ∃ r, compile E false axis = some r ∧ ∀ p : List Char,
    (parseAxis p = .error .valueError ∧ matchStart r p = none) ∨
    (∃ a n m, parseAxis p = .ok (a, n) ∧ matchStart r p = some m ∧ m.stop = n ∧ group m "key" p = some (keyText a.key) ∧
      group m "or_self" p = some (orSelfText a.orSelf) ∧ (a.rev = true ↔ group m "order" p = some ['-']) ∧
      (a.rev = false ↔ group m "order" p = some ['+'] ∨ group m "order" p = some [])) := by
  obtain ⟨r, h1, h2⟩ := best_of_denotes (denotes_axis E hf)
  refine ⟨r, h1, fun p => ?_⟩
  have hout : ∀ st, best r st = best axisRe st := fun st => by unfold best; rw [h2]
  cases hk : parseKey (p.drop (orderLen p)) with
  | none =>
    left
    refine ⟨by unfold parseAxis; dsimp only; rw [hk], ?_⟩
    unfold matchStart
    rw [h2, show out axisRe ⟨0, p, []⟩ = [] from ?_]
    · rfl
    rw [axisRe, out, List.flatMap_eq_nil_iff]
    intro st hst
    refine seq_none (grp_none ?_)
    rw [out] at hst
    obtain ⟨s, hs, rfl⟩ := List.mem_map.1 hst
    rw [out, List.mem_append] at hs
    rcases hs with hs | hs
    · cases p with
      | nil => rw [out_chr_empty] at hs; cases hs
      | cons c p =>
        rw [out_chr_cons] at hs
        split at hs
        · rename_i hc
          obtain rfl := List.mem_singleton.1 hs
          have : orderLen (c :: p) = 1 := by
            unfold orderLen
            rw [if_pos]
            simpa using hc
          rw [this] at hk
          exact key_none hk _ _
        · cases hs
    · have hs : s = ⟨0, p, []⟩ := by simpa [out] using hs
      subst hs
      by_cases h0 : p.head? = some '+' ∨ p.head? = some '-'
      · cases p with
        | nil => simp at h0
        | cons c p =>
          refine key_none ?_ _ _
          rcases h0 with h0 | h0 <;> (obtain rfl := Option.some.inj h0; rfl)
      · have : orderLen p = 0 := if_neg h0
        rw [this] at hk
        exact key_none hk _ _
  | some kn =>
    obtain ⟨key, n⟩ := kn
    right
    have ho : best (.alt (.chr fun c => c == '+' || c == '-') .eps) ⟨0, p, []⟩ = some ⟨orderLen p, p.drop (orderLen p), []⟩ := by
      by_cases h0 : p.head? = some '+' ∨ p.head? = some '-'
      · have e : orderLen p = 1 := if_pos h0
        rw [e]
        cases p with
        | nil => simp at h0
        | cons c p => exact best_altl (best_chr (by simpa using h0) 0 p [])
      · have e : orderLen p = 0 := if_neg h0
        rw [e]
        exact best_opt_skip (chr_none (fun c hc => by rw [hc] at h0; simpa using h0) _ _)
    obtain ⟨k1, k2⟩ := key_some hk (orderLen p) ([] ++ [("order", 0, orderLen p)])
    have hb := best_group (n := "order") ho
    have hs : ∀ (l : List Char) (i : Nat) (k : List (String × Nat × Nat)), best (.alt (runRe '!' 1) .eps) ⟨i, l, k⟩ =
        some ⟨i + runLen '!' 2 l, l.drop (runLen '!' 2 l), k⟩ := by
      intro l i k
      by_cases h0 : l.head? = some '!'
      · exact best_altl (run_best h0 1 i k)
      · rw [best_opt_skip (run_none h0 _ _ _), runLen_eq, run_stop h0]; rfl
    have hall := best_seq hb (best_seq (best_group (n := "key") k1) (best_group (n := "or_self") (hs _ _ _)))
    dsimp only at hall
    rw [List.drop_drop] at hall
    generalize hm : runLen '!' 2 (p.drop (orderLen p + n)) = m at hall
    refine ⟨_, _, _, by unfold parseAxis; dsimp only; rw [hk], matchStart_some ((hout _).trans hall), ?_, ?_, ?_, ?_, ?_⟩
    · dsimp only; rw [hm]
    · show some ((p.drop (orderLen p)).take (orderLen p + n - orderLen p)) = _
      rw [Nat.add_sub_cancel_left, k2]
    · show some ((p.drop (orderLen p + n)).take (orderLen p + n + m - (orderLen p + n))) = _
      rw [Nat.add_sub_cancel_left, ← hm, run_take]
      have : runLen '!' 2 (p.drop (orderLen p + n)) ≤ 2 := by rw [runLen_eq]; omega
      generalize runLen '!' 2 (p.drop (orderLen p + n)) = m' at this ⊢
      obtain rfl | rfl | rfl : m' = 0 ∨ m' = 1 ∨ m' = 2 := by omega
      all_goals rfl
    · show _ ↔ some (p.take (orderLen p)) = _
      rw [decide_eq_true_eq]
      exact (order_take p).1
    · show _ ↔ some (p.take (orderLen p)) = _ ∨ some (p.take (orderLen p)) = _
      rw [decide_eq_false_iff_not]
      exact (order_take p).2
/-- Two axes, one of them in reverse, and a text that is none. -/
example : (parseAxis "-<<!!x".toList, parseAxis "***".toList, parseAxis "x".toList) =
    (.ok ({ key := .priors, orSelf := .always, rev := true }, 5), .ok ({ key := .leaves, orSelf := .no, rev := false }, 3), .error .valueError) := by decide +kernel
example : ∃ E : ReSyntax.Env, E.fold = none := ⟨{ digit := Char.isDigit, space := (· == ' '), word := Char.isAlphanum }, rfl⟩

end Pawpaw.Props
