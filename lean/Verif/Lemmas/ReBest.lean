import Verif.Lemmas.RegexRun
import Verif.Lemmas.ReSame
/-!
# The best way to match
-/
namespace Pawpaw.Props
open Pawpaw Pawpaw.Regex RegexSpec ReSyntax

/-- The first way. -/
def best (r : Re) (st : St) : Option St := (out r st).head?

theorem best_seq {a b : Re} {st s t : St} (h : best a st = some s) (h' : best b s = some t) : best (.seq a b) st = some t := by
  unfold best at h h' ⊢
  rw [out]
  cases ha : out a st with
  | nil => rw [ha] at h; cases h
  | cons x xs =>
    rw [ha] at h
    obtain rfl : x = s := Option.some.inj h
    rw [List.flatMap_cons, List.head?_append, h']
    rfl

theorem seq_none {a b : Re} {st : St} (h : out a st = []) : out (.seq a b) st = [] := by rw [out, h]; rfl

theorem alt_none {a b : Re} {st : St} (h : out a st = []) (h' : out b st = []) : out (.alt a b) st = [] := by
  rw [out, h, h']; rfl

theorem best_altl {a b : Re} {st s : St} (h : best a st = some s) : best (.alt a b) st = some s := by
  unfold best at h ⊢
  rw [out, List.head?_append, h]
  rfl

theorem best_alt_right {a b : Re} {st : St} (h : out a st = []) : best (.alt a b) st = best b st := by
  unfold best
  rw [out, h, List.nil_append]

theorem best_eps (st : St) : best .eps st = some st := by simp [best, out]

theorem best_opt_skip {a : Re} {st : St} (h : out a st = []) : best (.alt a .eps) st = some st := by
  rw [best_alt_right h, best_eps]

theorem best_group {n : String} {a : Re} {st s : St} (h : best a st = some s) :
    best (.grp n a) st = some { s with caps := s.caps ++ [(n, st.pos, s.pos)] } := by
  unfold best at h ⊢
  rw [out, List.head?_map, h]
  rfl

theorem grp_none {n : String} {a : Re} {st : St} (h : out a st = []) : out (.grp n a) st = [] := by rw [out, h]; rfl

theorem out_chr_cons (p : Char → Bool) (i : Nat) (c : Char) (l : List Char) (k : List (String × Nat × Nat)) :
    out (.chr p) ⟨i, c :: l, k⟩ = if p c then [⟨i + 1, l, k⟩] else [] := by rw [out]

theorem out_chr_empty (p : Char → Bool) (i : Nat) (k : List (String × Nat × Nat)) : out (.chr p) ⟨i, [], k⟩ = [] := by rw [out]

theorem best_chr {p : Char → Bool} {c : Char} (h : p c = true) (i : Nat) (l : List Char) (k : List (String × Nat × Nat)) :
    best (.chr p) ⟨i, c :: l, k⟩ = some ⟨i + 1, l, k⟩ := by
  unfold best; rw [out_chr_cons, if_pos h]; rfl

theorem chr_none {p : Char → Bool} {l : List Char} (h : ∀ c, l.head? = some c → p c = false) (i : Nat)
    (k : List (String × Nat × Nat)) : out (.chr p) ⟨i, l, k⟩ = [] := by
  cases l with
  | nil => exact out_chr_empty p i k
  | cons c l => rw [out_chr_cons, h c rfl]; rfl

/-- How many characters of a class there are at the beginning. -/
def runOf (p : Char → Bool) (l : List Char) : Nat := (l.takeWhile p).length

theorem runOf_le (p : Char → Bool) (l : List Char) : runOf p l ≤ l.length := (List.takeWhile_sublist p).length_le

theorem runOf_cons {p : Char → Bool} {c : Char} (h : p c = true) (l : List Char) : runOf p (c :: l) = runOf p l + 1 := by
  unfold runOf; rw [List.takeWhile_cons, if_pos h]; rfl

theorem runOf_stop {p : Char → Bool} {l : List Char} (h : ∀ c, l.head? = some c → p c = false) : runOf p l = 0 := by
  cases l with
  | nil => rfl
  | cons c l => unfold runOf; rw [List.takeWhile_cons, if_neg (by rw [h c rfl]; simp)]; rfl

theorem take_runOf (p : Char → Bool) (l : List Char) : l.take (runOf p l) = l.takeWhile p := by
  conv => lhs; arg 2; rw [← List.takeWhile_append_dropWhile (p := p) (l := l)]
  rw [runOf, List.take_left]

theorem drop_runOf (p : Char → Bool) (l : List Char) : l.drop (runOf p l) = l.dropWhile p := by
  conv => lhs; arg 2; rw [← List.takeWhile_append_dropWhile (p := p) (l := l)]
  rw [runOf, List.drop_left]

/-- `c{0,n}` takes as many as there are. -/
theorem best_upTo (p : Char → Bool) (n : Nat) (i : Nat) (l : List Char) (k : List (String × Nat × Nat)) :
    best (upTo true (.chr p) n) ⟨i, l, k⟩ = some ⟨i + min n (runOf p l), l.drop (min n (runOf p l)), k⟩ := by
  induction n generalizing i l with
  | zero => simp [upTo, best_eps]
  | succ n ih =>
    have hs : best (upTo true (.chr p) (n + 1)) ⟨i, l, k⟩ = best (.alt (.seq (.chr p) (upTo true (.chr p) n)) .eps) ⟨i, l, k⟩ := by
      cases n with
      | zero =>
        unfold best
        congr 1
        exact ((Same.seq_eps (.chr p)).symm.alt (Same.refl .eps)) _
      | succ n => rfl
    rw [hs]
    cases l with
    | nil =>
      rw [best_opt_skip (seq_none (out_chr_empty p i k))]
      simp [runOf]
    | cons c l =>
      by_cases h : p c = true
      · rw [best_altl (best_seq (best_chr h i l k) (ih (i + 1) l)), runOf_cons h]
        have : min (n + 1) (runOf p l + 1) = min n (runOf p l) + 1 := by omega
        rw [this, List.drop_succ_cons]
        congr 2
        omega
      · rw [best_opt_skip (seq_none (by rw [out_chr_cons, if_neg h])), runOf_stop (fun d hd => by
          obtain rfl := Option.some.inj hd; simpa using h)]
        simp

/-- `c*` takes as many as there are. -/
theorem best_starr (p : Char → Bool) (i : Nat) (l : List Char) (k : List (String × Nat × Nat)) :
    best (.star true (.chr p)) ⟨i, l, k⟩ = some ⟨i + runOf p l, l.drop (runOf p l), k⟩ := by
  unfold best
  rw [out]
  dsimp only
  have key : ∀ (n : Nat) (i : Nat) (l : List Char), l.length ≤ n →
      (iter true (out (.chr p)) n ⟨i, l, k⟩).head? = some ⟨i + runOf p l, l.drop (runOf p l), k⟩ := by
    intro n
    induction n with
    | zero =>
      intro i l h
      obtain rfl : l = [] := List.length_eq_zero_iff.1 (by omega)
      simp [iter, runOf]
    | succ n ih =>
      intro i l h
      rw [iter]
      cases l with
      | nil => rw [out_chr_empty]; simp [runOf]
      | cons c l =>
        by_cases hc : p c = true
        · rw [out_chr_cons, if_pos hc]
          simp only [List.flatMap_cons, List.flatMap_nil, List.append_nil, if_true]
          rw [if_pos (by omega), List.head?_append, ih (i + 1) l (by simp at h; omega), runOf_cons hc, List.drop_succ_cons]
          simp only [Option.some_or, Option.some.injEq, St.mk.injEq, and_true, true_and]
          omega
        · rw [out_chr_cons, if_neg hc, runOf_stop (fun d hd => by obtain rfl := Option.some.inj hd; simpa using hc)]
          simp
  exact key _ i l (Nat.le_refl _)

/-- `c+` takes as many as there are. -/
theorem best_plus {p : Char → Bool} {l : List Char} (h : runOf p l ≠ 0) (i : Nat) (k : List (String × Nat × Nat)) :
    best (.seq (.chr p) (.star true (.chr p))) ⟨i, l, k⟩ = some ⟨i + runOf p l, l.drop (runOf p l), k⟩ := by
  cases l with
  | nil => exact absurd rfl h
  | cons c l =>
    have hc : p c = true := by
      cases e : p c with
      | true => rfl
      | false => exact absurd (runOf_stop (fun d hd => by obtain rfl := Option.some.inj hd; exact e)) h
    rw [best_seq (best_chr hc i l k) (best_starr p (i + 1) l k), runOf_cons hc, List.drop_succ_cons]
    congr 2
    omega

theorem plus_none {p : Char → Bool} {l : List Char} (h : runOf p l = 0) (i : Nat) (k : List (String × Nat × Nat)) :
    out (.seq (.chr p) (.star true (.chr p))) ⟨i, l, k⟩ = [] := by
  refine seq_none (chr_none (fun c hc => ?_) i k)
  cases l with
  | nil => cases hc
  | cons d l =>
    obtain rfl := Option.some.inj hc
    cases e : p d with
    | false => rfl
    | true => rw [runOf_cons e] at h; omega

/-- `c{1,n}`. -/
theorem best_run {p : Char → Bool} {l : List Char} (h : runOf p l ≠ 0) (n i : Nat) (k : List (String × Nat × Nat)) :
    best (.seq (.chr p) (upTo true (.chr p) n)) ⟨i, l, k⟩ =
      some ⟨i + min (n + 1) (runOf p l), l.drop (min (n + 1) (runOf p l)), k⟩ := by
  cases l with
  | nil => exact absurd rfl h
  | cons c l =>
    have hc : p c = true := by
      cases e : p c with
      | true => rfl
      | false => exact absurd (runOf_stop (fun d hd => by obtain rfl := Option.some.inj hd; exact e)) h
    rw [best_seq (best_chr hc i l k) (best_upTo p n (i + 1) l k), runOf_cons hc,
      show min (n + 1) (runOf p l + 1) = min n (runOf p l) + 1 by omega, List.drop_succ_cons]
    congr 2
    omega

end Pawpaw.Props
