import Verif.Model.VersionParse
import Verif.Props.Version
import Verif.Lemmas.RegexRun
/-!
# C100: `Version.parse_re`
-/
set_option linter.unusedSectionVars false
set_option linter.unusedSimpArgs false
namespace Pawpaw.Props
open Pawpaw Pawpaw.Version Pawpaw.Regex RegexSpec VersionSpec

/-! ### The first way of matching -/

/-- The first way of matching. -/
def first (r : Re) (st : St) : Option St := (out r st).head?

theorem first_seq {a b : Re} {st s1 s2 : St} (h1 : first a st = some s1) (h2 : first b s1 = some s2) :
    first (.seq a b) st = some s2 := by
  unfold first at *
  rw [out]
  cases ho : out a st with
  | nil => rw [ho] at h1; cases h1
  | cons s l =>
    rw [ho] at h1
    cases h1
    rw [List.flatMap_cons, List.head?_append, h2]
    rfl

theorem first_grp {n : String} {a : Re} {st s1 : St} (h : first a st = some s1) :
    first (.grp n a) st = some ⟨s1.pos, s1.rest, s1.caps ++ [(n, st.pos, s1.pos)]⟩ := by
  unfold first at *
  rw [out, List.head?_map, h]
  rfl

theorem first_left {a b : Re} {st s : St} (h : first a st = some s) : first (.alt a b) st = some s := by
  unfold first at *
  rw [out, List.head?_append, h]
  rfl

theorem first_right {a b : Re} {st : St} (h : out a st = []) : first (.alt a b) st = first b st := by
  unfold first
  rw [out, h]
  rfl

theorem first_opt {a : Re} {st s : St} (h : first a st = some s) : first (opt a) st = some s := first_left h

theorem first_none {a : Re} {st : St} (h : out a st = []) : first (opt a) st = some st := by
  unfold opt
  rw [first_right h]
  rfl

theorem first_chr {p : Char → Bool} {i : Nat} {c : Char} {w : List Char} {k : List (String × Nat × Nat)} (h : p c = true) :
    first (.chr p) ⟨i, c :: w, k⟩ = some ⟨i + 1, w, k⟩ := by
  unfold first
  rw [out]
  dsimp only
  rw [if_pos h]
  rfl

theorem first_lit (cs : List Char) (i : Nat) (w : List Char) (k : List (String × Nat × Nat)) :
    first (lit cs) ⟨i, cs ++ w, k⟩ = some ⟨i + cs.length, w, k⟩ := by
  induction cs generalizing i with
  | nil => rfl
  | cons c cs ih =>
    cases cs with
    | nil => exact first_chr (by simp)
    | cons d cs =>
      refine first_seq (first_chr (by simp)) ?_
      have := ih (i + 1)
      rw [show i + (c :: d :: cs).length = i + 1 + (d :: cs).length by simp; omega]
      exact this

/-- The text does not start with such a character. -/
def NotStart (p : Char → Bool) (w : List Char) : Prop := ∀ c x, w = c :: x → p c = false

theorem notStart_nil (p : Char → Bool) : NotStart p [] := by intro c x h; cases h

theorem out_chr_nil {p : Char → Bool} {i : Nat} {w : List Char} {k : List (String × Nat × Nat)} (h : NotStart p w) :
    out (.chr p) ⟨i, w, k⟩ = [] := by
  cases w with
  | nil => rfl
  | cons c x => rw [out]; dsimp only; rw [h c x rfl]; rfl

theorem out_seq_nil {a b : Re} {st : St} (h : out a st = []) : out (.seq a b) st = [] := by
  rw [out, h]; rfl

theorem out_grp_nil {n : String} {a : Re} {st : St} (h : out a st = []) : out (.grp n a) st = [] := by
  rw [out, h]; rfl

theorem out_alt_nil {a b : Re} {st : St} (h : out a st = []) (h' : out b st = []) : out (.alt a b) st = [] := by
  rw [out, h, h']; rfl

/-- Greedy repetition of what reads `u` piece by piece and then cannot go on. -/
theorem first_iter {a : Re} : ∀ (ps : List (List Char)) (n : Nat) (i : Nat) (w : List Char) (k : List (String × Nat × Nat)),
    (∀ p ∈ ps, p ≠ []) → ps.flatten.length + w.length ≤ n →
    (∀ (l r : List (List Char)) p i, ps = l ++ p :: r →
      first a ⟨i, p ++ (r.flatten ++ w), k⟩ = some ⟨i + p.length, r.flatten ++ w, k⟩) →
    (∀ i, out a ⟨i, w, k⟩ = []) →
    (iter true (out a) n ⟨i, ps.flatten ++ w, k⟩).head? = some ⟨i + ps.flatten.length, w, k⟩
  | [], n, i, w, k, _, _, _, hw => by
    cases n with
    | zero => rfl
    | succ n =>
      rw [iter]
      simp only [List.flatten_nil, List.nil_append, if_true]
      rw [hw i]
      rfl
  | p :: ps, n, i, w, k, hp, hn, ha, hw => by
    have hne := hp p (by simp)
    have hpos : 0 < p.length := by cases p <;> simp_all
    rw [List.flatten_cons, List.length_append] at hn
    cases n with
    | zero => omega
    | succ n =>
      rw [iter]
      simp only [if_true]
      have h1 := ha [] ps p i rfl
      have ih := first_iter ps n (i + p.length) w k (fun q hq => hp q (by simp [hq])) (by omega)
        (fun l r q j he => ha (p :: l) r q j (by rw [he]; rfl)) hw
      unfold first at h1
      rw [List.flatten_cons, List.append_assoc]
      cases ho : out a ⟨i, p ++ (ps.flatten ++ w), k⟩ with
      | nil => rw [ho] at h1; cases h1
      | cons s l =>
        rw [ho] at h1
        cases h1
        rw [List.flatMap_cons, if_pos (by dsimp only; omega), List.append_assoc, List.head?_append, ih]
        simp only [Option.some_or, Option.some.injEq, St.mk.injEq, List.length_append, and_true]
        omega

theorem first_star {a : Re} (ps : List (List Char)) (i : Nat) (w : List Char) (k : List (String × Nat × Nat))
    (hp : ∀ p ∈ ps, p ≠ [])
    (ha : ∀ (l r : List (List Char)) p i, ps = l ++ p :: r →
      first a ⟨i, p ++ (r.flatten ++ w), k⟩ = some ⟨i + p.length, r.flatten ++ w, k⟩)
    (hw : ∀ i, out a ⟨i, w, k⟩ = []) :
    first (many a) ⟨i, ps.flatten ++ w, k⟩ = some ⟨i + ps.flatten.length, w, k⟩ := by
  unfold first many
  rw [out]
  exact first_iter ps _ i w k hp (by simp) ha hw

/-- A run of a class. -/
theorem first_run {p : Char → Bool} {u : List Char} (hu : ∀ c ∈ u, p c = true) (i : Nat) {w : List Char}
    (k : List (String × Nat × Nat)) (hw : NotStart p w) :
    first (many (.chr p)) ⟨i, u ++ w, k⟩ = some ⟨i + u.length, w, k⟩ := by
  have hf : (u.map fun c => [c]).flatten = u := by
    induction u with
    | nil => rfl
    | cons c u ih => simp [ih (fun x hx => hu x (by simp [hx]))]
  have := first_star (a := .chr p) (u.map fun c => [c]) i w k (by simp) ?_ (fun i => out_chr_nil hw)
  · rw [hf] at this; exact this
  · intro l r q j he
    have hq : q ∈ u.map fun c => [c] := by rw [he]; simp
    obtain ⟨c, hc, rfl⟩ := List.mem_map.1 hq
    exact first_chr (hu c hc)

theorem first_plus {p : Char → Bool} {u : List Char} (hne : u ≠ []) (hu : ∀ c ∈ u, p c = true) (i : Nat) {w : List Char}
    (k : List (String × Nat × Nat)) (hw : NotStart p w) :
    first (plus (.chr p)) ⟨i, u ++ w, k⟩ = some ⟨i + u.length, w, k⟩ := by
  cases u with
  | nil => exact absurd rfl hne
  | cons c u =>
    refine first_seq (first_chr (hu c (by simp))) ?_
    have := first_run (fun x hx => hu x (by simp [hx])) (i + 1) k hw (u := u)
    rw [List.length_cons, show i + (u.length + 1) = i + 1 + u.length by omega]
    exact this

/-! ### Characters -/

/-- What folds to an ASCII letter is neither ASCII nor white space. -/
structure Fold.OK (F : Fold) : Prop where
  letter : ∀ c x, F.letter c x = true → 127 < x.toNat ∧ Query.reSpace x = false
  alnum : ∀ x, F.alnum x = true → 127 < x.toNat ∧ Query.reSpace x = false

theorem dec_d09 (n : Nat) : dec n ≠ [] ∧ ∀ c ∈ dec n, d09 c = true := by
  have : Lang num (dec n) := (lang_num _).2 ⟨n, rfl⟩
  rcases this with h | ⟨v, w, h, ⟨c, hc, rfl⟩, hw⟩
  · rw [lang_lit] at h
    rw [h]
    exact ⟨by simp, by intro c hc; simp at hc; subst hc; decide⟩
  · rw [h]
    refine ⟨by simp, ?_⟩
    intro x hx
    rcases List.mem_append.1 hx with hx | hx
    · rw [List.mem_singleton] at hx
      subst hx
      obtain ⟨m, h1, h2, rfl⟩ := (d19_iff x).1 hc
      exact (d09_iff _).2 ⟨m, h2, rfl⟩
    · exact (lang_many_chr d09 w).1 hw x hx

theorem d09_range {c : Char} (h : d09 c = true) : 48 ≤ c.toNat ∧ c.toNat ≤ 57 := by
  unfold d09 at h
  have h0 : '0'.toNat = 48 := rfl
  have h9 : '9'.toNat = 57 := rfl
  simp only [Bool.and_eq_true, decide_eq_true_eq] at h
  omega

theorem first_digits (n : Nat) (i : Nat) {w : List Char} (k : List (String × Nat × Nat)) (hw : NotStart d09 w) :
    first digits ⟨i, dec n ++ w, k⟩ = some ⟨i + (dec n).length, w, k⟩ :=
  first_plus (dec_d09 n).1 (dec_d09 n).2 i k hw

/-- What may follow the release, the pre-release, ... : a letter, one of `.`, `+`, or white space. -/
def TailChar (c : Char) : Bool := Query.reSpace c || c == '+' || c == '.' || c == 'a' || c == 'b' || c == 'r'

/-- Where nothing but the local version may follow. -/
def EndChar (c : Char) : Bool := Query.reSpace c || c == '+'


theorem space_range {c : Char} (h : Query.reSpace c = true) : c.toNat ≤ 32 ∨ 127 < c.toNat := by
  unfold Query.reSpace Query.isSpace at h
  simp only [Bool.and_eq_true, Bool.or_eq_true, decide_eq_true_eq, beq_iff_eq] at h
  omega

/-- A letter of the pattern does not match white space, nor a character of ASCII other than itself. -/
theorem ci_no {F : Fold} (hF : Fold.OK F) {c x : Char} (hx : Query.reSpace x = true ∨ x.toNat < 128) (h1 : x ≠ c)
    (h2 : x ≠ c.toUpper) : (x == c || x == c.toUpper || F.letter c x) = false := by
  have : F.letter c x = false := by
    cases hl : F.letter c x with
    | false => rfl
    | true =>
      have := hF.letter c x hl
      rcases hx with hx | hx
      · rw [hx] at this; exact absurd this.2 (by simp)
      · omega
  simp [h1, h2, this]

/-- The first letter of a word is not there. -/
theorem word_nil {F : Fold} {c : Char} {cs : List Char} {i : Nat} {w : List Char} {k : List (String × Nat × Nat)}
    (h : NotStart (fun x => x == c || x == c.toUpper || F.letter c x) w) : out (word F (c :: cs)) ⟨i, w, k⟩ = [] := by
  cases cs with
  | nil => exact out_chr_nil h
  | cons d cs => exact out_seq_nil (out_chr_nil h)

/-- The second letter of a word is not there. -/
theorem word_nil2 {F : Fold} {c d x : Char} {cs : List Char} {i : Nat} {w : List Char} {k : List (String × Nat × Nat)}
    (h : NotStart (fun x => x == d || x == d.toUpper || F.letter d x) w) :
    out (word F (c :: d :: cs)) ⟨i, x :: w, k⟩ = [] := by
  show out (.seq (ci F c) (word F (d :: cs))) _ = []
  rw [out]
  unfold ci
  rw [out]
  dsimp only
  split
  · simp only [List.flatMap_cons, List.flatMap_nil, List.append_nil]
    exact word_nil h
  · rfl

theorem first_word {F : Fold} (cs : List Char) (i : Nat) (w : List Char) (k : List (String × Nat × Nat)) :
    first (word F cs) ⟨i, cs ++ w, k⟩ = some ⟨i + cs.length, w, k⟩ := by
  induction cs generalizing i with
  | nil => rfl
  | cons c cs ih =>
    cases cs with
    | nil => exact first_chr (by simp)
    | cons d cs =>
      refine first_seq (first_chr (by simp)) ?_
      have := ih (i + 1)
      rw [show i + (c :: d :: cs).length = i + 1 + (d :: cs).length by simp; omega]
      exact this

theorem sepQ_none {i : Nat} {w : List Char} {k : List (String × Nat × Nat)} (h : NotStart sep w) :
    first sepQ ⟨i, w, k⟩ = some ⟨i, w, k⟩ := first_none (out_chr_nil h)

theorem sepQ_dot (i : Nat) (w : List Char) (k : List (String × Nat × Nat)) :
    first sepQ ⟨i, '.' :: w, k⟩ = some ⟨i + 1, w, k⟩ := first_opt (first_chr (by decide))

theorem notStart_cons {p : Char → Bool} {c : Char} {w : List Char} (h : p c = false) : NotStart p (c :: w) := by
  intro d x he
  cases he
  exact h

theorem dec_notSep (n : Nat) (w : List Char) : NotStart sep (dec n ++ w) := by
  obtain ⟨h1, h2⟩ := dec_d09 n
  cases hd : dec n with
  | nil => exact absurd hd h1
  | cons c x =>
    refine notStart_cons ?_
    have := d09_range (h2 c (by rw [hd]; simp))
    unfold sep
    have e1 : '-'.toNat = 45 := rfl
    have e2 : '_'.toNat = 95 := rfl
    have e3 : '.'.toNat = 46 := rfl
    simp only [Bool.or_eq_false_iff, beq_eq_false_iff_ne, ne_eq]
    refine ⟨⟨?_, ?_⟩, ?_⟩ <;> (rintro rfl; omega)

/-- A tagged number that is not there. -/
theorem tagged_nil {l n : String} {a : Re} {i : Nat} {w : List Char} {k : List (String × Nat × Nat)}
    (h1 : ∀ i, out a ⟨i, w, k⟩ = []) (h2 : ∀ c x, w = c :: x → sep c = true → ∀ i, out a ⟨i, x, k⟩ = []) :
    out (pTagged l a n) ⟨i, w, k⟩ = [] := by
  have hb : ∀ st, out a st = [] → out (.seq (.grp l a) (.seq sepQ (opt (.grp n digits)))) st = [] :=
    fun st h => out_seq_nil (out_grp_nil h)
  unfold pTagged sepQ opt
  rw [out.eq_3, out.eq_4, out.eq_1, List.flatMap_append, List.append_eq_nil_iff]
  constructor
  · cases w with
    | nil => rw [out_chr_nil (notStart_nil _)]; rfl
    | cons c x =>
      cases hs : sep c with
      | false => rw [out_chr_nil (notStart_cons hs)]; rfl
      | true =>
        rw [out.eq_def]
        dsimp only
        rw [if_pos hs]
        simp only [List.flatMap_cons, List.flatMap_nil, List.append_nil]
        exact hb _ (h2 c x rfl hs _)
  · simp only [List.flatMap_cons, List.flatMap_nil, List.append_nil]
    exact hb _ (h1 i)

/-- A tagged number: separator `s` (a dot or nothing), tag `t`, number `m`. -/
theorem first_tagged {l n : String} {a : Re} {s t : List Char} (hs : s = ['.'] ∨ s = []) (m : Nat) (i : Nat)
    {w : List Char} (k : List (String × Nat × Nat)) (ht : s = [] → NotStart sep (t ++ (dec m ++ w)))
    (ha : ∀ i, first a ⟨i, t ++ (dec m ++ w), k⟩ = some ⟨i + t.length, dec m ++ w, k⟩) (hw : NotStart d09 w) :
    first (pTagged l a n) ⟨i, s ++ (t ++ (dec m ++ w)), k⟩ =
      some ⟨i + s.length + t.length + (dec m).length, w,
        k ++ [(l, i + s.length, i + s.length + t.length)] ++
          [(n, i + s.length + t.length, i + s.length + t.length + (dec m).length)]⟩ := by
  have h1 : first sepQ ⟨i, s ++ (t ++ (dec m ++ w)), k⟩ = some ⟨i + s.length, t ++ (dec m ++ w), k⟩ := by
    rcases hs with rfl | rfl
    · exact sepQ_dot _ _ _
    · exact sepQ_none (ht rfl)
  refine first_seq h1 (first_seq (first_grp (ha _)) (first_seq (sepQ_none (dec_notSep m w)) (first_opt ?_)))
  exact first_grp (first_digits m _ _ hw)

/-! ### What may follow -/

/-- Where nothing but the local version or white space follows. -/
def AtEnd (w : List Char) : Prop := ∀ c x, w = c :: x → Query.reSpace c = true ∨ c = '+'

theorem atEnd_ascii {w : List Char} (h : AtEnd w) {c : Char} {x : List Char} (he : w = c :: x) :
    (Query.reSpace c = true ∨ c.toNat < 128) ∧ (c.toNat ≤ 32 ∨ 127 < c.toNat ∨ c = '+') := by
  rcases h c x he with h | rfl
  · exact ⟨.inl h, by have := space_range h; omega⟩
  · exact ⟨.inr (by decide), .inr (.inr rfl)⟩

theorem atEnd_ne {w : List Char} (h : AtEnd w) {c d : Char} {x : List Char} (he : w = c :: x) (hd : 32 < d.toNat ∧ d.toNat ≤ 127)
    (hp : d ≠ '+') : c ≠ d := by
  rintro rfl
  have := (atEnd_ascii h he).2
  rcases this with h | h | h
  · omega
  · omega
  · exact hp h

theorem atEnd_sep {w : List Char} (h : AtEnd w) : NotStart sep w := by
  intro c x he
  unfold sep
  simp only [Bool.or_eq_false_iff, beq_eq_false_iff_ne]
  exact ⟨⟨atEnd_ne h he (by decide) (by decide), atEnd_ne h he (by decide) (by decide)⟩, atEnd_ne h he (by decide) (by decide)⟩

theorem atEnd_d09 {w : List Char} (h : AtEnd w) : NotStart d09 w := by
  intro c x he
  cases hd : d09 c with
  | false => rfl
  | true =>
    have h1 := d09_range hd
    rcases (atEnd_ascii h he).2 with h | h | h
    · omega
    · omega
    · subst h; exact absurd hd (by decide)

theorem atEnd_ci {F : Fold} (hF : Fold.OK F) {w : List Char} (h : AtEnd w) {d : Char} (hd : 'a'.toNat ≤ d.toNat ∧ d.toNat ≤ 'z'.toNat)
    (hu : 'A'.toNat ≤ d.toUpper.toNat ∧ d.toUpper.toNat ≤ 'Z'.toNat) :
    NotStart (fun x => x == d || x == d.toUpper || F.letter d x) w := by
  have e1 : 'a'.toNat = 97 := rfl
  have e2 : 'z'.toNat = 122 := rfl
  have e3 : 'A'.toNat = 65 := rfl
  have e4 : 'Z'.toNat = 90 := rfl
  intro c x he
  refine ci_no hF (atEnd_ascii h he).1 (atEnd_ne h he (by omega) ?_) (atEnd_ne h he (by omega) ?_)
  · rintro rfl; revert hd; decide
  · intro hc; rw [hc] at hu; revert hu; decide

/-- A character of ASCII that is not the letter. -/
theorem ci_ascii {F : Fold} (hF : Fold.OK F) {d c : Char} {w : List Char} (hc : c.toNat < 128) (h1 : c ≠ d) (h2 : c ≠ d.toUpper) :
    NotStart (fun x => x == d || x == d.toUpper || F.letter d x) (c :: w) :=
  notStart_cons (ci_no hF (.inr hc) h1 h2)

theorem phase_end {F : Fold} (hF : Fold.OK F) {w : List Char} (h : AtEnd w) (i : Nat) (k : List (String × Nat × Nat)) :
    out (pPhase F) ⟨i, w, k⟩ = [] := by
  unfold pPhase
  refine out_alt_nil (word_nil (atEnd_ci hF h (by decide) (by decide))) (out_alt_nil (word_nil (atEnd_ci hF h (by decide) (by decide)))
    (out_alt_nil (word_nil (atEnd_ci hF h (by decide) (by decide))) (out_alt_nil (word_nil (atEnd_ci hF h (by decide) (by decide)))
    (out_alt_nil (word_nil (atEnd_ci hF h (by decide) (by decide))) (out_alt_nil (word_nil (atEnd_ci hF h (by decide) (by decide)))
    (out_alt_nil (word_nil (atEnd_ci hF h (by decide) (by decide))) (word_nil (atEnd_ci hF h (by decide) (by decide)))))))))

/-- No phase at a character of ASCII that starts none. -/
theorem phase_ascii {F : Fold} (hF : Fold.OK F) {c : Char} {w : List Char} (hc : c = '.' ∨ c = 'd') (i : Nat)
    (k : List (String × Nat × Nat)) : out (pPhase F) ⟨i, c :: w, k⟩ = [] := by
  unfold pPhase
  rcases hc with rfl | rfl <;>
  refine out_alt_nil (word_nil (ci_ascii hF (by decide) (by decide) (by decide))) (out_alt_nil (word_nil (ci_ascii hF (by decide) (by decide) (by decide)))
    (out_alt_nil (word_nil (ci_ascii hF (by decide) (by decide) (by decide))) (out_alt_nil (word_nil (ci_ascii hF (by decide) (by decide) (by decide)))
    (out_alt_nil (word_nil (ci_ascii hF (by decide) (by decide) (by decide))) (out_alt_nil (word_nil (ci_ascii hF (by decide) (by decide) (by decide)))
    (out_alt_nil (word_nil (ci_ascii hF (by decide) (by decide) (by decide))) (word_nil (ci_ascii hF (by decide) (by decide) (by decide)))))))))

/-- No phase at `post`. -/
theorem phase_post {F : Fold} (hF : Fold.OK F) {w : List Char} (i : Nat) (k : List (String × Nat × Nat)) :
    out (pPhase F) ⟨i, 'p' :: 'o' :: w, k⟩ = [] := by
  unfold pPhase
  refine out_alt_nil (word_nil (ci_ascii hF (by decide) (by decide) (by decide))) (out_alt_nil (word_nil (ci_ascii hF (by decide) (by decide) (by decide)))
    (out_alt_nil (word_nil (ci_ascii hF (by decide) (by decide) (by decide))) (out_alt_nil (word_nil (ci_ascii hF (by decide) (by decide) (by decide)))
    (out_alt_nil (word_nil (ci_ascii hF (by decide) (by decide) (by decide))) (out_alt_nil (word_nil (ci_ascii hF (by decide) (by decide) (by decide)))
    (out_alt_nil (word_nil2 (ci_ascii hF (by decide) (by decide) (by decide))) (word_nil2 (ci_ascii hF (by decide) (by decide) (by decide)))))))))

theorem postWord_end {F : Fold} (hF : Fold.OK F) {w : List Char} (h : AtEnd w) (i : Nat) (k : List (String × Nat × Nat)) :
    out (pPostWord F) ⟨i, w, k⟩ = [] := by
  unfold pPostWord
  exact out_alt_nil (word_nil (atEnd_ci hF h (by decide) (by decide))) (out_alt_nil (word_nil (atEnd_ci hF h (by decide) (by decide)))
    (word_nil (atEnd_ci hF h (by decide) (by decide))))

theorem postWord_ascii {F : Fold} (hF : Fold.OK F) {c : Char} {w : List Char} (hc : c = '.' ∨ c = 'd') (i : Nat)
    (k : List (String × Nat × Nat)) : out (pPostWord F) ⟨i, c :: w, k⟩ = [] := by
  unfold pPostWord
  rcases hc with rfl | rfl <;>
  exact out_alt_nil (word_nil (ci_ascii hF (by decide) (by decide) (by decide))) (out_alt_nil (word_nil (ci_ascii hF (by decide) (by decide) (by decide)))
    (word_nil (ci_ascii hF (by decide) (by decide) (by decide))))

theorem lit_nil {c : Char} {i : Nat} {w : List Char} {k : List (String × Nat × Nat)} (h : NotStart (· == c) w) :
    out (lit [c]) ⟨i, w, k⟩ = [] := out_chr_nil h

/-! ### The parts -/

/-- The captures of a part with tag and number, at `j`. -/
def tagCaps (name l n : String) (s t : List Char) (m : Nat) (j : Nat) : List (String × Nat × Nat) :=
  [(l, j + s.length, j + s.length + t.length), (n, j + s.length + t.length, j + s.length + t.length + (dec m).length),
    (name, j, j + s.length + t.length + (dec m).length)]

/-- What comes after the pre-release, in order. -/
def devText (v : Ver) : List Char := match v.dev with | none => [] | some n => ".dev".toList ++ dec n
def postText (v : Ver) : List Char := match v.post with | none => [] | some n => ".post".toList ++ dec n
def preText (v : Ver) : List Char := match v.pre with | none => [] | some (p, n) => p.text ++ dec n
def epochText (v : Ver) : List Char := if v.epoch = 0 then [] else dec v.epoch ++ ['!']
def releaseText (v : Ver) : List Char := dec v.release ++ v.releases.flatMap (fun n => '.' :: dec n)
def locText (v : Ver) : List Char :=
  match v.loc with | none => [] | some (s, ss) => '+' :: (s ++ ss.flatMap (fun q => q.1 :: q.2))

theorem ver_text (v : Ver) : v.text =
    epochText v ++ (releaseText v ++ (preText v ++ (postText v ++ (devText v ++ locText v)))) := by
  simp only [Ver.text, epochText, releaseText, preText, postText, devText, locText, List.append_assoc]
  rfl

def devCaps (v : Ver) (j : Nat) : List (String × Nat × Nat) :=
  match v.dev with | none => [] | some n => tagCaps "dev" "dev_l" "dev_n" ['.'] "dev".toList n j
def postCaps (v : Ver) (j : Nat) : List (String × Nat × Nat) :=
  match v.post with | none => [] | some n => tagCaps "post" "post_l" "post_n2" ['.'] "post".toList n j
def preCaps (v : Ver) (j : Nat) : List (String × Nat × Nat) :=
  match v.pre with | none => [] | some (p, n) => tagCaps "pre" "pre_l" "pre_n" [] p.text n j
def epochCaps (v : Ver) (j : Nat) : List (String × Nat × Nat) :=
  if v.epoch = 0 then [] else [("epoch", j, j + (dec v.epoch).length)]
def locCaps (v : Ver) (j : Nat) : List (String × Nat × Nat) :=
  match v.loc with | none => [] | some _ => [("local", j + 1, j + (locText v).length)]

theorem first_dev {F : Fold} (hF : Fold.OK F) (v : Ver) (j : Nat) {w : List Char} (hw : AtEnd w)
    (k : List (String × Nat × Nat)) :
    first (pDev F) ⟨j, devText v ++ w, k⟩ = some ⟨j + (devText v).length, w, k ++ devCaps v j⟩ := by
  unfold pDev devText devCaps
  cases v.dev with
  | none =>
    rw [first_none]
    · simp
    · refine out_grp_nil (tagged_nil ?_ ?_)
      · intro i; exact word_nil (atEnd_ci hF hw (by decide) (by decide))
      · intro c x he hs
        rw [List.nil_append] at he
        rw [atEnd_sep hw c x he] at hs
        cases hs
  | some n =>
    have h := first_grp (n := "dev") (first_tagged (l := "dev_l") (n := "dev_n") (a := word F ['d', 'e', 'v']) (s := ['.'])
      (t := "dev".toList) (.inl rfl) n j k (by simp) (fun i => first_word _ i _ k) (atEnd_d09 hw) (w := w))
    refine (first_opt (Eq.trans ?_ h)).trans ?_
    · simp
    · simp [tagCaps]; omega

/-- What may follow the pre-release: a post or development release, or the end. -/
def AfterPre (w : List Char) : Prop := AtEnd w ∨ (∃ x, w = '.' :: 'd' :: x) ∨ ∃ x, w = '.' :: 'p' :: 'o' :: x

theorem dev_after (v : Ver) {w : List Char} (hw : AtEnd w) :
    AtEnd (devText v ++ w) ∨ ∃ x, devText v ++ w = '.' :: 'd' :: x := by
  unfold devText
  cases v.dev with
  | none => exact .inl hw
  | some n => exact .inr ⟨_, rfl⟩

theorem post_after (v : Ver) {w : List Char} (hw : AtEnd w) : AfterPre (postText v ++ (devText v ++ w)) := by
  unfold postText
  cases v.post with
  | none =>
    rcases dev_after v hw with h | h
    · exact .inl h
    · exact .inr (.inl h)
  | some n => exact .inr (.inr ⟨_, rfl⟩)

theorem after_d09 {w : List Char} (h : AfterPre w) : NotStart d09 w := by
  rcases h with h | ⟨x, rfl⟩ | ⟨x, rfl⟩
  · exact atEnd_d09 h
  · exact notStart_cons (by decide)
  · exact notStart_cons (by decide)

theorem first_post {F : Fold} (hF : Fold.OK F) (v : Ver) (j : Nat) {w : List Char} (hw : AtEnd w)
    (k : List (String × Nat × Nat)) :
    first (pPost F) ⟨j, postText v ++ (devText v ++ w), k⟩ =
      some ⟨j + (postText v).length, devText v ++ w, k ++ postCaps v j⟩ := by
  have hd := dev_after v hw
  generalize hx : devText v ++ w = x at hd
  unfold pPost postText postCaps
  cases v.post with
  | none =>
    rw [first_none]
    · simp
    · refine out_grp_nil (out_alt_nil (out_seq_nil (lit_nil ?_)) (tagged_nil ?_ ?_))
      · rcases hd with h | ⟨y, rfl⟩
        · intro c y he
          have := atEnd_ne h he (d := '-') (by decide) (by decide)
          simpa using this
        · exact notStart_cons (by decide)
      · intro i
        rcases hd with h | ⟨y, rfl⟩
        · exact postWord_end hF h _ _
        · exact postWord_ascii hF (.inl rfl) _ _
      · intro c y he hs i
        rw [List.nil_append] at he
        rcases hd with h | ⟨z, rfl⟩
        · rw [atEnd_sep h c y he] at hs
          cases hs
        · cases he
          exact postWord_ascii hF (.inr rfl) _ _
  | some n =>
    have hn : NotStart d09 x := by
      rcases hd with h | ⟨y, rfl⟩
      · exact atEnd_d09 h
      · exact notStart_cons (by decide)
    have h := first_tagged (l := "post_l") (n := "post_n2") (a := pPostWord F) (s := ['.'])
      (t := "post".toList) (.inl rfl) n j k (by simp) (fun i => first_left (first_word _ i _ k)) hn
    have h0 : out (.seq (lit ['-']) (.grp "post_n1" digits)) ⟨j, ['.'] ++ ("post".toList ++ (dec n ++ x)), k⟩ = [] :=
      out_seq_nil (lit_nil (notStart_cons (by decide)))
    have h2 := first_grp (n := "post") ((first_right h0).trans h)
    refine (first_opt (Eq.trans ?_ h2)).trans ?_
    · simp
    · simp [tagCaps]; omega

theorem first_pre {F : Fold} (hF : Fold.OK F) (v : Ver) (j : Nat) {w : List Char} (hw : AfterPre w)
    (k : List (String × Nat × Nat)) :
    first (pPre F) ⟨j, preText v ++ w, k⟩ = some ⟨j + (preText v).length, w, k ++ preCaps v j⟩ := by
  unfold pPre preText preCaps
  cases v.pre with
  | none =>
    rw [first_none]
    · simp
    · refine out_grp_nil (tagged_nil ?_ ?_)
      · intro i
        rcases hw with h | ⟨x, rfl⟩ | ⟨x, rfl⟩
        · exact phase_end hF h _ _
        · exact phase_ascii hF (.inl rfl) _ _
        · exact phase_ascii hF (.inl rfl) _ _
      · intro c y he hs i
        rw [List.nil_append] at he
        rcases hw with h | ⟨x, rfl⟩ | ⟨x, rfl⟩
        · rw [atEnd_sep h c y he] at hs
          cases hs
        · cases he
          exact phase_ascii hF (.inr rfl) _ _
        · cases he
          exact phase_post hF _ _
  | some q =>
    obtain ⟨p, n⟩ := q
    have ha : ∀ i, first (pPhase F) ⟨i, p.text ++ (dec n ++ w), k⟩ = some ⟨i + p.text.length, dec n ++ w, k⟩ := by
      intro i
      unfold pPhase
      cases p with
      | a => exact first_left (first_word _ i _ k)
      | b =>
        show first _ ⟨i, 'b' :: (dec n ++ w), k⟩ = _
        rw [first_right (word_nil (ci_ascii hF (by decide) (by decide) (by decide)))]
        exact first_left (first_word _ i _ k)
      | rc =>
        show first _ ⟨i, 'r' :: 'c' :: (dec n ++ w), k⟩ = _
        rw [first_right (word_nil (ci_ascii hF (by decide) (by decide) (by decide))),
          first_right (word_nil (ci_ascii hF (by decide) (by decide) (by decide))),
          first_right (word_nil (ci_ascii hF (by decide) (by decide) (by decide)))]
        exact first_left (first_word _ i _ k)
    have h := first_grp (n := "pre") (first_tagged (l := "pre_l") (n := "pre_n") (a := pPhase F) (s := [])
      (t := p.text) (.inr rfl) n j k (by intro _; cases p <;> exact notStart_cons (by decide)) ha (after_d09 hw))
    refine (first_opt (Eq.trans ?_ h)).trans ?_
    · simp
    · simp [tagCaps]; omega

/-- What may follow the release: a pre-release too. -/
def AfterRelease (w : List Char) : Prop :=
  AfterPre w ∨ ∃ c x, w = c :: x ∧ (c = 'a' ∨ c = 'b' ∨ c = 'r')

theorem pre_after (v : Ver) {w : List Char} (hw : AfterPre w) : AfterRelease (preText v ++ w) := by
  unfold preText
  cases v.pre with
  | none => exact .inl hw
  | some q =>
    obtain ⟨p, n⟩ := q
    refine .inr ?_
    cases p
    · exact ⟨_, _, rfl, by simp⟩
    · exact ⟨_, _, rfl, by simp⟩
    · exact ⟨_, _, rfl, by simp⟩

theorem release_d09 {w : List Char} (h : AfterRelease w) : NotStart d09 w := by
  rcases h with h | ⟨c, x, rfl, rfl | rfl | rfl⟩
  · exact after_d09 h
  all_goals exact notStart_cons (by decide)

/-- Another release number does not follow. -/
theorem release_stop {w : List Char} (h : AfterRelease w) (i : Nat) (k : List (String × Nat × Nat)) :
    out (.seq (lit ['.']) digits) ⟨i, w, k⟩ = [] := by
  have hdot : ∀ (c : Char) (x : List Char), d09 c = false → out (.seq (lit ['.']) digits) ⟨i, '.' :: c :: x, k⟩ = [] := by
    intro c x hc
    rw [out.eq_3]
    have : out (lit ['.']) ⟨i, '.' :: c :: x, k⟩ = [⟨i + 1, c :: x, k⟩] := by
      unfold lit
      rw [out.eq_def]
      rfl
    rw [this]
    simp only [List.flatMap_cons, List.flatMap_nil, List.append_nil]
    exact out_seq_nil (out_chr_nil (notStart_cons hc))
  rcases h with (h | ⟨x, rfl⟩ | ⟨x, rfl⟩) | ⟨c, x, rfl, rfl | rfl | rfl⟩
  · refine out_seq_nil (lit_nil ?_)
    intro c y he
    have := atEnd_ne h he (d := '.') (by decide) (by decide)
    simpa using this
  · exact hdot _ _ (by decide)
  · exact hdot _ _ (by decide)
  all_goals exact out_seq_nil (lit_nil (notStart_cons (by decide)))

theorem first_release (v : Ver) (j : Nat) {w : List Char} (hw : AfterRelease w) (k : List (String × Nat × Nat)) :
    first pRelease ⟨j, releaseText v ++ w, k⟩ =
      some ⟨j + (releaseText v).length, w, k ++ [("release", j, j + (releaseText v).length)]⟩ := by
  have key : first (.seq digits (many (.seq (lit ['.']) digits))) ⟨j, releaseText v ++ w, k⟩ =
      some ⟨j + (releaseText v).length, w, k⟩ := by
    unfold releaseText
    have hne : ∀ (r : List Nat), NotStart d09 ((r.map fun n => '.' :: dec n).flatten ++ w) := by
      intro r
      cases r with
      | nil => exact release_d09 hw
      | cons n r => exact notStart_cons (by decide)
    have hstar := first_star (a := .seq (lit ['.']) digits) (v.releases.map fun n => '.' :: dec n)
      (j + (dec v.release).length) w k (by simp) ?_ (fun i => release_stop hw i k)
    · have hd := first_digits v.release j k (hne v.releases)
      rw [List.flatMap_def, List.append_assoc, List.length_append, ← Nat.add_assoc]
      exact first_seq hd hstar
    · intro l r p i he
      have hp : p ∈ v.releases.map fun n => '.' :: dec n := by rw [he]; simp
      obtain ⟨n, -, rfl⟩ := List.mem_map.1 hp
      have hr : ∃ r' : List Nat, r = r'.map fun n => '.' :: dec n := by
        have := List.map_eq_append_iff.1 he
        obtain ⟨l1, l2, -, -, h2⟩ := this
        obtain ⟨a, l3, -, -, h3⟩ := List.map_eq_cons_iff.1 h2
        exact ⟨l3, h3.symm⟩
      obtain ⟨r', rfl⟩ := hr
      refine first_seq (first_lit ['.'] i _ k) ?_
      have := first_digits n (i + 1) k (hne r')
      rw [show i + ('.' :: dec n).length = i + 1 + (dec n).length by rw [List.length_cons]; omega]
      exact this
  exact first_grp key

/-- A run of a class that something else follows is determined by the text. -/
theorem run_inj {p : Char → Bool} {a b x y : List Char} (ha : ∀ c ∈ a, p c = true) (hb : ∀ c ∈ b, p c = true)
    (hx : NotStart p x) (hy : NotStart p y) (h : a ++ x = b ++ y) : a = b ∧ x = y := by
  induction a generalizing b with
  | nil =>
    cases b with
    | nil => exact ⟨rfl, h⟩
    | cons c b =>
      have := hx c (b ++ y) h
      rw [hb c (by simp)] at this
      cases this
  | cons c a ih =>
    cases b with
    | nil =>
      have := hy c (a ++ x) h.symm
      rw [ha c (by simp)] at this
      cases this
    | cons d b =>
      simp only [List.cons_append, List.cons.injEq] at h
      obtain ⟨h1, h2⟩ := ih (fun z hz => ha z (by simp [hz])) (fun z hz => hb z (by simp [hz])) h.2
      exact ⟨by rw [h.1, h1], h2⟩

theorem first_epoch (v : Ver) (j : Nat) {w : List Char} (hw : AfterRelease w) (k : List (String × Nat × Nat)) :
    first pEpoch ⟨j, epochText v ++ (releaseText v ++ w), k⟩ =
      some ⟨j + (epochText v).length, releaseText v ++ w, k ++ epochCaps v j⟩ := by
  unfold pEpoch epochText epochCaps
  by_cases h0 : v.epoch = 0
  · rw [if_pos h0, if_pos h0, first_none]
    · simp
    · refine out_nil (by simp [Free, digits, plus, lit]) ?_
      rintro u x he ⟨a, b, rfl, ha, hb⟩
      rw [lang_lit] at hb
      subst hb
      have ha := (lang_plus_chr d09 a).1 ha
      have hy : NotStart d09 (v.releases.flatMap (fun n => '.' :: dec n) ++ w) := by
        cases v.releases with
        | nil => exact release_d09 hw
        | cons n r => exact notStart_cons (by decide)
      have he2 : dec v.release ++ (v.releases.flatMap (fun n => '.' :: dec n) ++ w) = a ++ '!' :: x := by
        unfold releaseText at he
        simpa using he
      have := (run_inj (dec_d09 v.release).2 ha.2 hy (notStart_cons (by decide)) he2).2
      cases hr : v.releases with
      | cons n r => rw [hr] at this; simp at this
      | nil =>
        rw [hr] at this
        simp only [List.flatMap_nil, List.nil_append] at this
        rcases hw with (h | ⟨y, rfl⟩ | ⟨y, rfl⟩) | ⟨c, y, rfl, rfl | rfl | rfl⟩
        · exact absurd rfl (atEnd_ne h this (d := '!') (by decide) (by decide))
        all_goals simp at this
  · rw [if_neg h0, if_neg h0]
    have h1 := first_grp (n := "epoch") (first_digits v.epoch j k (w := ['!'] ++ (releaseText v ++ w)) (notStart_cons (by decide)))
    have h2 := first_seq h1 (first_lit ['!'] _ _ _)
    rw [List.append_assoc]
    refine (first_opt h2).trans ?_
    simp
    omega

/-! ### The local version -/

/-- `[a-z0-9]`, case ignored, as a test. -/
def alnumP (F : Fold) (x : Char) : Bool :=
  low x || (decide ('A'.toNat ≤ x.toNat) && decide (x.toNat ≤ 'Z'.toNat)) || F.alnum x

theorem alnumP_low (F : Fold) {x : Char} (h : low x = true) : alnumP F x = true := by simp [alnumP, h]

theorem alnumP_no {F : Fold} (hF : Fold.OK F) {x : Char} (h : Query.reSpace x = true ∨ x = '-' ∨ x = '_' ∨ x = '.') :
    alnumP F x = false := by
  have e : x.toNat ≤ 32 ∨ 127 < x.toNat ∨ x.toNat = 45 ∨ x.toNat = 95 ∨ x.toNat = 46 := by
    rcases h with h | rfl | rfl | rfl
    · have := space_range h; omega
    · exact .inr (.inr (.inl rfl))
    · exact .inr (.inr (.inr (.inl rfl)))
    · exact .inr (.inr (.inr (.inr rfl)))
  have h1 : F.alnum x = false := by
    cases hl : F.alnum x with
    | false => rfl
    | true =>
      have := hF.alnum x hl
      rcases h with h | h | h | h
      · rw [h] at this; exact absurd this.2 (by simp)
      all_goals (subst h; exact absurd this.1 (by decide))
  have e1 : 'a'.toNat = 97 := rfl
  have e2 : 'z'.toNat = 122 := rfl
  have e3 : 'A'.toNat = 65 := rfl
  have e4 : 'Z'.toNat = 90 := rfl
  have e5 : '0'.toNat = 48 := rfl
  have e6 : '9'.toNat = 57 := rfl
  unfold alnumP
  rw [h1, Bool.or_false, Bool.or_eq_false_iff]
  constructor
  · cases hl : low x with
    | false => rfl
    | true => rw [low_iff] at hl; omega
  · simp only [Bool.and_eq_false_iff, decide_eq_false_iff_not]; omega

theorem first_local {F : Fold} (hF : Fold.OK F) (v : Ver) (hv : v.Proper) (j : Nat) {w : List Char}
    (hw : ∀ c ∈ w, Query.reSpace c = true) (k : List (String × Nat × Nat)) :
    first (pLocal F) ⟨j, locText v ++ w, k⟩ = some ⟨j + (locText v).length, w, k ++ locCaps v j⟩ := by
  have hw0 : ∀ c x, w = c :: x → Query.reSpace c = true := by
    rintro c x rfl; exact hw c (by simp)
  unfold pLocal locText locCaps
  cases hl : v.loc with
  | none =>
    rw [first_none]
    · simp
    · refine out_seq_nil (lit_nil ?_)
      intro c x he
      rw [List.nil_append] at he
      have := space_range (hw0 c x he)
      cases hc : c == '+' with
      | false => exact hc
      | true =>
        rw [beq_iff_eq] at hc
        subst hc
        exact absurd this (by decide)
  | some q =>
    obtain ⟨s, ss⟩ := q
    obtain ⟨hs, hss⟩ := hv s ss hl
    have hseg : ∀ u, Segment u → u ≠ [] ∧ ∀ c ∈ u, alnumP F c = true :=
      fun u hu => ⟨hu.1, fun c hc => alnumP_low F ((low_iff c).2 (hu.2 c hc))⟩
    have hne : ∀ (r : List (Char × List Char)), (∀ q ∈ r, q.1 = '-' ∨ q.1 = '_' ∨ q.1 = '.') →
        NotStart (alnumP F) ((r.map fun q => q.1 :: q.2).flatten ++ w) := by
      intro r hr
      cases r with
      | nil => intro c x he; exact alnumP_no hF (.inl (hw0 c x he))
      | cons q r => exact notStart_cons (alnumP_no hF (.inr (hr q (by simp))))
    have hstar := first_star (a := .seq (.chr sep) (plus (alnum F))) (ss.map fun q => q.1 :: q.2)
      (j + 1 + s.length) w k (by intro p hp; obtain ⟨q, -, rfl⟩ := List.mem_map.1 hp; simp) ?_ ?_
    · have hd := first_plus (p := alnumP F) (hseg s hs).1 (hseg s hs).2 (j + 1) k (hne ss (fun q hq => (hss q hq).1))
      have h1 := first_grp (n := "local") (first_seq hd hstar)
      have h2 := first_opt (first_seq (first_lit ['+'] j _ k) h1)
      refine Eq.trans ?_ (h2.trans ?_)
      · simp only [List.flatMap_def, List.cons_append, List.nil_append, List.append_assoc]
        rfl
      · have e : (locText v).length = 1 + s.length + (ss.map fun q => q.1 :: q.2).flatten.length := by
          unfold locText
          rw [hl]
          simp only [List.flatMap_def, List.length_cons, List.length_append]
          omega
        dsimp only
        rw [e]
        simp only [List.flatMap_def, List.length_cons, List.length_append, Option.some.injEq, St.mk.injEq, true_and]
        refine ⟨by omega, ?_⟩
        rw [show j + 1 + s.length + (ss.map fun q => q.1 :: q.2).flatten.length =
          j + (1 + s.length + (ss.map fun q => q.1 :: q.2).flatten.length) by omega]
    · intro l r p i he
      have hp : p ∈ ss.map fun q => q.1 :: q.2 := by rw [he]; simp
      obtain ⟨q, hq, rfl⟩ := List.mem_map.1 hp
      have hr : ∃ r' : List (Char × List Char), r = r'.map (fun q => q.1 :: q.2) ∧ ∀ q ∈ r', q ∈ ss := by
        obtain ⟨l1, l2, h0, -, h2⟩ := List.map_eq_append_iff.1 he
        obtain ⟨a, l3, h4, -, h3⟩ := List.map_eq_cons_iff.1 h2
        exact ⟨l3, h3.symm, by intro q hq; rw [h0, h4]; simp [hq]⟩
      obtain ⟨r', rfl, hr'⟩ := hr
      obtain ⟨h1, h2⟩ := hss q hq
      refine first_seq (first_chr (by unfold sep; rcases h1 with h | h | h <;> rw [h] <;> decide)) ?_
      have := first_plus (p := alnumP F) (hseg _ h2).1 (hseg _ h2).2 (i + 1) k (hne r' (fun q hq => (hss q (hr' q hq)).1))
      rw [show i + (q.1 :: q.2).length = i + 1 + q.2.length by rw [List.length_cons]; omega]
      exact this
    · intro i
      refine out_seq_nil (out_chr_nil ?_)
      refine atEnd_sep ?_
      intro c x he
      exact .inl (hw0 c x he)

/-! ### The whole pattern -/

/-- The captures, in the order in which they are made, for a version whose text starts at `j`. -/
def verCaps (v : Ver) (j : Nat) : List (String × Nat × Nat) :=
  let j1 := j + (epochText v).length
  let j2 := j1 + (releaseText v).length
  let j3 := j2 + (preText v).length
  let j4 := j3 + (postText v).length
  let j5 := j4 + (devText v).length
  epochCaps v j ++ [("release", j1, j2)] ++ preCaps v j2 ++ postCaps v j3 ++ devCaps v j4 ++ locCaps v j5

theorem loc_atEnd (v : Ver) {w : List Char} (hw : ∀ c ∈ w, Query.reSpace c = true) : AtEnd (locText v ++ w) := by
  unfold locText
  cases v.loc with
  | none =>
    intro c x he
    rw [List.nil_append] at he
    exact .inl (hw c (by rw [he]; simp))
  | some q => intro c x he; cases he; exact .inr rfl

theorem text_start (v : Ver) (w : List Char) : ∃ c x, v.text ++ w = c :: x ∧ d09 c = true := by
  have : ∃ n y, v.text ++ w = dec n ++ y := by
    rw [ver_text]
    unfold epochText releaseText
    split
    · exact ⟨v.release, _, by simp only [List.nil_append, List.append_assoc]; rfl⟩
    · exact ⟨v.epoch, _, by simp only [List.append_assoc]; rfl⟩
  obtain ⟨n, y, h⟩ := this
  obtain ⟨h1, h2⟩ := dec_d09 n
  cases hd : dec n with
  | nil => exact absurd hd h1
  | cons c x => exact ⟨c, x ++ y, by rw [h, hd]; rfl, h2 c (by rw [hd]; simp)⟩

theorem first_parse {F : Fold} (hF : Fold.OK F) (v : Ver) (hv : v.Proper) {a p b : List Char}
    (ha : ∀ c ∈ a, Query.reSpace c = true) (hb : ∀ c ∈ b, Query.reSpace c = true) (hp : p = [] ∨ p = ['v'] ∨ p = ['V']) :
    first (parseRe F) ⟨0, a ++ p ++ v.text ++ b, []⟩ =
      some ⟨(a ++ p ++ v.text ++ b).length, [], verCaps v (a.length + p.length)⟩ := by
  obtain ⟨c, x, hc, hcd⟩ := text_start v b
  have hcr := d09_range hcd
  have hpv : first (opt (ci F 'v')) ⟨a.length, p ++ (v.text ++ b), []⟩ = some ⟨a.length + p.length, v.text ++ b, []⟩ := by
    rcases hp with rfl | rfl | rfl
    · rw [first_none]
      · rfl
      · rw [List.nil_append, hc]
        refine out_chr_nil (ci_ascii hF (by omega) ?_ ?_)
        · rintro rfl; exact absurd hcd (by decide)
        · rintro rfl; exact absurd hcd (by decide)
    · exact first_opt (first_chr (by simp))
    · exact first_opt (first_chr (by simp))
  have hsp : first spaces ⟨0, a ++ (p ++ (v.text ++ b)), []⟩ = some ⟨a.length, p ++ (v.text ++ b), []⟩ := by
    have := first_run ha 0 [] (w := p ++ (v.text ++ b)) ?_
    · rw [Nat.zero_add] at this; exact this
    · intro d y he
      cases hd : Query.reSpace d with
      | false => rfl
      | true =>
        have hr := space_range hd
        rcases hp with rfl | rfl | rfl
        · rw [List.nil_append, hc] at he
          cases he
          omega
        · cases he
          exact absurd hr (by decide)
        · cases he
          exact absurd hr (by decide)
  have hend := loc_atEnd v hb
  have hpost := post_after v hend
  have hpre := pre_after v hpost
  have hbos : first .bos ⟨0, a ++ (p ++ (v.text ++ b)), []⟩ = some ⟨0, a ++ (p ++ (v.text ++ b)), []⟩ := rfl
  have htail : ∀ i k, first (.seq spaces .eos) ⟨i, b, k⟩ = some ⟨i + b.length, [], k⟩ := by
    intro i k
    have := first_run hb i k (notStart_nil Query.reSpace)
    rw [List.append_nil] at this
    exact first_seq this rfl
  have e : a ++ p ++ v.text ++ b = a ++ (p ++ (v.text ++ b)) := by simp
  have e2 : v.text ++ b =
      epochText v ++ (releaseText v ++ (preText v ++ (postText v ++ (devText v ++ (locText v ++ b))))) := by
    rw [ver_text]; simp
  have hrest := first_seq (first_epoch v (a.length + p.length) hpre []) (first_seq (first_release v _ hpre _)
    (first_seq (first_pre hF v _ hpost _) (first_seq (first_post hF v _ hend _) (first_seq (first_dev hF v _ hend _)
      (first_seq (first_local hF v hv _ hb _) (htail _ _))))))
  rw [← e2] at hrest
  rw [e]
  refine (first_seq hbos (first_seq hsp (first_seq hpv hrest))).trans ?_
  rw [e2]
  simp only [List.length_append, Option.some.injEq, St.mk.injEq, verCaps, List.nil_append, true_and, and_true]
  omega

end Pawpaw.Props
