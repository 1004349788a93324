import Verif.Spec.Number
import Verif.Lemmas.Regex
/-!
# C93: what the pattern of `nlp.Number` finds
-/
set_option linter.unusedSectionVars false
set_option linter.unusedSimpArgs false
namespace Pawpaw.Props
open Pawpaw Pawpaw.Regex Pawpaw.NumberRe RegexSpec NumberSpec

/-! ### Patterns whose first way of matching is the longest -/

/-- The first way of matching is the longest. -/
def Best (r : Re) : Prop := ∀ st st' h, st' ∈ out r st → (out r st).head? = some h → st'.pos ≤ h.pos

/-- There is at most one way of matching. -/
def Det (r : Re) : Prop := ∀ st, (out r st).length ≤ 1

theorem det_best {r : Re} (h : Det r) : Best r := by
  intro st st' h' hm hh
  have := h st
  cases ho : out r st with
  | nil => rw [ho] at hm; cases hm
  | cons s l =>
    rw [ho] at hm hh this
    have hl : l = [] := by simpa using this
    subst hl
    rw [List.mem_singleton] at hm
    cases hh
    rw [hm]
    exact Nat.le_refl _

theorem det_chr (p : Char → Bool) : Det (.chr p) := by
  intro st
  rw [out]
  split
  · simp
  · split <;> simp

theorem det_eps : Det .eps := by intro st; rw [out]; simp

theorem det_seq {a b : Re} (ha : Det a) (hb : Det b) : Det (.seq a b) := by
  intro st
  rw [out]
  have := ha st
  cases ho : out a st with
  | nil => simp
  | cons s l =>
    rw [ho] at this
    have hl : l = [] := by simpa using this
    subst hl
    simpa using hb s

theorem det_lit : ∀ cs : List Char, Det (lit cs)
  | [] => det_eps
  | [c] => det_chr _
  | _ :: d :: cs => det_seq (det_chr _) (det_lit (d :: cs))

theorem best_grp {n : String} {a : Re} (h : Best a) : Best (.grp n a) := by
  intro st st' h' hm hh
  rw [out] at hm hh
  obtain ⟨s, hs, rfl⟩ := List.mem_map.1 hm
  rw [List.head?_map] at hh
  cases ho : (out a st).head? with
  | none => rw [ho] at hh; cases hh
  | some t =>
    rw [ho] at hh
    cases hh
    exact h st s t hs ho

theorem best_star {a : Re} (h : Det a) : Best (.star true a) := by
  intro st st' h'
  rw [out]
  generalize st.rest.length = n
  intro hm hh
  have mono : ∀ (n : Nat) (st st' : St), st' ∈ iter true (out a) n st → st.pos ≤ st'.pos := by
    intro n
    induction n with
    | zero => intro st st' h; rw [iter, List.mem_singleton] at h; rw [h]; exact Nat.le_refl _
    | succ n ih =>
      intro st st' h
      rw [iter] at h
      simp only [if_true, List.mem_append, List.mem_singleton, List.mem_flatMap] at h
      rcases h with ⟨s, _, h⟩ | h
      · split at h
        · have := ih s st' h; omega
        · cases h
      · rw [h]; exact Nat.le_refl _
  induction n generalizing st with
  | zero =>
    rw [iter, List.mem_singleton] at hm
    rw [iter] at hh
    cases hh
    rw [hm]
    exact Nat.le_refl _
  | succ n ih =>
    have hd := h st
    rw [iter] at hm hh
    simp only [if_true] at hm hh
    cases ho : out a st with
    | nil =>
      rw [ho] at hm hh
      simp only [List.flatMap_nil, List.nil_append, List.mem_singleton] at hm hh
      cases hh
      rw [hm]
      exact Nat.le_refl _
    | cons s l =>
      rw [ho] at hm hh hd
      have hl : l = [] := by simpa using hd
      subst hl
      simp only [List.flatMap_cons, List.flatMap_nil, List.append_nil] at hm hh
      by_cases hp : st.pos < s.pos
      · rw [if_pos hp] at hm hh
        have hne : ∃ x, (iter true (out a) n s).head? = some x := by
          cases n with
          | zero => exact ⟨s, rfl⟩
          | succ n =>
            rw [iter]
            simp only [if_true]
            cases (List.flatMap (fun st' => if s.pos < st'.pos then iter true (out a) n st' else []) (out a s)) <;> simp
        obtain ⟨x, hx⟩ := hne
        rw [List.head?_append, hx] at hh
        have hx' : x = h' := Option.some.inj hh
        subst hx'
        rcases List.mem_append.1 hm with hm | hm
        · exact ih s hm hx
        · rw [List.mem_singleton] at hm
          subst hm
          have := mono n s x (List.mem_of_mem_head? (by rw [hx]; rfl))
          omega
      · rw [if_neg hp] at hm hh
        simp only [List.nil_append, List.mem_singleton] at hm hh
        cases hh
        rw [hm]
        exact Nat.le_refl _

theorem head_flatMap {τ σ : Type} (f : τ → List σ) : ∀ (l : List τ) (h : σ), (l.flatMap f).head? = some h →
    ∃ x ∈ l, (f x).head? = some h
  | [], _, h => by simp at h
  | x :: l, y, h => by
    rw [List.flatMap_cons, List.head?_append] at h
    cases hx : (f x).head? with
    | none =>
      rw [hx] at h
      obtain ⟨z, h1, h2⟩ := head_flatMap f l y h
      exact ⟨z, by simp [h1], h2⟩
    | some w =>
      rw [hx] at h
      exact ⟨x, by simp, by rw [hx]; exact h⟩

/-- Two readings of the same text, of which one is not longer. -/
theorem reads_le {st s1 s2 : St} {u1 u2 : List Char} (h1 : Reads st u1 s1) (h2 : Reads st u2 s2) (h : u1.length ≤ u2.length) :
    ∃ w, u2 = u1 ++ w ∧ s1.rest = w ++ s2.rest := by
  have e : u1 ++ s1.rest = u2 ++ s2.rest := h1.1.symm.trans h2.1
  rcases List.append_eq_append_iff.1 e with ⟨w, a, b⟩ | ⟨w, a, b⟩
  · exact ⟨w, a, b⟩
  · have : w = [] := by
      have := congrArg List.length a
      rw [List.length_append] at this
      exact List.length_eq_zero_iff.1 (by omega)
    subst this
    exact ⟨[], by simpa using a.symm, by simpa using b.symm⟩

/-- A sequence in which the text decides how far the first part goes. -/
theorem best_seq_fixed {a b : Re} (fa : Free a) (fb : Free b) (hb : Best b)
    (H : ∀ u1 u2 v1 v2 w1 w2, Lang a u1 → Lang a u2 → Lang b v1 → Lang b v2 → u1 ++ v1 ++ w1 = u2 ++ v2 ++ w2 → u1 = u2) :
    Best (.seq a b) := by
  intro st st' h hm hh
  rw [out] at hm hh
  obtain ⟨s1, hs1, h1⟩ := head_flatMap _ _ _ hh
  obtain ⟨s2, hs2, h2⟩ := List.mem_flatMap.1 hm
  have hh1 : h ∈ out b s1 := List.mem_of_mem_head? (by rw [h1]; rfl)
  obtain ⟨u1, r1, l1⟩ := out_sound a fa _ _ hs1
  obtain ⟨u2, r2, l2⟩ := out_sound a fa _ _ hs2
  obtain ⟨v1, q1, m1⟩ := out_sound b fb _ _ hh1
  obtain ⟨v2, q2, m2⟩ := out_sound b fb _ _ h2
  have e1 := (r1.trans q1).1
  have e2 := (r2.trans q2).1
  have hu : u1 = u2 := H u1 u2 v1 v2 h.rest st'.rest l1 l2 m1 m2 (e1.symm.trans e2)
  subst hu
  have hrest : s1.rest = v2 ++ st'.rest := by
    have : u1 ++ s1.rest = u1 ++ (v2 ++ st'.rest) := by rw [← r1.1, e2, List.append_assoc]
    exact List.append_cancel_left this
  obtain ⟨c, hc⟩ := out_complete b s1 v2 st'.rest hrest m2
  have := hb s1 _ h hc h1
  dsimp only at this
  rw [q2.2, r2.2, ← r1.2]
  exact this

/-- A sequence whose second part may be empty, and cannot start where the first part could go on. -/
theorem best_seq_opt {a b : Re} (fa : Free a) (fb : Free b) (ha : Best a) (hb : Best b) (hn : Lang b [])
    (H : ∀ u c w v x y, Lang a u → Lang a (u ++ c :: w) → Lang b v → v ++ x = c :: y → v = []) : Best (.seq a b) := by
  intro st st' h hm hh
  rw [out] at hm hh
  obtain ⟨s2, hs2, h2⟩ := List.mem_flatMap.1 hm
  cases ho : out a st with
  | nil => rw [ho] at hs2; cases hs2
  | cons s1 l =>
    have hs1 : s1 ∈ out a st := by rw [ho]; exact List.mem_cons_self
    have hbest := ha st s2 s1 hs2 (by rw [ho]; rfl)
    obtain ⟨c0, hc0⟩ := out_complete b s1 [] s1.rest rfl hn
    cases hob : out b s1 with
    | nil => rw [hob] at hc0; cases hc0
    | cons t tl =>
      have h1 : (out b s1).head? = some h := by
        rw [ho, List.flatMap_cons, List.head?_append, hob] at hh
        rw [hob]
        exact hh
      have hh1 : h ∈ out b s1 := List.mem_of_mem_head? (by rw [h1]; rfl)
      obtain ⟨u1, r1, l1⟩ := out_sound a fa _ _ hs1
      obtain ⟨u2, r2, l2⟩ := out_sound a fa _ _ hs2
      obtain ⟨v1, q1, m1⟩ := out_sound b fb _ _ hh1
      obtain ⟨v2, q2, m2⟩ := out_sound b fb _ _ h2
      have hlen : u2.length ≤ u1.length := by have := r1.2; have := r2.2; omega
      obtain ⟨w, hw, hrw⟩ := reads_le r2 r1 hlen
      cases w with
      | nil =>
        rw [List.append_nil] at hw
        subst hw
        have hrest : s1.rest = v2 ++ st'.rest := by rw [← q2.1]; simpa using hrw.symm
        obtain ⟨c, hc⟩ := out_complete b s1 v2 st'.rest hrest m2
        have := hb s1 _ h hc h1
        dsimp only at this
        rw [q2.2, r2.2, ← r1.2]
        exact this
      | cons c w =>
        have hv : v2 = [] := H u2 c w v2 st'.rest (w ++ s1.rest) l2 (hw ▸ l1) m2 (by rw [← q2.1, hrw]; rfl)
        subst hv
        have a1 := q2.2
        have a2 := q1.2
        simp at a1
        omega

/-- A choice in which the first alternative, where it applies, is never shorter. -/
theorem best_alt {a b : Re} (fa : Free a) (fb : Free b) (ha : Best a) (hb : Best b)
    (H : ∀ u v x y, Lang a u → Lang b v → u ++ x = v ++ y → v.length ≤ u.length) : Best (.alt a b) := by
  intro st st' h hm hh
  rw [out] at hm hh
  cases ho : out a st with
  | nil =>
    rw [ho] at hm hh
    exact hb st st' h hm hh
  | cons s l =>
    rw [ho] at hh
    have hh' : s = h := by simpa using hh
    subst hh'
    have hs : (out a st).head? = some s := by rw [ho]; rfl
    rcases List.mem_append.1 hm with hm | hm
    · exact ha st st' s hm hs
    · obtain ⟨u, r1, l1⟩ := out_sound a fa _ _ (List.mem_of_mem_head? (by rw [hs]; rfl))
      obtain ⟨v, r2, l2⟩ := out_sound b fb _ _ hm
      have := H u v s.rest st'.rest l1 l2 (r1.1.symm.trans r2.1)
      rw [r1.2, r2.2]
      omega

theorem best_opt {a : Re} (fa : Free a) (ha : Best a) : Best (opt a) :=
  best_alt fa trivial ha (det_best det_eps) (by
    intro u v x y _ hv _
    have : v = [] := hv
    rw [this]; simp)

/-! ### The language of the pattern -/

variable {F : Fmt}

theorem lang_signG (u : List Char) : Lang signG u ↔ u = ['-'] ∨ u = ['+'] := by
  show (∃ c, signC c = true ∧ u = [c]) ↔ _
  constructor
  · rintro ⟨c, hc, rfl⟩
    unfold signC at hc
    rw [Bool.or_eq_true, beq_iff_eq, beq_iff_eq] at hc
    rcases hc with rfl | rfl <;> simp
  · rintro (rfl | rfl)
    · exact ⟨'-', rfl, rfl⟩
    · exact ⟨'+', rfl, rfl⟩

theorem lang_signQ (u : List Char) : Lang (opt signG) u ↔ Sign u := by
  rw [lang_opt, lang_signG]
  unfold Sign
  constructor
  · rintro ((h | h) | h) <;> simp [h]
  · rintro (h | h | h) <;> simp [h]

theorem lang_spaceQ (u : List Char) : Lang spaceQ u ↔ Space u := by
  unfold spaceQ Space
  rw [lang_opt]
  have : Lang (.chr (· == ' ')) u ↔ u = [' '] := lang_lit [' '] u
  rw [this]
  exact or_comm

theorem lang_digits (u : List Char) : Lang (plus (.chr F.digit)) u ↔ Digits F u := lang_plus_chr _ _

theorem lang_expN (u : List Char) : Lang (expN F) u ↔ ∃ sg ds, u = sg ++ ds ∧ Sign sg ∧ Digits F ds := by
  show (∃ v w, u = v ++ w ∧ Lang (opt signG) v ∧ Lang (plus (.chr F.digit)) w) ↔ _
  simp only [lang_signQ, lang_digits]

theorem lang_eC (u : List Char) : Lang (.chr eC) u ↔ ∃ c, u = [c] ∧ (c = 'E' ∨ c = 'e') := by
  show (∃ c, eC c = true ∧ u = [c]) ↔ _
  constructor
  · rintro ⟨c, hc, rfl⟩
    exact ⟨c, rfl, by simpa [eC] using hc⟩
  · rintro ⟨c, rfl, hc⟩
    exact ⟨c, by simpa [eC] using hc, rfl⟩

theorem lang_xC (u : List Char) : Lang (.chr xC) u ↔ ∃ c, u = [c] ∧ (c = 'X' ∨ c = 'x' ∨ c = '\u2715') := by
  show (∃ c, xC c = true ∧ u = [c]) ↔ _
  constructor
  · rintro ⟨c, hc, rfl⟩
    exact ⟨c, rfl, by simpa [xC, or_assoc] using hc⟩
  · rintro ⟨c, rfl, hc⟩
    exact ⟨c, by simpa [xC, or_assoc] using hc, rfl⟩

theorem lang_expE (u : List Char) : Lang (expE F) u ↔
    ∃ c sg ds, u = c :: sg ++ ds ∧ (c = 'E' ∨ c = 'e') ∧ Sign sg ∧ Digits F ds := by
  show (∃ v w, u = v ++ w ∧ Lang (.chr eC) v ∧ Lang (expN F) w) ↔ _
  simp only [lang_eC, lang_expN]
  constructor
  · rintro ⟨_, _, rfl, ⟨c, rfl, hc⟩, sg, ds, rfl, h1, h2⟩
    exact ⟨c, sg, ds, by simp, hc, h1, h2⟩
  · rintro ⟨c, sg, ds, rfl, hc, h1, h2⟩
    exact ⟨[c], sg ++ ds, by simp, ⟨c, rfl, hc⟩, sg, ds, rfl, h1, h2⟩

theorem lang_expX (u : List Char) : Lang (expX F) u ↔
    ∃ s1 c s2 s3 sg ds, u = s1 ++ c :: s2 ++ '1' :: '0' :: '^' :: s3 ++ sg ++ ds ∧ (c = 'X' ∨ c = 'x' ∨ c = '\u2715') ∧
      Space s1 ∧ Space s2 ∧ Space s3 ∧ Sign sg ∧ Digits F ds := by
  show (∃ s1 w1, u = s1 ++ w1 ∧ Lang spaceQ s1 ∧ ∃ x w2, w1 = x ++ w2 ∧ Lang (.chr xC) x ∧
    ∃ s2 w3, w2 = s2 ++ w3 ∧ Lang spaceQ s2 ∧ ∃ t w4, w3 = t ++ w4 ∧ Lang (lit ['1', '0', '^']) t ∧
    ∃ s3 w5, w4 = s3 ++ w5 ∧ Lang spaceQ s3 ∧ Lang (expN F) w5) ↔ _
  simp only [lang_xC, lang_expN, lang_spaceQ, lang_lit]
  constructor
  · rintro ⟨s1, _, rfl, h1, _, _, rfl, ⟨c, rfl, hc⟩, s2, _, rfl, h2, _, _, rfl, rfl, s3, _, rfl, h3, sg, ds, rfl, h4, h5⟩
    exact ⟨s1, c, s2, s3, sg, ds, by simp, hc, h1, h2, h3, h4, h5⟩
  · rintro ⟨s1, c, s2, s3, sg, ds, rfl, hc, h1, h2, h3, h4, h5⟩
    exact ⟨s1, c :: s2 ++ '1' :: '0' :: '^' :: s3 ++ sg ++ ds, by simp, h1, [c], s2 ++ '1' :: '0' :: '^' :: s3 ++ sg ++ ds,
      by simp, ⟨c, rfl, hc⟩, s2, '1' :: '0' :: '^' :: s3 ++ sg ++ ds, by simp, h2, ['1', '0', '^'], s3 ++ sg ++ ds, by simp, rfl,
      s3, sg ++ ds, by simp, h3, sg, ds, rfl, h4, h5⟩

theorem lang_expG (u : List Char) : Lang (expG F) u ↔ IsExp F u := by
  show (Lang (expE F) u ∨ Lang (expX F) u) ↔ _
  rw [lang_expE, lang_expX]
  rfl

theorem lang_d (u : List Char) : Lang (.chr F.digit) u ↔ ∃ c, u = [c] ∧ F.digit c = true := by
  show (∃ c, F.digit c = true ∧ u = [c]) ↔ _
  constructor
  · rintro ⟨c, h, rfl⟩; exact ⟨c, rfl, h⟩
  · rintro ⟨c, rfl, h⟩; exact ⟨c, h, rfl⟩

theorem lang_d13 (u : List Char) : Lang (d13 F) u ↔ Digits F u ∧ u.length ≤ 3 := by
  show (∃ v w, u = v ++ w ∧ Lang (.chr F.digit) v ∧ ((∃ v' w', w = v' ++ w' ∧ Lang (.chr F.digit) v' ∧
    (Lang (.chr F.digit) w' ∨ w' = [])) ∨ w = [])) ↔ _
  simp only [lang_d]
  unfold Digits
  constructor
  · rintro ⟨_, _, rfl, ⟨c, rfl, hc⟩, (⟨_, _, rfl, ⟨d, rfl, hd⟩, (⟨e, rfl, he⟩ | rfl)⟩ | rfl)⟩
    · simp [hc, hd, he]
    · simp [hc, hd]
    · simp [hc]
  · rintro ⟨⟨h1, h2⟩, h3⟩
    match u, h1, h2, h3 with
    | [c], _, h2, _ => exact ⟨[c], [], rfl, ⟨c, rfl, h2 c (by simp)⟩, Or.inr rfl⟩
    | [c, d], _, h2, _ =>
      exact ⟨[c], [d], rfl, ⟨c, rfl, h2 c (by simp)⟩, Or.inl ⟨[d], [], rfl, ⟨d, rfl, h2 d (by simp)⟩, Or.inr rfl⟩⟩
    | [c, d, e], _, h2, _ =>
      exact ⟨[c], [d, e], rfl, ⟨c, rfl, h2 c (by simp)⟩,
        Or.inl ⟨[d], [e], rfl, ⟨d, rfl, h2 d (by simp)⟩, Or.inl ⟨e, rfl, h2 e (by simp)⟩⟩⟩
    | _ :: _ :: _ :: _ :: _, _, _, h3 => simp at h3

theorem lang_group3 (u : List Char) : Lang (group3 F) u ↔ ∃ g, u = F.sep ++ g ∧ Digits F g ∧ g.length = 3 := by
  show (∃ v w, u = v ++ w ∧ Lang (lit F.sep) v ∧ ∃ a b, w = a ++ b ∧ Lang (.chr F.digit) a ∧ ∃ c d, b = c ++ d ∧
    Lang (.chr F.digit) c ∧ Lang (.chr F.digit) d) ↔ _
  simp only [lang_d, lang_lit]
  unfold Digits
  constructor
  · rintro ⟨_, _, rfl, rfl, _, _, rfl, ⟨c, rfl, hc⟩, _, _, rfl, ⟨d, rfl, hd⟩, e, rfl, he⟩
    exact ⟨_, rfl, ⟨by simp, by simp [hc, hd, he]⟩, rfl⟩
  · rintro ⟨g, rfl, ⟨_, h2⟩, h3⟩
    match g, h2, h3 with
    | [c, d, e], h2, _ =>
      exact ⟨F.sep, [c, d, e], rfl, rfl, [c], [d, e], rfl, ⟨c, rfl, h2 c (by simp)⟩, [d], [e], rfl,
        ⟨d, rfl, h2 d (by simp)⟩, e, rfl, h2 e (by simp)⟩

/-- Groups of three digits, a separator before each. -/
def Groups (F : Fmt) (u : List Char) : Prop :=
  ∃ gs : List (List Char), u = (gs.map (F.sep ++ ·)).flatten ∧ gs ≠ [] ∧ ∀ g ∈ gs, Digits F g ∧ g.length = 3

theorem lang_groups (u : List Char) : Lang (plus (group3 F)) u ↔ Groups F u := by
  show (∃ v w, u = v ++ w ∧ Lang (group3 F) v ∧ Many (Lang (group3 F)) w) ↔ _
  simp only [lang_group3, many_iff]
  constructor
  · rintro ⟨_, _, rfl, ⟨g, rfl, h1⟩, ps, h2, rfl⟩
    have : ∃ gs : List (List Char), ps = gs.map (F.sep ++ ·) ∧ ∀ g ∈ gs, Digits F g ∧ g.length = 3 := by
      clear h1
      induction ps with
      | nil => exact ⟨[], rfl, by simp⟩
      | cons p ps ih =>
        obtain ⟨gs, e, hgs⟩ := ih (fun q hq => h2 q (by simp [hq]))
        obtain ⟨g', rfl, hg'⟩ := h2 p (by simp)
        refine ⟨g' :: gs, by rw [e]; rfl, ?_⟩
        intro x hx
        rcases List.mem_cons.1 hx with rfl | hx
        · exact hg'
        · exact hgs x hx
    obtain ⟨gs, rfl, hgs⟩ := this
    refine ⟨g :: gs, by simp, by simp, ?_⟩
    intro x hx
    rcases List.mem_cons.1 hx with rfl | hx
    · exact h1
    · exact hgs x hx
  · rintro ⟨gs, rfl, hne, hgs⟩
    cases gs with
    | nil => exact absurd rfl hne
    | cons g gs =>
      refine ⟨F.sep ++ g, (gs.map (F.sep ++ ·)).flatten, by simp, ⟨g, rfl, hgs g (by simp)⟩, gs.map (F.sep ++ ·), ?_, rfl⟩
      intro p hp
      obtain ⟨x, hx, rfl⟩ := List.mem_map.1 hp
      exact ⟨x, rfl, hgs x (by simp [hx])⟩

theorem lang_grouped (u : List Char) : Lang (grouped F) u ↔ ∃ h w, u = h ++ w ∧ (Digits F h ∧ h.length ≤ 3) ∧ Groups F w := by
  show (∃ v w, u = v ++ w ∧ Lang (d13 F) v ∧ Lang (plus (group3 F)) w) ↔ _
  simp only [lang_d13, lang_groups]

theorem lang_intG (u : List Char) : Lang (intG F) u ↔ IsInt F u := by
  have hg : Lang (grouped F) u ↔ ∃ h gs, u = h ++ (gs.map (F.sep ++ ·)).flatten ∧ Digits F h ∧ h.length ≤ 3 ∧ gs ≠ [] ∧
      ∀ g ∈ gs, Digits F g ∧ g.length = 3 := by
    rw [lang_grouped]
    constructor
    · rintro ⟨h, _, rfl, ⟨h1, h2⟩, gs, rfl, h3, h4⟩; exact ⟨h, gs, rfl, h1, h2, h3, h4⟩
    · rintro ⟨h, gs, rfl, h1, h2, h3, h4⟩; exact ⟨h, _, rfl, ⟨h1, h2⟩, gs, rfl, h3, h4⟩
  unfold intG IsInt
  rw [← hg]
  show Lang (if F.optional = true then _ else _) u ↔ _
  cases F.optional with
  | true =>
    show (_ ∨ Lang (plus (.chr F.digit)) u) ↔ _
    rw [lang_digits]
    simp
  | false => simp

theorem lang_decG (u : List Char) : Lang (decG F) u ↔ IsDec F u := by
  show (∃ v w, u = v ++ w ∧ Lang (lit F.point) v ∧ Lang (plus (.chr F.digit)) w) ↔ _
  simp only [lang_lit, lang_digits]
  constructor
  · rintro ⟨_, ds, rfl, rfl, h⟩; exact ⟨ds, rfl, h⟩
  · rintro ⟨ds, rfl, h⟩; exact ⟨F.point, ds, rfl, rfl, h⟩

theorem isInt_ne {u : List Char} (h : IsInt F u) : u ≠ [] := by
  rcases h with ⟨h, gs, rfl, ⟨h1, _⟩, _⟩ | ⟨_, h1, _⟩
  · intro e; exact h1 (List.append_eq_nil_iff.1 e).1
  · exact h1

theorem isDec_ne {u : List Char} (h : IsDec F u) : u ≠ [] := by
  obtain ⟨ds, rfl, h1, _⟩ := h
  intro e; exact h1 (List.append_eq_nil_iff.1 e).2

/-- Integer part, decimals, or both. -/
def IsMid (F : Fmt) (m : List Char) : Prop :=
  ∃ i d, m = i ++ d ∧ (i = [] ∨ IsInt F i) ∧ (d = [] ∨ IsDec F d) ∧ (i ≠ [] ∨ d ≠ [])

theorem lang_mid (u : List Char) : Lang (.alt (.seq (intG F) (opt (decG F))) (decG F)) u ↔ IsMid F u := by
  show ((∃ v w, u = v ++ w ∧ Lang (intG F) v ∧ (Lang (decG F) w ∨ w = [])) ∨ Lang (decG F) u) ↔ _
  simp only [lang_intG, lang_decG]
  constructor
  · rintro (⟨i, d, rfl, hi, hd⟩ | hd)
    · exact ⟨i, d, rfl, Or.inr hi, hd.symm, Or.inl (isInt_ne hi)⟩
    · exact ⟨[], u, rfl, Or.inl rfl, Or.inr hd, Or.inr (isDec_ne hd)⟩
  · rintro ⟨i, d, rfl, rfl | hi, hd, hne⟩
    · rcases hd with rfl | hd
      · simp at hne
      · exact Or.inr hd
    · exact Or.inl ⟨i, d, rfl, hi, hd.symm⟩

theorem lang_numRe (u : List Char) : Lang (numRe F) u ↔ IsNumber F u := by
  show (∃ sg w, u = sg ++ w ∧ Lang (opt signG) sg ∧ ∃ m e, w = m ++ e ∧
    Lang (.alt (.seq (intG F) (opt (decG F))) (decG F)) m ∧ (Lang (expG F) e ∨ e = [])) ↔ _
  simp only [lang_signQ, lang_mid, lang_expG]
  constructor
  · rintro ⟨sg, _, rfl, h1, _, e, rfl, ⟨i, d, rfl, h2, h3, h4⟩, h5⟩
    exact ⟨sg, i, d, e, by simp, h1, h2, h3, h4, h5.symm⟩
  · rintro ⟨sg, i, d, e, rfl, h1, h2, h3, h4, h5⟩
    exact ⟨sg, i ++ d ++ e, by simp, h1, i ++ d, e, rfl, ⟨i, d, rfl, h2, h3, h4⟩, h5.symm⟩

/-! ### The first way of matching is the longest -/

theorem free_lit : ∀ cs : List Char, Free (lit cs)
  | [] => trivial
  | [_] => trivial
  | _ :: d :: cs => ⟨trivial, free_lit (d :: cs)⟩
theorem free_digits : Free (plus (.chr F.digit)) := ⟨trivial, trivial⟩
theorem free_signQ : Free (opt signG) := ⟨trivial, trivial⟩
theorem free_expN : Free (expN F) := ⟨free_signQ, free_digits⟩
theorem free_expG : Free (expG F) :=
  ⟨⟨trivial, free_expN⟩, ⟨trivial, trivial⟩, trivial, ⟨trivial, trivial⟩, free_lit _, ⟨trivial, trivial⟩, free_expN⟩
theorem free_group3 : Free (group3 F) := ⟨free_lit _, trivial, trivial, trivial⟩
theorem free_d13 : Free (d13 F) := ⟨trivial, ⟨⟨trivial, trivial, trivial⟩, trivial⟩⟩
theorem free_grouped : Free (grouped F) := ⟨free_d13, free_group3, free_group3⟩
theorem free_intG : Free (intG F) := by
  unfold intG
  show Free (if F.optional = true then _ else _)
  split
  · exact ⟨free_grouped, free_digits⟩
  · exact free_grouped
theorem free_decG : Free (decG F) := ⟨free_lit _, free_digits⟩
theorem free_mid : Free (.alt (.seq (intG F) (opt (decG F))) (decG F)) := ⟨⟨free_intG, free_decG, trivial⟩, free_decG⟩
theorem free_numRe : Free (numRe F) := ⟨free_signQ, free_mid, free_expG, trivial⟩

theorem best_digits : Best (plus (.chr F.digit)) :=
  best_seq_fixed trivial trivial (best_star (det_chr _)) (by
    intro u1 u2 v1 v2 w1 w2 h1 h2 _ _ e
    rw [lang_d] at h1 h2
    obtain ⟨c, rfl, _⟩ := h1
    obtain ⟨d, rfl, _⟩ := h2
    simp at e
    rw [e.1])

/-- Words that start with a character of some kind. -/
def Starts (L : List Char → Prop) (Q : Char → Prop) : Prop := ∀ v, L v → ∃ c w, v = c :: w ∧ Q c

/-- An optional character before something that cannot start with it. -/
theorem opt_fixed {P Q : Char → Prop} {A B : List Char → Prop} (hA : ∀ u, A u → u = [] ∨ ∃ c, u = [c] ∧ P c)
    (hB : Starts B Q) (hPQ : ∀ c, P c → ¬ Q c) {u1 u2 v1 v2 w1 w2 : List Char} (h1 : A u1) (h2 : A u2) (k1 : B v1) (k2 : B v2)
    (e : u1 ++ v1 ++ w1 = u2 ++ v2 ++ w2) : u1 = u2 := by
  obtain ⟨c1, x1, rfl, q1⟩ := hB v1 k1
  obtain ⟨c2, x2, rfl, q2⟩ := hB v2 k2
  rcases hA u1 h1 with rfl | ⟨c, rfl, p1⟩ <;> rcases hA u2 h2 with rfl | ⟨d, rfl, p2⟩
  · rfl
  · simp at e; exact absurd (e.1 ▸ q1) (hPQ d p2)
  · simp at e; exact absurd (e.1 ▸ q2) (hPQ c (e.1 ▸ p1))
  · simp at e; rw [e.1]

theorem digits_start {u : List Char} (h : Digits F u) : ∃ c w, u = c :: w ∧ F.digit c = true := by
  obtain ⟨h1, h2⟩ := h
  cases u with
  | nil => exact absurd rfl h1
  | cons c w => exact ⟨c, w, rfl, h2 c (by simp)⟩

theorem sign_opt {u : List Char} (h : Lang (opt signG) u) : u = [] ∨ ∃ c, u = [c] ∧ (c = '-' ∨ c = '+') := by
  rcases (lang_signQ u).1 h with h | h | h <;> simp [h]

theorem best_signQ : Best (opt signG) := best_opt trivial (best_grp (det_best (det_chr _)))

theorem best_expN (hF : Sane F) : Best (expN F) :=
  best_seq_fixed free_signQ free_digits best_digits fun _ _ _ _ _ _ h1 h2 k1 k2 e =>
    opt_fixed (P := fun c => c = '-' ∨ c = '+') (Q := fun c => F.digit c = true) (fun _ => sign_opt)
      (fun v hv => digits_start ((lang_digits v).1 hv))
      (by rintro c (rfl | rfl) <;> rw [hF.letters _ (by simp)] <;> simp) h1 h2 k1 k2 e

theorem fixed_of_length {A : List Char → Prop} {n : Nat} (hA : ∀ u, A u → u.length = n) {u1 u2 v1 v2 w1 w2 : List Char}
    (h1 : A u1) (h2 : A u2) (e : u1 ++ v1 ++ w1 = u2 ++ v2 ++ w2) : u1 = u2 := by
  rw [List.append_assoc, List.append_assoc] at e
  exact (List.append_inj e (by rw [hA u1 h1, hA u2 h2])).1

theorem len_chr {p : Char → Bool} (u : List Char) (h : Lang (.chr p) u) : u.length = 1 := by
  obtain ⟨c, _, rfl⟩ := h
  rfl

theorem best_chr_seq {p : Char → Bool} {b : Re} (fb : Free b) (hb : Best b) : Best (.seq (.chr p) b) :=
  best_seq_fixed trivial fb hb fun _ _ _ _ _ _ h1 h2 _ _ e => fixed_of_length len_chr h1 h2 e

theorem best_lit_seq {cs : List Char} {b : Re} (fb : Free b) (hb : Best b) : Best (.seq (lit cs) b) :=
  best_seq_fixed (free_lit cs) fb hb fun u1 u2 _ _ _ _ h1 h2 _ _ _ => by
    rw [(lang_lit cs u1).1 h1, (lang_lit cs u2).1 h2]

theorem space_opt {u : List Char} (h : Lang spaceQ u) : u = [] ∨ ∃ c, u = [c] ∧ c = ' ' := by
  rcases (lang_spaceQ u).1 h with h | h <;> simp [h]

theorem best_space_seq {b : Re} (fb : Free b) (hb : Best b) (hs : Starts (Lang b) (· ≠ ' ')) : Best (.seq spaceQ b) :=
  best_seq_fixed ⟨trivial, trivial⟩ fb hb fun _ _ _ _ _ _ h1 h2 k1 k2 e =>
    opt_fixed (P := (· = ' ')) (fun _ => space_opt) hs (by intro c h; simp [h]) h1 h2 k1 k2 e

theorem expN_start {F : Fmt} (hF : Sane F) : Starts (Lang (expN F)) (· ≠ ' ') := by
  intro v hv
  obtain ⟨sg, ds, rfl, h1, h2⟩ := (lang_expN v).1 hv
  obtain ⟨c, w, rfl, hc⟩ := digits_start h2
  have hc' : c ≠ ' ' := by intro h; rw [h, hF.letters ' ' (by simp)] at hc; cases hc
  rcases h1 with rfl | rfl | rfl
  · exact ⟨c, w, rfl, hc'⟩
  · exact ⟨'-', c :: w, rfl, by decide⟩
  · exact ⟨'+', c :: w, rfl, by decide⟩

/-- Characters that start an exponent. -/
def ExpStart (c : Char) : Prop := c ∈ ['E', 'e', 'X', 'x', '\u2715', ' ']

theorem expE_start {u : List Char} (h : Lang (expE F) u) : ∃ c w, u = c :: w ∧ (c = 'E' ∨ c = 'e') := by
  obtain ⟨c, sg, ds, rfl, hc, _⟩ := (lang_expE u).1 h
  exact ⟨c, sg ++ ds, by simp, hc⟩

theorem expX_start {u : List Char} (h : Lang (expX F) u) : ∃ c w, u = c :: w ∧ (c = ' ' ∨ c = 'X' ∨ c = 'x' ∨ c = '\u2715') := by
  obtain ⟨s1, c, s2, s3, sg, ds, rfl, hc, h1, _⟩ := (lang_expX u).1 h
  rcases h1 with rfl | rfl
  · exact ⟨c, s2 ++ '1' :: '0' :: '^' :: s3 ++ sg ++ ds, by simp, Or.inr hc⟩
  · exact ⟨' ', c :: s2 ++ '1' :: '0' :: '^' :: s3 ++ sg ++ ds, by simp, Or.inl rfl⟩

theorem isExp_start {u : List Char} (h : IsExp F u) : ∃ c w, u = c :: w ∧ ExpStart c := by
  rw [← lang_expG] at h
  rcases h with h | h
  · obtain ⟨c, w, e, hc⟩ := expE_start h
    exact ⟨c, w, e, by rcases hc with rfl | rfl <;> simp [ExpStart]⟩
  · obtain ⟨c, w, e, hc⟩ := expX_start h
    exact ⟨c, w, e, by rcases hc with rfl | rfl | rfl | rfl <;> simp [ExpStart]⟩

theorem best_expX (hF : Sane F) : Best (expX F) := by
  have f5 : Free (.seq spaceQ (expN F)) := ⟨⟨trivial, trivial⟩, free_expN⟩
  have f4 : Free (.seq (lit ['1', '0', '^']) (.seq spaceQ (expN F))) := ⟨free_lit _, f5⟩
  have f3 : Free (.seq spaceQ (.seq (lit ['1', '0', '^']) (.seq spaceQ (expN F)))) := ⟨⟨trivial, trivial⟩, f4⟩
  have b5 : Best (.seq spaceQ (expN F)) := best_space_seq free_expN (best_expN hF) (expN_start hF)
  have b3 : Best (.seq spaceQ (.seq (lit ['1', '0', '^']) (.seq spaceQ (expN F)))) := by
    refine best_space_seq f4 (best_lit_seq f5 b5) ?_
    rintro v ⟨t, w, rfl, ht, _⟩
    rw [lang_lit] at ht
    subst ht
    exact ⟨'1', '0' :: '^' :: w, rfl, by decide⟩
  refine best_space_seq ⟨trivial, f3⟩ (best_chr_seq f3 b3) ?_
  rintro v ⟨t, w, rfl, ht, _⟩
  obtain ⟨c, rfl, hc⟩ := (lang_xC t).1 ht
  exact ⟨c, w, rfl, by rcases hc with rfl | rfl | rfl <;> decide⟩

theorem best_expG (hF : Sane F) : Best (expG F) := by
  refine best_grp (best_alt free_expG.1 free_expG.2 (best_chr_seq free_expN (best_expN hF)) (best_expX hF) ?_)
  intro u v x y hu hv e
  exfalso
  obtain ⟨c, w, rfl, hc⟩ := expE_start hu
  obtain ⟨d, w', rfl, hd⟩ := expX_start hv
  simp at e
  rw [e.1] at hc
  rcases hd with rfl | rfl | rfl | rfl <;> rcases hc with hc | hc <;> exact absurd hc (by decide)

theorem sep_start (hF : Sane F) : ∃ c w, F.sep = c :: w ∧ F.digit c = false := by
  cases h : F.sep with
  | nil => exact absurd h hF.sep
  | cons c w => exact ⟨c, w, rfl, (hF.plain c (by simp [h])).1⟩

theorem groups_start (hF : Sane F) {u : List Char} (h : Groups F u) : ∃ c w, u = c :: w ∧ F.digit c = false := by
  obtain ⟨gs, rfl, hne, _⟩ := h
  obtain ⟨c, w, hs, hc⟩ := sep_start hF
  cases gs with
  | nil => exact absurd rfl hne
  | cons g gs => exact ⟨c, w ++ g ++ (gs.map (F.sep ++ ·)).flatten, by simp [hs], hc⟩

/-- Two runs of digits, each followed by something else, on the same text. -/
theorem digits_fixed {p : Char → Bool} : ∀ {u1 u2 : List Char} {c1 c2 : Char} {w1 w2 : List Char},
    (∀ c ∈ u1, p c = true) → (∀ c ∈ u2, p c = true) → p c1 = false → p c2 = false → u1 ++ c1 :: w1 = u2 ++ c2 :: w2 → u1 = u2
  | [], [], _, _, _, _, _, _, _, _, _ => rfl
  | [], d :: u2, c1, c2, w1, w2, _, h2, k1, _, e => by
    simp at e
    have := h2 d (by simp)
    rw [← e.1, k1] at this
    cases this
  | d :: u1, [], c1, c2, w1, w2, h1, _, _, k2, e => by
    simp at e
    have := h1 d (by simp)
    rw [e.1, k2] at this
    cases this
  | d :: u1, d' :: u2, c1, c2, w1, w2, h1, h2, k1, k2, e => by
    simp at e
    rw [e.1, digits_fixed (fun c hc => h1 c (by simp [hc])) (fun c hc => h2 c (by simp [hc])) k1 k2 e.2]

theorem best_grouped (hF : Sane F) : Best (grouped F) := by
  have det3 : Det (group3 F) := det_seq (det_lit _) (det_seq (det_chr _) (det_seq (det_chr _) (det_chr _)))
  have bplus : Best (plus (group3 F)) :=
    best_seq_fixed free_group3 free_group3 (best_star det3) fun u1 u2 _ _ _ _ h1 h2 _ _ e => by
      refine fixed_of_length (n := F.sep.length + 3) (A := Lang (group3 F)) ?_ h1 h2 e
      intro u hu
      obtain ⟨g, rfl, _, hl⟩ := (lang_group3 u).1 hu
      rw [List.length_append, hl]
  refine best_seq_fixed free_d13 ⟨free_group3, free_group3⟩ bplus ?_
  intro u1 u2 v1 v2 w1 w2 h1 h2 k1 k2 e
  obtain ⟨⟨_, a1⟩, _⟩ := (lang_d13 u1).1 h1
  obtain ⟨⟨_, a2⟩, _⟩ := (lang_d13 u2).1 h2
  obtain ⟨c1, x1, rfl, q1⟩ := groups_start hF ((lang_groups v1).1 k1)
  obtain ⟨c2, x2, rfl, q2⟩ := groups_start hF ((lang_groups v2).1 k2)
  rw [List.append_assoc, List.append_assoc] at e
  exact digits_fixed a1 a2 q1 q2 e

theorem best_intG (hF : Sane F) : Best (intG F) := by
  refine best_grp ?_
  split
  · refine best_alt free_grouped free_digits (best_grouped hF) best_digits ?_
    intro u v x y hu hv e
    obtain ⟨h, w, rfl, ⟨⟨_, h1⟩, _⟩, h2⟩ := (lang_grouped u).1 hu
    obtain ⟨c, w', rfl, hc⟩ := groups_start hF h2
    obtain ⟨_, h3⟩ := (lang_digits v).1 hv
    -- the digits end before the separator
    rw [List.append_assoc] at e
    rcases List.append_eq_append_iff.1 e with ⟨t, e1, e2⟩ | ⟨t, e1, e2⟩
    · cases t with
      | nil => rw [e1]; simp
      | cons d t =>
        simp at e2
        have := h3 d (by rw [e1]; simp)
        rw [← e2.1, hc] at this
        cases this
    · rw [e1]; simp
  · exact best_grouped hF

/-- The characters of integer parts. -/
theorem isInt_chars {u : List Char} (h : IsInt F u) : ∀ c ∈ u, F.digit c = true ∨ c ∈ F.sep := by
  intro c hc
  rcases h with ⟨h, gs, rfl, ⟨_, h1⟩, _, _, h2⟩ | ⟨_, _, h1⟩
  · rcases List.mem_append.1 hc with hc | hc
    · exact Or.inl (h1 c hc)
    · obtain ⟨l, hl, hc⟩ := List.mem_flatten.1 hc
      obtain ⟨g, hg, rfl⟩ := List.mem_map.1 hl
      rcases List.mem_append.1 hc with hc | hc
      · exact Or.inr hc
      · exact Or.inl ((h2 g hg).1.2 c hc)
  · exact Or.inl (h1 c hc)

theorem isDec_start (hF : Sane F) {u : List Char} (h : IsDec F u) : ∃ c w, u = c :: w ∧ c ∈ F.point := by
  obtain ⟨ds, rfl, _⟩ := h
  cases hp : F.point with
  | nil => exact absurd hp hF.point
  | cons c w => exact ⟨c, w ++ ds, rfl, by simp⟩

theorem isMid_chars {u : List Char} (h : IsMid F u) : ∀ c ∈ u, F.digit c = true ∨ c ∈ F.sep ++ F.point := by
  intro c hc
  obtain ⟨i, d, rfl, hi, hd, _⟩ := h
  rcases List.mem_append.1 hc with hc | hc
  · rcases hi with rfl | hi
    · cases hc
    · rcases isInt_chars hi c hc with h | h
      · exact Or.inl h
      · exact Or.inr (by simp [h])
  · rcases hd with rfl | ⟨ds, rfl, _, hd⟩
    · cases hc
    · rcases List.mem_append.1 hc with hc | hc
      · exact Or.inr (by simp [hc])
      · exact Or.inl (hd c hc)

theorem isInt_start {u : List Char} (h : IsInt F u) : ∃ c w, u = c :: w ∧ F.digit c = true := by
  rcases h with ⟨h, gs, rfl, h1, _⟩ | ⟨_, h1⟩
  · obtain ⟨c, w, rfl, hc⟩ := digits_start h1
    exact ⟨c, w ++ (gs.map (F.sep ++ ·)).flatten, rfl, hc⟩
  · exact digits_start h1

theorem best_decG : Best (decG F) := best_grp (best_lit_seq free_digits best_digits)

theorem best_mid (hF : Sane F) : Best (.alt (.seq (intG F) (opt (decG F))) (decG F)) := by
  have b1 : Best (.seq (intG F) (opt (decG F))) := by
    refine best_seq_opt free_intG ⟨free_decG, trivial⟩ (best_intG hF) (best_opt free_decG best_decG) (Or.inr rfl) ?_
    intro u c w v x y _ h2 hv e
    rcases hv with hv | hv
    · exfalso
      obtain ⟨d, w', rfl, hd⟩ := isDec_start hF ((lang_decG v).1 hv)
      simp at e
      rcases isInt_chars ((lang_intG _).1 h2) c (by simp) with h | h
      · have := (hF.plain d (by simp [hd])).1
        rw [e.1, h] at this
        cases this
      · exact hF.apart c h (e.1 ▸ hd)
    · exact hv
  refine best_alt ⟨free_intG, free_decG, trivial⟩ free_decG b1 best_decG ?_
  intro u v x y hu hv e
  exfalso
  obtain ⟨d, w', rfl, hd⟩ := isDec_start hF ((lang_decG v).1 hv)
  obtain ⟨i, r, rfl, hi, _⟩ := hu
  obtain ⟨c, w, rfl, hc⟩ := isInt_start ((lang_intG i).1 hi)
  simp at e
  have := (hF.plain d (by simp [hd])).1
  rw [← e.1, hc] at this
  cases this

theorem isMid_start (hF : Sane F) {u : List Char} (h : IsMid F u) : ∃ c w, u = c :: w ∧ ¬ (c = '-' ∨ c = '+') := by
  obtain ⟨i, d, rfl, hi, hd, hne⟩ := h
  rcases hi with rfl | hi
  · rcases hd with rfl | hd
    · simp at hne
    · obtain ⟨c, w, rfl, hc⟩ := isDec_start hF hd
      have := (hF.plain c (by simp [hc])).2
      exact ⟨c, w, rfl, by rintro (rfl | rfl) <;> simp at this⟩
  · obtain ⟨c, w, rfl, hc⟩ := isInt_start hi
    refine ⟨c, w ++ d, rfl, ?_⟩
    rintro (rfl | rfl) <;> rw [hF.letters _ (by simp)] at hc <;> cases hc

theorem best_numRe (hF : Sane F) : Best (numRe F) := by
  refine best_grp ?_
  have b1 : Best (.seq (.alt (.seq (intG F) (opt (decG F))) (decG F)) (opt (expG F))) := by
    refine best_seq_opt free_mid ⟨free_expG, trivial⟩ (best_mid hF) (best_opt free_expG (best_expG hF)) (Or.inr rfl) ?_
    intro u c w v x y _ h2 hv e
    rcases hv with hv | hv
    · exfalso
      obtain ⟨d, w', rfl, hd⟩ := isExp_start ((lang_expG v).1 hv)
      simp at e
      rw [e.1] at hd
      have hd' : c ∈ ['-', '+', 'E', 'e', 'X', 'x', '\u2715', ' '] := by
        unfold ExpStart at hd
        simp only [List.mem_cons, List.not_mem_nil, or_false] at hd ⊢
        exact Or.inr (Or.inr hd)
      rcases isMid_chars ((lang_mid _).1 h2) c (by simp) with h | h
      · rw [hF.letters c hd'] at h; cases h
      · exact (hF.plain c h).2 hd'
    · exact hv
  refine best_seq_fixed free_signQ ⟨free_mid, free_expG, trivial⟩ b1 fun _ _ _ _ _ _ h1 h2 k1 k2 e =>
    opt_fixed (P := fun c => c = '-' ∨ c = '+') (Q := fun c => ¬ (c = '-' ∨ c = '+')) (fun _ => sign_opt) ?_
      (fun c h hn => hn h) h1 h2 k1 k2 e
  rintro v ⟨m, w, rfl, hm, _⟩
  obtain ⟨c, x, rfl, hc⟩ := isMid_start hF ((lang_mid m).1 hm)
  exact ⟨c, x ++ w, rfl, hc⟩

end Pawpaw.Props
