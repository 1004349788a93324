import Verif.Props.XmlTag
import Verif.Props.XmlTree
/-!
# C85: the Itos within tags and texts as written
-/
set_option linter.unusedSectionVars false
set_option linter.unusedSimpArgs false
namespace Pawpaw.Props
open Pawpaw Pawpaw.Xml Pawpaw.Regex XmlSpec TreeSpec RegexSpec

theorem no_cut {x d : Char} {v w s t : List Char} (h : v ++ x :: w = s ++ d :: t) (hd : d ∉ v) (hxd : x ≠ d)
    (hx : x ∉ s) : False := by
  rcases List.append_eq_append_iff.1 h with ⟨a, h1, h2⟩ | ⟨a, h1, h2⟩
  · cases a with
    | nil => simp at h2; exact hxd h2.1
    | cons y a =>
      simp only [List.cons_append, List.cons.injEq] at h2
      apply hx
      rw [h1, h2.1]
      simp
  · cases a with
    | nil => simp at h2; exact hxd h2.1.symm
    | cons y a =>
      simp only [List.cons_append, List.cons.injEq] at h2
      apply hd
      rw [h1, h2.1]
      simp

/-! ### Names -/

theorem lang_chr_eq (d : Char) (u : List Char) : Lang (.chr (· == d)) u ↔ u = [d] := by
  constructor
  · rintro ⟨c, hc, rfl⟩; rw [eq_of_beq hc]
  · rintro rfl; exact ⟨d, beq_self_eq_true d, rfl⟩

/-- The prefix branch of a name. -/
def nsB : Re := .seq (.grp "namespace" (plus (.chr nsC))) (.chr (· == ':'))

theorem tagG_eq : tagG = .grp "tag" (.seq (opt nsB) (.grp "name" (plus (.chr nmC)))) := rfl

theorem lang_nsB {u : List Char} (h : Lang nsB u) : ∃ v, u = v ++ [':'] ∧ ∀ c ∈ v, nsC c = true := by
  obtain ⟨v, w, rfl, h1, h2⟩ := h
  have h1' := (lang_plus_chr nsC v).1 h1
  rw [(lang_chr_eq ':' w).1 h2]
  exact ⟨v, rfl, h1'.2⟩

theorem nsC_space {v : List Char} (h : ∀ c ∈ v, nsC c = true) : ' ' ∉ v ∧ ':' ∉ v :=
  ⟨fun g => by have := h _ g; simp [nsC] at this, fun g => by have := h _ g; simp [nsC] at this⟩

theorem nmC_not {v : List Char} (h : ∀ c ∈ v, nmC c = true) : ' ' ∉ v ∧ '/' ∉ v ∧ '>' ∉ v ∧ '=' ∉ v :=
  ⟨fun g => by have := h _ g; simp [nmC] at this, fun g => by have := h _ g; simp [nmC] at this,
    fun g => by have := h _ g; simp [nmC] at this, fun g => by have := h _ g; simp [nmC] at this⟩

theorem name_nmC {s : List Char} (h : IsName s) : ∀ c ∈ s, nmC c = true := by
  intro c hc
  have := h.2 c hc
  unfold nameChar at this
  unfold nmC
  simp at this ⊢
  exact ⟨⟨⟨this.1, this.2.2.2.2.2.1⟩, this.2.2.2.2.2.2.2.1⟩, this.2.2.2.2.2.2.2.2.1⟩

theorem name_nsC {s : List Char} (h : IsName s) : ∀ c ∈ s, nsC c = true := by
  intro c hc
  have := h.2 c hc
  unfold nameChar at this
  unfold nsC
  simp at this ⊢
  exact ⟨this.1, this.2.2.2.2.1⟩

theorem name_not {s : List Char} (h : IsName s) (d : Char) (hd : nameChar d = false) : d ∉ s := by
  intro g
  have := h.2 d g
  rw [hd] at this
  exact Bool.noConfusion this

/-- The name branch alone. -/
theorem name_head (k : St → List St) {u : List Char} (hu : IsName u) (j : Nat) (r : List Char)
    (c : List (String × Nat × Nat)) (hr : ∀ x ∈ r.head?, nmC x = false)
    (hk : k ⟨j + u.length, r, c ++ [("name", j, j + u.length)]⟩ ≠ []) :
    (outk (.grp "name" (plus (.chr nmC))) k ⟨j, u ++ r, c⟩).head? =
      (k ⟨j + u.length, r, c ++ [("name", j, j + u.length)]⟩).head? := by
  rw [outk_grp]
  exact plus_head nmC hu.1 j r c (name_nmC hu) hr
    (fun st' => k { st' with caps := st'.caps ++ [("name", j, st'.pos)] }) hk

/-- A name as written, when what follows is not mistaken for part of it. -/
theorem tagG_head (k : St → List St) {q : QName} (hq : q.OK) (j : Nat) (r : List Char) (c : List (String × Nat × Nat))
    (hr : ∀ x ∈ r.head?, nmC x = false)
    (hk : k ⟨j + q.chars.length, r, c ++ nameCaps j (q.pre.map List.length) (j + q.chars.length)⟩ ≠ [])
    (hun : q.pre = none → ∀ v u w, q.loc ++ r = v ++ ':' :: (u ++ w) → (∀ c ∈ v, nsC c = true) → u ≠ [] →
      (∀ c ∈ u, nmC c = true) → ∀ i c, k ⟨i, w, c⟩ = []) :
    (outk tagG k ⟨j, q.chars ++ r, c⟩).head? =
      (k ⟨j + q.chars.length, r, c ++ nameCaps j (q.pre.map List.length) (j + q.chars.length)⟩).head? := by
  obtain ⟨pre, loc⟩ := q
  obtain ⟨hpre, hloc⟩ := hq
  rw [tagG_eq, outk_grp, outk_seq, outk_opt]
  dsimp only at *
  cases pre with
  | none =>
    have hnil : outk nsB (outk (.grp "name" (plus (.chr nmC)))
        (fun st' => k { st' with caps := st'.caps ++ [("tag", j, st'.pos)] })) ⟨j, loc ++ r, c⟩ = [] := by
      refine outk_nil (by simp [nsB, plus, Free]) ?_
      intro u w c' hu hl
      obtain ⟨v, rfl, hv⟩ := lang_nsB hl
      refine outk_nil (by simp [plus, Free]) ?_
      intro u2 w2 c2 hu2 hl2
      have hl2' := (lang_plus_chr nmC u2).1 hl2
      dsimp only at hu hu2
      have := hun rfl v u2 w2 (by rw [hu, hu2]; simp) hv hl2'.1 hl2'.2
      exact this _ _
    have hch : QName.chars ⟨none, loc⟩ = loc := rfl
    rw [hch] at hk ⊢
    rw [hnil, List.nil_append]
    have := name_head (fun st' => k { st' with caps := st'.caps ++ [("tag", j, st'.pos)] }) hloc j r c hr
      (by simpa [nameCaps] using hk)
    rw [this]
    simp [nameCaps]
  | some p =>
    have hp := hpre p rfl
    have hch : QName.chars ⟨some p, loc⟩ = p ++ ':' :: loc := rfl
    rw [hch] at hk ⊢
    have e : outk nsB (outk (.grp "name" (plus (.chr nmC)))
        (fun st' => k { st' with caps := st'.caps ++ [("tag", j, st'.pos)] })) ⟨j, (p ++ ':' :: loc) ++ r, c⟩ =
        outk (.grp "name" (plus (.chr nmC)))
        (fun st' => k { st' with caps := st'.caps ++ [("tag", j, st'.pos)] })
          ⟨j + p.length + 1, loc ++ r, c ++ [("namespace", j, j + p.length)]⟩ := by
      unfold nsB
      rw [outk_seq, outk_grp, List.append_assoc]
      rw [outk_plus_run nsC _ ?_ hp.1 j _ c (name_nsC hp) ?_]
      · rw [List.cons_append, outk_chr, if_pos (by rfl)]
      · intro i x w c' hx
        rw [outk_chr, if_neg]
        intro hx2
        rw [eq_of_beq hx2] at hx
        simp [nsC] at hx
      · intro x hx
        simp at hx
        subst hx
        rfl
    have hlen : j + (p ++ ':' :: loc).length = j + p.length + 1 + loc.length := by
      simp; omega
    have hk' : k ⟨j + p.length + 1 + loc.length, r, c ++ [("namespace", j, j + p.length)] ++
        [("name", j + p.length + 1, j + p.length + 1 + loc.length)] ++ [("tag", j, j + p.length + 1 + loc.length)]⟩ ≠ [] := by
      rw [hlen] at hk
      simpa [nameCaps] using hk
    have := name_head (fun st' => k { st' with caps := st'.caps ++ [("tag", j, st'.pos)] }) hloc (j + p.length + 1) r
      (c ++ [("namespace", j, j + p.length)]) hr hk'
    rw [e, List.head?_append, this, hlen]
    cases hh : k ⟨j + p.length + 1 + loc.length, r, c ++ [("namespace", j, j + p.length)] ++
        [("name", j + p.length + 1, j + p.length + 1 + loc.length)] ++ [("tag", j, j + p.length + 1 + loc.length)]⟩ with
    | nil => exact absurd hh hk'
    | cons y ys =>
      simp [nameCaps] at hh ⊢
      rw [hh]
      rfl

theorem qname_fits {q : QName} (hq : q.OK) (p : Nat) :
    NameFits p (q.pre.map List.length) (p + q.chars.length) := by
  obtain ⟨pre, loc⟩ := q
  obtain ⟨hpre, hloc⟩ := hq
  have h1 := List.length_pos_iff.mpr hloc.1
  dsimp only at h1
  cases pre with
  | none => show p < p + loc.length; omega
  | some a =>
    have h2 := List.length_pos_iff.mpr (hpre a rfl).1
    show 0 < a.length ∧ p + a.length + 1 < p + (a ++ ':' :: loc).length
    simp
    omega

theorem qname_not {q : QName} (hq : q.OK) (d : Char) (hd : nameChar d = false) (hc : d ≠ ':') : d ∉ q.chars := by
  obtain ⟨pre, loc⟩ := q
  obtain ⟨hpre, hloc⟩ := hq
  cases pre with
  | none => exact name_not hloc d hd
  | some p =>
    show d ∉ p ++ ':' :: loc
    intro h
    rcases List.mem_append.1 h with h | h
    · exact name_not (hpre p rfl) d hd h
    · rcases List.mem_cons.1 h with h | h
      · exact hc h
      · exact name_not hloc d hd h

theorem qname_ne {q : QName} (hq : q.OK) : q.chars ≠ [] := by
  have := (qname_fits hq 0).lt
  intro h
  rw [h] at this
  simp at this

/-! ### The name of a tag -/

/-- What follows the name in a tag: a space, or the end of the tag. -/
def AfterName (r : List Char) : Prop := (∃ t, r = ' ' :: t) ∨ r = ['>'] ∨ r = ['/', '>']

theorem afterName_head {r : List Char} (h : AfterName r) : ∀ x ∈ r.head?, nmC x = false := by
  rcases h with ⟨t, rfl⟩ | rfl | rfl <;> simp [nmC]

theorem tag_hun {q : QName} (hq : q.OK) {r : List Char} (hr : AfterName r) (k : St → List St) :
    q.pre = none → ∀ v u w, q.loc ++ r = v ++ ':' :: (u ++ w) → (∀ c ∈ v, nsC c = true) → u ≠ [] →
      (∀ c ∈ u, nmC c = true) → ∀ i c, k ⟨i, w, c⟩ = [] := by
  intro _ v u w h hv _ _
  exfalso
  have hcol := name_not hq.2 ':' rfl
  rcases hr with ⟨t, rfl⟩ | rfl | rfl
  · exact no_cut h.symm (nsC_space hv).1 (by decide) hcol
  · have : ':' ∈ q.loc ++ ['>'] := by rw [h]; simp
    simp at this
    exact hcol this
  · have : ':' ∈ q.loc ++ ['/', '>'] := by rw [h]; simp
    simp at this
    exact hcol this

theorem starts_fail {i : Nat} {w : List Char} (h : '<' ∉ w) (a b : List Char) (hw : w = a ++ b) (hb : b ≠ [] ∨ True)
    (j : Nat) : out tagRe ⟨j, b, []⟩ = [] := by
  refine out_nil tagRe_free ?_
  rintro u z hu ⟨x, y, rfl, hx, _⟩
  rw [(lang_chr_eq '<' x).1 hx] at hu
  dsimp only at hu
  apply h
  rw [hw, hu]
  simp

theorem finditer_none {r : Re} {i : Nat} {w : List Char} (h : ∀ j b, b <:+ w → out r ⟨j, b, []⟩ = []) :
    finditer r i w = [] := by
  have := finditer_skips r w i [] (fun a b j hab _ => h j (b ++ []) (by rw [List.append_nil]; exact ⟨a, hab.symm⟩))
  rw [List.append_nil] at this
  rw [this]
  exact finditer_nil r _ (h _ [] (List.nil_suffix))

theorem tag_no_more {i : Nat} {w : List Char} (h : '<' ∉ w) : finditer tagRe i w = [] := by
  refine finditer_none ?_
  rintro j b ⟨a, rfl⟩
  exact starts_fail (i := i) h a b rfl (Or.inr trivial) j

/-- The name in a start tag. -/
theorem tag_open {q : QName} (hq : q.OK) {r : List Char} (hr : AfterName r) (hlt : '<' ∉ r) (i : Nat) :
    finditer tagRe i ('<' :: q.chars ++ r) =
      [⟨i, i + 1 + q.chars.length, nameCaps (i + 1) (q.pre.map List.length) (i + 1 + q.chars.length)⟩] := by
  have hh : (out tagRe ⟨i, '<' :: q.chars ++ r, []⟩).head? = some ⟨i + 1 + q.chars.length, r,
      nameCaps (i + 1) (q.pre.map List.length) (i + 1 + q.chars.length)⟩ := by
    rw [← outk_pure]
    unfold tagRe
    rw [outk_seq, List.cons_append, outk_chr, if_pos (by rfl), outk_seq, outk_opt]
    have h0 : outk (.chr fun c => c == '/' || c == '?') (outk tagG fun s => [s]) ⟨i + 1, q.chars ++ r, []⟩ = [] := by
      cases hc : q.chars with
      | nil => exact absurd hc (qname_ne hq)
      | cons x xs =>
        rw [List.cons_append, outk_chr, if_neg]
        intro hx
        rw [Bool.or_eq_true] at hx
        rcases hx with hx | hx
        · exact qname_not hq '/' rfl (by decide) (by rw [hc, ← eq_of_beq hx]; simp)
        · exact qname_not hq '?' rfl (by decide) (by rw [hc, ← eq_of_beq hx]; simp)
    rw [h0, List.nil_append, tagG_head (fun s => [s]) hq (i + 1) r [] (afterName_head hr) (by simp) (tag_hun hq hr (fun s => [s]))]
    simp
  have := finditer_hit tagRe_free i _ _ hh (by dsimp only; omega)
  dsimp only at this
  rw [this, tag_no_more hlt]

/-- The name in an end tag. -/
theorem tag_close {q : QName} (hq : q.OK) {r : List Char} (hr : AfterName r) (hlt : '<' ∉ r) (i : Nat) :
    finditer tagRe i ('<' :: '/' :: q.chars ++ r) =
      [⟨i, i + 2 + q.chars.length, nameCaps (i + 2) (q.pre.map List.length) (i + 2 + q.chars.length)⟩] := by
  have hh : (out tagRe ⟨i, '<' :: '/' :: q.chars ++ r, []⟩).head? = some ⟨i + 2 + q.chars.length, r,
      nameCaps (i + 2) (q.pre.map List.length) (i + 2 + q.chars.length)⟩ := by
    rw [← outk_pure]
    unfold tagRe
    rw [outk_seq, List.cons_append, outk_chr, if_pos (by rfl), outk_seq, outk_opt, List.cons_append, outk_chr,
      if_pos (by rfl)]
    have := tagG_head (fun s => [s]) hq (i + 2) r [] (afterName_head hr) (by simp) (tag_hun hq hr (fun s => [s]))
    rw [List.head?_append, this]
    simp
  have := finditer_hit tagRe_free i _ _ hh (by dsimp only; omega)
  dsimp only at this
  rw [this, tag_no_more hlt]

end Pawpaw.Props
