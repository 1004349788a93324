import Verif.Props.NumberRe
import Verif.Props.XmlNs
import Verif.Lemmas.Finditer
/-!
# C93: the numbers found in a text
-/
set_option linter.unusedSectionVars false
set_option linter.unusedSimpArgs false
namespace Pawpaw.Props
open Pawpaw Pawpaw.Regex Pawpaw.NumberRe RegexSpec NumberSpec

variable {F : Fmt}

/-- **C93**: the pattern matches a whole text exactly when that is a number. -/
theorem C93_language (F : Fmt) (s : List Char) : XmlHelper.fullmatch (numRe F) s = true ↔ IsNumber F s := by
  rw [fullmatch_lang (numRe F) free_numRe, lang_numRe]

theorem groupIn_lit {n : String} {x : Re} : ∀ cs : List Char, ¬ GroupIn n x (lit cs)
  | [] => id
  | [_] => id
  | _ :: d :: cs => fun h => h.elim id (groupIn_lit (d :: cs))

/-- What the groups of the pattern are. -/
theorem groupIn_numRe {n : String} {x : Re} (h : GroupIn n x (numRe F)) :
    (n = "sign" ∧ ∀ u, Lang x u → u = ['-'] ∨ u = ['+']) ∨ (n = "integer" ∧ ∀ u, Lang x u → IsInt F u) ∨
    (n = "decimal" ∧ ∀ u, Lang x u → IsDec F u) ∨ (n = "exponent" ∧ ∀ u, Lang x u → IsExp F u) ∨
    (n = "number" ∧ ∀ u, Lang x u → IsNumber F u) := by
  have hs : ∀ {y}, GroupIn n x (opt signG) → y = x → (n = "sign" ∧ ∀ u, Lang x u → u = ['-'] ∨ u = ['+']) := by
    rintro y ((⟨rfl, rfl⟩ | h) | h) _
    · exact ⟨rfl, fun u h => (lang_signG u).1 h⟩
    · exact h.elim
    · exact h.elim
  have hN : GroupIn n x (expN F) → (n = "sign" ∧ ∀ u, Lang x u → u = ['-'] ∨ u = ['+']) := by
    rintro (h | h | h)
    · exact hs h rfl
    · exact h.elim
    · exact h.elim
  have hsp : ¬ GroupIn n x spaceQ := by rintro (h | h) <;> exact h.elim
  have hd : GroupIn n x (decG F) → (n = "decimal" ∧ ∀ u, Lang x u → IsDec F u) := by
    rintro (⟨rfl, rfl⟩ | h | h | h)
    · exact ⟨rfl, fun u h => (lang_decG u).1 h⟩
    · exact (groupIn_lit _ h).elim
    · exact h.elim
    · exact h.elim
  have h3 : ¬ GroupIn n x (group3 F) := by
    rintro (h | h | h | h)
    · exact groupIn_lit _ h
    all_goals exact h.elim
  have hg : ¬ GroupIn n x (grouped F) := by
    rintro ((h | ((h | h | h) | h)) | h | h)
    · exact h.elim
    · exact h.elim
    · exact h.elim
    · exact h.elim
    · exact h.elim
    · exact h3 h
    · exact h3 h
  have hi : GroupIn n x (intG F) → (n = "integer" ∧ ∀ u, Lang x u → IsInt F u) := by
    rintro (⟨rfl, rfl⟩ | h)
    · exact ⟨rfl, fun u h => (lang_intG u).1 h⟩
    · split at h
      · rcases h with h | h | h
        · exact (hg h).elim
        · exact h.elim
        · exact h.elim
      · exact (hg h).elim
  rcases h with ⟨rfl, rfl⟩ | h | ((h | h | h) | h) | h | h
  · exact Or.inr (Or.inr (Or.inr (Or.inr ⟨rfl, fun u h => (lang_numRe u).1 h⟩)))
  · exact Or.inl (hs h rfl)
  · exact Or.inr (Or.inl (hi h))
  · exact Or.inr (Or.inr (Or.inl (hd h)))
  · exact h.elim
  · exact Or.inr (Or.inr (Or.inl (hd h)))
  · rcases h with ⟨rfl, rfl⟩ | (h | h) | h | h | h | h | h | h
    · exact Or.inr (Or.inr (Or.inr (Or.inl ⟨rfl, fun u h => (lang_expG u).1 h⟩)))
    · exact h.elim
    · exact Or.inl (hN h)
    · exact (hsp h).elim
    · exact h.elim
    · exact (hsp h).elim
    · exact (groupIn_lit _ h).elim
    · exact (hsp h).elim
    · exact Or.inl (hN h)
  · exact h.elim

/-- The text of a capture. -/
def textOf (text : List Char) (c : String × Nat × Nat) : List Char := (text.take c.2.2).drop c.2.1

theorem textOf_eq {pre u w : List Char} {c : String × Nat × Nat} (h1 : c.2.1 = pre.length) (h2 : c.2.2 = c.2.1 + u.length) :
    textOf (pre ++ u ++ w) c = u := by
  unfold textOf
  rw [h2, h1, ← List.length_append, List.take_left' rfl, List.drop_left' rfl]

/-- A match of an expression whose first way of matching is its longest is the longest where it starts. -/
theorem best_found {r : Re} (hb : Best r) {i : Nat} {suf : List Char} {st : St} (hm : st ∈ out r ⟨i, suf, []⟩)
    (h : (out r ⟨i, suf, []⟩).head? = some st ∨ ∃ st0, (out r ⟨i, suf, []⟩).head? = some st0 ∧ st0.pos = i ∧ i < st.pos)
    {st' : St} (h' : st' ∈ out r ⟨i, suf, []⟩) : st'.pos ≤ st.pos := by
  rcases h with h | ⟨st0, h1, h2, h3⟩
  · exact hb _ _ _ h' h
  · have := hb _ _ _ hm h1
    omega

/-- **C93**: the groups of a match are what their names say. -/
theorem C93_groups (F : Fmt) (text : List Char) (f : Found) (hf : f ∈ finditer (numRe F) 0 text) (c : String × Nat × Nat)
    (hc : c ∈ f.caps) :
    (c.1 = "sign" ∧ (textOf text c = ['-'] ∨ textOf text c = ['+'])) ∨ (c.1 = "integer" ∧ IsInt F (textOf text c)) ∨
    (c.1 = "decimal" ∧ IsDec F (textOf text c)) ∨ (c.1 = "exponent" ∧ IsExp F (textOf text c)) ∨
    (c.1 = "number" ∧ IsNumber F (textOf text c)) := by
  obtain ⟨pre, suf, st, e1, e2, e3, _, e5, _⟩ := finditer_at hf
  rw [e5] at hc
  rcases out_capOf _ free_numRe _ st e3 c hc with h | ⟨x, p, u, w, h1, h2, h3, h4, h5⟩
  · cases h
  · simp only at h3 h4
    have ht : textOf text c = u := by
      rw [e1, h3, List.append_assoc p u w, ← List.append_assoc, ← List.append_assoc]
      exact textOf_eq (by rw [h4, e2, List.length_append]; omega) h5
    rw [ht]
    rcases groupIn_numRe h1 with ⟨a, b⟩ | ⟨a, b⟩ | ⟨a, b⟩ | ⟨a, b⟩ | ⟨a, b⟩
    · exact Or.inl ⟨a, b u h2⟩
    · exact Or.inr (Or.inl ⟨a, b u h2⟩)
    · exact Or.inr (Or.inr (Or.inl ⟨a, b u h2⟩))
    · exact Or.inr (Or.inr (Or.inr (Or.inl ⟨a, b u h2⟩)))
    · exact Or.inr (Or.inr (Or.inr (Or.inr ⟨a, b u h2⟩)))

/-- **C93**: every match is a number. -/
theorem C93_sound (F : Fmt) (text : List Char) (f : Found) (hf : f ∈ finditer (numRe F) 0 text) :
    ∃ a u b, text = a ++ u ++ b ∧ f.start = a.length ∧ f.stop = a.length + u.length ∧ IsNumber F u := by
  obtain ⟨pre, suf, st, e1, e2, e3, e4, _⟩ := finditer_at hf
  obtain ⟨u, ⟨h1, h2⟩, hl⟩ := out_sound _ free_numRe _ st e3
  simp only at h1 h2
  exact ⟨pre, u, st.rest, by rw [e1, h1, List.append_assoc], by omega, by omega, (lang_numRe u).1 hl⟩

/-- **C93**: with sane settings it is the longest number that starts where it does. -/
theorem C93_longest (F : Fmt) (hF : Sane F) (text : List Char) (f : Found) (hf : f ∈ finditer (numRe F) 0 text)
    (a v b : List Char) (ht : text = a ++ v ++ b) (ha : f.start = a.length) (hv : IsNumber F v) :
    a.length + v.length ≤ f.stop := by
  obtain ⟨pre, suf, st, e1, e2, e3, e4, _, e6⟩ := finditer_at hf
  have hpa : pre = a ∧ suf = v ++ b := by
    apply List.append_inj
    · rw [← e1, ht, List.append_assoc]
    · omega
  obtain ⟨rfl, rfl⟩ := hpa
  obtain ⟨c, hc⟩ := out_complete (numRe F) ⟨f.start, v ++ b, []⟩ v b rfl ((lang_numRe v).2 hv)
  have := best_found (best_numRe hF) e3 e6 hc
  simp only at this
  omega

/-- **C93**: wherever a number starts, a match starts there or covers that place. -/
theorem C93_complete (F : Fmt) (text a v b : List Char) (ht : text = a ++ v ++ b) (hv : IsNumber F v) :
    ∃ f ∈ finditer (numRe F) 0 text, f.start = a.length ∨ (f.start < a.length ∧ a.length < f.stop) := by
  obtain ⟨c, hc⟩ := out_complete (numRe F) ⟨0 + a.length, v ++ b, []⟩ v b rfl ((lang_numRe v).2 hv)
  obtain ⟨f, hf, h⟩ := finditer_covers (r := numRe F) (i := 0) (pre := a) (suf := v ++ b) (List.ne_nil_of_mem hc)
  rw [← List.append_assoc, ← ht, Nat.zero_add] at *
  exact ⟨f, hf, h⟩

/-- **C93**: where separators are optional, every digit is inside some match. -/
theorem C93_digits (F : Fmt) (hopt : F.optional = true) (text a b : List Char) (d : Char) (ht : text = a ++ d :: b)
    (hd : F.digit d = true) : ∃ f ∈ finditer (numRe F) 0 text, f.start ≤ a.length ∧ a.length < f.stop := by
  have hn : IsNumber F [d] := ⟨[], [d], [], [], rfl, Or.inl rfl, Or.inr (Or.inr ⟨hopt, by simp, by simpa using hd⟩),
    Or.inl rfl, by simp, Or.inl rfl⟩
  obtain ⟨f, hf, h⟩ := C93_complete F text a [d] b (by rw [ht]; simp) hn
  refine ⟨f, hf, ?_⟩
  rcases h with h | h
  · refine ⟨by omega, ?_⟩
    -- a match is not empty
    obtain ⟨a', u, b', _, h2, h3, sg, i, d', e, rfl, _, _, _, hne, _⟩ := C93_sound F text f hf
    have : 0 < (sg ++ i ++ d' ++ e).length := by
      rcases hne with h | h
      · have := List.length_pos_iff.2 h; simp; omega
      · have := List.length_pos_iff.2 h; simp; omega
    omega
  · omega

/-! ### The hypotheses are met -/

/-- `,` and `.`, separators optional. -/
def enFmt : Fmt := ⟨fun c => '0' ≤ c && c ≤ '9', [','], ['.'], true⟩
/-- ` ` is no separator but `'` is, as in Switzerland; separators required. -/
def chFmt : Fmt := ⟨fun c => '0' ≤ c && c ≤ '9', ['\''], ['.'], false⟩

example : Sane enFmt := by
  constructor <;> decide
example : Sane chFmt := by
  constructor <;> decide

def spans (l : List Found) : List (Nat × Nat) := l.map fun f => (f.start, f.stop)

example : spans (finditer (numRe enFmt) 0 "a -1,234.5e+10 b 5 x 10^3, .7".toList) = [(2, 14), (17, 25), (27, 29)] := by
  decide +kernel
example : XmlHelper.fullmatch (numRe enFmt) "-1,234.5e+10".toList = true := by decide +kernel
example : XmlHelper.fullmatch (numRe chFmt) "1'234".toList = true ∧ XmlHelper.fullmatch (numRe chFmt) "1234".toList = false := by
  decide +kernel

/-- Sane settings are needed: with `.` for both, the longest number `1.234.5` at the start is found, but of `1.2345`
only `1.234` is. -/
def bothFmt : Fmt := ⟨fun c => '0' ≤ c && c ≤ '9', ['.'], ['.'], true⟩
theorem C93_insane_settings : spans (finditer (numRe bothFmt) 0 "1.2345".toList) = [(0, 5), (5, 6)] ∧
    IsNumber bothFmt "1.2345".toList := by
  refine ⟨by decide +kernel, (C93_language _ _).1 (by decide +kernel)⟩

/-- **C93**: not every run of digits stays together: `1,2345` is read as `1,234` and `5`. -/
theorem C93_run_split : spans (finditer (numRe enFmt) 0 "1,2345".toList) = [(0, 5), (5, 6)] := by
  decide +kernel

end Pawpaw.Props
