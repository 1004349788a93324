import Verif.Props.NlpWords
/-!
# C77 for the library's own patterns
-/
set_option linter.unusedSectionVars false
set_option linter.unusedSimpArgs false
namespace Pawpaw.Props
open Pawpaw Pawpaw.Regex Pawpaw.NumberRe Pawpaw.NlpRe RegexSpec NumberSpec NlpSpec NlpTextSpec TreeSpec SpanSpec ArborSpec
open Pawpaw.Nlp Pawpaw.Heap Pawpaw.Pipeline HeapSpec

variable {K : Classes} {F : Fmt} {seps : List Char} {n : Nat} {seen : Nat → Nat}

/-- Captures are never lost. -/
theorem caps_kept {r : Re} (hr : Free r) {st st' : St} (h : st' ∈ out r st) {c : String × Nat × Nat} (hc : c ∈ st.caps) :
    c ∈ st'.caps := by
  obtain ⟨_, _, new, e, _⟩ := out_caps r (noLook_of_free r hr) st st' h
  rw [e]
  exact List.mem_append_left _ hc

theorem isInt_digit {u : List Char} (h : IsInt F u) : ∃ c ∈ u, F.digit c = true := by
  rcases h with ⟨h, gs, rfl, ⟨h1, h2⟩, _⟩ | ⟨_, h1, h2⟩
  · obtain ⟨c, hc⟩ := List.exists_mem_of_ne_nil _ h1
    exact ⟨c, by simp [hc], h2 c hc⟩
  · obtain ⟨c, hc⟩ := List.exists_mem_of_ne_nil _ h1
    exact ⟨c, hc, h2 c hc⟩

theorem isDec_digit {u : List Char} (h : IsDec F u) : ∃ c ∈ u, F.digit c = true := by
  obtain ⟨ds, rfl, h1, h2⟩ := h
  obtain ⟨c, hc⟩ := List.exists_mem_of_ne_nil _ h1
  exact ⟨c, by simp [hc], h2 c hc⟩

/-- Every match of the number pattern has an integer or a decimal part. -/
theorem number_part {st st' : St} (h : st' ∈ out (numRe F) st) :
    ∃ c ∈ st'.caps, c.1 = "integer" ∨ c.1 = "decimal" := by
  unfold numRe at h
  rw [out] at h
  obtain ⟨s1, h1, rfl⟩ := List.mem_map.1 h
  rw [out] at h1
  obtain ⟨s2, _, h2⟩ := List.mem_flatMap.1 h1
  rw [out] at h2
  obtain ⟨s3, h3, h4⟩ := List.mem_flatMap.1 h2
  have key : ∃ c ∈ s3.caps, c.1 = "integer" ∨ c.1 = "decimal" := by
    have hd : ∀ {a b : St}, b ∈ out (decG F) a → ∃ c ∈ b.caps, c.1 = "integer" ∨ c.1 = "decimal" := by
      intro a b h
      unfold decG at h
      rw [out] at h
      obtain ⟨t, _, rfl⟩ := List.mem_map.1 h
      exact ⟨("decimal", a.pos, t.pos), by simp, Or.inr rfl⟩
    rw [out] at h3
    rcases List.mem_append.1 h3 with h | h
    · rw [out] at h
      obtain ⟨s4, h5, h6⟩ := List.mem_flatMap.1 h
      unfold intG at h5
      rw [out] at h5
      obtain ⟨t, _, rfl⟩ := List.mem_map.1 h5
      exact ⟨("integer", s2.pos, t.pos), caps_kept (r := opt (decG F)) ⟨free_decG, trivial⟩ h6 (by simp), Or.inl rfl⟩
    · exact hd h
  obtain ⟨c, hc, hn⟩ := key
  exact ⟨c, List.mem_append_left _ (caps_kept (r := opt (expG F)) ⟨free_expG, trivial⟩ h4 hc), hn⟩

/-- The contract of C77, where digits are word characters. -/
theorem patterns_lawfulChars (K : Classes) (F : Fmt) (seps : List Char) (n : Nat) (seen : Nat → Nat)
    (hd : ∀ c, F.digit c = true → K.word c = true) : LawfulChars (patterns K F seps n seen) where
  char s a b h0 h1 h2 := finds_ordered (noLook_of_free _ (free_char K)) h0 h1 h2
  digit s sp m hm := by
    obtain ⟨f, hf, rfl⟩ := List.mem_map.1 hm
    obtain ⟨pre, suf, st, e1, e2, e3, e4, e5, _⟩ := finditer_at hf
    obtain ⟨c, hc, hn⟩ := number_part e3
    have hin := number_cap hf (by rw [e5]; exact hc)
    rcases out_capOf _ free_numRe _ st e3 c hc with h | ⟨x, p, u, w, k1, k2, k3, k4, k5⟩
    · cases h
    · have hu : ∃ d ∈ u, F.digit d = true := by
        rcases groupIn_numRe k1 with ⟨a, b⟩ | ⟨a, b⟩ | ⟨a, b⟩ | ⟨a, b⟩ | ⟨a, b⟩
        · rw [a] at hn; simp at hn
        · exact isInt_digit (b u k2)
        · exact isDec_digit (b u k2)
        · rw [a] at hn; simp at hn
        · rw [a] at hn; simp at hn
      obtain ⟨d, hdu, hdd⟩ := hu
      obtain ⟨j, hj, hjd⟩ := List.mem_iff_getElem.1 hdu
      simp only at k3 k4
      -- the digit in the string
      have hat : s.toList[c.2.1 + j]? = some d := by
        have : (part s sp)[pre.length + (p.length + j)]? = some d := by
          rw [e1, List.getElem?_append_right (by omega), Nat.add_sub_cancel_left, k3, List.append_assoc,
            List.getElem?_append_right (by omega), Nat.add_sub_cancel_left, List.getElem?_append_left hj,
            List.getElem?_eq_getElem hj, hjd]
        have := part_get this
        rwa [show sp.start.toNat + (pre.length + (p.length + j)) = c.2.1 + j by omega] at this
      have hlt : c.2.1 + j < f.stop := by omega
      obtain ⟨g, hg, hg'⟩ := finds_covers (r := charRe K) (a := (f.start : Int)) (b := (f.stop : Int)) (by omega) (c.2.1 + j)
        (by omega) (by omega) d hat (by
          intro w
          obtain ⟨e, he⟩ := out_complete (charRe K) ⟨c.2.1 + j, d :: w, []⟩ [d] w rfl ⟨d, hd d hdd, rfl⟩
          exact List.ne_nil_of_mem he)
      have hlen : g.stop = g.start + 1 := by
        obtain ⟨pre', u', w', st', q1, q2, q3, q4, q5⟩ := found_part hg
        obtain ⟨v, ⟨r1, r2⟩, r3⟩ := out_sound _ (free_char K) _ st' q4
        simp only at r1
        rw [q5] at r1
        have huv : u' = v := List.append_cancel_right r1
        subst huv
        obtain ⟨y, _, rfl⟩ := r3
        exact q3
      refine ⟨(c.1, spansOf c.1 f), ?_, ⟨(c.2.1 : Int), (c.2.2 : Int)⟩, ?_, whole g, List.mem_map_of_mem hg, ?_⟩
      · rw [List.mem_map]
        exact ⟨c.1, by rcases hn with hn | hn <;> simp [hn], rfl⟩
      · unfold spansOf
        rw [List.mem_map]
        exact ⟨c, List.mem_filter.2 ⟨by rw [e5]; exact hc, by simp⟩, rfl⟩
      · unfold whole
        dsimp only
        omega

/-- **C77 fails**, for the library's patterns: `SimpleNlp(chars=True)` raises ValueError on every text with a number in a
sentence. -/
theorem C77_library_violated (K : Classes) (F : Fmt) (seps : List Char) (m : Nat) (seen : Nat → Nat)
    (hd : ∀ c, F.digit c = true → K.word c = true) {h : Heap} (hok : OK h) (hac : Acyclic h) (s : String) (n : Nat) (hn : 4 ≤ n)
    (hc : ∃ sp, IsSentence (patterns K F seps m seen) s sp ∧ (patterns K F seps m seen).num s sp ≠ []) :
    ∃ h', fromText (patterns K F seps m seen) true n h s = (h', .error .valueError) :=
  C77_chars_violated (patterns_lawful K F seps m seen) (patterns_lawfulChars K F seps m seen hd) hok hac s n hn hc

example : IsSentence demo "It is 5." ⟨0, 8⟩ ∧ demo.num "It is 5." ⟨0, 8⟩ ≠ [] :=
  ⟨⟨⟨0, 8⟩, by decide +kernel, by decide +kernel⟩, by
    have : (demo.num "It is 5." ⟨0, 8⟩).length = 1 := by decide +kernel
    intro h; rw [h] at this; cases this⟩
example : ∀ c, enFmt.digit c = true → ascii.word c = true := by
  intro c hc
  simp only [enFmt] at hc
  simp only [ascii, decide_eq_true_eq]
  simp at hc
  exact Or.inr (Or.inr (Or.inl hc))

end Pawpaw.Props
