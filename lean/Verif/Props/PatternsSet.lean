import Verif.Props.PatternsNum
/-!
# C116: character sets and paragraphs
-/
namespace Pawpaw
namespace Props
open ReSyntax Regex Patterns

theorem lit_open : "[".toList = ['['] := by decide +kernel
theorem lit_not : "^".toList = ['^'] := by decide +kernel
theorem lit_shut : "]".toList = [']'] := by decide +kernel

theorem adds_charSet {escape : List Char → List Char} (h : Escapes escape) (c : Char) (cs : List Char) (inc : Bool) :
    Adds false (charSet escape inc (c :: cs)) [.cls (!inc) ((c :: cs).map Item.one)] := by
  have := h.set c cs inc
  unfold charSet
  rw [lit_open, lit_not, lit_shut]
  exact this

theorem has_ones (E : Env) (c : Char) (cs : List Char) (b : Bool) :
    (cs.map Item.one).foldl (fun b j => b || j.has E c) b = (b || decide (c ∈ cs)) := by
  induction cs generalizing b with
  | nil => simp
  | cons d ds ih =>
    rw [List.map_cons, List.foldl_cons, ih, Item.has]
    cases b <;> by_cases hd : c = d <;> simp [hd]

theorem inClass_ones (E : Env) (hf : E.fold = none) (c d : Char) (ds : List Char) :
    inClass E ((d :: ds).map Item.one) c = decide (c ∈ d :: ds) := by
  simp only [inClass, hf, List.map_cons, anyOf]
  rw [has_ones, Item.has]
  by_cases h : c = d <;> simp [h]

theorem denote_set (E : Env) (hf : E.fold = none) (bs : List (List Char × List Char)) (d : Char) (ds : List Char) (inc : Bool) :
    denote E bs (.cls (!inc) ((d :: ds).map Item.one)) = .chr fun c => decide (c ∈ d :: ds) == inc := by
  cases inc with
  | true =>
    simp only [denote, Bool.not_true, Bool.false_eq_true, if_false]
    congr 1; funext c; rw [inClass_ones E hf]; simp
  | false =>
    simp only [denote, Bool.not_false, if_true]
    congr 1; funext c; rw [inClass_ones E hf]; simp

/-- **C116.** `to_re_char_set(chars)` is, for all characters, whatever they mean in patterns, the class of exactly these, or
of exactly the others. -/
theorem C116_char_set (escape : List Char → List Char) (h : Escapes escape) (E : Env) (hf : E.fold = none) (chars : List Char)
    (hc : chars ≠ []) (inclusive : Bool) :
    Denotes E false (charSet escape inclusive chars) (.chr fun c => decide (c ∈ chars) == inclusive) := by
  obtain ⟨c, cs, rfl⟩ := List.exists_cons_of_ne_nil hc
  refine denotes_of (adds_charSet h c cs inclusive).body.read ?_
  simp only [altOf, seqOf]
  rw [denote_set E hf]
  exact Same.refl _

theorem times_least (a : Re) (n : Nat) : times a (.star true a) n = NlpRe.atLeast n a := by
  induction n with
  | zero => rfl
  | succ n ih => rw [times, ih]; rfl

theorem lit_para : "*\\L<para_seps>){".toList = (cl! "*") ++ ((cl! "\\L<para_seps>") ++ ([')'] ++ ['{'])) := by decide +kernel
theorem lit_plain : "(?:".toList = (cl! "(?:") := by decide +kernel
theorem lit_least : ",}".toList = [',', '}'] := by decide +kernel

/-- A class and `*`. -/
theorem adds_star_set {t : List Char} {a : Syn} (h : ∀ f outer q, t.foldl (step false) ⟨f, outer, .normal q⟩ =
    ⟨{ f with cur := a :: f.cur }, outer, .normal false⟩) : Adds false (t ++ ['*']) [.rep 0 none true a] := by
  intro f outer q
  rw [List.foldl_append, h]
  exact quant_star f a f.cur outer

theorem run_set {escape : List Char → List Char} (h : Escapes escape) (c : Char) (cs : List Char) (inc : Bool) (f : Frame)
    (outer : List Frame) (q : Bool) : (charSet escape inc (c :: cs)).foldl (step false) ⟨f, outer, .normal q⟩ =
      ⟨{ f with cur := .cls (!inc) ((c :: cs).map Item.one) :: f.cur }, outer, .normal false⟩ := by
  have e1 : (['['] : List Char).foldl (step false) ⟨f, outer, .normal q⟩ = ⟨f, outer, .clsOpen⟩ := rfl
  unfold charSet
  rw [lit_open, lit_not, lit_shut, List.foldl_append, List.foldl_append, List.foldl_append, e1]
  cases inc with
  | true =>
    rw [if_pos rfl, List.foldl_nil, set_first h, set_run h]
    simp [step, State.push]
  | false =>
    have e2 : (['^'] : List Char).foldl (step false) ⟨f, outer, .clsOpen⟩ = ⟨f, outer, .cls true [] false⟩ := rfl
    rw [if_neg Bool.false_ne_true, e2, set_run h]
    simp [step, State.push]

/-- **C116.** The pattern of `Paragraph`, for every number of separators and every list of them. -/
theorem C116_paragraph (escape : List Char → List Char) (h : Escapes escape) (K : NlpRe.Classes) (seps text : List Char) (lo : Nat)
    (num : List Char) (n : Nat) (hn : Decimal num n) :
    Denotes (nlpEnv K seps text lo) false (para escape num) (NlpRe.paraRe seps n) := by
  have hl : Adds false (cl! "\\L<para_seps>") [.lst (cl! "para_seps")] := fun _ _ _ => ⟨false, rfl⟩
  have hs := (adds_star_set (run_set h '\u0009' NlpRe.blanks.tail true)).append hl
  have hr := (opens_plain.rep (v := false) hs.body (quant_least hn)).body.read
  have e : para escape num = (cl! "(?:") ++ (charSet escape true ('\u0009' :: NlpRe.blanks.tail) ++ ['*'] ++ (cl! "\\L<para_seps>")) ++
      [')'] ++ (['{'] ++ num ++ [',', '}']) := by
    have key : ∀ (A s B m C b1 b2 b3 b4 a c : List Char), A = a → B = b1 ++ (b2 ++ (b3 ++ b4)) → C = c →
      A ++ s ++ B ++ m ++ C = a ++ (s ++ b1 ++ b2) ++ b3 ++ (b4 ++ m ++ c) := by
      rintro _ _ _ _ _ _ _ _ _ _ _ rfl rfl rfl
      simp only [List.append_assoc]
    exact key _ _ _ _ _ _ _ _ _ _ _ lit_plain lit_para lit_least
  rw [e]
  refine denotes_of hr ?_
  simp only [altOf, seqOf, List.cons_append, List.nil_append, wrapK, denote, repeated, times_least, Syn.referred]
  have hd := denote_set (nlpEnv K seps text lo) rfl [] '\u0009' NlpRe.blanks.tail true
  simp only [Bool.not_true] at hd
  have ho : (Re.chr fun c => decide (c ∈ '\u0009' :: NlpRe.blanks.tail) == true) = NlpRe.oneOf NlpRe.blanks := by
    simp only [NlpRe.oneOf, beq_true]; rfl
  rw [ho] at hd
  exact Same.of_eq (by
    rw [NlpRe.paraRe, ← hd]; simp only [denote]; rfl)

example : Decimal ['1', '2'] 12 := ⟨by decide, rfl⟩
example (E : Env) (hf : E.fold = none) : Denotes E false "[\\]\\-a\\^]".toList (.chr fun c => decide (c ∈ [']', '-', 'a', '^']) == true) := by
  have := C116_char_set escapeAll escapes_all E hf [']', '-', 'a', '^'] (by simp) true
  have e : charSet escapeAll true [']', '-', 'a', '^'] = "[\\]\\-a\\^]".toList := by decide +kernel
  exact e ▸ this

end Props
end Pawpaw
