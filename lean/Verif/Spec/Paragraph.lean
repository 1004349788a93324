import Verif.Spec.NlpText
/-!
# Specification: paragraphs

From the model only `part`, the characters of a part of a string.
-/
namespace ParagraphSpec
open Pawpaw NlpTextSpec

/-- Line feed, next line, line separator, paragraph separator. -/
def lineBreaks : List Char := ['\n', '\u0085', '\u2028', '\u2029']

/-- What strips off the ends of a text: byte order marks, line breaks, blanks. -/
def strippable : List Char := ['\uFEFF', '\uFFFE'] ++ lineBreaks ++ whiteSpace

/-- No separator is a blank. -/
def NoBlank (seps : List Char) : Prop := ∀ c ∈ seps, c ∉ whiteSpace

/-- The end of a line, or a blank line: blanks and a line break. -/
def LineEnd (seps u : List Char) : Prop := ∃ b e, u = b ++ [e] ∧ (∀ c ∈ b, c ∈ whiteSpace) ∧ e ∈ seps

/-- At least `n` ends of lines, with nothing but blanks between. -/
def Break (seps : List Char) (n : Nat) (u : List Char) : Prop :=
  ∃ ls : List (List Char), u = ls.flatten ∧ n ≤ ls.length ∧ ∀ l ∈ ls, LineEnd seps l

/-- `sp'` is `sp` without the strippable characters at its ends. -/
structure Trimmed (s : String) (sp sp' : Span) : Prop where
  inside : sp.start ≤ sp'.start ∧ sp'.start ≤ sp'.stop ∧ sp'.stop ≤ sp.stop
  before : ∀ c ∈ NlpRe.part s ⟨sp.start, sp'.start⟩, c ∈ strippable
  after : ∀ c ∈ NlpRe.part s ⟨sp'.stop, sp.stop⟩, c ∈ strippable
  first : ∀ c ∈ (NlpRe.part s sp').head?, c ∉ strippable
  last : ∀ c ∈ (NlpRe.part s sp').getLast?, c ∉ strippable

/-- `c` is a paragraph of the part `sp` of the text. -/
structure IsParagraph (seps : List Char) (n : Nat) (s : String) (sp : Span) (c : Span) : Prop where
  inside : sp.start ≤ c.start ∧ c.start ≤ c.stop ∧ c.stop ≤ sp.stop
  /-- It ends at the end of the text, or at a break. -/
  ends : c.stop = sp.stop ∨ ∃ e ≤ sp.stop, Break seps n (NlpRe.part s ⟨c.stop, e⟩)
  /-- It starts at the start of the text, or after a break. -/
  starts : c.start = sp.start ∨ ∃ b ≥ sp.start, Break seps n (NlpRe.part s ⟨b, c.start⟩)
  /-- No break starts in it. -/
  whole : ∀ k : Nat, c.start ≤ k → (k : Int) < c.stop → ∀ u w, NlpRe.part s ⟨k, sp.stop⟩ = u ++ w → ¬ Break seps n u
  /-- After a break there is no blank line. -/
  first : c.start ≠ sp.start → ∀ u w, NlpRe.part s ⟨c.start, sp.stop⟩ = u ++ w → ¬ LineEnd seps u
  /-- Before a break there is no blank and no line break. -/
  last : c.stop ≠ sp.stop → ∀ x ∈ (NlpRe.part s c).getLast?, x ∉ whiteSpace ∧ x ∉ seps

end ParagraphSpec
