import Verif.Model.NlpRe
/-!
# Specification: words and white space in `SimpleNlp`

From the model only the type of the Unicode classes; the lists of `nlp.py` are spelt out again.
-/
namespace NlpTextSpec
open Pawpaw Pawpaw.NlpRe

/-- Blanks, in the sense of `nlp.py`: tab, form feed, carriage return, space, no-break space, the spaces U+2000 to U+200B,
narrow no-break space, mathematical space, ideographic space. -/
def whiteSpace : List Char :=
  ['\t', '\x0c', '\r', ' ', '\u00a0', '\u2000', '\u2001', '\u2002', '\u2003', '\u2004', '\u2005', '\u2006', '\u2007',
   '\u2008', '\u2009', '\u200a', '\u200b', '\u202f', '\u205f', '\u3000']

/-- Single quotation marks. -/
def singleQuotes : List Char := ['\'', '`', '´', '‘', '’', '‚', '‛', '❛', '❜', '❟']
/-- Double quotation marks. -/
def doubleQuotes : List Char := ['"', '“', '”', '„', '‟', '❝', '❞', '❠']
/-- What may open a sentence. -/
def openers : List Char := singleQuotes ++ doubleQuotes ++ ['(', '[', '{']
/-- What may close a sentence. -/
def closers : List Char := singleQuotes ++ doubleQuotes ++ [')', ']', '}']

/-- Words that often start a sentence. -/
def startWords : List (List Char) :=
  ["A", "How", "In", "It", "The", "There", "This", "What", "When", "Where", "Who", "Why"].map String.toList
/-- Abbreviations that stand before numbers. -/
def beforeNumber : List (List Char) := ["c.", "ca.", "ed.", "illus.", "no.", "p.", "pp.", "ver.", "vol."].map String.toList
/-- Abbreviations that do not end a sentence: of titles and ranks, and of a few other words. -/
def abbreviations : List (List Char) :=
  ["Ald.", "Asst.", "Dr.", "Drs.", "ed.", "e.g.", "Fr.", "Gov.", "Hon.", "ibid.", "i.e.", "illus.", "Insp.", "Messrs.",
   "Mlle.", "Mmes.", "Mr.", "Mrs.", "Ms.", "Msgr.", "Mt.", "pub.", "pseud.", "Pres.", "Prof.", "qtd.", "Rep.", "Reps.",
   "Rev.", "Sen.", "Sens.", "St.", "vis.", "v.", "vs.", "Lt.", "Capt.", "Cpt.", "Maj.", "Cmdr.", "Col.", "Brig.", "Gen.",
   "Adm.", "Pvt.", "Pfc.", "Spc.", "Cpl.", "Sgt."].map String.toList

/-- Word characters; between two of them may be a single quote mark, or a hyphen with white space after it. -/
inductive IsWord (K : Classes) : List Char → Prop
  | one {c : Char} : K.word c = true → IsWord K [c]
  | more {u j : List Char} {c : Char} : IsWord K u →
      (j = [] ∨ (∃ q ∈ singleQuotes, j = [q]) ∨ ∃ sp, j = '-' :: sp ∧ ∀ x ∈ sp, K.space x = true) →
      K.word c = true → IsWord K (u ++ j ++ [c])

/-- Neither a separator of paragraphs nor white space. -/
def Ink (seps : List Char) (c : Char) : Prop := c ∉ seps ∧ c ∉ whiteSpace ∧ c ≠ '\n'

/-- What is used of Unicode: white space, quotation marks and hyphens are no word characters, white space is not a
hyphen or a quotation mark. -/
structure Unicode (K : Classes) (seps : List Char) : Prop where
  seps : ∀ c ∈ seps, K.word c = false
  blanks : ∀ c ∈ '\n' :: whiteSpace, K.word c = false
  joints : ∀ c ∈ '-' :: singleQuotes, K.word c = false ∧ K.space c = false
  space : ∀ c, K.space c = true → K.word c = false

/-! ### Ends of sentences -/

/-- One white space: a line feed with or without carriage return, or a blank. -/
def Ws1 (u : List Char) : Prop := u = ['\r', '\n'] ∨ ∃ c, u = [c] ∧ (c = '\n' ∨ c ∈ whiteSpace)

/-- White space of at least `n` parts. -/
def WsN (n : Nat) (u : List Char) : Prop := ∃ zs : List (List Char), u = zs.flatten ∧ n ≤ zs.length ∧ ∀ z ∈ zs, Ws1 z

/-- A full stop, an ellipsis, or exclamation and question marks. -/
def Terminator (t : List Char) : Prop :=
  t = ['.'] ∨ (3 ≤ t.length ∧ ∀ c ∈ t, c = '.') ∨ t = ['…'] ∨ (t ≠ [] ∧ ∀ c ∈ t, c = '!' ∨ c = '?')

/-- The text ends with a word character, a terminator, and quotation marks or brackets. -/
def Ended (K : Classes) (before : List Char) : Prop :=
  ∃ x c t q, before = x ++ c :: t ++ q ∧ K.word c = true ∧ Terminator t ∧ ∀ y ∈ q, y ∈ closers

/-- Quotation marks and brackets, then a capital letter or a digit. -/
def Big (K : Classes) (after : List Char) : Prop :=
  ∃ p c x, after = p ++ c :: x ∧ (∀ y ∈ p, y ∈ openers) ∧ (('A' ≤ c ∧ c ≤ 'Z') ∨ K.digit c = true)

/-- Quotation marks and brackets, then a word that often starts a sentence, and white space. -/
def Known (after : List Char) : Prop :=
  ∃ p h z x, after = p ++ h ++ z ++ x ∧ (∀ y ∈ p, y ∈ openers) ∧ h ∈ startWords ∧ Ws1 z

/-- A capital letter and small letters. -/
def Capitalised (u : List Char) : Prop :=
  ∃ c l, u = c :: l ∧ 'A' ≤ c ∧ c ≤ 'Z' ∧ l ≠ [] ∧ ∀ x ∈ l, 'a' ≤ x ∧ x ≤ 'z'

/-- What stands before ends like an abbreviation that does not end a sentence: one of the list; one of those before
digits, and a digit follows; an initial between two names; `U.S.` before `Government`. -/
def Abbreviated (K : Classes) (before after : List Char) : Prop :=
  (∃ a ∈ abbreviations, a <:+ before) ∨
  (∃ a ∈ beforeNumber, a <:+ before ∧ ∃ z d x, after = z ++ d :: x ∧ Ws1 z ∧ K.digit d = true) ∨
  (∃ x n z i, before = x ++ n ++ z ++ [i, '.'] ∧ Capitalised n ∧ Ws1 z ∧ 'A' ≤ i ∧ i ≤ 'Z' ∧
    ∃ z' n' y, after = z' ++ n' ++ y ∧ Ws1 z' ∧ Capitalised n') ∨
  ("U.S.".toList <:+ before ∧ ∃ z x, after = z ++ "Government".toList ++ x ∧ Ws1 z)

/-- `gap` between `before` and `after` separates two sentences, or ends the last. -/
def Boundary (K : Classes) (before gap after : List Char) : Prop :=
  Ended K before ∧
    ((WsN 0 gap ∧ (after = [] ∨ after = ['\n'])) ∨ WsN 2 gap ∨ (Ws1 gap ∧ Known after) ∨
      (Ws1 gap ∧ Big K after ∧ ¬ Abbreviated K before (gap ++ after)))

end NlpTextSpec
