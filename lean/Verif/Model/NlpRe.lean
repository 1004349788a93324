import Verif.Model.NumberRe
import Verif.Model.Nlp
/-!
# The patterns of `nlp.py`, `/repo/pawpaw/nlp/nlp.py`

As expressions of the model matcher.  The classes `\w`, `\d`, `\s` are parameters.  A named list `\L<…>` is an
alternation, the longer texts first (order does not matter inside assertions).
-/
namespace Pawpaw
namespace NlpRe
open Regex NumberRe

/-- The Unicode classes. -/
structure Classes where
  word : Char → Bool
  digit : Char → Bool
  space : Char → Bool

/-- `unicode_white_space_eol`, `/repo/pawpaw/nlp/nlp.py:15-20` -/
def eols : List Char := ['\u000A', '\u0085', '\u2028', '\u2029']

/-- `unicode_white_space_other`, `/repo/pawpaw/nlp/nlp.py:22-46` -/
def blanks : List Char :=
  ['\u0009', '\u000C', '\u000D', '\u0020', '\u00A0', '\u2000', '\u2001', '\u2002', '\u2003', '\u2004', '\u2005', '\u2006',
   '\u2007', '\u2008', '\u2009', '\u200A', '\u200B', '\u202F', '\u205F', '\u3000']

/-- `unicode_single_quote_marks`, `/repo/pawpaw/nlp/nlp.py:49-64` -/
def quotes1 : List Char :=
  ['\u0027', '\u0060', '\u00B4', '\u2018', '\u2019', '\u201A', '\u201B', '\u275B', '\u275C', '\u275F']

/-- `unicode_double_quote_marks`, `/repo/pawpaw/nlp/nlp.py:66-79` -/
def quotes2 : List Char := ['\u0022', '\u201C', '\u201D', '\u201E', '\u201F', '\u275D', '\u275E', '\u2760']

/-- A character set. -/
def oneOf (l : List Char) : Re := .chr fun c => decide (c ∈ l)

/-- `a{n,}` -/
def atLeast : Nat → Re → Re
  | 0, a => many a
  | n + 1, a => .seq a (atLeast n a)

/-- An alternation of texts. -/
def anyLit : List (List Char) → Re
  | [] => .chr fun _ => false
  | [t] => lit t
  | t :: ts => .alt (lit t) (anyLit ts)

/-- A text starting here matches `r`: `(?=r)`. -/
def ahead (r : Re) : Re := .test fun i rest => !(out r ⟨i, rest, []⟩).isEmpty

/-- Some text ending at `i` matches `r`; `text` is the string up to where the search ends, and characters before `lo`
are not seen. -/
def endsHere (r : Re) (text : List Char) (lo i : Nat) : Bool :=
  (List.range (i + 1)).any fun j => decide (lo ≤ j) && (out r ⟨j, text.drop j, []⟩).any fun st => st.pos == i

/-- `(?<=r)` -/
def behind (text : List Char) (lo : Nat) (r : Re) : Re := .test fun i _ => endsHere r text lo i
/-- `(?<!r)` -/
def notBehind (text : List Char) (lo : Nat) (r : Re) : Re := .test fun i _ => !endsHere r text lo i

/-! ### `Paragraph` -/

/-- `Paragraph._build_re`, `/repo/pawpaw/nlp/nlp.py:257-258`: blanks and an end of line, at least `n` times. -/
def paraRe (seps : List Char) (n : Nat) : Re := atLeast n (.seq (many (oneOf blanks)) (oneOf seps))

/-! ### `Sentence` -/

/-- `_sen_ws`, `/repo/pawpaw/nlp/nlp.py:424-425` -/
def ws : Re := .alt (lit ['\r', '\n']) (oneOf ('\n' :: blanks))
/-- `_prefix_chars`, `/repo/pawpaw/nlp/nlp.py:315-317` -/
def pres : List Char := quotes1 ++ quotes2 ++ ['(', '[', '{']
/-- `_suffix_chars`, `/repo/pawpaw/nlp/nlp.py:326-328` -/
def sufs : List Char := quotes1 ++ quotes2 ++ [')', ']', '}']

/-- `_terminators`, `/repo/pawpaw/nlp/nlp.py:319-324` -/
def terminator : Re :=
  .alt (.chr (· == '.')) (.alt (atLeast 3 (.chr (· == '.'))) (.alt (.chr (· == '…')) (plus (oneOf ['!', '?']))))

/-- `_hf_start_words`, `/repo/pawpaw/nlp/nlp.py:331-344` -/
def hfStarts : List (List Char) :=
  ["A", "How", "In", "It", "The", "There", "This", "What", "When", "Where", "Who", "Why"].map String.toList

/-- `_numeric_abbrs`, `/repo/pawpaw/nlp/nlp.py:347-357` -/
def numAbbrs : List (List Char) := ["c.", "ca.", "ed.", "illus.", "no.", "p.", "pp.", "ver.", "vol."].map String.toList

/-- `_ignores`, `/repo/pawpaw/nlp/nlp.py:360-422` -/
def ignores : List (List Char) :=
  ["Ald.", "Asst.", "Dr.", "Drs.", "ed.", "e.g.", "Fr.", "Gov.", "Hon.", "ibid.", "i.e.", "illus.", "Insp.", "Messrs.",
   "Mlle.", "Mmes.", "Mr.", "Mrs.", "Ms.", "Msgr.", "Mt.", "pub.", "pseud.", "Pres.", "Prof.", "qtd.", "Rep.", "Reps.",
   "Rev.", "Sen.", "Sens.", "St.", "vis.", "v.", "vs.",
   "Lt.", "Capt.", "Cpt.", "Maj.", "Cmdr.", "Col.", "Brig.", "Gen.", "Adm.",
   "Pvt.", "Pfc.", "Spc.", "Cpl.", "Sgt."].map String.toList

/-- `[A-Z]` -/
def upper : Re := .chr fun c => decide ('A' ≤ c ∧ c ≤ 'Z')
/-- `[a-z]` -/
def lower : Re := .chr fun c => decide ('a' ≤ c ∧ c ≤ 'z')

variable (K : Classes) (text : List Char) (lo : Nat)

/-- `(?<!\L<num_abbrs>(?=\L<sen_ws>\d))`, `/repo/pawpaw/nlp/nlp.py:429` -/
def exNum : Re := notBehind text lo (.seq (anyLit numAbbrs) (ahead (.seq ws (.chr K.digit))))
/-- `(?<![A-Z][a-z]+\L<sen_ws>[A-Z]\.(?=\L<sen_ws>[A-Z][a-z]+))`, `/repo/pawpaw/nlp/nlp.py:430` -/
def exName : Re :=
  notBehind text lo (.seq upper (.seq (plus lower) (.seq ws (.seq upper (.seq (.chr (· == '.'))
    (ahead (.seq ws (.seq upper (plus lower)))))))))
/-- `(?<!U\.S\.(?=\L<sen_ws>Government))`, `/repo/pawpaw/nlp/nlp.py:431` -/
def exGov : Re := notBehind text lo (.seq (lit "U.S.".toList) (ahead (.seq ws (lit "Government".toList))))

/-- `\L<sen_ws>*$`, `/repo/pawpaw/nlp/nlp.py:436` -/
def ruleEnd : Re := .seq (many ws) .eos
/-- `\L<sen_ws>{2,}`, `/repo/pawpaw/nlp/nlp.py:442` -/
def ruleTwo : Re := atLeast 2 ws
/-- `\L<sen_ws>(?=\L<sen_pre>*\L<hf_starts>\L<sen_ws>)`, `/repo/pawpaw/nlp/nlp.py:445` -/
def ruleStart : Re := .seq ws (ahead (.seq (many (oneOf pres)) (.seq (anyLit hfStarts) ws)))
/-- The exceptions and `\L<sen_ws>(?=\L<sen_pre>*[A-Z\d])`, `/repo/pawpaw/nlp/nlp.py:427-432,448` -/
def ruleCatch : Re :=
  .seq (notBehind text lo (anyLit ignores)) (.seq (exNum K text lo) (.seq (exName text lo) (.seq (exGov text lo)
    (.seq ws (ahead (.seq (many (oneOf pres)) (.alt upper (.chr K.digit))))))))

/-- `Sentence._re`, `/repo/pawpaw/nlp/nlp.py:451-462` (the group inside the lookbehind is not selected by `Split`). -/
def sentRe : Re :=
  .seq (behind text lo (.seq (.chr K.word) (.seq terminator (many (oneOf sufs)))))
    (.alt ruleEnd (.alt ruleTwo (.alt ruleStart (ruleCatch K text lo))))

/-! ### `SimpleNlp` -/

/-- `_word_pat` as the group `word`, `/repo/pawpaw/nlp/nlp.py:473,488-490` -/
def wordRe : Re :=
  .grp "word" (.seq (.chr K.word)
    (many (.seq (opt (.alt (oneOf quotes1) (.seq (.chr (· == '-')) (many (.chr K.space))))) (.chr K.word))))

/-- `(?P<char>\w)`, `/repo/pawpaw/nlp/nlp.py:495` -/
def charRe : Re := .grp "char" (.chr K.word)

/-! ### What `finditer` finds -/

/-- The part of a string. -/
def part (s : String) (sp : Span) : List Char := (s.toList.take sp.stop.toNat).drop sp.start.toNat

/-- `pattern.finditer(string, pos, endpos)`. -/
def finds (r : Re) (s : String) (sp : Span) : List Found := finditer r sp.start.toNat (part s sp)

/-- The span of a match. -/
def whole (f : Found) : Span := ⟨f.start, f.stop⟩

/-- The captures of a group. -/
def spansOf (name : String) (f : Found) : List Span :=
  (f.caps.filter fun c => c.1 == name).map fun c => ⟨(c.2.1 : Int), (c.2.2 : Int)⟩

/-- The patterns of `SimpleNlp`, with a `Paragraph` of any settings and a `Number` of any settings.  `seen` says how
far a lookbehind sees in a search that starts at a position (the documentation of `regex` leaves it open). -/
def patterns (F : Fmt) (seps : List Char) (n : Nat) (seen : Nat → Nat) : Nlp.Patterns where
  para s sp := (finds (paraRe seps n) s sp).map whole
  sent s sp := (finds (sentRe K (s.toList.take sp.stop.toNat) (seen sp.start.toNat)) s sp).map whole
  num s sp := (finds (numRe F) s sp).map fun f =>
    ⟨whole f, ["sign", "integer", "decimal", "exponent"].map fun g => (g, spansOf g f)⟩
  word s sp := (finds (wordRe K) s sp).map whole
  char s sp := (finds (charRe K) s sp).map whole

end NlpRe
end Pawpaw
