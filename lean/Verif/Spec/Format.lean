import Verif.Spec.Util
/-!
# Specification of format strings (ito.py `__format__`)

The language of directives, written as a grammar, and what it means to cut a format string into literal
text and directives.
-/
namespace FormatSpec

def Digits (s : List Char) : Prop := s ≠ [] ∧ ∀ c ∈ s, '0' ≤ c ∧ c ≤ '9'

/-- An optional character of a set. -/
def Opt (set : List Char) (s : List Char) : Prop := s = [] ∨ ∃ c ∈ set, s = [c]

/-- `[[fill]align]` -/
def FillAlign (s : List Char) : Prop :=
  s = [] ∨ (∃ a ∈ "<>=^".toList, s = [a]) ∨ ∃ f, ∃ a ∈ "<>=^".toList, s = [f, a]

/-- `[[fill]align][sign][#][0][width][grouping][type]` -/
def IntSpec (s : List Char) : Prop :=
  ∃ fa sg h z w g t, s = fa ++ sg ++ h ++ z ++ w ++ g ++ t ∧ FillAlign fa ∧ Opt "+-".toList sg ∧
    Opt "#".toList h ∧ Opt "0".toList z ∧ (w = [] ∨ Digits w) ∧ Opt "_,".toList g ∧
    Opt "bcdeEfFgGnosxX%".toList t

/-- `![lslice](a|r)[rslice]` -/
def ConvSpec (s : List Char) : Prop :=
  ∃ l c r, s = '!' :: (l ++ c :: r) ∧ (l = [] ∨ Digits l) ∧ c ∈ "ar".toList ∧ (r = [] ∨ Digits r)

/-- `:[<^>]width[abbreviation]` -/
def WidthSpec (s : List Char) : Prop :=
  ∃ p w a, s = ':' :: (p ++ w ++ a) ∧ Opt "<^>".toList p ∧ Digits w

/-- The directives. -/
inductive IsDirective : List Char → Prop
  | zws : IsDirective "% ".toList
  | int (name spec : List Char) :
      name ∈ ["span".toList, "start".toList, "stop".toList] →
      (spec = [] ∨ ∃ s, spec = ':' :: s ∧ IntSpec s) →
      IsDirective ('%' :: (name ++ spec))
  | str (name conv width : List Char) :
      name ∈ ["desc".toList, "string".toList, "substr".toList, "value".toList] →
      (conv = [] ∨ ConvSpec conv) → (width = [] ∨ WidthSpec width) →
      IsDirective ('%' :: (name ++ conv ++ width))

/-- `i` is where a directive may start: a `%` which neither is escaped nor escapes another `%`. -/
abbrev Intro (fs : List Char) (i : Nat) : Prop := UtilSpec.EscapeAt '%' fs i

/-- `d` is the directive at `i`: the longest directive which starts at `i` and does not reach the next
place where a directive may start. -/
def DirectiveAt (fs : List Char) (i : Nat) (d : List Char) : Prop :=
  Intro fs i ∧
  let Ok (d : List Char) := IsDirective d ∧ d <+: fs.drop i ∧ ∀ j, Intro fs j → i < j → i + d.length ≤ j
  Ok d ∧ ∀ d', Ok d' → d'.length ≤ d.length

/-- A piece of a format string. -/
inductive Seg where
  | lit (t : List Char)
  | dir (d : List Char)

/-- Its text. -/
def Seg.src : Seg → List Char
  | .lit t => t
  | .dir d => d

/-- Its contribution to the output, when `r` gives the rendering of directives. -/
def Seg.out (r : List Char → List Char) : Seg → List Char
  | .lit t => t
  | .dir d => r d

/-- The directives of a segmentation with their positions; `i` is the position of the first segment. -/
def dirsAt : Nat → List Seg → List (Nat × List Char)
  | _, [] => []
  | i, .lit t :: ss => dirsAt (i + t.length) ss
  | i, .dir d :: ss => (i, d) :: dirsAt (i + d.length) ss

/-- `segs` is the segmentation of `fs`: its text is `fs` and its directives are exactly the directives
of `fs`, at their places. -/
def Segmentation (fs : List Char) (segs : List Seg) : Prop :=
  segs.flatMap Seg.src = fs ∧ ∀ i d, (i, d) ∈ dirsAt 0 segs ↔ DirectiveAt fs i d

/-- `r` is `t` cut to at most `n` characters with abbreviation mark `abbr` at `pos`. -/
def Fitted (t : List Char) (pos : List Char) (n : Nat) (abbr r : List Char) : Prop :=
  r.length = min t.length n ∧
  (t.length ≤ n → r = t) ∧
  (n < t.length → n ≤ abbr.length → r <:+ abbr) ∧
  (n < t.length → abbr.length < n →
    (pos = "<".toList → ∃ e, e <:+ t ∧ r = abbr ++ e) ∧
    (pos = [] ∨ pos = ">".toList → ∃ b, b <+: t ∧ r = b ++ abbr) ∧
    (pos = "^".toList → ∃ b e, b <+: t ∧ e <:+ t ∧ r = b ++ abbr ++ e ∧
      (b.length = e.length ∨ b.length = e.length + 1)))

end FormatSpec
