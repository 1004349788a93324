import Verif.Model.Regex
/-!
# The pattern of `nlp.Number`, `/repo/pawpaw/nlp/nlp.py:121-143`

The texts assembled there (`Model/NlpNumber.lean`), as an expression.  `digit` is `\d`.
-/
namespace Pawpaw
namespace NumberRe
open Regex

/-- The settings the pattern is built from. -/
structure Fmt where
  digit : Char → Bool
  sep : List Char
  point : List Char
  optional : Bool

/-- `[-+]` -/
def signC (c : Char) : Bool := c == '-' || c == '+'
/-- `_sign_pat`, `/repo/pawpaw/nlp/nlp.py:122` -/
def signG : Re := .grp "sign" (.chr signC)
/-- `[Ee]` -/
def eC (c : Char) : Bool := c == 'E' || c == 'e'
/-- `[Xx\u2715]` -/
def xC (c : Char) : Bool := c == 'X' || c == 'x' || c == '\u2715'
/-- ` ?` -/
def spaceQ : Re := opt (.chr (· == ' '))
/-- `sign?\d+`, the end of `/repo/pawpaw/nlp/nlp.py:123-124` -/
def expN (F : Fmt) : Re := .seq (opt signG) (plus (.chr F.digit))
/-- `_sci_exp_e_notation_pat`, `/repo/pawpaw/nlp/nlp.py:123` -/
def expE (F : Fmt) : Re := .seq (.chr eC) (expN F)
/-- `_sci_exp_x10_notation_pat`, `/repo/pawpaw/nlp/nlp.py:124` -/
def expX (F : Fmt) : Re := .seq spaceQ (.seq (.chr xC) (.seq spaceQ (.seq (lit ['1', '0', '^']) (.seq spaceQ (expN F)))))
/-- `_sci_exp_pat`, `/repo/pawpaw/nlp/nlp.py:125` -/
def expG (F : Fmt) : Re := .grp "exponent" (.alt (expE F) (expX F))
/-- `\d{1,3}` -/
def d13 (F : Fmt) : Re := .seq (.chr F.digit) (opt (.seq (.chr F.digit) (opt (.chr F.digit))))
/-- The separator and `\d{3}` -/
def group3 (F : Fmt) : Re := .seq (lit F.sep) (.seq (.chr F.digit) (.seq (.chr F.digit) (.chr F.digit)))
/-- `\d{1,3}(?:sep\d{3})+` -/
def grouped (F : Fmt) : Re := .seq (d13 F) (plus (group3 F))
/-- `build_integer_pat`, `/repo/pawpaw/nlp/nlp.py:127-132` -/
def intG (F : Fmt) : Re := .grp "integer" (if F.optional then .alt (grouped F) (plus (.chr F.digit)) else grouped F)
/-- `build_decimal_pat`, `/repo/pawpaw/nlp/nlp.py:134-135` -/
def decG (F : Fmt) : Re := .grp "decimal" (.seq (lit F.point) (plus (.chr F.digit)))
/-- `build_num_pat_re`, `/repo/pawpaw/nlp/nlp.py:137-143` -/
def numRe (F : Fmt) : Re :=
  .grp "number" (.seq (opt signG) (.seq (.alt (.seq (intG F) (opt (decG F))) (decG F)) (opt (expG F))))

end NumberRe
end Pawpaw
