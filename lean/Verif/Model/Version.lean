import Verif.Model.Regex
/-!
# Model of `Version.is_canonical`, `/repo/pawpaw/_version.py:9-16`
-/
namespace Pawpaw
namespace Version
open Regex

/-- `[0-9]` -/
def d09 (c : Char) : Bool := decide ('0'.toNat ≤ c.toNat) && decide (c.toNat ≤ '9'.toNat)
/-- `[1-9]` -/
def d19 (c : Char) : Bool := decide ('1'.toNat ≤ c.toNat) && decide (c.toNat ≤ '9'.toNat)
/-- `[a-z0-9]` -/
def low (c : Char) : Bool := (decide ('a'.toNat ≤ c.toNat) && decide (c.toNat ≤ 'z'.toNat)) || d09 c
/-- `[-_\.]` -/
def sep (c : Char) : Bool := c == '-' || c == '_' || c == '.'

/-- `[1-9][0-9]*` -/
def posNum : Re := .seq (.chr d19) (many (.chr d09))
/-- `(0|[1-9][0-9]*)` -/
def num : Re := .alt (lit ['0']) posNum
/-- `([1-9][0-9]*!)?` -/
def epoch : Re := opt (.seq posNum (lit ['!']))
/-- `(0|[1-9][0-9]*)(\.(0|[1-9][0-9]*))*` -/
def release : Re := .seq num (many (.seq (lit ['.']) num))
/-- `((a|b|rc)(0|[1-9][0-9]*))?` -/
def pre : Re := opt (.seq (.alt (lit ['a']) (.alt (lit ['b']) (lit ['r', 'c']))) num)
/-- `(\.post(0|[1-9][0-9]*))?` -/
def post : Re := opt (.seq (lit ['.', 'p', 'o', 's', 't']) num)
/-- `(\.dev(0|[1-9][0-9]*))?` -/
def dev : Re := opt (.seq (lit ['.', 'd', 'e', 'v']) num)
/-- `(?:\+[a-z0-9]+(?:[-_\.][a-z0-9]+)*)?` -/
def localPart : Re := opt (.seq (lit ['+']) (.seq (plus (.chr low)) (many (.seq (.chr sep) (plus (.chr low))))))

/-- `_canonical_re`, `/repo/pawpaw/_version.py:10`.  (The numbered groups are left out: only whether there is a match is
used.) -/
def canonicalRe : Re :=
  .seq .bos (.seq (.seq epoch (.seq release (.seq pre (.seq post (.seq dev localPart))))) .eos)

/-- `Version.is_canonical(version)`, `/repo/pawpaw/_version.py:14-16` -/
def isCanonical (version : List Char) : Bool := (matchStart canonicalRe version).isSome

end Version
end Pawpaw
