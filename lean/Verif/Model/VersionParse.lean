import Verif.Model.Version
import Verif.Model.Query
/-!
# Model of `Version.parse_re`, `/repo/pawpaw/_version.py:18-50`

The pattern is compiled with VERBOSE (white space and comments in it do not count) and IGNORECASE.
-/
namespace Pawpaw
namespace Version
open Regex

/-- Which characters outside ASCII match a lower case letter, or `[a-z0-9]`, when case is ignored (for instance the
long s matches `s`).  Left open. -/
structure Fold where
  letter : Char → Char → Bool
  alnum : Char → Bool

/-- The letter `c` of the pattern, case ignored: `c`, its upper case, or what folds to it. -/
def ci (F : Fold) (c : Char) : Re := .chr fun x => x == c || x == c.toUpper || F.letter c x

/-- A word of the pattern, case ignored. -/
def word (F : Fold) : List Char → Re
  | [] => .eps
  | [c] => ci F c
  | c :: cs => .seq (ci F c) (word F cs)

/-- `[a-z0-9]`, case ignored -/
def alnum (F : Fold) : Re :=
  .chr fun x => low x || (decide ('A'.toNat ≤ x.toNat) && decide (x.toNat ≤ 'Z'.toNat)) || F.alnum x

/-- `[0-9]+` -/
def digits : Re := plus (.chr d09)
/-- `[-_\.]?` -/
def sepQ : Re := opt (.chr sep)
/-- `\s*` -/
def spaces : Re := many (.chr Query.reSpace)

/-- `(?:(?P<epoch>[0-9]+)!)?`, `/repo/pawpaw/_version.py:21` -/
def pEpoch : Re := opt (.seq (.grp "epoch" digits) (lit ['!']))
/-- `(?P<release>[0-9]+(?:\.[0-9]+)*)`, `/repo/pawpaw/_version.py:22` -/
def pRelease : Re := .grp "release" (.seq digits (many (.seq (lit ['.']) digits)))
/-- `a|b|c|rc|alpha|beta|pre|preview`, `/repo/pawpaw/_version.py:25` -/
def pPhase (F : Fold) : Re :=
  .alt (word F ['a']) (.alt (word F ['b']) (.alt (word F ['c']) (.alt (word F ['r', 'c'])
    (.alt (word F ['a', 'l', 'p', 'h', 'a']) (.alt (word F ['b', 'e', 't', 'a'])
      (.alt (word F ['p', 'r', 'e']) (word F ['p', 'r', 'e', 'v', 'i', 'e', 'w'])))))))
/-- `[-_\.]?(?P<l>…)[-_\.]?(?P<n>[0-9]+)?`, `/repo/pawpaw/_version.py:24-27,33-36,40-43` -/
def pTagged (l : String) (a : Re) (n : String) : Re :=
  .seq sepQ (.seq (.grp l a) (.seq sepQ (opt (.grp n digits))))
/-- `(?P<pre>…)?`, `/repo/pawpaw/_version.py:23-28` -/
def pPre (F : Fold) : Re := opt (.grp "pre" (pTagged "pre_l" (pPhase F) "pre_n"))
/-- `post|rev|r` -/
def pPostWord (F : Fold) : Re :=
  .alt (word F ['p', 'o', 's', 't']) (.alt (word F ['r', 'e', 'v']) (word F ['r']))
/-- `(?P<post>…)?`, `/repo/pawpaw/_version.py:29-38` -/
def pPost (F : Fold) : Re :=
  opt (.grp "post" (.alt (.seq (lit ['-']) (.grp "post_n1" digits)) (pTagged "post_l" (pPostWord F) "post_n2")))
/-- `(?P<dev>…)?`, `/repo/pawpaw/_version.py:39-44` -/
def pDev (F : Fold) : Re := opt (.grp "dev" (pTagged "dev_l" (word F ['d', 'e', 'v']) "dev_n"))
/-- `(?:\+(?P<local>[a-z0-9]+(?:[-_\.][a-z0-9]+)*))?`, `/repo/pawpaw/_version.py:46` -/
def pLocal (F : Fold) : Re :=
  opt (.seq (lit ['+'])
    (.grp "local" (.seq (plus (alnum F)) (many (.seq (.chr sep) (plus (alnum F)))))))

/-- `parse_re`, `/repo/pawpaw/_version.py:51` -/
def parseRe (F : Fold) : Re :=
  .seq .bos (.seq spaces (.seq (opt (ci F 'v')) (.seq pEpoch (.seq pRelease (.seq (pPre F) (.seq (pPost F) (.seq (pDev F)
    (.seq (pLocal F) (.seq spaces .eos)))))))))

/-- `GroupKeys.preferred(parse_re)`, `/repo/pawpaw/ito.py:22-29`, without the whole match `0`: the groups in the order in
which they are opened (all are named). -/
def parseGroups : List String :=
  ["epoch", "release", "pre", "pre_l", "pre_n", "post", "post_n1", "post_l", "post_n2", "dev", "dev_l", "dev_n", "local"]

end Version
end Pawpaw
