import Verif.Model.Patterns
import Verif.Model.Format
import Verif.Model.WsSplit
import Verif.Model.Xml
/-!
# Further pattern texts of the library: those which other parts of the model transcribe by hand
-/
namespace Pawpaw
namespace Patterns
open Regex

/-- `Axis._re`, `/repo/pawpaw/query/_query.py:85` -/
def axis : List Char := "(?P<order>[\\+\\-]?)(?P<key>\\.{1,4}|\\*{1,3}|\\>\\<|\\<{1,3}|\\>{1,3})(?P<or_self>(?:\\!{1,2})?)".toList

/-- `EcfFilter._re`, `/repo/pawpaw/query/_query.py:383` -/
def filter : List Char := "\\[(?P<not>\\~)?(?P<k>[a-z\\-]+):\\s*(?P<v>.+?)\\]".toList

/-- `EtName._re`, `/repo/pawpaw/xml/xml_helper.py:46` -/
def etName : List Char := "(?P<namespace>\\{.+?\\})?(?P<name>.+)".toList

/-- `Ito._splitlines_re`, `/repo/pawpaw/ito.py:1288` -/
def splitlines : List Char := "\\r\\n|\\r|\\n|\\v|\\x0b|\\f|\\x0c|\\x1c|\\x1d|\\x1e|\\x85|\\u2028|\\u2029".toList

/-- `_pat_format_int`, `/repo/pawpaw/ito.py:609-618` -/
def formatInt : List Char :=
  "(?P<dir>".toList ++ "span|start|stop".toList ++ ")".toList ++ "(?:\\:".toList ++
  "(?:(?P<fill>.)?(?P<align>[\\<\\>\\=\\^]))?".toList ++ "(?P<sign>[\\+\\-])?".toList ++ "(?P<hash>#)?".toList ++
  "(?P<zero>0)?".toList ++ "(?P<width>\\d+)?".toList ++ "(?P<grouping_option>[_,])?".toList ++
  "(?P<type>[bcdeEfFgGnosxX%])?".toList ++ ")?".toList

/-- `_pat_format_str`, `/repo/pawpaw/ito.py:619-629` -/
def formatStr : List Char :=
  "(?P<dir>".toList ++ "desc|string|substr|value".toList ++ ")".toList ++ "(?:\\!".toList ++ "(?P<lslice>\\d+)?".toList ++
  "(?P<conv>[ar])".toList ++ "(?P<rslice>\\d+)?".toList ++ ")?".toList ++ "(?:\\:".toList ++
  "(?P<abbr_pos>[\\<\\^\\>])?".toList ++ "(?P<width>\\d+)".toList ++ "(?P<abbr>.+)?".toList ++ ")?".toList

/-- `_pat_format`, `/repo/pawpaw/ito.py:602`, `:630-631` -/
def format : List Char :=
  "%(?:".toList ++ ("(?P<zws> )".toList ++ "|".toList ++ formatInt ++ "|".toList ++ formatStr) ++ ")".toList

/-- `pattern.fullmatch(text)`: the first way that takes the whole text. -/
def fullMatch (r : Re) (text : List Char) : Option Found :=
  ((out r ⟨0, text, []⟩).find? (fun st => decide (st.rest = []))).map fun st => ⟨0, st.pos, st.caps⟩

/-- `m.span(name)`: what the group matched last. -/
def groupSpan (m : Found) (name : String) : Option (Nat × Nat) := (m.caps.reverse.find? (fun c => c.1 == name)).map (·.2)

/-- `m.group(name)`, in the text whose positions start at `at`. -/
def group (m : Found) (name : String) (text : List Char) (i : Nat := 0) : Option (List Char) :=
  (groupSpan m name).map fun s => (text.drop (s.1 - i)).take (s.2 - s.1)

end Patterns
end Pawpaw
