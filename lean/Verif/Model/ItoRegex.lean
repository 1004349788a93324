import Verif.Model.Regex
import Verif.Model.Flat
/-!
# Model of `Ito.regex_…`, `/repo/pawpaw/ito.py:886-956`

Each method passes the Ito's string and its span on to the method of the pattern.  What the package `regex` does with
`pos` and `endpos` is modelled by the matcher of `Model/Regex`: the text ends at `endpos`; positions are those in the
whole string, so that `^` matches at 0 only.  Lookbehind, `\b`, and the arguments `concurrent` and `timeout` are not
modelled.
-/
namespace Pawpaw
namespace Regex

/-- `pattern.match(string, pos, endpos)`; `rest` is the text from `i = pos` to `endpos`. -/
def matchAt (r : Re) (i : Nat) (rest : List Char) : Option Found :=
  ((out r ⟨i, rest, []⟩).head?).map fun st => ⟨i, st.pos, st.caps⟩

/-- `pattern.fullmatch(string, pos, endpos)`: the best of the ways that reach the end. -/
def fullAt (r : Re) (i : Nat) (rest : List Char) : Option Found :=
  ((out r ⟨i, rest, []⟩).find? fun st => decide (st.rest = [])).map fun st => ⟨i, st.pos, st.caps⟩

/-- `pattern.search(string, pos, endpos)`: the best match at the first place that has one. -/
def search (r : Re) : Nat → List Char → Option Found
  | i, [] => matchAt r i []
  | i, c :: cs =>
    match matchAt r i (c :: cs) with
    | some f => some f
    | none => search r (i + 1) cs

/-- `pattern.finditer(string, pos, endpos, overlapped=True)`: the next search begins one place after the start of the
last match. -/
def overlapped (r : Re) : Nat → List Char → List Found
  | i, [] => (matchAt r i []).toList
  | i, c :: cs => (matchAt r i (c :: cs)).toList ++ overlapped r (i + 1) cs

end Regex

namespace FIto
open Regex

/-- `regex_search`, `/repo/pawpaw/ito.py:888-898` -/
def regexSearch (x : FIto Char) (r : Re) : Option Found := search r x.start.toNat x.text

/-- `regex_match`, `/repo/pawpaw/ito.py:900-910` -/
def regexMatch (x : FIto Char) (r : Re) : Option Found := matchAt r x.start.toNat x.text

/-- `regex_fullmatch`, `/repo/pawpaw/ito.py:912-922` -/
def regexFullmatch (x : FIto Char) (r : Re) : Option Found := fullAt r x.start.toNat x.text

/-- `regex_finditer`, `/repo/pawpaw/ito.py:944-956` -/
def regexFinditer (x : FIto Char) (r : Re) (over : Bool) : List Found :=
  if over then overlapped r x.start.toNat x.text else finditer r x.start.toNat x.text

/-- `regex_findall`, `/repo/pawpaw/ito.py:930-942`, of a pattern without groups: the texts of the matches (not, as the
annotation has it, the matches). -/
def regexFindall (x : FIto Char) (r : Re) (over : Bool) : List (List Char) :=
  (x.regexFinditer r over).map fun f => (x.string.drop f.start).take (f.stop - f.start)

end FIto
end Pawpaw
