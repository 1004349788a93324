import Verif.Model.Util
/-!
# Model of the lexical part of `/repo/pawpaw/query/_query.py`: `escape`, `descape`, `_split_phrases`

Texts are `List Char`; a query path Ito is represented by its text.
-/
namespace Pawpaw
namespace Query

/-- `s.replace(c, r)` for a one-character `c`. -/
def replaceChar (c : Char) (r s : List Char) : List Char := s.flatMap fun d => if d = c then r else [d]

/-- `MUST_ESCAPE_CHARS`, `/repo/pawpaw/query/_query.py:32` -/
def mustEscape : List Char := ['\\', '[', ']', '/', ',', '{', '}']

/-- `escape(value)`, `/repo/pawpaw/query/_query.py:61-65` -/
def escape (value : List Char) : List Char :=
  (mustEscape.filter (fun e => decide (e ≠ '\\'))).foldl (fun rv c => replaceChar c ['\\', c] rv)
    (replaceChar '\\' ['\\', '\\'] value)

/-- The loop of `descape`, `/repo/pawpaw/query/_query.py:71-81`. -/
def descapeLoop : Bool → List Char → List Char → Except PyErr (List Char)
  | esc, rv, [] => if esc then .error .valueError else .ok rv
  | esc, rv, c :: cs =>
    if esc ∨ c ≠ '\\' then descapeLoop false (rv ++ [c]) cs else descapeLoop true rv cs

/-- `descape(value)`, `/repo/pawpaw/query/_query.py:68-81` -/
def descape (value : List Char) : Except PyErr (List Char) := descapeLoop false [] value

/-- The loop of `_split_phrases`, `/repo/pawpaw/query/_query.py:604-629`; `i` is the position of the next
character, `path[i-ls:i]` the slice. -/
def splitPhrasesLoop (path : List Char) :
    Nat → Bool → Int → Int → List Char → Run (List Char)
  | ls, esc, _, i, [] =>
    if esc then .raise .valueError
    else .yield (PyStr.slice path (some (i - ls)) (some i)) .done
  | ls, esc, cnt, i, c :: cs =>
    if esc then splitPhrasesLoop path (ls + 2) false cnt (i + 1) cs
    else if c = '\\' then splitPhrasesLoop path ls true cnt (i + 1) cs
    else if c = '{' then splitPhrasesLoop path (ls + 1) false (cnt + 1) (i + 1) cs
    else if c = '}' then splitPhrasesLoop path (ls + 1) false (cnt - 1) (i + 1) cs
    else if c = '/' ∧ cnt = 0 then
      .yield (PyStr.slice path (some (i - ls)) (some i)) (splitPhrasesLoop path 0 false cnt (i + 1) cs)
    else splitPhrasesLoop path (ls + 1) false cnt (i + 1) cs

/-- `Query._split_phrases(ito_path)`, `/repo/pawpaw/query/_query.py:602-629` (a non-empty path: on an
empty one the loop variable is unbound). -/
def splitPhrases (path : List Char) : Run (List Char) :=
  if path = [] then .raise .nameError else splitPhrasesLoop path 0 false 0 0 path

end Query
end Pawpaw
