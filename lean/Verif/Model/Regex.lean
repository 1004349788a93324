/-!
# A model of the backtracking matcher behind the patterns used in the library

The package `regex` is not part of `/repo`; this is the usual semantics of backtracking regular expressions, as its
documentation describes it: all ways of matching are listed in the order in which a backtracking matcher tries
them, and the first one counts.  It is used for the patterns which the library itself writes down
(`/repo/pawpaw/_version.py:10`, `/repo/pawpaw/xml/xml_parser.py:14-29`, `/repo/pawpaw/xml/xml_helper.py:46`,
`/repo/pawpaw/nlp/nlp.py:122-143`, `/repo/pawpaw/table/table.py:33-66`).  Modelled: character classes, sequence, alternation, greedy and lazy repetition, named
groups with all their captures, `^` and `$` without the MULTILINE flag, lookahead, zero-width assertions, backreferences.
-/
namespace Pawpaw
namespace Regex

/-- Expressions. -/
inductive Re where
  | eps
  | chr (p : Char → Bool)
  | seq (a b : Re)
  | alt (a b : Re)
  | star (greedy : Bool) (a : Re)
  | grp (name : String) (a : Re)
  /-- `^` -/
  | bos
  /-- `$`: at the end, or before a newline that ends the text -/
  | eos
  /-- `(?=a)` -/
  | look (a : Re)
  /-- a zero-width assertion without captures: a test of the position and the text ahead -/
  | test (p : Nat → List Char → Bool)
  /-- `a`, and then what depends on the text `a` has matched: a group with backreferences to it -/
  | dep (a : Re) (f : List Char → Re)

/-- Where the matcher is: position, the text still ahead, and the captures made so far. -/
structure St where
  pos : Nat
  rest : List Char
  caps : List (String × Nat × Nat)
  deriving DecidableEq

/-- Repetition of `f` at most `n` times; an iteration that consumes nothing is not made. -/
def iter (greedy : Bool) (f : St → List St) : Nat → St → List St
  | 0, st => [st]
  | n + 1, st =>
    let more := (f st).flatMap fun st' => if st.pos < st'.pos then iter greedy f n st' else []
    if greedy then more ++ [st] else st :: more

/-- All ways to match from a state, best first. -/
def out : Re → St → List St
  | .eps, st => [st]
  | .chr p, st =>
    match st.rest with
    | [] => []
    | c :: cs => if p c then [⟨st.pos + 1, cs, st.caps⟩] else []
  | .seq a b, st => (out a st).flatMap (out b)
  | .alt a b, st => out a st ++ out b st
  | .star g a, st => iter g (out a) st.rest.length st
  | .grp n a, st => (out a st).map fun st' => { st' with caps := st'.caps ++ [(n, st.pos, st'.pos)] }
  | .bos, st => if st.pos = 0 then [st] else []
  | .eos, st => if st.rest = [] ∨ st.rest = ['\n'] then [st] else []
  | .look a, st => ((out a st).head?.map fun st' => { st with caps := st'.caps }).toList
  | .test p, st => if p st.pos st.rest then [st] else []
  | .dep a f, st => (out a st).flatMap fun st' => out (f (st.rest.take (st'.pos - st.pos))) st'

/-- A match: its span and the captures of its named groups, in the order in which they were made. -/
structure Found where
  start : Nat
  stop : Nat
  caps : List (String × Nat × Nat)
  deriving DecidableEq

/-- `pattern.match(text)`: the best match at the start. -/
def matchStart (r : Re) (text : List Char) : Option Found :=
  ((out r ⟨0, text, []⟩).head?).map fun st => ⟨0, st.pos, st.caps⟩

/-- `pattern.finditer`: from left to right, the next search beginning where the last match ended; after an empty match
(`adv`) a match at the same place must not be empty.  `n` bounds the number of steps. -/
def finditerAux (r : Re) : Nat → Bool → Nat → List Char → List Found
  | 0, _, _, _ => []
  | n + 1, adv, i, rest =>
    match (out r ⟨i, rest, []⟩).find? (fun st => !adv || decide (i < st.pos)) with
    | some st => ⟨i, st.pos, st.caps⟩ :: finditerAux r n (decide (st.pos = i)) st.pos st.rest
    | none =>
      match rest with
      | [] => []
      | _ :: cs => finditerAux r n false (i + 1) cs

/-- `pattern.finditer(string, pos, endpos)`; `rest` is the text from `i` to the end position.  At every place there are at
most two steps. -/
def finditer (r : Re) (i : Nat) (rest : List Char) : List Found := finditerAux r (2 * rest.length + 2) false i rest

/-! Abbreviations -/

/-- A literal text. -/
def lit : List Char → Re
  | [] => .eps
  | [c] => .chr (· == c)
  | c :: cs => .seq (.chr (· == c)) (lit cs)

/-- `a+` -/
def plus (a : Re) : Re := .seq a (.star true a)
/-- `a*` -/
def many (a : Re) : Re := .star true a
/-- `a?` -/
def opt (a : Re) : Re := .alt a .eps

end Regex
end Pawpaw
