import Verif.Model.SplitHeap
/-!
# Model of `SimpleNlp`, `/repo/pawpaw/nlp/nlp.py:472-508`

The regex engine is external: `Patterns` says what each compiled pattern finds in a part of a string.
-/
namespace Pawpaw
namespace Nlp
open Heap Pipeline Arbor

/-- A match of the number pattern, `/repo/pawpaw/nlp/nlp.py:121-143`: the group `number`, which is the whole match,
and the captures of the groups inside it. -/
structure NumMatch where
  whole : Span
  groups : List (String × List Span)

/-- What `finditer` of each pattern gives on a string from `span.start` to `span.stop`. -/
structure Patterns where
  /-- `/repo/pawpaw/nlp/nlp.py:257-258` -/
  para : String → Span → List Span
  /-- `/repo/pawpaw/nlp/nlp.py:451-462` -/
  sent : String → Span → List Span
  /-- `/repo/pawpaw/nlp/nlp.py:137-143` -/
  num : String → Span → List NumMatch
  /-- `/repo/pawpaw/nlp/nlp.py:473,488-490` -/
  word : String → Span → List Span
  /-- `/repo/pawpaw/nlp/nlp.py:495` -/
  char : String → Span → List Span

/-- A pattern of which one group is selected. -/
def one (d : Option String) (f : String → Span → List Span) : Matcher := fun s sp => (f s sp).map fun m => [(d, [m])]

/-- The number pattern with its named groups (the default group filter of `Extract` drops group 0),
`/repo/pawpaw/arborform/itorator/extract.py:15-16`. -/
def numMatcher (p : Patterns) : Matcher := fun s sp =>
  (p.num s sp).map fun m => (some "number", [m.whole]) :: m.groups.map fun g => (some g.1, g.2)

/-- A connector's default predicate, `/repo/pawpaw/arborform/itorator/itorator.py:12`. -/
def always (_ : Heap) (_ : Nat) : Except PyErr Bool := .ok true

/-- `lambda ito: ito.desc is None`, `/repo/pawpaw/nlp/nlp.py:491`. -/
def noDesc (h : Heap) (x : Nat) : Except PyErr Bool := .ok (h.obj x).desc.isNone

/-- `self.splitter(ito)` for an `Extract`; `n` is the recursion left to its clone. -/
def splitter (n : Nat) (re : Matcher) : Heap → Nat → Gen := call (justT (extractT re none)) n 0

/-- The itorators of `SimpleNlp.__init__`, `/repo/pawpaw/nlp/nlp.py:475-499`: 0 paragraph, 1 sentence, 2 number,
3 word, 4 char. -/
def graph (p : Patterns) (chars : Bool) (n : Nat) : Nat → It
  | 0 => { transform := splitT { desc := some "paragraph" } (splitter n (one none p.para)), cons := [⟨.add, 1, always⟩] }
  | 1 => { transform := splitT { desc := some "sentence" } (splitter n (one none p.sent)), cons := [⟨.add, 2, always⟩] }
  | 2 => {
      transform := splitT { retention := .all } (splitter n (numMatcher p))
      cons := ⟨.delegate, 3, noDesc⟩ :: if chars then [⟨.add, 4, always⟩] else [] }
  | 3 => { transform := extractT (one (some "word") p.word) none }
  | _ => { transform := extractT (one (some "char") p.char) none }

/-- `SimpleNlp.from_text`, `/repo/pawpaw/nlp/nlp.py:505-508`; `n` bounds the recursion. -/
def fromText (p : Patterns) (chars : Bool) (n : Nat) (h : Heap) (text : String) : Heap × Except PyErr Nat :=
  match (call (graph p chars n) n 0 (h.new text none none (some "Document")) h.next).collect with
  | (h', .error e) => (h', .error e)
  | (h', .ok ids) =>
    match h'.add h.next ids with
    | (h'', .error e) => (h'', .error e)
    | (h'', .ok ()) => (h'', .ok h.next)

end Nlp
end Pawpaw
