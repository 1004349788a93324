import Verif.Model.Nlp
import Verif.Spec.Arbor
import Verif.Spec.Tree
/-!
# Specification of `SimpleNlp`

From the model only the data types (`Node`, `Patterns`, `NumMatch`).
-/
namespace NlpSpec
open Pawpaw Nlp SpanSpec ArborSpec TreeSpec

/-- The contract of the regex engine and of the patterns: matches are in order, disjoint and inside the searched part;
words and numbers are not empty; the groups of a number capture non-empty parts of it which do not cross. -/
structure Lawful (p : Patterns) : Prop where
  para : ∀ (s : String) (a b : Int), 0 ≤ a → a ≤ b → b ≤ s.length → OrderedIn a b (p.para s ⟨a, b⟩)
  sent : ∀ (s : String) (a b : Int), 0 ≤ a → a ≤ b → b ≤ s.length → OrderedIn a b (p.sent s ⟨a, b⟩)
  word : ∀ (s : String) (a b : Int), 0 ≤ a → a ≤ b → b ≤ s.length → OrderedIn a b (p.word s ⟨a, b⟩)
  wordNE : ∀ (s : String) (sp w : Span), w ∈ p.word s sp → w.start < w.stop
  num : ∀ (s : String) (a b : Int), 0 ≤ a → a ≤ b → b ≤ s.length → OrderedIn a b ((p.num s ⟨a, b⟩).map (·.whole))
  numNE : ∀ (s : String) (sp : Span) (m : NumMatch), m ∈ p.num s sp → m.whole.start < m.whole.stop
  groupsIn : ∀ (s : String) (sp : Span) (m : NumMatch), m ∈ p.num s sp → ∀ g ∈ m.groups, ∀ c ∈ g.2,
    m.whole.start ≤ c.start ∧ c.start < c.stop ∧ c.stop ≤ m.whole.stop
  groupsLaminar : ∀ (s : String) (sp : Span) (m : NumMatch), m ∈ p.num s sp → (m.groups.flatMap (·.2)).Pairwise Laminar

/-- The contract of the pattern for characters: matches in order, disjoint and inside; and in every number it finds a
character which lies in one of its groups (a digit of the integer, the decimals or the exponent). -/
structure LawfulChars (p : Patterns) : Prop where
  char : ∀ (s : String) (a b : Int), 0 ≤ a → a ≤ b → b ≤ s.length → OrderedIn a b (p.char s ⟨a, b⟩)
  digit : ∀ (s : String) (sp : Span) (m : NumMatch), m ∈ p.num s sp → ∃ g ∈ m.groups, ∃ c ∈ g.2, ∃ w ∈ p.char s m.whole,
    c.start ≤ w.start ∧ w.start < w.stop ∧ w.stop ≤ c.stop

/-- The captures of a number, with their names; the whole comes first. -/
def captures (m : NumMatch) : List (Span × Option String) :=
  (m.whole, some "number") :: m.groups.flatMap fun g => g.2.map fun c => (c, some g.1)

/-- `n` is the tree of the captures of `m`: a well-formed tree at the whole number whose pre-order listing is the
captures by start, the longer first; captures of the same span in group order. -/
structure NumTree (m : NumMatch) (n : Node) : Prop where
  wf : WF n
  span : n.span = m.whole
  desc : n.desc = some "number"
  perm : (preorder n).Perm (captures m)
  sorted : (preorder n).Pairwise
    fun x y => x.1.start < y.1.start ∨ (x.1.start = y.1.start ∧ y.1.stop ≤ x.1.stop)
  stable : ∀ sp : Span, (preorder n).filter (fun e => e.1 == sp) = (captures m).filter (fun e => e.1 == sp)

/-- The parts of `sp` between separators, without the empty ones; `sp` itself if there is no separator. -/
def chunks (sp : Span) (seps : List Span) : List Span :=
  if seps = [] then [sp] else nonEmpty (between sp.start sp.stop seps)

variable (p : Patterns) (s : String)

/-- The words in a part of the text. -/
def words (sp : Span) : List Node := (p.word s sp).map fun w => .mk w (some "word") none []

/-- The numbers, and the words of the text between them. -/
def tokens : Int → Int → List Node → List Node
  | a, b, [] => words p s ⟨a, b⟩
  | a, b, n :: ns => words p s ⟨a, n.start⟩ ++ n :: tokens n.stop b ns

/-- `nums sp` are the numbers in the part `sp` of the text. -/
def sentence (nums : Span → List Node) (sp : Span) : Node :=
  .mk sp (some "sentence") none (tokens p s sp.start sp.stop (nums sp))

def paragraph (nums : Span → List Node) (sp : Span) : Node :=
  .mk sp (some "paragraph") none ((chunks sp (p.sent s sp)).map (sentence p s nums))

def document (nums : Span → List Node) : Node :=
  .mk ⟨0, s.length⟩ (some "Document") none ((chunks ⟨0, s.length⟩ (p.para s ⟨0, s.length⟩)).map (paragraph p s nums))

/-- `sp` is one of the sentences of the text. -/
def IsSentence (sp : Span) : Prop :=
  ∃ q ∈ chunks ⟨0, s.length⟩ (p.para s ⟨0, s.length⟩), sp ∈ chunks q (p.sent s q)

end NlpSpec
