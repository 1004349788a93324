import Verif.Model.NlpRe
/-!
# The syntax of patterns

What a pattern text means: a reader of the syntax that the package `regex` (not part of `/repo`) documents, as far as the
patterns of `/repo` use it, and the expression of `Verif.Model.Regex` a text stands for.  The texts themselves are in
`Verif.Model.Patterns`.

The reader goes through the text character by character; what it keeps is the stack of open groups and where in the
lexical syntax it is.  Not covered (the reader refuses them): possessive quantifiers, numbered back references, recursion,
inline flags, `\b`, `\A`, `\Z`, a `{` that is not a quantifier.
-/
namespace Pawpaw
namespace ReSyntax
open Regex NlpRe

/-- What may stand in a class. -/
inductive Item where
  | one (c : Char)
  | range (a b : Char)
  | digit
  | space
  | word
  deriving DecidableEq, Repr

/-- Parentheses: `(…)`, `(?P<n>…)` or `(?<n>…)`, `(?:…)`, `(?=…)`, `(?!…)`, `(?<=…)`, `(?<!…)`. -/
inductive Kind where
  | numbered
  | named (n : List Char)
  | plain
  | ahead
  | notAhead
  | behind
  | notBehind
  deriving DecidableEq, Repr

/-- What has been read. -/
inductive Syn where
  | eps
  | chr (c : Char)
  | any
  | cls (neg : Bool) (items : List Item)
  | seq (a b : Syn)
  | alt (a b : Syn)
  | rep (lo : Nat) (hi : Option Nat) (greedy : Bool) (a : Syn)
  | grp (k : Kind) (a : Syn)
  | bos
  | eos
  | back (n : List Char)
  | lst (n : List Char)
  deriving DecidableEq, Repr

/-- One after the other. -/
def seqOf : List Syn → Syn
  | [] => .eps
  | [a] => a
  | a :: as => .seq a (seqOf as)

/-- One or the other. -/
def altOf : List Syn → Syn
  | [] => .eps
  | [a] => a
  | a :: as => .alt a (altOf as)

/-- An open group: the alternatives that are complete, and the items of the one being read, last first. -/
structure Frame where
  kind : Kind
  alts : List Syn
  cur : List Syn
  deriving DecidableEq, Repr

/-- Where the reader is: between items (`q`: right after a quantifier); after `\`; within `\uXXXX` or `\xXX`, with the
number of digits to come and the value so far; after `\L`; in `\L<name`; after `(`, `(?`, `(?P`, `(?<`; in a group name; in
`(?P=name`; after `[`; in a class (its items, last first, and whether a `-` is pending); after `\` in a class; in the
number of an escape in a class; in `{lo,hi}`; in a comment; refused. -/
inductive Mode where
  | normal (q : Bool)
  | esc
  | hex (left val : Nat)
  | listOpen
  | listName (s : List Char)
  | paren
  | quest
  | questP
  | questLt
  | name (s : List Char)
  | backref (s : List Char)
  | clsOpen
  | cls (neg : Bool) (items : List Item) (dash : Bool)
  | clsEsc (neg : Bool) (items : List Item) (dash : Bool)
  | clsHex (neg : Bool) (items : List Item) (dash : Bool) (left val : Nat)
  | brace (lo : Nat) (hi : Option (Option Nat))
  | comment
  | bad
  deriving DecidableEq, Repr

/-- The reader. -/
structure State where
  frame : Frame
  outer : List Frame
  mode : Mode
  deriving DecidableEq, Repr

/-- A further item. -/
def State.push (s : State) (a : Syn) : State :=
  { s with frame := { s.frame with cur := a :: s.frame.cur }, mode := .normal false }

/-- Refused. -/
def State.refuse (s : State) : State := { s with mode := .bad }

/-- A group opens. -/
def State.openGroup (s : State) (k : Kind) : State := ⟨⟨k, [], []⟩, s.frame :: s.outer, .normal false⟩

/-- What a frame has read. -/
def Frame.whole (f : Frame) : Syn := altOf (f.alts ++ [seqOf f.cur.reverse])

/-- A group closes; `(?:…)` is what is in it. -/
def State.close (s : State) : State :=
  match s.outer with
  | [] => s.refuse
  | g :: gs =>
    let a := match s.frame.kind with
      | .plain => s.frame.whole
      | k => .grp k s.frame.whole
    ⟨{ g with cur := a :: g.cur }, gs, .normal false⟩

/-- A quantifier. -/
def State.quantify (s : State) (lo : Nat) (hi : Option Nat) : State :=
  match s.frame.cur with
  | [] => s.refuse
  | a :: as => { s with frame := { s.frame with cur := .rep lo hi true a :: as }, mode := .normal true }

/-- The `?` after a quantifier. -/
def State.lazily (s : State) : State :=
  match s.frame.cur with
  | .rep lo hi _ a :: as => { s with frame := { s.frame with cur := .rep lo hi false a :: as }, mode := .normal false }
  | _ => s.refuse

/-- Letters and digits of ASCII. -/
def alnum (c : Char) : Bool := c.isAlphanum

/-- The controls written `\t`, `\n`, `\v`, `\f`, `\r`. -/
def control (c : Char) : Option Char :=
  if c = 't' then some '\t' else if c = 'n' then some '\n' else if c = 'v' then some '\u000B'
  else if c = 'f' then some '\u000C' else if c = 'r' then some '\r' else none

/-- `\d`, `\s`, `\w`. -/
def category (c : Char) : Option Item :=
  if c = 'd' then some .digit else if c = 's' then some .space else if c = 'w' then some .word else none

/-- How many digits an escape has. -/
def hexLen (c : Char) : Option Nat := if c = 'u' then some 4 else if c = 'x' then some 2 else none

/-- The value of a hexadecimal digit. -/
def hexVal (c : Char) : Option Nat :=
  if '0' ≤ c ∧ c ≤ '9' then some (c.toNat - '0'.toNat)
  else if 'a' ≤ c ∧ c ≤ 'f' then some (c.toNat - 'a'.toNat + 10)
  else if 'A' ≤ c ∧ c ≤ 'F' then some (c.toNat - 'A'.toNat + 10) else none

/-- A further element of a class: the end of a range, or an item. -/
def addItem (items : List Item) (dash : Bool) (i : Item) : Option (List Item) :=
  if dash then
    match items, i with
    | .one a :: rest, .one b => some (.range a b :: rest)
    | _, _ => none
  else some (i :: items)

/-- Between items, flag VERBOSE or not. -/
def stepNormal (verbose : Bool) (q : Bool) (s : State) (c : Char) : State :=
  if verbose && (c == ' ' || c == '\n' || c == '\t') then s
  else if verbose && c == '#' then { s with mode := .comment }
  else if c = '\\' then { s with mode := .esc }
  else if c = '(' then { s with mode := .paren }
  else if c = ')' then s.close
  else if c = '[' then { s with mode := .clsOpen }
  else if c = '|' then
    { s with frame := { s.frame with alts := s.frame.alts ++ [seqOf s.frame.cur.reverse], cur := [] }, mode := .normal false }
  else if c = '.' then s.push .any
  else if c = '^' then s.push .bos
  else if c = '$' then s.push .eos
  else if c = '*' then if q then s.refuse else s.quantify 0 none
  else if c = '+' then if q then s.refuse else s.quantify 1 none
  else if c = '?' then if q then s.lazily else s.quantify 0 (some 1)
  else if c = '{' then if q then s.refuse else { s with mode := .brace 0 none }
  else s.push (.chr c)

/-- One character. -/
def step (verbose : Bool) (s : State) (c : Char) : State :=
  match s.mode with
  | .normal q => stepNormal verbose q s c
  | .esc =>
    match category c with
    | some i => s.push (.cls false [i])
    | none =>
      match control c with
      | some d => s.push (.chr d)
      | none =>
        match hexLen c with
        | some n => { s with mode := .hex n 0 }
        | none =>
          if c = 'L' then { s with mode := .listOpen }
          else if alnum c then s.refuse else s.push (.chr c)
  | .hex left val =>
    match hexVal c with
    | none => s.refuse
    | some d => if left ≤ 1 then s.push (.chr (Char.ofNat (16 * val + d))) else { s with mode := .hex (left - 1) (16 * val + d) }
  | .listOpen => if c = '<' then { s with mode := .listName [] } else s.refuse
  | .listName n => if c = '>' then s.push (.lst n) else { s with mode := .listName (n ++ [c]) }
  | .paren => if c = '?' then { s with mode := .quest } else stepNormal verbose false (s.openGroup .numbered) c
  | .quest =>
    if c = ':' then s.openGroup .plain
    else if c = '=' then s.openGroup .ahead
    else if c = '!' then s.openGroup .notAhead
    else if c = 'P' then { s with mode := .questP }
    else if c = '<' then { s with mode := .questLt }
    else s.refuse
  | .questP =>
    if c = '<' then { s with mode := .name [] }
    else if c = '=' then { s with mode := .backref [] } else s.refuse
  | .questLt =>
    if c = '=' then s.openGroup .behind
    else if c = '!' then s.openGroup .notBehind
    else { s with mode := .name [c] }
  | .name n => if c = '>' then s.openGroup (.named n) else { s with mode := .name (n ++ [c]) }
  | .backref n => if c = ')' then s.push (.back n) else { s with mode := .backref (n ++ [c]) }
  | .clsOpen =>
    if c = '^' then { s with mode := .cls true [] false }
    else if c = '\\' then { s with mode := .clsEsc false [] false }
    else { s with mode := .cls false [.one c] false }
  | .cls neg items dash =>
    if c = ']' then s.push (.cls neg (if dash then items.reverse ++ [.one '-'] else items.reverse))
    else if c = '\\' then { s with mode := .clsEsc neg items dash }
    else if c = '-' ∧ dash = false ∧ items ≠ [] then { s with mode := .cls neg items true }
    else
      match addItem items dash (.one c) with
      | some l => { s with mode := .cls neg l false }
      | none => s.refuse
  | .clsEsc neg items dash =>
    match category c with
    | some i =>
      match addItem items dash i with
      | some l => { s with mode := .cls neg l false }
      | none => s.refuse
    | none =>
      match hexLen c with
      | some n => { s with mode := .clsHex neg items dash n 0 }
      | none =>
        if (control c).isNone && alnum c then s.refuse
        else
          match addItem items dash (.one ((control c).getD c)) with
          | some l => { s with mode := .cls neg l false }
          | none => s.refuse
  | .clsHex neg items dash left val =>
    match hexVal c with
    | none => s.refuse
    | some d =>
      if left ≤ 1 then
        match addItem items dash (.one (Char.ofNat (16 * val + d))) with
        | some l => { s with mode := .cls neg l false }
        | none => s.refuse
      else { s with mode := .clsHex neg items dash (left - 1) (16 * val + d) }
  | .brace lo hi =>
    if c = '}' then
      match hi with
      | none => s.quantify lo (some lo)
      | some h => s.quantify lo h
    else if c = ',' then
      match hi with
      | none => { s with mode := .brace lo (some none) }
      | some _ => s.refuse
    else if '0' ≤ c ∧ c ≤ '9' then
      match hi with
      | none => { s with mode := .brace (10 * lo + (c.toNat - '0'.toNat)) none }
      | some h => { s with mode := .brace lo (some (some (10 * h.getD 0 + (c.toNat - '0'.toNat)))) }
    else s.refuse
  | .comment => if c = '\n' then { s with mode := .normal false } else s
  | .bad => s

/-- Before the first character. -/
def start : State := ⟨⟨.plain, [], []⟩, [], .normal false⟩

/-- What a text is read as, if it is read to its end with all groups closed. -/
def read (verbose : Bool) (text : List Char) : Option Syn :=
  match text.foldl (step verbose) start with
  | ⟨f, [], .normal _⟩ => some f.whole
  | _ => none

/-! ### What it stands for -/

/-- The classes; the meaning of the named lists `\L<…>`; what is looked at by a lookbehind (as in `NlpRe.behind`); the
flags DOTALL and IGNORECASE, the latter with what folds to a letter or into a class (outside ASCII, left open). -/
structure Env where
  digit : Char → Bool
  space : Char → Bool
  word : Char → Bool
  lists : List Char → Re := fun _ => .eps
  text : List Char := []
  lo : Nat := 0
  dotall : Bool := true
  fold : Option ((Char → Char → Bool) × (List Item → Char → Bool)) := none

/-- Whether a character is meant by an item. -/
def Item.has (E : Env) (c : Char) : Item → Bool
  | .one d => c == d
  | .range a b => decide (a.toNat ≤ c.toNat) && decide (c.toNat ≤ b.toNat)
  | .digit => E.digit c
  | .space => E.space c
  | .word => E.word c

/-- Whether it is meant by one of them. -/
def anyOf (E : Env) : List Item → Char → Bool
  | [], _ => false
  | i :: is, c => is.foldl (fun b j => b || j.has E c) (i.has E c)

/-- The upper case of the items that are letters of ASCII. -/
def uppers : List Item → List Item
  | [] => []
  | .one c :: is => if c.isLower then .one c.toUpper :: uppers is else uppers is
  | .range a b :: is => if a.isLower && b.isLower then .range a.toUpper b.toUpper :: uppers is else uppers is
  | _ :: is => uppers is

/-- A class. -/
def inClass (E : Env) (items : List Item) (c : Char) : Bool :=
  match E.fold with
  | none => anyOf E items c
  | some f => if uppers items = [] then anyOf E items c else anyOf E items c || anyOf E (uppers items) c || f.2 items c

/-- A character of the pattern. -/
def literal (E : Env) (c : Char) : Re :=
  match E.fold with
  | none => .chr (· == c)
  | some f => if c.isLower then .chr (fun x => x == c || x == c.toUpper || f.1 c x) else .chr (· == c)

/-- `a` exactly `n` times. -/
def exactly (a : Re) : Nat → Re
  | 0 => .eps
  | 1 => a
  | n + 1 => .seq a (exactly a n)

/-- `a` up to `n` times. -/
def upTo (greedy : Bool) (a : Re) : Nat → Re
  | 0 => .eps
  | 1 => if greedy then .alt a .eps else .alt .eps a
  | n + 1 => if greedy then .alt (.seq a (upTo greedy a n)) .eps else .alt .eps (.seq a (upTo greedy a n))

/-- `n` times `a`, and then `r`. -/
def times (a : Re) (r : Re) : Nat → Re
  | 0 => r
  | n + 1 => .seq a (times a r n)

/-- `a{lo,hi}`. -/
def repeated (lo : Nat) (hi : Option Nat) (greedy : Bool) (a : Re) : Re :=
  match hi with
  | none => times a (.star greedy a) lo
  | some h => if h ≤ lo then exactly a lo else times a (upTo greedy a (h - lo)) lo

/-- Whether there are named groups in it. -/
def Syn.captures : Syn → Bool
  | .seq a b => a.captures || b.captures
  | .alt a b => a.captures || b.captures
  | .rep _ _ _ a => a.captures
  | .grp (.named _) _ => true
  | .grp _ a => a.captures
  | _ => false

/-- Whether it refers back to group `n`. -/
def Syn.refers (n : List Char) : Syn → Bool
  | .seq a b => a.refers n || b.refers n
  | .alt a b => a.refers n || b.refers n
  | .rep _ _ _ a => a.refers n
  | .grp _ a => a.refers n
  | .back m => decide (m = n)
  | _ => false

/-- The group it is, if what follows refers back to it. -/
def Syn.referred (a b : Syn) : Option (List Char) :=
  match a with
  | .grp (.named n) _ => if b.refers n then some n else none
  | _ => none

/-- The expression; `bs` are the texts of the groups that are referred to.  Numbered groups are not captures (nothing
in the library asks for them but `Split` in `Sentence`, see `NlpRe.sentRe`). -/
def denote (E : Env) : List (List Char × List Char) → Syn → Re
  | _, .eps => .eps
  | _, .chr c => literal E c
  | _, .any => .chr fun c => E.dotall || c != '\n'
  | _, .cls neg items => if neg then .chr (fun c => !inClass E items c) else .chr (inClass E items)
  | bs, .seq a b =>
    match a.referred b with
    | some n => .dep (denote E bs a) (fun t => denote E ((n, t) :: bs) b)
    | none => .seq (denote E bs a) (denote E bs b)
  | bs, .alt a b => .alt (denote E bs a) (denote E bs b)
  | bs, .rep lo hi g a => repeated lo hi g (denote E bs a)
  | bs, .grp k a =>
    match k with
    | .plain | .numbered => denote E bs a
    | .named n => .grp (String.ofList n) (denote E bs a)
    | .ahead => if a.captures then .look (denote E bs a) else NlpRe.ahead (denote E bs a)
    | .notAhead => .test fun i rest => (out (denote E bs a) ⟨i, rest, []⟩).isEmpty
    | .behind => NlpRe.behind E.text E.lo (denote E bs a)
    | .notBehind => NlpRe.notBehind E.text E.lo (denote E bs a)
  | _, .bos => .bos
  | _, .eos => .eos
  | bs, .back n =>
    match bs.find? (fun b => b.1 == n) with
    | some b => lit b.2
    | none => .chr fun _ => false
  | _, .lst n => E.lists n

/-- `regex.compile(text, flags)`: the expression, or none if the text is not in the part of the syntax covered here. -/
def compile (E : Env) (verbose : Bool) (text : List Char) : Option Re := (read verbose text).map (denote E [])

end ReSyntax
end Pawpaw
