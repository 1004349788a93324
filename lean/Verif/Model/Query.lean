import Verif.Model.Ecf
import Verif.Model.Axis
/-!
# Model of query parsing and evaluation, `/repo/pawpaw/query/_query.py:83-105`, `:379-694`

Texts are `List Char`: a phrase, filter or sub-query Ito is represented by its text (all slicing in the
modelled code is relative).  Generators are `Run`s: what is yielded before the end or the exception.

External and left abstract (`Ext`, `Env`): `str.casefold`, which non-ASCII characters are printable,
`Ito.value()`, the user's values and predicates.  Simplification: in index filters only ASCII digits are
digits.
-/
namespace Pawpaw

namespace Run

/-- `for x in r: yield from f(x)` -/
def bindList {τ σ : Type} (f : τ → Run σ) (e : Option PyErr) : List τ → Run σ
  | [] => ⟨[], e⟩
  | x :: xs =>
    match (f x).exc with
    | some err => ⟨(f x).out, some err⟩
    | none => ⟨(f x).out ++ (bindList f e xs).out, (bindList f e xs).exc⟩

/-- `for x in r: yield from f(x)` -/
def bind {τ σ : Type} (r : Run τ) (f : τ → Run σ) : Run σ := bindList f r.exc r.out

/-- `filter(f, r)` over the elements still to come; `e` ends the source. -/
def filterList {τ : Type} (f : τ → Except PyErr Bool) (e : Option PyErr) : List τ → Run τ
  | [] => ⟨[], e⟩
  | x :: xs =>
    match f x with
    | .error err => .raise err
    | .ok true => .yield x (filterList f e xs)
    | .ok false => filterList f e xs

/-- `filter(f, r)` -/
def filter {τ : Type} (f : τ → Except PyErr Bool) (r : Run τ) : Run τ := filterList f r.exc r.out

/-- `(f(x) for x in r)` -/
def map {τ σ : Type} (f : τ → σ) (r : Run τ) : Run σ := ⟨r.out.map f, r.exc⟩

/-- `next(r, None)` -/
def next {τ : Type} (r : Run τ) : Except PyErr (Option τ) :=
  match r.out, r.exc with
  | x :: _, _ => .ok (some x)
  | [], some e => .error e
  | [], none => .ok none

/-- `any(f(x) for x in r)` over the elements still to come. -/
def anyList {τ : Type} (f : τ → Except PyErr Bool) (e : Option PyErr) : List τ → Except PyErr Bool
  | [] => match e with
    | some err => .error err
    | none => .ok false
  | x :: xs =>
    match f x with
    | .error err => .error err
    | .ok true => .ok true
    | .ok false => anyList f e xs

end Run

namespace Query
open Ecf

/-! ## Characters -/

/-- Python's `str.isspace` for one character. -/
def isSpace (c : Char) : Bool :=
  let n := c.toNat
  (9 ≤ n && n ≤ 13) || (28 ≤ n && n ≤ 32) || n == 133 || n == 160 || n == 5760 || (8192 ≤ n && n ≤ 8202) ||
  n == 8232 || n == 8233 || n == 8239 || n == 8287 || n == 12288

/-- `\s` in the `regex` module (Unicode White_Space). -/
def reSpace (c : Char) : Bool := isSpace c && !(28 ≤ c.toNat && c.toNat ≤ 31)

/-- What the model does not define. -/
structure Ext where
  /-- `str.casefold` -/
  casefold : List Char → List Char
  /-- `str.isprintable` of a non-ASCII character -/
  printable : Char → Bool

/-- `str.isprintable` of one character. -/
def Ext.isPrintable (X : Ext) (c : Char) : Bool :=
  if c.toNat < 128 then decide (32 ≤ c.toNat ∧ c.toNat < 127) else X.printable c

/-- `.str_strip()`, `/repo/pawpaw/ito.py:1132-1133` (by C07 it is Python's `strip`). -/
def strip (s : List Char) : List Char := PyStr.stripBy isSpace s

/-! ## Axis -/

/-- The length of the run of `c` at the beginning, at most `m` (`c{1,m}`, greedy). -/
def runLen (c : Char) (m : Nat) (p : List Char) : Nat := min m (p.takeWhile (fun d => decide (d = c))).length

/-- The `key` group of `Axis._re`, `/repo/pawpaw/query/_query.py:84`, with its length. -/
def parseKey (p : List Char) : Option (AxisKey × Nat) :=
  match p with
  | '.' :: _ =>
    let n := runLen '.' 4 p
    some (if n = 1 then .self else if n = 2 then .parent else if n = 3 then .ancestors else .root, n)
  | '*' :: _ =>
    let n := runLen '*' 3 p
    some (if n = 1 then .children else if n = 2 then .descendants else .leaves, n)
  | '>' :: '<' :: _ => some (.dedup, 2)
  | '<' :: _ =>
    let n := runLen '<' 3 p
    some (if n = 1 then .prior else if n = 2 then .priors else .preceding, n)
  | '>' :: _ =>
    let n := runLen '>' 3 p
    some (if n = 1 then .next else if n = 2 then .nexts else .following, n)
  | _ => none

/-- The length of the `order` group of `Axis._re`, `/repo/pawpaw/query/_query.py:84`. -/
def orderLen (p : List Char) : Nat := if p.head? = some '+' ∨ p.head? = some '-' then 1 else 0

/-- `Axis(phrase)`, `/repo/pawpaw/query/_query.py:86-104`, with the length of the axis. -/
def parseAxis (p : List Char) : Except PyErr (Axis × Nat) :=
  let ord := orderLen p
  match parseKey (p.drop ord) with
  | none => .error .valueError
  | some (k, n) =>
    let m := runLen '!' 2 (p.drop (ord + n))
    .ok (⟨k, decide (p.head? = some '-'), if m = 0 then .no else if m = 1 then .ifEmpty else .always⟩, ord + n + m)

/-! ## Environment -/

variable {V : Type} [DecidableEq V]

/-- The tree and string a query runs on, the `values` and `predicates` arguments, and `Ito.value()`. -/
structure Env (V : Type) where
  tree : Node
  string : List Char
  value : Path → Except PyErr V
  values : Option (List (List Char × V))
  predicates : Option (List (List Char × (EIto → Except PyErr Bool)))

/-- What a filter function gets: `(ec, values, predicates)` and the world around. -/
abbrev Ctx (V : Type) := Env V × EIto

/-- `ec.ito.desc` -/
def Ctx.desc (x : Ctx V) : Option (List Char) := ((x.1.tree.get? x.2.2).bind Node.desc).map String.toList
/-- `ec.ito` without its children. -/
def Ctx.ito (x : Ctx V) : FIto Char :=
  match x.1.tree.get? x.2.2 with
  | some n => n.flat x.1.string
  | none => ⟨x.1.string, ⟨0, 0⟩, none⟩

/-! ## Filters -/

/-- `pawpaw.split_unescaped(value, ',')` -/
def chunks (value : List Char) : Run (List Char) :=
  (Util.splitUnescaped (FIto.ofStr value none none) ',' '\\' none none).map FIto.text

/-- `[descape(s) for s in pawpaw.split_unescaped(value, ',')]` -/
def descapeAll : List (List Char) → Option PyErr → Except PyErr (List (List Char))
  | [], none => .ok []
  | [], some e => .error e
  | s :: ss, e =>
    match descape s with
    | .error err => .error err
    | .ok d =>
      match descapeAll ss e with
      | .error err => .error err
      | .ok ds => .ok (d :: ds)

/-- `[descape(s) for s in pawpaw.split_unescaped(value, ',')]` -/
def listed (value : List Char) : Except PyErr (List (List Char)) := descapeAll (chunks value).out (chunks value).exc

/-- Apply the optional `~`. -/
def notIf (neg : Bool) : Except PyErr Bool → Except PyErr Bool
  | .ok b => .ok (if neg then !b else b)
  | .error e => .error e

/-- The `desc` branch, `/repo/pawpaw/query/_query.py:391-395`. -/
def fDesc (neg : Bool) (value : List Char) : Filter (Ctx V) := fun x =>
  match listed value with
  | .error e => .error e
  | .ok l => notIf neg (.ok (decide (x.desc ∈ l.map some)))

/-- The `str` branch, `/repo/pawpaw/query/_query.py:397-401`. -/
def fStr (neg : Bool) (value : List Char) : Filter (Ctx V) := fun x =>
  match listed value with
  | .error e => .error e
  | .ok l => notIf neg (.ok (decide (x.ito.text ∈ l)))

/-- The `str-casefold` branch, `/repo/pawpaw/query/_query.py:403-411`. -/
def fCasefold (X : Ext) (neg : Bool) (value : List Char) : Filter (Ctx V) := fun x =>
  match listed (X.casefold value) with
  | .error e => .error e
  | .ok l => notIf neg (.ok (decide (X.casefold x.ito.text ∈ l.map X.casefold)))

/-- The branches that test every chunk in turn, `/repo/pawpaw/query/_query.py:413-435`:
`any(f(descape(s)) for s in …)` and `all(not f(descape(s)) for s in …)`. -/
def fAny (neg : Bool) (value : List Char) (f : List Char → Except PyErr Bool) : Except PyErr Bool :=
  notIf neg (Run.anyList (fun s => match descape s with
    | .error e => .error e
    | .ok d => f d) (chunks value).exc (chunks value).out)

/-- Python's `s.endswith(t)`, `s.startswith(t)` -/
def endsWith (s t : List Char) : Bool := PyStr.endswithAny s [t] none none
/-- Python's `s.startswith(t)` -/
def startsWith (s t : List Char) : Bool := PyStr.startswithAny s [t] none none

/-- ASCII digit. -/
def isDigit (c : Char) : Bool := decide ('0' ≤ c ∧ c ≤ '9')

/-- Value of a string of digits. -/
def digitsVal (s : List Char) : Nat := s.foldl (fun n c => 10 * n + (c.toNat - '0'.toNat)) 0

/-- `s.isdigit()` -/
def allDigits (s : List Char) : Bool := decide (s ≠ []) && s.all isDigit

/-- Digits with single underscores between them, as `int()` accepts: the digits. -/
def underscored : List Char → Option (List Char)
  | [] => none
  | [c] => if isDigit c then some [c] else none
  | c :: '_' :: cs => if isDigit c then (underscored cs).map (c :: ·) else none
  | c :: d :: cs => if isDigit c then (underscored (d :: cs)).map (c :: ·) else none

/-- `int(s)`: surrounding whitespace, an optional sign, digits with single underscores between. -/
def pyInt (s : List Char) : Except PyErr Int :=
  match strip s with
  | '-' :: r => match underscored r with
    | some ds => .ok (-(digitsVal ds : Int))
    | none => .error .valueError
  | '+' :: r => match underscored r with
    | some ds => .ok (digitsVal ds)
    | none => .error .valueError
  | r => match underscored r with
    | some ds => .ok (digitsVal ds)
    | none => .error .valueError

/-- One range of an index filter, `/repo/pawpaw/query/_query.py:441-461`; `none` is infinity. -/
def parseRange (chunk : List Char) : Except PyErr (Int × Option Int) :=
  match PyStr.split chunk ['-'] (-1) with
  | [a] =>
    match pyInt a with
    | .error e => .error e
    | .ok i => .ok (i, some (i + 1))
  | [a, b] =>
    match pyInt a with
    | .error e => .error e
    | .ok i =>
      if allDigits b then .ok (i, some (digitsVal b))
      else if b.all isSpace then .ok (i, none)
      else .error .valueError
  | _ => .error .valueError

/-- The loop over `value.split(',')`, `/repo/pawpaw/query/_query.py:440-463`. -/
def parseRanges : List (List Char) → Except PyErr (List (Int × Option Int))
  | [] => .ok []
  | c :: cs =>
    match parseRange c with
    | .error e => .error e
    | .ok r =>
      match parseRanges cs with
      | .error e => .error e
      | .ok rs => .ok (r :: rs)

/-- `r[0] <= ec.index < r[1]` -/
def inRange (k : Nat) (r : Int × Option Int) : Bool :=
  decide (r.1 ≤ k) && (match r.2 with
    | some j => decide ((k : Int) < j)
    | none => true)

/-- `all(f(p) for p in …)` -/
def allM {τ : Type} (f : τ → Except PyErr Bool) : List τ → Except PyErr Bool
  | [] => .ok true
  | p :: ps =>
    match f p with
    | .error e => .error e
    | .ok false => .ok false
    | .ok true => allM f ps

/-- `EcfFilter._func(not_, key, value)`, `/repo/pawpaw/query/_query.py:390-486`. -/
def filterFunc (X : Ext) (neg : Bool) (key value : List Char) : Except PyErr (Filter (Ctx V)) :=
  let key := String.ofList key
  if key ∈ ["desc", "d"] then .ok (fDesc neg value)
  else if key ∈ ["string", "s"] then .ok (fStr neg value)
  else if key ∈ ["str-casefold", "scf", "lcs"] then .ok (fCasefold X neg value)
  else if key ∈ ["str-casefold-ew", "scfew", "lcsew"] then
    .ok (fun x => fAny neg (X.casefold value) (fun s => .ok (endsWith (X.casefold x.ito.text) (X.casefold s))))
  else if key ∈ ["str-casefold-sw", "scfsw", "lcssw"] then
    .ok (fun x => fAny neg (X.casefold value) (fun s => .ok (startsWith (X.casefold x.ito.text) (X.casefold s))))
  else if key ∈ ["str-ew", "sew"] then
    .ok (fun x => fAny neg value (fun s => x.ito.strEndswith [s] none none))
  else if key ∈ ["str-sw", "ssw"] then
    .ok (fun x => fAny neg value (fun s => x.ito.strStartswith [s] none none))
  else if key ∈ ["index", "i"] then
    match parseRanges (PyStr.split value [','] (-1)) with
    | .error e => .error e
    | .ok rs => .ok (fun x => notIf neg (.ok (rs.any (inRange x.2.1))))
  else if key ∈ ["predicate", "p"] then
    match listed value with
    | .error e => .error e
    | .ok keys => .ok (fun x =>
      match x.1.predicates with
      | none => .error .valueError
      | some ps => allM (fun p => notIf neg (p.2 x.2)) (ps.filter (fun p => decide (p.1 ∈ keys))))
  else if key ∈ ["value", "v"] then
    match listed value with
    | .error e => .error e
    | .ok keys => .ok (fun x =>
      match x.1.value x.2.2 with
      | .error e => .error e
      | .ok v =>
        match x.1.values with
        | none => .error .valueError
        | some vs => notIf neg (.ok (decide (v ∈ (vs.filter (fun p => decide (p.1 ∈ keys))).map Prod.snd))))
  else .error .valueError

/-! ## Bracketed groups -/

/-- Number of `c`s preceded by an even number of backslashes: matches of `_obs_pat_1 + c`,
`/repo/pawpaw/query/_query.py:296`, `:380-381`, `:519-520`. -/
def countUnescaped (c : Char) : Bool → List Char → Nat
  | _, [] => 0
  | esc, d :: ds =>
    (if !esc && decide (d = c) then 1 else 0) + countUnescaped c (decide (d = '\\') && !esc) ds

/-- The rest of a match of `_re_balanced_splitter` (`/repo/pawpaw/query/_query.py:384-387`, `:523-526`)
after its opening character: its length.  A bracket counts when the character before it is not a
backslash; `depth` groups are open besides the outermost one. -/
def balancedLen (o c : Char) : Nat → Bool → List Char → Option Nat
  | _, _, [] => none
  | depth, prev, d :: ds =>
    if !prev && decide (d = c) then
      match depth with
      | 0 => some 1
      | n + 1 => (balancedLen o c n false ds).map (· + 1)
    else if !prev && decide (d = o) then (balancedLen o c (depth + 1) false ds).map (· + 1)
    else (balancedLen o c depth (decide (d = '\\')) ds).map (· + 1)

/-- `regex_finditer(_re_balanced_splitter)`: the spans of the matches; `skip` characters belong to the
current one, `i` is the position of the next character. -/
def groups (o c : Char) : Nat → Bool → Nat → List Char → List (Nat × Nat)
  | _, _, _, [] => []
  | skip + 1, _, i, d :: ds => groups o c skip (decide (d = '\\')) (i + 1) ds
  | 0, prev, i, d :: ds =>
    if !prev && decide (d = o) then
      match balancedLen o c 0 false ds with
      | some n => (i, i + 1 + n) :: groups o c n false (i + 1) ds
      | none => groups o c 0 false (i + 1) ds
    else groups o c 0 (decide (d = '\\')) (i + 1) ds

/-- The loop over the groups and the operand after the last one, `/repo/pawpaw/query/_query.py:493-513`,
`:543-560`.  `mk` makes the filter of a group's text; `first` tells the first round. -/
def collect {E : Type} (mk : List Char → Except PyErr (Filter E)) (txt : List Char) :
    Bool → Nat → List (Nat × Nat) → Except PyErr (List (Filter E) × List (List Char))
  | first, last, [] => .ok ([], if first then [] else [txt.drop last])
  | first, last, (a, b) :: gs =>
    let op := strip ((txt.take a).drop last)
    if !first && decide (op = []) then .error .valueError
    else
      match mk ((txt.take b).drop a) with
      | .error e => .error e
      | .ok f =>
        match collect mk txt false b gs with
        | .error e => .error e
        | .ok (fs, os) => .ok (f :: fs, op :: os)

/-- `EcfFilter(ito).func` and `EcfSubquery(ito).func`, `/repo/pawpaw/query/_query.py:488-515`, `:533-562`.
Simplification: `EcfSubquery` looks at the text from its first unescaped `{` on; what precedes it holds no
braces. -/
def ecf {E : Type} (o c : Char) (mk : List Char → Except PyErr (Filter E)) (txt : List Char) :
    Except PyErr (Filter E) :=
  if countUnescaped o false txt ≠ countUnescaped c false txt then .error .valueError
  else
    match collect mk txt true 0 (groups o c 0 false 0 txt) with
    | .error e => .error e
    | .ok (fs, os) =>
      match combined fs os with
      | .error e => .error e
      | .ok (fs, os) => .ok (func fs os)

/-- The class `[a-z\-]` of filter keys. -/
def isKeyChar (c : Char) : Bool := decide ('a' ≤ c ∧ c ≤ 'z') || decide (c = '-')

/-- The groups of `EcfFilter._re.fullmatch(g)`, `/repo/pawpaw/query/_query.py:383`, for a `g` that starts
with `[` and ends with `]`: `not`, `k` and `v` (which takes the last whitespace character when there is
nothing else). -/
def parseBracket (g : List Char) : Option (Bool × List Char × List Char) :=
  let r := (g.drop 1).dropLast
  let neg := decide (r.head? = some '~')
  let r := if neg then r.drop 1 else r
  let k := r.takeWhile isKeyChar
  if k = [] then none
  else
    match r.dropWhile isKeyChar with
    | ':' :: w =>
      let v := w.dropWhile reSpace
      if v ≠ [] then some (neg, k, v)
      else match w.getLast? with
        | some c => some (neg, k, [c])
        | none => none
    | _ => none

/-- One round of `EcfFilter.__init__`, `/repo/pawpaw/query/_query.py:504-508`. -/
def mkFilter (X : Ext) (g : List Char) : Except PyErr (Filter (Ctx V)) :=
  match parseBracket g with
  | none => .error .valueError
  | some (neg, k, v) => filterFunc X neg k v

/-! ## Phrases and queries -/

/-- `Phrase`, `/repo/pawpaw/query/_query.py:565-597`. -/
structure Phrase (V : Type) where
  axis : Axis
  filter : Filter (Ctx V)
  subquery : Filter (Ctx V)

/-- `EcfTautology.func`, `/repo/pawpaw/query/_query.py:290-292` -/
def tautology : Filter (Ctx V) := fun _ => .ok true

/-- Characters the `while` loop of `/repo/pawpaw/query/_query.py:577` backs over. -/
def backChar (c : Char) : Bool := decide (c ∈ operators) || decide (c ∈ ['(', ')', ' '])

/-- `while str(self.ito[i := unesc_curl - 1]) in …`, `/repo/pawpaw/query/_query.py:577-578`: the position
reached from `k`. -/
def backUp (p : List Char) : Nat → Nat
  | 0 => 0
  | k + 1 =>
    match p[k]? with
    | some c => if backChar c then backUp p k else k + 1
    | none => k + 1

/-- `Phrase(phrase)`, `/repo/pawpaw/query/_query.py:566-588`; `sub` makes the function of one sub-query
(its text between the braces). -/
def parsePhrase (X : Ext) (sub : List Char → Except PyErr (Filter (Ctx V))) (p : List Char) :
    Except PyErr (Phrase V) :=
  match parseAxis p with
  | .error e => .error e
  | .ok (axis, n) =>
    match (Util.findUnescaped (FIto.ofStr p none none) ['{'] '\\' (some (n : Int)) none).next with
    | .error e => .error e
    | .ok c =>
      let curl := match c with
        | some i => i.toNat
        | none => p.length
      let subText := strip (p.drop curl)
      let curl := if subText = [] then curl else backUp p curl
      match (if subText = [] then .ok tautology
          else ecf '{' '}' (fun g => sub ((g.drop 1).dropLast)) (strip (p.drop curl))) with
      | .error e => .error e
      | .ok subquery =>
        let filtText := strip ((p.take curl).drop n)
        match (if filtText = [] then .ok tautology else ecf '[' ']' (mkFilter X) filtText) with
        | .error e => .error e
        | .ok filter => .ok ⟨axis, filter, subquery⟩

/-- `Axis.find_all(itos)` on a stream, `/repo/pawpaw/query/_query.py:142-269`. -/
def Axis.findRun (a : Axis) (t : Node) (r : Run Path) : Run EIto :=
  match a.key with
  | .self => ⟨a.toEcs r.out none, r.exc⟩
  | .dedup =>
    match r.exc with
    | some e => .raise e
    | none => ⟨a.toEcs (if a.rev then (Query.dedup t [] r.out).reverse else Query.dedup t [] r.out) none, none⟩
  | .preceding | .following =>
    match r.out.find? (fun i => decide (Query.parent i = none)), r.exc with
    | some root, _ => ⟨a.toEcs [] (some root), none⟩
    | none, some e => .raise e
    | none, none =>
      match r.out.getLast? with
      | none => .raise .nameError
      | some i => ⟨if a.key = .preceding then a.precedingTail t i else a.followingTail t i, none⟩
  | _ => r.bind (fun i =>
    match a.step t i with
    | .error e => .raise e
    | .ok ns => ⟨a.toEcs ns (some i), none⟩)

/-- `Phrase.combined`, `/repo/pawpaw/query/_query.py:590-591` -/
def Phrase.combined (ph : Phrase V) : Filter (Ctx V) := fun x =>
  match ph.filter x with
  | .error e => .error e
  | .ok false => .ok false
  | .ok true => ph.subquery x

/-- `Phrase.find_all`, `/repo/pawpaw/query/_query.py:593-600` -/
def Phrase.findAll (ph : Phrase V) (env : Env V) (r : Run Path) : Run Path :=
  ((ph.axis.findRun env.tree r).filter (fun ec => ph.combined (env, ec))).map Prod.snd

/-- The loop of `Query.find_all`, `/repo/pawpaw/query/_query.py:684-687`. -/
def runPhrases (env : Env V) (phs : List (Phrase V)) (r : Run Path) : Run Path :=
  phs.foldl (fun cur ph => ph.findAll env cur) r

/-- `[Phrase(p) for p in …]`, over the pieces still to come. -/
def parsePhrases (X : Ext) (sub : List Char → Except PyErr (Filter (Ctx V))) :
    List (List Char) → Option PyErr → Except PyErr (List (Phrase V))
  | [], none => .ok []
  | [], some e => .error e
  | p :: ps, e =>
    match parsePhrase X sub p with
    | .error err => .error err
    | .ok ph =>
      match parsePhrases X sub ps e with
      | .error err => .error err
      | .ok phs => .ok (ph :: phs)

/-- `Query(path)`, `/repo/pawpaw/query/_query.py:633-676`, with the functions of its sub-queries
(`EcfSubquery._func`, `:528-531`).  `fuel` bounds the nesting of sub-queries; the length of the path is
enough.  `path.str_isprintable()` is true when *any* character is printable (see C15). -/
def parse (X : Ext) : Nat → List Char → Except PyErr (List (Phrase V))
  | 0, _ => .error .nonTermination
  | fuel + 1, path =>
    if path = [] ∨ ¬ path.any X.isPrintable then .error .valueError
    else
      parsePhrases X (fun sq =>
        match parse X fuel sq with
        | .error e => .error e
        | .ok phs => .ok (fun x =>
          match (runPhrases x.1 phs ⟨[x.2.2], none⟩).next with
          | .error e => .error e
          | .ok r => .ok r.isSome)) (splitPhrases path).out (splitPhrases path).exc

/-- `Query(path)` -/
def compile (X : Ext) (path : List Char) : Except PyErr (List (Phrase V)) := parse X (path.length + 1) path

/-- `ito.find_all(path, values, predicates)`, `/repo/pawpaw/ito.py:1352-1359`,
`/repo/pawpaw/query/_query.py:678-687`, `:699-706`. -/
def findAll (X : Ext) (env : Env V) (path : List Char) (x : Path) : Run Path :=
  match (compile X path : Except PyErr (List (Phrase V))) with
  | .error e => .raise e
  | .ok phs => runPhrases env phs ⟨[x], none⟩

/-- `ito.find(path, values, predicates)`, `/repo/pawpaw/ito.py:1361-1368` -/
def find (X : Ext) (env : Env V) (path : List Char) (x : Path) : Except PyErr (Option Path) :=
  (findAll X env path x).next

/-- Decimal digits of a number, as `f'{i}'` writes it. -/
def showNat (n : Nat) : List Char := Nat.toDigits 10 n

/-- `.path`, `/repo/pawpaw/ito.py:402-407`, of the node at a path of child indices: `(i, c)` with `c is
self` is the node's own index. -/
def pathText (p : Path) : List Char :=
  match h : parent p with
  | none => ['.']
  | some q => pathText q ++ "/*[i:".toList ++ showNat (p.getLast?.getD 0) ++ [']']
termination_by p.length
decreasing_by exact parent_length h

end Query
end Pawpaw
