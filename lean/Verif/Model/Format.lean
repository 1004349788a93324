import Verif.Model.Query
/-!
# Model of `Ito.__format__`, `/repo/pawpaw/ito.py:600-711`

The pattern `_re_format` is modelled by a hand-written matcher.  None of its optional parts can be
forced to give back characters by a later part (the later parts either are optional or start with a
character the earlier part cannot take), so greedy left-to-right matching without backtracking finds the
match the backtracking engine finds; the one exception, `(?:(?P<fill>.)?(?P<align>[<>=^]))?`, is
`skipAlign` below, written with its two alternatives.  Simplification: `\d` is an ASCII digit.

What Python's own `format(int, spec)`, `ascii`, `repr` and `str(self.value())` produce is a parameter
(`FmtEnv`): they are not pawpaw code.
-/
namespace Pawpaw
namespace Format
open Query (isDigit digitsVal)

/-- Python built-ins called by `__format__` (parameters of the model). -/
structure FmtEnv where
  /-- `format(n, spec)`, which raises on an invalid `spec` -/
  fmtInt : Int → List Char → Except PyErr (List Char)
  /-- `ascii(s)` -/
  ascii : List Char → List Char
  /-- `repr(s)` -/
  repr : List Char → List Char
  /-- `str(self.value())` -/
  value : FIto Char → Except PyErr (List Char)

/-- `_format_int_directives`, `/repo/pawpaw/ito.py:600` -/
inductive IntDir where
  | span | start | stop
  deriving DecidableEq

/-- `_format_str_directives`, `/repo/pawpaw/ito.py:601` -/
inductive StrDir where
  | desc | string | substr | value
  deriving DecidableEq

/-- Groups `lslice`, `conv`, `rslice`, `/repo/pawpaw/ito.py:622-626`. -/
structure Conv where
  lslice : Option (List Char)
  conv : Char
  rslice : Option (List Char)
  deriving DecidableEq

/-- Groups `abbr_pos`, `width`, `abbr`, `/repo/pawpaw/ito.py:627-631`. -/
structure Width where
  pos : Option Char
  width : List Char
  abbr : Option (List Char)
  deriving DecidableEq

/-- What a match of `_re_format` found. -/
inductive Found where
  | zws
  | int (d : IntDir) (dirStop : Nat)
  | str (d : StrDir) (conv : Option Conv) (width : Option Width)
  deriving DecidableEq

/-- A match of `_re_format`: `span(0)` and the groups. -/
structure FMatch where
  start : Nat
  stop : Nat
  found : Found
  deriving DecidableEq

/-- A literal prefix. -/
def lit? (p s : List Char) : Option (List Char) := if p.isPrefixOf s then some (s.drop p.length) else none

/-- `[...]?` : the rest. -/
def skipOpt (p : Char → Bool) : List Char → List Char
  | c :: cs => if p c then cs else c :: cs
  | [] => []

/-- `[\<\>\=\^]` -/
def isAlign (c : Char) : Bool := c = '<' || c = '>' || c = '=' || c = '^'

/-- `(?:(?P<fill>.)?(?P<align>[\<\>\=\^]))?`, `/repo/pawpaw/ito.py:611`: the rest. -/
def skipAlign : List Char → List Char
  | c :: d :: r => if isAlign d then r else if isAlign c then d :: r else c :: d :: r
  | [c] => if isAlign c then [] else [c]
  | [] => []

/-- `[bcdeEfFgGnosxX%]`, `/repo/pawpaw/ito.py:617` -/
def isType (c : Char) : Bool := c ∈ ['b', 'c', 'd', 'e', 'E', 'f', 'F', 'g', 'G', 'n', 'o', 's', 'x', 'X', '%']

/-- The format-spec group of an int directive, `/repo/pawpaw/ito.py:610-618`: the rest. -/
def skipSpec : List Char → List Char
  | ':' :: r =>
    skipOpt isType <| skipOpt (fun c => c = '_' || c = ',') <| List.dropWhile isDigit <|
      skipOpt (fun c => c = '0') <| skipOpt (fun c => c = '#') <|
      skipOpt (fun c => c = '+' || c = '-') <| skipAlign r
  | r => r

/-- `\d+` as an optional group. -/
def digits? (s : List Char) : Option (List Char) × List Char :=
  let ds := s.takeWhile isDigit
  (if ds = [] then none else some ds, s.dropWhile isDigit)

/-- `(?:\!(?P<lslice>\d+)?(?P<conv>[ar])(?P<rslice>\d+)?)?`, `/repo/pawpaw/ito.py:622-626` -/
def matchConv : List Char → Option Conv × List Char
  | '!' :: r =>
    match (digits? r).2 with
    | c :: r' =>
      if c = 'a' ∨ c = 'r' then (some ⟨(digits? r).1, c, (digits? r').1⟩, (digits? r').2)
      else (none, '!' :: r)
    | [] => (none, '!' :: r)
  | r => (none, r)

/-- `[\<\^\>]`, `/repo/pawpaw/ito.py:628` -/
def isPos (c : Char) : Bool := c = '<' || c = '^' || c = '>'

/-- `(?P<width>\d+)(?P<abbr>.+)?`, `/repo/pawpaw/ito.py:629-630`, with `DOTALL`: it takes everything. -/
def matchAbbr (pos : Option Char) (r : List Char) : Option Width :=
  match digits? r with
  | (none, _) => none
  | (some ds, rest) => some ⟨pos, ds, if rest = [] then none else some rest⟩

/-- `(?P<abbr_pos>[\<\^\>])?(?P<width>\d+)(?P<abbr>.+)?`, `/repo/pawpaw/ito.py:628-630` -/
def matchPos : List Char → Option Width
  | c :: r => if isPos c then matchAbbr (some c) r else matchAbbr none (c :: r)
  | [] => none

/-- `(?:\:(?P<abbr_pos>[\<\^\>])?(?P<width>\d+)(?P<abbr>.+)?)?`, `/repo/pawpaw/ito.py:627-631` -/
def matchWidth : List Char → Option Width × List Char
  | ':' :: r =>
    match matchPos r with
    | some w => (some w, [])
    | none => (none, ':' :: r)
  | r => (none, r)

/-- Name of an int directive. -/
def IntDir.name : IntDir → List Char
  | .span => "span".toList | .start => "start".toList | .stop => "stop".toList

/-- Name of a str directive. -/
def StrDir.name : StrDir → List Char
  | .desc => "desc".toList | .string => "string".toList | .substr => "substr".toList
  | .value => "value".toList

/-- `(?P<dir>span|start|stop)`, `/repo/pawpaw/ito.py:609` -/
def intDir? (s : List Char) : Option (IntDir × List Char) :=
  [IntDir.span, .start, .stop].findSome? fun d => (lit? d.name s).map (d, ·)

/-- `(?P<dir>desc|string|substr|value)`, `/repo/pawpaw/ito.py:621` -/
def strDir? (s : List Char) : Option (StrDir × List Char) :=
  [StrDir.desc, .string, .substr, .value].findSome? fun d => (lit? d.name s).map (d, ·)

/-- `_re_format.match(format_spec, start, stop)`, `/repo/pawpaw/ito.py:603-632`; `w` is
`format_spec[start:stop]`. -/
def reMatch (start : Nat) (w : List Char) : Option FMatch :=
  match w with
  | '%' :: ' ' :: _ => some ⟨start, start + 2, .zws⟩
  | '%' :: r =>
    match intDir? r with
    | some (d, r') =>
      some ⟨start, start + (w.length - (skipSpec r').length), .int d (start + 1 + d.name.length)⟩
    | none =>
      match strDir? r with
      | some (d, r') =>
        let c := matchConv r'
        let wd := matchWidth c.2
        some ⟨start, start + (w.length - wd.2.length), .str d c.1 wd.1⟩
      | none => none
  | _ => none

/-- The loop collecting the matches, `/repo/pawpaw/ito.py:641-651`. -/
def reMatches (fs : List Char) : List Nat → List FMatch
  | [] => []
  | [i] => (reMatch i (fs.drop i)).toList
  | i :: j :: is => (reMatch i ((fs.take j).drop i)).toList ++ reMatches fs (j :: is)

/-- The conversion block, `/repo/pawpaw/ito.py:681-693`. -/
def convert (env : FmtEnv) (sub : List Char) : Option Conv → List Char
  | none => sub
  | some c =>
    let sub := if c.conv = 'a' then env.ascii sub else env.repr sub
    let l : Int := match c.lslice with | some l => digitsVal l | none => 0
    let r : Option Int := match c.rslice with
      | some r => if r = ['0'] then none else some (-(digitsVal r : Int))
      | none => none
    PyStr.slice sub (some l) r

/-- The width block, `/repo/pawpaw/ito.py:695-709`. -/
def abbreviate (sub : List Char) : Option Width → List Char
  | none => sub
  | some w =>
    let width : Int := digitsVal w.width
    if width < sub.length then
      let abbr := w.abbr.getD []
      let lenAbbr : Int := abbr.length
      if lenAbbr ≥ width then PyStr.slice abbr (some (lenAbbr - width)) none
      else if w.pos = some '<' then abbr ++ PyStr.slice sub (some (lenAbbr - width)) none
      else if w.pos = some '^' then
        let postLen := (width - lenAbbr) / 2
        let post := if postLen > 0 then PyStr.slice sub (some (-postLen)) none else []
        let pre := PyStr.slice sub none (some (width - post.length - lenAbbr))
        pre ++ abbr ++ post
      else PyStr.slice sub none (some (width - lenAbbr)) ++ abbr
    else sub

/-- The text a str directive starts from, `/repo/pawpaw/ito.py:672-679`. -/
def strText (env : FmtEnv) (x : FIto Char) : StrDir → Except PyErr (List Char)
  | .string => .ok x.string
  | .desc => .ok (x.desc.getD "").toList
  | .substr => .ok x.text
  | .value => env.value x

/-- The text which replaces a match, `/repo/pawpaw/ito.py:655-709`. -/
def render (env : FmtEnv) (x : FIto Char) (fs : List Char) (m : FMatch) : Except PyErr (List Char) :=
  match m.found with
  | .zws => .ok []
  | .int d dirStop =>
    let fstr := PyStr.slice fs (some ((dirStop : Int) + 1)) (some (m.stop : Int))
    match d with
    | .span =>
      match env.fmtInt x.start fstr with
      | .error e => .error e
      | .ok a =>
        match env.fmtInt x.stop fstr with
        | .error e => .error e
        | .ok b => .ok ("(".toList ++ a ++ ", ".toList ++ b ++ ")".toList)
    | .start => env.fmtInt x.start fstr
    | .stop => env.fmtInt x.stop fstr
  | .str d c w =>
    match strText env x d with
    | .error e => .error e
    | .ok sub => .ok (abbreviate (convert env sub c) w)

/-- One iteration of the substitution loop, `/repo/pawpaw/ito.py:654-709`. -/
def substitute (env : FmtEnv) (x : FIto Char) (fs rv : List Char) (m : FMatch) :
    Except PyErr (List Char) :=
  match render env x fs m with
  | .error e => .error e
  | .ok sub =>
    .ok (PyStr.slice rv none (some (m.start : Int)) ++ sub ++ PyStr.slice rv (some (m.stop : Int)) none)

/-- The substitution loop, `/repo/pawpaw/ito.py:653-711`. -/
def substituteAll (env : FmtEnv) (x : FIto Char) (fs : List Char) :
    List FMatch → List Char → Except PyErr (List Char)
  | [], rv => .ok rv
  | m :: ms, rv =>
    match substitute env x fs rv m with
    | .error e => .error e
    | .ok rv => substituteAll env x fs ms rv

/-- `__format__`, `/repo/pawpaw/ito.py:634-711`. -/
def format (env : FmtEnv) (x : FIto Char) (fs : List Char) : Except PyErr (List Char) :=
  if fs = [] then .ok x.text
  else
    let idxs := (Util.findEscapes (FIto.ofStr fs none none) '%' none none).out.map Int.toNat
    substituteAll env x fs (reMatches fs idxs).reverse fs

end Format
end Pawpaw
