import Verif.Model.Tree
/-!
# Model of `/repo/pawpaw/visualization/pepo/pepo.py`: text dumps of Itos

The output is a list of characters. How one Ito is formatted (`f'{ito:{fstr}}'`, see `Model/Format.lean`) is a
parameter `fmt`, and so is the formatting `{index:,}` of an index. All Itos are on one string `s`.
-/
namespace Pawpaw
namespace Pepo

/-- `indent`, `linesep` and `children`, `/repo/pawpaw/visualization/pepo/pepo.py:16-19`. -/
structure Cfg where
  indent : List Char
  lsep : List Char
  children : Bool

/-- `indent * level`. -/
def Cfg.ind (c : Cfg) (level : Nat) : List Char := (List.replicate level c.indent).flatten

/-! ### Compact -/

mutual
/-- `Compact._dump`, `/repo/pawpaw/visualization/pepo/pepo.py:44-50`. -/
def compact (c : Cfg) (num : Nat → List Char) (fmt : Node → List Char) (level idx : Nat) : Node → List Char
  | .mk s d v ks =>
    c.ind level ++ num idx ++ [':', ' '] ++ fmt (.mk s d v ks) ++ c.lsep ++
      (if c.children then compactKids c num fmt (level + 1) 1 ks else [])
/-- The loop over the children (numbered from 1), `/repo/pawpaw/visualization/pepo/pepo.py:49-50`; also
`Compact.dump`, `:52-56`. -/
def compactKids (c : Cfg) (num : Nat → List Char) (fmt : Node → List Char) (level idx : Nat) : List Node → List Char
  | [] => []
  | k :: ks => compact c num fmt level idx k ++ compactKids c num fmt level (idx + 1) ks
end

/-- `Compact.dump(fs, *itos)`, `/repo/pawpaw/visualization/pepo/pepo.py:52-56`. -/
def compactDump (c : Cfg) (num : Nat → List Char) (fmt : Node → List Char) (itos : List Node) : List Char :=
  compactKids c num fmt 0 1 itos

/-! ### Tree -/

/-- `Tree.HORZ`, `VERT`, `TEE`, `ELBOW`, `/repo/pawpaw/visualization/pepo/pepo.py:60-63`. -/
def horz : Char := '─'
/-- See `horz`. -/
def vert : Char := '│'
/-- See `horz`. -/
def tee : Char := '├'
/-- See `horz`. -/
def elbow : Char := '└'

mutual
/-- `Tree._dump_children` of an Ito, `/repo/pawpaw/visualization/pepo/pepo.py:69-85`. (`children` is not
consulted.) -/
def treeNode (c : Cfg) (fmt : Node → List Char) (pre : List Char) : Node → List Char
  | .mk _ _ _ ks => treeKids c fmt pre ks
/-- The loop over `children[:-1]` and then the last child. -/
def treeKids (c : Cfg) (fmt : Node → List Char) (pre : List Char) : List Node → List Char
  | [] => []
  | k :: ks =>
    if ks = [] then
      pre ++ [elbow] ++ List.replicate c.indent.length horz ++ fmt k ++ c.lsep ++
        treeNode c fmt (pre ++ ([' '] ++ c.indent)) k
    else
      pre ++ [tee] ++ List.replicate c.indent.length horz ++ fmt k ++ c.lsep ++
        treeNode c fmt (pre ++ ([vert] ++ c.indent)) k ++ treeKids c fmt pre ks
end

/-- `Tree.dump(fs, *itos)`, `/repo/pawpaw/visualization/pepo/pepo.py:87-92`. -/
def treeDump (c : Cfg) (fmt : Node → List Char) (itos : List Node) : List Char :=
  itos.flatMap (fun ito => fmt ito ++ c.lsep ++ treeNode c fmt [] ito)

/-! ### XML -/

/-- `xml.sax.saxutils.escape`: `&`, `>` and `<`. -/
def xmlEscape (s : List Char) : List Char :=
  s.flatMap (fun c => if c = '&' then "&amp;".toList else if c = '>' then "&gt;".toList
    else if c = '<' then "&lt;".toList else [c])

/-- `str(ito)` on the string `s`. -/
def subText (s : List Char) (sp : Span) : List Char := PyStr.slice s (some sp.start) (some sp.stop)

/-- `f'{n}'` of an `int`. -/
def intText (n : Int) : List Char := (toString n).toList

mutual
/-- `Xml._dump`, `/repo/pawpaw/visualization/pepo/pepo.py:99-121`. -/
def xmlNode (c : Cfg) (s : List Char) (level : Nat) : Node → List Char
  | .mk sp d _ ks =>
    c.ind level ++ "<ito".toList ++ " start=\"".toList ++ intText sp.start ++ "\" stop=\"".toList ++
      intText sp.stop ++ "\" desc=\"".toList ++ xmlEscape (d.getD "").toList ++ "\">".toList ++ c.lsep ++
    (c.ind level ++ "<substring>".toList ++ xmlEscape (subText s sp) ++ "</substring>".toList ++ c.lsep) ++
    (if c.children = true ∧ ks ≠ [] then
      c.ind level ++ "<children>".toList ++ c.lsep ++ xmlKids c s (level + 1) ks ++
        (c.ind level ++ "</children>".toList ++ c.lsep)
    else []) ++
    (c.ind (level - 1) ++ "</ito>".toList ++ c.lsep)
/-- The loop over the children, `/repo/pawpaw/visualization/pepo/pepo.py:113-115`. -/
def xmlKids (c : Cfg) (s : List Char) (level : Nat) : List Node → List Char
  | [] => []
  | k :: ks => xmlNode c s level k ++ xmlKids c s level ks
end

/-- The XML declaration, `/repo/pawpaw/visualization/pepo/pepo.py:124`. -/
def xmlDecl : List Char := "<?xml version=\"1.0\" encoding=\"UTF-8\" ?>".toList

/-- `Xml.dump(fs, *itos)`, `/repo/pawpaw/visualization/pepo/pepo.py:123-130`. -/
def xmlDump (c : Cfg) (s : List Char) (itos : List Node) : List Char :=
  xmlDecl ++ c.lsep ++ ("<itos>".toList ++ c.lsep) ++
    xmlKids c s 1 itos ++ ("<itos>".toList ++ c.lsep)

/-! ### JSON -/

/-- A hexadecimal digit in lower case. -/
def hexDigit (n : Nat) : Char := "0123456789abcdef".toList.getD n '0'

/-- `json.encoder.ESCAPE_DCT` applied to a character matched by `json.encoder.ESCAPE`. -/
def jsonEsc (c : Char) : List Char :=
  if c = '\\' then ['\\', '\\']
  else if c = '"' then ['\\', '"']
  else if c = '\x08' then ['\\', 'b']
  else if c = '\x0c' then ['\\', 'f']
  else if c = '\n' then ['\\', 'n']
  else if c = '\r' then ['\\', 'r']
  else if c = '\t' then ['\\', 't']
  else if c.toNat < 32 then ['\\', 'u', '0', '0', hexDigit (c.toNat / 16), hexDigit (c.toNat % 16)]
  else [c]

/-- `json.encoder.encode_basestring(s)` (the standard library). -/
def jsonStr (s : List Char) : List Char := '"' :: (s.flatMap jsonEsc ++ ['"'])

/-- `desc` as JSON, `/repo/pawpaw/visualization/pepo/pepo.py:143-146`. -/
def jsonDesc : Option String → List Char
  | none => "null".toList
  | some d => jsonStr d.toList

mutual
/-- `Json._dump`, `/repo/pawpaw/visualization/pepo/pepo.py:137-169`. -/
def jsonNode (c : Cfg) (s : List Char) (level : Nat) : Node → List Char
  | .mk sp d _ ks =>
    c.ind level ++ ['{'] ++ c.lsep ++
    (c.ind (level + 1) ++ "\"start\": ".toList ++ intText sp.start ++ [','] ++ c.lsep) ++
    (c.ind (level + 1) ++ "\"stop\": ".toList ++ intText sp.stop ++ [','] ++ c.lsep) ++
    (c.ind (level + 1) ++ "\"desc\": ".toList ++
      jsonDesc d ++ [','] ++ c.lsep) ++
    (c.ind (level + 1) ++ "\"substr\": ".toList ++ jsonStr (subText s sp) ++ [','] ++ c.lsep) ++
    (if c.children then
      c.ind (level + 1) ++ "\"children\": [".toList ++
        (if ks = [] then [']'] ++ c.lsep
        else c.lsep ++ jsonKids c s (level + 2) ks ++ (c.ind (level + 1) ++ [']'] ++ c.lsep))
    else []) ++
    (c.ind level ++ ['}'])
/-- The loop over the children, `/repo/pawpaw/visualization/pepo/pepo.py:158-163`. -/
def jsonKids (c : Cfg) (s : List Char) (level : Nat) : List Node → List Char
  | [] => []
  | k :: ks => jsonNode c s level k ++ (if ks = [] then [] else [',']) ++ c.lsep ++ jsonKids c s level ks
end

/-- The loop of `Json.dump`, `/repo/pawpaw/visualization/pepo/pepo.py:177-184`. -/
def jsonTop (c : Cfg) (s : List Char) (comma : Bool) : List Node → List Char
  | [] => []
  | k :: ks => (if comma then [','] else []) ++ c.lsep ++ jsonNode c s 2 k ++ jsonTop c s true ks

/-- `Json.dump(fs, *itos)`, `/repo/pawpaw/visualization/pepo/pepo.py:171-189`. -/
def jsonDump (c : Cfg) (s : List Char) (itos : List Node) : List Char :=
  ['{'] ++ c.lsep ++ (c.indent ++ "\"itos\": [".toList) ++ jsonTop c s false itos ++ c.lsep ++
    (c.indent ++ [']'] ++ c.lsep) ++ (['}'] ++ c.lsep)

end Pepo
end Pawpaw
