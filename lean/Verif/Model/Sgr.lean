import Verif.Model.Pepo
import Verif.Model.Highlight
/-!
# Model of `pawpaw/visualization/sgr/sgr.py`

Texts are lists of characters.  The `TypeError` of `from_color` for something that is not a colour is
not modelled (the type `Color` has only colours).
-/
namespace Pawpaw
namespace Sgr

/-- The character `\033`. -/
def escChar : Char := Char.ofNat 27

/-- `';'.join(...)` -/
def joinSemi : List (List Char) → List Char
  | [] => []
  | [t] => t
  | t :: u :: ts => t ++ ';' :: joinSemi (u :: ts)

/-- `encode(*n)`, `/repo/pawpaw/visualization/sgr/sgr.py:13-18`; `str(i)` is `Pepo.intText i`. -/
def encode (ns : List Int) : List Char :=
  let body := match ns with
    | [] => ['0']
    | n :: ns => joinSemi ((n :: ns).map Pepo.intText)
  escChar :: '[' :: (body ++ ['m'])

/-- `Colors.Named`, `/repo/pawpaw/visualization/sgr/sgr.py:111-130` -/
inductive Named where
  | black | red | green | yellow | blue | magenta | cyan | white
  | brightBlack | brightRed | brightGreen | brightYellow | brightBlue | brightMagenta | brightCyan | brightWhite
  deriving DecidableEq

/-- The values of the enumeration, `/repo/pawpaw/visualization/sgr/sgr.py:112-129` -/
def Named.value : Named → Int
  | black => 0 | red => 1 | green => 2 | yellow => 3 | blue => 4 | magenta => 5 | cyan => 6 | white => 7
  | brightBlack => 60 | brightRed => 61 | brightGreen => 62 | brightYellow => 63 | brightBlue => 64
  | brightMagenta => 65 | brightCyan => 66 | brightWhite => 67

/-- `Colors.Rgb`, `/repo/pawpaw/visualization/sgr/sgr.py:133-136`: three integers, not checked. -/
structure Rgb where
  red : Int
  green : Int
  blue : Int
  deriving DecidableEq

/-- `Rgb.from_24_bit(val)`, `/repo/pawpaw/visualization/sgr/sgr.py:138-140`.  On Python's integers
`v >> k` is the floor of `v / 2**k` and `v & 0xFF` is `v` modulo 256, for negative `v` too. -/
def Rgb.from24Bit (val : Int) : Rgb := ⟨val / 65536, (val / 256) % 256, val % 256⟩

/-- `C_COLOR`, `/repo/pawpaw/visualization/sgr/sgr.py:143-156`; `EightBit` is an integer, not checked. -/
inductive Color where
  | named (n : Named)
  | rgb (c : Rgb)
  | eightBit (n : Int)
  deriving DecidableEq

/-- The two classes `Fore` and `Back`. -/
inductive Cls where
  | fore
  | back
  deriving DecidableEq

/-- `_NAMED_OFFSET`, `/repo/pawpaw/visualization/sgr/sgr.py:161,187` -/
def Cls.namedOffset : Cls → Int
  | fore => 30
  | back => 30 + 10

/-- `_BY_IDX`, `/repo/pawpaw/visualization/sgr/sgr.py:162,188` -/
def Cls.byIdx : Cls → Int
  | fore => 38
  | back => 38 + 10

/-- `RESET`, `/repo/pawpaw/visualization/sgr/sgr.py:163,189` -/
def Cls.reset : Cls → List Char
  | fore => encode [39]
  | back => encode [49]

/-- `Fore.from_color(src)`, `Back.from_color(src)`, `/repo/pawpaw/visualization/sgr/sgr.py:165-175`.
(`getattr(Colors.Named, src.name)` is `src` itself.) -/
def fromColor (k : Cls) : Color → List Char
  | .named n => encode [n.value + k.namedOffset]
  | .rgb c => encode [k.byIdx, 2, c.red, c.green, c.blue]
  | .eightBit n => encode [k.byIdx, 5, n]

/-- An instance of `Fore` or of `Back`: its class and `_value`,
`/repo/pawpaw/visualization/sgr/sgr.py:177-182,191-192` -/
structure Code where
  cls : Cls
  value : List Char

/-- `Fore(src)`, `Back(src)`, `/repo/pawpaw/visualization/sgr/sgr.py:177-178,191-192` -/
def Code.init (k : Cls) (src : Color) : Code := ⟨k, fromColor k src⟩

/-- `__eq__` made by `@dataclass(frozen=True)`, `/repo/pawpaw/visualization/sgr/sgr.py:159,185`: for two
objects of one class the tuples of the declared fields (`RESET`, `_NAMED_OFFSET`, `_BY_IDX`, which no
`__init__` sets on the object) are compared; objects of different classes are different.  `_value` is
no field. -/
def Code.eq (a b : Code) : Bool :=
  if a.cls = b.cls then
    decide ((a.cls.reset, a.cls.namedOffset, a.cls.byIdx) = (b.cls.reset, b.cls.namedOffset, b.cls.byIdx))
  else false

/-- `Highlighter(palette)._backs`, `/repo/pawpaw/visualization/highlighter.py:18-19` -/
def backs (palette : List Color) : List (List Char) := palette.map (fromColor .back)

/-- The characters `print` writes for the pieces of `_compose`,
`/repo/pawpaw/visualization/highlighter.py:22-33`. -/
def written : List (Highlight.Tok (List Char) Char) → List Char
  | [] => []
  | .code c :: ts => c ++ written ts
  | .text s :: ts => s ++ written ts
  | .reset :: ts => Cls.reset .back ++ written ts

end Sgr
end Pawpaw
