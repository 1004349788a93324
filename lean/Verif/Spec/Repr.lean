/-!
# What Python's `repr` of a `str` is (C126)

Independent of the model: the rules of the Python reference (`unicode_repr` of CPython): single quotes
unless the text has single quotes and no double ones; the quote, the backslash, tab, newline and carriage
return are escaped with a backslash; the other non-printable characters as `\xhh`, `\uhhhh`, `\Uhhhhhhhh`.
Which characters beyond ASCII are printable is a parameter.
-/
namespace Pawpaw
namespace ReprSpec

/-- The quote. -/
def quote (s : List Char) : Char := if '\'' ∈ s ∧ '"' ∉ s then '"' else '\''

/-- A hexadecimal digit. -/
def hexDigit (d : Nat) : Char := "0123456789abcdef".toList.getD d '0'

/-- `w` hexadecimal digits. -/
def hex : Nat → Nat → List Char
  | 0, _ => []
  | w + 1, n => hex w (n / 16) ++ [hexDigit (n % 16)]

/-- A character between the quotes `q`. -/
def esc (printable : Char → Bool) (q c : Char) : List Char :=
  if c = q ∨ c = '\\' then ['\\', c]
  else if c = '\t' then ['\\', 't']
  else if c = '\n' then ['\\', 'n']
  else if c = '\r' then ['\\', 'r']
  else if c.toNat < 32 ∨ c.toNat = 127 then '\\' :: 'x' :: hex 2 c.toNat
  else if c.toNat < 127 ∨ printable c = true then [c]
  else if c.toNat ≤ 0xff then '\\' :: 'x' :: hex 2 c.toNat
  else if c.toNat ≤ 0xffff then '\\' :: 'u' :: hex 4 c.toNat
  else '\\' :: 'U' :: hex 8 c.toNat

/-- `repr(s)` -/
def pyRepr (printable : Char → Bool) (s : List Char) : List Char :=
  quote s :: (s.flatMap (esc printable (quote s)) ++ [quote s])

end ReprSpec
end Pawpaw
