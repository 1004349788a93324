/-!
# Characters with the Unicode property White_Space

`PropList.txt` of the Unicode character database, in its own form: ranges and single code points.
-/
namespace ClassSpec

/-- The ranges (`first..last`, in hexadecimal as in `PropList.txt`) of White_Space. -/
def whiteSpace : List (Nat × Nat) :=
  [(0x0009, 0x000D), (0x0020, 0x0020), (0x0085, 0x0085), (0x00A0, 0x00A0), (0x1680, 0x1680), (0x2000, 0x200A),
   (0x2028, 0x2028), (0x2029, 0x2029), (0x202F, 0x202F), (0x205F, 0x205F), (0x3000, 0x3000)]

/-- The information separators FS, GS, RS and US: of bidirectional type B or S, so `str.isspace` holds for them too. -/
def separators : List (Nat × Nat) := [(0x001C, 0x001F)]

/-- The character is in one of the ranges. -/
def InRanges (rs : List (Nat × Nat)) (c : Char) : Prop := ∃ r ∈ rs, r.1 ≤ c.toNat ∧ c.toNat ≤ r.2

end ClassSpec
