/-!
# Specification: texts whose braces match
-/
namespace QuerySpec

/-- A text whose braces match: plain characters, a backslash with any character after it, and groups in
braces.  A backslash escaped by a backslash must not stand at the end of a group or just before a brace. -/
inductive Braced : List Char → Prop where
  | nil : Braced []
  | plain (c : Char) (s : List Char) : c ≠ '\\' → c ≠ '{' → c ≠ '}' → Braced s → Braced (c :: s)
  | esc (c : Char) (s : List Char) : (c = '\\' → s ≠ [] ∧ s.head? ≠ some '{' ∧ s.head? ≠ some '}') → Braced s →
      Braced ('\\' :: c :: s)
  | group (a b : List Char) : Braced a → Braced b → Braced ('{' :: (a ++ '}' :: b))

end QuerySpec
