/-!
# How a path of keys is written as an entity
-/
namespace OntoQuerySpec

/-- The characters that must be escaped. -/
def Special (c : Char) : Prop := c = '\\' ∨ c = ']' ∨ c = '.'

instance (c : Char) : Decidable (Special c) := inferInstanceAs (Decidable (_ ∨ _ ∨ _))

/-- A character as written: with a backslash if it is special. -/
def written (c : Char) : List Char := if Special c then ['\\', c] else [c]

/-- A text as written. -/
def writtenText (s : List Char) : List Char := s.flatMap written

/-- Steps with dots between them. -/
def dotted : List (List Char) → List Char
  | [] => []
  | [s] => s
  | s :: t :: ss => s ++ '.' :: dotted (t :: ss)

/-- No character is special. -/
def Plain (s : List Char) : Prop := ∀ c ∈ s, ¬ Special c

instance (s : List Char) : Decidable (Plain s) := inferInstanceAs (Decidable (∀ c ∈ s, ¬ Special c))

/-- `Means v s`: the text `v`, with escapes, means `s`; a backslash before any character stands for that character. -/
inductive Means : List Char → List Char → Prop
  | nil : Means [] []
  | plain {c v s} : c ≠ '\\' → Means v s → Means (c :: v) (c :: s)
  | esc {c v s} : Means v s → Means ('\\' :: c :: v) (c :: s)

end OntoQuerySpec
