/-!
# Specification of escapes and balanced brackets
-/
namespace UtilSpec
variable {α : Type} [DecidableEq α]

/-- Length of the run of escape characters that ends just before position `k`. -/
def runBefore (escape : α) (w : List α) (k : Nat) : Nat :=
  ((w.take k).reverse.takeWhile (fun c => decide (c = escape))).length

/-- The character at `k` is preceded by an odd run of escapes. -/
def Escaped (escape : α) (w : List α) (k : Nat) : Prop := runBefore escape w k % 2 = 1

instance (escape : α) (w : List α) (k : Nat) : Decidable (Escaped escape w k) :=
  inferInstanceAs (Decidable (_ = _))

/-- Position `k` holds one of `chars`, unescaped (and not itself the escape character). -/
def UnescapedAt (chars : List α) (escape : α) (w : List α) (k : Nat) : Prop :=
  (∃ c ∈ chars, w[k]? = some c ∧ c ≠ escape) ∧ ¬ Escaped escape w k

instance (chars : List α) (escape : α) (w : List α) (k : Nat) :
    Decidable (UnescapedAt chars escape w k) := inferInstanceAs (Decidable (_ ∧ _))

/-- Position `k` holds an escape character which is not itself escaped and escapes the following
character, which is not the escape character. -/
def EscapeAt (escape : α) (w : List α) (k : Nat) : Prop :=
  w[k]? = some escape ∧ ¬ Escaped escape w k ∧ k + 1 < w.length ∧ w[k + 1]? ≠ some escape

instance (escape : α) (w : List α) (k : Nat) : Decidable (EscapeAt escape w k) :=
  inferInstanceAs (Decidable (_ ∧ _))

/-- The positions of `w`, in order, with property `P`. -/
def positions (w : List α) (P : Nat → Prop) [DecidablePred P] : List Nat :=
  (List.range w.length).filter (fun k => decide (P k))

/-- Balanced bracket sequences (`true` = left, `false` = right). -/
inductive Balanced : List Bool → Prop
  | nil : Balanced []
  | cons {a b : List Bool} : Balanced a → Balanced b → Balanced (true :: a ++ false :: b)

/-- The text cut at the given positions (relative, increasing): the piece before the first, the pieces
between, the piece after the last; the characters at the positions are dropped. -/
def cutAt (t : List α) : Nat → List Nat → List (List α)
  | cur, [] => [t.drop cur]
  | cur, k :: ks => (t.take k).drop cur :: cutAt t (k + 1) ks

/-- An outermost bracketed group of positions: opening, inner brackets, closing. -/
structure Group where
  left : Nat
  inner : List Nat
  right : Nat

/-- All its bracket positions, in order. -/
def Group.all (g : Group) : List Nat := g.left :: (g.inner ++ [g.right])

/-- The group is a left bracket, a balanced inside, and a right bracket. -/
def Group.Matched (isLeft : Nat → Bool) (g : Group) : Prop :=
  isLeft g.left = true ∧ isLeft g.right = false ∧ Balanced (g.inner.map isLeft)

end UtilSpec
