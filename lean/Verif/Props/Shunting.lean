import Verif.Props.Ontology
/-!
# C63: what the shunting-yard of ontology queries computes, exactly
-/
set_option linter.unusedSectionVars false
namespace Pawpaw.Props
open Pawpaw Ontology
variable {τ : Type}

mutual
/-- An entity or a parenthesised expression. -/
inductive QAtom (τ : Type) where
  | ent (a : τ)
  | sub (e : QSum τ)
/-- An atom, `!atom` or `atom{…}`. -/
inductive QFac (τ : Type) where
  | plain (a : QAtom τ)
  | neg (a : QAtom τ)
  | quant (a : QAtom τ)
/-- `f & … & f` -/
inductive QProd (τ : Type) where
  | one (f : QFac τ)
  | and (f : QFac τ) (p : QProd τ)
/-- `p | … ^ p` -/
inductive QSum (τ : Type) where
  | one (p : QProd τ)
  | or (p : QProd τ) (x : Bool) (s : QSum τ)
end

/-- `^` or `|`. -/
def xop (x : Bool) : Op := if x then .xor else .or

mutual
/-- The tokens of an expression. -/
def QAtom.toks : QAtom τ → List (Token τ)
  | .ent a => [.entity a]
  | .sub e => [.query e.toks]
def QFac.toks : QFac τ → List (Token τ)
  | .plain a => a.toks
  | .neg a => .op .not :: a.toks
  | .quant a => a.toks ++ [.op .quantifier]
def QProd.toks : QProd τ → List (Token τ)
  | .one f => f.toks
  | .and f p => f.toks ++ .op .and :: p.toks
def QSum.toks : QSum τ → List (Token τ)
  | .one p => p.toks
  | .or p x s => p.toks ++ .op (xop x) :: s.toks
end

mutual
/-- The postfix form precedence asks for. -/
def QAtom.right : QAtom τ → List (Out τ)
  | .ent a => [.entity a]
  | .sub e => e.right
def QFac.right : QFac τ → List (Out τ)
  | .plain a => a.right
  | .neg a => a.right ++ [.op .not]
  | .quant a => a.right ++ [.op .quantifier]
def QProd.right : QProd τ → List (Out τ)
  | .one f => f.right
  | .and f p => f.right ++ p.rightTail
/-- … of what follows `e &`. -/
def QProd.rightTail : QProd τ → List (Out τ)
  | .one f => f.right ++ [.op .and]
  | .and f p => f.right ++ [.op .and] ++ p.rightTail
def QSum.right : QSum τ → List (Out τ)
  | .one p => p.right
  | .or p x s => p.right ++ s.rightTail x
/-- … of what follows `e |` or `e ^`. -/
def QSum.rightTail : QSum τ → Bool → List (Out τ)
  | .one p, x => p.right ++ [.op (xop x)]
  | .or p y s, x => p.right ++ [.op (xop x)] ++ s.rightTail y
end

/-- The factor is an atom, without `!` or quantifier. -/
def QFac.isPlain : QFac τ → Bool
  | .plain _ => true
  | _ => false

mutual
/-- The postfix form the code computes. -/
def QAtom.read : QAtom τ → List (Out τ)
  | .ent a => [.entity a]
  | .sub e => e.read
def QFac.read : QFac τ → List (Out τ)
  | .plain a => a.read
  | .neg a => a.read ++ [.op .not]
  | .quant a => a.read ++ [.op .quantifier]
def QProd.read : QProd τ → List (Out τ)
  | .one f => f.read
  | .and f p => f.read ++ p.readTail
def QProd.readTail : QProd τ → List (Out τ)
  | .one f => f.read ++ [.op .and]
  | .and f p => f.read ++ [.op .and] ++ p.readTail
/-- A product after `|` or `^` (`x`): that operator is applied to the first factor alone, or to `a & f` if the product
starts with an atom `a`; what follows `&` then applies to all that came before. -/
def QProd.readOr : QProd τ → Bool → List (Out τ)
  | .one f, x => f.read ++ [.op (xop x)]
  | .and f p, x =>
    if f.isPlain then f.read ++ p.readAnd x
    else f.read ++ [.op (xop x)] ++ p.readTail
/-- What follows `e | a &`. -/
def QProd.readAnd : QProd τ → Bool → List (Out τ)
  | .one f, x => f.read ++ [.op .and, .op (xop x)]
  | .and f p, x => f.read ++ [.op .and, .op (xop x)] ++ p.readTail
def QSum.read : QSum τ → List (Out τ)
  | .one p => p.read
  | .or p x s => p.read ++ s.readTail x
def QSum.readTail : QSum τ → Bool → List (Out τ)
  | .one p, x => p.readOr x
  | .or p y s, x => p.readOr x ++ s.readTail y
end

/-- What the factor puts out at once, and what it leaves on the stack. -/
def QFac.ops : QFac τ → List Op
  | .plain _ => []
  | .neg _ => [.not]
  | .quant _ => [.quantifier]
def QFac.atom : QFac τ → QAtom τ
  | .plain a | .neg a | .quant a => a

theorem fac_read (f : QFac τ) : f.read = f.atom.read ++ f.ops.map .op := by
  cases f <;> simp [QFac.read, QFac.atom, QFac.ops]

theorem fac_ops_prec (f : QFac τ) : ∀ o ∈ f.ops, 2 ≤ o.prec := by
  cases f <;> simp [QFac.ops, Op.prec]

/-- An operator on a stack whose top binds at least as tightly flushes it, whatever lies below. -/
theorem loop_flush_top (q : List (Out τ)) (st : List Op) (o : Op) (ts : List (Token τ))
    (h : ∀ o', st.head? = some o' → o.prec ≤ o'.prec) :
    shuntingLoop q st (.op o :: ts) = shuntingLoop (q ++ st.map .op) [o] ts := by
  rw [loop_op]
  cases st with
  | nil => rfl
  | cons o' st => rw [topPrec, popLoop_all _ _ (h o' rfl)]

/-- The stack a product leaves: never an operator that binds looser than `&` on top. -/
def Tight (st : List Op) : Prop := ∀ o, st.head? = some o → 1 ≤ o.prec

theorem tight_fac (f : QFac τ) (st : List Op) : Tight (f.ops ++ .and :: st) := by
  intro o ho
  cases f <;> simp only [QFac.ops, List.nil_append, List.cons_append, List.head?_cons, Option.some.injEq] at ho <;>
    subst ho <;> decide

theorem xop_prec (x : Bool) : (xop x).prec = 0 := by cases x <;> rfl

mutual
theorem yard_atom : ∀ (a : QAtom τ) (q : List (Out τ)) (st : List Op) (rest : List (Token τ)),
    shuntingLoop q st (a.toks ++ rest) = shuntingLoop (q ++ a.read) st rest
  | .ent a, q, st, rest => by rw [QAtom.toks, List.singleton_append, shuntingLoop]; rfl
  | .sub e, q, st, rest => by
    rw [QAtom.toks, List.singleton_append, shuntingLoop, shuntingYard]
    have := yard_sum e [] []
    rw [List.append_nil] at this
    obtain ⟨r1, st1, h1, h2⟩ := this
    rw [h1, shuntingLoop, List.nil_append, ← h2]
    rfl
theorem yard_fac : ∀ (f : QFac τ) (q : List (Out τ)) (st : List Op) (rest : List (Token τ)),
    (∀ p, topPrec st = some p → p < 2) →
    shuntingLoop q st (f.toks ++ rest) = shuntingLoop (q ++ f.atom.read) (f.ops ++ st) rest
  | .plain a, q, st, rest, _ => yard_atom a q st rest
  | .neg a, q, st, rest, h => by
    rw [QFac.toks, List.cons_append, loop_push _ _ _ _ h, yard_atom a]
    rfl
  | .quant a, q, st, rest, h => by
    rw [QFac.toks, List.append_assoc, yard_atom a, List.singleton_append, loop_push _ _ _ _ h]
    rfl
theorem yard_tail : ∀ (p : QProd τ) (q : List (Out τ)) (st : List Op) (rest : List (Token τ)), Tight st →
    ∃ r1 st1, shuntingLoop q st (.op .and :: (p.toks ++ rest)) = shuntingLoop (q ++ st.map .op ++ r1) st1 rest ∧
      p.readTail = r1 ++ st1.map .op ∧ Tight st1
  | .one f, q, st, rest, h => by
    rw [loop_flush_top _ _ Op.and _ (fun o ho => h o ho), QProd.toks, yard_fac f _ _ _ (by
      intro p hp; simp only [topPrec, Option.some.injEq] at hp; subst hp; decide)]
    exact ⟨_, _, rfl, by rw [QProd.readTail, fac_read]; simp, tight_fac f []⟩
  | .and f p, q, st, rest, h => by
    rw [loop_flush_top _ _ Op.and _ (fun o ho => h o ho), QProd.toks, List.append_assoc, yard_fac f _ _ _ (by
      intro p hp; simp only [topPrec, Option.some.injEq] at hp; subst hp; decide), List.cons_append]
    obtain ⟨r1, st1, h1, h2, h3⟩ := yard_tail p (q ++ st.map .op ++ f.atom.read) (f.ops ++ [.and]) rest (tight_fac f [])
    refine ⟨f.read ++ [.op .and] ++ r1, st1, ?_, by rw [QProd.readTail, h2]; simp, h3⟩
    rw [h1, fac_read]
    simp
theorem yard_prod : ∀ (p : QProd τ) (q : List (Out τ)) (rest : List (Token τ)),
    ∃ r1 st1, shuntingLoop q [] (p.toks ++ rest) = shuntingLoop (q ++ r1) st1 rest ∧ p.read = r1 ++ st1.map .op
  | .one f, q, rest => by
    rw [QProd.toks, yard_fac f _ _ _ (by simp [topPrec])]
    exact ⟨_, _, rfl, by rw [QProd.read, fac_read]; simp⟩
  | .and f p, q, rest => by
    rw [QProd.toks, List.append_assoc, yard_fac f _ _ _ (by simp [topPrec]), List.cons_append]
    obtain ⟨r1, st1, h1, h2, h3⟩ := yard_tail p (q ++ f.atom.read) (f.ops ++ []) rest (by
      intro o ho
      rw [List.append_nil] at ho
      have := fac_ops_prec f o (List.mem_of_mem_head? ho)
      omega)
    refine ⟨f.read ++ r1, st1, ?_, by rw [QProd.read, h2]; simp⟩
    rw [h1, fac_read]
    simp
theorem yard_or : ∀ (p : QProd τ) (x : Bool) (q : List (Out τ)) (rest : List (Token τ)),
    ∃ r1 st1, shuntingLoop q [xop x] (p.toks ++ rest) = shuntingLoop (q ++ r1) st1 rest ∧
      p.readOr x = r1 ++ st1.map .op
  | .one f, x, q, rest => by
    rw [QProd.toks, yard_fac f _ _ _ (by
      intro p hp; simp only [topPrec, Option.some.injEq, xop_prec] at hp; omega)]
    exact ⟨_, _, rfl, by rw [QProd.readOr, fac_read]; simp⟩
  | .and f p, x, q, rest => by
    rw [QProd.toks, List.append_assoc, yard_fac f _ _ _ (by
      intro p hp; simp only [topPrec, Option.some.injEq, xop_prec] at hp; omega), List.cons_append, QProd.readOr]
    cases hf : f.isPlain with
    | true =>
      have ho : f.ops = [] := by cases f <;> simp_all [QFac.isPlain, QFac.ops]
      rw [ho, List.nil_append, loop_push _ _ _ _ (by
        intro p hp; simp only [topPrec, Option.some.injEq, xop_prec] at hp; subst hp; decide)]
      obtain ⟨r1, st1, h1, h2⟩ := yard_and p x (q ++ f.atom.read) rest
      refine ⟨f.read ++ r1, st1, ?_, by rw [if_pos rfl, h2]; simp⟩
      rw [h1, fac_read, ho]
      simp
    | false =>
      obtain ⟨r1, st1, h1, h2, h3⟩ := yard_tail p (q ++ f.atom.read) (f.ops ++ [xop x]) rest (by
        intro o ho
        cases f <;> simp_all [QFac.isPlain, QFac.ops] <;> subst ho <;> decide)
      refine ⟨f.read ++ [.op (xop x)] ++ r1, st1, ?_, by rw [if_neg (by simp), h2]; simp⟩
      rw [h1, fac_read]
      simp
theorem yard_and : ∀ (p : QProd τ) (x : Bool) (q : List (Out τ)) (rest : List (Token τ)),
    ∃ r1 st1, shuntingLoop q [.and, xop x] (p.toks ++ rest) = shuntingLoop (q ++ r1) st1 rest ∧
      p.readAnd x = r1 ++ st1.map .op
  | .one f, x, q, rest => by
    rw [QProd.toks, yard_fac f _ _ _ (by
      intro p hp; simp only [topPrec, Option.some.injEq] at hp; subst hp; decide)]
    exact ⟨_, _, rfl, by rw [QProd.readAnd, fac_read]; simp⟩
  | .and f p, x, q, rest => by
    rw [QProd.toks, List.append_assoc, yard_fac f _ _ _ (by
      intro p hp; simp only [topPrec, Option.some.injEq] at hp; subst hp; decide), List.cons_append]
    obtain ⟨r1, st1, h1, h2, h3⟩ := yard_tail p (q ++ f.atom.read) (f.ops ++ [.and, xop x]) rest (tight_fac f _)
    refine ⟨f.read ++ [.op .and, .op (xop x)] ++ r1, st1, ?_, by rw [QProd.readAnd, h2]; simp⟩
    rw [h1, fac_read]
    simp
theorem yard_sum : ∀ (e : QSum τ) (q : List (Out τ)) (rest : List (Token τ)),
    ∃ r1 st1, shuntingLoop q [] (e.toks ++ rest) = shuntingLoop (q ++ r1) st1 rest ∧ e.read = r1 ++ st1.map .op
  | .one p, q, rest => yard_prod p q rest
  | .or p x s, q, rest => by
    rw [QSum.toks, List.append_assoc, List.cons_append]
    obtain ⟨r1, st1, h1, h2⟩ := yard_prod p q (.op (xop x) :: (s.toks ++ rest))
    rw [h1, loop_flush_top _ _ _ _ (by rw [xop_prec]; intros; omega)]
    obtain ⟨r2, st2, g1, g2⟩ := yard_sumTail s x (q ++ r1 ++ st1.map .op) rest
    refine ⟨p.read ++ r2, st2, ?_, by rw [QSum.read, g2]; simp⟩
    rw [g1, h2]
    simp
theorem yard_sumTail : ∀ (s : QSum τ) (x : Bool) (q : List (Out τ)) (rest : List (Token τ)),
    ∃ r1 st1, shuntingLoop q [xop x] (s.toks ++ rest) = shuntingLoop (q ++ r1) st1 rest ∧
      s.readTail x = r1 ++ st1.map .op
  | .one p, x, q, rest => yard_or p x q rest
  | .or p y s, x, q, rest => by
    rw [QSum.toks, List.append_assoc, List.cons_append]
    obtain ⟨r1, st1, h1, h2⟩ := yard_or p x q (.op (xop y) :: (s.toks ++ rest))
    rw [h1, loop_flush_top _ _ _ _ (by rw [xop_prec]; intros; omega)]
    obtain ⟨r2, st2, g1, g2⟩ := yard_sumTail s y (q ++ r1 ++ st1.map .op) rest
    refine ⟨p.readOr x ++ r2, st2, ?_, by rw [QSum.readTail, g2]; simp⟩
    rw [g1, h2]
    simp
end

/-- C63, exactly: what the shunting-yard gives for every expression: as precedence asks (`right`), except that a product
after `|` or `^` is cut after its first factor — after `a & f` if it starts with an entity or a parenthesis —, and the
rest of it applies to everything before. -/
theorem C63_reads (e : QSum τ) : shuntingYard e.toks = e.read := by
  obtain ⟨r1, st1, h1, h2⟩ := yard_sum e [] []
  rw [List.append_nil, List.nil_append] at h1
  rw [shuntingYard, h1, shuntingLoop, h2]

/-! ### The syntax and the grammar agree -/

theorem xop_or (x : Bool) : xop x = .or ∨ xop x = .xor := by cases x <;> simp [xop]

mutual
theorem parses_atom : ∀ (a : QAtom τ), Parses .atom a.toks a.right
  | .ent a => .entity a
  | .sub e => .paren (parses_sum e)
theorem parses_fac : ∀ (f : QFac τ), Parses .factor f.toks f.right
  | .plain a => .plain (parses_atom a)
  | .neg a => .neg (parses_atom a)
  | .quant a => .quant (parses_atom a)
theorem parses_prod : ∀ (p : QProd τ), Parses .product p.toks p.right
  | .one f => .prod1 (parses_fac f)
  | .and f p => parses_prodTail p (.prod1 (parses_fac f))
theorem parses_prodTail : ∀ (p : QProd τ) {ts : List (Token τ)} {r : List (Out τ)}, Parses .product ts r →
    Parses .product (ts ++ .op .and :: p.toks) (r ++ p.rightTail)
  | .one f, ts, r, h => by
    have := Parses.and h (parses_fac f)
    rw [List.append_assoc] at this
    exact this
  | .and f p, ts, r, h => by
    have := parses_prodTail p (Parses.and h (parses_fac f))
    simpa [QProd.toks, QProd.rightTail] using this
theorem parses_sum : ∀ (e : QSum τ), Parses .sum e.toks e.right
  | .one p => .sum1 (parses_prod p)
  | .or p x s => parses_sumTail s x (.sum1 (parses_prod p))
theorem parses_sumTail : ∀ (s : QSum τ) (x : Bool) {ts : List (Token τ)} {r : List (Out τ)}, Parses .sum ts r →
    Parses .sum (ts ++ .op (xop x) :: s.toks) (r ++ s.rightTail x)
  | .one p, x, ts, r, h => by
    have := Parses.or (xop_or x) h (parses_prod p)
    rw [List.append_assoc] at this
    exact this
  | .or p y s, x, ts, r, h => by
    have := parses_sumTail s y (Parses.or (xop_or x) h (parses_prod p))
    simpa [QSum.toks, QSum.rightTail] using this
end

/-- One more factor. -/
def QProd.snoc : QProd τ → QFac τ → QProd τ
  | .one f, g => .and f (.one g)
  | .and f p, g => .and f (p.snoc g)
/-- One more product. -/
def QSum.snoc : QSum τ → Bool → QProd τ → QSum τ
  | .one p, x, q => .or p x (.one q)
  | .or p y s, x, q => .or p y (s.snoc x q)

theorem snoc_toks (g : QFac τ) : ∀ (p : QProd τ), (p.snoc g).toks = p.toks ++ .op .and :: g.toks
  | .one f => rfl
  | .and f p => by rw [QProd.snoc, QProd.toks, snoc_toks g p, QProd.toks]; simp

theorem snoc_rightTail (g : QFac τ) : ∀ (p : QProd τ), (p.snoc g).rightTail = p.rightTail ++ g.right ++ [.op .and]
  | .one f => by simp [QProd.snoc, QProd.rightTail]
  | .and f p => by simp [QProd.snoc, QProd.rightTail, snoc_rightTail g p]

theorem snoc_right (g : QFac τ) : ∀ (p : QProd τ), (p.snoc g).right = p.right ++ g.right ++ [.op .and]
  | .one f => by simp [QProd.snoc, QProd.right, QProd.rightTail]
  | .and f p => by simp [QProd.snoc, QProd.right, snoc_rightTail g p]

theorem sumSnoc_toks (x : Bool) (q : QProd τ) : ∀ (s : QSum τ), (s.snoc x q).toks = s.toks ++ .op (xop x) :: q.toks
  | .one f => rfl
  | .or f y p => by rw [QSum.snoc, QSum.toks, sumSnoc_toks x q p, QSum.toks]; simp

theorem sumSnoc_rightTail (x : Bool) (q : QProd τ) : ∀ (s : QSum τ) (y : Bool),
    (s.snoc x q).rightTail y = s.rightTail y ++ q.right ++ [.op (xop x)]
  | .one f, z => by simp [QSum.snoc, QSum.rightTail]
  | .or f y p, z => by simp [QSum.snoc, QSum.rightTail, sumSnoc_rightTail x q p]

theorem sumSnoc_right (x : Bool) (q : QProd τ) : ∀ (s : QSum τ),
    (s.snoc x q).right = s.right ++ q.right ++ [.op (xop x)]
  | .one f => by simp [QSum.snoc, QSum.right, QSum.rightTail]
  | .or f y p => by rw [QSum.snoc, QSum.right, sumSnoc_rightTail x q p, QSum.right]; simp

/-- Some syntax has these tokens and this postfix form. -/
def Shows : Lvl → List (Token τ) → List (Out τ) → Prop
  | .atom, ts, r => ∃ a : QAtom τ, a.toks = ts ∧ a.right = r
  | .factor, ts, r => ∃ a : QFac τ, a.toks = ts ∧ a.right = r
  | .product, ts, r => ∃ a : QProd τ, a.toks = ts ∧ a.right = r
  | .sum, ts, r => ∃ a : QSum τ, a.toks = ts ∧ a.right = r

theorem Parses.shows {l : Lvl} {ts : List (Token τ)} {r : List (Out τ)} (h : Parses l ts r) : Shows l ts r := by
  induction h with
  | entity a => exact ⟨.ent a, rfl, rfl⟩
  | paren _ ih => obtain ⟨a, rfl, rfl⟩ := ih; exact ⟨.sub a, rfl, rfl⟩
  | plain _ ih => obtain ⟨a, rfl, rfl⟩ := ih; exact ⟨.plain a, rfl, rfl⟩
  | neg _ ih => obtain ⟨a, rfl, rfl⟩ := ih; exact ⟨.neg a, rfl, rfl⟩
  | quant _ ih => obtain ⟨a, rfl, rfl⟩ := ih; exact ⟨.quant a, rfl, rfl⟩
  | prod1 _ ih => obtain ⟨a, rfl, rfl⟩ := ih; exact ⟨.one a, rfl, rfl⟩
  | and _ _ i1 i2 =>
    obtain ⟨a, rfl, rfl⟩ := i1; obtain ⟨b, rfl, rfl⟩ := i2
    exact ⟨a.snoc b, snoc_toks b a, snoc_right b a⟩
  | sum1 _ ih => obtain ⟨a, rfl, rfl⟩ := ih; exact ⟨.one a, rfl, rfl⟩
  | or ho _ _ i1 i2 =>
    obtain ⟨a, rfl, rfl⟩ := i1; obtain ⟨b, rfl, rfl⟩ := i2
    rcases ho with rfl | rfl
    · exact ⟨a.snoc false b, sumSnoc_toks false b a, sumSnoc_right false b a⟩
    · exact ⟨a.snoc true b, sumSnoc_toks true b a, sumSnoc_right true b a⟩

/-! ### Lengths, and the first element -/

mutual
theorem len_atom : ∀ (a : QAtom τ), a.read.length = a.right.length
  | .ent a => rfl
  | .sub e => len_sum e
theorem len_fac : ∀ (f : QFac τ), f.read.length = f.right.length
  | .plain a => len_atom a
  | .neg a => by simp [QFac.read, QFac.right, len_atom a]
  | .quant a => by simp [QFac.read, QFac.right, len_atom a]
theorem len_prod : ∀ (p : QProd τ), p.read.length = p.right.length
  | .one f => len_fac f
  | .and f p => by simp [QProd.read, QProd.right, len_fac f, len_prodTail p]
theorem len_prodTail : ∀ (p : QProd τ), p.readTail.length = p.rightTail.length
  | .one f => by simp [QProd.readTail, QProd.rightTail, len_fac f]
  | .and f p => by simp [QProd.readTail, QProd.rightTail, len_fac f, len_prodTail p]
theorem len_or : ∀ (p : QProd τ) (x : Bool), (p.readOr x).length = p.right.length + 1
  | .one f, x => by simp [QProd.readOr, QProd.right, len_fac f]
  | .and f p, x => by
    rw [QProd.readOr, QProd.right]
    split
    · simp [len_fac f, len_and p x]; omega
    · simp [len_fac f, len_prodTail p]; omega
theorem len_and : ∀ (p : QProd τ) (x : Bool), (p.readAnd x).length = p.rightTail.length + 1
  | .one f, x => by simp [QProd.readAnd, QProd.rightTail, len_fac f]
  | .and f p, x => by simp [QProd.readAnd, QProd.rightTail, len_fac f, len_prodTail p]; omega
theorem len_sum : ∀ (e : QSum τ), e.read.length = e.right.length
  | .one p => len_prod p
  | .or p x s => by simp [QSum.read, QSum.right, len_prod p, len_sumTail s x]
theorem len_sumTail : ∀ (s : QSum τ) (x : Bool), (s.readTail x).length = (s.rightTail x).length
  | .one p, x => by simp [QSum.readTail, QSum.rightTail, len_or p x]
  | .or p y s, x => by simp [QSum.readTail, QSum.rightTail, len_or p x, len_sumTail s y]; omega
end

mutual
theorem head_atom : ∀ (a : QAtom τ), ∃ (b : τ) (l : List (Out τ)), a.right = .entity b :: l
  | .ent a => ⟨a, [], rfl⟩
  | .sub e => head_sum e
theorem head_fac : ∀ (f : QFac τ), ∃ (b : τ) (l : List (Out τ)), f.right = .entity b :: l
  | .plain a => head_atom a
  | .neg a => by obtain ⟨b, l, h⟩ := head_atom a; exact ⟨b, l ++ [.op .not], by rw [QFac.right, h]; rfl⟩
  | .quant a => by obtain ⟨b, l, h⟩ := head_atom a; exact ⟨b, l ++ [.op .quantifier], by rw [QFac.right, h]; rfl⟩
theorem head_prod : ∀ (p : QProd τ), ∃ (b : τ) (l : List (Out τ)), p.right = .entity b :: l
  | .one f => head_fac f
  | .and f p => by obtain ⟨b, l, h⟩ := head_fac f; exact ⟨b, l ++ p.rightTail, by rw [QProd.right, h]; rfl⟩
theorem head_sum : ∀ (e : QSum τ), ∃ (b : τ) (l : List (Out τ)), e.right = .entity b :: l
  | .one p => head_prod p
  | .or p x s => by obtain ⟨b, l, h⟩ := head_prod p; exact ⟨b, l ++ s.rightTail x, by rw [QSum.right, h]; rfl⟩
end

theorem head_prodTail (p : QProd τ) : ∃ (b : τ) (l : List (Out τ)), p.rightTail = .entity b :: l := by
  cases p with
  | one f => obtain ⟨b, l, h⟩ := head_fac f; exact ⟨b, l ++ [.op .and], by rw [QProd.rightTail, h]; rfl⟩
  | and f p =>
    obtain ⟨b, l, h⟩ := head_fac f
    exact ⟨b, l ++ [.op .and] ++ p.rightTail, by rw [QProd.rightTail, h]; simp⟩

/-! ### Where the reading is as precedence asks -/

theorem len_eq_of {α : Type} {a b c d : List α} (h : a ++ b = c ++ d) (hl : a.length = c.length) : a = c ∧ b = d :=
  List.append_inj h hl

/-- `f | …`: the operator cannot stand where an operand starts. -/
theorem op_ne_tail (o : Op) (l m : List (Out τ)) (p : QProd τ) : Out.op o :: l ≠ p.rightTail ++ m := by
  obtain ⟨b, l', h⟩ := head_prodTail p
  rw [h]
  intro hh
  cases hh

mutual
theorem safe_atom : ∀ (a : QAtom τ), a.read = a.right → Safe .atom a.toks a.right
  | .ent a, _ => .entity a
  | .sub e, h => .paren (safe_sum e h)
theorem safe_fac : ∀ (f : QFac τ), f.read = f.right → Safe .factor f.toks f.right
  | .plain a, h => .plain (safe_atom a h)
  | .neg a, h => .neg (safe_atom a (len_eq_of h (len_atom a)).1)
  | .quant a, h => .quant (safe_atom a (len_eq_of h (len_atom a)).1)
theorem safe_prod : ∀ (p : QProd τ), p.read = p.right → Safe .product p.toks p.right
  | .one f, h => .prod1 (safe_fac f h)
  | .and f p, h => by
    obtain ⟨h1, h2⟩ := len_eq_of h (len_fac f)
    exact safe_prodTail p h2 (.prod1 (safe_fac f h1))
theorem safe_prodTail : ∀ (p : QProd τ), p.readTail = p.rightTail → ∀ {ts : List (Token τ)} {r : List (Out τ)},
    Safe .product ts r → Safe .product (ts ++ .op .and :: p.toks) (r ++ p.rightTail)
  | .one f, h, ts, r, hs => by
    have := Safe.and hs (safe_fac f (len_eq_of h (len_fac f)).1)
    rw [List.append_assoc] at this
    exact this
  | .and f p, h, ts, r, hs => by
    rw [QProd.readTail, QProd.rightTail] at h
    obtain ⟨h1, h2⟩ := len_eq_of h (by simp [len_fac f])
    have := safe_prodTail p h2 (Safe.and hs (safe_fac f (len_eq_of h1 (len_fac f)).1))
    simpa [QProd.toks, QProd.rightTail] using this
theorem safe_or : ∀ (p : QProd τ) (x : Bool), p.readOr x = p.right ++ [.op (xop x)] →
    ∀ {ts : List (Token τ)} {r : List (Out τ)}, Safe .sum ts r →
      Safe .sum (ts ++ .op (xop x) :: p.toks) (r ++ p.right ++ [.op (xop x)])
  | .one f, x, h, ts, r, hs => Safe.or1 (xop_or x) hs (safe_fac f (len_eq_of h (len_fac f)).1)
  | .and f p, x, h, ts, r, hs => by
    rw [QProd.readOr, QProd.right] at h
    cases f with
    | plain a =>
      rw [if_pos (by rfl), List.append_assoc] at h
      obtain ⟨h1, h2⟩ := len_eq_of h (len_fac _)
      cases p with
      | one g =>
        rw [QProd.readAnd, QProd.rightTail, List.append_assoc] at h2
        have := Safe.or2 (xop_or x) hs (safe_atom a h1) (safe_fac g (len_eq_of h2 (len_fac g)).1)
        simpa [QProd.toks, QProd.right, QProd.rightTail, QFac.toks, QFac.right] using this
      | and g p =>
        rw [QProd.readAnd, QProd.rightTail, List.append_assoc, List.append_assoc, List.append_assoc] at h2
        have h3 := (len_eq_of h2 (len_fac g)).2
        simp only [List.cons_append, List.nil_append, List.cons.injEq, true_and] at h3
        exact absurd h3 (op_ne_tail _ _ _ _)
    | neg a =>
      rw [if_neg (by simp [QFac.isPlain]), List.append_assoc, List.append_assoc] at h
      exact absurd (len_eq_of h (len_fac _)).2 (op_ne_tail _ _ _ _)
    | quant a =>
      rw [if_neg (by simp [QFac.isPlain]), List.append_assoc, List.append_assoc] at h
      exact absurd (len_eq_of h (len_fac _)).2 (op_ne_tail _ _ _ _)
theorem safe_sum : ∀ (e : QSum τ), e.read = e.right → Safe .sum e.toks e.right
  | .one p, h => .sum1 (safe_prod p h)
  | .or p x s, h => by
    obtain ⟨h1, h2⟩ := len_eq_of h (len_prod p)
    exact safe_sumTail s x h2 (.sum1 (safe_prod p h1))
theorem safe_sumTail : ∀ (s : QSum τ) (x : Bool), s.readTail x = s.rightTail x →
    ∀ {ts : List (Token τ)} {r : List (Out τ)}, Safe .sum ts r →
      Safe .sum (ts ++ .op (xop x) :: s.toks) (r ++ s.rightTail x)
  | .one p, x, h, ts, r, hs => by
    have := safe_or p x h hs
    rw [List.append_assoc] at this
    exact this
  | .or p y s, x, h, ts, r, hs => by
    rw [QSum.readTail, QSum.rightTail] at h
    obtain ⟨h1, h2⟩ := len_eq_of h (by simp [len_or p x])
    have := safe_sumTail s y h2 (safe_or p x h1 hs)
    simpa [QSum.toks, QSum.rightTail] using this
end

/-- C63, exactly: of the expressions of the grammar, with the postfix form `r` that precedence asks for, the code gives
`r` for those where every product after a `|` or `^` is a single factor or `a & f` with an entity or a parenthesis `a`,
at every depth — and for no others. -/
theorem C63_exact_iff {ts : List (Token τ)} {r : List (Out τ)} (h : Parses .sum ts r) :
    shuntingYard ts = r ↔ Safe .sum ts r := by
  constructor
  · obtain ⟨e, rfl, rfl⟩ := h.shows
    rw [C63_reads]
    exact safe_sum e
  · exact fun hs => (C63_precedence_partial hs).2

/-- `a | b & c & d`: read as `(a | b & c) & d`; and `a | !b & c` as `(a | !b) & c`. -/
example : shuntingYard (QSum.or (.one (.plain (.ent 0))) false
      (.one (.and (.plain (.ent 1)) (.and (.plain (.ent 2)) (.one (.plain (.ent 3))))))).toks
    = (QSum.one (.and (.plain (.sub (.or (.one (.plain (.ent 0))) false
        (.one (.and (.plain (.ent 1)) (.one (.plain (.ent 2)))))))) (.one (.plain (.ent 3))))).right ∧
    shuntingYard (QSum.or (.one (.plain (.ent 0))) false (.one (.and (.neg (.ent 1)) (.one (.plain (.ent 2)))))).toks
    = (QSum.one (.and (.plain (.sub (.or (.one (.plain (.ent 0))) false (.one (.one (.neg (.ent 1)))))))
        (.one (.plain (.ent 2))))).right := by
  constructor <;> rw [C63_reads] <;> rfl

example : Parses .sum (QSum.or (.one (.plain (.ent 0))) false
    (.one (.and (.neg (.ent 1)) (.one (.plain (.ent 2)))))).toks
    [.entity 0, .entity 1, .op .not, .entity 2, .op .and, .op .or] := parses_sum _

end Pawpaw.Props
