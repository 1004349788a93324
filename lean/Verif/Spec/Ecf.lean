/-!
# Specification of boolean filter expressions

`expr := term (op term)*`, `term := '~'* atom | '~'* '(' expr ')'`, with precedence `~`, `&`, `^`, `|`.
-/
namespace EcfSpec

/-- Binary operators. -/
inductive Op where
  | and | xor | or
  deriving DecidableEq, Repr

/-- The operator's character. -/
def Op.char : Op → Char
  | .and => '&'
  | .xor => '^'
  | .or => '|'

mutual
/-- A possibly negated atom or parenthesised expression; `neg` is the number of `~`s. -/
inductive Term (A : Type) where
  | atom (neg : Nat) (a : A)
  | group (neg : Nat) (e : Expr A)
/-- A sequence of terms separated by binary operators. -/
inductive Expr (A : Type) where
  | one (t : Term A)
  | cons (t : Term A) (o : Op) (e : Expr A)
end

/-- A token: a character of the operand texts, or an atom (a bracketed filter). -/
inductive Tok (A : Type) where
  | ch (c : Char)
  | atom (a : A)
  deriving DecidableEq

variable {A : Type}

mutual
/-- The written form of a term. -/
def Term.toks : Term A → List (Tok A)
  | .atom n a => List.replicate n (.ch '~') ++ [.atom a]
  | .group n e => List.replicate n (.ch '~') ++ (.ch '(' :: (e.toks ++ [.ch ')']))
/-- The written form of an expression (without spaces). -/
def Expr.toks : Expr A → List (Tok A)
  | .one t => t.toks
  | .cons t o e => t.toks ++ (.ch o.char :: e.toks)
end

/-- Split a list at the occurrences of an operator: `v₀ o₁ v₁ o₂ v₂ …` becomes the maximal runs between
the operators `p`. -/
def runs (p : Op) : Bool → List (Op × Bool) → List (Bool × List (Op × Bool))
  | v, [] => [(v, [])]
  | v, (o, w) :: r =>
    if o = p then (v, []) :: runs p w r
    else
      match runs p w r with
      | (v', r') :: rest => (v, (o, v') :: r') :: rest
      | [] => []

/-- All of a run joined by `&`. -/
def evalAnd (x : Bool × List (Op × Bool)) : Bool := x.1 && x.2.all (fun p => p.2)
/-- Exclusive or of the `&`-runs. -/
def evalXor (x : Bool × List (Op × Bool)) : Bool := ((runs .xor x.1 x.2).map evalAnd).foldl Bool.xor false
/-- Any of the `^`-runs: the value of a flat expression with precedence `&`, `^`, `|`. -/
def evalFlat (v : Bool) (r : List (Op × Bool)) : Bool := (runs .or v r).any evalXor

/-- Odd number of negations. -/
def negate (n : Nat) (b : Bool) : Bool := if n % 2 = 1 then !b else b

mutual
/-- Value of a term. -/
def Term.eval (val : A → Bool) : Term A → Bool
  | .atom n a => negate n (val a)
  | .group n e => negate n (evalFlat (e.values val).1 (e.values val).2)
/-- The values of the terms of an expression with the operators between them. -/
def Expr.values (val : A → Bool) : Expr A → Bool × List (Op × Bool)
  | .one t => (t.eval val, [])
  | .cons t o e => (t.eval val, (o, (e.values val).1) :: (e.values val).2)
end

/-- Value of an expression. -/
def Expr.eval (val : A → Bool) (e : Expr A) : Bool := evalFlat (e.values val).1 (e.values val).2

mutual
/-- Every parenthesised group holds at least two terms. -/
def Term.Big : Term A → Prop
  | .atom _ _ => True
  | .group _ e => (∃ t o e', e = .cons t o e') ∧ e.Big
def Expr.Big : Expr A → Prop
  | .one t => t.Big
  | .cons t _ e => t.Big ∧ e.Big
end

/-- The operand texts (before, between and after the atoms) of a token list, and its atoms. -/
def operands : List (Tok A) → List (List Char)
  | [] => [[]]
  | .ch c :: ts =>
    match operands ts with
    | o :: os => (c :: o) :: os
    | [] => []
  | .atom _ :: ts => [] :: operands ts

/-- The atoms of a token list, in order. -/
def atoms : List (Tok A) → List A
  | [] => []
  | .ch _ :: ts => atoms ts
  | .atom a :: ts => a :: atoms ts

/-- Tokens without spaces. -/
def unspaced (ts : List (Tok A)) : List (Tok A) :=
  ts.filter (fun t => match t with | .ch ' ' => false | _ => true)

end EcfSpec
