import Verif.Spec.Ecf
/-!
# Groups of a single term in filter expressions

A *lone* group is a parenthesised group that holds one term only, as in `~([a])` or `[a] & ([b])`.
-/
namespace EcfSpec
variable {A : Type}

/-- The expression is a single term. -/
def Expr.isOne : Expr A → Bool
  | .one _ => true
  | .cons _ _ _ => false

mutual
/-- There is a lone group in the term. -/
def Term.lone : Term A → Bool
  | .atom _ _ => false
  | .group _ e => e.isOne || e.lone
/-- There is a lone group in the expression. -/
def Expr.lone : Expr A → Bool
  | .one t => t.lone
  | .cons t _ e => t.lone || e.lone
end

mutual
/-- There is a lone group with a filter somewhere to its left. -/
def Term.late : Term A → Bool
  | .atom _ _ => false
  | .group _ e => e.late
/-- There is a lone group with a filter somewhere to its left. -/
def Expr.late : Expr A → Bool
  | .one t => t.late
  | .cons t _ e => t.late || e.lone
end

mutual
/-- There is a lone group with no filter to its left. -/
def Term.early : Term A → Bool
  | .atom _ _ => false
  | .group _ e => e.isOne || e.early
/-- There is a lone group with no filter to its left. -/
def Expr.early : Expr A → Bool
  | .one t => t.early
  | .cons t _ _ => t.early
end

/-- `x o y` without parentheses. -/
def Expr.append : Expr A → Op → Expr A → Expr A
  | .one t, o, e => .cons t o e
  | .cons t p x, o, e => .cons t p (x.append o e)

mutual
/-- The term without the parentheses and negations to the left of (and of) its last lone group with no filter to
its left. -/
def Term.spill : Term A → Expr A
  | .atom n a => .one (.atom n a)
  | .group n e => if e.isOne || e.early then e.spill else .one (.group n e)
/-- The expression without the parentheses and negations to the left of (and of) its last lone group with no filter
to its left: `~(~([a]) | [b]) & [c]` becomes `[a] | [b] & [c]`. -/
def Expr.spill : Expr A → Expr A
  | .one t => t.spill
  | .cons t o e => t.spill.append o e
end

end EcfSpec
