import Verif.Model.Span
/-!
# Model of `pawpaw/ontology`

Simplifications: the keys of an ontology are atoms (strings), its rules are total functions from an Ito
to a finite list of Itos, and Python dicts are association lists in insertion order.
-/
namespace Pawpaw
namespace Ontology
variable {κ τ : Type} [DecidableEq κ]

/-- `d[k] = v`: an existing key keeps its place. -/
def dictSet {κ' ν : Type} [DecidableEq κ'] (k : κ') (v : ν) : List (κ' × ν) → List (κ' × ν)
  | [] => [(k, v)]
  | (k', v') :: d => if k' = k then (k, v) :: d else (k', v') :: dictSet k v d

/-- `d |= e` -/
def dictUpdate {κ' ν : Type} [DecidableEq κ'] (d e : List (κ' × ν)) : List (κ' × ν) :=
  e.foldl (fun d kv => dictSet kv.1 kv.2 d) d

/-- `Discoveries`, `/repo/pawpaw/ontology/ontology.py:10-17`: its Itos and its entries. -/
inductive Disc (κ τ : Type) where
  | mk (itos : List τ) (kids : List (κ × Disc κ τ))

/-- `.itos`, `/repo/pawpaw/ontology/ontology.py:15-17` -/
def Disc.itos : Disc κ τ → List τ
  | .mk is _ => is

/-- `.items()` -/
def Disc.kids : Disc κ τ → List (κ × Disc κ τ)
  | .mk _ ks => ks

mutual
/-- `_flatten(filter_empties, path)`, `/repo/pawpaw/ontology/ontology.py:23-27` -/
def Disc.flattenAt (filterEmpties : Bool) (path : List κ) : Disc κ τ → List (List κ × List τ)
  | .mk is ks =>
    Disc.flattenKids filterEmpties path (if is.length = 0 ∧ filterEmpties then [] else [(path, is)]) ks
/-- The loop, `/repo/pawpaw/ontology/ontology.py:25-26`; the first argument is `rv`. -/
def Disc.flattenKids (filterEmpties : Bool) (path : List κ) (rv : List (List κ × List τ)) :
    List (κ × Disc κ τ) → List (List κ × List τ)
  | [] => rv
  | (k, d) :: ks =>
    Disc.flattenKids filterEmpties path (dictUpdate rv (Disc.flattenAt filterEmpties (path ++ [k]) d)) ks
end

/-- `flatten(filter_empties)`, `/repo/pawpaw/ontology/ontology.py:29-30` -/
def Disc.flatten (d : Disc κ τ) (filterEmpties : Bool := true) : List (List κ × List τ) :=
  d.flattenAt filterEmpties []

mutual
/-- `walk()`, `/repo/pawpaw/ontology/ontology.py:32-35` -/
def Disc.walk : Disc κ τ → List τ
  | .mk is ks => is ++ Disc.walkKids ks
/-- The loop of `walk`. -/
def Disc.walkKids : List (κ × Disc κ τ) → List τ
  | [] => []
  | (_, d) :: ks => Disc.walk d ++ Disc.walkKids ks
end

/-- `Ontology`, `/repo/pawpaw/ontology/ontology.py:38-54`: its rules and its entries. -/
inductive Onto (κ τ : Type) where
  | mk (rules : List (τ → List τ)) (kids : List (κ × Onto κ τ))

/-- `.items()` -/
def Onto.kids : Onto κ τ → List (κ × Onto κ τ)
  | .mk _ ks => ks

/-- `.rules`, `/repo/pawpaw/ontology/ontology.py:52-54` -/
def Onto.rules : Onto κ τ → List (τ → List τ)
  | .mk rs _ => rs

mutual
/-- `discover(*itos)`, `/repo/pawpaw/ontology/ontology.py:60-70` -/
def Onto.discover (itos : List τ) : Onto κ τ → Disc κ τ
  | .mk rs ks => .mk (rs.flatMap (fun rule => itos.flatMap rule)) (Onto.discoverKids itos [] ks)
/-- The second loop, `/repo/pawpaw/ontology/ontology.py:67-68`; the first list is `rv` so far. -/
def Onto.discoverKids (itos : List τ) (rv : List (κ × Disc κ τ)) :
    List (κ × Onto κ τ) → List (κ × Disc κ τ)
  | [] => rv
  | (k, o) :: ks => Onto.discoverKids itos (dictSet k (Onto.discover itos o) rv) ks
end

/-- `self[key]` for a key of the dict: `dict.__getitem__`, else `__missing__` raises,
`/repo/pawpaw/ontology/ontology.py:45-46`. -/
def Onto.getAtom (o : Onto κ τ) (k : κ) : Except PyErr (Onto κ τ) :=
  match o.kids.find? (fun e => e.1 = k) with
  | some e => .ok e.2
  | none => .error .keyError

/-- `self[key]` for a sequence: `__missing__`, `/repo/pawpaw/ontology/ontology.py:39-46`. -/
def Onto.getPath (o : Onto κ τ) : List κ → Except PyErr (Onto κ τ)
  | [] => .error .keyError
  | [k] => o.getAtom k
  | k :: k' :: ks =>
    match o.getAtom k with
    | .error e => .error e
    | .ok rv => rv.getPath (k' :: ks)

/-! ### The ontology query's shunting-yard -/

/-- The operators, by `desc`, `/repo/pawpaw/ontology/_query.py:100-105`. -/
inductive Op where
  | xor | or | and | not | quantifier
  deriving DecidableEq

/-- `_get_precedence`, `/repo/pawpaw/ontology/_query.py:134-142` -/
def Op.prec : Op → Nat
  | .xor | .or => 0
  | .and => 1
  | .not | .quantifier => 2

/-- Tokens of an expression: entities (and anything else without precedence), operators, and nested
queries with their children.  The `LPAREN`/`RPAREN` tokens which `_shunting_yard` also knows are never
produced by the parser. -/
inductive Token (τ : Type) where
  | entity (a : τ)
  | op (o : Op)
  | query (children : List (Token τ))

/-- Entries of the output queue. -/
inductive Out (τ : Type) where
  | entity (a : τ)
  | op (o : Op)
  deriving DecidableEq

/-- The inner `while` loop, `/repo/pawpaw/ontology/_query.py:169-170`.  The precedence which is compared
(`op_stack_p`) is computed before the loop and not updated in it, so that the loop pops nothing or
everything.  The stack's top is the list's head; the result is what is popped, and the stack. -/
def popLoop (tokenP : Nat) (opStackP : Option Nat) : List Op → List Op × List Op
  | [] => ([], [])
  | o :: st =>
    match opStackP with
    | none => ([], o :: st)
    | some p =>
      if tokenP ≤ p then
        let r := popLoop tokenP opStackP st
        (o :: r.1, r.2)
      else ([], o :: st)

/-- `op_stack_p`, `/repo/pawpaw/ontology/_query.py:165-168` -/
def topPrec : List Op → Option Nat
  | [] => none
  | o :: _ => some o.prec

mutual
/-- The loop of `_shunting_yard`, `/repo/pawpaw/ontology/_query.py:149-171`, and the final pops,
`/repo/pawpaw/ontology/_query.py:173-174`; `queue` is `output_queue`, `stack` is `operator_stack`. -/
def shuntingLoop {τ : Type} : List (Out τ) → List Op → List (Token τ) → List (Out τ)
  | queue, stack, [] => queue ++ stack.map .op
  | queue, stack, .entity a :: ts => shuntingLoop (queue ++ [.entity a]) stack ts
  | queue, stack, .query cs :: ts => shuntingLoop (queue ++ shuntingYard cs) stack ts
  | queue, stack, .op o :: ts =>
    let r := popLoop o.prec (topPrec stack) stack
    shuntingLoop (queue ++ r.1.map .op) (o :: r.2) ts
/-- `_shunting_yard(expression)`, `/repo/pawpaw/ontology/_query.py:144-177` -/
def shuntingYard {τ : Type} : List (Token τ) → List (Out τ)
  | ts => shuntingLoop [] [] ts
end

end Ontology
end Pawpaw
