import Verif.Model.Tree
/-!
# Model of `pawpaw/visualization/highlighter.py`

What is printed is a list of tokens: the code that sets the background colour, a text, the code that
resets it.  Simplification: when the palette is empty and a highlighted segment comes, `next` raises
`StopIteration`; what was printed before is not kept in the model.
-/
namespace Pawpaw
namespace Highlight

/-- What `print` is given, piece by piece. -/
inductive Tok (β α : Type) where
  | code (c : β)
  | text (s : List α)
  | reset

variable {α β : Type}

/-- `next(it_back)` of `itertools.cycle(self._backs)` after `k` values were taken. -/
def nextBack (backs : List β) (k : Nat) : Except PyErr β :=
  match backs[k % backs.length]? with
  | some c => .ok c
  | none => .error .stopIteration

/-- `_compose(predicate, it_back, ito, slice)`,
`/repo/pawpaw/visualization/highlighter.py:21-33`; `p` is `predicate(ito)`. -/
def compose (backs : List β) (s : List α) (p : Bool) (k : Nat) (a b : Int) :
    Except PyErr (List (Tok β α) × Nat) :=
  let t := Tok.text (PyStr.slice s (some a) (some b))
  if p then
    match nextBack backs k with
    | .error e => .error e
    | .ok c => .ok ([.code c, t, .reset], k + 1)
  else .ok ([t], k)

/-- `if last < stop: print(self._compose(predicate, it_back, ito, slice(last, stop)), end='')`,
`/repo/pawpaw/visualization/highlighter.py:43-44,47-48` -/
def part (backs : List β) (s : List α) (p : Bool) (k : Nat) (last stop : Int) :
    Except PyErr (List (Tok β α) × Nat) :=
  if last < stop then compose backs s p k last stop else .ok ([], k)

mutual
/-- `_print(ito, predicate, it_back)`, `/repo/pawpaw/visualization/highlighter.py:35-48`.  The test
`ito.children == 0` compares a sequence with an integer and is always false.  The predicate is called
on nodes, which are given by their paths. -/
def printNode (backs : List β) (s : List α) (pred : List Nat → Bool) (path : List Nat) (k : Nat) :
    Node → Except PyErr (List (Tok β α) × Nat)
  | .mk sp _ _ ks => printKids backs s pred path sp k 0 sp.start ks
/-- The loop and what follows, `/repo/pawpaw/visualization/highlighter.py:41-48`. -/
def printKids (backs : List β) (s : List α) (pred : List Nat → Bool) (path : List Nat) (sp : Span) (k : Nat)
    (i : Nat) (last : Int) : List Node → Except PyErr (List (Tok β α) × Nat)
  | [] => part backs s (pred path) k last sp.stop
  | c :: cs => do
    let r1 ← part backs s (pred path) k last c.start
    let r2 ← printNode backs s pred (path ++ [i]) r1.2 c
    let r3 ← printKids backs s pred path sp r2.2 (i + 1) c.stop cs
    return (r1.1 ++ r2.1 ++ r3.1, r3.2)
end

/-- `print(ito, predicate)`, `/repo/pawpaw/visualization/highlighter.py:50-51` -/
def print (backs : List β) (s : List α) (pred : List Nat → Bool) (n : Node) :
    Except PyErr (List (Tok β α)) :=
  match printNode backs s pred [] 0 n with
  | .ok r => .ok r.1
  | .error e => .error e

end Highlight
end Pawpaw
