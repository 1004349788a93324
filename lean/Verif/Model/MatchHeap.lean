import Verif.Model.Match
import Verif.Model.CloneHeap
/-!
# Model of `Ito.from_match` and `Ito.from_re` in memory, `/repo/pawpaw/ito.py:98-180`

`Model/Match.lean` gives the same functions on value trees; here the Itos are objects and the links are made by
`children.add` as in the code. The regex engine is external, as there.
-/
namespace Pawpaw
namespace Heap
open Match

/-- `while len(path_stack) > 0 and (…): path_stack.pop()`, `/repo/pawpaw/ito.py:120-121`; the last element first. -/
def popStack (h : Heap) (s : Span) : List Nat → List Nat
  | [] => []
  | x :: xs => if s.start < (h.span x).start ∨ s.stop > (h.span x).stop then popStack h s xs else x :: xs

/-- The loop body, `/repo/pawpaw/ito.py:119-127`: the new `path_stack` (last element first) and `match_itos`. -/
def matchStep (h : Heap) (s : String) (e : Entry) (stack roots : List Nat) :
    Heap × Except PyErr (List Nat × List Nat) :=
  let y := h.next
  let h := h.new s (some e.1.start) (some e.1.stop) e.2
  match popStack h (h.span y) stack with
  | [] => (h, .ok ([y], roots ++ [y]))
  | x :: rest =>
    match h.add x [y] with
    | (h, .error e) => (h, .error e)
    | (h, .ok ()) => (h, .ok (y :: x :: rest, roots))

/-- The `for` loop, `/repo/pawpaw/ito.py:118-127`. -/
def matchLoop (h : Heap) (s : String) : List Entry → List Nat → List Nat → Heap × Except PyErr (List Nat)
  | [], _, roots => (h, .ok roots)
  | e :: es, stack, roots =>
    match matchStep h s e stack roots with
    | (h, .error e) => (h, .error e)
    | (h, .ok (stack, roots)) => matchLoop h s es stack roots

/-- `Ito.from_match(match, desc_func, group_keys)`, `/repo/pawpaw/ito.py:98-129`; `s` is `match.string`. -/
def fromMatchObj (h : Heap) (s : String) (groups : List (Option String × List Span)) :
    Heap × Except PyErr (List Nat) :=
  matchLoop h s (sortEntries (entries groups)) [] []

/-- The loop of `from_re`, `/repo/pawpaw/ito.py:171-175`. -/
def fromReObjLoop (h : Heap) (s : String) (limit : Option Int) (rv : List Nat) :
    List (List (Option String × List Span)) → Heap × Except PyErr (List Nat)
  | [] => (h, .ok rv)
  | m :: ms =>
    match fromMatchObj h s m with
    | (h, .error e) => (h, .error e)
    | (h, .ok itos) =>
      match limit with
      | some n =>
        if ((rv ++ itos).length : Int) ≥ n then (h, .ok (rv ++ itos))
        else fromReObjLoop h s limit (rv ++ itos) ms
      | none => fromReObjLoop h s limit (rv ++ itos) ms

/-- `Ito.from_re(re, src, …, limit)`, `/repo/pawpaw/ito.py:131-180`. -/
def fromReObj (h : Heap) (s : String) (matches_ : List (List (Option String × List Span))) (limit : Option Int) :
    Heap × Except PyErr (List Nat) :=
  match fromReObjLoop h s limit [] matches_ with
  | (h, .error e) => (h, .error e)
  | (h, .ok rv) =>
    match limit with
    | none => (h, .ok rv)
    | some n => (h, .ok (if n > 0 then rv.take n.toNat else []))

end Heap
end Pawpaw
