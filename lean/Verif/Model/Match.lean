import Verif.Model.Tree
/-!
# Model of `GroupKeys`, `Ito.from_match`, `Ito.from_re`

The regex engine is external: a match is given by the spans of each selected group.
-/
namespace Pawpaw
namespace Match

/-- A selected group capture: its span and the desc `desc_func(match, gk)`. -/
abbrev Entry := Span × Option String

/-- Sort key order `(val[0][0], -val[0][1])`, `/repo/pawpaw/ito.py:118`: `a`'s key `≤` `b`'s. -/
def keyLe (a b : Entry) : Bool :=
  decide (a.1.start < b.1.start) || (decide (a.1.start = b.1.start) && decide (-a.1.stop ≤ -b.1.stop))

/-- Insert before the first element with a strictly larger key. -/
def insertEntry (x : Entry) : List Entry → List Entry
  | [] => [x]
  | y :: ys => if keyLe x y then x :: y :: ys else y :: insertEntry x ys

/-- Python's stable `sorted(…, key=…)`. -/
def sortEntries : List Entry → List Entry
  | [] => []
  | x :: xs => insertEntry x (sortEntries xs)

/-- `((span, gk) for gk in group_keys for span in match.spans(gk))`, `/repo/pawpaw/ito.py:117`: one pair
(desc, spans) per selected group key. -/
def entries (groups : List (Option String × List Span)) : List Entry :=
  groups.flatMap fun g => g.2.map fun s => (s, g.1)

/-- An element of `path_stack` (`/repo/pawpaw/ito.py:115`): an Ito under construction.  `left`/`right`
are its children before/after the place of the stack element above it (a zipper, since that child is
still being filled). -/
structure Frame where
  span : Span
  desc : Option String
  left : List Node
  right : List Node

namespace Frame
/-- The finished Ito. -/
def close (f : Frame) : Node := .mk f.span f.desc none (f.left ++ f.right)
/-- Put a finished child into its place. -/
def absorb (f : Frame) : Option Node → Frame
  | none => f
  | some n => { f with left := f.left ++ [n] }
end Frame

/-- `while len(path_stack) > 0 and (ito.start < path_stack[-1].start or ito.stop > path_stack[-1].stop):
path_stack.pop()`, `/repo/pawpaw/ito.py:120-121`.  `c` is the popped Ito still to be put back into its
parent; a popped Ito without parent is one of `match_itos` (`roots`). -/
def popWhile (s : Span) : Option Node → List Frame → List Node → List Frame × List Node
  | c, [], roots => ([], roots ++ c.toList)
  | c, f :: rest, roots =>
    let f' := f.absorb c
    if s.start < f.span.start ∨ s.stop > f.span.stop then popWhile s (some f'.close) rest roots
    else (f' :: rest, roots)

/-- Close everything at the end of the loop. -/
def closeAll : Option Node → List Frame → List Node → List Node
  | c, [], roots => roots ++ c.toList
  | c, f :: rest, roots => closeAll (some (f.absorb c).close) rest roots

/-- The loop body, `/repo/pawpaw/ito.py:118-127`; `len` is the length of `match.string`. -/
def step (len : Nat) (e : Entry) (stack : List Frame) (roots : List Node) :
    Except PyErr (List Frame × List Node) :=
  let sp := Span.fromIndices len (some e.1.start) (some e.1.stop)
  match popWhile sp none stack roots with
  | ([], roots) => .ok ([⟨sp, e.2, [], []⟩], roots)
  | (f :: rest, roots) =>
    let kids := f.left ++ f.right
    let spans := kids.map Node.span
    let i := Kids.bfindStart spans sp
    if i ≥ 0 then .error .valueError
    else
      let i := (-i - 1).toNat
      if Kids.notBetween spans sp i i then .error .valueError
      else if Kids.outside f.span sp then .error .valueError
      else .ok (⟨sp, e.2, [], []⟩ :: { f with left := kids.take i, right := kids.drop i } :: rest, roots)

/-- The `for` loop over the sorted entries. -/
def loop (len : Nat) : List Entry → List Frame → List Node → Except PyErr (List Node)
  | [], stack, roots => .ok (closeAll none stack roots)
  | e :: es, stack, roots =>
    match step len e stack roots with
    | .error x => .error x
    | .ok (stack, roots) => loop len es stack roots

/-- `Ito.from_match(match, desc_func, group_keys)`, `/repo/pawpaw/ito.py:98-129`. -/
def fromMatch (len : Nat) (groups : List (Option String × List Span)) : Except PyErr (List Node) :=
  loop len (sortEntries (entries groups)) [] []

/-- The loop of `from_re`, `/repo/pawpaw/ito.py:171-175`, over the matches in `src`. -/
def fromReLoop (len : Nat) (limit : Option Int) (rv : List Node) :
    List (List (Option String × List Span)) → Except PyErr (List Node)
  | [] => .ok rv
  | m :: ms =>
    match fromMatch len m with
    | .error e => .error e
    | .ok itos =>
      match limit with
      | some n =>
        if ((rv ++ itos).length : Int) ≥ n then .ok (rv ++ itos)
        else fromReLoop len limit (rv ++ itos) ms
      | none => fromReLoop len limit (rv ++ itos) ms

/-- `Ito.from_re(re, src, …, limit)`, `/repo/pawpaw/ito.py:131-180`.  (`rv[:limit]` for `limit > 0`.) -/
def fromRe (len : Nat) (matches_ : List (List (Option String × List Span))) (limit : Option Int) :
    Except PyErr (List Node) :=
  match fromReLoop len limit [] matches_ with
  | .error e => .error e
  | .ok rv =>
    match limit with
    | none => .ok rv
    | some n => if n > 0 then .ok (rv.take n.toNat) else .ok []

/-! ## `GroupKeys` -/

/-- A group key: a name or an index (`Types.C_GK`, `/repo/pawpaw/ito.py:1648`), as used at
`/repo/pawpaw/ito.py:21-65`. -/
inductive GK where
  | name (s : String)
  | idx (i : Int)
  deriving DecidableEq, Repr

/-- A compiled pattern: number of groups and `groupindex` (name → index, in dict order).  The regex
engine guarantees names are distinct keys with indices `1 … groups`. -/
structure Pat where
  groups : Nat
  groupindex : List (String × Nat)

/-- `GroupKeys.preferred(re)`, `/repo/pawpaw/ito.py:22-29`. -/
def preferred (re : Pat) : List GK :=
  re.groupindex.foldl (fun rv p => rv.set p.2 (.name p.1))
    ((List.range (re.groups + 1)).map fun (i : Nat) => GK.idx (i : Int))

/-- The loop of `GroupKeys.from_filter`, `/repo/pawpaw/ito.py:38-43`. -/
def fromFilterLoop (filter : GK → Bool) : Nat → List GK → List GK
  | _, [] => []
  | i, gk :: gks =>
    if filter gk then gk :: fromFilterLoop filter (i + 1) gks
    else if filter (.idx i) then .idx i :: fromFilterLoop filter (i + 1) gks
    else fromFilterLoop filter (i + 1) gks

/-- `GroupKeys.from_filter(match, None, filter)`, `/repo/pawpaw/ito.py:31-44`. -/
def fromFilter (re : Pat) (filter : GK → Bool) : List GK := fromFilterLoop filter 0 (preferred re)

/-- Index denoted by a key, `/repo/pawpaw/ito.py:53-60`; `none` when it is not present. -/
def gkIndex (re : Pat) : GK → Option Nat
  | .name n => re.groupindex.lookup n
  | .idx i => if 0 ≤ i ∧ i < (re.groups : Int) + 1 then some i.toNat else none

/-- The loop of `GroupKeys.validate`, `/repo/pawpaw/ito.py:52-65`; `tmp` is the table of keys seen. -/
def validateLoop (re : Pat) : List (Option GK) → List GK → Except PyErr Unit
  | _, [] => .ok ()
  | tmp, gk :: gks =>
    match gkIndex re gk with
    | none => .error .valueError
    | some i =>
      match tmp[i]? with
      | some none => validateLoop re (tmp.set i (some gk)) gks
      | some (some _) => .error .valueError
      | none => .error .indexError

/-- `GroupKeys.validate(re, group_keys)`, `/repo/pawpaw/ito.py:46-65` (it returns `None`). -/
def validate (re : Pat) (gks : List GK) : Except PyErr Unit :=
  validateLoop re (List.replicate (re.groups + 1) none) gks

end Match
end Pawpaw
