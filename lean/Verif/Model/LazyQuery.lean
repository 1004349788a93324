import Verif.Model.Lazy
import Verif.Model.Axis
/-!
# Model of queries as the generators they are, over objects in memory

`find_all` is a chain of generators, one per phrase; between two of its items the program that consumes it may change the
tree.  What CPython keeps of it between two calls of `next` is a `Search`; `pull` is one call of `next`, in the memory of
that moment.  (`Verif.Model.Query` models the same code on a tree as a value, where nothing changes.)

Numbers `n` bound the steps of one call: `none` means that they were not enough.
-/
namespace Pawpaw
namespace LazyQuery
open Heap Query

/-- What a call of `next` does: give an item, end, or raise. -/
inductive Out (α σ : Type) where
  | item (y : α) (s : σ)
  | ended
  | raised (e : PyErr)

/-- What `==` and `hash` look at, `/repo/pawpaw/ito.py:519-526` -/
def keyOf (h : Heap) (x : Nat) : Span × Option Nat × Option String × String :=
  ((h.obj x).span, (h.obj x).vf, (h.obj x).desc, (h.obj x).str)

/-- `x == y`, `/repo/pawpaw/ito.py:531-554`, for objects of one class -/
def eqv (h : Heap) (x y : Nat) : Bool := decide (x = y) || decide (keyOf h x = keyOf h y)

/-! ## The objects an axis goes through -/

/-- `x.walk_descendants(reverse)`, `/repo/pawpaw/ito.py:1335-1336`, between two items -/
inductive Walk where
  | fwd (w : List Frame)
  | rev (w : List RFrame)

/-- `x.walk_descendants(reverse)` before the first item -/
def Walk.start (rev : Bool) (x : Nat) : Walk := if rev then .rev [⟨x, none, 0⟩] else .fwd (walkStart x 0)

/-- Its next item -/
def Walk.next (n : Nat) (h : Heap) : Walk → Option (Out Nat Walk)
  | .fwd w =>
    match walkNext h w with
    | none => some .ended
    | some (y, w') => some (.item y.2 (.fwd w'))
  | .rev w =>
    match revNext h n w with
    | none => none
    | some .ended => some .ended
    | some (.raised e) => some (.raised e)
    | some (.item y w') => some (.item y.2 (.rev w'))

/-- The conditions of `'<<<'` and `'>>>'` on a node `j`: `j is i`; `j.start < i.stop`,
`/repo/pawpaw/query/_query.py:200`, `:261-264` -/
inductive Cond where
  | is (i : Nat)
  | before (i : Nat)

/-- Whether the condition holds, now -/
def Cond.holds (h : Heap) (j : Nat) : Cond → Bool
  | .is i => decide (j = i)
  | .before i => decide ((h.span j).start < (h.span i).stop)

/-- What is put over a walk: nothing; `filter(lambda ito: len(ito.children) == 0, …)`
(`/repo/pawpaw/query/_query.py:189`); `takewhile` and `dropwhile` (`:200`, `:261`, `:263`) -/
inductive Sieve where
  | all
  | leaf
  | until (c : Cond)
  | since (c : Cond)

/-- What becomes of an item: the stream ends; it is skipped; it passes, and the sieve goes on as given -/
inductive Verdict where
  | stop
  | skip
  | give (s : Sieve)

/-- `filter`, `takewhile`, `dropwhile` -/
def Sieve.pass (h : Heap) (j : Nat) : Sieve → Verdict
  | .all => .give .all
  | .leaf => if (h.kids j).length = 0 then .give .leaf else .skip
  | .until c => if c.holds h j then .stop else .give (.until c)
  | .since c => if c.holds h j then .skip else .give .all

/-- The iterable given to `to_ecs`, between two items: a list that was made before (`'....'`, `'...'`, `'..'`, `'<<'`,
`'<'`, `'>'`, `'>>'`); `i.children`, `reversed(i.children)` (as in `Verif.Model.Lazy`); a walk, without the objects that
equal one of `anc` (`/repo/pawpaw/query/_query.py:205`) -/
inductive Cand where
  | list (xs : List Nat)
  | kids (p idx : Nat)
  | kidsRev (p : Nat) (left : Option Nat)
  | walk (w : Walk) (s : Sieve) (anc : List Nat)

/-- Its next item -/
def Cand.next : Nat → Heap → Cand → Option (Out Nat Cand)
  | 0, _, _ => none
  | _ + 1, _, .list [] => some .ended
  | _ + 1, _, .list (x :: xs) => some (.item x (.list xs))
  | _ + 1, h, .kids p i =>
    match (h.kids p)[i]? with
    | none => some .ended
    | some c => some (.item c (.kids p (i + 1)))
  | _ + 1, h, .kidsRev p left =>
    match left.getD (h.kids p).length with
    | 0 => some .ended
    | k + 1 =>
      match (h.kids p)[k]? with
      | none => some (.raised .indexError)
      | some c => some (.item c (.kidsRev p (some k)))
  | n + 1, h, .walk w s anc =>
    match w.next n h with
    | none => none
    | some .ended => some .ended
    | some (.raised e) => some (.raised e)
    | some (.item j w') =>
      match s.pass h j with
      | .stop => some .ended
      | .skip => Cand.next n h (.walk w' s anc)
      | .give s' =>
        if anc.any (fun q => eqv h q j) then Cand.next n h (.walk w' s' anc)
        else some (.item j (.walk w' s' anc))

/-! ## `to_ecs` -/

/-- `to_ecs(itos, or_self_ito)`, `/repo/pawpaw/query/_query.py:106-140`, between two items: not begun; the Ito itself has
been given and the first candidate is held (`:115-127`); in the loop, `e` items given (`:129-133`); past it -/
inductive Ecs where
  | start (c : Cand)
  | held (first : Nat) (c : Cand)
  | on (e : Nat) (c : Cand)
  | fin

/-- Its next item, for the axis `a` and `or_self_ito` `s` -/
def Ecs.next (a : Axis) (s : Nat) (n : Nat) (h : Heap) : Ecs → Option (Out (Nat × Nat) Ecs)
  | .start c =>
    if a.orSelf = .always ∧ a.rev = false then
      match c.next n h with
      | none => none
      | some .ended => some (.item (0, s) .fin)
      | some (.raised e) => some (.raised e)
      | some (.item first c') => some (.item (0, s) (.held first c'))
    else loop 0 c
  | .held first c => if first ≠ s then some (.item (1, first) (.on 2 c)) else loop 1 c
  | .on e c => loop e c
  | .fin => some .ended
where
  /-- The loop `/repo/pawpaw/query/_query.py:131-133` and what follows it -/
  loop (e : Nat) (c : Cand) : Option (Out (Nat × Nat) Ecs) :=
    match c.next n h with
    | none => none
    | some (.raised err) => some (.raised err)
    | some (.item x c') => some (.item (e, x) (.on (e + 1) c'))
    | some .ended =>
      if e = 0 then if a.orSelf ≠ .no then some (.item (0, s) .fin) else some .ended
      else if a.orSelf = .always ∧ a.rev = true then some (.item (e, s) .fin)
      else some .ended

/-! ## The axes -/

/-- `while (cur := cur.parent) is not None: ancestors.append(cur)`, `/repo/pawpaw/query/_query.py:156-160` -/
def ancestorsOf : Nat → Heap → Nat → Option (List Nat)
  | 0, _, _ => none
  | n + 1, h, x =>
    match h.parent x with
    | none => some []
    | some p => (ancestorsOf n h p).map (p :: ·)

/-- `p.children.index(i)` (`collections.abc.Sequence.index`) -/
def indexOf (h : Heap) (p i : Nat) : Except PyErr Nat :=
  match (h.kids p).findIdx? (fun c => eqv h c i) with
  | some k => .ok k
  | none => .error .valueError

/-- What the axes with a loop make for one Ito `i`, `/repo/pawpaw/query/_query.py:144-191`, `:210-252`: the argument of
`to_ecs` -/
def cands (n : Nat) (h : Heap) (a : Axis) (i : Nat) : Option (Except PyErr Cand) :=
  match a.key with
  | .root =>
    match h.parent i with
    | none => some (.ok (.list []))
    | some p => (h.getRoot n p).map (fun r => .ok (.list [r]))
  | .ancestors => (ancestorsOf n h i).map (fun l => .ok (.list (if a.rev then l.reverse else l)))
  | .parent => some (.ok (.list (h.parent i).toList))
  | .children => some (.ok (if a.rev then .kidsRev i none else .kids i 0))
  | .descendants => some (.ok (.walk (.start a.rev i) .all []))
  | .leaves => some (.ok (.walk (.start a.rev i) .leaf []))
  | .priors =>
    match h.parent i with
    | none => some (.ok (.list []))
    | some p =>
      match indexOf h p i with
      | .error e => some (.error e)
      | .ok k => some (.ok (.list (if a.rev then (h.kids p).take k else ((h.kids p).take k).reverse)))
  | .prior =>
    match h.parent i with
    | none => some (.ok (.list []))
    | some p =>
      match indexOf h p i with
      | .error e => some (.error e)
      | .ok k => some (.ok (.list (if k > 0 then ((h.kids p)[k - 1]?).toList else [])))
  | .next =>
    match h.parent i with
    | none => some (.ok (.list []))
    | some p =>
      match indexOf h p i with
      | .error e => some (.error e)
      | .ok k => some (.ok (.list (if k + 1 < (h.kids p).length then ((h.kids p)[k + 1]?).toList else [])))
  | .nexts =>
    match h.parent i with
    | none => some (.ok (.list []))
    | some p =>
      match indexOf h p i with
      | .error e => some (.error e)
      | .ok k => some (.ok (.list (if a.rev then ((h.kids p).drop (k + 1)).reverse else (h.kids p).drop (k + 1))))
  | .self | .dedup | .preceding | .following => some (.ok (.list []))

/-- `dropwhile(lambda j: j is not i, …)` with the `next(_iter)` after it, `/repo/pawpaw/query/_query.py:202-203`: the
walk after `i`.  If `i` is not found `next` raises `StopIteration` (which CPython turns into a `RuntimeError` as it leaves
the generator). -/
def skipTo : Nat → Heap → Nat → Walk → Option (Except PyErr Walk)
  | 0, _, _, _ => none
  | n + 1, h, i, w =>
    match w.next n h with
    | none => none
    | some .ended => some (.error .stopIteration)
    | some (.raised e) => some (.error e)
    | some (.item j w') => if j = i then some (.ok w') else skipTo n h i w'

/-- What `'<<<'` and `'>>>'` make of the last Ito after their loop, `/repo/pawpaw/query/_query.py:198-206`,
`:259-264`: the argument of `to_ecs` -/
def tail (n : Nat) (h : Heap) (a : Axis) (i : Nat) : Option (Except PyErr Cand) :=
  match h.getRoot n i with
  | none => none
  | some r =>
    if a.key = .preceding then
      match ancestorsOf n h i with
      | none => none
      | some anc =>
        if a.rev then some (.ok (.walk (.start false r) (.until (.is i)) anc))
        else
          match skipTo n h i (.start true r) with
          | none => none
          | some (.error e) => some (.error e)
          | some (.ok w) => some (.ok (.walk w .all anc))
    else if a.rev then some (.ok (.walk (.start true r) (.until (.before i)) []))
    else some (.ok (.walk (.start false r) (.since (.before i)) []))

/-- `dict.fromkeys(itos)`: the first of each set of equal Itos, in order -/
def dedupObjs (h : Heap) : List Nat → List Nat → List Nat
  | seen, [] => seen
  | seen, x :: xs => if seen.any (fun q => eqv h q x) then dedupObjs h seen xs else dedupObjs h (seen ++ [x]) xs

/-! ## Phrases and queries -/

/-- A phrase: its axis, and `combined(ec, values, predicates)` (`/repo/pawpaw/query/_query.py:590-591`) as a function of
the memory it is called in, the number and the object. -/
structure LPhrase where
  axis : Axis
  test : Heap → Nat → Nat → Except PyErr Bool

/-- What is kept of `find_all` between two items: a list still to be given (the `[ito]` the first phrase gets, or what
`'><'` made); a phrase whose axis has a loop, with the Ito it is at; a phrase with the axis `'.'`, `e` items asked for; a
phrase with the axis `'><'`, `'<<<'` or `'>>>'` that is still reading its input. -/
inductive Search where
  | list (xs : List Nat)
  | loop (ph : LPhrase) (src : Search) (cur : Option (Nat × Ecs))
  | self (ph : LPhrase) (src : Search) (e : Nat)
  | gather (ph : LPhrase) (src : Search) (acc : List Nat)

/-- `phrase.find_all(cur, …)` before its first item, `/repo/pawpaw/query/_query.py:593-600` -/
def enter (src : Search) (ph : LPhrase) : Search :=
  match ph.axis.key with
  | .self => .self ph src 0
  | .dedup | .preceding | .following => .gather ph src []
  | _ => .loop ph src none

/-- `query.find_all(ito)` before its first item, `/repo/pawpaw/query/_query.py:678-687` -/
def begin (phs : List LPhrase) (x : Nat) : Search := phs.foldl enter (.list [x])

/-- One call of `next`, `/repo/pawpaw/query/_query.py:142-269`, `:593-600` -/
def pull : Nat → Heap → Search → Option (Out Nat Search)
  | 0, _, _ => none
  | _ + 1, _, .list [] => some .ended
  | _ + 1, _, .list (x :: xs) => some (.item x (.list xs))
  | n + 1, h, .loop ph src none =>
    match pull n h src with
    | none => none
    | some .ended => some .ended
    | some (.raised e) => some (.raised e)
    | some (.item i src') =>
      match cands n h ph.axis i with
      | none => none
      | some (.error e) => some (.raised e)
      | some (.ok c) => pull n h (.loop ph src' (some (i, .start c)))
  | n + 1, h, .loop ph src (some (i, s)) =>
    match s.next ph.axis i n h with
    | none => none
    | some .ended => pull n h (.loop ph src none)
    | some (.raised e) => some (.raised e)
    | some (.item (e, x) s') =>
      match ph.test h e x with
      | .error err => some (.raised err)
      | .ok true => some (.item x (.loop ph src (some (i, s'))))
      | .ok false => pull n h (.loop ph src (some (i, s')))
  | n + 1, h, .self ph src e =>
    match pull n h src with
    | none => none
    | some .ended => some .ended
    | some (.raised err) => some (.raised err)
    | some (.item x src') =>
      match ph.test h e x with
      | .error err => some (.raised err)
      | .ok true => some (.item x (.self ph src' (e + 1)))
      | .ok false => pull n h (.self ph src' (e + 1))
  | n + 1, h, .gather ph src acc =>
    match pull n h src with
    | none => none
    | some (.raised e) => some (.raised e)
    | some (.item x src') =>
      if ph.axis.key ≠ .dedup ∧ h.parent x = none then
        pull n h (.loop ph (.list []) (some (x, .start (.list []))))
      else pull n h (.gather ph src' (acc ++ [x]))
    | some .ended =>
      if ph.axis.key = .dedup then
        pull n h (.self ph (.list (if ph.axis.rev then (dedupObjs h [] acc).reverse else dedupObjs h [] acc)) 0)
      else
        match acc.getLast? with
        | none => some (.raised .nameError)
        | some i =>
          match tail n h ph.axis i with
          | none => none
          | some (.error e) => some (.raised e)
          | some (.ok c) => pull n h (.loop ph (.list []) (some (i, .start c)))

/-- `for x in query.find_all(…): body(x)`: the objects visited, the exception that ended the loop, and the memory it
leaves; `none` if `n` steps were not enough. -/
def forFound (body : Heap → Nat → Res) : Nat → Heap → Search → Option (List Nat × Option PyErr × Heap)
  | 0, _, _ => none
  | n + 1, h, c =>
    match pull n h c with
    | none => none
    | some .ended => some ([], none, h)
    | some (.raised e) => some ([], some e, h)
    | some (.item x c') =>
      match body h x with
      | (h', .error e) => some ([x], some e, h')
      | (h', .ok ()) =>
        match forFound body n h' c' with
        | none => none
        | some (xs, e, h'') => some (x :: xs, e, h'')

/-- `[*query.find_all(…)]`: its elements, or those found before an exception -/
def listFound (n : Nat) (h : Heap) (c : Search) : Option (List Nat × Option PyErr) :=
  (forFound (fun h _ => (h, .ok ())) n h c).map (fun r => (r.1, r.2.1))

/-- `x.desc = d`: a plain attribute, `/repo/pawpaw/ito.py:91` -/
def setDesc (d : Option String) (h : Heap) (x : Nat) : Res := (h.upd x (fun o => { o with desc := d }), .ok ())

end LazyQuery
end Pawpaw
