import Verif.Model.MatchHeap
import Verif.Spec.Made
import Verif.Props.CloneHeap
import Verif.Props.Match
/-!
# C18, C19: `from_match` and `from_re` on objects
-/
set_option linter.unusedSectionVars false
set_option linter.unusedSimpArgs false
namespace Pawpaw.Props
open TreeSpec HeapSpec Heap Match

theorem looksAll_append {h : Heap} : ∀ {xs ys : List Nat} {ts us : List Node}, LooksAll h xs ts → LooksAll h ys us →
    LooksAll h (xs ++ ys) (ts ++ us)
  | [], _, [], _, _, b => by simpa using b
  | [], _, _ :: _, _, a, _ => by simp [LooksAll] at a
  | _ :: _, _, [], _, a, _ => by simp [LooksAll] at a
  | x :: xs, ys, t :: ts, us, a, b => by
    rw [LooksAll] at a
    rw [List.cons_append, List.cons_append, LooksAll]
    exact ⟨a.1, looksAll_append a.2 b⟩

theorem looksAll_take {h : Heap} : ∀ {xs : List Nat} {ts : List Node} (i : Nat), LooksAll h xs ts →
    LooksAll h (xs.take i) (ts.take i)
  | [], [], i, _ => by simp [LooksAll]
  | [], _ :: _, _, a => by simp [LooksAll] at a
  | _ :: _, [], _, a => by simp [LooksAll] at a
  | x :: xs, t :: ts, i, a => by
    cases i with
    | zero => simp [LooksAll]
    | succ i =>
      rw [LooksAll] at a
      rw [List.take_succ_cons, List.take_succ_cons, LooksAll]
      exact ⟨a.1, looksAll_take i a.2⟩

theorem looksAll_drop {h : Heap} : ∀ {xs : List Nat} {ts : List Node} (i : Nat), LooksAll h xs ts →
    LooksAll h (xs.drop i) (ts.drop i)
  | [], [], i, _ => by simp [LooksAll]
  | [], _ :: _, _, a => by simp [LooksAll] at a
  | _ :: _, [], _, a => by simp [LooksAll] at a
  | x :: xs, t :: ts, i, a => by
    cases i with
    | zero => simpa using a
    | succ i =>
      rw [LooksAll] at a
      rw [List.drop_succ_cons, List.drop_succ_cons]
      exact looksAll_drop i a.2

theorem looksAll_length {h : Heap} {xs : List Nat} {ts : List Node} (a : LooksAll h xs ts) : xs.length = ts.length := by
  have := congrArg List.length (looksAll_spans ts xs a)
  simpa using this.symm

/-- The path stack (last element first) and the zipper frames of the value model describe the same unfinished trees.
`S` are the objects of the whole stack, `c` the object of the element above. -/
def Chain (s : String) (b : Nat) (h : Heap) (S : List Nat) : Option Nat → List Nat → List Frame → Prop
  | _, [], [] => True
  | c, x :: xs, f :: fs => (b ≤ x ∧ x < h.next) ∧ h.span x = f.span ∧ (h.obj x).desc = f.desc ∧ (h.obj x).vf = none ∧
      h.str x = s ∧ h.parent x = xs.head? ∧
      (∃ L R, h.kids x = L ++ c.toList ++ R ∧ LooksAll h L f.left ∧ LooksAll h R f.right ∧ ∀ l ∈ L ++ R, l ∉ S) ∧
      Chain s b h S (some x) xs fs
  | _, _, _ => False

theorem Chain.sub {s b h S S'} (hS : ∀ l ∈ S', l ∈ S) : ∀ {c : Option Nat} {xs : List Nat} {fs : List Frame},
    Chain s b h S c xs fs → Chain s b h S' c xs fs
  | _, [], [], _ => by simp [Chain]
  | _, _ :: _, [], hc => by simp [Chain] at hc
  | _, [], _ :: _, hc => by simp [Chain] at hc
  | c, x :: xs, f :: fs, hc => by
    rw [Chain] at hc ⊢
    obtain ⟨a1, a2, a3, a4, a5, a6, ⟨L, R, b1, b2, b3, b4⟩, a7⟩ := hc
    exact ⟨a1, a2, a3, a4, a5, a6, ⟨L, R, b1, b2, b3, fun l hl hm => b4 l hl (hS l hm)⟩, Chain.sub hS a7⟩

/-- The closed frame. -/
theorem Chain.close {s b h S c x xs f fs} (hc : Chain s b h S c (x :: xs) (f :: fs)) {n : Option Node}
    (hn : LooksAll h c.toList n.toList) : Looks h x (f.absorb n).close := by
  rw [Chain] at hc
  obtain ⟨a1, a2, a3, a4, a5, a6, ⟨L, R, b1, b2, b3, b4⟩, a7⟩ := hc
  cases n with
  | none =>
    cases c with
    | some c => simp [LooksAll] at hn
    | none =>
      rw [Frame.absorb, Frame.close, Looks]
      refine ⟨a2, a3, a4, ?_⟩
      rw [b1]
      simpa using looksAll_append b2 b3
  | some n =>
    cases c with
    | none => simp [LooksAll] at hn
    | some c =>
      rw [Frame.absorb, Frame.close, Looks]
      refine ⟨a2, a3, a4, ?_⟩
      rw [b1]
      exact looksAll_append (looksAll_append b2 hn) b3

/-- The element above the stack is finished and put into its place. -/
theorem Chain.absorb {s b h S c x xs f fs} (hc : Chain s b h S c (x :: xs) (f :: fs)) {n : Option Node}
    (hn : LooksAll h c.toList n.toList) (hcS : ∀ y ∈ c.toList, y ∉ S) : Chain s b h S none (x :: xs) (f.absorb n :: fs) := by
  rw [Chain] at hc ⊢
  obtain ⟨a1, a2, a3, a4, a5, a6, ⟨L, R, b1, b2, b3, b4⟩, a7⟩ := hc
  cases n with
  | none =>
    cases c with
    | some c => simp [LooksAll] at hn
    | none => exact ⟨a1, a2, a3, a4, a5, a6, ⟨L, R, b1, b2, b3, b4⟩, a7⟩
  | some n =>
    cases c with
    | none => simp [LooksAll] at hn
    | some c =>
      refine ⟨a1, a2, a3, a4, a5, a6, ⟨L ++ [c], R, by simpa using b1, looksAll_append b2 hn, b3, ?_⟩, a7⟩
      intro l hl
      simp only [List.mem_append, List.mem_singleton] at hl
      rcases hl with (hl | rfl) | hl
      · exact b4 l (by simp [hl])
      · exact hcS _ (by simp)
      · exact b4 l (by simp [hl])

theorem popStack_spec {s : String} {b : Nat} {h : Heap} {sp : Span} : ∀ {xs : List Nat} {fs : List Frame}
    {c : Option Nat} {n : Option Node} {rids : List Nat} {roots : List Node}, xs.Nodup →
    Chain s b h xs c xs fs → LooksAll h c.toList n.toList → (∀ y ∈ c.toList, y ∉ xs) → LooksAll h rids roots →
    ∃ rids', LooksAll h rids' (popWhile sp n fs roots).2 ∧
      rids' ++ (popStack h sp xs).getLast?.toList = rids ++ (xs.getLast?.or c).toList ∧
      (popStack h sp xs).Nodup ∧ (∀ x ∈ popStack h sp xs, x ∈ xs) ∧
      Chain s b h (popStack h sp xs) none (popStack h sp xs) (popWhile sp n fs roots).1
  | [], [], c, n, rids, roots, _, _, hn, _, hr => by
    refine ⟨rids ++ c.toList, ?_, ?_, ?_, ?_, ?_⟩ <;> simp only [popWhile, popStack]
    · exact looksAll_append hr hn
    · simp
    · simp
    · simp
    · simp [Chain]
  | _ :: _, [], _, _, _, _, _, hc, _, _, _ => by simp [Chain] at hc
  | [], _ :: _, _, _, _, _, _, hc, _, _, _ => by simp [Chain] at hc
  | x :: xs, f :: fs, c, n, rids, roots, hd, hc, hn, hcx, hr => by
    have e : h.span x = f.span := by rw [Chain] at hc; exact hc.2.1
    rw [popStack, popWhile, e]
    obtain ⟨d1, d2⟩ := List.nodup_cons.mp hd
    by_cases hout : sp.start < f.span.start ∨ sp.stop > f.span.stop
    · rw [if_pos hout, if_pos hout]
      have hcl := hc.close hn
      have hc' : Chain s b h xs (some x) xs fs := by
        rw [Chain] at hc
        exact Chain.sub (fun l hl => by simp [hl]) hc.2.2.2.2.2.2.2
      obtain ⟨rids', r1, r2, r3, r4, r5⟩ := popStack_spec (sp := sp) (rids := rids) (roots := roots)
        (n := some (f.absorb n).close) d2 hc' (by simpa [LooksAll] using hcl)
        (by intro y hy; simp at hy; subst hy; exact d1) hr
      refine ⟨rids', r1, ?_, r3, fun y hy => by simp [r4 y hy], r5⟩
      rw [r2]
      congr 2
      cases xs with
      | nil => simp
      | cons y ys =>
        rw [List.getLast?_cons_cons]
        cases hg : (y :: ys).getLast? with
        | none => simp at hg
        | some z => rfl
    · rw [if_neg hout, if_neg hout]
      refine ⟨rids, hr, ?_, hd, fun y hy => hy, hc.absorb hn hcx⟩
      congr 2

theorem closeAll_looks {s : String} {b : Nat} {h : Heap} : ∀ {xs : List Nat} {fs : List Frame}
    {c : Option Nat} {n : Option Node} {rids : List Nat} {roots : List Node}, xs.Nodup →
    Chain s b h xs c xs fs → LooksAll h c.toList n.toList → LooksAll h rids roots →
    LooksAll h (rids ++ (xs.getLast?.or c).toList) (closeAll n fs roots)
  | [], [], c, n, rids, roots, _, _, hn, hr => by
    simp only [closeAll]
    exact looksAll_append hr (by simpa using hn)
  | _ :: _, [], _, _, _, _, _, hc, _, _ => by simp [Chain] at hc
  | [], _ :: _, _, _, _, _, _, hc, _, _ => by simp [Chain] at hc
  | x :: xs, f :: fs, c, n, rids, roots, hd, hc, hn, hr => by
    rw [closeAll]
    obtain ⟨d1, d2⟩ := List.nodup_cons.mp hd
    have hcl := hc.close hn
    have hc' : Chain s b h xs (some x) xs fs := by
      rw [Chain] at hc
      exact Chain.sub (fun l hl => by simp [hl]) hc.2.2.2.2.2.2.2
    have := closeAll_looks (n := some (f.absorb n).close) (rids := rids) (roots := roots) d2 hc'
      (by simpa [LooksAll] using hcl) hr
    have e : ((x :: xs).getLast?.or c) = (xs.getLast?.or (some x)) := by
      cases xs with
      | nil => simp
      | cons y ys =>
        rw [List.getLast?_cons_cons]
        cases hg : (y :: ys).getLast? with
        | none => simp at hg
        | some z => rfl
    rw [e]
    exact this

theorem Chain.parent_mem {s b h S} : ∀ {c : Option Nat} {xs : List Nat} {fs : List Frame}, Chain s b h S c xs fs →
    ∀ y ∈ xs, ∀ p, h.parent y = some p → p ∈ xs
  | _, [], _, _, y, hy, _, _ => by simp at hy
  | _, _ :: _, [], hc, _, _, _, _ => by simp [Chain] at hc
  | c, x :: xs, f :: fs, hc, y, hy, p, hp => by
    rw [Chain] at hc
    obtain ⟨a1, a2, a3, a4, a5, a6, -, a7⟩ := hc
    rcases List.mem_cons.mp hy with rfl | hy
    · rw [a6] at hp
      exact List.mem_cons_of_mem _ (List.mem_of_head? hp)
    · exact List.mem_cons_of_mem _ (a7.parent_mem y hy p hp)

theorem Chain.range {s b h S} : ∀ {c : Option Nat} {xs : List Nat} {fs : List Frame}, Chain s b h S c xs fs →
    ∀ y ∈ xs, b ≤ y ∧ y < h.next ∧ h.str y = s
  | _, [], _, _, y, hy => by simp at hy
  | _, _ :: _, [], hc, _, _ => by simp [Chain] at hc
  | c, x :: xs, f :: fs, hc, y, hy => by
    rw [Chain] at hc
    rcases List.mem_cons.mp hy with rfl | hy
    · exact ⟨hc.1.1, hc.1.2, hc.2.2.2.2.1⟩
    · exact hc.2.2.2.2.2.2.2.range y hy

/-- The lower part of the chain is not touched by changes to objects that are not in it, as long as the finished
trees keep their looks. -/
theorem Chain.frame {s b h h'} {S S' : List Nat} (hnx : h.next ≤ h'.next) (hS : ∀ l ∈ S', l < h.next → l ∈ S)
    (hok : OK h)
    (hlooks : ∀ xs ts, (∀ x ∈ xs, x < h.next ∧ x ∉ S) → LooksAll h xs ts → LooksAll h' xs ts) :
    ∀ {c : Option Nat} {xs : List Nat} {fs : List Frame}, (∀ x ∈ xs, h'.obj x = h.obj x) →
    Chain s b h S c xs fs → Chain s b h' S' c xs fs
  | _, [], [], _, _ => by simp [Chain]
  | _, _ :: _, [], _, hc => by simp [Chain] at hc
  | _, [], _ :: _, _, hc => by simp [Chain] at hc
  | c, x :: xs, f :: fs, hx, hc => by
    rw [Chain] at hc ⊢
    obtain ⟨a1, a2, a3, a4, a5, a6, ⟨L, R, b1, b2, b3, b4⟩, a7⟩ := hc
    have e := hx x (by simp)
    have hlt : ∀ l ∈ L ++ R, l < h.next := fun l hl => (hok.kidParent x a1.2 l (by
      rw [b1]; simp only [List.mem_append] at hl ⊢; rcases hl with hl | hl <;> simp [hl])).1
    refine ⟨⟨a1.1, by omega⟩, by unfold Heap.span at *; rw [e]; exact a2, by rw [e]; exact a3, by rw [e]; exact a4,
      by unfold Heap.str at *; rw [e]; exact a5, by unfold Heap.parent at *; rw [e]; exact a6,
      ⟨L, R, by unfold Heap.kids at *; rw [e]; exact b1, ?_, ?_, ?_⟩,
      a7.frame hnx hS hok hlooks (fun y hy => hx y (by simp [hy]))⟩
    · exact hlooks L _ (fun l hl => ⟨hlt l (by simp [hl]), b4 l (by simp [hl])⟩) b2
    · exact hlooks R _ (fun l hl => ⟨hlt l (by simp [hl]), b4 l (by simp [hl])⟩) b3
    · intro l hl hm
      exact b4 l hl (hS l hm (hlt l hl))

/-- The state of the loop of `from_match`. -/
structure LoopOK (s : String) (h0 h : Heap) (stack mids : List Nat) (fs : List Frame) (rs : List Node) : Prop where
  next : h0.next ≤ h.next
  old : ∀ i < h0.next, h.obj i = h0.obj i
  ok : OK h
  acyclic : Acyclic h
  nodup : stack.Nodup
  chain : Chain s h0.next h stack none stack fs
  roots : ∃ rids, mids = rids ++ stack.getLast?.toList ∧ LooksAll h rids rs ∧ ∀ r ∈ rids, r ∉ stack
  fresh : ∀ i ∈ mids, h0.next ≤ i ∧ i < h.next
  root : ∀ i ∈ mids, h.parent i = none
  str : ∀ i ∈ mids, h.str i = s
  midsNodup : mids.Nodup

theorem LoopOK.init {s : String} {h : Heap} (hok : OK h) (hac : Acyclic h) : LoopOK s h h [] [] [] [] where
  next := Nat.le_refl _
  old _ _ := rfl
  ok := hok
  acyclic := hac
  nodup := by simp
  chain := by simp [Chain]
  roots := ⟨[], by simp [LooksAll]⟩
  fresh := by simp
  root := by simp
  str := by simp
  midsNodup := by simp

theorem LoopOK.finish {s : String} {h0 h : Heap} {stack mids : List Nat} {fs : List Frame} {roots : List Node}
    (a : LoopOK s h0 h stack mids fs roots) : Made s h0 h mids (closeAll none fs roots) where
  next := a.next
  old := a.old
  ok := a.ok
  acyclic := a.acyclic
  fresh := a.fresh
  root := a.root
  str := a.str
  nodup := a.midsNodup
  looks := by
    obtain ⟨rids, e, hl, -⟩ := a.roots
    rw [e]
    simpa using closeAll_looks (n := none) (rids := rids) (roots := roots) a.nodup a.chain (by simp [LooksAll]) hl

theorem new_acyclic {h : Heap} (hok : OK h) (hac : Acyclic h) (s : String) (i j : Option Int) (d : Option String) :
    Acyclic (h.new s i j d) :=
  run_acyclic (op := .new s i j d) hok (by simp [Op.ids]) hac trivial

theorem new_obj_lt (h : Heap) (s : String) (i j : Option Int) (d : Option String) {y : Nat} (hy : y < h.next) :
    (h.new s i j d).obj y = h.obj y := by
  unfold Heap.new; dsimp only; rw [if_neg (by omega)]

theorem new_obj_next (h : Heap) (s : String) (i j : Option Int) (d : Option String) :
    (h.new s i j d).obj h.next = ⟨s, Span.fromIndices s.length i j, d, none, none, []⟩ := by
  unfold Heap.new; simp

theorem looksAll_of_obj {h h' : Heap} (hok : OK h) (hobj : ∀ y < h.next, h'.obj y = h.obj y) {xs : List Nat}
    {ts : List Node} (hx : ∀ x ∈ xs, x < h.next) (hl : LooksAll h xs ts) : LooksAll h' xs ts :=
  looksAll_frame (fun p => p < h.next) (fun p hp c hc => (hok.kidParent p hp c hc).1)
    (fun p hp => by unfold Heap.span Heap.kids; rw [hobj p hp]; exact ⟨rfl, rfl, rfl, rfl⟩) ts xs hx hl

theorem popStack_new (h : Heap) (s : String) (i j : Option Int) (d : Option String) (sp : Span) : ∀ xs : List Nat,
    (∀ x ∈ xs, x < h.next) → popStack (h.new s i j d) sp xs = popStack h sp xs
  | [], _ => rfl
  | x :: xs, hx => by
    have e : (h.new s i j d).span x = h.span x := by
      unfold Heap.span; rw [new_obj_lt _ _ _ _ _ (hx x (by simp))]
    rw [popStack, popStack, e, popStack_new h s i j d sp xs (fun y hy => hx y (by simp [hy]))]

theorem matchStep_spec {s : String} {h0 h : Heap} {stack mids : List Nat} {fs : List Frame} {roots : List Node}
    (a : LoopOK s h0 h stack mids fs roots) (e : Entry) :
    (∃ er h1, step s.length e fs roots = .error er ∧ matchStep h s e stack mids = (h1, .error er)) ∨
    ∃ fs' roots' h1 stack' mids', step s.length e fs roots = .ok (fs', roots') ∧
      matchStep h s e stack mids = (h1, .ok (stack', mids')) ∧ LoopOK s h0 h1 stack' mids' fs' roots' := by
  obtain ⟨rids, hm, hl, hrS⟩ := a.roots
  generalize hsp : Span.fromIndices s.length (some e.1.start) (some e.1.stop) = sp
  generalize hh : h.new s (some e.1.start) (some e.1.stop) e.2 = h1
  have hlt : ∀ y < h.next, h1.obj y = h.obj y := fun y hy => by rw [← hh]; exact new_obj_lt h _ _ _ _ hy
  have hnew : h1.obj h.next = ⟨s, sp, e.2, none, none, []⟩ := by rw [← hh, ← hsp]; exact new_obj_next h _ _ _ _
  have hn1 : h1.next = h.next + 1 := by rw [← hh]; rfl
  have hok1 : OK h1 := by rw [← hh]; exact ok_new a.ok _ _ _ _
  have hac1 : Acyclic h1 := by rw [← hh]; exact new_acyclic a.ok a.acyclic _ _ _ _
  have hst := fun y hy => (a.chain.range y hy)
  obtain ⟨rids', p1, p2, p3, p4, p5⟩ := popStack_spec (sp := sp) (c := none) (n := none) (rids := rids) (roots := roots)
    a.nodup a.chain (by simp [LooksAll]) (by simp) hl
  have hpop : popStack h1 (h1.span h.next) stack = popStack h sp stack := by
    rw [← hh, popStack_new _ _ _ _ _ _ _ (fun x hx => (hst x hx).2.1), hh]
    unfold Heap.span at *; rw [hnew]
  have hmids : rids' ++ (popStack h sp stack).getLast?.toList = mids := by rw [p2, hm]; simp
  unfold step matchStep
  dsimp only
  rw [hh, hsp, hpop]
  generalize popWhile sp none fs roots = q at *
  obtain ⟨fs1, roots1⟩ := q
  have hrl : ∀ r ∈ rids', r < h.next := fun r hr => (a.fresh r (by rw [← hmids]; simp [hr])).2
  have hpar1 : ∀ y < h.next, h1.parent y = h.parent y := fun y hy => by unfold Heap.parent; rw [hlt y hy]
  have hstr1 : ∀ y < h.next, h1.str y = h.str y := fun y hy => by unfold Heap.str; rw [hlt y hy]
  have anext := a.next
  have hlook1 : ∀ xs ts, (∀ x ∈ xs, x < h.next) → LooksAll h xs ts → LooksAll h1 xs ts :=
    fun xs ts hx hl => looksAll_of_obj a.ok hlt hx hl
  cases hps : popStack h sp stack with
  | nil =>
    rw [hps] at p5 hmids
    simp only [List.getLast?_nil, Option.toList_none, List.append_nil] at hmids
    subst hmids
    cases fs1 with
    | cons f fs1 => simp [Chain] at p5
    | nil =>
      right
      refine ⟨_, _, _, _, _, rfl, rfl, ?_⟩
      exact {
        next := by omega
        old := fun i hi => by rw [hlt i (by omega)]; exact a.old i hi
        ok := hok1
        acyclic := hac1
        nodup := by simp
        chain := by
          rw [Chain]
          refine ⟨⟨by omega, by omega⟩, ?_, ?_, ?_, ?_, ?_, ⟨[], [], ?_, ?_, ?_, ?_⟩, ?_⟩
          · unfold Heap.span; rw [hnew]
          · rw [hnew]
          · rw [hnew]
          · unfold Heap.str; rw [hnew]
          · unfold Heap.parent; rw [hnew]; rfl
          · unfold Heap.kids; rw [hnew]; rfl
          · simp [LooksAll]
          · simp [LooksAll]
          · simp
          · simp [Chain]
        roots := ⟨rids', by simp, hlook1 _ _ hrl p1, fun r hr hm => by
          have := hrl r hr; simp at hm; omega⟩
        fresh := fun i hi => by
          rcases List.mem_append.mp hi with hi | hi
          · have := a.fresh i hi; omega
          · simp at hi; omega
        root := fun i hi => by
          rcases List.mem_append.mp hi with hi | hi
          · rw [hpar1 i (a.fresh i hi).2]; exact a.root i hi
          · simp at hi; subst hi; unfold Heap.parent; rw [hnew]
        str := fun i hi => by
          rcases List.mem_append.mp hi with hi | hi
          · rw [hstr1 i (a.fresh i hi).2]; exact a.str i hi
          · simp at hi; subst hi; unfold Heap.str; rw [hnew]
        midsNodup := by
          rw [List.nodup_append]
          refine ⟨a.midsNodup, by simp, fun x hx y hy => ?_⟩
          have := hrl x hx
          simp at hy; omega }
  | cons x rest =>
    rw [hps] at p3 p4 p5 hmids
    cases fs1 with
    | nil => simp [Chain] at p5
    | cons f fs1 =>
      dsimp only
      obtain ⟨x1, x2, x3⟩ := p5.range x (by simp)
      have p5' := p5
      rw [Chain] at p5
      obtain ⟨c1, c2, c3, c4, c5, c6, ⟨L, R, d1, d2, d3, d4⟩, c7⟩ := p5
      have hkx : h1.kids x = L ++ R := by
        unfold Heap.kids at *; rw [hlt x x2, d1]; simp
      have hLR : ∀ l ∈ L ++ R, l < h.next := fun l hl => (a.ok.kidParent x x2 l (by rw [d1]; simpa using hl)).1
      have hks : h1.kidSpans x = (f.left ++ f.right).map Node.span := by
        unfold Heap.kidSpans
        rw [hkx, looksAll_spans _ _ (looksAll_append d2 d3)]
        apply List.map_congr_left
        intro l hl
        unfold Heap.span; rw [hlt l (hLR l hl)]
      have hspx : h1.span x = f.span := by unfold Heap.span at *; rw [hlt x x2]; exact c2
      have hspy : h1.span h.next = sp := by unfold Heap.span; rw [hnew]
      have hpy : h1.parent h.next = none := by unfold Heap.parent; rw [hnew]
      have hne : h.next ≠ x := by omega
      have hraise : h1.setParentRaises h.next x = Kids.outside f.span sp := by
        unfold Heap.setParentRaises
        rw [hspx, hspy, hstr1 x x2, x3]
        have : h1.str h.next = s := by unfold Heap.str; rw [hnew]
        simp [this, hne]
      have hadd : h1.add x [h.next] = h1.addOne x h.next := by
        rw [Heap.add]
        generalize h1.addOne x h.next = q
        obtain ⟨q1, q2⟩ := q
        cases q2 with
        | error e => rfl
        | ok u => rfl
      have hone : h1.addOne x h.next =
          if Kids.bfindStart ((f.left ++ f.right).map Node.span) sp ≥ 0 then (h1, .error .valueError)
          else if Kids.notBetween ((f.left ++ f.right).map Node.span) sp
              (-(Kids.bfindStart ((f.left ++ f.right).map Node.span) sp) - 1).toNat
              (-(Kids.bfindStart ((f.left ++ f.right).map Node.span) sp) - 1).toNat then (h1, .error .valueError)
          else if Kids.outside f.span sp then (h1, .error .valueError)
          else ((h1.setParent h.next (some x)).setKids x ((L ++ R).insertIdx
            (-(Kids.bfindStart ((f.left ++ f.right).map Node.span) sp) - 1).toNat h.next), .ok ()) := by
        unfold addOne
        rw [if_neg (by simp [hpy])]
        dsimp only
        rw [hks, hspy, hraise, kids_setParent, hkx]
      have hspec := addOne_spec hok1 (p := x) (x := h.next) (by omega) (by omega)
      have hacy := addOne_acyclic hok1 (p := x) (x := h.next) (by omega) (by omega) hac1
        (Or.inr (by unfold Heap.kids; rw [hnew]))
      rw [hadd]
      rw [hone] at hspec hacy ⊢
      generalize hi : Kids.bfindStart ((f.left ++ f.right).map Node.span) sp = i at *
      by_cases g1 : i ≥ 0
      · left; exact ⟨.valueError, h1, by rw [if_pos g1], by rw [if_pos g1]⟩
      rw [if_neg g1] at hspec hacy ⊢
      rw [if_neg g1]
      generalize hj : (-i - 1).toNat = j at *
      by_cases g2 : Kids.notBetween ((f.left ++ f.right).map Node.span) sp j j = true
      · left; exact ⟨.valueError, h1, by rw [if_pos g2], by rw [if_pos g2]⟩
      rw [if_neg g2] at hspec hacy ⊢
      rw [if_neg g2]
      by_cases g3 : Kids.outside f.span sp = true
      · left; exact ⟨.valueError, h1, by rw [if_pos g3], by rw [if_pos g3]⟩
      rw [if_neg g3] at hspec hacy ⊢
      rw [if_neg g3]
      right
      refine ⟨_, _, _, _, _, rfl, rfl, ?_⟩
      dsimp only at hacy
      have hjl : j ≤ (L ++ R).length := by
        have hs : Sorted (((f.left ++ f.right).map Node.span).map Span.start) := by
          have := (hok1.kids x (by omega)).ordered
          have e2 : (h1.kids x).map h1.span = (f.left ++ f.right).map Node.span := by
            have := hks; unfold Heap.kidSpans at this; exact this
          rw [e2] at this
          unfold Sorted
          rw [List.pairwise_map]
          exact this.imp (fun hab => by omega)
        have := bfindStart_idx (s := sp) hs
        rw [hi, hj] at this
        have e3 := looksAll_length (looksAll_append d2 d3)
        simp only [List.length_map] at this
        omega
      rcases hspec with hs | ⟨-, -, -, l, r, -, -, he, hok2⟩
      · exact absurd (congrArg Prod.snd hs) (by simp)
      have he' := congrArg Prod.fst he
      dsimp only at he'
      rw [← he'] at hok2
      clear he he'
      generalize hh2 : (h1.setParent h.next (some x)).setKids x ((L ++ R).insertIdx j h.next) = h2 at *
      have hn2 : h2.next = h1.next := by rw [← hh2]; rfl
      have hobj : ∀ y, h2.obj y = { h1.obj y with
          parent := if y = h.next then some x else (h1.obj y).parent
          kids := if y = x then (L ++ R).insertIdx j h.next else (h1.obj y).kids } := by
        intro y
        rw [← hh2]
        unfold setKids setParent upd
        dsimp only
        by_cases e1 : y = x
        · subst e1
          rw [if_pos rfl, if_neg (Ne.symm hne), if_pos rfl, if_neg (Ne.symm hne)]
        · rw [if_neg e1, if_neg e1]
          by_cases e2 : y = h.next
          · subst e2; simp
          · simp [e2]
      have hoth : ∀ y < h.next, y ≠ x → h2.obj y = h.obj y := by
        intro y hy hyx
        rw [hobj, if_neg (by omega), if_neg hyx, hlt y hy]
      have hlook2 : ∀ xs ts, (∀ z ∈ xs, z < h.next ∧ z ∉ x :: rest) → LooksAll h xs ts → LooksAll h2 xs ts := by
        intro xs ts hxs hl
        refine looksAll_frame (fun p => p < h.next ∧ p ∉ x :: rest) ?_ ?_ ts xs hxs hl
        · intro p hp c hc
          obtain ⟨k1, k2, -⟩ := a.ok.kidParent p hp.1 c hc
          exact ⟨k1, fun hm => hp.2 (p5'.parent_mem c hm p k2)⟩
        · intro p hp
          have : h2.obj p = h.obj p := hoth p hp.1 (fun e => hp.2 (by simp [e]))
          unfold Heap.span Heap.kids; rw [this]; exact ⟨rfl, rfl, rfl, rfl⟩
      have hdrx := List.nodup_cons.mp p3
      have hrestlt : ∀ y ∈ rest, y < h.next := fun y hy => (p5'.range y (by simp [hy])).2.1
      have hxl : ∀ l ∈ L ++ R, l < h.next ∧ l ∉ x :: rest := fun l hl => ⟨hLR l hl, d4 l hl⟩
      have hylist : LooksAll h2 (L ++ R) (f.left ++ f.right) := hlook2 _ _ hxl (looksAll_append d2 d3)
      have hpar2 : ∀ y < h.next, h2.parent y = h.parent y := by
        intro y hy
        unfold Heap.parent; rw [hobj, hlt y hy]; dsimp only; rw [if_neg (by omega)]
      have hstr2 : ∀ y < h.next, h2.str y = h.str y := by
        intro y hy; unfold Heap.str; rw [hobj, hlt y hy]
      have hrS' : ∀ r ∈ rids', r ∉ x :: rest := by
        intro r hr hm
        -- the root of the stack comes after `rids'` in `mids`, which has no duplicates
        have hnd := a.midsNodup
        rw [← hmids, List.nodup_append] at hnd
        have hroot := a.root r (by rw [← hmids]; simp [hr])
        -- a parentless element of the stack is the last one
        have hlast : ∀ {c : Option Nat} {xs : List Nat} {fs : List Frame}, Chain s h0.next h (x :: rest) c xs fs →
            ∀ y ∈ xs, h.parent y = none → xs.getLast? = some y := by
          intro c xs
          induction xs generalizing c with
          | nil => intro fs _ y hy; simp at hy
          | cons z zs ih =>
            intro fs hc y hy hp
            cases fs with
            | nil => simp [Chain] at hc
            | cons f fs =>
              rw [Chain] at hc
              rcases List.mem_cons.mp hy with rfl | hy
              · have := hc.2.2.2.2.2.1
                rw [hp] at this
                cases zs with
                | nil => rfl
                | cons w ws => simp at this
              · have := ih hc.2.2.2.2.2.2.2 y hy hp
                cases zs with
                | nil => simp at hy
                | cons w ws => rw [List.getLast?_cons_cons]; exact this
        have := hlast p5' r hm hroot
        exact hnd.2.2 r hr r (by rw [this]; simp) rfl
      exact {
        next := by omega
        old := fun i hi => by rw [hoth i (by omega) (by omega)]; exact a.old i hi
        ok := hok2
        acyclic := hacy
        nodup := by
          rw [List.nodup_cons]
          refine ⟨fun hm => ?_, p3⟩
          rcases List.mem_cons.mp hm with e | e
          · exact hne e
          · have := hrestlt _ e; omega
        chain := by
          rw [Chain]
          refine ⟨⟨by omega, by omega⟩, ?_, ?_, ?_, ?_, ?_, ⟨[], [], ?_, ?_, ?_, ?_⟩, ?_⟩
          · unfold Heap.span; rw [hobj, hnew]
          · rw [hobj, hnew]
          · rw [hobj, hnew]
          · unfold Heap.str; rw [hobj, hnew]
          · unfold Heap.parent; rw [hobj]; simp
          · unfold Heap.kids; rw [hobj, hnew]; simp [hne]
          · simp [LooksAll]
          · simp [LooksAll]
          · simp
          · rw [Chain]
            have ox := hobj x
            rw [hlt x x2] at ox
            refine ⟨⟨c1.1, by omega⟩, ?_, ?_, ?_, ?_, ?_, ⟨(L ++ R).take j, (L ++ R).drop j, ?_, ?_, ?_, ?_⟩, ?_⟩
            · unfold Heap.span at *; rw [ox]; exact c2
            · rw [ox]; exact c3
            · rw [ox]; exact c4
            · unfold Heap.str at *; rw [ox]; exact c5
            · rw [hpar2 x x2]; exact c6
            · unfold Heap.kids; rw [ox]; simp only [if_true]
              rw [insertIdx_take_drop _ hjl]; simp
            · exact looksAll_take j hylist
            · exact looksAll_drop j hylist
            · intro l hl hm
              rw [List.take_append_drop] at hl
              rcases List.mem_cons.mp hm with e | e
              · have := hLR l hl; omega
              · exact d4 l hl e
            · refine c7.frame (by omega) ?_ a.ok hlook2 ?_
              · intro l hl hlt'
                rcases List.mem_cons.mp hl with e | e
                · omega
                · exact e
              · intro y hy
                exact hoth y (hrestlt y hy) (fun e => hdrx.1 (e ▸ hy))
        roots := by
          refine ⟨rids', ?_, hlook2 _ _ (fun r hr => ⟨hrl r hr, hrS' r hr⟩) p1, ?_⟩
          · rw [List.getLast?_cons_cons]; exact hmids.symm
          · intro r hr hm
            rcases List.mem_cons.mp hm with e | e
            · have := hrl r hr; omega
            · exact hrS' r hr e
        fresh := fun i hi => by have := a.fresh i hi; omega
        root := fun i hi => by rw [hpar2 i (a.fresh i hi).2]; exact a.root i hi
        str := fun i hi => by rw [hstr2 i (a.fresh i hi).2]; exact a.str i hi
        midsNodup := a.midsNodup }

theorem matchLoop_spec {s : String} {h0 : Heap} (es : List Entry) : ∀ {h : Heap} {stack mids : List Nat}
    {fs : List Frame} {roots : List Node}, LoopOK s h0 h stack mids fs roots →
    (∃ er h1, Match.loop s.length es fs roots = .error er ∧ matchLoop h s es stack mids = (h1, .error er)) ∨
    ∃ ts h1 ids, Match.loop s.length es fs roots = .ok ts ∧ matchLoop h s es stack mids = (h1, .ok ids) ∧
      Made s h0 h1 ids ts := by
  induction es with
  | nil => intro h stack mids fs roots a; exact Or.inr ⟨_, _, _, rfl, rfl, a.finish⟩
  | cons e es ih =>
    intro h stack mids fs roots a
    rw [Match.loop, matchLoop]
    rcases matchStep_spec a e with ⟨er, h1, e1, e2⟩ | ⟨fs', roots', h1, stack', mids', e1, e2, a'⟩
    · left; exact ⟨er, h1, by rw [e1], by rw [e2]⟩
    · rw [e1, e2]; exact ih a'

/-- C18: `from_match` on objects does what it does on value trees: it raises in exactly the same cases, and
otherwise it makes new objects that look like the value trees, changing no existing object. -/
theorem C18_from_match_objects {h : Heap} (hok : OK h) (hac : Acyclic h) (s : String)
    (groups : List (Option String × List Span)) :
    (∃ e h1, fromMatch s.length groups = .error e ∧ fromMatchObj h s groups = (h1, .error e)) ∨
    ∃ ts h1 ids, fromMatch s.length groups = .ok ts ∧ fromMatchObj h s groups = (h1, .ok ids) ∧ Made s h h1 ids ts :=
  matchLoop_spec _ (LoopOK.init hok hac)

theorem _root_.HeapSpec.Made.refl {h : Heap} (hok : OK h) (hac : Acyclic h) (s : String) : Made s h h [] [] where
  next := Nat.le_refl _
  old _ _ := rfl
  ok := hok
  acyclic := hac
  fresh := by simp
  root := by simp
  str := by simp
  nodup := by simp
  looks := by simp [LooksAll]

/-- Making trees and then more trees. -/
theorem _root_.HeapSpec.Made.append {s : String} {h h1 h2 : Heap} {xs ys : List Nat} {ts us : List Node} (a : Made s h h1 xs ts)
    (b : Made s h1 h2 ys us) : Made s h h2 (xs ++ ys) (ts ++ us) where
  next := Nat.le_trans a.next b.next
  old i hi := by rw [b.old i (Nat.lt_of_lt_of_le hi a.next), a.old i hi]
  ok := b.ok
  acyclic := b.acyclic
  fresh i hi := by
    have := a.next
    have := b.next
    rcases List.mem_append.mp hi with hi | hi
    · have := a.fresh i hi; omega
    · have := b.fresh i hi; omega
  root i hi := by
    rcases List.mem_append.mp hi with hi | hi
    · have := a.root i hi
      unfold Heap.parent at *
      rw [b.old i (a.fresh i hi).2]; exact this
    · exact b.root i hi
  str i hi := by
    rcases List.mem_append.mp hi with hi | hi
    · have := a.str i hi
      unfold Heap.str at *
      rw [b.old i (a.fresh i hi).2]; exact this
    · exact b.str i hi
  nodup := by
    rw [List.nodup_append]
    refine ⟨a.nodup, b.nodup, fun x hx y hy => ?_⟩
    have := a.fresh x hx
    have := b.fresh y hy
    omega
  looks := looksAll_append (looksAll_of_obj a.ok b.old (fun x hx => (a.fresh x hx).2) a.looks) b.looks

theorem _root_.HeapSpec.Made.take {s : String} {h h1 : Heap} {xs : List Nat} {ts : List Node} (a : Made s h h1 xs ts) (n : Nat) :
    Made s h h1 (xs.take n) (ts.take n) where
  next := a.next
  old := a.old
  ok := a.ok
  acyclic := a.acyclic
  fresh i hi := a.fresh i (List.mem_of_mem_take hi)
  root i hi := a.root i (List.mem_of_mem_take hi)
  str i hi := a.str i (List.mem_of_mem_take hi)
  nodup := a.nodup.sublist (List.take_sublist _ _)
  looks := looksAll_take n a.looks

theorem fromReObjLoop_spec {s : String} {h0 : Heap} (limit : Option Int)
    (ms : List (List (Option String × List Span))) : ∀ {h : Heap} {rv : List Nat} {ts : List Node},
    Made s h0 h rv ts →
    (∃ e h1, fromReLoop s.length limit ts ms = .error e ∧ fromReObjLoop h s limit rv ms = (h1, .error e)) ∨
    ∃ us h1 ids, fromReLoop s.length limit ts ms = .ok us ∧ fromReObjLoop h s limit rv ms = (h1, .ok ids) ∧
      Made s h0 h1 ids us := by
  induction ms with
  | nil => intro h rv ts a; exact Or.inr ⟨_, _, _, rfl, rfl, a⟩
  | cons m ms ih =>
    intro h rv ts a
    rw [fromReLoop, fromReObjLoop]
    rcases C18_from_match_objects a.ok a.acyclic s m with ⟨e, h1, e1, e2⟩ | ⟨us, h1, ids, e1, e2, b⟩
    · left; exact ⟨e, h1, by rw [e1], by rw [e2]⟩
    · rw [e1, e2]
      dsimp only
      have ab := a.append b
      have hl := looksAll_length ab.looks
      cases limit with
      | none => exact ih ab
      | some n =>
        dsimp only
        rw [hl]
        by_cases hn : ((ts ++ us).length : Int) ≥ n
        · rw [if_pos hn, if_pos hn]; exact Or.inr ⟨_, _, _, rfl, rfl, ab⟩
        · rw [if_neg hn, if_neg hn]; exact ih ab

/-- C19: `from_re` on objects does what it does on value trees: it raises in the same cases, and otherwise makes new
objects that look like the value trees (so the theorems about limit and order apply), changing no existing object. -/
theorem C19_from_re_objects {h : Heap} (hok : OK h) (hac : Acyclic h) (s : String)
    (ms : List (List (Option String × List Span))) (limit : Option Int) :
    (∃ e h1, fromRe s.length ms limit = .error e ∧ fromReObj h s ms limit = (h1, .error e)) ∨
    ∃ ts h1 ids, fromRe s.length ms limit = .ok ts ∧ fromReObj h s ms limit = (h1, .ok ids) ∧ Made s h h1 ids ts := by
  unfold fromRe fromReObj
  rcases fromReObjLoop_spec limit ms (Made.refl hok hac s) with ⟨e, h1, e1, e2⟩ | ⟨us, h1, ids, e1, e2, b⟩
  · left; exact ⟨e, h1, by rw [e1], by rw [e2]⟩
  · right
    rw [e1, e2]
    dsimp only
    cases limit with
    | none => exact ⟨_, _, _, rfl, rfl, b⟩
    | some n =>
      dsimp only
      by_cases hn : n > 0
      · rw [if_pos hn, if_pos hn]; exact ⟨_, _, _, rfl, rfl, b.take _⟩
      · rw [if_neg hn, if_neg hn]
        exact ⟨_, _, _, rfl, rfl, by simpa using b.take 0⟩

/-- Non-vacuity: `(?P<w>(?P<c>.)+)` on `ab`, in a memory that has an object already. -/
example : OK (empty.new "ab" none none none) ∧ Acyclic (empty.new "ab" none none none) ∧
    (fromMatchObj (empty.new "ab" none none none) "ab" [(some "w", [⟨0, 2⟩]), (some "c", [⟨0, 1⟩, ⟨1, 2⟩])]).2.toOption =
      some [1] ∧
    (fromMatchObj (empty.new "ab" none none none) "ab" [(some "w", [⟨0, 2⟩]), (some "c", [⟨0, 1⟩, ⟨1, 2⟩])]).1.kids 1 =
      [2, 3] := by
  have ok0 : OK empty := ⟨by intro x hx; simp [empty] at hx, by intro x hx; simp [empty] at hx,
    by intro x hx; simp [empty] at hx, by intro x hx; simp [empty] at hx⟩
  exact ⟨ok_new ok0 _ _ _ _, new_acyclic ok0 (fun x hx => by simp [empty] at hx) _ _ _ _, by decide, by decide⟩

end Pawpaw.Props
