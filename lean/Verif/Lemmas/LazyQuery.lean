import Verif.Model.LazyQuery
import Verif.Props.Lazy
import Verif.Props.Axis
import Verif.Props.MatchHeap
/-!
# Lemmas on lazily run queries: generators in a memory that does not change
-/
set_option linter.unusedSectionVars false
namespace Pawpaw
namespace LazyQuery
open Heap Query HeapSpec TreeSpec LazySpec Pawpaw.Props

/-- With enough fuel, the outcome. -/
def Ev {α : Type} (f : Nat → Option α) (r : α) : Prop := ∃ N, ∀ n, N ≤ n → f n = some r

/-- A generator in an unchanging memory gives these items and then ends or raises. -/
inductive Gen {α σ : Type} (next : Nat → σ → Option (Out α σ)) : σ → List α → Option PyErr → Prop
  | ended {s : σ} : Ev (fun n => next n s) .ended → Gen next s [] none
  | raised {s : σ} {e : PyErr} : Ev (fun n => next n s) (.raised e) → Gen next s [] (some e)
  | item {s s' : σ} {y : α} {ys : List α} {e : Option PyErr} : Ev (fun n => next n s) (.item y s') →
      Gen next s' ys e → Gen next s (y :: ys) e

theorem Ev.now {α : Type} {f : Nat → Option α} {r : α} (h : ∀ n, f (n + 1) = some r) : Ev f r :=
  ⟨1, fun n hn => by
    obtain ⟨m, rfl⟩ := Nat.exists_eq_add_of_le' hn
    exact h m⟩

theorem Ev.always {α : Type} {f : Nat → Option α} {r : α} (h : ∀ n, f n = some r) : Ev f r := ⟨0, fun n _ => h n⟩

/-- If, with one more unit of fuel, `g` does what `f` does. -/
theorem Ev.succ {α : Type} {f g : Nat → Option α} {r : α} (hf : Ev f r) (h : ∀ n, f n = some r → g (n + 1) = some r) :
    Ev g r := by
  obtain ⟨N, hN⟩ := hf
  refine ⟨N + 1, fun n hn => ?_⟩
  obtain ⟨m, rfl⟩ : ∃ m, n = m + 1 := ⟨n - 1, by omega⟩
  exact h m (hN m (by omega))

/-- One step that needs the outcome of another computation. -/
theorem Ev.bind {α β : Type} {f : Nat → Option α} {g : Nat → Option β} {r : α} {q : β} (hf : Ev f r)
    (h : ∀ n, f n = some r → g (n + 1) = some q) : Ev g q := by
  obtain ⟨N, hN⟩ := hf
  refine ⟨N + 1, fun n hn => ?_⟩
  obtain ⟨m, rfl⟩ : ∃ m, n = m + 1 := ⟨n - 1, by omega⟩
  exact h m (hN m (by omega))

theorem Ev.same {α β : Type} {f : Nat → Option α} {g : Nat → Option β} {r : α} {q : β} (hf : Ev f r)
    (h : ∀ n, f n = some r → g n = some q) : Ev g q := by
  obtain ⟨N, hN⟩ := hf
  exact ⟨N, fun n hn => h n (hN n hn)⟩

theorem Ev.both {α β γ : Type} {f : Nat → Option α} {g : Nat → Option β} {k : Nat → Option γ} {r : α} {q : β} {o : γ}
    (hf : Ev f r) (hg : Ev g q) (h : ∀ n, f n = some r → g n = some q → k (n + 1) = some o) : Ev k o := by
  obtain ⟨N, hN⟩ := hf
  obtain ⟨M, hM⟩ := hg
  refine ⟨N + M + 1, fun n hn => ?_⟩
  obtain ⟨m, rfl⟩ : ∃ m, n = m + 1 := ⟨n - 1, by omega⟩
  exact h m (hN m (by omega)) (hM m (by omega))

theorem Ev.three {α β γ δ : Type} {f : Nat → Option α} {g : Nat → Option β} {l : Nat → Option δ} {k : Nat → Option γ}
    {r : α} {q : β} {d : δ} {o : γ} (hf : Ev f r) (hg : Ev g q) (hl : Ev l d)
    (h : ∀ n, f n = some r → g n = some q → l n = some d → k (n + 1) = some o) : Ev k o := by
  obtain ⟨N, hN⟩ := hf
  obtain ⟨M, hM⟩ := hg
  obtain ⟨L, hL⟩ := hl
  refine ⟨N + M + L + 1, fun n hn => ?_⟩
  obtain ⟨m, rfl⟩ : ∃ m, n = m + 1 := ⟨n - 1, by omega⟩
  exact h m (hN m (by omega)) (hM m (by omega)) (hL m (by omega))

/-- A generator that is about to do what another one does. -/
theorem Gen.step {α σ : Type} {next : Nat → σ → Option (Out α σ)} {s s' : σ} {ys : List α} {e : Option PyErr}
    (hg : Gen next s' ys e) (h : ∀ n, next (n + 1) s = next n s') : Gen next s ys e := by
  cases hg with
  | ended h' => exact .ended (h'.succ (fun n hn => by rw [h]; exact hn))
  | raised h' => exact .raised (h'.succ (fun n hn => by rw [h]; exact hn))
  | item h' hr => exact .item (h'.succ (fun n hn => by rw [h]; exact hn)) hr

/-! ## Walks -/

theorem walk_gen_fwd {h : Heap} : ∀ (ys : List (Int × Nat)) (w : List Frame),
    walkRun (List.replicate (ys.length + 1) h) w = (ys, none) → Gen (fun n => Walk.next n h) (.fwd w) (ys.map (·.2)) none
  | [], w, hw => by
    rw [List.length_nil, List.replicate_succ, walkRun] at hw
    refine .ended (.always (fun n => ?_))
    rw [Walk.next]
    cases hn : walkNext h w with
    | none => rfl
    | some r => rw [hn] at hw; simp at hw
  | y :: ys, w, hw => by
    rw [List.length_cons, List.replicate_succ, walkRun] at hw
    cases hn : walkNext h w with
    | none => rw [hn] at hw; simp at hw
    | some r =>
      obtain ⟨z, w'⟩ := r
      rw [hn] at hw
      simp only [Prod.mk.injEq, List.cons.injEq] at hw
      obtain ⟨⟨rfl, h1⟩, h2⟩ := hw
      refine .item (s' := .fwd w') (.always (fun n => ?_)) (walk_gen_fwd ys w' (Prod.ext h1 h2))
      rw [Walk.next, hn]

/-- Reverse walks: what the innermost call still has to do comes first. -/
theorem rev_push {h : Heap} {x k c : Nat} {l : Int} {fs : List RFrame} {ys : List Nat} {e : Option PyErr}
    (hk : (h.kids x)[k]? = some c) (left : Option Nat) (hleft : left.getD (h.kids x).length = k + 1)
    (hg : Gen (fun n => Walk.next n h) (.rev (⟨c, none, l + 1⟩ :: ⟨x, some k, l⟩ :: fs)) ys e) :
    Gen (fun n => Walk.next n h) (.rev (⟨x, left, l⟩ :: fs)) ys e := by
  refine hg.step (fun n => ?_)
  rw [Walk.next, Walk.next, revNext]
  dsimp only
  rw [hleft]
  dsimp only
  rw [hk]

theorem rev_none {h : Heap} {x : Nat} {l : Int} {fs : List RFrame} {ys : List Nat} {e : Option PyErr}
    (hg : Gen (fun n => Walk.next n h) (.rev (⟨x, some (h.kids x).length, l⟩ :: fs)) ys e) :
    Gen (fun n => Walk.next n h) (.rev (⟨x, none, l⟩ :: fs)) ys e := by
  have key : ∀ n, Walk.next n h (.rev (⟨x, none, l⟩ :: fs)) = Walk.next n h (.rev (⟨x, some (h.kids x).length, l⟩ :: fs)) := by
    intro n
    rw [Walk.next, Walk.next]
    cases n with
    | zero => rfl
    | succ n => rw [revNext, revNext]; rfl
  cases hg with
  | ended h' => exact .ended (h'.same (fun n hn => by rw [key]; exact hn))
  | raised h' => exact .raised (h'.same (fun n hn => by rw [key]; exact hn))
  | item h' hr => exact .item (h'.same (fun n hn => by rw [key]; exact hn)) hr

theorem rev_base {h : Heap} {x : Nat} {l : Int} {g : RFrame} {gs : List RFrame} {ys : List Nat} {e : Option PyErr}
    (hg : Gen (fun n => Walk.next n h) (.rev (g :: gs)) ys e) :
    Gen (fun n => Walk.next n h) (.rev (⟨x, some 0, l⟩ :: g :: gs)) (x :: ys) e :=
  .item (.now (fun n => by rw [Walk.next, revNext]; rfl)) hg

theorem rev_top {h : Heap} {x : Nat} {l : Int} : Gen (fun n => Walk.next n h) (.rev [⟨x, some 0, l⟩]) [] none :=
  .ended (.now (fun n => by rw [Walk.next, revNext]; rfl))

mutual
theorem rev_node {h : Heap} {x0 : Nat} : ∀ (t : Node) (x : Nat) (p : List Nat), Looks h x t → objAt h x0 p = some x →
    ∀ l' : Int, ∃ ys : List Nat, ys.map some = ((t.walkLevels true l' p).map (fun e => objAt h x0 e.2)) ∧
    ∀ (l : Int) (fs : List RFrame) (base : List Nat),
      Gen (fun n => Walk.next n h) (.rev (⟨x, some 0, l⟩ :: fs)) base none →
      Gen (fun n => Walk.next n h) (.rev (⟨x, none, l⟩ :: fs)) (ys ++ base) none
  | .mk s d v ks, x, p, hl, hp, l' => by
    rw [Looks] at hl
    obtain ⟨ys, h1, h2⟩ := rev_kids ks x p 0 (by simpa using hl.2.2.2) hp l'
    refine ⟨ys, by rw [Node.walkLevels]; exact h1, fun l fs base hb => ?_⟩
    have hlen : ks.length = (h.kids x).length := by
      have := looksAll_length hl.2.2.2
      exact this.symm
    have := h2 l fs base (by simpa using hb)
    rw [Nat.zero_add, hlen] at this
    exact rev_none this
theorem rev_kids {h : Heap} {x0 : Nat} : ∀ (ks : List Node) (x : Nat) (p : List Nat) (i : Nat),
    LooksAll h ((h.kids x).drop i) ks → objAt h x0 p = some x →
    ∀ l' : Int, ∃ ys : List Nat, ys.map some = ((Node.walkLevelsKids true l' p i ks).map (fun e => objAt h x0 e.2)) ∧
    ∀ (l : Int) (fs : List RFrame) (base : List Nat),
      Gen (fun n => Walk.next n h) (.rev (⟨x, some i, l⟩ :: fs)) base none →
      Gen (fun n => Walk.next n h) (.rev (⟨x, some (i + ks.length), l⟩ :: fs)) (ys ++ base) none
  | [], x, p, i, hl, hp, l' => by
    refine ⟨[], by rw [Node.walkLevelsKids]; rfl, fun l fs base hb => ?_⟩
    simpa using hb
  | k :: ks, x, p, i, hl, hp, l' => by
    cases hd : (h.kids x).drop i with
    | nil => rw [hd] at hl; simp [LooksAll] at hl
    | cons c cs =>
      rw [hd, LooksAll] at hl
      have hi : i < (h.kids x).length := by
        rcases Nat.lt_or_ge i (h.kids x).length with hi | hi
        · exact hi
        · rw [List.drop_eq_nil_of_le hi] at hd; cases hd
      rw [List.drop_eq_getElem_cons hi, List.cons.injEq] at hd
      have hk : (h.kids x)[i]? = some c := by rw [List.getElem?_eq_getElem hi, hd.1]
      have hp' : objAt h x0 (p ++ [i]) = some c := by
        rw [objAt_append, hp]
        simp only [Option.bind_some, objAt, hk]
      obtain ⟨y2, i2, e2⟩ := rev_node k c (p ++ [i]) hl.1 hp' (l' + 1)
      obtain ⟨y3, i3, e3⟩ := rev_kids ks x p (i + 1) (by rw [hd.2]; exact hl.2) hp l'
      refine ⟨y3 ++ (y2 ++ [c]), ?_, fun l fs base hb => ?_⟩
      · rw [Node.walkLevelsKids]
        simp only [if_true, List.map_append, List.map_cons, List.map_nil, i2, i3, hp']
      · have h1 := e2 (l + 1) (⟨x, some i, l⟩ :: fs) (c :: base) (rev_base hb)
        have h2 : Gen (fun n => Walk.next n h) (.rev (⟨x, some (i + 1), l⟩ :: fs)) (y2 ++ c :: base) none :=
          rev_push hk (some (i + 1)) rfl h1
        have h3 := e3 l fs _ h2
        rw [List.length_cons, show i + (ks.length + 1) = i + 1 + ks.length by omega]
        simpa using h3
end


/-! ## Objects and paths -/

/-- The object at a path below `r`. -/
def ob (h : Heap) (r : Nat) (p : Path) : Nat := (objAt h r p).getD 0

/-- Memory `h` holds the tree `t` with root `r`. -/
structure Holds (h : Heap) (r : Nat) (t : Node) : Prop where
  ok : OK h
  lt : r < h.next
  root : h.parent r = none
  looks : Looks h r t

theorem looks_kid {h : Heap} {x : Nat} {n k : Node} {i : Nat} (hl : Looks h x n) (hk : n.kids[i]? = some k) :
    ∃ c, (h.kids x)[i]? = some c ∧ Looks h c k := by
  obtain ⟨s, d, v, ks⟩ := n
  rw [Looks] at hl
  replace hl := hl.2.2.2
  dsimp only [Node.kids] at hk
  generalize h.kids x = xs at hl ⊢
  induction xs generalizing ks i with
  | nil =>
    cases ks with
    | nil => simp at hk
    | cons _ _ => simp [LooksAll] at hl
  | cons y ys ih =>
    cases ks with
    | nil => simp [LooksAll] at hl
    | cons m ms =>
      rw [LooksAll] at hl
      cases i with
      | zero =>
        simp only [List.getElem?_cons_zero, Option.some.injEq] at hk
        exact ⟨y, rfl, hk ▸ hl.1⟩
      | succ i => exact ih ms (by simpa using hk) hl.2

theorem looks_objAt {h : Heap} : ∀ (p : Path) (x : Nat) (t n : Node), Looks h x t → t.get? p = some n →
    ∃ y, objAt h x p = some y ∧ Looks h y n
  | [], x, t, n, hl, hg => by
    simp only [Node.get?, Option.some.injEq] at hg
    exact ⟨x, rfl, hg ▸ hl⟩
  | i :: p, x, t, n, hl, hg => by
    rw [Node.get?_cons] at hg
    cases hk : t.kids[i]? with
    | none => rw [hk] at hg; cases hg
    | some k =>
      rw [hk] at hg
      obtain ⟨c, hc, hlc⟩ := looks_kid hl hk
      obtain ⟨y, hy, hly⟩ := looks_objAt p c k n hlc hg
      exact ⟨y, by rw [objAt, hc]; exact hy, hly⟩

theorem objAt_lt {h : Heap} (hok : OK h) : ∀ (p : Path) (x y : Nat), x < h.next → objAt h x p = some y → y < h.next
  | [], x, y, hx, hy => by rw [objAt, Option.some.injEq] at hy; exact hy ▸ hx
  | i :: p, x, y, hx, hy => by
    rw [objAt] at hy
    cases hk : (h.kids x)[i]? with
    | none => rw [hk] at hy; cases hy
    | some c =>
      rw [hk] at hy
      exact objAt_lt hok p c y (hok.kidParent x hx c (List.mem_of_getElem? hk)).1 hy

theorem objAt_str {h : Heap} (hok : OK h) : ∀ (p : Path) (x y : Nat), x < h.next → objAt h x p = some y → h.str y = h.str x
  | [], x, y, hx, hy => by rw [objAt, Option.some.injEq] at hy; rw [hy]
  | i :: p, x, y, hx, hy => by
    rw [objAt] at hy
    cases hk : (h.kids x)[i]? with
    | none => rw [hk] at hy; cases hy
    | some c =>
      rw [hk] at hy
      have hc := hok.kidParent x hx c (List.mem_of_getElem? hk)
      rw [objAt_str hok p c y hc.1 hy, hc.2.2]

section
variable {h : Heap} {r : Nat} {t : Node} (H : Holds h r t)
include H

theorem ob_spec {p : Path} {n : Node} (hn : t.get? p = some n) : objAt h r p = some (ob h r p) ∧ Looks h (ob h r p) n := by
  obtain ⟨y, hy, hl⟩ := looks_objAt p r t n H.looks hn
  have : ob h r p = y := by rw [ob, hy]; rfl
  rw [this]
  exact ⟨hy, hl⟩

theorem ob_objAt {p : Path} (hp : IsNode t p) : objAt h r p = some (ob h r p) := by
  obtain ⟨n, hn⟩ := isNode_iff.mp hp
  exact (ob_spec H hn).1

theorem ob_nil : ob h r [] = r := rfl

theorem ob_lt {p : Path} (hp : IsNode t p) : ob h r p < h.next := objAt_lt H.ok p r _ H.lt (ob_objAt H hp)

theorem ob_str {p : Path} (hp : IsNode t p) : h.str (ob h r p) = h.str r := objAt_str H.ok p r _ H.lt (ob_objAt H hp)

theorem ob_kids {p : Path} (hp : IsNode t p) : h.kids (ob h r p) = (children t p).map (ob h r) := by
  obtain ⟨n, hn⟩ := isNode_iff.mp hp
  obtain ⟨hy, hl⟩ := ob_spec H hn
  have hlen : (h.kids (ob h r p)).length = n.kids.length := by
    obtain ⟨s, d, v, ks⟩ := n
    rw [Looks] at hl
    exact looksAll_length hl.2.2.2
  refine List.ext_getElem? (fun i => ?_)
  unfold children
  rw [kidsAt_eq hn, List.map_map, List.getElem?_map]
  rcases Nat.lt_or_ge i n.kids.length with hi | hi
  · rw [List.getElem?_range hi, Option.map_some]
    obtain ⟨c, hc, _⟩ := looks_kid hl (List.getElem?_eq_getElem hi)
    rw [hc]
    have : objAt h r (p ++ [i]) = some c := by rw [objAt_append, hy]; simp only [Option.bind_some, objAt, hc]
    simp only [Function.comp, ob, this, Option.getD_some]
  · rw [List.getElem?_eq_none (by omega), List.getElem?_eq_none (by simpa using hi)]
    rfl

theorem ob_snoc_mem {p : Path} {i : Nat} (hp : IsNode t (p ++ [i])) : ob h r (p ++ [i]) ∈ h.kids (ob h r p) := by
  have h0 := isNode_parent hp
  obtain ⟨n, hn⟩ := isNode_iff.mp h0
  rw [ob_kids H h0]
  exact List.mem_map.mpr ⟨_, (mem_children hn _).mpr ⟨hp, i, rfl⟩, rfl⟩

theorem ob_parent {p : Path} (hp : IsNode t p) : h.parent (ob h r p) = (Query.parent p).map (ob h r) := by
  rcases path_cases p with rfl | ⟨q, i, rfl⟩
  · rw [ob_nil H, H.root]; rfl
  · rw [parent_snoc]
    exact (H.ok.kidParent _ (ob_lt H (isNode_parent hp)) _ (ob_snoc_mem H hp)).2.1

theorem ob_inj {p q : Path} (hp : IsNode t p) (hq : IsNode t q) (he : ob h r p = ob h r q) : p = q := by
  revert q
  refine snoc_induction (P := fun p => IsNode t p → ∀ {q : Path}, IsNode t q → ob h r p = ob h r q → p = q) ?_ ?_ p hp
  · intro _ q hq he
    rcases path_cases q with rfl | ⟨q', j, rfl⟩
    · rfl
    · have h1 := ob_parent H hq
      rw [← he, ob_nil H, H.root, parent_snoc] at h1
      cases h1
  · intro p i ih hp q hq he
    rcases path_cases q with rfl | ⟨q', j, rfl⟩
    · have h1 := ob_parent H hp
      rw [he, ob_nil H, H.root, parent_snoc] at h1
      cases h1
    · have h1 := ob_parent H hp
      have h2 := ob_parent H hq
      rw [he, h2, parent_snoc, parent_snoc] at h1
      simp only [Option.map_some, Option.some.injEq] at h1
      have e1 := ih (isNode_parent hp) (isNode_parent hq) h1.symm
      subst e1
      obtain ⟨n, hn⟩ := isNode_iff.mp (isNode_parent hp)
      have hi := (isNode_snoc hn i).mp hp
      have hj := (isNode_snoc hn j).mp hq
      have hnd : (h.kids (ob h r p)).Nodup := by
        have hk := (H.ok.kids _ (ob_lt H (isNode_parent hp))).ordered
        rw [List.pairwise_map] at hk
        refine hk.imp (fun {a b} hab e => ?_)
        subst e
        first | omega | (have := hab; simp at this)
      rw [ob_kids H (isNode_parent hp)] at hnd
      have hlen : (children t p).length = n.kids.length := by simp [children, kidsAt_eq hn]
      have gi : ((children t p).map (ob h r))[i]? = some (ob h r (p ++ [i])) := by
        simp [children, kidsAt_eq hn, hi]
      have gj : ((children t p).map (ob h r))[j]? = some (ob h r (p ++ [j])) := by
        simp [children, kidsAt_eq hn, hj]
      rw [he] at gi
      have : i = j := by
        have a1 := List.getElem?_eq_some_iff.mp gi
        have a2 := List.getElem?_eq_some_iff.mp gj
        obtain ⟨b1, c1⟩ := a1
        obtain ⟨b2, c2⟩ := a2
        exact (List.getElem_inj hnd).mp (c1.trans c2.symm)
      rw [this]

theorem ob_map_inj {ps : List Path} (hps : ∀ p ∈ ps, IsNode t p) (hnd : ps.Nodup) : (ps.map (ob h r)).Nodup := by
  rw [List.Nodup, List.pairwise_map]
  exact List.Pairwise.imp_of_mem (fun {a b} ha hb hab e => hab (ob_inj H (hps a ha) (hps b hb) e)) hnd

theorem ob_key {p q : Path} (hp : IsNode t p) (hq : IsNode t q) :
    eqv h (ob h r p) (ob h r q) = decide (keyAt t p = keyAt t q) := by
  obtain ⟨n, hn⟩ := isNode_iff.mp hp
  obtain ⟨m, hm⟩ := isNode_iff.mp hq
  have h1 := (ob_spec H hn).2
  have h2 := (ob_spec H hm).2
  have s1 := ob_str H hp
  have s2 := ob_str H hq
  obtain ⟨a, b, c, ks⟩ := n
  obtain ⟨a', b', c', ks'⟩ := m
  rw [Looks] at h1 h2
  unfold eqv keyAt keyOf
  rw [hn, hm, Option.map_some, Option.map_some]
  simp only [Node.key, Node.span, Node.vf, Node.desc, Option.some.injEq, Prod.mk.injEq]
  have e1 : (h.obj (ob h r p)).span = a := h1.1
  have e2 : (h.obj (ob h r q)).span = a' := h2.1
  have e3 : (h.obj (ob h r p)).str = (h.obj (ob h r q)).str := s1.trans s2.symm
  rw [e1, e2, h1.2.1, h2.2.1, h1.2.2.1, h2.2.2.1, e3]
  by_cases e : ob h r p = ob h r q
  · have := ob_inj H hp hq e
    subst this
    rw [hn, Option.some.injEq, Node.mk.injEq] at hm
    simp [hm]
  · simp [e]

theorem ob_start {p : Path} (hp : IsNode t p) : (h.span (ob h r p)).start = startAt t p := by
  obtain ⟨n, hn⟩ := isNode_iff.mp hp
  have h1 := (ob_spec H hn).2
  obtain ⟨a, b, c, ks⟩ := n
  rw [Looks] at h1
  rw [startAt_eq hn, h1.1]; rfl

theorem ob_stop {p : Path} (hp : IsNode t p) : (h.span (ob h r p)).stop = stopAt t p := by
  obtain ⟨n, hn⟩ := isNode_iff.mp hp
  have h1 := (ob_spec H hn).2
  obtain ⟨a, b, c, ks⟩ := n
  rw [Looks] at h1
  rw [stopAt_eq hn, h1.1]; rfl

theorem isNode_walkAt {p q : Path} {rev : Bool} (hp : IsNode t p) (hq : q ∈ walkAt t rev p) : IsNode t q := by
  obtain ⟨n, hn⟩ := isNode_iff.mp hp
  exact ((mem_walkAt hn rev q).mp hq).1

theorem isNode_ancestors {p q : Path} (hp : IsNode t p) (hq : q ∈ Query.ancestors p) : IsNode t q := by
  obtain ⟨i, s, rfl⟩ := (ancestors_mem p q).mp hq
  exact isNode_parent hp

theorem map_some_getD {xs : List Nat} {ps : List Path} (he : xs.map some = ps.map (objAt h r)) :
    xs = ps.map (ob h r) := by
  have := congrArg (List.map (fun o : Option Nat => o.getD 0)) he
  rw [List.map_map, List.map_map] at this
  simpa [Function.comp_def, show (fun p => (objAt h r p).getD 0) = ob h r from rfl] using this

/-- A walk, forward or backward. -/
theorem walk_gen {p : Path} (hp : IsNode t p) (rev : Bool) :
    Gen (fun n => Walk.next n h) (.start rev (ob h r p)) ((walkAt t rev p).map (ob h r)) none := by
  obtain ⟨n, hn⟩ := isNode_iff.mp hp
  obtain ⟨hy, hl⟩ := ob_spec H hn
  unfold walkAt
  rw [hn]
  dsimp only
  cases rev with
  | false =>
    obtain ⟨ys, i1, e1⟩ := gives_node (x0 := r) n (ob h r p) 0 p [] hl hy
    have e := e1 0
    rw [show ys.length + (0 + 1) = ys.length + 1 by omega] at e
    have e' : walkRun (List.replicate (ys.length + 1) h) (walkStart (ob h r p) 0) = (ys, none) := by
      rw [show walkStart (ob h r p) 0 = [⟨ob h r p, 0, 0⟩] from rfl, e, List.replicate_succ, walkRun, walkNext]
      simp
    have := walk_gen_fwd ys _ e'
    rw [show Walk.start false (ob h r p) = .fwd (walkStart (ob h r p) 0) from rfl]
    have e2 : ys.map (·.2) = (n.walk false p).map (ob h r) := by
      refine map_some_getD H ?_
      have := congrArg (List.map Prod.snd) i1
      simpa [List.map_map, Function.comp_def, Node.walk] using this
    rw [← e2]
    exact this
  | true =>
    obtain ⟨ys, h1, h2⟩ := rev_node (x0 := r) n (ob h r p) p hl hy 0
    have := h2 0 [] [] rev_top
    rw [List.append_nil] at this
    have e2 : ys = (n.walk true p).map (ob h r) := by
      refine map_some_getD H ?_
      rw [h1, Node.walk, List.map_map]; rfl
    rw [← e2]
    exact this
end


/-! ## Candidates -/

theorem Gen.stepEv {α σ τ : Type} {next : Nat → σ → Option (Out α σ)} {s s' : σ} {ys : List α} {e : Option PyErr}
    {f : Nat → Option τ} {r : τ} (hg : Gen next s' ys e) (hf : Ev f r)
    (h : ∀ n, f n = some r → next (n + 1) s = next n s') : Gen next s ys e := by
  cases hg with
  | ended h' => exact .ended (hf.both h' (fun n h1 h2 => by rw [h n h1]; exact h2))
  | raised h' => exact .raised (hf.both h' (fun n h1 h2 => by rw [h n h1]; exact h2))
  | item h' hr => exact .item (hf.both h' (fun n h1 h2 => by rw [h n h1]; exact h2)) hr

theorem list_gen {h : Heap} : ∀ xs : List Nat, Gen (fun n => Cand.next n h) (.list xs) xs none
  | [] => .ended (.now (fun n => by rw [Cand.next]))
  | x :: xs => .item (.now (fun n => by rw [Cand.next])) (list_gen xs)

theorem kids_gen {h : Heap} {p : Nat} : ∀ (ys : List Nat) (i : Nat), (h.kids p).drop i = ys →
    Gen (fun n => Cand.next n h) (.kids p i) ys none
  | [], i, hd => by
    refine .ended (.now (fun n => ?_))
    rw [Cand.next, List.getElem?_eq_none (List.drop_eq_nil_iff.1 hd)]
  | y :: ys, i, hd => by
    have hi : i < (h.kids p).length := by
      rcases Nat.lt_or_ge i (h.kids p).length with hi | hi
      · exact hi
      · rw [List.drop_eq_nil_of_le hi] at hd; cases hd
    rw [List.drop_eq_getElem_cons hi, List.cons.injEq] at hd
    refine .item (s' := .kids p (i + 1)) (.now (fun n => ?_)) (kids_gen ys (i + 1) hd.2)
    rw [Cand.next, List.getElem?_eq_getElem hi, hd.1]

theorem kidsRev_gen {h : Heap} {p : Nat} : ∀ k, k ≤ (h.kids p).length →
    Gen (fun n => Cand.next n h) (.kidsRev p (some k)) ((h.kids p).take k).reverse none
  | 0, _ => by
    rw [List.take_zero, List.reverse_nil]
    refine .ended (.now (fun n => ?_))
    rw [Cand.next]; rfl
  | k + 1, hk => by
    have hk' : k < (h.kids p).length := hk
    rw [List.take_succ, List.getElem?_eq_getElem hk', Option.toList_some, List.reverse_append, List.reverse_singleton,
      List.singleton_append]
    refine .item (s' := .kidsRev p (some k)) (.now (fun n => ?_)) (kidsRev_gen k (by omega))
    rw [Cand.next]
    dsimp only [Option.getD_some]
    rw [List.getElem?_eq_getElem hk']

theorem kidsRev_gen' {h : Heap} {p : Nat} : Gen (fun n => Cand.next n h) (.kidsRev p none) (h.kids p).reverse none := by
  have hg := kidsRev_gen (h := h) (p := p) (h.kids p).length (Nat.le_refl _)
  rw [List.take_length] at hg
  have key : ∀ n, Cand.next n h (.kidsRev p none) = Cand.next n h (.kidsRev p (some (h.kids p).length)) := by
    intro n
    cases n with
    | zero => rfl
    | succ n => rw [Cand.next, Cand.next]; rfl
  generalize (h.kids p).reverse = ys at hg
  cases hg with
  | ended h' => exact .ended (h'.same (fun n hn => by rw [key]; exact hn))
  | item h' hr => exact .item (h'.same (fun n hn => by rw [key]; exact hn)) hr

/-- What a sieve lets through. -/
def sieve (h : Heap) (anc : List Nat) : Sieve → List Nat → List Nat
  | _, [] => []
  | s, j :: js =>
    match s.pass h j with
    | .stop => []
    | .skip => sieve h anc s js
    | .give s' => if anc.any (fun q => eqv h q j) then sieve h anc s' js else j :: sieve h anc s' js

theorem sieve_gen {h : Heap} {anc : List Nat} {w : Walk} {ys : List Nat} {e : Option PyErr}
    (hg : Gen (fun n => Walk.next n h) w ys e) (he : e = none) :
    ∀ s : Sieve, Gen (fun n => Cand.next n h) (.walk w s anc) (sieve h anc s ys) none := by
  induction hg with
  | ended h' =>
    intro s
    exact .ended (h'.bind (fun n hn => by rw [Cand.next]; rw [hn]))
  | raised h' => cases he
  | @item w w' y ys e h' hr ih =>
    intro s
    rw [sieve]
    cases hp : s.pass h y with
    | stop => exact .ended (h'.bind (fun n hn => by rw [Cand.next]; rw [hn]; dsimp only; rw [hp]))
    | skip =>
      refine (ih he s).stepEv h' (fun n hn => ?_)
      rw [Cand.next, hn]; dsimp only; rw [hp]
    | give s' =>
      dsimp only
      by_cases ha : anc.any (fun q => eqv h q y) = true
      · rw [if_pos ha]
        refine (ih he s').stepEv h' (fun n hn => ?_)
        rw [Cand.next, hn]; dsimp only; rw [hp]; dsimp only; rw [if_pos ha]
      · rw [if_neg ha]
        exact .item (h'.bind (fun n hn => by rw [Cand.next]; rw [hn]; dsimp only; rw [hp]; dsimp only; rw [if_neg ha])) (ih he s')

theorem sieve_all (h : Heap) (anc : List Nat) : ∀ ys, sieve h anc .all ys = ys.filter (fun j => !anc.any (fun q => eqv h q j))
  | [] => rfl
  | y :: ys => by
    rw [sieve, Sieve.pass]
    dsimp only
    rw [sieve_all h anc ys, List.filter_cons]
    cases anc.any (fun q => eqv h q y) <;> rfl

theorem sieve_leaf (h : Heap) : ∀ ys, sieve h [] .leaf ys = ys.filter (fun j => decide ((h.kids j).length = 0))
  | [] => rfl
  | y :: ys => by
    rw [sieve, Sieve.pass, List.filter_cons]
    by_cases hk : (h.kids y).length = 0
    · rw [if_pos hk, if_pos (by simpa using hk)]
      dsimp only
      rw [sieve_leaf h ys]; rfl
    · rw [if_neg hk, if_neg (by simpa using hk)]
      exact sieve_leaf h ys

theorem sieve_until (h : Heap) (anc : List Nat) (c : Cond) : ∀ ys, sieve h anc (.until c) ys =
    (ys.takeWhile (fun j => !c.holds h j)).filter (fun j => !anc.any (fun q => eqv h q j))
  | [] => rfl
  | y :: ys => by
    rw [sieve, Sieve.pass, List.takeWhile_cons]
    cases hc : c.holds h y with
    | true => rfl
    | false =>
      simp only [Bool.false_eq_true, if_false, Bool.not_false, if_true]
      rw [sieve_until h anc c ys, List.filter_cons]
      cases anc.any (fun q => eqv h q y) <;> rfl

theorem sieve_since (h : Heap) (c : Cond) : ∀ ys, sieve h [] (.since c) ys = ys.dropWhile (fun j => c.holds h j)
  | [] => rfl
  | y :: ys => by
    rw [sieve, Sieve.pass, List.dropWhile_cons]
    cases hc : c.holds h y with
    | true =>
      simp only [if_true]
      exact sieve_since h c ys
    | false =>
      simp only [Bool.false_eq_true, if_false, List.any_nil]
      rw [sieve_all]
      simp

/-! ## `to_ecs` -/

/-- Numbered from `e` on. -/
def enumN (e : Nat) : List Nat → List (Nat × Nat)
  | [] => []
  | x :: xs => (e, x) :: enumN (e + 1) xs

theorem enumN_map (f : Path → Nat) : ∀ (e : Nat) (ps : List Path),
    enumN e (ps.map f) = (enumFrom e ps).map (fun x => (x.1, f x.2))
  | _, [] => rfl
  | e, p :: ps => by rw [List.map_cons, enumN, enumFrom, List.map_cons, enumN_map f (e + 1) ps]

/-- What comes after the candidates, of which there were `k`. -/
def lastItems (a : Axis) (s : Nat) (k : Nat) : List (Nat × Nat) :=
  if k = 0 then if a.orSelf ≠ .no then [(0, s)] else []
  else if a.orSelf = .always ∧ a.rev = true then [(k, s)] else []

theorem fin_gen {h : Heap} {a : Axis} {s : Nat} : Gen (fun n => Ecs.next a s n h) .fin [] none :=
  .ended (.always (fun n => by rw [Ecs.next]))

theorem ecs_end {h : Heap} {a : Axis} {s e : Nat} {c : Cand} {st : Ecs} (h' : Ev (fun n => Cand.next n h c) .ended)
    (hst : ∀ n, Ecs.next a s n h st = Ecs.next.loop a s n h e c) :
    Gen (fun n => Ecs.next a s n h) st (lastItems a s e) none := by
  unfold lastItems
  by_cases h0 : e = 0
  · rw [if_pos h0]
    by_cases h1 : a.orSelf ≠ .no
    · rw [if_pos h1]
      refine .item (h'.same (fun n hn => ?_)) fin_gen
      rw [hst, Ecs.next.loop, hn]; dsimp only; rw [if_pos h0, if_pos h1]
    · rw [if_neg h1]
      refine .ended (h'.same (fun n hn => ?_))
      rw [hst, Ecs.next.loop, hn]; dsimp only; rw [if_pos h0, if_neg h1]
  · rw [if_neg h0]
    by_cases h1 : a.orSelf = .always ∧ a.rev = true
    · rw [if_pos h1]
      refine .item (h'.same (fun n hn => ?_)) fin_gen
      rw [hst, Ecs.next.loop, hn]; dsimp only; rw [if_neg h0, if_pos h1]
    · rw [if_neg h1]
      refine .ended (h'.same (fun n hn => ?_))
      rw [hst, Ecs.next.loop, hn]; dsimp only; rw [if_neg h0, if_neg h1]

theorem ecs_loop {h : Heap} {a : Axis} {s : Nat} {c : Cand} {ys : List Nat} {x : Option PyErr}
    (hg : Gen (fun n => Cand.next n h) c ys x) (hx : x = none) : ∀ (e : Nat) (st : Ecs),
    (∀ n, Ecs.next a s n h st = Ecs.next.loop a s n h e c) →
    Gen (fun n => Ecs.next a s n h) st (enumN e ys ++ lastItems a s (e + ys.length)) none := by
  induction hg with
  | ended h' =>
    intro e st hst
    exact ecs_end h' hst
  | raised h' => cases hx
  | @item c c' y ys x h' hr ih =>
    intro e st hst
    rw [enumN, List.cons_append, List.length_cons, show e + (ys.length + 1) = e + 1 + ys.length by omega]
    refine .item (s' := .on (e + 1) c') (h'.same (fun n hn => ?_)) (ih hx (e + 1) _ (fun n => by rw [Ecs.next]))
    rw [hst, Ecs.next.loop, hn]

/-- `to_ecs` of numbered objects. -/
def ecsList (a : Axis) (s : Nat) (ys : List Nat) : List (Nat × Nat) :=
  if a.orSelf = .always ∧ a.rev = false then
    match ys with
    | [] => [(0, s)]
    | y :: ys => if y ≠ s then (0, s) :: (1, y) :: enumN 2 ys else (0, s) :: enumN 1 ys
  else enumN 0 ys ++ lastItems a s ys.length

theorem ecs_gen {h : Heap} {a : Axis} {s : Nat} {c : Cand} {ys : List Nat}
    (hg : Gen (fun n => Cand.next n h) c ys none) :
    Gen (fun n => Ecs.next a s n h) (.start c) (ecsList a s ys) none := by
  unfold ecsList
  by_cases hc : a.orSelf = .always ∧ a.rev = false
  · rw [if_pos hc]
    have hl : ∀ k, k ≠ 0 → lastItems a s k = [] := by
      intro k hk
      rw [lastItems, if_neg hk, if_neg (by rw [hc.2]; simp)]
    cases hg with
    | ended h' =>
      refine .item (h'.same (fun n hn => ?_)) fin_gen
      rw [Ecs.next, if_pos hc, hn]
    | @item _ c' y ys _ h' hr =>
      dsimp only
      have h1 : Ev (fun n => Ecs.next a s n h (.start c)) (.item (0, s) (.held y c')) := by
        refine h'.same (fun n hn => ?_)
        rw [Ecs.next, if_pos hc, hn]
      by_cases hy : y ≠ s
      · rw [if_pos hy]
        refine .item h1 (.item (.always (fun n => by rw [Ecs.next, if_pos hy])) ?_)
        have := ecs_loop (a := a) (s := s) hr rfl 2 (.on 2 c') (fun n => by rw [Ecs.next])
        rwa [hl _ (by omega), List.append_nil] at this
      · rw [if_neg hy]
        refine .item h1 ?_
        have := ecs_loop (a := a) (s := s) hr rfl 1 (.held y c') (fun n => by rw [Ecs.next, if_neg hy])
        rwa [hl _ (by omega), List.append_nil] at this
  · rw [if_neg hc]
    have := ecs_loop (a := a) (s := s) hg rfl 0 (.start c) (fun n => by rw [Ecs.next, if_neg hc])
    rwa [Nat.zero_add] at this


/-! ## The axes on a tree in memory -/

section
variable {h : Heap} {r : Nat} {t : Node} (H : Holds h r t)
include H

theorem ancestorsOf_ev {p : Path} (hp : IsNode t p) :
    Ev (fun n => ancestorsOf n h (ob h r p)) ((Query.ancestors p).map (ob h r)) := by
  refine snoc_induction (P := fun p => IsNode t p → Ev (fun n => ancestorsOf n h (ob h r p))
    ((Query.ancestors p).map (ob h r))) ?_ ?_ p hp
  · intro hp
    refine .now (fun n => ?_)
    rw [ancestorsOf, ob_parent H hp, parent_nil, ancestors_nil]; rfl
  · intro p i ih hp
    refine (ih (isNode_parent hp)).bind (fun n hn => ?_)
    rw [ancestorsOf, ob_parent H hp, parent_snoc, ancestors_snoc]
    simp only [Option.map_some]
    rw [hn]; rfl

theorem getRoot_ev {p : Path} (hp : IsNode t p) : Ev (fun n => h.getRoot n (ob h r p)) (ob h r (climb p)) := by
  rw [climb_eq]
  refine snoc_induction (P := fun p => IsNode t p → Ev (fun n => h.getRoot n (ob h r p)) (ob h r [])) ?_ ?_ p hp
  · intro hp
    refine .now (fun n => ?_)
    rw [Heap.getRoot, ob_parent H hp, parent_nil]; rfl
  · intro p i ih hp
    refine (ih (isNode_parent hp)).bind (fun n hn => ?_)
    rw [Heap.getRoot, ob_parent H hp, parent_snoc]
    exact hn

theorem any_ob {ps : List Path} (hps : ∀ q ∈ ps, IsNode t q) {p : Path} (hp : IsNode t p) :
    (ps.map (ob h r)).any (fun q => eqv h q (ob h r p)) = ps.any (fun q => decide (keyAt t q = keyAt t p)) := by
  rw [List.any_map]
  induction ps with
  | nil => rfl
  | cons q qs ih =>
    rw [List.any_cons, List.any_cons, ih (fun x hx => hps x (List.mem_cons_of_mem _ hx))]
    congr 1
    exact ob_key H (hps q List.mem_cons_self) hp

theorem findIdx_ob {ps : List Path} (hps : ∀ q ∈ ps, IsNode t q) {p : Path} (hp : IsNode t p) :
    (ps.map (ob h r)).findIdx? (fun q => eqv h q (ob h r p)) = ps.findIdx? (fun q => decide (keyAt t q = keyAt t p)) := by
  induction ps with
  | nil => rfl
  | cons q qs ih =>
    rw [List.map_cons, List.findIdx?_cons, List.findIdx?_cons, ih (fun x hx => hps x (List.mem_cons_of_mem _ hx)),
      ob_key H (hps q List.mem_cons_self) hp]

theorem isNode_children {p q : Path} (hp : IsNode t p) (hq : q ∈ children t p) : IsNode t q := by
  obtain ⟨n, hn⟩ := isNode_iff.mp hp
  exact ((mem_children hn q).mp hq).1

theorem indexOf_ob {p q : Path} (hp : IsNode t p) (hq : IsNode t q) :
    indexOf h (ob h r p) (ob h r q) = childIndex t p q := by
  unfold indexOf childIndex
  rw [ob_kids H hp, findIdx_ob H (fun x hx => isNode_children H hp hx) hq]
  cases (children t p).findIdx? (fun c => decide (keyAt t c = keyAt t q)) <;> rfl

/-- The candidates of an Ito. -/
def Cands (h : Heap) (r : Nat) (t : Node) (f : Nat → Option (Except PyErr Cand)) (o : Except PyErr (List Path)) : Prop :=
  match o with
  | .error e => Ev f (.error e)
  | .ok ns => (∀ q ∈ ns, IsNode t q) ∧ ∃ c, Ev f (.ok c) ∧ Gen (fun n => Cand.next n h) c (ns.map (ob h r)) none

theorem cands_list {f : Nat → Option (Except PyErr Cand)} {ns : List Path} {xs : List Nat} (hx : xs = ns.map (ob h r))
    (hns : ∀ q ∈ ns, IsNode t q) (hf : Ev f (.ok (.list xs))) : Cands h r t f (.ok ns) :=
  ⟨hns, .list xs, hf, by rw [hx]; exact list_gen _⟩

theorem filter_ob {ps : List Path} {f : Nat → Bool} {g : Path → Bool} (hfg : ∀ q ∈ ps, f (ob h r q) = g q) :
    (ps.map (ob h r)).filter f = (ps.filter g).map (ob h r) := by
  induction ps with
  | nil => rfl
  | cons q qs ih =>
    rw [List.map_cons, List.filter_cons, List.filter_cons, hfg q List.mem_cons_self,
      ih (fun x hx => hfg x (List.mem_cons_of_mem _ hx))]
    cases g q <;> rfl

theorem takeWhile_ob {ps : List Path} {f : Nat → Bool} {g : Path → Bool} (hfg : ∀ q ∈ ps, f (ob h r q) = g q) :
    (ps.map (ob h r)).takeWhile f = (ps.takeWhile g).map (ob h r) := by
  induction ps with
  | nil => rfl
  | cons q qs ih =>
    rw [List.map_cons, List.takeWhile_cons, List.takeWhile_cons, hfg q List.mem_cons_self,
      ih (fun x hx => hfg x (List.mem_cons_of_mem _ hx))]
    cases g q <;> rfl

theorem dropWhile_ob {ps : List Path} {f : Nat → Bool} {g : Path → Bool} (hfg : ∀ q ∈ ps, f (ob h r q) = g q) :
    (ps.map (ob h r)).dropWhile f = (ps.dropWhile g).map (ob h r) := by
  induction ps with
  | nil => rfl
  | cons q qs ih =>
    rw [List.map_cons, List.dropWhile_cons, List.dropWhile_cons, hfg q List.mem_cons_self,
      ih (fun x hx => hfg x (List.mem_cons_of_mem _ hx))]
    cases g q <;> rfl

theorem take_nodes {ps : List Path} (hps : ∀ q ∈ ps, IsNode t q) (k : Nat) : ∀ q ∈ ps.take k, IsNode t q :=
  fun q hq => hps q (List.mem_of_mem_take hq)

/-- The axes with a loop. -/
theorem cands_ev (a : Axis) {p : Path} (hp : IsNode t p) (hk : a.key ≠ .self ∧ a.key ≠ .dedup ∧ a.key ≠ .preceding ∧
    a.key ≠ .following) : Cands h r t (fun n => cands n h a (ob h r p)) (a.step t p) := by
  obtain ⟨key, rev, o⟩ := a
  have hpar := ob_parent H hp
  unfold Axis.step
  cases key with
  | self => exact absurd rfl hk.1
  | dedup => exact absurd rfl hk.2.1
  | preceding => exact absurd rfl hk.2.2.1
  | following => exact absurd rfl hk.2.2.2
  | root =>
    dsimp only
    cases hq : Query.parent p with
    | none =>
      rw [hq] at hpar
      refine cands_list H (xs := []) rfl (by simp) (.always (fun n => ?_))
      simp only [cands, hpar, Option.map_none]
    | some q =>
      rw [hq] at hpar
      have hn : IsNode t q := by
        rcases path_cases p with rfl | ⟨q', i, rfl⟩
        · cases hq
        · rw [parent_snoc, Option.some.injEq] at hq; exact hq ▸ isNode_parent hp
      refine cands_list H (xs := [ob h r (climb q)]) rfl ?_ ((getRoot_ev H hn).same (fun n hn => ?_))
      · intro x hx
        rw [List.mem_singleton] at hx
        rw [hx, climb_eq]
        exact isNode_nil t
      · simp only [cands, hpar, Option.map_some]
        rw [hn]; rfl
  | ancestors =>
    dsimp only
    refine cands_list H (xs := if rev then ((Query.ancestors p).map (ob h r)).reverse else (Query.ancestors p).map (ob h r))
      ?_ ?_ ((ancestorsOf_ev H hp).same (fun n hn => ?_))
    · cases rev <;> simp
    · intro x hx
      refine isNode_ancestors H hp (q := x) ?_
      cases rev <;> simpa using hx
    · simp only [cands]
      rw [hn]; rfl
  | parent =>
    dsimp only
    cases hq : Query.parent p with
    | none =>
      rw [hq] at hpar
      refine cands_list H (xs := []) rfl (by simp) (.always (fun n => ?_))
      simp only [cands, hpar, Option.map_none]; rfl
    | some q =>
      rw [hq] at hpar
      have hn : IsNode t q := by
        rcases path_cases p with rfl | ⟨q', i, rfl⟩
        · cases hq
        · rw [parent_snoc, Option.some.injEq] at hq; exact hq ▸ isNode_parent hp
      refine cands_list H (xs := [ob h r q]) rfl ?_ (.always (fun n => ?_))
      · intro x hx
        rw [List.mem_singleton] at hx
        rw [hx]; exact hn
      · simp only [cands, hpar, Option.map_some]; rfl
  | children =>
    dsimp only
    refine ⟨fun x hx => isNode_children H hp (by cases rev <;> simpa using hx), ?_⟩
    cases rev with
    | false =>
      refine ⟨.kids (ob h r p) 0, .always (fun n => rfl), ?_⟩
      rw [if_neg (by simp), ← ob_kids H hp]
      exact kids_gen _ 0 rfl
    | true =>
      refine ⟨.kidsRev (ob h r p) none, .always (fun n => rfl), ?_⟩
      rw [if_pos rfl, List.map_reverse, ← ob_kids H hp]
      exact kidsRev_gen'
  | descendants =>
    dsimp only
    refine ⟨fun x hx => isNode_walkAt H hp hx, _, .always (fun n => rfl), ?_⟩
    have := sieve_gen (anc := []) (walk_gen H hp rev) rfl .all
    rw [sieve_all, List.filter_eq_self.mpr (by simp)] at this
    exact this
  | leaves =>
    dsimp only
    refine ⟨fun x hx => isNode_walkAt H hp ((List.mem_filter.mp hx).1), _, .always (fun n => rfl), ?_⟩
    have := sieve_gen (anc := []) (walk_gen H hp rev) rfl .leaf
    rw [sieve_leaf, filter_ob H (g := isLeaf t)] at this
    · exact this
    · intro q hq
      have hn := isNode_walkAt H hp hq
      rw [ob_kids H hn, isLeaf]
      simp [children]
  | priors =>
    dsimp only
    cases hq : Query.parent p with
    | none =>
      rw [hq] at hpar
      refine cands_list H (xs := []) rfl (by simp) (.always (fun n => ?_))
      simp only [cands, hpar, Option.map_none]
    | some q =>
      rw [hq] at hpar
      have hn : IsNode t q := by
        rcases path_cases p with rfl | ⟨q', i, rfl⟩
        · cases hq
        · rw [parent_snoc, Option.some.injEq] at hq; exact hq ▸ isNode_parent hp
      have hidx := indexOf_ob H hn hp
      dsimp only
      cases hc : childIndex t q p with
      | error e =>
        rw [hc] at hidx
        refine Ev.always (r := Except.error e) (fun n => ?_)
        simp only [cands, hpar, Option.map_some, hidx]
      | ok k =>
        rw [hc] at hidx
        refine cands_list H (xs := if rev then (h.kids (ob h r q)).take k else ((h.kids (ob h r q)).take k).reverse)
          (ns := if rev then (children t q).take k else ((children t q).take k).reverse) ?_ ?_ (.always (fun n => ?_))
        · rw [ob_kids H hn]; cases rev <;> simp
        · intro x hx
          refine isNode_children H hn (q := x) (List.mem_of_mem_take (i := k) ?_)
          cases rev <;> simpa using hx
        · simp only [cands, hpar, Option.map_some, hidx]
  | nexts =>
    dsimp only
    cases hq : Query.parent p with
    | none =>
      rw [hq] at hpar
      refine cands_list H (xs := []) rfl (by simp) (.always (fun n => ?_))
      simp only [cands, hpar, Option.map_none]
    | some q =>
      rw [hq] at hpar
      have hn : IsNode t q := by
        rcases path_cases p with rfl | ⟨q', i, rfl⟩
        · cases hq
        · rw [parent_snoc, Option.some.injEq] at hq; exact hq ▸ isNode_parent hp
      have hidx := indexOf_ob H hn hp
      dsimp only
      cases hc : childIndex t q p with
      | error e =>
        rw [hc] at hidx
        refine Ev.always (r := Except.error e) (fun n => ?_)
        simp only [cands, hpar, Option.map_some, hidx]
      | ok k =>
        rw [hc] at hidx
        refine cands_list H (xs := if rev then ((h.kids (ob h r q)).drop (k + 1)).reverse else (h.kids (ob h r q)).drop (k + 1))
          (ns := if rev then ((children t q).drop (k + 1)).reverse else (children t q).drop (k + 1)) ?_ ?_
          (.always (fun n => ?_))
        · rw [ob_kids H hn]; cases rev <;> simp
        · intro x hx
          refine isNode_children H hn (q := x) (List.mem_of_mem_drop (i := k + 1) ?_)
          cases rev <;> simpa using hx
        · simp only [cands, hpar, Option.map_some, hidx]
  | prior =>
    dsimp only
    cases hq : Query.parent p with
    | none =>
      rw [hq] at hpar
      refine cands_list H (xs := []) rfl (by simp) (.always (fun n => ?_))
      simp only [cands, hpar, Option.map_none]
    | some q =>
      rw [hq] at hpar
      have hn : IsNode t q := by
        rcases path_cases p with rfl | ⟨q', i, rfl⟩
        · cases hq
        · rw [parent_snoc, Option.some.injEq] at hq; exact hq ▸ isNode_parent hp
      have hidx := indexOf_ob H hn hp
      dsimp only
      cases hc : childIndex t q p with
      | error e =>
        rw [hc] at hidx
        refine Ev.always (r := Except.error e) (fun n => ?_)
        simp only [cands, hpar, Option.map_some, hidx]
      | ok k =>
        rw [hc] at hidx
        refine cands_list H (xs := if k > 0 then ((h.kids (ob h r q))[k - 1]?).toList else [])
          (ns := if k > 0 then ((children t q)[k - 1]?).toList else []) ?_ ?_ (.always (fun n => ?_))
        · rw [ob_kids H hn, List.getElem?_map]
          split
          · cases (children t q)[k - 1]? <;> rfl
          · rfl
        · intro x hx
          refine isNode_children H hn (q := x) ?_
          split at hx
          · exact List.mem_of_getElem? (by simpa using hx)
          · cases hx
        · simp only [cands, hpar, Option.map_some, hidx]
  | next =>
    dsimp only
    cases hq : Query.parent p with
    | none =>
      rw [hq] at hpar
      refine cands_list H (xs := []) rfl (by simp) (.always (fun n => ?_))
      simp only [cands, hpar, Option.map_none]
    | some q =>
      rw [hq] at hpar
      have hn : IsNode t q := by
        rcases path_cases p with rfl | ⟨q', i, rfl⟩
        · cases hq
        · rw [parent_snoc, Option.some.injEq] at hq; exact hq ▸ isNode_parent hp
      have hidx := indexOf_ob H hn hp
      dsimp only
      cases hc : childIndex t q p with
      | error e =>
        rw [hc] at hidx
        refine Ev.always (r := Except.error e) (fun n => ?_)
        simp only [cands, hpar, Option.map_some, hidx]
      | ok k =>
        rw [hc] at hidx
        refine cands_list H (xs := if k + 1 < (h.kids (ob h r q)).length then ((h.kids (ob h r q))[k + 1]?).toList else [])
          (ns := if k + 1 < (children t q).length then ((children t q)[k + 1]?).toList else []) ?_ ?_ (.always (fun n => ?_))
        · rw [ob_kids H hn, List.getElem?_map, List.length_map]
          split
          · cases (children t q)[k + 1]? <;> rfl
          · rfl
        · intro x hx
          refine isNode_children H hn (q := x) ?_
          split at hx
          · exact List.mem_of_getElem? (by simpa using hx)
          · cases hx
        · simp only [cands, hpar, Option.map_some, hidx]

/-- `to_ecs` on objects and on paths. -/
theorem ecsList_ob (a : Axis) {p : Path} (hp : IsNode t p) {ns : List Path} (hns : ∀ q ∈ ns, IsNode t q) :
    ecsList a (ob h r p) (ns.map (ob h r)) = (a.toEcs ns (some p)).map (fun x => (x.1, ob h r x.2)) := by
  unfold ecsList Axis.toEcs
  dsimp only
  by_cases hc : a.orSelf = .always ∧ a.rev = false
  · rw [if_pos hc, if_pos hc]
    cases ns with
    | nil => rfl
    | cons q qs =>
      have : (ob h r q ≠ ob h r p) ↔ q ≠ p :=
        ⟨fun hh e => hh (by rw [e]), fun hh e => hh (ob_inj H (hns q List.mem_cons_self) hp e)⟩
      simp only [List.map_cons, this]
      split <;> simp [enumN_map]
  · rw [if_neg hc, if_neg hc, enumN_map, List.length_map, lastItems]
    cases ns with
    | nil =>
      rw [List.length_nil, if_pos rfl, enumFrom]
      dsimp only
      split <;> rfl
    | cons q qs =>
      rw [List.length_cons, if_neg (by omega), List.map_append]
      congr 1
      split <;> rfl

theorem skipTo_gen {i : Nat} {w : Walk} {ys : List Nat} {e : Option PyErr} (hg : Gen (fun n => Walk.next n h) w ys e)
    (he : e = none) (hi : i ∈ ys) : ∃ w', Ev (fun n => skipTo n h i w) (.ok w') ∧
    Gen (fun n => Walk.next n h) w' ((ys.dropWhile (fun j => decide (j ≠ i))).drop 1) none := by
  induction hg with
  | ended h' => cases hi
  | raised h' => cases he
  | @item w w' y ys e h' hr ih =>
    by_cases hy : y = i
    · refine ⟨w', h'.bind (fun n hn => ?_), ?_⟩
      · rw [skipTo, hn]
        exact if_pos hy
      · rw [List.dropWhile_cons_of_neg (by simpa using hy), List.drop_one, List.tail_cons]
        exact he ▸ hr
    · have hi' : i ∈ ys := by
        rcases List.mem_cons.mp hi with e | e
        · exact absurd e.symm hy
        · exact e
      obtain ⟨w'', h1, h2⟩ := ih he hi'
      refine ⟨w'', h'.both h1 (fun n hn h3 => ?_), ?_⟩
      · rw [skipTo, hn]
        dsimp only
        rw [if_neg hy]
        exact h3
      · rw [List.dropWhile_cons_of_pos (by simpa using hy)]
        exact h2

/-- `'<<<'` and `'>>>'` after their loop. -/
theorem tail_ev (a : Axis) {p : Path} (hp : IsNode t p) (hp0 : p ≠ []) (hk : a.key = .preceding ∨ a.key = .following) :
    ∃ ns, (∀ q ∈ ns, IsNode t q) ∧ (∃ c, Ev (fun n => tail n h a (ob h r p)) (.ok c) ∧
      Gen (fun n => Cand.next n h) c (ns.map (ob h r)) none) ∧
      (if a.key = .preceding then a.precedingTail t p else a.followingTail t p) = a.toEcs ns (some p) := by
  have hroot := getRoot_ev H hp
  have hanc := ancestorsOf_ev H hp
  have h0 := isNode_nil t
  rw [climb_eq] at hroot
  have hmem : ∀ rev : Bool, p ∈ walkAt t rev [] := fun rev => (mem_walk_root t rev p).mpr ⟨hp, hp0⟩
  rcases hk with hk | hk
  · rw [if_pos hk]
    have hfilt : ∀ ps : List Path, (∀ q ∈ ps, IsNode t q) →
        (ps.map (ob h r)).filter (fun j => !((Query.ancestors p).map (ob h r)).any (fun q => eqv h q j)) =
        (ps.filter (fun j => !(Query.ancestors p).any (fun q => decide (keyAt t q = keyAt t j)))).map (ob h r) := by
      intro ps hps
      refine filter_ob H (fun q hq => ?_)
      rw [any_ob H (fun x hx => isNode_ancestors H hp hx) (hps q hq)]
    cases hr : a.rev with
    | true =>
      refine ⟨((walkAt t false []).takeWhile (fun j => decide (j ≠ p))).filter
        (fun j => !(Query.ancestors p).any (fun q => decide (keyAt t q = keyAt t j))), ?_, ⟨.walk (.start false (ob h r [])) (.until (.is (ob h r p))) ((Query.ancestors p).map (ob h r)), ?_, ?_⟩, ?_⟩
      · intro q hq
        exact isNode_walkAt H h0 (List.takeWhile_sublist _ |>.subset (List.mem_filter.mp hq).1)
      · obtain ⟨N, hN⟩ := hroot
        obtain ⟨M, hM⟩ := hanc
        refine ⟨N + M, fun n hn => ?_⟩
        simp only [tail, hN n (Nat.le_trans (by omega) hn), hM n (Nat.le_trans (by omega) hn)]
        rw [if_pos hk]
        rw [if_pos hr]
      · have := sieve_gen (anc := (Query.ancestors p).map (ob h r)) (walk_gen H h0 false) rfl (.until (.is (ob h r p)))
        rw [sieve_until, takeWhile_ob H (g := fun j => decide (j ≠ p)), hfilt] at this
        · exact this
        · exact fun q hq => isNode_walkAt H h0 (List.takeWhile_sublist _ |>.subset hq)
        · intro q hq
          have : (ob h r q = ob h r p) ↔ q = p :=
            ⟨fun e => ob_inj H (isNode_walkAt H h0 hq) hp e, fun e => by rw [e]⟩
          simp [Cond.holds, this]
      · rw [Axis.precedingTail, hr, climb_eq]; rfl
    | false =>
      obtain ⟨w', h1, h2⟩ := skipTo_gen H (i := ob h r p) (walk_gen H h0 true) rfl
        (List.mem_map.mpr ⟨p, hmem true, rfl⟩)
      rw [dropWhile_ob H (g := fun j => decide (j ≠ p)), ← List.map_drop] at h2
      · refine ⟨(((walkAt t true []).dropWhile (fun j => decide (j ≠ p))).drop 1).filter
          (fun j => !(Query.ancestors p).any (fun q => decide (keyAt t q = keyAt t j))), ?_, ⟨.walk w' .all ((Query.ancestors p).map (ob h r)), ?_, ?_⟩, ?_⟩
        · intro q hq
          exact isNode_walkAt H h0 (List.dropWhile_sublist _ |>.subset (List.mem_of_mem_drop (List.mem_filter.mp hq).1))
        · obtain ⟨N, hN⟩ := hroot
          obtain ⟨M, hM⟩ := hanc
          obtain ⟨L, hL⟩ := h1
          refine ⟨N + M + L, fun n hn => ?_⟩
          simp only [tail, hN n (Nat.le_trans (by omega) hn), hM n (Nat.le_trans (by omega) hn)]
          rw [if_pos hk]
          rw [if_neg (by rw [hr]; simp)]
          simp only [hL n (Nat.le_trans (by omega) hn)]
        · have := sieve_gen (anc := (Query.ancestors p).map (ob h r)) h2 rfl .all
          rw [sieve_all, hfilt] at this
          · exact this
          · exact fun q hq => isNode_walkAt H h0 (List.dropWhile_sublist _ |>.subset (List.mem_of_mem_drop hq))
        · rw [Axis.precedingTail, hr, climb_eq]; rfl
      · intro q hq
        have : (ob h r q = ob h r p) ↔ q = p :=
          ⟨fun e => ob_inj H (isNode_walkAt H h0 hq) hp e, fun e => by rw [e]⟩
        simp [this]
  · have hk' : a.key ≠ .preceding := by rw [hk]; simp
    rw [if_neg hk']
    cases hr : a.rev with
    | true =>
      refine ⟨(walkAt t true []).takeWhile (fun j => decide (startAt t j ≥ stopAt t p)), ?_, ⟨.walk (.start true (ob h r [])) (.until (.before (ob h r p))) [], ?_, ?_⟩, ?_⟩
      · intro q hq
        exact isNode_walkAt H h0 (List.takeWhile_sublist _ |>.subset hq)
      · refine hroot.same (fun n hn => ?_)
        rw [tail, hn]
        dsimp only
        rw [if_neg hk', if_pos hr]
      · have := sieve_gen (anc := []) (walk_gen H h0 true) rfl (.until (.before (ob h r p)))
        rw [sieve_until, takeWhile_ob H (g := fun j => decide (startAt t j ≥ stopAt t p)),
          List.filter_eq_self.mpr (by simp)] at this
        · exact this
        · intro q hq
          have hn := isNode_walkAt H h0 hq
          simp only [Cond.holds, ob_start H hn, ob_stop H hp]
          by_cases e : startAt t q < stopAt t p
          · simp [e]
          · simp [e]; omega
      · rw [Axis.followingTail, hr, climb_eq]; rfl
    | false =>
      refine ⟨(walkAt t false []).dropWhile (fun j => decide (startAt t j < stopAt t p)), ?_, ⟨.walk (.start false (ob h r [])) (.since (.before (ob h r p))) [], ?_, ?_⟩, ?_⟩
      · intro q hq
        exact isNode_walkAt H h0 (List.dropWhile_sublist _ |>.subset hq)
      · refine hroot.same (fun n hn => ?_)
        rw [tail, hn]
        dsimp only
        rw [if_neg hk', if_neg (by rw [hr]; simp)]
      · have := sieve_gen (anc := []) (walk_gen H h0 false) rfl (.since (.before (ob h r p)))
        rw [sieve_since, dropWhile_ob H (g := fun j => decide (startAt t j < stopAt t p))] at this
        · exact this
        · intro q hq
          have hn := isNode_walkAt H h0 hq
          simp only [Cond.holds, ob_start H hn, ob_stop H hp]
      · rw [Axis.followingTail, hr, climb_eq]; rfl

theorem dedup_ob : ∀ (ps seen : List Path), (∀ q ∈ ps, IsNode t q) → (∀ q ∈ seen, IsNode t q) →
    dedupObjs h (seen.map (ob h r)) (ps.map (ob h r)) = (Query.dedup t seen ps).map (ob h r)
  | [], seen, _, _ => rfl
  | p :: ps, seen, hps, hs => by
    rw [List.map_cons, dedupObjs, Query.dedup, any_ob H hs (hps p List.mem_cons_self)]
    by_cases hc : seen.any (fun q => decide (keyAt t q = keyAt t p)) = true
    · rw [if_pos hc, if_pos hc]
      exact dedup_ob ps seen (fun x hx => hps x (List.mem_cons_of_mem _ hx)) hs
    · rw [if_neg hc, if_neg hc]
      have := dedup_ob ps (seen ++ [p]) (fun x hx => hps x (List.mem_cons_of_mem _ hx)) (by
        intro q hq
        rcases List.mem_append.mp hq with hq | hq
        · exact hs q hq
        · rw [List.mem_singleton] at hq; exact hq ▸ hps p List.mem_cons_self)
      rw [List.map_append, List.map_singleton] at this
      exact this

theorem dedup_nodes : ∀ (ps seen : List Path), (∀ q ∈ ps, IsNode t q) → (∀ q ∈ seen, IsNode t q) →
    ∀ q ∈ Query.dedup t seen ps, IsNode t q
  | [], seen, _, hs => hs
  | p :: ps, seen, hps, hs => by
    rw [Query.dedup]
    split
    · exact dedup_nodes ps seen (fun x hx => hps x (List.mem_cons_of_mem _ hx)) hs
    · refine dedup_nodes ps _ (fun x hx => hps x (List.mem_cons_of_mem _ hx)) ?_
      intro q hq
      rcases List.mem_append.mp hq with hq | hq
      · exact hs q hq
      · rw [List.mem_singleton] at hq; exact hq ▸ hps p List.mem_cons_self
end

end LazyQuery
end Pawpaw
