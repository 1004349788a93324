import Verif.Props.Arbor
import Verif.Props.Tree
/-!
# C53 for Itos with children: exactly what `Invert` does
-/
set_option linter.unusedSectionVars false
namespace Pawpaw.Props
open Pawpaw PyStr SpanSpec TreeSpec Arbor ArborSpec

/-- All children lie inside the span. -/
def KidsFit (ks : List Node) (g : Span) : Prop := ∀ k ∈ ks, Inside g k.span

instance (ks : List Node) (g : Span) : Decidable (KidsFit ks g) := inferInstanceAs (Decidable (∀ k ∈ ks, _))

/-- The pieces `ys`, given the children of `n`, up to the first in which they do not all fit. -/
def fitted (n : Node) (e : Option PyErr) : List Node → Run Node
  | [] => ⟨[], e⟩
  | y :: ys =>
    if KidsFit n.kids y.span then .yield (.mk y.span y.desc y.vf n.kids) (fitted n e ys) else .raise .valueError

theorem fitted_yes {n : Node} {sp : Span} (hf : KidsFit n.kids sp) (e : Option PyErr) (d : Option String) (v : Option Nat)
    (ks ys : List Node) : fitted n e (.mk sp d v ks :: ys) = .yield (.mk sp d v n.kids) (fitted n e ys) := by
  rw [fitted, if_pos (show KidsFit n.kids (Node.mk sp d v ks).span from hf)]
  rfl

theorem fitted_no {n : Node} {sp : Span} (hf : ¬ KidsFit n.kids sp) (e : Option PyErr) (d : Option String) (v : Option Nat)
    (ks ys : List Node) : fitted n e (.mk sp d v ks :: ys) = .raise .valueError := by
  rw [fitted, if_neg (show ¬ KidsFit n.kids (Node.mk sp d v ks).span from hf)]

/-- The node without its children. -/
def bare (n : Node) : Node := .mk n.span n.desc n.vf []

theorem bare_clone (len : Nat) (n : Node) (st en : Option Int) (d : Option String) :
    (bare n).cloneWith len st en (some d) =
      .ok (.mk (Span.fromIndices len (some (st.getD n.start)) (some (en.getD n.stop))) d n.vf []) := rfl

theorem clone_fitted (len : Nat) (n : Node) (h : WF n) (hl : n.stop ≤ len) (st en : Option Int) (d : Option String) :
    n.cloneWith len st en (some d) =
      if KidsFit n.kids (Span.fromIndices len (some (st.getD n.start)) (some (en.getD n.stop))) then
        .ok (.mk (Span.fromIndices len (some (st.getD n.start)) (some (en.getD n.stop))) d n.vf n.kids)
      else .error .valueError := by
  split
  · rename_i hf
    exact C23_clone_with len n h hl st en (some d) true _ rfl (fun _ k hk => hf k hk)
  · rename_i hf
    refine C23_clone_with_raises len n h hl st en (some d) _ rfl ?_
    unfold KidsFit at hf
    simp only [Classical.not_forall] at hf
    obtain ⟨k, hk, hn⟩ := hf
    exact ⟨k, hk, hn⟩

theorem invertLoop_fitted (len : Nat) (n : Node) (h : WF n) (hl : n.stop ≤ len) (desc : Option String) (e : Option PyErr) :
    ∀ (is : List Span) (start : Int) (last : Option Span),
      invertLoop len n desc start last is e =
        fitted n (invertLoop len (bare n) desc start last is e).exc (invertLoop len (bare n) desc start last is e).out
  | [], start, last => by
    cases e with
    | some e => simp [invertLoop, Run.raise, fitted]
    | none =>
      have e1 : (bare n).start = n.start := rfl
      have e2 : (bare n).stop = n.stop := rfl
      simp only [invertLoop, invertTail, bare_clone, clone_fitted len n h hl, e1, e2]
      by_cases hs : start = n.start
      · simp only [if_pos hs]
        generalize Span.fromIndices _ _ _ = sp
        by_cases hf : KidsFit n.kids sp
        · simp only [if_pos hf, Run.yield, Run.done, fitted_yes hf, fitted]
        · simp only [if_neg hf, Run.yield, Run.done, fitted_no hf]
      · simp only [if_neg hs]
        cases last with
        | none => simp [Run.raise, fitted]
        | some i =>
          dsimp only
          by_cases hlt : i.stop < n.stop
          · simp only [if_pos hlt]
            generalize Span.fromIndices _ _ _ = sp
            by_cases hf : KidsFit n.kids sp
            · simp only [if_pos hf, Run.yield, Run.done, fitted_yes hf, fitted]
            · simp only [if_neg hf, Run.yield, Run.done, fitted_no hf]
          · simp only [if_neg hlt, Run.done, fitted]
  | i :: is, start, last => by
    have e1 : (bare n).start = n.start := rfl
    simp only [invertLoop, bare_clone, clone_fitted len n h hl]
    by_cases hs : start < i.start
    · simp only [if_pos hs]
      rw [invertLoop_fitted len n h hl desc e is i.stop (some i)]
      generalize Span.fromIndices _ _ _ = sp
      by_cases hf : KidsFit n.kids sp
      · simp only [if_pos hf, Run.yield, Run.done, fitted_yes hf, fitted]
      · simp only [if_neg hf, Run.yield, Run.done, fitted_no hf]
    · simp only [if_neg hs]
      exact invertLoop_fitted len n h hl desc e is i.stop (some i)

theorem fitted_gaps (n : Node) (desc : Option String) (v : Option Nat) : ∀ (gaps : List Span),
    (fitted n none (gaps.map fun g => .mk g desc v [])).out =
        (gaps.takeWhile fun g => decide (KidsFit n.kids g)).map (fun g => .mk g desc v n.kids) ∧
    (fitted n none (gaps.map fun g => .mk g desc v [])).exc =
        if ∀ g ∈ gaps, KidsFit n.kids g then none else some .valueError
  | [] => by simp [fitted]
  | g :: gs => by
    obtain ⟨i1, i2⟩ := fitted_gaps n desc v gs
    rw [List.map_cons]
    by_cases hf : KidsFit n.kids g
    · simp [fitted_yes hf, Run.yield, i1, i2, hf]
    · simp [fitted_no hf, Run.raise, hf]

/-- C53 for every Ito, with or without children: for an inner itorator whose results are in order, disjoint and
inside the (non-empty) Ito, let `gaps` be the parts they do not cover.  `Invert` yields, in order, a copy of the Ito
(with `desc` and with copies of ALL its children) on each gap, up to the first gap in which the children do not
all lie; there it raises `ValueError`.  So it ends normally if and only if every gap contains every child. -/
theorem C53_children_exact (len : Nat) (n : Node) (h : WF n) (hl : n.stop ≤ len) (hne : n.start < n.stop)
    (desc : Option String) (is : List Span) (ho : OrderedIn n.start n.stop is) :
    ∃ gaps, Complement n.start n.stop is gaps ∧
      (invert len n desc ⟨is, none⟩).out =
        (gaps.takeWhile fun g => decide (KidsFit n.kids g)).map (fun g => .mk g desc n.vf n.kids) ∧
      (invert len n desc ⟨is, none⟩).exc = (if ∀ g ∈ gaps, KidsFit n.kids g then none else some .valueError) := by
  have h0 : 0 ≤ n.start := by cases h; assumption
  obtain ⟨gaps, e, hc⟩ := C53_complement_partial len (bare n) rfl desc h0 hne hl is ho
  refine ⟨gaps, hc, ?_⟩
  unfold invert at e ⊢
  rw [invertLoop_fitted len n h hl desc none is _ none]
  have e1 : (bare n).start = n.start := rfl
  rw [e1] at e
  dsimp only at e ⊢
  rw [e]
  exact fitted_gaps n desc n.vf gaps

/-- C53: an Ito with a child that is not of zero width is inverted without `ValueError` only if there is at most one
gap; the children are then within it. -/
theorem C53_children_one_gap (len : Nat) (n : Node) (h : WF n) (hl : n.stop ≤ len) (hne : n.start < n.stop)
    (desc : Option String) (is : List Span) (ho : OrderedIn n.start n.stop is)
    (hw : ∃ k ∈ n.kids, k.start < k.stop) (hok : (invert len n desc ⟨is, none⟩).exc = none) :
    (invert len n desc ⟨is, none⟩).out.length ≤ 1 ∧
    ∀ m ∈ (invert len n desc ⟨is, none⟩).out, KidsFit n.kids m.span ∧ m.kids = n.kids := by
  obtain ⟨gaps, hc, e1, e2⟩ := C53_children_exact len n h hl hne desc is ho
  rw [hok] at e2
  have hall : ∀ g ∈ gaps, KidsFit n.kids g := by
    by_cases hg : ∀ g ∈ gaps, KidsFit n.kids g
    · exact hg
    · rw [if_neg hg] at e2; cases e2
  rw [e1]
  refine ⟨?_, ?_⟩
  · obtain ⟨k, hk, hkw⟩ := hw
    match gaps, hc, hall with
    | [], _, _ => simp
    | [g], _, _ =>
      rw [List.length_map]
      exact (List.takeWhile_sublist _).length_le
    | g :: g' :: gs, hc, hall =>
      exfalso
      have a := hall g (by simp) k hk
      have b := hall g' (by simp) k hk
      have c := (List.pairwise_cons.mp hc.ordered).1 g' (by simp)
      have d := hc.inside g (by simp)
      unfold Inside at a b
      simp only [Node.start, Node.stop] at hkw
      omega
  · intro m hm
    rw [List.mem_map] at hm
    obtain ⟨g, hg, rfl⟩ := hm
    exact ⟨hall g ((List.takeWhile_sublist _).mem hg), rfl⟩

/-- Non-trivial cases: the child fits in the only gap; and it fits in the first of two. -/
example : invert 10 (.mk ⟨0, 10⟩ none none [.leaf ⟨6, 7⟩]) none ⟨[⟨0, 4⟩], none⟩ =
    ⟨[.mk ⟨4, 10⟩ none none [.leaf ⟨6, 7⟩]], none⟩ := by decide
example : invert 10 (.mk ⟨0, 10⟩ none none [.leaf ⟨1, 2⟩]) none ⟨[⟨3, 4⟩], none⟩ =
    ⟨[.mk ⟨0, 3⟩ none none [.leaf ⟨1, 2⟩]], some .valueError⟩ := by decide

end Pawpaw.Props
