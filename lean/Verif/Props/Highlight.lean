import Verif.Model.Highlight
import Verif.Lemmas.Axis
import Verif.Spec.Spans
import Verif.Lemmas.Slice
/-!
# C57: `Highlighter`
-/
set_option linter.unusedSectionVars false
namespace Pawpaw.Props
open Pawpaw Pawpaw.Highlight TreeSpec SpanSpec
variable {α β : Type}

/-- A segment: a span and the (path of the) node it belongs to.  It is not empty, lies inside the node and
outside of all the node's children: the node is the innermost one around it. -/
def IsSegment (t : Node) (g : Span × List Nat) : Prop :=
  g.1.start < g.1.stop ∧ ∃ m, t.get? g.2 = some m ∧ m.start ≤ g.1.start ∧ g.1.stop ≤ m.stop ∧
    ∀ c ∈ m.kids, c.stop ≤ g.1.start ∨ g.1.stop ≤ c.start

/-- The printed form of segments: those of nodes satisfying the predicate get the colours of the palette,
in turn, from number `k` on; the others have no colour. -/
def render (backs : List β) (s : List α) (pred : List Nat → Bool) : Nat → List (Span × List Nat) → List (Tok β α)
  | _, [] => []
  | k, g :: gs =>
    let t := Tok.text (PyStr.slice s (some g.1.start) (some g.1.stop))
    if pred g.2 then
      match backs[k % backs.length]? with
      | some c => .code c :: t :: .reset :: render backs s pred (k + 1) gs
      | none => []
    else t :: render backs s pred k gs

/-- The number of highlighted segments. -/
def lit (pred : List Nat → Bool) (gs : List (Span × List Nat)) : Nat := (gs.filter (fun g => pred g.2)).length

theorem lit_append (pred : List Nat → Bool) (g1 g2 : List (Span × List Nat)) :
    lit pred (g1 ++ g2) = lit pred g1 + lit pred g2 := by
  unfold lit; rw [List.filter_append, List.length_append]

theorem render_append (backs : List β) (hb : backs ≠ []) (s : List α) (pred : List Nat → Bool)
    (g1 g2 : List (Span × List Nat)) (k : Nat) :
    render backs s pred k (g1 ++ g2) = render backs s pred k g1 ++ render backs s pred (k + lit pred g1) g2 := by
  induction g1 generalizing k with
  | nil => rfl
  | cons g g1 ih =>
    rw [List.cons_append, render, render]
    have hlt : k % backs.length < backs.length := Nat.mod_lt _ (List.length_pos_iff.2 hb)
    by_cases hp : pred g.2 = true
    · rw [if_pos hp, if_pos hp, List.getElem?_eq_getElem hlt]
      simp only
      rw [ih (k + 1)]
      have : k + 1 + lit pred g1 = k + lit pred (g :: g1) := by
        unfold lit; rw [List.filter_cons, if_pos hp, List.length_cons]; omega
      rw [this]; rfl
    · rw [if_neg hp, if_neg hp, ih k]
      have : lit pred g1 = lit pred (g :: g1) := by
        unfold lit; rw [List.filter_cons, if_neg hp]
      rw [this]; rfl

theorem compose_eq (backs : List β) (hb : backs ≠ []) (s : List α) (pred : List Nat → Bool) (path : List Nat)
    (k : Nat) (a b : Int) :
    compose backs s (pred path) k a b =
      .ok (render backs s pred k [(⟨a, b⟩, path)], k + lit pred [(⟨a, b⟩, path)]) := by
  unfold compose render lit nextBack
  have hlt : k % backs.length < backs.length := Nat.mod_lt _ (List.length_pos_iff.2 hb)
  by_cases hp : pred path = true
  · simp only [hp, if_true, List.getElem?_eq_getElem hlt, render, List.filter_cons, List.filter_nil,
      List.length_singleton]
  · simp [hp, render]

theorem tiles_append : ∀ {l1 l2 : List Span} {a b c : Int}, Tiles a b l1 → Tiles b c l2 → Tiles a c (l1 ++ l2)
  | [], _, _, _, _, h1, h2 => by cases h1; exact h2
  | _ :: _, _, _, _, _, ⟨p, q, r⟩, h2 => ⟨p, q, tiles_append r h2⟩

mutual
theorem printNode_spec (backs : List β) (hb : backs ≠ []) (s : List α) (pred : List Nat → Bool) (t : Node) :
    ∀ (n : Node) (path : List Nat) (k : Nat), WF n → t.get? path = some n →
      ∃ gs, printNode backs s pred path k n = .ok (render backs s pred k gs, k + lit pred gs) ∧
        Tiles n.start n.stop (gs.map Prod.fst) ∧ ∀ g ∈ gs, IsSegment t g
  | .mk sp d v ks, path, k, hw, hg => by
    rw [printNode]
    have hk := hw.kidsOK
    have h1 : sp.start ≤ sp.stop := by cases hw; assumption
    exact printKids_spec backs hb s pred t ks path sp d v k [] sp.start (fun c hc => hw.kid hc)
      hk (by simpa using hg) h1 (Int.le_refl _) (by simp)
      (fun c hc => (hk.inside c.span (List.mem_map.2 ⟨c, hc, rfl⟩)).1)
theorem printKids_spec (backs : List β) (hb : backs ≠ []) (s : List α) (pred : List Nat → Bool) (t : Node) :
    ∀ (cs : List Node) (path : List Nat) (sp : Span) (d : Option String) (v : Option Nat) (k : Nat)
      (pre : List Node) (last : Int), (∀ c ∈ cs, WF c) → KidsOK sp (cs.map Node.span) →
      t.get? path = some (.mk sp d v (pre ++ cs)) → last ≤ sp.stop → sp.start ≤ last →
      (∀ c ∈ pre, c.stop ≤ last) → (∀ c ∈ cs, last ≤ c.start) →
      ∃ gs, printKids backs s pred path sp k pre.length last cs =
          .ok (render backs s pred k gs, k + lit pred gs) ∧
        Tiles last sp.stop (gs.map Prod.fst) ∧ ∀ g ∈ gs, IsSegment t g
  | [], path, sp, d, v, k, pre, last, _, _, hg, h1, h2, h3, _ => by
    rw [printKids, part]
    by_cases hlt : last < sp.stop
    · rw [if_pos hlt, compose_eq backs hb]
      refine ⟨[(⟨last, sp.stop⟩, path)], rfl, ⟨rfl, h1, rfl⟩, ?_⟩
      intro g hg'
      rw [List.mem_singleton] at hg'
      subst hg'
      refine ⟨hlt, _, hg, h2, Int.le_refl _, ?_⟩
      intro c hc
      left
      exact h3 c (by simpa [Node.kids] using hc)
    · rw [if_neg hlt]
      exact ⟨[], rfl, by show last = sp.stop; omega, by simp⟩
  | c :: cs, path, sp, d, v, k, pre, last, hw, hk, hg, h1, h2, h3, h4 => by
    rw [printKids]
    have hin := hk.inside c.span (by simp)
    have hlc := h4 c List.mem_cons_self
    simp only [Node.start, Node.stop] at *
    -- the part before the child
    obtain ⟨g1, e1, t1, s1⟩ : ∃ g1, part backs s (pred path) k last c.span.start = .ok (render backs s pred k g1, k + lit pred g1) ∧
        Tiles last c.span.start (g1.map Prod.fst) ∧ ∀ g ∈ g1, IsSegment t g := by
      unfold part
      by_cases hlt : last < c.span.start
      · rw [if_pos hlt, compose_eq backs hb]
        refine ⟨_, rfl, ⟨rfl, hlc, rfl⟩, ?_⟩
        intro g hg'
        rw [List.mem_singleton] at hg'
        subst hg'
        refine ⟨hlt, _, hg, h2, by
          show c.span.start ≤ sp.stop
          omega, ?_⟩
        intro q hq
        simp only [Node.kids, List.mem_append, List.mem_cons] at hq
        simp only [Node.start, Node.stop]
        rcases hq with hq | rfl | hq
        · left; exact h3 q hq
        · right; exact Int.le_refl _
        · right
          have := hk.ordered
          rw [List.map_cons, List.pairwise_cons] at this
          have := (this.1 q.span (List.mem_map.2 ⟨q, hq, rfl⟩)).1
          omega
      · rw [if_neg hlt]
        exact ⟨[], rfl, by show last = c.span.start; omega, by simp⟩
    have hc : t.get? (path ++ [pre.length]) = some c := by
      rw [Query.get?_snoc hg]
      simp [Node.kids]
    obtain ⟨g2, e2, t2, s2⟩ := printNode_spec backs hb s pred t c (path ++ [pre.length]) (k + lit pred g1)
      (hw c List.mem_cons_self) hc
    have hk' : KidsOK sp (cs.map Node.span) := by
      refine ⟨fun x hx => hk.inside x (by rw [List.map_cons]; exact List.mem_cons_of_mem _ hx), ?_⟩
      have := hk.ordered
      rw [List.map_cons, List.pairwise_cons] at this
      exact this.2
    obtain ⟨g3, e3, t3, s3⟩ := printKids_spec backs hb s pred t cs path sp d v (k + lit pred g1 + lit pred g2)
      (pre ++ [c]) c.span.stop (fun x hx => hw x (List.mem_cons_of_mem _ hx)) hk'
      (by rw [hg]; simp) hin.2.2 (by omega)
      (by
        intro x hx
        simp only [Node.stop]
        rcases List.mem_append.1 hx with hx | hx
        · have := h3 x hx; omega
        · rw [List.mem_singleton] at hx; rw [hx]; exact Int.le_refl _)
      (by
        intro x hx
        simp only [Node.start]
        have := hk.ordered
        rw [List.map_cons, List.pairwise_cons] at this
        exact (this.1 x.span (List.mem_map.2 ⟨x, hx, rfl⟩)).2)
    rw [List.length_append, List.length_singleton] at e3
    refine ⟨g1 ++ g2 ++ g3, ?_, ?_, ?_⟩
    · rw [e1]
      simp only [bind, Except.bind, e2, e3, pure, Except.pure]
      rw [render_append backs hb, render_append backs hb, lit_append, lit_append, lit_append]
      simp only [Nat.add_assoc]
    · rw [List.map_append, List.map_append]
      exact tiles_append (tiles_append t1 t2) t3
    · intro g hg'
      rcases List.mem_append.1 hg' with hg' | hg'
      · rcases List.mem_append.1 hg' with hg' | hg'
        · exact s1 g hg'
        · exact s2 g hg'
      · exact s3 g hg'
end

/-- **C57.** For every well-formed tree, non-empty palette and predicate, `Highlighter.print` prints a
sequence of segments which tile the Ito; each is not empty and has one innermost node.  Segments of
nodes satisfying the predicate get the palette's colours in turn. -/
theorem C57_segments (backs : List β) (hb : backs ≠ []) (s : List α) (pred : List Nat → Bool) (n : Node)
    (hw : WF n) :
    ∃ gs, print backs s pred n = .ok (render backs s pred 0 gs) ∧
      Tiles n.start n.stop (gs.map Prod.fst) ∧ ∀ g ∈ gs, IsSegment n g := by
  obtain ⟨gs, h1, h2, h3⟩ := printNode_spec backs hb s pred n n [] 0 hw rfl
  refine ⟨gs, ?_, h2, h3⟩
  unfold Highlight.print
  rw [h1]

/-- The printed text without the codes. -/
def plain : List (Tok β α) → List α
  | [] => []
  | .text s :: ts => s ++ plain ts
  | _ :: ts => plain ts

theorem plain_render (backs : List β) (hb : backs ≠ []) (s : List α) (pred : List Nat → Bool)
    (gs : List (Span × List Nat)) (k : Nat) :
    plain (render backs s pred k gs) =
      gs.flatMap (fun g => PyStr.slice s (some g.1.start) (some g.1.stop)) := by
  induction gs generalizing k with
  | nil => rfl
  | cons g gs ih =>
    have hlt : k % backs.length < backs.length := Nat.mod_lt _ (List.length_pos_iff.2 hb)
    rw [render, List.flatMap_cons]
    by_cases hp : pred g.2 = true
    · rw [if_pos hp, List.getElem?_eq_getElem hlt]
      simp only [plain]
      rw [ih]
    · rw [if_neg hp]
      simp only [plain]
      rw [ih]

theorem tiles_text (s : List α) : ∀ (gs : List (Span × List Nat)) (a b : Nat), b ≤ s.length →
    Tiles (a : Int) (b : Int) (gs.map Prod.fst) →
    gs.flatMap (fun g => PyStr.slice s (some g.1.start) (some g.1.stop)) = (s.take b).drop a
  | [], a, b, _, h => by
    have h : (a : Int) = b := h
    have : a = b := by omega
    subst this
    simp
  | g :: gs, a, b, hb, ⟨h1, h2, h3⟩ => by
    have hle : ∀ {l : List Span} {x y : Int}, Tiles x y l → x ≤ y := by
      intro l
      induction l with
      | nil => intro x y h; exact Int.le_of_eq h
      | cons z l ih => intro x y ⟨p, q, r⟩; have := ih r; omega
    have := hle h3
    obtain ⟨c, hc⟩ := Int.eq_ofNat_of_zero_le (a := g.1.stop) (by omega)
    rw [List.flatMap_cons]
    rw [hc] at h3 this h2
    rw [tiles_text s gs c b hb h3, h1, hc]
    rw [PyStr.slice_nat, List.drop_take, List.drop_take, List.drop_take]
    have e1 : c = a + (c - a) := by omega
    have e2 : b - a = (c - a) + (b - c) := by omega
    rw [e2, List.take_add, List.drop_drop, ← e1]

/-- **C57.** Without the colour codes, what is printed is the text of the Ito. -/
theorem C57_text [DecidableEq α] (backs : List β) (hb : backs ≠ []) (s : List α) (pred : List Nat → Bool)
    (n : Node) (hw : WF n) (hl : n.stop ≤ s.length) :
    ∃ out, print backs s pred n = .ok out ∧ plain out = (n.flat s).text := by
  obtain ⟨gs, h1, h2, -⟩ := C57_segments backs hb s pred n hw
  refine ⟨_, h1, ?_⟩
  rw [plain_render backs hb]
  have h0 : 0 ≤ n.start ∧ n.start ≤ n.stop := by cases hw; exact ⟨by assumption, by assumption⟩
  obtain ⟨a, ha⟩ := Int.eq_ofNat_of_zero_le h0.1
  obtain ⟨b, hb'⟩ := Int.eq_ofNat_of_zero_le (a := n.stop) (by omega)
  rw [ha, hb'] at h2
  rw [tiles_text s gs a b (by omega) h2, FIto.text_eq (x := n.flat s) (a := a) (b := b) ha hb']
  rfl

/-- The colours printed, in order. -/
def colours : List (Tok β α) → List β
  | [] => []
  | .code c :: ts => c :: colours ts
  | _ :: ts => colours ts

theorem colours_render (backs : List β) (hb : backs ≠ []) (s : List α) (pred : List Nat → Bool)
    (gs : List (Span × List Nat)) (k : Nat) :
    (colours (render backs s pred k gs)).length = lit pred gs ∧
    ∀ i, i < lit pred gs →
      (colours (render backs s pred k gs))[i]? = backs[(k + i) % backs.length]? := by
  induction gs generalizing k with
  | nil => exact ⟨rfl, fun i hi => absurd hi (Nat.not_lt_zero _)⟩
  | cons g gs ih =>
    have hlt : k % backs.length < backs.length := Nat.mod_lt _ (List.length_pos_iff.2 hb)
    rw [render]
    by_cases hp : pred g.2 = true
    · have hl : lit pred (g :: gs) = lit pred gs + 1 := by
        unfold lit; rw [List.filter_cons, if_pos hp, List.length_cons]
      rw [if_pos hp, List.getElem?_eq_getElem hlt, hl]
      simp only [colours, List.length_cons]
      refine ⟨by rw [(ih (k + 1)).1], ?_⟩
      intro i hi
      cases i with
      | zero => simp [List.getElem?_eq_getElem hlt]
      | succ i =>
        rw [List.getElem?_cons_succ, (ih (k + 1)).2 i (by omega)]
        rw [show k + 1 + i = k + (i + 1) by omega]
    · have hl : lit pred (g :: gs) = lit pred gs := by
        unfold lit; rw [List.filter_cons, if_neg hp]
      rw [if_neg hp, hl]
      simp only [colours]
      exact ih k

theorem nodup_getElem_inj {l : List β} (hn : l.Nodup) (i j : Nat) (hi : i < l.length) (hj : j < l.length)
    (h : l[i] = l[j]) : i = j := by
  rw [List.Nodup, List.pairwise_iff_getElem] at hn
  rcases Nat.lt_trichotomy i j with hlt | heq | hlt
  · exact absurd h (hn i j hi hj hlt)
  · exact heq
  · exact absurd h.symm (hn j i hj hi hlt)

/-- **C57.** With a palette of two or more different colours, each highlighted segment has a colour
different from that of the next one. -/
theorem C57_neighbours (backs : List β) (hn : backs.Nodup) (h2 : 2 ≤ backs.length) (s : List α)
    (pred : List Nat → Bool) (n : Node) (hw : WF n) :
    ∃ out, print backs s pred n = .ok out ∧
      ∀ i (h : i + 1 < (colours out).length), (colours out)[i] ≠ (colours out)[i + 1] := by
  have hb : backs ≠ [] := by intro h; rw [h] at h2; simp at h2
  obtain ⟨gs, h1, -, -⟩ := C57_segments backs hb s pred n hw
  refine ⟨_, h1, ?_⟩
  intro i h he
  obtain ⟨c1, c2⟩ := colours_render backs hb s pred gs 0
  have a1 := c2 i (by omega)
  have a2 := c2 (i + 1) (by omega)
  rw [List.getElem?_eq_getElem (by omega)] at a1 a2
  rw [he, a2] at a1
  rw [Nat.zero_add, Nat.zero_add] at a1
  have l1 : (i + 1) % backs.length < backs.length := Nat.mod_lt _ (by omega)
  have l2 : i % backs.length < backs.length := Nat.mod_lt _ (by omega)
  rw [List.getElem?_eq_getElem l1, List.getElem?_eq_getElem l2, Option.some.injEq] at a1
  have : (i + 1) % backs.length = i % backs.length := nodup_getElem_inj hn _ _ l1 l2 a1
  rw [Nat.add_mod] at this
  have hm := Nat.mod_lt i (show 0 < backs.length by omega)
  have h1m : 1 % backs.length = 1 := Nat.mod_eq_of_lt (by omega)
  rw [h1m] at this
  by_cases hx : i % backs.length + 1 < backs.length
  · rw [Nat.mod_eq_of_lt hx] at this; omega
  · have hx' : i % backs.length + 1 = backs.length := by omega
    rw [hx', Nat.mod_self] at this; omega

section Examples
private def exN : Node := .mk ⟨1, 6⟩ none none [.mk ⟨2, 4⟩ none none [.mk ⟨2, 3⟩ none none []], .mk ⟨4, 6⟩ none none []]
example : (match print [0, 1] [10, 11, 12, 13, 14, 15, 16] (fun _ => true) exN with
    | .ok out => (plain out, colours out)
    | .error _ => ([], [])) = ([11, 12, 13, 14, 15], [0, 1, 0, 1]) := by decide
end Examples

end Pawpaw.Props
