import Verif.Props.NlpSentence
import Verif.Props.NumberFind
import Verif.Props.Flow
import Verif.Model.Paragraph
import Verif.Spec.Paragraph
import Verif.Lemmas.RegexRun
/-!
# C102: paragraphs
-/
set_option linter.unusedSectionVars false
set_option linter.unusedSimpArgs false
namespace Pawpaw.Props
open Pawpaw Pawpaw.Regex Pawpaw.NumberRe Pawpaw.NlpRe RegexSpec NumberSpec NlpSpec NlpTextSpec TreeSpec SpanSpec ArborSpec
open Pawpaw.Nlp ParagraphSpec HeapSpec Pawpaw.Pipeline Pawpaw.Heap

/-! ### The pattern -/

/-- Blanks and a separator. -/
def lineRe (seps : List Char) : Re := .seq (many (oneOf blanks)) (oneOf seps)

theorem blanks_white (c : Char) : c ∈ blanks ↔ c ∈ whiteSpace := Iff.rfl

theorem lang_line (seps u : List Char) : Lang (lineRe seps) u ↔ LineEnd seps u := by
  show (∃ v w, u = v ++ w ∧ Lang (many (oneOf blanks)) v ∧ Lang (oneOf seps) w) ↔ _
  simp only [lang_many_oneOf, lang_oneOf]
  constructor
  · rintro ⟨v, _, rfl, hv, c, rfl, hc⟩; exact ⟨v, c, rfl, hv, hc⟩
  · rintro ⟨v, c, rfl, hv, hc⟩; exact ⟨v, [c], rfl, hv, c, rfl, hc⟩

theorem free_line (seps : List Char) : Free (lineRe seps) := ⟨trivial, trivial⟩

theorem lang_para (seps : List Char) (n : Nat) (u : List Char) : Lang (paraRe seps n) u ↔ Break seps n u := by
  show Lang (atLeast n (lineRe seps)) u ↔ _
  rw [lang_atLeast]
  simp only [lang_line]
  rfl

theorem free_para (seps : List Char) (n : Nat) : Free (paraRe seps n) := free_atLeast (free_line seps) n

theorem lineEnd_fixed {seps : List Char} (ha : NoBlank seps) {u1 u2 w1 w2 : List Char} (h1 : LineEnd seps u1) (h2 : LineEnd seps u2)
    (e : u1 ++ w1 = u2 ++ w2) : u1 = u2 := by
  obtain ⟨b1, c1, rfl, k1, s1⟩ := h1
  obtain ⟨b2, c2, rfl, k2, s2⟩ := h2
  have e' : b1 ++ c1 :: w1 = b2 ++ c2 :: w2 := by simpa using e
  have := digits_fixed (p := fun c => decide (c ∈ whiteSpace)) (fun c hc => by simpa using k1 c hc)
    (fun c hc => by simpa using k2 c hc) (by simpa using ha c1 s1) (by simpa using ha c2 s2) e'
  subst this
  have := List.append_cancel_left e'
  simp only [List.cons.injEq] at this
  rw [this.1]

theorem det_line {seps : List Char} (ha : NoBlank seps) : Det (lineRe seps) := by
  intro st
  have hs : st.rest = st.rest.takeWhile (fun c => decide (c ∈ blanks)) ++ st.rest.dropWhile (fun c => decide (c ∈ blanks)) :=
    (List.takeWhile_append_dropWhile).symm
  have := outk_star_run (fun c => decide (c ∈ blanks)) (out (oneOf seps)) (by
    intro i x w c hx
    simp only [decide_eq_true_eq] at hx
    unfold oneOf
    rw [out]
    simp only
    rw [if_neg]
    intro hc
    exact ha x (by simpa using hc) hx) (st.rest.takeWhile (fun c => decide (c ∈ blanks))) st.pos
      (st.rest.dropWhile (fun c => decide (c ∈ blanks))) st.caps (by
        intro x hx
        exact List.all_eq_true.1 (List.all_takeWhile (p := fun c => decide (c ∈ blanks)) (l := st.rest)) x hx) (by
        intro x hx
        have := List.head?_dropWhile_not (fun c => decide (c ∈ blanks)) st.rest
        rw [hx] at this
        simpa using this)
  rw [← hs] at this
  unfold outk at this
  unfold lineRe
  rw [out.eq_3]
  show ((out (.star true (.chr fun c => decide (c ∈ blanks))) ⟨st.pos, st.rest, st.caps⟩).flatMap (out (oneOf seps))).length ≤ 1
  rw [this]
  exact det_chr _ _

theorem best_para {seps : List Char} (ha : NoBlank seps) : ∀ n, Best (paraRe seps n)
  | 0 => best_star (det_line ha)
  | n + 1 => by
    refine best_seq_fixed (a := lineRe seps) (free_line seps) (free_para seps n) (best_para ha n) ?_
    intro u1 u2 v1 v2 w1 w2 h1 h2 _ _ e
    exact lineEnd_fixed ha ((lang_line _ _).1 h1) ((lang_line _ _).1 h2) (w1 := v1 ++ w1) (w2 := v2 ++ w2)
      (by rw [← List.append_assoc, ← List.append_assoc]; exact e)

/-! ### Searching for a pattern without lookaround -/

theorem part_split {s : String} {sp : Span} (k : Nat) (k1 : sp.start ≤ k) (k2 : (k : Int) ≤ sp.stop) (h2 : sp.stop ≤ s.length) :
    part s sp = (part s sp).take (k - sp.start.toNat) ++ part s ⟨k, sp.stop⟩ ∧
      sp.start.toNat + ((part s sp).take (k - sp.start.toNat)).length = max k sp.start.toNat := by
  have hl : (s.toList.take sp.stop.toNat).length = sp.stop.toNat := by
    rw [List.length_take, String.length_toList]; omega
  refine ⟨?_, ?_⟩
  · conv => lhs; rw [← List.take_append_drop (k - sp.start.toNat) (part s sp)]
    congr 1
    unfold part
    rw [List.drop_drop]
    dsimp only
    rw [show sp.start.toNat + (k - sp.start.toNat) = k by omega, Int.toNat_natCast]
  · rw [List.length_take]
    have : (part s sp).length = sp.stop.toNat - sp.start.toNat := by
      unfold part
      rw [List.length_drop, hl]
    omega

theorem finds_complete {r : Re} {s : String} {sp : Span} (h2 : sp.stop ≤ s.length) {k : Nat}
    (k1 : sp.start ≤ k) (k2 : (k : Int) ≤ sp.stop) {u w : List Char} (ht : part s ⟨k, sp.stop⟩ = u ++ w) (hu : Lang r u) :
    ∃ f ∈ finds r s sp, f.start = k ∨ (f.start < k ∧ k < f.stop) := by
  obtain ⟨e1, e2⟩ := part_split k k1 k2 h2
  rw [Nat.max_eq_left (by omega)] at e2
  obtain ⟨c, hc⟩ := out_complete r ⟨k, u ++ w, []⟩ u w rfl hu
  obtain ⟨f, hf, hf'⟩ := finditer_covers (r := r) (i := sp.start.toNat) (pre := (part s sp).take (k - sp.start.toNat))
    (suf := part s ⟨k, sp.stop⟩) (by rw [e2, ht]; exact List.ne_nil_of_mem hc)
  rw [← e1] at hf
  rw [e2] at hf'
  exact ⟨f, hf, hf'⟩

theorem finds_longest {r : Re} (hb : Best r) {s : String} {sp : Span} (h0 : 0 ≤ sp.start) (h2 : sp.stop ≤ s.length) {f : Found}
    (hf : f ∈ finds r s sp) (k2 : (f.start : Int) ≤ sp.stop) {u w : List Char} (ht : part s ⟨f.start, sp.stop⟩ = u ++ w) (hu : Lang r u) :
    f.start + u.length ≤ f.stop := by
  obtain ⟨pre, suf, st, e1, e2, e3, e4, _, e6⟩ := finditer_at hf
  obtain ⟨q1, q2⟩ := part_split f.start (by omega) k2 h2
  rw [Nat.max_eq_left (by omega)] at q2
  have hsuf : suf = u ++ w := by
    rw [← ht]
    refine (List.append_inj (e1.symm.trans q1) ?_).2
    omega
  subst hsuf
  obtain ⟨c, hc⟩ := out_complete r ⟨f.start, u ++ w, []⟩ u w rfl hu
  have := best_found hb e3 e6 hc
  simp only at this
  omega

/-! ### Paragraphs -/

theorem part_join {s : String} {a b c : Int} (h0 : 0 ≤ a) (h1 : a ≤ b) (h2 : b ≤ c) : part s ⟨a, c⟩ = part s ⟨a, b⟩ ++ part s ⟨b, c⟩ := by
  unfold part
  dsimp only
  rw [List.drop_take, List.drop_take, List.drop_take, show c.toNat - a.toNat = (b.toNat - a.toNat) + (c.toNat - b.toNat) by omega,
    List.take_add, List.drop_drop, show a.toNat + (b.toNat - a.toNat) = b.toNat by omega]

theorem break_ne {seps : List Char} {n : Nat} (hn : 1 ≤ n) {u : List Char} (h : Break seps n u) : u ≠ [] := by
  rintro rfl
  obtain ⟨ls, e, hl, hz⟩ := h
  match ls, hl, e, hz with
  | [], hl, _, _ => simp at hl; omega
  | l :: ls, _, e, hz =>
    obtain ⟨b, c, rfl, _⟩ := hz l (by simp)
    simp at e

theorem break_append {seps : List Char} {n : Nat} {u l : List Char} (h : Break seps n u) (hl : LineEnd seps l) :
    Break seps n (u ++ l) := by
  obtain ⟨ls, rfl, h1, h2⟩ := h
  refine ⟨ls ++ [l], by simp, by simp; omega, ?_⟩
  intro z hz
  rcases List.mem_append.1 hz with hz | hz
  · exact h2 z hz
  · rw [List.mem_singleton] at hz; subst hz; exact hl

theorem break_cons {seps : List Char} {n : Nat} (hn : 1 ≤ n) {u : List Char} {x : Char} (h : Break seps n u)
    (hx : x ∈ whiteSpace ∨ x ∈ seps) : Break seps n (x :: u) := by
  obtain ⟨ls, rfl, h1, h2⟩ := h
  rcases hx with hx | hx
  · match ls, h1, h2 with
    | [], h1, _ => simp at h1; omega
    | l :: ls, h1, h2 =>
      obtain ⟨b, c, rfl, hb, hc⟩ := h2 l (by simp)
      refine ⟨(x :: b ++ [c]) :: ls, by simp, h1, ?_⟩
      intro z hz
      rcases List.mem_cons.1 hz with rfl | hz
      · refine ⟨x :: b, c, rfl, ?_, hc⟩
        intro y hy
        rcases List.mem_cons.1 hy with rfl | hy
        · exact hx
        · exact hb y hy
      · exact h2 z (by simp [hz])
  · refine ⟨[x] :: ls, by simp, by simp; omega, ?_⟩
    intro z hz
    rcases List.mem_cons.1 hz with rfl | hz
    · exact ⟨[], x, rfl, by simp, hx⟩
    · exact h2 z hz

theorem breaks_ordered (seps : List Char) (n : Nat) {s : String} {sp : Span} (h0 : 0 ≤ sp.start) (h1 : sp.start ≤ sp.stop)
    (h2 : sp.stop ≤ s.length) : OrderedIn sp.start sp.stop (Paragraph.breaks seps n s sp) :=
  (patterns_lawful (⟨fun _ => false, fun _ => false, fun _ => false⟩) enFmt seps n id).para s sp.start sp.stop h0 h1 h2

/-- **C102**: the parts of the text between the separators are its paragraphs: each ends at the end of the text or
before a break, starts at the start of the text or after a break, no break starts in it; it does not start with a blank
line unless it is at the start of the text, and it does not end with white space unless it is at its end. -/
theorem C102_paragraphs {seps : List Char} (ha : NoBlank seps) (n : Nat) (hn : 1 ≤ n) (s : String) (sp : Span) (h0 : 0 ≤ sp.start)
    (h1 : sp.start ≤ sp.stop) (h2 : sp.stop ≤ s.length) (c : Span) (hc : c ∈ chunks sp (Paragraph.breaks seps n s sp)) :
    IsParagraph seps n s sp c := by
  have ho := breaks_ordered seps n h0 h1 h2
  obtain ⟨e1, e2, e3⟩ := chunks_edges ho hc
  obtain ⟨i1, i2, i3⟩ := chunks_inside ho hc
  have hsound : ∀ m ∈ Paragraph.breaks seps n s sp, Break seps n (part s m) := by
    intro m hm
    obtain ⟨f, hf, rfl⟩ := List.mem_map.1 hm
    exact (lang_para _ _ _).1 (found_text hf (free_para seps n))
  have hlen : ∀ m ∈ Paragraph.breaks seps n s sp, m.start < m.stop := by
    intro m hm
    have := break_ne hn (hsound m hm)
    have h' := (orderedIn_mem ho m hm)
    unfold part at this
    rcases Int.lt_or_le m.start m.stop with h | h
    · exact h
    · exfalso
      apply this
      rw [List.drop_eq_nil_iff, List.length_take]
      omega
  have hwhole : ∀ k : Nat, c.start ≤ k → (k : Int) < c.stop → ∀ u w, part s ⟨k, sp.stop⟩ = u ++ w → ¬ Break seps n u := by
    intro k k1 k2 u w ht hb
    obtain ⟨f, hf, hk⟩ := finds_complete h2 (by omega) (by omega) ht ((lang_para seps n u).2 hb)
    have hm : whole f ∈ Paragraph.breaks seps n s sp := List.mem_map_of_mem hf
    have a1 := e3 _ hm
    have a2 := hlen _ hm
    unfold whole at a1 a2
    dsimp only at a1 a2
    omega
  refine ⟨⟨i1, i2, i3⟩, ?_, ?_, hwhole, ?_, ?_⟩
  · rcases e1 with e1 | ⟨m, hm, e1⟩
    · exact Or.inl e1
    · refine Or.inr ⟨m.stop, (orderedIn_mem ho m hm).2.2, ?_⟩
      rw [← e1]
      exact hsound m hm
  · rcases e2 with e2 | ⟨m, hm, e2⟩
    · exact Or.inl e2
    · refine Or.inr ⟨m.start, (orderedIn_mem ho m hm).1, ?_⟩
      rw [← e2]
      exact hsound m hm
  · intro hne u w ht hu
    rcases e2 with e2 | ⟨m, hm, e2⟩
    · exact hne e2
    · have hb := hsound m hm
      have hin := orderedIn_mem ho m hm
      obtain ⟨f, hf, rfl⟩ := List.mem_map.1 hm
      have hst : (whole f).start = (f.start : Int) := rfl
      have hj := part_join (s := s) (a := f.start) (b := c.start) (c := sp.stop) (by omega) (by rw [← hst]; omega) (by omega)
      rw [ht, ← List.append_assoc] at hj
      have hw : part s ⟨(f.start : Int), c.start⟩ = part s (whole f) := by rw [← e2]; rfl
      rw [hw] at hj
      have := finds_longest (best_para ha n) h0 h2 hf (by rw [← hst]; omega) hj ((lang_para _ _ _).2 (break_append hb hu))
      have hl : (part s (whole f)).length = f.stop - f.start := by
        unfold part whole
        dsimp only
        rw [List.length_drop, List.length_take, String.length_toList]
        have : (whole f).stop = (f.stop : Int) := rfl
        omega
      have hlen' := hlen _ hm
      have : (whole f).stop = (f.stop : Int) := rfl
      obtain ⟨b, e, rfl, _⟩ := hu
      simp only [List.length_append, List.length_singleton] at *
      omega
  · intro hne x hx
    rcases e1 with e1 | ⟨m, hm, e1⟩
    · exact absurd e1 hne
    · by_cases hxx : x ∈ whiteSpace ∨ x ∈ seps
      · exfalso
        have hin := orderedIn_mem ho m hm
        have hb := break_cons hn (hsound m hm) hxx
        have hlt : c.start < c.stop := by
          rcases Int.lt_or_le c.start c.stop with h | h
          · exact h
          · have : part s c = [] := by
              unfold part
              rw [List.drop_eq_nil_iff, List.length_take]
              omega
            rw [this] at hx
            simp at hx
        have hj := part_join (s := s) (a := c.start) (b := c.stop - 1) (c := c.stop) (by omega) (by omega) (by omega)
        have hone : (part s ⟨c.stop - 1, c.stop⟩).length = 1 := by
          unfold part
          dsimp only
          rw [List.length_drop, List.length_take, String.length_toList]
          omega
        obtain ⟨y, hy⟩ := List.length_eq_one_iff.1 hone
        have hc' : part s c = part s ⟨c.start, c.stop - 1⟩ ++ [y] := by rw [← hy]; exact hj
        rw [hc', List.getLast?_append] at hx
        simp at hx
        subst hx
        have j1 := part_join (s := s) (a := c.stop - 1) (b := c.stop) (c := sp.stop) (by omega) (by omega) (by omega)
        have j2 := part_join (s := s) (a := c.stop) (b := m.stop) (c := sp.stop) (by omega) (by omega) (by omega)
        rw [hy, j2, show part s ⟨c.stop, m.stop⟩ = part s m by rw [← e1]] at j1
        refine hwhole (c.stop - 1).toNat (by omega) (by omega) (y :: part s m) (part s ⟨m.stop, sp.stop⟩) ?_ hb
        rw [Int.toNat_of_nonneg (by omega), j1]
        rfl
      · exact ⟨fun h => hxx (Or.inl h), fun h => hxx (Or.inr h)⟩

/-- **C102**: the paragraphs are in order, do not overlap and are not empty unless the text is. -/
theorem C102_order (seps : List Char) (n : Nat) (s : String) (sp : Span) (h0 : 0 ≤ sp.start) (h1 : sp.start ≤ sp.stop)
    (h2 : sp.stop ≤ s.length) : OrderedIn sp.start sp.stop (chunks sp (Paragraph.breaks seps n s sp)) ∧
      ∀ c ∈ chunks sp (Paragraph.breaks seps n s sp), c.start = c.stop → c = sp := by
  have ho := breaks_ordered seps n h0 h1 h2
  unfold chunks
  split
  · exact ⟨⟨Int.le_refl _, h1, Int.le_refl _⟩, by simp⟩
  · refine ⟨orderedIn_filter (orderedIn_between ho), ?_⟩
    intro c hc e
    exact absurd e (nonEmpty_ne hc).2

/-- **C102**: no character but blanks and separators is outside the paragraphs. -/
theorem C102_nothing_lost (seps : List Char) (n : Nat) (s : String) (sp : Span) (h0 : 0 ≤ sp.start) (h1 : sp.start ≤ sp.stop)
    (h2 : sp.stop ≤ s.length) (k : Nat) (k1 : sp.start ≤ k) (k2 : (k : Int) < sp.stop) (x : Char) (hx : s.toList[k]? = some x)
    (hw : x ∉ whiteSpace) (hs : x ∉ seps) :
    ∃ c ∈ chunks sp (Paragraph.breaks seps n s sp), c.start ≤ k ∧ (k : Int) < c.stop := by
  refine chunks_cover (breaks_ordered seps n h0 h1 h2) k1 k2 ?_
  intro m hm ⟨m1, m2⟩
  obtain ⟨f, hf, rfl⟩ := List.mem_map.1 hm
  unfold whole at m1 m2
  dsimp only at m1 m2
  have := finds_only (only_para seps n) hf (k := k) (c := x) (by omega) (by omega) hx
  exact this.elim hs hw

/-! ### The itorator -/

theorem pieces_para (d : Option String) (v : Option Nat) (sp : Span) (seps : List Span) :
    SplitSpec.pieces { desc := d } v sp.start sp.stop (seps.map fun m => .mk m none none []) =
      (chunks sp seps).map fun c => .mk c d v [] := by
  unfold SplitSpec.pieces chunks allowed
  dsimp only
  by_cases e : seps = []
  · subst e; rfl
  · rw [if_neg (by simpa using e), if_neg e]
    rw [List.map_map]
    have : (Node.span ∘ fun m => Node.mk m none none []) = id := rfl
    rw [this, List.map_id]

/-- The paragraphs of a part of the text, as objects. -/
def paras (seps : List Char) (n : Nat) (s : String) (v : Option Nat) (sp : Span) : List Node :=
  (chunks sp (Paragraph.breaks seps n s sp)).map fun c => .mk c (some "paragraph") v []

theorem splitter_makes {s : String} {seps : List Char} {n N m : Nat} {t : Node} (hN : need t ≤ N) (h0 : 0 ≤ t.span.start)
    (h1 : t.span.start ≤ t.span.stop) (h2 : t.span.stop ≤ s.length) :
    Makes s (traverse (Paragraph.graph seps n N) (m + 1) 0) t (paras seps n s t.vf t.span) := by
  have hT : MakesFirst s (Paragraph.graph seps n N 0).transform t (paras seps n s t.vf t.span) := by
    have := C50_split_by_pattern (s := s) (t := t) { desc := some "paragraph" } (Paragraph.breaks seps n) N hN
      (breaks_ordered seps n h0 h1 h2)
    rw [show SplitSpec.pieces { desc := some "paragraph" } t.vf t.start t.stop
      ((Paragraph.breaks seps n s t.span).map fun m => .mk m none none []) = paras seps n s t.vf t.span from
        pieces_para _ _ t.span _] at this
    exact this
  have := traverse_makes (s := s) (G := Paragraph.graph seps n N) (n := m) (i := 0) (t := t)
    (outs := (paras seps n s t.vf t.span).map fun x => [x]) rfl hT (by
      show Pairs (fun t us => Turns s (flow m (traverse (Paragraph.graph seps n N) m) []) t us) _ _
      generalize paras seps n s t.vf t.span = l
      induction l with
      | nil => exact .nil
      | cons c l ih => exact .cons (turns_nil s _ _ _) ih)
  rw [show ((paras seps n s t.vf t.span).map fun x => [x]).flatten = paras seps n s t.vf t.span from ?_] at this
  · exact this
  · generalize paras seps n s t.vf t.span = l
    induction l with
    | nil => rfl
    | cons c l ih => rw [List.map_cons, List.flatten_cons, ih]; rfl

/-! ### Stripping objects -/

/-- Memory `h` became `h'`, its objects are as before, and `y` is an object that looks like `t`. -/
structure Next (s : String) (h h' : Heap) (y : Nat) (t : Node) : Prop where
  next : h.next ≤ h'.next
  old : ∀ i < h.next, h'.obj i = h.obj i
  ok : OK h'
  acyclic : Acyclic h'
  lt : y < h'.next
  str : h'.str y = s
  looks : Looks h' y t

theorem next_new {s : String} {h : Heap} (h1 : OK h) (h2 : Acyclic h) {x : Nat} (hs : h.str x = s) {a b : Int} (d : Option String)
    (ha : 0 ≤ a) (hab : a ≤ b) (hb : b ≤ s.length) : Next s h (h.newLike x a b d) h.next (.mk ⟨a, b⟩ d (h.obj x).vf []) := by
  subst hs
  have m := newLike_made h1 h2 x d ha hab hb
  have hl := m.looks
  rw [LooksAll] at hl
  exact ⟨m.next, m.old, m.ok, m.acyclic, (m.fresh _ (by simp)).2, m.str _ (by simp), hl.1⟩

theorem next_trans {s : String} {h h1 h2 : Heap} {y z : Nat} {t u : Node} (a : Next s h h1 y t) (b : Next s h1 h2 z u) : Next s h h2 z u :=
  ⟨Nat.le_trans a.next b.next, fun i hi => by rw [b.old i (Nat.lt_of_lt_of_le hi a.next), a.old i hi], b.ok, b.acyclic, b.lt, b.str, b.looks⟩

theorem takeWhile_at {α : Type} (p : α → Bool) : ∀ l : List α,
    (∀ (j : Nat) c, j < (l.takeWhile p).length → l[j]? = some c → p c = true) ∧
      ∀ c, l[(l.takeWhile p).length]? = some c → p c = false
  | [] => by simp
  | x :: l => by
    obtain ⟨i1, i2⟩ := takeWhile_at p l
    by_cases hx : p x = true
    · rw [List.takeWhile_cons, if_pos hx]
      refine ⟨?_, fun c hc => i2 c (by simpa using hc)⟩
      intro j c hj hc
      cases j with
      | zero => simp at hc; rw [← hc]; exact hx
      | succ j => exact i1 j c (by simpa using hj) (by simpa using hc)
    · rw [List.takeWhile_cons, if_neg hx]
      refine ⟨by simp, ?_⟩
      intro c hc
      simp at hc
      rw [← hc]
      simpa using hx

theorem looks_facts {h : Heap} {x : Nat} {t : Node} (hl : Looks h x t) : h.span x = t.span ∧ (h.obj x).desc = t.desc ∧ (h.obj x).vf = t.vf := by
  cases t
  rw [Looks] at hl
  exact ⟨hl.1, hl.2.1, hl.2.2.1⟩

theorem need_pos (t : Node) : 1 ≤ need t := by cases t; rw [need]; omega

/-- What stripping makes of an object that looks like `t`. -/
def Strips (s : String) (h : Heap) (t : Node) (r : Heap × Nat) (sp : Span) : Prop :=
  ∃ t', Next s h r.1 r.2 t' ∧ t'.span = sp ∧ t'.desc = t.desc ∧ t'.vf = t.vf ∧ need t' ≤ need t

theorem lstrip_obj {s : String} {h : Heap} {x : Nat} {t : Node} (chars : List Char) (h1 : OK h) (h2 : Acyclic h) (h3 : x < h.next)
    (h4 : h.str x = s) (h5 : Looks h x t) : ∃ a b k : Nat, t.span = ⟨(a : Int), (b : Int)⟩ ∧ a + k ≤ b ∧ b ≤ s.length ∧
      Strips s h t (Paragraph.lstripObj chars h x) ⟨((a + k : Nat) : Int), (b : Int)⟩ ∧
      (∀ j c, a ≤ j → j < a + k → s.toList[j]? = some c → c ∈ chars) ∧ (a + k < b → ∀ c, s.toList[a + k]? = some c → c ∉ chars) := by
  obtain ⟨w, wl⟩ := looks_wf h1 t x h3 h5
  rw [h4] at wl
  have w0 : 0 ≤ t.span.start := w.start_nonneg
  have w1 : t.span.start ≤ t.span.stop := w.start_le
  have wl : t.span.stop ≤ s.length := wl
  obtain ⟨l1, l2, l3⟩ := looks_facts h5
  obtain ⟨a, ha⟩ := Int.eq_ofNat_of_zero_le w0
  obtain ⟨b, hb⟩ := Int.eq_ofNat_of_zero_le (Int.le_trans w0 w1)
  have hsp : t.span = ⟨(a : Int), (b : Int)⟩ := by
    rw [show t.span = ⟨t.span.start, t.span.stop⟩ from rfl, ha, hb]
  have hbl : b ≤ s.toList.length := by rw [String.length_toList]; omega
  have hk := takeWhile_at (fun c => decide (c ∈ chars)) ((s.toList.take b).drop a)
  have hkl : (((s.toList.take b).drop a).takeWhile (fun c => decide (c ∈ chars))).length ≤ b - a := by
    have := (List.takeWhile_sublist (fun c => decide (c ∈ chars)) (l := (s.toList.take b).drop a)).length_le
    rw [List.length_drop, List.length_take] at this
    omega
  have hloop := FIto.lstripLoop_eq (fun c => decide (c ∈ chars)) s.toList b hbl (b - a) a (by omega)
  generalize (((s.toList.take b).drop a).takeWhile (fun c => decide (c ∈ chars))).length = k at hk hkl hloop
  refine ⟨a, b, k, hsp, by omega, by omega, ?_, ?_, ?_⟩
  · unfold Paragraph.lstripObj Strips
    rw [l1, hsp, h4]
    dsimp only
    rw [show ((b : Int) - (a : Int)).toNat = b - a by omega, hloop]
    by_cases hz : ((a + k : Nat) : Int) = (a : Int)
    · rw [if_pos hz]
      refine ⟨t, ⟨Nat.le_refl _, fun _ _ => rfl, h1, h2, h3, h4, h5⟩, ?_, rfl, rfl, Nat.le_refl _⟩
      rw [hsp, hz]
    · rw [if_neg hz]
      refine ⟨_, next_new h1 h2 h4 _ (by omega) (by omega) (by omega), rfl, ?_, ?_, ?_⟩
      · exact l2
      · exact l3
      · exact need_pos t
  · intro j c j1 j2 hc
    have := hk.1 (j - a) c (by omega) (by
      rw [List.getElem?_drop, List.getElem?_take_of_lt (by omega), show a + (j - a) = j by omega]; exact hc)
    simpa using this
  · intro j2 c hc
    have := hk.2 c (by rw [List.getElem?_drop, List.getElem?_take_of_lt (by omega)]; exact hc)
    simpa using this

theorem rstrip_obj {s : String} {h : Heap} {x : Nat} {t : Node} (chars : List Char) (h1 : OK h) (h2 : Acyclic h) (h3 : x < h.next)
    (h4 : h.str x = s) (h5 : Looks h x t) : ∃ a b k : Nat, t.span = ⟨(a : Int), (b : Int)⟩ ∧ a ≤ b ∧ k ≤ b ∧ b ≤ s.length ∧
      Strips s h t (Paragraph.rstripObj chars h x) ⟨(a : Int), ((max a (b - k) : Nat) : Int)⟩ ∧
      (∀ j c, b - k ≤ j → j < b → s.toList[j]? = some c → c ∈ chars) ∧ (k < b → ∀ c, s.toList[b - k - 1]? = some c → c ∉ chars) := by
  obtain ⟨w, wl⟩ := looks_wf h1 t x h3 h5
  rw [h4] at wl
  have w0 : 0 ≤ t.span.start := w.start_nonneg
  have w1 : t.span.start ≤ t.span.stop := w.start_le
  have wl : t.span.stop ≤ s.length := wl
  obtain ⟨l1, l2, l3⟩ := looks_facts h5
  obtain ⟨a, ha⟩ := Int.eq_ofNat_of_zero_le w0
  obtain ⟨b, hb⟩ := Int.eq_ofNat_of_zero_le (Int.le_trans w0 w1)
  have hsp : t.span = ⟨(a : Int), (b : Int)⟩ := by
    rw [show t.span = ⟨t.span.start, t.span.stop⟩ from rfl, ha, hb]
  have hbl : b ≤ s.toList.length := by rw [String.length_toList]; omega
  have hk := takeWhile_at (fun c => decide (c ∈ chars)) ((s.toList.take b).reverse)
  have hkl : (((s.toList.take b).reverse).takeWhile (fun c => decide (c ∈ chars))).length ≤ b := by
    have := (List.takeWhile_sublist (fun c => decide (c ∈ chars)) (l := (s.toList.take b).reverse)).length_le
    rw [List.length_reverse, List.length_take] at this
    omega
  have hloop := FIto.rstripLoop_eq (fun c => decide (c ∈ chars)) s.toList b hbl
  generalize (((s.toList.take b).reverse).takeWhile (fun c => decide (c ∈ chars))).length = k at hk hkl hloop
  have hget : ∀ j, j < b → ((s.toList.take b).reverse)[b - 1 - j]? = s.toList[j]? := by
    intro j hj
    rw [List.getElem?_reverse (by rw [List.length_take]; omega), List.length_take, Nat.min_eq_left hbl,
      show b - 1 - (b - 1 - j) = j by omega, List.getElem?_take_of_lt hj]
  refine ⟨a, b, k, hsp, by omega, hkl, by omega, ?_, ?_, ?_⟩
  · unfold Paragraph.rstripObj Strips
    rw [l1, hsp, h4]
    dsimp only
    rw [Int.toNat_natCast, hloop]
    by_cases hz : (b : Int) - 1 - k = (b : Int) - 1
    · rw [if_pos hz]
      refine ⟨t, ⟨Nat.le_refl _, fun _ _ => rfl, h1, h2, h3, h4, h5⟩, ?_, rfl, rfl, Nat.le_refl _⟩
      rw [hsp]
      have : max a (b - k) = b := by omega
      rw [this]
    · rw [if_neg hz]
      have e : h.newLike x (a : Int) ((b : Int) - 1 - k + 1) (h.obj x).desc =
          h.newLike x (a : Int) ((max a (b - k) : Nat) : Int) (h.obj x).desc := by
        unfold newLike
        rw [h4, show ((b : Int) - 1 - k + 1) = ((b - k : Nat) : Int) by omega, fromIndices_eq, fromIndices_eq, adjStart_some_nat,
          adjEnd_some_nat _ _ (by omega), adjEnd_some_nat _ _ (by omega)]
        congr 4
        funext j
        congr 3
        omega
      rw [e]
      refine ⟨_, next_new h1 h2 h4 _ (by omega) (by omega) (by omega), rfl, ?_, ?_, ?_⟩
      · exact l2
      · exact l3
      · exact need_pos t
  · intro j c j1 j2 hc
    have := hk.1 (b - 1 - j) c (by omega) (by rw [hget j j2]; exact hc)
    simpa using this
  · intro hkb c hc
    have := hk.2 c (by
      have := hget (b - k - 1) (by omega)
      rw [show b - 1 - (b - k - 1) = k by omega] at this
      rw [this]
      exact hc)
    simpa using this

theorem part_mem {s : String} {sp : Span} {c : Char} (hc : c ∈ part s sp) :
    ∃ j, sp.start.toNat ≤ j ∧ j < sp.stop.toNat ∧ s.toList[j]? = some c := by
  obtain ⟨j, hj⟩ := List.mem_iff_getElem?.1 hc
  unfold part at hj
  rw [List.getElem?_drop] at hj
  have hlt : sp.start.toNat + j < sp.stop.toNat := by
    rcases Nat.lt_or_ge (sp.start.toNat + j) sp.stop.toNat with h | h
    · exact h
    · rw [List.getElem?_take, if_neg (by omega)] at hj; cases hj
  rw [List.getElem?_take_of_lt hlt] at hj
  exact ⟨_, by omega, hlt, hj⟩

theorem part_head {s : String} {sp : Span} {c : Char} (hc : c ∈ (part s sp).head?) :
    sp.start.toNat < sp.stop.toNat ∧ s.toList[sp.start.toNat]? = some c := by
  have hc : (part s sp).head? = some c := hc
  rw [List.head?_eq_getElem?] at hc
  unfold part at hc
  rw [List.getElem?_drop, Nat.add_zero] at hc
  have hlt : sp.start.toNat < sp.stop.toNat := by
    rcases Nat.lt_or_ge sp.start.toNat sp.stop.toNat with h | h
    · exact h
    · rw [List.getElem?_take, if_neg (by omega)] at hc; cases hc
  rw [List.getElem?_take_of_lt hlt] at hc
  exact ⟨hlt, hc⟩

theorem part_last {s : String} {sp : Span} {c : Char} (h2 : sp.stop ≤ s.length) (hc : c ∈ (part s sp).getLast?) :
    sp.start.toNat < sp.stop.toNat ∧ s.toList[sp.stop.toNat - 1]? = some c := by
  have hc : (part s sp).getLast? = some c := hc
  have hl : (part s sp).length = sp.stop.toNat - sp.start.toNat := by
    unfold part
    rw [List.length_drop, List.length_take, String.length_toList]
    omega
  rw [List.getLast?_eq_getElem?, hl] at hc
  unfold part at hc
  rw [List.getElem?_drop] at hc
  have hlt : sp.start.toNat < sp.stop.toNat := by
    rcases Nat.lt_or_ge sp.start.toNat sp.stop.toNat with h | h
    · exact h
    · rw [List.getElem?_take, if_neg (by omega)] at hc; cases hc
  rw [List.getElem?_take_of_lt (by omega), show sp.start.toNat + (sp.stop.toNat - sp.start.toNat - 1) = sp.stop.toNat - 1 by omega] at hc
  exact ⟨hlt, hc⟩

theorem strippable_eq (c : Char) : c ∈ Paragraph.trimmable ↔ c ∈ strippable := Iff.rfl

theorem strip_obj {s : String} {h : Heap} {x : Nat} {t : Node} (h1 : OK h) (h2 : Acyclic h) (h3 : x < h.next)
    (h4 : h.str x = s) (h5 : Looks h x t) : ∃ sp, Trimmed s t.span sp ∧ Strips s h t (Paragraph.stripObj Paragraph.trimmable h x) sp := by
  obtain ⟨a, b, k, e1, e2, e3, ⟨t1, n1, s1, d1, v1, k1⟩, f1, f2⟩ := lstrip_obj Paragraph.trimmable h1 h2 h3 h4 h5
  obtain ⟨a', b', k', e1', e2', e3', e4', ⟨t2, n2, s2, d2, v2, k2⟩, g1, g2⟩ :=
    rstrip_obj Paragraph.trimmable n1.ok n1.acyclic n1.lt n1.str n1.looks
  rw [s1] at e1'
  simp only [Span.mk.injEq] at e1'
  obtain ⟨q1, q2⟩ := e1'
  have q1 : a' = a + k := by omega
  have q2 : b' = b := by omega
  subst q1 q2
  refine ⟨⟨((a + k : Nat) : Int), ((max (a + k) (b' - k') : Nat) : Int)⟩, ?_, t2, next_trans n1 n2, s2, d2.trans d1, v2.trans v1,
    Nat.le_trans k2 k1⟩
  rw [e1]
  refine ⟨⟨by dsimp only; omega, by dsimp only; omega, by dsimp only; omega⟩, ?_, ?_, ?_, ?_⟩
  · intro c hc
    obtain ⟨j, j1, j2, hj⟩ := part_mem hc
    simp only [Int.toNat_natCast] at j1 j2
    exact (strippable_eq c).1 (f1 j c j1 j2 hj)
  · intro c hc
    obtain ⟨j, j1, j2, hj⟩ := part_mem hc
    simp only [Int.toNat_natCast] at j1 j2
    exact (strippable_eq c).1 (g1 j c (by omega) j2 hj)
  · intro c hc
    obtain ⟨j1, hj⟩ := part_head hc
    simp only [Int.toNat_natCast] at j1 hj
    exact fun hm => f2 (by omega) c hj ((strippable_eq c).2 hm)
  · intro c hc
    obtain ⟨j1, hj⟩ := part_last (by dsimp only; omega) hc
    simp only [Int.toNat_natCast] at j1 hj
    rw [show max (a + k) (b' - k') - 1 = b' - k' - 1 by omega] at hj
    exact fun hm => g2 (by omega) c hj ((strippable_eq c).2 hm)

/-! ### Calling the itorator -/

theorem forEach_yield (g : Gen) : g.forEach (fun h x => .yield h x .done) = g := by
  induction g with
  | done h => rfl
  | raise h e => rfl
  | yield h r k ih =>
    rw [Gen.forEach, Gen.andThen]
    congr 1
    funext h'
    rw [Gen.andThen, ih]

theorem trimmer_makes {s : String} {seps : List Char} {n N m : Nat} {t : Node} (hN : need t ≤ N) {h : Heap} {x : Nat} (h1 : OK h)
    (h2 : Acyclic h) (h3 : x < h.next) (h4 : h.str x = s) (h5 : Looks h x t) : ∃ sp, Trimmed s t.span sp ∧
      ∃ h' ids, (traverse (Paragraph.graph seps n N) (m + 2) 1 h x).collect = (h', .ok ids) ∧ Made s h h' ids (paras seps n s t.vf sp) := by
  obtain ⟨sp, ht, t', n1, s1, d1, v1, k1⟩ := strip_obj h1 h2 h3 h4 h5
  refine ⟨sp, ht, ?_⟩
  obtain ⟨w, wl⟩ := looks_wf n1.ok t' _ n1.lt n1.looks
  rw [n1.str] at wl
  obtain ⟨h', ids, e, md⟩ := splitter_makes (seps := seps) (n := n) (m := m) (Nat.le_trans k1 hN) w.start_nonneg w.start_le wl _ _ n1.ok
    n1.acyclic n1.lt n1.str n1.looks
  rw [s1, v1] at md
  refine ⟨h', ids, ?_, ?_⟩
  · rw [traverse.eq_2]
    show (((Paragraph.trimT h x).forEach (flow (m + 1) (traverse (Paragraph.graph seps n N) (m + 1)) [⟨.recurse, 0, always⟩])).collect) = _
    unfold Paragraph.trimT
    rw [Gen.ofList, Gen.forEach, collect_andThen]
    have : (flow (m + 1) (traverse (Paragraph.graph seps n N) (m + 1)) [⟨.recurse, 0, always⟩]
        (Paragraph.stripObj Paragraph.trimmable h x).1 (Paragraph.stripObj Paragraph.trimmable h x).2).collect = (h', .ok ids) := by
      show (((traverse (Paragraph.graph seps n N) (m + 1) 0 _ _)).forEach (fun h x => .yield h x .done)).collect = _
      rw [forEach_yield]
      exact e
    rw [this]
    simp [Gen.ofList, Gen.forEach, Gen.collect]
  · exact ⟨Nat.le_trans n1.next md.next, fun i hi => by rw [md.old i (Nat.lt_of_lt_of_le hi n1.next), n1.old i hi], md.ok, md.acyclic,
      fun i hi => ⟨Nat.le_trans n1.next (md.fresh i hi).1, (md.fresh i hi).2⟩, md.root, md.str, md.nodup, md.looks⟩

/-- **C102**: without `trim_ws`, the itorator makes of an Ito one new childless Ito for each paragraph of its text, with
desc `paragraph`, and changes nothing else. -/
theorem C102_call (seps : List Char) (n N : Nat) {s : String} {t : Node} (hN : need t ≤ N) {h : Heap} {x : Nat} (h1 : OK h)
    (h2 : Acyclic h) (h3 : x < h.next) (h4 : h.str x = s) (h5 : Looks h x t) :
    ∃ h' ids, (Paragraph.callItor seps n false N h x).collect = (h', .ok ids) ∧
      Made s h h' ids ((chunks t.span (Paragraph.breaks seps n s t.span)).map fun c => .mk c (some "paragraph") t.vf []) := by
  obtain ⟨w, wl⟩ := looks_wf h1 t x h3 h5
  rw [h4] at wl
  obtain ⟨m, rfl⟩ : ∃ m, N = m + 1 := ⟨N - 1, by have := need_pos t; omega⟩
  exact call_makes (G := Paragraph.graph seps n (m + 1)) (n := m + 1) (i := 0)
    (splitter_makes hN w.start_nonneg w.start_le wl) hN h x h1 h2 h3 h4 h5

/-- **C102**: with `trim_ws`, it does so with the text without the strippable characters at its ends. -/
theorem C102_trim (seps : List Char) (n N : Nat) (hN2 : 2 ≤ N) {s : String} {t : Node} (hN : need t ≤ N) {h : Heap} {x : Nat}
    (h1 : OK h) (h2 : Acyclic h) (h3 : x < h.next) (h4 : h.str x = s) (h5 : Looks h x t) :
    ∃ sp, Trimmed s t.span sp ∧ ∃ h' ids, (Paragraph.callItor seps n true N h x).collect = (h', .ok ids) ∧
      Made s h h' ids ((chunks sp (Paragraph.breaks seps n s sp)).map fun c => .mk c (some "paragraph") t.vf []) := by
  obtain ⟨h', y, e, m⟩ := clone_made h1 h2 h3 h4 h5 hN
  have hl := m.looks
  rw [LooksAll] at hl
  obtain ⟨k, rfl⟩ : ∃ k, N = k + 2 := ⟨N - 2, by omega⟩
  obtain ⟨sp, ht, h'', ids, e2, m2⟩ := trimmer_makes (seps := seps) (n := n) (m := k) hN m.ok m.acyclic (m.fresh y (by simp)).2
    (m.str y (by simp)) hl.1
  refine ⟨sp, ht, h'', ids, ?_, m.after m2⟩
  unfold Paragraph.callItor call
  rw [e]
  exact e2

/-- **C102**, partial: after trimming no paragraph ends with white space, and the first does not start with it.  Missing:
the starts of the other paragraphs, where the claim is false (`C102_trim_violated`). -/
theorem C102_trim_partial (n : Nat) (hn : 1 ≤ n) (s : String) (sp sp' : Span) (h0 : 0 ≤ sp.start)
    (h2 : sp.stop ≤ s.length) (ht : Trimmed s sp sp') (c : Span) (hc : c ∈ chunks sp' (Paragraph.breaks lineBreaks n s sp')) :
    (∀ x ∈ (part s c).getLast?, x ∉ whiteSpace ∧ x ∉ lineBreaks) ∧
      (c.start = sp'.start → ∀ x ∈ (part s c).head?, x ∉ whiteSpace ∧ x ∉ lineBreaks) := by
  obtain ⟨i1, i2, i3⟩ := ht.inside
  have hp := C102_paragraphs (seps := lineBreaks) (by unfold NoBlank; decide) n hn s sp' (by omega) i2 (by omega) c hc
  have hsub : ∀ x, x ∉ strippable → x ∉ whiteSpace ∧ x ∉ lineBreaks := by
    intro x hx
    exact ⟨fun h => hx (by simp [strippable, h]), fun h => hx (by simp [strippable, h])⟩
  obtain ⟨c1, c2, c3⟩ := hp.inside
  refine ⟨fun x hx => ?_, fun he x hx => ?_⟩
  · by_cases he : c.stop = sp'.stop
    · apply hsub
      apply ht.last
      obtain ⟨l1, l2⟩ := part_last (by omega) hx
      rw [he] at l2
      have hl : (part s sp').length = sp'.stop.toNat - sp'.start.toNat := by
        unfold part
        rw [List.length_drop, List.length_take, String.length_toList]
        omega
      show (part s sp').getLast? = some x
      rw [List.getLast?_eq_getElem?, hl]
      unfold part
      rw [List.getElem?_drop, List.getElem?_take_of_lt (by omega), ← l2]
      congr 1
      omega
    · exact hp.last he x hx
  · apply hsub
    apply ht.first
    obtain ⟨l1, l2⟩ := part_head hx
    rw [he] at l2
    show (part s sp').head? = some x
    rw [List.head?_eq_getElem?]
    unfold part
    rw [List.getElem?_drop, List.getElem?_take_of_lt (by omega), Nat.add_zero]
    exact l2

/-- What the itorator makes of a text. -/
def parasOf (n : Nat) (trim : Bool) (text : String) : Option (List String) :=
  match (Paragraph.callItor eols n trim 5 (empty.new text none none none) 0).collect with
  | (h, .ok ids) => some (ids.map fun i => String.ofList (part text (h.span i)))
  | _ => none

/-- **C102 fails** as users read `trim_ws`: the text is trimmed, not the paragraphs. -/
theorem C102_trim_violated : parasOf 2 true " a\n\n  b \n" = some ["a", "  b"] := by decide +kernel

/-- **C102 fails** for blank texts: they have one paragraph, which is empty. -/
theorem C102_empty_violated : parasOf 2 true " \n  " = some [""] := by decide +kernel

/-- **C102 fails** for `min_separators=0`, which is accepted: every character is a paragraph. -/
theorem C102_zero_violated : parasOf 0 true "a\nb\n\ncd" = some ["a", "b", "c", "d"] := by decide +kernel

/-! The hypotheses are met. -/

example : NoBlank lineBreaks ∧ lineBreaks = eols := by unfold NoBlank; decide
example : chunks ⟨0, 11⟩ (Paragraph.breaks eols 2 "ab \n \r\n c\nd" ⟨0, 11⟩) = [⟨0, 2⟩, ⟨7, 11⟩] := by decide +kernel
example : Break lineBreaks 2 " \n \r\n".toList :=
  ⟨[" \n".toList, " \r\n".toList], rfl, by decide, by
    intro l hl
    simp at hl
    rcases hl with rfl | rfl
    · exact ⟨[' '], '\n', rfl, by decide, by decide⟩
    · exact ⟨[' ', '\r'], '\n', rfl, by decide, by decide⟩⟩
example : parasOf 2 false " a\n\n  b \n" = some [" a", "  b \n"] := by decide +kernel
example : parasOf 3 false "a\n\nb\n\n\nc" = some ["a\n\nb", "c"] := by decide +kernel

end Pawpaw.Props
