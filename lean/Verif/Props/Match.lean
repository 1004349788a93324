import Verif.Model.Match
import Verif.Lemmas.Tree
import Verif.Spec.Tree
/-!
# C18: `from_match`; C19: `from_re`; C60: `GroupKeys`
-/
set_option linter.unusedSectionVars false
namespace Pawpaw.Props
open Pawpaw TreeSpec Match

/-! ## C18: the sort -/

/-- Order of the listing: by start, then by decreasing stop. -/
def Before (a b : Span) : Prop := a.start < b.start ∨ (a.start = b.start ∧ b.stop ≤ a.stop)

theorem keyLe_iff (a b : Entry) : keyLe a b = true ↔ Before a.1 b.1 := by
  unfold keyLe Before
  simp only [Bool.or_eq_true, Bool.and_eq_true, decide_eq_true_eq]
  omega

theorem insertEntry_perm (x : Entry) (l : List Entry) : (insertEntry x l).Perm (x :: l) := by
  induction l with
  | nil => exact List.Perm.refl _
  | cons y ys ih =>
    unfold insertEntry
    split
    · exact List.Perm.refl _
    · exact (ih.cons y).trans (List.Perm.swap x y ys)

theorem sortEntries_perm (l : List Entry) : (sortEntries l).Perm l := by
  induction l with
  | nil => exact List.Perm.refl _
  | cons x xs ih => exact (insertEntry_perm x _).trans (ih.cons x)

theorem insertEntry_sorted (x : Entry) (l : List Entry)
    (h : l.Pairwise (fun a b => Before a.1 b.1)) :
    (insertEntry x l).Pairwise (fun a b => Before a.1 b.1) := by
  induction l with
  | nil => simp [insertEntry]
  | cons y ys ih =>
    obtain ⟨h1, h2⟩ := List.pairwise_cons.mp h
    unfold insertEntry
    split
    · rename_i hk
      rw [keyLe_iff] at hk
      refine List.pairwise_cons.mpr ⟨?_, h⟩
      intro z hz
      rw [List.mem_cons] at hz
      rcases hz with rfl | hz
      · exact hk
      · have := h1 z hz
        unfold Before at *; omega
    · rename_i hk
      rw [keyLe_iff] at hk
      refine List.pairwise_cons.mpr ⟨?_, ih h2⟩
      intro z hz
      have hz' := (insertEntry_perm x ys).mem_iff.mp hz
      rw [List.mem_cons] at hz'
      rcases hz' with rfl | hz'
      · unfold Before at *; omega
      · exact h1 z hz'

theorem sortEntries_sorted (l : List Entry) :
    (sortEntries l).Pairwise (fun a b => Before a.1 b.1) := by
  induction l with
  | nil => exact List.Pairwise.nil
  | cons x xs ih => exact insertEntry_sorted x _ ih

theorem insertEntry_filter_ne (x : Entry) (l : List Entry) (s : Span) (h : x.1 ≠ s) :
    (insertEntry x l).filter (fun e => e.1 == s) = l.filter (fun e => e.1 == s) := by
  induction l with
  | nil => simp [insertEntry, h]
  | cons y ys ih =>
    unfold insertEntry
    split
    · simp [h]
    · simp only [List.filter_cons, ih]

theorem insertEntry_filter_eq (x : Entry) (l : List Entry) :
    (insertEntry x l).filter (fun e => e.1 == x.1) = x :: l.filter (fun e => e.1 == x.1) := by
  induction l with
  | nil => simp [insertEntry]
  | cons y ys ih =>
    unfold insertEntry
    split
    · simp
    · rename_i hk
      rw [keyLe_iff] at hk
      have : y.1 ≠ x.1 := by
        intro e
        apply hk
        right
        rw [e]
        exact ⟨rfl, Int.le_refl _⟩
      simp only [List.filter_cons, ih]
      simp [this]

/-- The sort is stable: captures with the same span keep their order. -/
theorem sortEntries_stable (l : List Entry) (s : Span) :
    (sortEntries l).filter (fun e => e.1 == s) = l.filter (fun e => e.1 == s) := by
  induction l with
  | nil => rfl
  | cons x xs ih =>
    unfold sortEntries
    by_cases h : x.1 = s
    · subst h
      rw [insertEntry_filter_eq, ih]
      simp
    · rw [insertEntry_filter_ne x _ s h, ih]
      simp [h]

/-! ## C18: invariants of the loop -/

theorem preorderAll_append (l r : List Node) : preorderAll (l ++ r) = preorderAll l ++ preorderAll r := by
  induction l with
  | nil => simp [preorderAll]
  | cons k ks ih => simp [preorderAll, ih]

theorem preorderAll_single (n : Node) : preorderAll [n] = preorder n := by simp [preorderAll]

/-- Listing of the stack, bottom first. -/
def zpre : List Frame → List Entry
  | [] => []
  | f :: rest => zpre rest ++ (f.span, f.desc) :: preorderAll f.left

/-- Well-formed stack: `c` is the span of the child standing at the top frame's open place. `m` bounds
the starts. -/
def Inv (m : Int) : Option Span → List Frame → Prop
  | _, [] => True
  | c, f :: rest => f.right = [] ∧ 0 ≤ f.span.start ∧ f.span.start ≤ f.span.stop ∧ f.span.start ≤ m ∧
      KidsOK f.span (f.left.map Node.span ++ c.toList) ∧ (∀ k ∈ f.left, WF k ∧ k.start ≤ m) ∧
      Inv m (some f.span) rest

theorem Inv.mono {m m' : Int} (h : m ≤ m') : ∀ {c : Option Span} {st : List Frame}, Inv m c st → Inv m' c st := by
  intro c st
  induction st generalizing c with
  | nil => intro _; trivial
  | cons f rest ih =>
    rintro ⟨h1, h2, h3, h4, h5, h6, h7⟩
    exact ⟨h1, h2, h3, by omega, h5, fun k hk => ⟨(h6 k hk).1, by have := (h6 k hk).2; omega⟩, ih h7⟩

theorem close_WF {f : Frame} (h1 : f.right = []) (h2 : 0 ≤ f.span.start) (h3 : f.span.start ≤ f.span.stop)
    (h5 : KidsOK f.span (f.left.map Node.span)) (h6 : ∀ k ∈ f.left, WF k) : WF f.close := by
  unfold Frame.close
  rw [h1, List.append_nil]
  exact .mk h2 h3 h5 h6

theorem absorb_inv {m : Int} {f : Frame} {rest : List Frame} {c : Option Node}
    (hc : ∀ n ∈ c, WF n ∧ n.start ≤ m) (h : Inv m (c.map Node.span) (f :: rest)) :
    Inv m none (f.absorb c :: rest) ∧
    (f.absorb c).span = f.span ∧ zpre (f.absorb c :: rest) = zpre (f :: rest) ++ preorderAll c.toList := by
  obtain ⟨h1, h2, h3, h4, h5, h6, h7⟩ := h
  cases c with
  | none =>
    exact ⟨⟨h1, h2, h3, h4, h5, h6, h7⟩, rfl, by simp [Frame.absorb, preorderAll]⟩
  | some n =>
    refine ⟨⟨h1, h2, h3, h4, ?_, ?_, h7⟩, rfl, ?_⟩
    · simpa [Frame.absorb] using h5
    · intro k hk
      simp only [Frame.absorb, List.mem_append, List.mem_singleton] at hk
      rcases hk with hk | rfl
      · exact h6 k hk
      · exact hc _ rfl
    · simp [Frame.absorb, zpre, preorderAll_append]

theorem close_preorder {f : Frame} (h : f.right = []) :
    preorder f.close = (f.span, f.desc) :: preorderAll f.left := by
  unfold Frame.close
  rw [h, List.append_nil, preorder]

theorem popWhile_spec (m : Int) (s : Span) (st : List Frame) (c : Option Node) (roots : List Node)
    (hc : ∀ n ∈ c, WF n ∧ n.start ≤ m) (h : Inv m (c.map Node.span) st) (hr : ∀ n ∈ roots, WF n) :
    Inv m none (popWhile s c st roots).1 ∧ (∀ n ∈ (popWhile s c st roots).2, WF n) ∧
    preorderAll (popWhile s c st roots).2 ++ zpre (popWhile s c st roots).1 =
      preorderAll roots ++ zpre st ++ preorderAll c.toList ∧
    ∀ f, (popWhile s c st roots).1.head? = some f → ¬ (s.start < f.span.start ∨ s.stop > f.span.stop) := by
  induction st generalizing c with
  | nil =>
    unfold popWhile
    refine ⟨trivial, ?_, ?_, by simp⟩
    · intro n hn
      rw [List.mem_append] at hn
      rcases hn with hn | hn
      · exact hr n hn
      · cases c with
        | none => simp at hn
        | some x => simp at hn; subst hn; exact (hc n rfl).1
    · simp [zpre, preorderAll_append]
  | cons f rest ih =>
    obtain ⟨a1, a2, a3⟩ := absorb_inv hc h
    unfold popWhile
    dsimp only
    split
    · rename_i hs
      obtain ⟨b1, b2, b3, b4, b5, b6, b7⟩ := a1
      have hwf := close_WF b1 b2 b3 (by simpa using b5) (fun k hk => (b6 k hk).1)
      have := ih (some (f.absorb c).close) (fun n hn => by
        cases hn; exact ⟨hwf, by show (f.absorb c).span.start ≤ m; exact b4⟩) b7
      refine ⟨this.1, this.2.1, ?_, this.2.2.2⟩
      rw [this.2.2.1]
      simp only [Option.toList_some, preorderAll_single, close_preorder b1]
      rw [List.append_assoc, List.append_assoc, ← a3]
      simp [zpre]
    · rename_i hs
      refine ⟨a1, hr, ?_, ?_⟩
      · rw [a3]; simp
      · intro g hg
        simp only [List.head?_cons, Option.some.injEq] at hg
        subst hg
        rw [a2]; exact hs

theorem closeAll_spec (m : Int) (st : List Frame) (c : Option Node) (roots : List Node)
    (hc : ∀ n ∈ c, WF n ∧ n.start ≤ m) (h : Inv m (c.map Node.span) st) (hr : ∀ n ∈ roots, WF n) :
    (∀ n ∈ closeAll c st roots, WF n) ∧
    preorderAll (closeAll c st roots) = preorderAll roots ++ zpre st ++ preorderAll c.toList := by
  induction st generalizing c with
  | nil =>
    unfold closeAll
    refine ⟨?_, by simp [zpre, preorderAll_append]⟩
    intro n hn
    rw [List.mem_append] at hn
    rcases hn with hn | hn
    · exact hr n hn
    · cases c with
      | none => simp at hn
      | some x => simp at hn; subst hn; exact (hc n rfl).1
  | cons f rest ih =>
    obtain ⟨a1, a2, a3⟩ := absorb_inv hc h
    obtain ⟨b1, b2, b3, b4, b5, b6, b7⟩ := a1
    have hwf := close_WF b1 b2 b3 (by simpa using b5) (fun k hk => (b6 k hk).1)
    have := ih (some (f.absorb c).close) (fun n hn => by
      cases hn; exact ⟨hwf, by show (f.absorb c).span.start ≤ m; exact b4⟩) b7
    unfold closeAll
    refine ⟨this.1, ?_⟩
    rw [this.2]
    simp only [Option.toList_some, preorderAll_single, close_preorder b1]
    rw [List.append_assoc, List.append_assoc, ← a3]
    simp [zpre]

/-- Position of an insertion at the end. -/
theorem bfindStart_end {p : Span} {ks : List Span} {s : Span} (h : KidsOK p ks)
    (h1 : ∀ a ∈ ks, a.start < s.start) : Kids.bfindStart ks s = -(ks.length : Int) - 1 := by
  have := @Kids.bfindStart_absent ks [] s (by simpa using h.sortedStart) h1 (by simp)
  simpa using this

/-- One step from a well-formed stack: either `ValueError`, or the entry is appended to the listing. -/
theorem step_spec {len : Nat} {m : Int} {e : Entry} {st : List Frame} {roots : List Node}
    (h : Inv m none st) (hr : ∀ n ∈ roots, WF n) (h0 : 0 ≤ e.1.start) (h1 : e.1.start ≤ e.1.stop)
    (h2 : e.1.stop ≤ len) (hm : m ≤ e.1.start) :
    step len e st roots = .error .valueError ∨
    ∃ st' roots', step len e st roots = .ok (st', roots') ∧ Inv e.1.start none st' ∧
      (∀ n ∈ roots', WF n) ∧
      preorderAll roots' ++ zpre st' = preorderAll roots ++ zpre st ++ [e] := by
  unfold step
  dsimp only
  rw [fromIndices_span h0 h1 h2, show (⟨e.1.start, e.1.stop⟩ : Span) = e.1 from rfl]
  obtain ⟨p1, p2, p3, p4⟩ := popWhile_spec m e.1 st none roots (by simp) h hr
  generalize popWhile e.1 none st roots = res at *
  obtain ⟨stk, rts⟩ := res
  simp only at p1 p2 p3 p4
  cases stk with
  | nil =>
    right
    refine ⟨_, _, rfl, ⟨rfl, h0, h1, by simp, Kids.kidsOK_nil _, by simp, trivial⟩, p2, ?_⟩
    have p3' : preorderAll rts = preorderAll roots ++ zpre st := by simpa [zpre, preorderAll] using p3
    simp [zpre, preorderAll, p3']
  | cons f rest =>
    obtain ⟨i1, i2, i3, i4, i5, i6, i7⟩ := Inv.mono hm p1
    have htop := p4 f rfl
    dsimp only
    rw [i1, List.append_nil]
    have hko : KidsOK f.span (f.left.map Node.span) := by simpa using i5
    by_cases hlt : ∀ k ∈ f.left, k.start < e.1.start
    · have hb := bfindStart_end hko (s := e.1) (by simpa [Node.start] using hlt)
      rw [hb, if_neg (by omega)]
      rw [show (-(-((f.left.map Node.span).length : Int) - 1) - 1).toNat = (f.left.map Node.span).length by
        omega]
      by_cases hn : Kids.notBetween (f.left.map Node.span) e.1 (f.left.map Node.span).length
          (f.left.map Node.span).length = true
      · left; rw [if_pos hn]
      · rw [if_neg hn]
        by_cases ho : Kids.outside f.span e.1 = true
        · left; rw [if_pos ho]
        · right
          rw [if_neg ho]
          refine ⟨_, _, rfl, ⟨rfl, h0, h1, by simp, Kids.kidsOK_nil _, by simp, ?_⟩, p2, ?_⟩
          · rw [List.length_map]
            refine ⟨by simp, i2, i3, i4, ?_, ?_, i7⟩
            · have := (Kids.kidsOK_insert_iff (p := f.span) (l := f.left.map Node.span) (r := [])
                (s := e.1) (by simpa using hko) h1 (by simpa [Node.start] using hlt) (by simp)).mpr
              simp only [Option.toList_some, List.take_length]
              apply this
              refine ⟨?_, by simp, by omega, by omega⟩
              intro hx
              apply hn
              unfold Kids.notBetween
              have := (Kids.isStartLtPriorStop_append (l := f.left.map Node.span) (r := []) (s := e.1)).mpr hx
              rw [List.append_nil] at this
              rw [this]; rfl
            · simpa using i6
          · have p3' : preorderAll rts ++ zpre (f :: rest) = preorderAll roots ++ zpre st := by
              simpa [preorderAll] using p3
            rw [← p3', List.length_map]
            simp [zpre, preorderAll]
    · left
      have hex : ∃ k ∈ f.left, k.start = e.1.start := by
        apply Classical.byContradiction
        intro hne
        apply hlt
        intro k hk
        have := (i6 k hk).2
        rcases Int.lt_or_eq_of_le this with g | g
        · exact g
        · exact absurd ⟨k, hk, g⟩ hne
      have hbf : Kids.bfindStart (f.left.map Node.span) e.1 ≥ 0 := by
        obtain ⟨l, r, e1, e2, e3, e4⟩ := exists_split_start hko.sortedStart e.1.start
        obtain ⟨k, hk, hke⟩ := hex
        have hk' : k.span ∈ l ++ r := by rw [← e1]; exact List.mem_map.mpr ⟨k, hk, rfl⟩
        have hkr : k.span ∈ r := by
          rw [List.mem_append] at hk'
          rcases hk' with hk' | hk'
          · have := e2 _ hk'; simp only [Node.start] at hke; omega
          · exact hk'
        cases r with
        | nil => simp at hkr
        | cons b r =>
          have hs := hko.sortedStart
          rw [e1] at hs
          have hbs : b.start = e.1.start := by
            have g1 := e3 b (by simp)
            rw [List.mem_cons] at hkr
            rcases hkr with rfl | hkr
            · exact hke
            · have := (List.pairwise_append.mp (by simpa [Sorted] using hs)).2.1
              have := (List.pairwise_cons.mp this).1 _ (List.mem_map.mpr ⟨k.span, hkr, rfl⟩)
              simp only [Node.start] at *
              omega
          rw [e1, Kids.bfindStart_present hs e2 hbs]
          omega
      rw [if_pos hbf]

theorem loop_spec {len : Nat} (es : List Entry) {m : Int} {st : List Frame} {roots : List Node}
    (h : Inv m none st) (hr : ∀ n ∈ roots, WF n)
    (hv : ∀ e ∈ es, 0 ≤ e.1.start ∧ e.1.start ≤ e.1.stop ∧ e.1.stop ≤ len)
    (hs : es.Pairwise (fun a b => Before a.1 b.1)) (hm : ∀ e ∈ es, m ≤ e.1.start) :
    loop len es st roots = .error .valueError ∨
    ∃ forest, loop len es st roots = .ok forest ∧ (∀ n ∈ forest, WF n) ∧
      preorderAll forest = preorderAll roots ++ zpre st ++ es := by
  induction es generalizing m st roots with
  | nil =>
    right
    have := closeAll_spec m st none roots (by simp) h hr
    exact ⟨_, rfl, this.1, by simpa [preorderAll] using this.2⟩
  | cons e es ih =>
    obtain ⟨v1, v2, v3⟩ := hv e (by simp)
    obtain ⟨s1, s2⟩ := List.pairwise_cons.mp hs
    unfold loop
    rcases step_spec h hr v1 v2 v3 (hm e (by simp)) with hst | ⟨st', roots', e1, e2, e3, e4⟩
    · left; rw [hst]
    · rw [e1]
      dsimp only
      rcases ih e2 e3 (fun e he => hv e (by simp [he])) s2 (fun e' he => by
          have := s1 e' he; unfold Before at this; omega) with g | ⟨fo, g1, g2, g3⟩
      · left; exact g
      · right
        refine ⟨fo, g1, g2, ?_⟩
        rw [g3, e4]; simp

/-- C18: whatever the groups, `from_match` either raises `ValueError` or returns well-formed trees
whose pre-order listing is exactly the captures (span with desc) ordered by start and then by
decreasing stop, captures of equal span in group order. -/
theorem C18_from_match_listing (len : Nat) (groups : List (Option String × List Span))
    (hv : ∀ g ∈ groups, ∀ s ∈ g.2, 0 ≤ s.start ∧ s.start ≤ s.stop ∧ s.stop ≤ len) :
    fromMatch len groups = .error .valueError ∨
    ∃ forest, fromMatch len groups = .ok forest ∧ (∀ n ∈ forest, WF n) ∧
      (preorderAll forest).Perm (groups.flatMap fun g => g.2.map fun s => (s, g.1)) ∧
      (preorderAll forest).Pairwise (fun a b => Before a.1 b.1) ∧
      ∀ s : Span, (preorderAll forest).filter (fun e => e.1 == s) =
        (groups.flatMap fun g => g.2.map fun s => (s, g.1)).filter (fun e => e.1 == s) := by
  unfold fromMatch
  have hmem : ∀ e ∈ sortEntries (entries groups), 0 ≤ e.1.start ∧ e.1.start ≤ e.1.stop ∧ e.1.stop ≤ len := by
    intro e he
    have := (sortEntries_perm _).mem_iff.mp he
    simp only [entries, List.mem_flatMap, List.mem_map] at this
    obtain ⟨g, hg, s, hs, rfl⟩ := this
    exact hv g hg s hs
  rcases loop_spec (len := len) (sortEntries (entries groups)) (m := 0) (st := []) (roots := [])
    trivial (by simp) hmem (sortEntries_sorted _) (fun e he => (hmem e he).1) with h | ⟨fo, h1, h2, h3⟩
  · exact Or.inl h
  · right
    refine ⟨fo, h1, h2, ?_⟩
    have : preorderAll fo = sortEntries (entries groups) := by simpa [preorderAll, zpre] using h3
    rw [this]
    exact ⟨sortEntries_perm _, sortEntries_sorted _, sortEntries_stable _⟩

/-! ## C18: success on nested-or-disjoint captures -/

/-- `n` ends at or before the start of `s`, and starts before it. -/
def Closed (s : Span) (n : Node) : Prop := n.start < s.start ∧ n.stop ≤ s.start

/-- Strictly ordered and disjoint. -/
def Apart (a b : Span) : Prop := a.start < b.start ∧ a.stop ≤ b.start

/-- Span of the outermost open Ito (or of the just closed one). -/
def bottom (st : List Frame) (c : Option Node) : List Span :=
  match st.getLast? with
  | some f => [f.span]
  | none => (c.map Node.span).toList

theorem bottom_cons (f : Frame) (rest : List Frame) (c c' : Option Node)
    (h : c'.map Node.span = some f.span) : bottom (f :: rest) c = bottom rest c' := by
  unfold bottom
  cases rest with
  | nil => simp [h]
  | cons g rest => rw [List.getLast?_cons_cons, List.getLast?_cons]

theorem bottom_cons_eq (f g : Frame) (rest : List Frame) (c c' : Option Node) (h : f.span = g.span) :
    bottom (f :: rest) c = bottom (g :: rest) c' := by
  unfold bottom
  cases rest with
  | nil => simp [h]
  | cons k rest =>
    rw [List.getLast?_cons_cons, List.getLast?_cons_cons, List.getLast?_cons]

theorem popWhile_closed (s : Span) (st : List Frame) (c : Option Node) (roots : List Node)
    (hb : ∀ f ∈ st, Before f.span s ∧ Laminar f.span s ∧ f.span.start ≤ f.span.stop)
    (hk : ∀ f ∈ st, ∀ k ∈ f.left, Closed s k) (hc : ∀ n ∈ c, Closed s n)
    (hr : ∀ n ∈ roots, Closed s n)
    (ho : (roots.map Node.span ++ bottom st c).Pairwise Apart) (hs : s.start ≤ s.stop) :
    (∀ f ∈ (popWhile s c st roots).1, (∃ g ∈ st, g.span = f.span) ∧ ∀ k ∈ f.left, Closed s k) ∧
    (∀ n ∈ (popWhile s c st roots).2, Closed s n) ∧
    ((popWhile s c st roots).2.map Node.span ++ bottom (popWhile s c st roots).1 none).Pairwise Apart := by
  induction st generalizing c with
  | nil =>
    unfold popWhile
    refine ⟨by simp, ?_, ?_⟩
    · intro n hn
      rw [List.mem_append, Option.mem_toList] at hn
      rcases hn with hn | hn
      · exact hr n hn
      · exact hc n hn
    · have : bottom [] c = (c.toList).map Node.span := by cases c <;> rfl
      rw [this] at ho
      simpa [bottom] using ho
  | cons f rest ih =>
    have hf : (f.absorb c).span = f.span := by cases c <;> rfl
    have hleft : ∀ k ∈ (f.absorb c).left, Closed s k := by
      intro k hk'
      cases c with
      | none => exact hk f (by simp) k hk'
      | some n =>
        simp only [Frame.absorb, List.mem_append, List.mem_singleton] at hk'
        rcases hk' with hk' | rfl
        · exact hk f (by simp) k hk'
        · exact hc _ rfl
    unfold popWhile
    dsimp only
    split
    · rename_i hcond
      obtain ⟨b1, b2, b3⟩ := hb f (by simp)
      have hclosed : Closed s (f.absorb c).close := by
        show (f.absorb c).span.start < s.start ∧ (f.absorb c).span.stop ≤ s.start
        rw [hf]
        unfold Before at b1
        unfold Laminar at b2
        omega
      have := ih (some (f.absorb c).close) (fun g hg => hb g (by simp [hg]))
        (fun g hg => hk g (by simp [hg])) (fun n hn => by cases hn; exact hclosed)
        (by rw [bottom_cons f rest c (some (f.absorb c).close) (by show some (f.absorb c).span = _; rw [hf])] at ho
            exact ho)
      refine ⟨fun g hg => ?_, this.2.1, this.2.2⟩
      obtain ⟨⟨g', hg', e⟩, h2⟩ := this.1 g hg
      exact ⟨⟨g', by simp [hg'], e⟩, h2⟩
    · refine ⟨?_, hr, ?_⟩
      · intro g hg
        rw [List.mem_cons] at hg
        rcases hg with rfl | hg
        · exact ⟨⟨f, by simp, hf.symm⟩, hleft⟩
        · exact ⟨⟨g, by simp [hg], rfl⟩, hk g (by simp [hg])⟩
      · rw [bottom_cons_eq (f.absorb c) f rest none c hf]
        exact ho

theorem closeAll_ordered (st : List Frame) (c : Option Node) (roots : List Node)
    (ho : (roots.map Node.span ++ bottom st c).Pairwise Apart) :
    ((closeAll c st roots).map Node.span).Pairwise Apart := by
  induction st generalizing c with
  | nil =>
    unfold closeAll
    have : bottom [] c = (c.toList).map Node.span := by cases c <;> rfl
    rw [this] at ho
    simpa using ho
  | cons f rest ih =>
    unfold closeAll
    apply ih
    rw [bottom_cons f rest c (some (f.absorb c).close) (by cases c <;> rfl)] at ho
    exact ho

theorem step_ok {len : Nat} {m : Int} {e : Entry} {st : List Frame} {roots : List Node}
    (h : Inv m none st) (hr : ∀ n ∈ roots, WF n) (h0 : 0 ≤ e.1.start) (h1 : e.1.start ≤ e.1.stop)
    (h2 : e.1.stop ≤ len) (hm : m ≤ e.1.start)
    (hb : ∀ f ∈ st, Before f.span e.1 ∧ Laminar f.span e.1 ∧ f.span.start ≤ f.span.stop)
    (hk : ∀ f ∈ st, ∀ k ∈ f.left, Closed e.1 k) (hrc : ∀ n ∈ roots, Closed e.1 n)
    (ho : (roots.map Node.span ++ bottom st none).Pairwise Apart) :
    ∃ st' roots', step len e st roots = .ok (st', roots') ∧
      (∀ f ∈ st', (f.span = e.1 ∨ ∃ g ∈ st, g.span = f.span) ∧ ∀ k ∈ f.left, Closed e.1 k) ∧
      (∀ n ∈ roots', Closed e.1 n) ∧ (roots'.map Node.span ++ bottom st' none).Pairwise Apart := by
  unfold step
  dsimp only
  rw [fromIndices_span h0 h1 h2, show (⟨e.1.start, e.1.stop⟩ : Span) = e.1 from rfl]
  obtain ⟨p1, p2, p3, p4⟩ := popWhile_spec m e.1 st none roots (by simp) h hr
  obtain ⟨q1, q2, q3⟩ := popWhile_closed e.1 st none roots hb hk (by simp) hrc ho h1
  generalize popWhile e.1 none st roots = res at *
  obtain ⟨stk, rts⟩ := res
  simp only at p1 p2 p3 p4 q1 q2 q3
  cases stk with
  | nil =>
    refine ⟨_, _, rfl, by simp, q2, ?_⟩
    rw [List.pairwise_append]
    refine ⟨by simpa [bottom] using q3, by simp [bottom], ?_⟩
    intro a ha b hb'
    obtain ⟨n, hn, rfl⟩ := List.mem_map.mp ha
    simp only [bottom, List.getLast?_singleton, List.mem_singleton] at hb'
    subst hb'
    exact q2 n hn
  | cons f rest =>
    obtain ⟨i1, i2, i3, i4, i5, i6, i7⟩ := Inv.mono hm p1
    have htop := p4 f rfl
    have hcl := (q1 f (by simp)).2
    dsimp only
    rw [i1, List.append_nil]
    have hko : KidsOK f.span (f.left.map Node.span) := by simpa using i5
    have hlt : ∀ k ∈ f.left, k.start < e.1.start := fun k hk => (hcl k hk).1
    have hbf := bfindStart_end hko (s := e.1) (by simpa [Node.start] using hlt)
    rw [hbf, if_neg (by omega)]
    rw [show (-(-((f.left.map Node.span).length : Int) - 1) - 1).toNat = (f.left.map Node.span).length by
      omega]
    have hn : Kids.notBetween (f.left.map Node.span) e.1 (f.left.map Node.span).length
        (f.left.map Node.span).length = false := by
      unfold Kids.notBetween
      have e1 := Kids.isStartLtPriorStop_append (l := f.left.map Node.span) (r := []) (s := e.1)
      have e2 := Kids.isStopGtNextStart_append (l := f.left.map Node.span) (r := []) (s := e.1)
      rw [List.append_nil] at e1 e2
      rw [Bool.or_eq_false_iff]
      constructor
      · rw [Bool.eq_false_iff]
        intro hc
        obtain ⟨a, ha, hlt'⟩ := e1.mp hc
        have := List.mem_of_getLast? ha
        obtain ⟨k, hk', rfl⟩ := List.mem_map.mp this
        have := (hcl k hk').2
        simp only [Node.stop] at this
        omega
      · rw [Bool.eq_false_iff]
        intro hc
        obtain ⟨a, ha, _⟩ := e2.mp hc
        simp at ha
    rw [if_neg (by rw [hn]; simp)]
    have hout : Kids.outside f.span e.1 = false := by
      unfold Kids.outside
      simp only [Bool.or_eq_false_iff, decide_eq_false_iff_not]
      omega
    rw [if_neg (by simp [hout])]
    refine ⟨_, _, rfl, ?_, q2, ?_⟩
    · intro g hg
      rw [List.mem_cons, List.mem_cons] at hg
      rcases hg with rfl | rfl | hg
      · exact ⟨Or.inl rfl, by simp⟩
      · refine ⟨Or.inr (q1 f (by simp)).1, ?_⟩
        rw [List.length_map, List.take_length]
        exact hcl
      · obtain ⟨a, b⟩ := q1 g (by simp [hg])
        exact ⟨Or.inr a, b⟩
    · have : ∀ g : Frame, g.span = f.span →
          bottom (⟨e.1, e.2, [], []⟩ :: g :: rest) none = bottom (f :: rest) none := by
        intro g hg
        rw [show bottom (⟨e.1, e.2, [], []⟩ :: g :: rest) none = bottom (g :: rest) none by
          unfold bottom; rw [List.getLast?_cons_cons]]
        exact bottom_cons_eq _ _ _ _ _ hg
      rw [this ⟨f.span, f.desc, f.left.take (f.left.map Node.span).length,
        f.left.drop (f.left.map Node.span).length⟩ rfl]
      exact q3

theorem loop_ok {len : Nat} (es : List Entry) {m : Int} {st : List Frame} {roots : List Node}
    (h : Inv m none st) (hr : ∀ n ∈ roots, WF n)
    (hv : ∀ e ∈ es, 0 ≤ e.1.start ∧ e.1.start ≤ e.1.stop ∧ e.1.stop ≤ len)
    (hs : es.Pairwise (fun a b => Before a.1 b.1 ∧ Laminar a.1 b.1)) (hm : ∀ e ∈ es, m ≤ e.1.start)
    (hb : ∀ e ∈ es, ∀ f ∈ st, Before f.span e.1 ∧ Laminar f.span e.1 ∧ f.span.start ≤ f.span.stop)
    (hk : ∀ e ∈ es, ∀ f ∈ st, ∀ k ∈ f.left, Closed e.1 k) (hrc : ∀ e ∈ es, ∀ n ∈ roots, Closed e.1 n)
    (ho : (roots.map Node.span ++ bottom st none).Pairwise Apart) :
    ∃ forest, loop len es st roots = .ok forest ∧ (forest.map Node.span).Pairwise Apart := by
  induction es generalizing m st roots with
  | nil => exact ⟨_, rfl, closeAll_ordered st none roots ho⟩
  | cons e es ih =>
    obtain ⟨v1, v2, v3⟩ := hv e (by simp)
    obtain ⟨s1, s2⟩ := List.pairwise_cons.mp hs
    obtain ⟨st', roots', e1, e2, e3, e4⟩ := step_ok h hr v1 v2 v3 (hm e (by simp)) (hb e (by simp))
      (hk e (by simp)) (hrc e (by simp)) ho
    rcases step_spec h hr v1 v2 v3 (hm e (by simp)) with hst | ⟨st'', roots'', g1, g2, g3, g4⟩
    · rw [hst] at e1; cases e1
    rw [e1] at g1
    cases g1
    unfold loop
    rw [e1]
    dsimp only
    have mono : ∀ e' ∈ es, e.1.start ≤ e'.1.start := fun e' he => by
      have := (s1 e' he).1; unfold Before at this; omega
    refine ih g2 g3 (fun e he => hv e (by simp [he])) s2 mono ?_ ?_ ?_ e4
    · intro e' he' f hf
      rcases (e2 f hf).1 with h' | ⟨g, hg, h'⟩
      · rw [h']; exact ⟨(s1 e' he').1, (s1 e' he').2, v2⟩
      · rw [← h']; exact hb e' (by simp [he']) g hg
    · intro e' he' f hf k hk'
      have := (e2 f hf).2 k hk'
      have := mono e' he'
      unfold Closed at *; omega
    · intro e' he' n hn
      have := e3 n hn
      have := mono e' he'
      unfold Closed at *; omega

/-- C18: if the captures are pairwise nested or disjoint, `from_match` succeeds, and the returned Itos
are in order and disjoint (their trees being well-formed, by `C18_from_match_listing`). -/
theorem C18_from_match_succeeds (len : Nat) (groups : List (Option String × List Span))
    (hv : ∀ g ∈ groups, ∀ s ∈ g.2, 0 ≤ s.start ∧ s.start ≤ s.stop ∧ s.stop ≤ len)
    (hl : (groups.flatMap (·.2)).Pairwise Laminar) :
    ∃ forest, fromMatch len groups = .ok forest ∧
      (forest.map Node.span).Pairwise (fun a b => a.start < b.start ∧ a.stop ≤ b.start) := by
  unfold fromMatch
  have hmem : ∀ e ∈ sortEntries (entries groups), 0 ≤ e.1.start ∧ e.1.start ≤ e.1.stop ∧ e.1.stop ≤ len := by
    intro e he
    have := (sortEntries_perm _).mem_iff.mp he
    simp only [entries, List.mem_flatMap, List.mem_map] at this
    obtain ⟨g, hg, s, hs, rfl⟩ := this
    exact hv g hg s hs
  have hlam : (entries groups).Pairwise (fun a b => Laminar a.1 b.1) := by
    have e : (entries groups).map Prod.fst = groups.flatMap (·.2) := by
      unfold entries
      rw [List.map_flatMap]
      congr 1
      funext g
      simp [Function.comp_def]
    rw [← e, List.pairwise_map] at hl
    exact hl
  have hlam' : (sortEntries (entries groups)).Pairwise (fun a b => Laminar a.1 b.1) :=
    (sortEntries_perm (entries groups)).symm.pairwise hlam (fun {a b} h => by
      unfold Laminar at *; omega)
  exact loop_ok (len := len) (sortEntries (entries groups)) (m := 0) (st := []) (roots := []) trivial
    (by simp) hmem ((sortEntries_sorted _).and hlam') (fun e he => (hmem e he).1) (by simp) (by simp)
    (by simp) (by simp [bottom])

/-- `(?P<w>(?P<c>.)+)` on `ab`: captures (0,2) of group 0 and w, (0,1), (1,2) of c. -/
example : fromMatch 2 [(some "0", [⟨0, 2⟩]), (some "w", [⟨0, 2⟩]), (some "c", [⟨0, 1⟩, ⟨1, 2⟩])] =
    .ok [.mk ⟨0, 2⟩ (some "0") none [.mk ⟨0, 2⟩ (some "w") none [.leaf ⟨0, 1⟩ (some "c"),
      .leaf ⟨1, 2⟩ (some "c")]]] := by decide
/-- Crossing captures under a common parent raise. -/
example : fromMatch 6 [(none, [⟨0, 6⟩, ⟨1, 4⟩, ⟨2, 5⟩])] = .error .valueError := by decide
/-- Crossing captures without common parent do not: both are returned. -/
example : fromMatch 6 [(none, [⟨1, 4⟩, ⟨2, 5⟩])] = .ok [.leaf ⟨1, 4⟩, .leaf ⟨2, 5⟩] := by decide

/-! ## C19 -/

theorem fromReLoop_limit (len : Nat) (n : Int) (rv all : List Node)
    (ms : List (List (Option String × List Span)))
    (h : fromReLoop len none rv ms = .ok all) :
    ∃ r, fromReLoop len (some n) rv ms = .ok r ∧
      (r = all ∨ (n ≤ r.length ∧ ∃ t, all = r ++ t)) := by
  induction ms generalizing rv with
  | nil => exact ⟨rv, rfl, Or.inl (by simpa [fromReLoop] using h)⟩
  | cons m ms ih =>
    unfold fromReLoop at h ⊢
    cases hm : fromMatch len m with
    | error e => rw [hm] at h; cases h
    | ok itos =>
      rw [hm] at h
      dsimp only at h ⊢
      by_cases hn : ((rv ++ itos).length : Int) ≥ n
      · rw [if_pos hn]
        refine ⟨_, rfl, Or.inr ⟨hn, ?_⟩⟩
        have : ∀ (ms : List (List (Option String × List Span))) (rv : List Node),
            fromReLoop len none rv ms = .ok all → ∃ t, all = rv ++ t := by
          intro ms
          induction ms with
          | nil => intro rv h; exact ⟨[], by simpa [fromReLoop] using h.symm⟩
          | cons m ms ih =>
            intro rv h
            unfold fromReLoop at h
            cases hm : fromMatch len m with
            | error e => rw [hm] at h; cases h
            | ok itos =>
              rw [hm] at h
              obtain ⟨t, ht⟩ := ih _ h
              exact ⟨itos ++ t, by rw [ht]; simp⟩
        exact this ms _ h
      · rw [if_neg hn]
        exact ih _ h

/-- C19: when `from_re(limit=None)` succeeds with `all`, `from_re(limit=n)` succeeds with the first `n`
of `all` (none for `n ≤ 0`). -/
theorem C19_from_re_limit (len : Nat) (ms : List (List (Option String × List Span)))
    (all : List Node) (h : fromRe len ms none = .ok all) (n : Int) :
    fromRe len ms (some n) = .ok (all.take n.toNat) := by
  unfold fromRe at h ⊢
  cases h0 : fromReLoop len none [] ms with
  | error e => rw [h0] at h; cases h
  | ok rv =>
    rw [h0] at h
    cases h
    obtain ⟨r, h1, h2⟩ := fromReLoop_limit len n [] all ms h0
    rw [h1]
    dsimp only
    by_cases hn : n > 0
    · rw [if_pos hn]
      congr 1
      rcases h2 with rfl | ⟨h2, t, rfl⟩
      · rfl
      · rw [List.take_append_of_le_length (by omega)]
    · rw [if_neg hn, show n.toNat = 0 by omega, List.take_zero]

/-- C19: without limit, the result is the concatenation of `from_match` over the matches, in order. -/
theorem C19_from_re_concat (len : Nat) (ms : List (List (Option String × List Span)))
    (all : List Node) :
    fromRe len ms none = .ok all ↔
      ∃ rs : List (List Node), ms.map (fromMatch len) = rs.map Except.ok ∧ all = rs.flatten := by
  have key : ∀ (ms : List (List (Option String × List Span))) (rv : List Node),
      fromReLoop len none rv ms = .ok all ↔
        ∃ rs : List (List Node), ms.map (fromMatch len) = rs.map Except.ok ∧ all = rv ++ rs.flatten := by
    intro ms
    induction ms with
    | nil =>
      intro rv
      constructor
      · intro h; exact ⟨[], rfl, by simpa [fromReLoop] using h.symm⟩
      · rintro ⟨rs, h1, h2⟩
        have : rs = [] := by simpa using h1.symm
        subst this
        simp [fromReLoop, h2]
    | cons m ms ih =>
      intro rv
      unfold fromReLoop
      cases hm : fromMatch len m with
      | error e =>
        constructor
        · intro h; cases h
        · rintro ⟨rs, h1, _⟩
          cases rs with
          | nil => simp at h1
          | cons r rs => simp only [List.map_cons, hm, List.cons.injEq] at h1; cases h1.1
      | ok itos =>
        dsimp only
        rw [ih]
        constructor
        · rintro ⟨rs, h1, h2⟩
          exact ⟨itos :: rs, by simp [hm, h1], by simp [h2]⟩
        · rintro ⟨rs, h1, h2⟩
          cases rs with
          | nil => simp at h1
          | cons r rs =>
            simp only [List.map_cons, hm, List.cons.injEq, Except.ok.injEq] at h1
            obtain ⟨rfl, h1⟩ := h1
            exact ⟨rs, h1, by simp [h2]⟩
  unfold fromRe
  have := key ms []
  constructor
  · intro h
    cases h0 : fromReLoop len none [] ms with
    | error e => rw [h0] at h; cases h
    | ok rv =>
      rw [h0] at h
      cases h
      obtain ⟨rs, h1, h2⟩ := this.mp h0
      exact ⟨rs, h1, by simpa using h2⟩
  · rintro ⟨rs, h1, h2⟩
    rw [this.mpr ⟨rs, h1, by simpa using h2⟩]

example : (fromRe 9 [[(none, [⟨0, 2⟩]), (none, [⟨2, 3⟩])], [(none, [⟨4, 5⟩])]] (some 1)).toOption.map
    (fun l => l.map Node.span) = some [⟨0, 2⟩] := by decide
example : (fromRe 9 [[(none, [⟨0, 2⟩]), (none, [⟨2, 3⟩])], [(none, [⟨4, 5⟩])]] none).toOption.map
    (fun l => l.map Node.span) = some [⟨0, 2⟩, ⟨2, 3⟩, ⟨4, 5⟩] := by decide

/-! ## C60 -/

/-- What the regex engine guarantees of a compiled pattern's `groupindex`: distinct names, each naming
a different group, numbered `1 … groups`. -/
structure PatOK (re : Pat) : Prop where
  names : (re.groupindex.map Prod.fst).Nodup
  indices : (re.groupindex.map Prod.snd).Nodup
  range : ∀ p ∈ re.groupindex, 1 ≤ p.2 ∧ p.2 ≤ re.groups

theorem foldl_set_length {gi : List (String × Nat)} {l : List GK} :
    (gi.foldl (fun rv p => rv.set p.2 (GK.name p.1)) l).length = l.length := by
  induction gi generalizing l with
  | nil => rfl
  | cons p gi ih => rw [List.foldl_cons, ih, List.length_set]

theorem foldl_set_get {gi : List (String × Nat)} {l : List GK} (hn : (gi.map Prod.snd).Nodup) (i : Nat)
    (hi : i < l.length) :
    (gi.foldl (fun rv p => rv.set p.2 (GK.name p.1)) l)[i]? =
      match gi.find? (fun p => p.2 == i) with
      | some p => some (GK.name p.1)
      | none => l[i]? := by
  induction gi generalizing l with
  | nil => rfl
  | cons p gi ih =>
    rw [List.map_cons, List.nodup_cons] at hn
    rw [List.foldl_cons, ih hn.2 (by simpa using hi), List.find?_cons]
    by_cases hp : p.2 = i
    · have : gi.find? (fun p => p.2 == i) = none := by
        rw [List.find?_eq_none]
        intro q hq hqi
        apply hn.1
        rw [hp]
        exact List.mem_map.mpr ⟨q, hq, by simpa using hqi⟩
      simp [this, hp, hi]
    · have : (p.2 == i) = false := by simpa using hp
      rw [this]
      dsimp only
      cases gi.find? (fun p => p.2 == i) with
      | some q => rfl
      | none => exact List.getElem?_set_ne hp

/-- C60: `preferred` has one key for each group `0 … groups`, in order: the group's name when it has
one, otherwise its number. -/
theorem C60_preferred (re : Pat) (h : PatOK re) :
    (preferred re).length = re.groups + 1 ∧
    ∀ i, i ≤ re.groups →
      (∀ n, (n, i) ∈ re.groupindex → (preferred re)[i]? = some (.name n)) ∧
      ((∀ n, (n, i) ∉ re.groupindex) → (preferred re)[i]? = some (.idx i)) := by
  have hl : (preferred re).length = re.groups + 1 := by
    unfold preferred; rw [foldl_set_length]; simp
  refine ⟨hl, fun i hi => ?_⟩
  have key := foldl_set_get (l := (List.range (re.groups + 1)).map fun (i : Nat) => GK.idx (i : Int))
    h.indices i (by simp; omega)
  change (preferred re)[i]? = _ at key
  rw [key]
  constructor
  · intro n hn
    cases hf : re.groupindex.find? (fun p => p.2 == i) with
    | none =>
      rw [List.find?_eq_none] at hf
      exact absurd (by simp) (hf _ hn)
    | some q =>
      have hq := List.mem_of_find?_eq_some hf
      have hqi : q.2 = i := by simpa using List.find?_some hf
      have : q = (n, i) := by
        have := h.indices
        clear key hf
        generalize re.groupindex = gi at *
        induction gi with
        | nil => simp at hq
        | cons a gi ih =>
          rw [List.map_cons, List.nodup_cons] at this
          rw [List.mem_cons] at hq hn
          rcases hq with rfl | hq <;> rcases hn with rfl | hn
          · rfl
          · exact absurd (List.mem_map.mpr ⟨_, hn, hqi.symm⟩) this.1
          · exact absurd (List.mem_map.mpr ⟨_, hq, hqi⟩) this.1
          · exact ih hn hq this.2
      rw [this]
  · intro hn
    have : re.groupindex.find? (fun p => p.2 == i) = none := by
      rw [List.find?_eq_none]
      rintro ⟨n, j⟩ hq hqi
      have : j = i := by simpa using hqi
      exact hn n (this ▸ hq)
    rw [this]
    dsimp only
    rw [List.getElem?_map, List.getElem?_range (by omega)]
    rfl

/-- C60: so resolving the keys of `preferred` (as the regex engine does) gives each group number exactly
once. -/
theorem C60_preferred_denotes (re : Pat) (h : PatOK re) :
    (preferred re).map (gkIndex re) = (List.range (re.groups + 1)).map some := by
  obtain ⟨hl, hp⟩ := C60_preferred re h
  apply List.ext_getElem?
  intro i
  by_cases hi : i ≤ re.groups
  · obtain ⟨h1, h2⟩ := hp i hi
    rw [List.getElem?_map, List.getElem?_map, List.getElem?_range (by omega)]
    by_cases hex : ∃ n, (n, i) ∈ re.groupindex
    · obtain ⟨n, hn⟩ := hex
      rw [h1 n hn]
      simp only [Option.map_some, gkIndex]
      congr 1
      have := h.names
      clear h1 h2 hp
      generalize re.groupindex = gi at *
      induction gi with
      | nil => simp at hn
      | cons a gi ih =>
        rw [List.map_cons, List.nodup_cons] at this
        obtain ⟨an, ai⟩ := a
        rw [List.lookup_cons]
        rw [List.mem_cons] at hn
        rcases hn with hn | hn
        · cases hn; simp
        · have : ¬ n = an := by
            rintro rfl
            exact this.1 (List.mem_map.mpr ⟨_, hn, rfl⟩)
          simp only [beq_eq_false_iff_ne.mpr this]
          exact ih hn (by assumption |> fun (h : _ ∧ _) => h.2)
    · rw [h2 (fun n hn => hex ⟨n, hn⟩)]
      simp only [Option.map_some, gkIndex]
      rw [if_pos (by omega)]
      simp
  · rw [List.getElem?_eq_none (by simp; omega), List.getElem?_eq_none (by simp; omega)]

theorem fromFilterLoop_spec (filter : GK → Bool) (gks : List GK) (i : Nat) :
    fromFilterLoop filter i gks = (gks.zipIdx i).filterMap (fun p =>
      if filter p.1 then some p.1 else if filter (.idx p.2) then some (.idx p.2) else none) := by
  induction gks generalizing i with
  | nil => rfl
  | cons g gks ih =>
    simp only [fromFilterLoop, List.zipIdx_cons, List.filterMap_cons]
    split
    · simp_all
    · split <;> simp_all

/-- C60: `from_filter` keeps, in group order and each once, exactly the groups whose preferred key or
whose number passes the filter. -/
theorem C60_from_filter (re : Pat) (h : PatOK re) (filter : GK → Bool) :
    (fromFilter re filter).map (gkIndex re) =
      ((List.range (re.groups + 1)).filter (fun (i : Nat) =>
        (preferred re)[i]?.any filter || filter (.idx i))).map some ∧
    ∀ gk ∈ fromFilter re filter, filter gk = true := by
  constructor
  · unfold fromFilter
    rw [fromFilterLoop_spec]
    have hd := C60_preferred_denotes re h
    have hl := (C60_preferred re h).1
    rw [← hl] at hd ⊢
    have key : ∀ (l : List GK) (k : Nat), (∀ j (hj : j < l.length), gkIndex re l[j] = some (k + j)) →
        k + l.length ≤ re.groups + 1 →
        ((l.zipIdx k).filterMap (fun p => if filter p.1 then some p.1
          else if filter (.idx p.2) then some (.idx p.2) else none)).map (gkIndex re) =
        ((List.range' k l.length).filter (fun (i : Nat) =>
          l[i - k]?.any filter || filter (.idx i))).map some := by
      intro l
      induction l with
      | nil => intros; rfl
      | cons g l ih =>
        intro k hg hk
        have hg0 := hg 0 (by simp)
        have ih' := ih (k + 1) (fun j hj => by
          have := hg (j + 1) (by simpa using hj)
          simpa [Nat.add_assoc, Nat.add_comm 1 j] using this) (by simp at hk; omega)
        rw [List.zipIdx_cons, List.filterMap_cons, List.length_cons, List.range'_succ, List.filter_cons]
        have tail : (List.range' (k + 1) l.length).filter (fun (i : Nat) =>
            (g :: l)[i - k]?.any filter || filter (.idx i)) =
            (List.range' (k + 1) l.length).filter (fun (i : Nat) => l[i - (k + 1)]?.any filter || filter (.idx i)) := by
          apply List.filter_congr
          intro i hi
          rw [List.mem_range'] at hi
          obtain ⟨d, _, rfl⟩ := hi
          rw [show k + 1 + 1 * d - k = d + 1 by omega, show k + 1 + 1 * d - (k + 1) = d by omega]
          rfl
        rw [tail]
        simp only [Nat.sub_self, List.getElem?_cons_zero, Option.any_some]
        by_cases h1 : filter g = true
        · simp [h1, ih']
          simpa using hg0
        · by_cases h2 : filter (.idx k) = true
          · simp [h1, h2, ih', gkIndex]
            simp at hk
            omega
          · simp [h1, h2, ih']
    have := key (preferred re) 0 (fun j hj => by
      have := congrArg (fun l => l[j]?) hd
      simp only [List.getElem?_map] at this
      rw [List.getElem?_range hj, List.getElem?_eq_getElem hj] at this
      simpa using this) (by omega)
    rw [List.range_eq_range']
    simpa using this
  · unfold fromFilter
    rw [fromFilterLoop_spec]
    intro gk hgk
    rw [List.mem_filterMap] at hgk
    obtain ⟨p, _, hp⟩ := hgk
    split at hp
    · cases hp; assumption
    · split at hp
      · cases hp; assumption
      · cases hp

open Classical in
theorem validateLoop_spec (re : Pat) (h : PatOK re) (gks : List GK) (tmp : List (Option GK))
    (hl : tmp.length = re.groups + 1) :
    validateLoop re tmp gks =
      if (∃ is : List Nat, gks.map (gkIndex re) = is.map some ∧ is.Nodup ∧ ∀ i ∈ is, tmp[i]? = some none)
      then .ok () else .error .valueError := by
  induction gks generalizing tmp with
  | nil =>
    rw [if_pos ⟨[], rfl, List.nodup_nil, by simp⟩]; rfl
  | cons g gks ih =>
    unfold validateLoop
    cases hg : gkIndex re g with
    | none =>
      rw [if_neg]
      rintro ⟨is, h1, _⟩
      cases is with
      | nil => simp at h1
      | cons i is => simp [hg] at h1
    | some i =>
      dsimp only
      have hi : i < tmp.length := by
        unfold gkIndex at hg
        split at hg
        · rename_i n
          have : ∃ p ∈ re.groupindex, p.2 = i := by
            clear ih h
            generalize re.groupindex = gi at *
            induction gi with
            | nil => simp at hg
            | cons a gi ih =>
              obtain ⟨an, ai⟩ := a
              rw [List.lookup_cons] at hg
              split at hg
              · cases hg; exact ⟨_, List.mem_cons_self .., rfl⟩
              · obtain ⟨p, hp, e⟩ := ih hg
                exact ⟨p, List.mem_cons_of_mem _ hp, e⟩
          obtain ⟨p, hp, rfl⟩ := this
          have := h.range p hp
          omega
        · split at hg
          · cases hg; omega
          · cases hg
      rw [List.getElem?_eq_getElem hi]
      cases ht : tmp[i] with
      | some x =>
        dsimp only
        rw [if_neg]
        rintro ⟨is, h1, h2, h3⟩
        cases is with
        | nil => simp at h1
        | cons j is =>
          simp only [List.map_cons, hg, List.cons.injEq, Option.some.injEq] at h1
          have := h3 i (by simp [h1.1])
          rw [List.getElem?_eq_getElem hi, ht] at this
          simp at this
      | none =>
        dsimp only
        rw [ih (tmp.set i (some g)) (by simpa using hl)]
        congr 1
        apply propext
        constructor
        · rintro ⟨is, h1, h2, h3⟩
          have hni : i ∉ is := by
            intro hmem
            have := h3 i hmem
            rw [List.getElem?_set_self hi] at this
            simp at this
          refine ⟨i :: is, by simp [hg, h1], List.nodup_cons.mpr ⟨hni, h2⟩, ?_⟩
          intro j hj
          rcases List.mem_cons.mp hj with rfl | hj
          · rw [List.getElem?_eq_getElem hi, ht]
          · have := h3 j hj
            rwa [List.getElem?_set_ne (by rintro rfl; exact hni hj)] at this
        · rintro ⟨is, h1, h2, h3⟩
          cases is with
          | nil => simp at h1
          | cons j is =>
            simp only [List.map_cons, hg, List.cons.injEq, Option.some.injEq] at h1
            obtain ⟨rfl, h1⟩ := h1
            rw [List.nodup_cons] at h2
            refine ⟨is, h1, h2.2, ?_⟩
            intro k hk
            rw [List.getElem?_set_ne (by rintro rfl; exact h2.1 hk)]
            exact h3 k (by simp [hk])

open Classical in
/-- C60: `validate` accepts exactly the key collections whose keys all exist and denote pairwise
different groups; every other collection raises `ValueError`. -/
theorem C60_validate (re : Pat) (h : PatOK re) (gks : List GK) :
    validate re gks =
      if (∃ is : List Nat, gks.map (gkIndex re) = is.map some ∧ is.Nodup) then .ok ()
      else .error .valueError := by
  unfold validate
  rw [validateLoop_spec re h _ _ (by simp)]
  congr 1
  apply propext
  constructor
  · rintro ⟨is, h1, h2, _⟩; exact ⟨is, h1, h2⟩
  · rintro ⟨is, h1, h2⟩
    refine ⟨is, h1, h2, ?_⟩
    intro i hi
    have : some i ∈ gks.map (gkIndex re) := by rw [h1]; exact List.mem_map.mpr ⟨i, hi, rfl⟩
    obtain ⟨g, _, hg⟩ := List.mem_map.mp this
    have : i < re.groups + 1 := by
      unfold gkIndex at hg
      split at hg
      · rename_i n _
        have : ∃ p ∈ re.groupindex, p.2 = i := by
          clear h h1
          generalize re.groupindex = gi at *
          induction gi with
          | nil => simp at hg
          | cons a gi ih =>
            obtain ⟨an, ai⟩ := a
            rw [List.lookup_cons] at hg
            split at hg
            · cases hg; exact ⟨_, List.mem_cons_self .., rfl⟩
            · obtain ⟨p, hp, e⟩ := ih hg
              exact ⟨p, List.mem_cons_of_mem _ hp, e⟩
        obtain ⟨p, hp, rfl⟩ := this
        have := h.range p hp
        omega
      · split at hg
        · cases hg; omega
        · cases hg
    simp [this]

/-- `(a)(?P<x>b)(c)(?P<y>d)` -/
def exPat : Pat := ⟨4, [("x", 2), ("y", 4)]⟩
theorem exPat_ok : PatOK exPat := ⟨by decide, by decide, by decide⟩
example : preferred exPat = [.idx 0, .idx 1, .name "x", .idx 3, .name "y"] := by decide
example : fromFilter exPat (fun k => k = .name "x" ∨ k = .idx 4) = [.name "x", .idx 4] := by decide
example : (validate exPat [.name "x", .idx 3]).toOption = some () := by decide
example : (validate exPat [.name "x", .idx 2]).toOption = none := by decide
example : (validate exPat [.name "z"]).toOption = none := by decide

end Pawpaw.Props
