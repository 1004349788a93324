import Verif.Model.Nlp
import Verif.Spec.Nlp
import Verif.Props.Flow
/-!
# C76, C77: `SimpleNlp`
-/
set_option linter.unusedSectionVars false
set_option linter.unusedSimpArgs false
set_option linter.unusedVariables false
namespace Pawpaw.Props
open TreeSpec HeapSpec PipeSpec Heap Pipeline Arbor ArborSpec SpanSpec SplitSpec Nlp NlpSpec

/-! ## Spans -/

theorem orderedIn_from {l : List Span} {a a' b : Int} (h : OrderedIn a b l) (ha : a' ≤ a) : OrderedIn a' b l := by
  cases l with
  | nil => exact Int.le_trans ha h
  | cons s ss => exact ⟨Int.le_trans ha h.1, h.2⟩

theorem orderedIn_filter {q : Span → Bool} : ∀ {l : List Span} {a b : Int}, OrderedIn a b l → OrderedIn a b (l.filter q)
  | [], _, _, h => h
  | s :: ss, a, b, ⟨h1, h2, h3⟩ => by
    have ih := orderedIn_filter (q := q) h3
    rw [List.filter_cons]
    split
    · exact ⟨h1, h2, ih⟩
    · exact orderedIn_from ih (by omega)

theorem orderedIn_between : ∀ {l : List Span} {a b : Int}, OrderedIn a b l → OrderedIn a b (between a b l)
  | [], a, b, h => ⟨Int.le_refl _, h, Int.le_refl _⟩
  | s :: ss, a, b, ⟨h1, h2, h3⟩ => ⟨Int.le_refl _, h1, orderedIn_from (orderedIn_between h3) h2⟩

theorem kidsOK_orderedIn {p : Span} {l : List Span} (h : OrderedIn p.start p.stop l) (hn : ∀ s ∈ l, s.start < s.stop) :
    KidsOK p l := by
  refine ⟨orderedIn_mem h, ?_⟩
  have : ∀ (l : List Span) (a b : Int), OrderedIn a b l → (∀ s ∈ l, s.start < s.stop) →
      l.Pairwise (fun a b => a.start < b.start ∧ a.stop ≤ b.start) := by
    intro l
    induction l with
    | nil => intros; simp
    | cons s ss ih =>
      intro a b ⟨h1, h2, h3⟩ hn
      refine List.pairwise_cons.mpr ⟨fun t ht => ?_, ih _ _ h3 (fun t ht => hn t (by simp [ht]))⟩
      have := orderedIn_mem h3 t ht
      have := hn s (by simp)
      omega
  exact this l _ _ h hn

theorem nonEmpty_ne {l : List Span} {s : Span} (h : s ∈ nonEmpty l) : s ∈ l ∧ s.start ≠ s.stop := by
  unfold nonEmpty at h
  simpa using h

theorem chunks_inside {sp : Span} {seps : List Span} (h : OrderedIn sp.start sp.stop seps) {c : Span}
    (hc : c ∈ chunks sp seps) : sp.start ≤ c.start ∧ c.start ≤ c.stop ∧ c.stop ≤ sp.stop := by
  unfold chunks at hc
  split at hc
  · have := orderedIn_le h
    simp at hc; subst hc; omega
  · exact orderedIn_mem (orderedIn_between h) c (nonEmpty_ne hc).1

theorem chunks_kidsOK {sp : Span} {seps : List Span} (h : OrderedIn sp.start sp.stop seps) :
    KidsOK sp (chunks sp seps) := by
  unfold chunks
  split
  · have := orderedIn_le h
    exact ⟨by simp [this], by simp⟩
  · refine kidsOK_orderedIn (orderedIn_filter (orderedIn_between h)) (fun s hs => ?_)
    have := nonEmpty_ne hs
    have := orderedIn_mem (orderedIn_between h) s this.1
    omega

/-! ## Numbers -/

variable {p : Patterns} (law : Lawful p)

theorem pairs_map {α β : Type} {R : α → β → Prop} {f : α → β} {l : List α} (h : ∀ a ∈ l, R a (f a)) :
    Pairs R l (l.map f) := by
  induction l with
  | nil => exact .nil
  | cons a l ih => exact .cons (h a (by simp)) (ih (fun b hb => h b (by simp [hb])))

include law

theorem numTree_exists {s : String} {sp : Span} {m : NumMatch} (hm : m ∈ p.num s sp) {len : Nat}
    (h0 : 0 ≤ m.whole.start) (h2 : m.whole.stop ≤ len) :
    ∃ n, Match.fromMatch len ((some "number", [m.whole]) :: m.groups.map fun g => (some g.1, g.2)) = .ok [n] ∧
      NumTree m n := by
  have hne := law.numNE s sp m hm
  have hin := law.groupsIn s sp m hm
  have hv : ∀ g ∈ (some "number", [m.whole]) :: m.groups.map (fun g => (some g.1, g.2)), ∀ c ∈ g.2,
      0 ≤ c.start ∧ c.start ≤ c.stop ∧ c.stop ≤ len := by
    intro g hg c hc
    rcases List.mem_cons.mp hg with rfl | hg
    · simp at hc; subst hc; omega
    · obtain ⟨g', hg', rfl⟩ := List.mem_map.mp hg
      have := hin g' hg' c hc
      omega
  have hlam : (((some "number", [m.whole]) :: m.groups.map (fun g => (some g.1, g.2))).flatMap (·.2)).Pairwise Laminar := by
    rw [List.flatMap_cons, List.flatMap_map]
    refine List.pairwise_cons.mpr ⟨fun c hc => ?_, law.groupsLaminar s sp m hm⟩
    obtain ⟨g, hg, hc⟩ := List.mem_flatMap.mp hc
    have := hin g hg c hc
    unfold Laminar; omega
  have hcap : ((some "number", [m.whole]) :: m.groups.map (fun g => (some g.1, g.2))).flatMap
      (fun g => g.2.map fun s => (s, g.1)) = captures m := by
    rw [List.flatMap_cons, List.flatMap_map]; rfl
  obtain ⟨forest, e, ho⟩ := C18_from_match_succeeds len _ hv hlam
  rcases C18_from_match_listing len _ hv with e' | ⟨forest', e', w, pm, srt, stab⟩
  · rw [e] at e'; cases e'
  · rw [e] at e'; cases e'
    rw [hcap] at pm
    have stab' : ∀ s : Span, (preorderAll forest).filter (fun e => e.1 == s) = (captures m).filter (fun e => e.1 == s) := by
      intro s; rw [stab s, hcap]
    cases forest with
    | nil =>
      have := pm.length_eq
      simp [preorderAll, captures] at this
    | cons n rest =>
      obtain ⟨nsp, nd, nv, nk⟩ := n
      have hmem : ∀ e ∈ preorderAll (.mk nsp nd nv nk :: rest), m.whole.start ≤ e.1.start ∧ e.1.start < e.1.stop ∧
          e.1.stop ≤ m.whole.stop := by
        intro e he
        have := pm.mem_iff.mp he
        unfold captures at this
        rcases List.mem_cons.mp this with rfl | this
        · simp only; omega
        · obtain ⟨g, hg, hc⟩ := List.mem_flatMap.mp this
          obtain ⟨c, hc', rfl⟩ := List.mem_map.mp hc
          exact hin g hg c hc'
      have hpre : preorderAll (.mk nsp nd nv nk :: rest) = (nsp, nd) :: (preorderAll nk ++ preorderAll rest) := by
        rw [preorderAll, preorder]; rfl
      -- the first root is the whole
      have hw : (m.whole, some "number") ∈ preorderAll (.mk nsp nd nv nk :: rest) := pm.mem_iff.mpr (by simp [captures])
      have hns : nsp = m.whole := by
        have a := hmem (nsp, nd) (by rw [hpre]; simp)
        rw [hpre] at hw srt
        rcases List.mem_cons.mp hw with hw | hw
        · cases hw; rfl
        · have b := (List.pairwise_cons.mp srt).1 _ hw
          unfold Before at b
          have e1 : nsp.start = m.whole.start := by simp only at a b; omega
          have e2 : nsp.stop = m.whole.stop := by simp only at a b; omega
          cases nsp; generalize m.whole = w at *; cases w; simp only at e1 e2; rw [e1, e2]
      have hnd : nd = some "number" := by
        have := stab' m.whole
        rw [hpre] at this
        unfold captures at this
        rw [List.filter_cons, List.filter_cons, if_pos (by simp [hns]), if_pos (by simp)] at this
        have := (List.cons.inj this).1
        exact (Prod.mk.inj this).2
      have hrest : rest = [] := by
        cases rest with
        | nil => rfl
        | cons r rest =>
          exfalso
          rw [List.map_cons, List.map_cons] at ho
          have := (List.pairwise_cons.mp ho).1 r.span (by simp)
          obtain ⟨rs, rd, rv, rk⟩ := r
          have h2 := hmem (rs, rd) (by rw [hpre, preorderAll, preorder]; simp)
          simp only [Node.span] at this h2
          rw [hns] at this
          omega
      subst hrest
      refine ⟨_, e, w _ (by simp), hns, hnd, ?_, ?_, ?_⟩
      · simpa [preorderAll] using pm
      · have : preorderAll [Node.mk nsp nd nv nk] = preorder (.mk nsp nd nv nk) := by simp [preorderAll]
        rw [this] at srt
        exact srt
      · intro s
        have := stab' s
        rw [show preorderAll [Node.mk nsp nd nv nk] = preorder (.mk nsp nd nv nk) by simp [preorderAll]] at this
        exact this

omit law in
/-- The numbers in a part of the text, as trees. -/
def numsOf (p : Patterns) (s : String) (sp : Span) : List Node :=
  match Match.fromRe s.length (numMatcher p s sp) none with
  | .ok ns => ns
  | .error _ => []

theorem numbers_spec {s : String} {sp : Span} (h0 : 0 ≤ sp.start) (h1 : sp.start ≤ sp.stop) (h2 : sp.stop ≤ s.length) :
    Match.fromRe s.length (numMatcher p s sp) none = .ok (numsOf p s sp) ∧ Pairs NumTree (p.num s sp) (numsOf p s sp) := by
  have ho := law.num s sp.start sp.stop h0 h1 h2
  have hb : ∀ m ∈ p.num s sp, 0 ≤ m.whole.start ∧ m.whole.stop ≤ s.length := by
    intro m hm
    have := orderedIn_mem ho m.whole (List.mem_map_of_mem hm)
    omega
  have key : ∀ ms : List NumMatch, (∀ m ∈ ms, m ∈ p.num s sp) → ∃ ns : List Node,
      (ms.map fun m => (some "number", [m.whole]) :: m.groups.map fun g => (some g.1, g.2)).map (Match.fromMatch s.length) =
        (ns.map (fun n => [n])).map Except.ok ∧ Pairs NumTree ms ns := by
    intro ms
    induction ms with
    | nil => intro _; exact ⟨[], rfl, .nil⟩
    | cons m ms ih =>
      intro hm
      obtain ⟨ns, e, hp⟩ := ih (fun m' h' => hm m' (by simp [h']))
      have hmm := hm m (by simp)
      obtain ⟨n, e1, ht⟩ := numTree_exists law hmm (len := s.length) (hb m hmm).1 (hb m hmm).2
      refine ⟨n :: ns, ?_, .cons ht hp⟩
      rw [List.map_cons, List.map_cons, e1, e]
      rfl
  obtain ⟨ns, e, hp⟩ := key (p.num s sp) (fun _ h => h)
  have : Match.fromRe s.length (numMatcher p s sp) none = .ok ns := by
    rw [C19_from_re_concat]
    refine ⟨ns.map (fun n => [n]), e, ?_⟩
    clear e hp
    induction ns with
    | nil => rfl
    | cons n ns ih => rw [List.map_cons, List.flatten_cons, ← ih]; rfl
  have e2 : numsOf p s sp = ns := by unfold numsOf; rw [this]
  rw [e2]
  exact ⟨this, hp⟩

omit law in
theorem pairs_spans {ms : List NumMatch} {ns : List Node} (h : Pairs NumTree ms ns) :
    ns.map Node.span = ms.map (·.whole) := by
  induction h with
  | nil => rfl
  | cons h _ ih => rw [List.map_cons, List.map_cons, ih, h.span]

omit law in
theorem pairs_mem {α β : Type} {R : α → β → Prop} {as : List α} {bs : List β} (h : Pairs R as bs) : ∀ b ∈ bs, ∃ a ∈ as, R a b := by
  induction h with
  | nil => simp
  | cons h _ ih =>
    intro b hb
    rcases List.mem_cons.mp hb with rfl | hb
    · exact ⟨_, by simp, h⟩
    · obtain ⟨a, ha, r⟩ := ih b hb
      exact ⟨a, by simp [ha], r⟩

/-! ## Words and numbers of a sentence -/

theorem words_empty {s : String} {a : Int} (h0 : 0 ≤ a) (h1 : a ≤ s.length) : words p s ⟨a, a⟩ = [] := by
  have ho := law.word s a a h0 (Int.le_refl _) h1
  unfold words
  cases hw : p.word s ⟨a, a⟩ with
  | nil => rfl
  | cons w ws =>
    have := law.wordNE s ⟨a, a⟩ w (by rw [hw]; simp)
    have := orderedIn_mem ho w (by rw [hw]; simp)
    omega

/-- What the connections make of a piece between the boundaries of the number splitter. -/
def pieceOut (p : Patterns) (s : String) (t : Node) : List Node := if t.desc = none then words p s t.span else [t]

theorem mixed_tokens {s : String} : ∀ (ns : List Node) (a b : Int), OrderedIn a b (ns.map Node.span) →
    (∀ n ∈ ns, n.start < n.stop ∧ n.desc ≠ none) → 0 ≤ a → b ≤ s.length →
    (mixed (fun sp => .mk sp none none []) a b ns).flatMap (pieceOut p s) = tokens p s a b ns
  | [], a, b, ho, hn, h0, h1 => by
    have : a ≤ b := ho
    rw [mixed, tokens]
    by_cases e : a = b
    · subst e
      rw [words_empty law h0 h1]; simp
    · simp [e, pieceOut, Node.desc, Node.span]
  | n :: ns, a, b, ho, hn, h0, h1 => by
    rw [List.map_cons] at ho
    obtain ⟨o1, o2, o3⟩ := ho
    have hle := orderedIn_le o3
    obtain ⟨n1, n2⟩ := hn n (by simp)
    rw [mixed, tokens, List.flatMap_append, List.flatMap_append,
      mixed_tokens ns n.stop b o3 (fun m hm => hn m (by simp [hm])) (by unfold Node.stop; omega) h1]
    rw [if_pos (c := n.start ≠ n.stop) (by omega)]
    have e2 : [n].flatMap (pieceOut p s) = [n] := by simp [pieceOut, n2]
    rw [e2, List.append_assoc]
    congr 1
    by_cases e : a = n.start
    · rw [if_neg (by simp [e]), ← e, words_empty law h0 (by unfold Node.start at e; omega)]; rfl
    · rw [if_pos e]
      simp [pieceOut, Node.desc, Node.span]

theorem words_ordered {s : String} {sp : Span} (h0 : 0 ≤ sp.start) (h1 : sp.start ≤ sp.stop) (h2 : sp.stop ≤ s.length) :
    OrderedIn sp.start sp.stop ((words p s sp).map Node.span) := by
  unfold words
  rw [List.map_map]
  have : (Node.span ∘ fun w => Node.mk w (some "word") none []) = id := rfl
  rw [this, List.map_id]
  exact law.word s _ _ h0 h1 h2

omit law in
theorem orderedIn_append {l r : List Span} {a b c : Int} (h1 : OrderedIn a b l) (h2 : OrderedIn b c r) : OrderedIn a c (l ++ r) := by
  induction l generalizing a with
  | nil => exact orderedIn_from h2 h1
  | cons s ss ih => exact ⟨h1.1, h1.2.1, ih h1.2.2⟩

theorem tokens_ordered {s : String} : ∀ (ns : List Node) (a b : Int), OrderedIn a b (ns.map Node.span) → 0 ≤ a →
    b ≤ s.length → OrderedIn a b ((tokens p s a b ns).map Node.span)
  | [], a, b, ho, h0, h1 => words_ordered law (sp := ⟨a, b⟩) h0 ho h1
  | n :: ns, a, b, ho, h0, h1 => by
    rw [List.map_cons] at ho
    obtain ⟨o1, o2, o3⟩ := ho
    have hle := orderedIn_le o3
    rw [tokens, List.map_append, List.map_cons]
    refine orderedIn_append (words_ordered law (sp := ⟨a, n.start⟩) h0 o1 (by unfold Node.start; simp only; omega)) ?_
    exact ⟨Int.le_refl _, o2, tokens_ordered ns n.stop b o3 (by unfold Node.stop; omega) h1⟩

theorem tokens_nonempty {s : String} : ∀ (ns : List Node) (a b : Int), (∀ n ∈ ns, n.start < n.stop) →
    ∀ sp ∈ (tokens p s a b ns).map Node.span, sp.start < sp.stop
  | [], a, b, _, sp, hm => by
    rw [tokens, words, List.map_map] at hm
    obtain ⟨w, hw, rfl⟩ := List.mem_map.mp hm
    exact law.wordNE s _ w hw
  | n :: ns, a, b, hn, sp, hm => by
    rw [tokens, List.map_append, List.map_cons] at hm
    rcases List.mem_append.mp hm with hm | hm
    · rw [words, List.map_map] at hm
      obtain ⟨w, hw, rfl⟩ := List.mem_map.mp hm
      exact law.wordNE s _ w hw
    · rcases List.mem_cons.mp hm with rfl | hm
      · exact hn n (by simp)
      · exact tokens_nonempty ns _ _ (fun m hm => hn m (by simp [hm])) sp hm

theorem nums_facts {s : String} {sp : Span} (h0 : 0 ≤ sp.start) (h1 : sp.start ≤ sp.stop) (h2 : sp.stop ≤ s.length) :
    OrderedIn sp.start sp.stop ((numsOf p s sp).map Node.span) ∧
    ∀ n ∈ numsOf p s sp, n.start < n.stop ∧ n.desc ≠ none := by
  obtain ⟨-, hp⟩ := numbers_spec law h0 h1 h2
  refine ⟨by rw [pairs_spans hp]; exact law.num s _ _ h0 h1 h2, fun n hn => ?_⟩
  obtain ⟨m, hm, ht⟩ := pairs_mem hp n hn
  have := law.numNE s sp m hm
  refine ⟨by unfold Node.start Node.stop; rw [ht.span]; exact this, by rw [ht.desc]; simp⟩

theorem tokens_kidsOK {s : String} {sp : Span} (h0 : 0 ≤ sp.start) (h1 : sp.start ≤ sp.stop) (h2 : sp.stop ≤ s.length) :
    KidsOK sp ((tokens p s sp.start sp.stop (numsOf p s sp)).map Node.span) := by
  obtain ⟨a, b⟩ := nums_facts law h0 h1 h2
  exact kidsOK_orderedIn (tokens_ordered law _ _ _ a h0 h2) (tokens_nonempty law _ _ _ (fun n hn => (b n hn).1))

theorem words_makes {s : String} {chars : Bool} {N n : Nat} {sp : Span} (d : Option String) (h0 : 0 ≤ sp.start)
    (h1 : sp.start ≤ sp.stop) (h2 : sp.stop ≤ s.length) :
    Makes s (traverse (graph p chars N) (n + 1) 3) (.mk sp d none []) (words p s sp) := by
  have e := fromRe_single (len := s.length) (some "word") (law.word s _ _ h0 h1 h2) h0 h2
  intro h x
  rw [C51_no_connections (graph p chars N) n 3 h x rfl rfl]
  exact (extract_makes (t := .mk sp d none []) (re := one (some "word") p.word) e).makes h x

/-- The pieces of a sentence are the numbers and the text between. -/
theorem mem_mixed {ns : List Node} : ∀ {a b : Int} {t : Node}, OrderedIn a b (ns.map Node.span) →
    t ∈ mixed (fun sp => .mk sp none none []) a b ns →
    t ∈ ns ∨ ∃ sp : Span, a ≤ sp.start ∧ sp.start ≤ sp.stop ∧ sp.stop ≤ b ∧ t = .mk sp none none [] := by
  induction ns with
  | nil =>
    intro a b t ho ht
    rw [mixed] at ht
    split at ht
    · simp at ht
      exact Or.inr ⟨⟨a, b⟩, Int.le_refl _, ho, Int.le_refl _, ht⟩
    · simp at ht
  | cons n ns ih =>
    intro a b t ho ht
    rw [List.map_cons] at ho
    obtain ⟨o1, o2, o3⟩ := ho
    have hle := orderedIn_le o3
    rw [mixed, List.mem_append, List.mem_append] at ht
    rcases ht with (ht | ht) | ht
    · split at ht
      · simp at ht
        exact Or.inr ⟨⟨a, n.start⟩, Int.le_refl _, o1, by unfold Node.start; simp only; omega, ht⟩
      · simp at ht
    · split at ht
      · simp at ht; exact Or.inl (by simp [ht])
      · simp at ht
    · rcases ih (a := n.stop) o3 ht with hm | ⟨sp, q1, q2, q3, q4⟩
      · exact Or.inl (by simp [hm])
      · exact Or.inr ⟨sp, by unfold Node.stop at q1; omega, q2, q3, q4⟩

theorem number_split_makes {s : String} {N : Nat} {sp : Span} (d : Option String) (hN : 1 ≤ N) (h0 : 0 ≤ sp.start)
    (h1 : sp.start ≤ sp.stop) (h2 : sp.stop ≤ s.length) :
    MakesFirst s (splitT { retention := .all } (splitter N (numMatcher p))) (.mk sp d none [])
      (if numsOf p s sp = [] then [.mk sp none none []]
        else mixed (fun sp => .mk sp none none []) sp.start sp.stop (numsOf p s sp)) := by
  obtain ⟨e, -⟩ := numbers_spec law h0 h1 h2
  obtain ⟨a, b⟩ := nums_facts law h0 h1 h2
  have := C50_split_objects { retention := .all } (t := .mk sp d none [])
    (just_makes (i := 0) (n := N) (extract_makes (re := numMatcher p) (limit := none) e) (by simp [need, needAll]; exact hN)) a
  exact this

theorem gap_turns {s : String} {chars : Bool} {N n : Nat} {sp : Span} (h0 : 0 ≤ sp.start) (h1 : sp.start ≤ sp.stop)
    (h2 : sp.stop ≤ s.length) :
    Turns s (flow (n + 1) (traverse (graph p chars N) (n + 1)) (graph p chars N 2).cons) (.mk sp none none [])
      (words p s sp) := by
  refine turns_delegate (fun h x hl => ?_) rfl (words_makes law none h0 h1 h2)
  rw [Looks] at hl
  simp [noDesc, hl.2.1]

/-- What the number itorator makes of a sentence, if there are no numbers in it or `chars` is false. -/
theorem tokens_makes {s : String} {chars : Bool} {N n : Nat} {sp : Span} (d : Option String) (hN : 1 ≤ N)
    (h0 : 0 ≤ sp.start) (h1 : sp.start ≤ sp.stop) (h2 : sp.stop ≤ s.length) (hc : chars = true → p.num s sp = []) :
    Makes s (traverse (graph p chars N) (n + 2) 2) (.mk sp d none []) (tokens p s sp.start sp.stop (numsOf p s sp)) := by
  obtain ⟨a, b⟩ := nums_facts law h0 h1 h2
  have hs := number_split_makes law d hN h0 h1 h2
  by_cases hn : numsOf p s sp = []
  · rw [if_pos hn] at hs
    rw [hn]
    have := traverse_makes (G := graph p chars N) (n := n + 1) (i := 2) (outs := [words p s sp]) rfl hs
      (.cons (gap_turns law h0 h1 h2) .nil)
    simpa [tokens] using this
  · rw [if_neg hn] at hs
    have hcf : chars = false := by
      cases chars with
      | false => rfl
      | true =>
        obtain ⟨-, hp⟩ := numbers_spec law h0 h1 h2
        rw [hc rfl] at hp
        cases hp' : numsOf p s sp with
        | nil => exact absurd hp' hn
        | cons y ys => rw [hp'] at hp; cases hp
    subst hcf
    have := traverse_makes (G := graph p false N) (n := n + 1) (i := 2)
      (outs := (mixed (fun sp => .mk sp none none []) sp.start sp.stop (numsOf p s sp)).map (pieceOut p s)) rfl hs
      (pairs_map fun t ht => ?_)
    · rw [← List.flatMap_def, mixed_tokens law _ _ _ a b h0 h2] at this
      exact this
    · rcases mem_mixed law a ht with hm | ⟨q, q1, q2, q3, rfl⟩
      · have hd := (b t hm).2
        have e : pieceOut p s t = [t] := by simp [pieceOut, hd]
        rw [e]
        refine turns_skip (fun h x hl => ?_) (turns_nil s _ _ t)
        obtain ⟨ts, td, tv, tk⟩ := t
        rw [Looks] at hl
        simp only [Node.desc] at hd
        cases td with
        | none => exact absurd rfl hd
        | some _ => simp [noDesc, hl.2.1]
      · have e : pieceOut p s (.mk q none none []) = words p s q := by simp [pieceOut, Node.desc, Node.span]
        rw [e]
        exact gap_turns law (by omega) q2 (by omega)

omit law

/-! ## Sentences and paragraphs -/

theorem pieces_chunks (d : Option String) (sp : Span) (seps : List Span) :
    SplitSpec.pieces { desc := d } none sp.start sp.stop (seps.map fun m => .mk m none none []) =
      (chunks sp seps).map fun c => .mk c d none [] := by
  unfold SplitSpec.pieces chunks allowed
  dsimp only
  by_cases e : seps = []
  · subst e; rfl
  · rw [if_neg (by simpa using e), if_neg e]
    rw [List.map_map]
    have : (Node.span ∘ fun m => Node.mk m none none []) = id := rfl
    rw [this, List.map_id]

theorem split_level {s : String} {d d' : Option String} {N : Nat} {re : String → Span → List Span} {sp : Span}
    (hN : 1 ≤ N) (ho : OrderedIn sp.start sp.stop (re s sp)) :
    MakesFirst s (splitT { desc := d' } (splitter N (one none re))) (.mk sp d none [])
      ((chunks sp (re s sp)).map fun c => .mk c d' none []) := by
  have := C50_split_by_pattern (s := s) (t := .mk sp d none []) { desc := d' } re N (by simp [need, needAll]; exact hN) ho
  rw [show SplitSpec.pieces { desc := d' } (Node.mk sp d none []).vf (Node.mk sp d none []).start
    (Node.mk sp d none []).stop ((re s (Node.mk sp d none []).span).map fun m => .mk m none none []) =
      (chunks sp (re s sp)).map fun c => .mk c d' none [] from pieces_chunks d' sp (re s sp)] at this
  exact this

theorem level_makes {s : String} {G : Nat → It} {d d' : Option String} {n N i j : Nat}
    {re : String → Span → List Span} {sp : Span} {kids : Span → List Node}
    (hG : G i = { transform := splitT { desc := d' } (splitter N (one none re)), cons := [⟨.add, j, always⟩] })
    (hN : 1 ≤ N) (ho : OrderedIn sp.start sp.stop (re s sp))
    (hk : ∀ c ∈ chunks sp (re s sp), Makes s (traverse G n j) (.mk c d' none []) (kids c) ∧
      KidsOK c ((kids c).map Node.span)) :
    Makes s (traverse G (n + 1) i) (.mk sp d none []) ((chunks sp (re s sp)).map fun c => .mk c d' none (kids c)) := by
  have := traverse_makes (s := s) (G := G) (n := n) (i := i) (t := .mk sp d none [])
    (outs := ((chunks sp (re s sp)).map fun c => [.mk c d' none (kids c)])) (by rw [hG]) (by rw [hG]; exact split_level hN ho) ?_
  · rw [show ((chunks sp (re s sp)).map fun c => [Node.mk c d' none (kids c)]).flatten =
      (chunks sp (re s sp)).map fun c => .mk c d' none (kids c) from ?_] at this
    · exact this
    · generalize chunks sp (re s sp) = l
      induction l with
      | nil => rfl
      | cons c l ih => rw [List.map_cons, List.flatten_cons, ih]; rfl
  · rw [hG]
    dsimp only
    generalize hl : chunks sp (re s sp) = l at hk ⊢
    clear hl
    induction l with
    | nil => exact .nil
    | cons c l ih =>
      rw [List.map_cons, List.map_cons]
      refine .cons ?_ (ih (fun c' hc' => hk c' (by simp [hc'])))
      obtain ⟨k1, k2⟩ := hk c (by simp)
      exact turns_add (fun _ _ _ => rfl) rfl k1 k2 (turns_nil s _ _ _)

include law

theorem sentences_makes {s : String} {chars : Bool} {N n : Nat} {sp : Span} (d : Option String) (hN : 1 ≤ N)
    (h0 : 0 ≤ sp.start) (h1 : sp.start ≤ sp.stop) (h2 : sp.stop ≤ s.length)
    (hc : chars = true → ∀ c ∈ chunks sp (p.sent s sp), p.num s c = []) :
    Makes s (traverse (graph p chars N) (n + 3) 1) (.mk sp d none [])
      ((chunks sp (p.sent s sp)).map (sentence p s (numsOf p s))) := by
  have ho := law.sent s _ _ h0 h1 h2
  refine level_makes (G := graph p chars N) (i := 1) (j := 2) rfl hN ho (fun c hm => ?_)
  have := chunks_inside ho hm
  exact ⟨tokens_makes law _ hN (by omega) this.2.1 (by omega) (fun e => hc e c hm),
    tokens_kidsOK law (by omega) this.2.1 (by omega)⟩

theorem sentences_kidsOK {s : String} {sp : Span} (h0 : 0 ≤ sp.start) (h1 : sp.start ≤ sp.stop) (h2 : sp.stop ≤ s.length) :
    KidsOK sp (((chunks sp (p.sent s sp)).map (sentence p s (numsOf p s))).map Node.span) := by
  rw [List.map_map]
  have : (Node.span ∘ sentence p s (numsOf p s)) = id := rfl
  rw [this, List.map_id]
  exact chunks_kidsOK (law.sent s _ _ h0 h1 h2)

theorem paragraphs_makes {s : String} {chars : Bool} {N n : Nat} (d : Option String) (hN : 1 ≤ N)
    (hc : chars = true → ∀ sp, IsSentence p s sp → p.num s sp = []) :
    Makes s (traverse (graph p chars N) (n + 4) 0) (.mk ⟨0, s.length⟩ d none [])
      ((chunks ⟨0, s.length⟩ (p.para s ⟨0, s.length⟩)).map (paragraph p s (numsOf p s))) := by
  have ho := law.para s 0 s.length (Int.le_refl _) (by omega) (Int.le_refl _)
  refine level_makes (G := graph p chars N) (i := 0) (j := 1) (sp := ⟨0, s.length⟩) rfl hN ho (fun c hm => ?_)
  have := chunks_inside (sp := ⟨0, s.length⟩) ho hm
  exact ⟨sentences_makes law _ hN this.1 this.2.1 this.2.2 (fun e q hq => hc e q ⟨c, hm, hq⟩),
    sentences_kidsOK law this.1 this.2.1 this.2.2⟩

omit law in
theorem doc_object {h : Heap} (hok : OK h) (hac : Acyclic h) (s : String) (d : Option String) :
    OK (h.new s none none d) ∧ Acyclic (h.new s none none d) ∧ (h.new s none none d).parent h.next = none ∧
    (h.new s none none d).str h.next = s ∧ Looks (h.new s none none d) h.next (.mk ⟨0, s.length⟩ d none []) := by
  refine ⟨ok_new hok _ _ _ _, new_acyclic hok hac _ _ _ _, by simp [Heap.parent, Heap.new], by simp [Heap.str, Heap.new], ?_⟩
  have e : Span.fromIndices s.length none none = ⟨0, s.length⟩ := by simp [Span.fromIndices]
  rw [Looks]
  refine ⟨by simp [Heap.span, Heap.new, e], by simp [Heap.new], by simp [Heap.new], ?_⟩
  have : (h.new s none none d).kids h.next = [] := by simp [Heap.kids, Heap.new]
  rw [this, LooksAll]; trivial

theorem fromText_makes {h : Heap} (hok : OK h) (hac : Acyclic h) (s : String) (chars : Bool) (n : Nat) (hn : 4 ≤ n)
    (hc : chars = true → ∀ sp, IsSentence p s sp → p.num s sp = []) :
    ∃ h', fromText p chars n h s = (h', .ok h.next) ∧ Made s h h' [h.next] [document p s (numsOf p s)] := by
  obtain ⟨n, rfl⟩ : ∃ m, n = m + 4 := ⟨n - 4, by omega⟩
  obtain ⟨a1, a2, a3, a4, a5⟩ := doc_object hok hac s (some "Document")
  have hm := call_makes (n := n + 4) (paragraphs_makes law (chars := chars) (N := n + 4) (n := n) (some "Document") (by omega) hc)
    (by simp [need, needAll])
  have hlt : h.next < (h.new s none none (some "Document")).next := by simp [Heap.new]
  obtain ⟨h1, ids, e, m⟩ := hm _ h.next a1 a2 hlt a4 a5
  obtain ⟨h2, b1, b2, b3, b4, b5, b6, b7, b8⟩ := add_made hlt a3 a4 a5 m (by
    rw [List.map_map]
    have : (Node.span ∘ paragraph p s (numsOf p s)) = id := rfl
    rw [this, List.map_id]
    exact chunks_kidsOK (sp := ⟨0, s.length⟩) (law.para s 0 s.length (Int.le_refl _) (by omega) (Int.le_refl _)))
  refine ⟨h2, ?_, ?_⟩
  · unfold fromText
    rw [e]
    dsimp only
    rw [b1]
  · have nx := m.next
    have n0 : (h.new s none none (some "Document")).next = h.next + 1 := rfl
    exact {
      next := by omega
      old := fun i hi => by
        rw [b8 i (by omega) (by omega)]
        simp [Heap.new, Nat.ne_of_lt hi]
      ok := b3
      acyclic := b4
      fresh := by intro i hi; simp at hi; subst hi; omega
      root := by intro i hi; simp at hi; subst hi; exact b5
      str := by intro i hi; simp at hi; subst hi; exact b6
      nodup := by simp
      looks := by rw [LooksAll]; exact ⟨b7, by simp [LooksAll]⟩ }

/-- C76: for every text, `SimpleNlp().from_text` never raises, whatever the patterns find. It returns a new parentless
`Document` covering the text; its children are the paragraphs, theirs the sentences, theirs the numbers (as trees of
their parts) and the words of the text between numbers, in order. Nothing that existed changes, and the object graph
is consistent. -/
theorem C76_from_text {h : Heap} (hok : OK h) (hac : Acyclic h) (s : String) (n : Nat) (hn : 4 ≤ n) :
    ∃ h' nums, fromText p false n h s = (h', .ok h.next) ∧
      (∀ sp, IsSentence p s sp → Pairs NumTree (p.num s sp) (nums sp)) ∧
      Made s h h' [h.next] [document p s nums] := by
  obtain ⟨h', e, m⟩ := fromText_makes law hok hac s false n hn (by simp)
  refine ⟨h', numsOf p s, e, fun sp ⟨q, hq, hs⟩ => ?_, m⟩
  have a := chunks_inside (sp := ⟨0, s.length⟩) (law.para s 0 s.length (Int.le_refl _) (by omega) (Int.le_refl _)) hq
  have b := chunks_inside (law.sent s q.start q.stop a.1 a.2.1 a.2.2) hs
  simp only at a
  exact (numbers_spec law (by omega) b.2.1 (by omega)).2

/-! ## `chars=True` -/

omit law

mutual
theorem preorder_inside : ∀ (n : Node), WF n → ∀ c ∈ preorder n, n.span.start ≤ c.1.start ∧ c.1.stop ≤ n.span.stop
  | .mk s d v ks, h, c, hc => by
    cases h with
    | mk a b k e =>
      simp only [preorder, List.mem_cons, Node.span] at hc ⊢
      rcases hc with rfl | hc
      · exact ⟨Int.le_refl _, Int.le_refl _⟩
      · obtain ⟨q, hq, h1, h2⟩ := preorderAll_inside ks e c hc
        have := k.inside q.span (List.mem_map_of_mem hq)
        omega
theorem preorderAll_inside : ∀ (ks : List Node), (∀ k ∈ ks, WF k) → ∀ c ∈ preorderAll ks,
    ∃ k ∈ ks, k.span.start ≤ c.1.start ∧ c.1.stop ≤ k.span.stop
  | [], _, c, hc => by simp [preorderAll] at hc
  | k :: ks, h, c, hc => by
    rw [preorderAll, List.mem_append] at hc
    rcases hc with hc | hc
    · exact ⟨k, by simp, preorder_inside k (h k (by simp)) c hc⟩
    · obtain ⟨q, hq, hh⟩ := preorderAll_inside ks (fun k hk => h k (by simp [hk])) c hc
      exact ⟨q, by simp [hq], hh⟩
end

theorem numTree_kid {m : NumMatch} {n : Node} (ht : NumTree m n) {g : String × List Span} (hg : g ∈ m.groups) {c : Span}
    (hc : c ∈ g.2) : ∃ k ∈ n.kids, k.span.start ≤ c.start ∧ c.stop ≤ k.span.stop := by
  have hs := ht.span
  have hd := ht.desc
  have hp := ht.perm
  have hw := ht.wf
  obtain ⟨sp, d, v, ks⟩ := n
  simp only [Node.span, Node.desc] at hs hd
  subst hs hd
  rw [preorder] at hp
  unfold captures at hp
  have hp := hp.cons_inv
  have hm : (c, some g.1) ∈ preorderAll ks := hp.mem_iff.mpr
    (List.mem_flatMap.mpr ⟨g, hg, List.mem_map.mpr ⟨c, hc, rfl⟩⟩)
  cases hw with
  | mk _ _ _ e => exact preorderAll_inside ks e _ hm

theorem pairs_head {α β : Type} {R : α → β → Prop} {a : α} {as : List α} {bs : List β} (h : Pairs R (a :: as) bs) :
    ∃ b bs', bs = b :: bs' ∧ R a b := by
  cases h with
  | cons h _ => exact ⟨_, _, rfl, h⟩

theorem level_fails {s : String} {G : Nat → It} {d d' : Option String} {n N i j : Nat}
    {re : String → Span → List Span} {sp : Span} {kids : Span → List Node}
    (hG : G i = { transform := splitT { desc := d' } (splitter N (one none re)), cons := [⟨.add, j, always⟩] })
    (hN : 1 ≤ N) (ho : OrderedIn sp.start sp.stop (re s sp))
    (hk : ∀ c ∈ chunks sp (re s sp), (Makes s (traverse G n j) (.mk c d' none []) (kids c) ∧
      KidsOK c ((kids c).map Node.span)) ∨ Fails s (traverse G n j) (.mk c d' none []))
    (hf : ∃ c ∈ chunks sp (re s sp), Fails s (traverse G n j) (.mk c d' none [])) :
    Fails s (traverse G (n + 1) i) (.mk sp d none []) := by
  refine traverse_fails (ts := (chunks sp (re s sp)).map fun c => .mk c d' none []) (by rw [hG])
    (by rw [hG]; exact split_level hN ho) ?_
  rw [hG]
  dsimp only
  generalize chunks sp (re s sp) = l at hk hf ⊢
  induction l with
  | nil => obtain ⟨c, hc, -⟩ := hf; simp at hc
  | cons c l ih =>
    rw [List.map_cons]
    by_cases hcf : Fails s (traverse G n j) (.mk c d' none [])
    · exact .here (fails_add (fun _ _ _ => rfl) rfl hcf)
    · rcases hk c (by simp) with ⟨k1, k2⟩ | k
      · refine .later (turns_add (fun _ _ _ => rfl) rfl k1 k2 (turns_nil s _ _ _))
          (ih (fun c' hc' => hk c' (by simp [hc'])) ?_)
        obtain ⟨c', hc', h'⟩ := hf
        rcases List.mem_cons.mp hc' with rfl | hc'
        · exact absurd h' hcf
        · exact ⟨c', hc', h'⟩
      · exact absurd k hcf

variable (lch : LawfulChars p)
include law lch

theorem chars_makes {s : String} {chars : Bool} {N n : Nat} {t : Node} (h0 : 0 ≤ t.span.start)
    (h1 : t.span.start ≤ t.span.stop) (h2 : t.span.stop ≤ s.length) :
    Makes s (traverse (graph p chars N) (n + 1) 4) t ((p.char s t.span).map fun m => .mk m (some "char") none []) := by
  have e := fromRe_single (len := s.length) (some "char") (lch.char s _ _ h0 h1 h2) h0 h2
  intro h x
  rw [C51_no_connections (graph p chars N) n 4 h x rfl rfl]
  exact (extract_makes (t := t) (re := one (some "char") p.char) e).makes h x

/-- A number fails. -/
theorem number_fails {s : String} {N n : Nat} {sp : Span} {m : NumMatch} {t : Node} (hm : m ∈ p.num s sp)
    (ht : NumTree m t) (h0 : 0 ≤ m.whole.start) (h1 : m.whole.start ≤ m.whole.stop) (h2 : m.whole.stop ≤ s.length) :
    FailsTop s (flow (n + 1) (traverse (graph p true N) (n + 1)) (graph p true N 2).cons) t := by
  refine fails_skip (fun h x hl => ?_) (fails_overlap (us := (p.char s t.span).map fun m => .mk m (some "char") none [])
    (fun _ _ _ => rfl) rfl (chars_makes law lch (by rw [ht.span]; exact h0) (by rw [ht.span]; exact h1)
      (by rw [ht.span]; exact h2)) ?_)
  · have hd := ht.desc
    obtain ⟨ts, td, tv, tk⟩ := t
    rw [Looks] at hl
    simp only [Node.desc] at hd
    simp [noDesc, hl.2.1, hd]
  · obtain ⟨g, hg, c, hc, w, hw, d1, d2, d3⟩ := lch.digit s sp m hm
    obtain ⟨k, hk, k1, k2⟩ := numTree_kid ht hg hc
    refine ⟨k, hk, .mk w (some "char") none [], ?_, ?_⟩
    · rw [ht.span]; exact List.mem_map.mpr ⟨w, hw, rfl⟩
    · show k.span.start < w.stop ∧ w.start < k.span.stop
      omega

theorem tokens_fail {s : String} {N n : Nat} {sp : Span} (d : Option String) (hN : 1 ≤ N) (h0 : 0 ≤ sp.start)
    (h1 : sp.start ≤ sp.stop) (h2 : sp.stop ≤ s.length) (hc : p.num s sp ≠ []) :
    Fails s (traverse (graph p true N) (n + 2) 2) (.mk sp d none []) := by
  obtain ⟨a, b⟩ := nums_facts law h0 h1 h2
  have hs := number_split_makes law d hN h0 h1 h2
  obtain ⟨-, hp⟩ := numbers_spec law h0 h1 h2
  have ho := law.num s sp.start sp.stop h0 h1 h2
  cases hnum : p.num s sp with
  | nil => exact absurd hnum hc
  | cons m ms =>
    have hm : m ∈ p.num s sp := by rw [hnum]; simp
    have hb := orderedIn_mem ho m.whole (List.mem_map_of_mem hm)
    rw [hnum] at hp
    obtain ⟨t, ts, e, ht⟩ := pairs_head hp
    rw [e, if_neg (by simp)] at hs
    refine traverse_fails (G := graph p true N) (n := n + 1) (i := 2) rfl hs ?_
    rw [mixed]
    have hts : t.start = m.whole.start := by unfold Node.start; rw [ht.span]
    have hte : t.stop = m.whole.stop := by unfold Node.stop; rw [ht.span]
    have hne := law.numNE s sp m hm
    rw [if_pos (c := t.start ≠ t.stop) (by omega)]
    have hF := number_fails law lch (N := N) (n := n) hm ht (by omega) hb.2.1 (by omega)
    by_cases eg : sp.start = t.start
    · rw [if_neg (by simp [eg])]
      exact .here hF
    · rw [if_pos eg]
      exact .later (gap_turns law (sp := ⟨sp.start, t.start⟩) h0 (by simp only; omega) (by simp only; omega)) (.here hF)

theorem sentences_fail {s : String} {N n : Nat} {sp : Span} (d : Option String) (hN : 1 ≤ N) (h0 : 0 ≤ sp.start)
    (h1 : sp.start ≤ sp.stop) (h2 : sp.stop ≤ s.length) (hc : ∃ c ∈ chunks sp (p.sent s sp), p.num s c ≠ []) :
    Fails s (traverse (graph p true N) (n + 3) 1) (.mk sp d none []) := by
  have ho := law.sent s _ _ h0 h1 h2
  refine level_fails (G := graph p true N) (i := 1) (j := 2)
    (kids := fun c => tokens p s c.start c.stop (numsOf p s c)) rfl hN ho (fun c hm => ?_) ?_
  · have := chunks_inside ho hm
    by_cases e : p.num s c = []
    · exact .inl ⟨tokens_makes law _ hN (by omega) this.2.1 (by omega) (fun _ => e),
        tokens_kidsOK law (by omega) this.2.1 (by omega)⟩
    · exact .inr (tokens_fail law lch _ hN (by omega) this.2.1 (by omega) e)
  · obtain ⟨c, hm, e⟩ := hc
    have := chunks_inside ho hm
    exact ⟨c, hm, tokens_fail law lch _ hN (by omega) this.2.1 (by omega) e⟩

theorem paragraphs_fail {s : String} {N n : Nat} (d : Option String) (hN : 1 ≤ N)
    (hc : ∃ sp, IsSentence p s sp ∧ p.num s sp ≠ []) :
    Fails s (traverse (graph p true N) (n + 4) 0) (.mk ⟨0, s.length⟩ d none []) := by
  have ho := law.para s 0 s.length (Int.le_refl _) (by omega) (Int.le_refl _)
  refine level_fails (G := graph p true N) (i := 0) (j := 1) (sp := ⟨0, s.length⟩)
    (kids := fun c => (chunks c (p.sent s c)).map (sentence p s (numsOf p s))) rfl hN ho (fun c hm => ?_) ?_
  · have := chunks_inside (sp := ⟨0, s.length⟩) ho hm
    by_cases e : ∃ q ∈ chunks c (p.sent s c), p.num s q ≠ []
    · exact .inr (sentences_fail law lch _ hN this.1 this.2.1 this.2.2 e)
    · refine .inl ⟨sentences_makes law _ hN this.1 this.2.1 this.2.2 (fun _ q hq => ?_),
        sentences_kidsOK law this.1 this.2.1 this.2.2⟩
      exact Classical.byContradiction (fun hh => e ⟨q, hq, hh⟩)
  · obtain ⟨sp, ⟨q, hq, hs⟩, e⟩ := hc
    have := chunks_inside (sp := ⟨0, s.length⟩) ho hq
    exact ⟨q, hq, sentences_fail law lch _ hN this.1 this.2.1 this.2.2 ⟨sp, hs, e⟩⟩

/-- C77 is violated: with `chars=True`, every text with a number in it makes `from_text` raise `ValueError` (the
characters of the number collide with its parts). -/
theorem C77_chars_violated {h : Heap} (hok : OK h) (hac : Acyclic h) (s : String) (n : Nat) (hn : 4 ≤ n)
    (hc : ∃ sp, IsSentence p s sp ∧ p.num s sp ≠ []) : ∃ h', fromText p true n h s = (h', .error .valueError) := by
  obtain ⟨n, rfl⟩ : ∃ m, n = m + 4 := ⟨n - 4, by omega⟩
  obtain ⟨a1, a2, a3, a4, a5⟩ := doc_object hok hac s (some "Document")
  have hm := call_fails (n := n + 4) (paragraphs_fail law lch (N := n + 4) (n := n) (some "Document") (by omega) hc)
    (by simp [need, needAll])
  have hlt : h.next < (h.new s none none (some "Document")).next := by simp [Heap.new]
  obtain ⟨h1, e⟩ := hm _ h.next a1 a2 hlt a4 a5
  refine ⟨h1, ?_⟩
  unfold fromText
  rw [e]

omit lch in
/-- C77, the rest: a text without numbers gives, with `chars=True`, the same document as without: words never get
their characters as children. -/
theorem C77_chars_no_effect {h : Heap} (hok : OK h) (hac : Acyclic h) (s : String) (n : Nat) (hn : 4 ≤ n)
    (hc : ∀ sp, IsSentence p s sp → p.num s sp = []) :
    ∃ h', fromText p true n h s = (h', .ok h.next) ∧ Made s h h' [h.next] [document p s (fun _ => [])] := by
  obtain ⟨h', e, m⟩ := fromText_makes law hok hac s true n hn (fun _ => hc)
  refine ⟨h', e, ?_⟩
  have : document p s (numsOf p s) = document p s (fun _ => []) := by
    unfold document paragraph
    congr 1
    refine List.map_congr_left (fun q hq => ?_)
    congr 1
    refine List.map_congr_left (fun c hcq => ?_)
    have e1 := hc c ⟨q, hq, hcq⟩
    have a := chunks_inside (sp := ⟨0, s.length⟩) (law.para s 0 s.length (Int.le_refl _) (by omega) (Int.le_refl _)) hq
    have b := chunks_inside (law.sent s q.start q.stop a.1 a.2.1 a.2.2) hcq
    simp only at a
    have hp := (numbers_spec law (s := s) (sp := c) (by omega) b.2.1 (by omega)).2
    rw [e1] at hp
    unfold sentence
    cases hn' : numsOf p s c with
    | nil => rfl
    | cons y ys => rw [hn'] at hp; cases hp
  rw [this] at m
  exact m

/-! ## Non-vacuity -/

omit law lch

/-- Paragraphs end at position 6, sentences at the third character, numbers are one digit at the beginning of a
sentence, the rest is one word. -/
def exPatterns : Patterns where
  para _ sp := if sp.start ≤ 6 ∧ 7 ≤ sp.stop then [⟨6, 7⟩] else []
  sent _ sp := if sp.start + 3 ≤ sp.stop then [⟨sp.start + 2, sp.start + 3⟩] else []
  num _ sp := if sp.start + 2 ≤ sp.stop then [⟨⟨sp.start, sp.start + 1⟩, [("integer", [⟨sp.start, sp.start + 1⟩])]⟩] else []
  word _ sp := if sp.start < sp.stop then [sp] else []
  char _ sp := if sp.start < sp.stop then [⟨sp.start, sp.start + 1⟩] else []

theorem exPatterns_lawful : Lawful exPatterns where
  para s a b h0 h1 h2 := by simp only [exPatterns]; split <;> simp only [OrderedIn] <;> omega
  sent s a b h0 h1 h2 := by simp only [exPatterns]; split <;> simp only [OrderedIn] <;> omega
  word s a b h0 h1 h2 := by simp only [exPatterns]; split <;> simp only [OrderedIn] <;> omega
  wordNE s sp w hw := by
    simp only [exPatterns] at hw
    split at hw
    · simp at hw; subst hw; assumption
    · simp at hw
  num s a b h0 h1 h2 := by
    simp only [exPatterns]; split <;> simp only [List.map_cons, List.map_nil, OrderedIn] <;> omega
  numNE s sp m hm := by
    simp only [exPatterns] at hm
    split at hm
    · simp at hm; subst hm; simp only; omega
    · simp at hm
  groupsIn s sp m hm g hg c hc := by
    simp only [exPatterns] at hm
    split at hm
    · simp at hm; subst hm; simp at hg; subst hg; simp at hc; subst hc; simp only; omega
    · simp at hm
  groupsLaminar s sp m hm := by
    simp only [exPatterns] at hm
    split at hm
    · simp at hm; subst hm; simp
    · simp at hm

theorem exPatterns_chars : LawfulChars exPatterns where
  char s a b h0 h1 h2 := by simp only [exPatterns]; split <;> simp only [OrderedIn] <;> omega
  digit s sp m hm := by
    simp only [exPatterns] at hm
    split at hm
    · simp at hm; subst hm
      refine ⟨_, List.mem_singleton.mpr rfl, _, List.mem_singleton.mpr rfl, ⟨sp.start, sp.start + 1⟩, ?_, ?_⟩
      · simp only [exPatterns]; rw [if_pos (by omega)]; simp
      · simp only; omega
    · simp at hm

/-- A text of two paragraphs; the first has two sentences, each with a number and a word. -/
example : document exPatterns "1a.2b 3" (numsOf exPatterns "1a.2b 3") =
    .mk ⟨0, 7⟩ (some "Document") none [
      .mk ⟨0, 6⟩ (some "paragraph") none [
        .mk ⟨0, 2⟩ (some "sentence") none [
          .mk ⟨0, 1⟩ (some "number") none [.mk ⟨0, 1⟩ (some "integer") none []],
          .mk ⟨1, 2⟩ (some "word") none []],
        .mk ⟨3, 6⟩ (some "sentence") none [
          .mk ⟨3, 4⟩ (some "number") none [.mk ⟨3, 4⟩ (some "integer") none []],
          .mk ⟨4, 6⟩ (some "word") none []]]] := by decide

example : ∃ sp, IsSentence exPatterns "1a.2b 3" sp ∧ exPatterns.num "1a.2b 3" sp ≠ [] :=
  ⟨⟨0, 2⟩, ⟨⟨0, 6⟩, by decide, by decide⟩, by decide⟩

example : ∀ sp, IsSentence exPatterns "1" sp → exPatterns.num "1" sp = [] := by
  intro sp ⟨q, hq, hs⟩
  have : q = ⟨0, 1⟩ := by
    have : chunks ⟨0, ("1" : String).length⟩ (exPatterns.para "1" ⟨0, ("1" : String).length⟩) = [⟨0, 1⟩] := by decide
    rw [this] at hq; simpa using hq
  subst this
  have : chunks ⟨0, 1⟩ (exPatterns.sent "1" ⟨0, 1⟩) = [⟨0, 1⟩] := by decide
  rw [this] at hs
  simp at hs
  subst hs
  decide

end Pawpaw.Props
