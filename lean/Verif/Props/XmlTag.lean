import Verif.Spec.XmlTag
import Verif.Model.XmlTag
import Verif.Lemmas.RegexRun
import Verif.Props.MatchExact
import Verif.Lemmas.Tiles
/-!
# C85: names, attributes, comments and processing instructions in XML tags and texts

This file: what the patterns of the XML parser capture, for any text.
-/
set_option linter.unusedSectionVars false
set_option linter.unusedSimpArgs false
namespace Pawpaw.Props
open Pawpaw Pawpaw.Xml Pawpaw.Regex XmlSpec TreeSpec

/-! ### Ways to match, and their captures -/

theorem mem_seq {a b : Re} {st st' : St} : st' ∈ out (.seq a b) st ↔ ∃ s, s ∈ out a st ∧ st' ∈ out b s := by
  rw [out, List.mem_flatMap]

theorem mem_alt {a b : Re} {st st' : St} : st' ∈ out (.alt a b) st ↔ st' ∈ out a st ∨ st' ∈ out b st := by
  rw [out, List.mem_append]

theorem mem_eps {st st' : St} : st' ∈ out .eps st ↔ st' = st := by rw [out, List.mem_singleton]

theorem mem_grp {n : String} {a : Re} {st st' : St} :
    st' ∈ out (.grp n a) st ↔ ∃ s, s ∈ out a st ∧ st' = { s with caps := s.caps ++ [(n, st.pos, s.pos)] } := by
  rw [out, List.mem_map]
  constructor
  · rintro ⟨s, h, rfl⟩; exact ⟨s, h, rfl⟩
  · rintro ⟨s, h, rfl⟩; exact ⟨s, h, rfl⟩

theorem mem_chr {p : Char → Bool} {st st' : St} (h : st' ∈ out (.chr p) st) :
    st'.pos = st.pos + 1 ∧ st'.caps = st.caps := by
  rw [out] at h
  split at h
  · simp at h
  · split at h
    · rw [List.mem_singleton] at h; subst h; exact ⟨rfl, rfl⟩
    · simp at h

theorem mem_star_chr {g : Bool} {p : Char → Bool} {st st' : St} (h : st' ∈ out (.star g (.chr p)) st) :
    st.pos ≤ st'.pos ∧ st'.caps = st.caps := by
  have key : ∀ (n : Nat) (st st' : St), st' ∈ iter g (out (.chr p)) n st → st.pos ≤ st'.pos ∧ st'.caps = st.caps := by
    intro n
    induction n with
    | zero => intro st st' h; rw [iter, List.mem_singleton] at h; subst h; exact ⟨Nat.le_refl _, rfl⟩
    | succ n ih =>
      intro st st' h
      rw [iter] at h
      have h' : st' = st ∨ ∃ s, s ∈ out (.chr p) st ∧ st' ∈ iter g (out (.chr p)) n s := by
        have hm : ∀ x, x ∈ (out (.chr p) st).flatMap (fun s => if st.pos < s.pos then iter g (out (.chr p)) n s else []) →
            ∃ s, s ∈ out (.chr p) st ∧ x ∈ iter g (out (.chr p)) n s := by
          intro x hx
          obtain ⟨s, h1, h2⟩ := List.mem_flatMap.1 hx
          split at h2
          · exact ⟨s, h1, h2⟩
          · simp at h2
        split at h
        · rcases List.mem_append.1 h with h | h
          · exact Or.inr (hm _ h)
          · exact Or.inl (List.mem_singleton.1 h)
        · rcases List.mem_cons.1 h with h | h
          · exact Or.inl h
          · exact Or.inr (hm _ h)
      rcases h' with rfl | ⟨s, h1, h2⟩
      · exact ⟨Nat.le_refl _, rfl⟩
      · have g1 := mem_chr h1
        have g2 := ih s st' h2
        exact ⟨by omega, by rw [g2.2, g1.2]⟩
  rw [out] at h
  exact key _ _ _ h

theorem mem_plus_chr {p : Char → Bool} {st st' : St} (h : st' ∈ out (plus (.chr p)) st) :
    st.pos < st'.pos ∧ st'.caps = st.caps := by
  obtain ⟨s, h1, h2⟩ := mem_seq.1 h
  have g1 := mem_chr h1
  have g2 := mem_star_chr h2
  exact ⟨by omega, by rw [g2.2, g1.2]⟩

/-- The captures of a name from `p` to `q`. -/
def nameCaps (p : Nat) (pre : Option Nat) (q : Nat) : List (String × Nat × Nat) :=
  match pre with
  | none => [("name", p, q), ("tag", p, q)]
  | some a => [("namespace", p, p + a), ("name", p + a + 1, q), ("tag", p, q)]

/-- There is something of each part. -/
def NameFits (p : Nat) (pre : Option Nat) (q : Nat) : Prop :=
  match pre with
  | none => p < q
  | some a => 0 < a ∧ p + a + 1 < q

theorem NameFits.lt {p q : Nat} {pre : Option Nat} (h : NameFits p pre q) : p < q := by
  unfold NameFits at h
  split at h <;> omega

theorem mem_tagG {st st' : St} (h : st' ∈ out tagG st) :
    ∃ pre, NameFits st.pos pre st'.pos ∧ st'.caps = st.caps ++ nameCaps st.pos pre st'.pos := by
  obtain ⟨s, h1, rfl⟩ := mem_grp.1 h
  obtain ⟨s1, h2, h3⟩ := mem_seq.1 h1
  obtain ⟨s2, h4, rfl⟩ := mem_grp.1 h3
  have g4 := mem_plus_chr h4
  rcases mem_alt.1 h2 with h2 | h2
  · obtain ⟨s3, h5, h6⟩ := mem_seq.1 h2
    obtain ⟨s4, h7, rfl⟩ := mem_grp.1 h5
    have g7 := mem_plus_chr h7
    have g6 := mem_chr h6
    dsimp only at g6
    refine ⟨some (s4.pos - st.pos), ?_, ?_⟩
    · show 0 < s4.pos - st.pos ∧ st.pos + (s4.pos - st.pos) + 1 < s2.pos
      omega
    · show s2.caps ++ _ ++ _ = _
      rw [g4.2, g6.2, g7.2]
      unfold nameCaps
      dsimp only
      rw [show st.pos + (s4.pos - st.pos) = s4.pos by omega, ← g6.1]
      simp
  · rw [mem_eps] at h2
    subst h2
    refine ⟨none, g4.1, ?_⟩
    show s2.caps ++ _ ++ _ = _
    rw [g4.2]
    unfold nameCaps
    simp

theorem mem_tagRe {st st' : St} (h : st' ∈ out tagRe st) :
    ∃ p pre, st.pos < p ∧ NameFits p pre st'.pos ∧ st'.caps = st.caps ++ nameCaps p pre st'.pos := by
  obtain ⟨s, h1, h2⟩ := mem_seq.1 h
  obtain ⟨s2, h3, h4⟩ := mem_seq.1 h2
  have g1 := mem_chr h1
  have g3 : s.pos ≤ s2.pos ∧ s2.caps = s.caps := by
    rcases mem_alt.1 h3 with h3 | h3
    · have := mem_chr h3; exact ⟨by omega, this.2⟩
    · rw [mem_eps] at h3; subst h3; exact ⟨Nat.le_refl _, rfl⟩
  obtain ⟨pre, g4, g5⟩ := mem_tagG h4
  exact ⟨s2.pos, pre, by omega, g4, by rw [g5, g3.2, g1.2]⟩

theorem mem_attrRe {st st' : St} (h : st' ∈ out attrRe st) :
    ∃ pre m, NameFits st.pos pre m ∧ m + 3 < st'.pos ∧
      st'.caps = st.caps ++ (nameCaps st.pos pre m ++ [("value", m + 2, st'.pos - 1), ("attribute", st.pos, st'.pos)]) := by
  obtain ⟨s, h1, rfl⟩ := mem_grp.1 h
  obtain ⟨s1, h2, h3⟩ := mem_seq.1 h1
  obtain ⟨pre, g1, g2⟩ := mem_tagG h2
  obtain ⟨s2, h4, h5⟩ := mem_seq.1 h3
  obtain ⟨s3, h6, h7⟩ := mem_seq.1 h5
  obtain ⟨s4, h8, h9⟩ := mem_seq.1 h7
  obtain ⟨s5, h10, rfl⟩ := mem_grp.1 h8
  have e1 := mem_chr h4
  have e2 := mem_chr h6
  have e3 := mem_plus_chr h10
  have e4 := mem_chr h9
  dsimp only at e4
  refine ⟨pre, s1.pos, g1, by dsimp only; omega, ?_⟩
  show s.caps ++ _ = _
  rw [e4.2, e3.2, e2.2, e1.2, g2, show s.pos - 1 = s5.pos by omega, show s1.pos + 2 = s3.pos by omega]
  simp

theorem mem_lit : ∀ {cs : List Char} {st st' : St}, st' ∈ out (lit cs) st →
    st'.pos = st.pos + cs.length ∧ st'.caps = st.caps
  | [], st, st', h => by rw [lit, mem_eps] at h; subst h; exact ⟨rfl, rfl⟩
  | [c], st, st', h => mem_chr h
  | c :: d :: cs, st, st', h => by
    obtain ⟨s, h1, h2⟩ := mem_seq.1 h
    have g1 := mem_chr h1
    have g2 := mem_lit (cs := d :: cs) h2
    refine ⟨?_, by rw [g2.2, g1.2]⟩
    simp only [List.length_cons] at g2 ⊢
    omega

theorem mem_textRe {st st' : St} (h : st' ∈ out textRe st) :
    (st.pos + 4 ≤ st'.pos ∧ st'.caps = st.caps ++ [("value", st.pos + 2, st'.pos - 2), ("pi", st.pos, st'.pos)]) ∨
    (st.pos + 7 ≤ st'.pos ∧ st'.caps = st.caps ++ [("value", st.pos + 4, st'.pos - 3), ("comment", st.pos, st'.pos)]) := by
  rcases mem_alt.1 h with h | h
  · left
    obtain ⟨s, h1, rfl⟩ := mem_grp.1 h
    obtain ⟨s1, h2, h3⟩ := mem_seq.1 h1
    obtain ⟨s2, h4, h5⟩ := mem_seq.1 h3
    obtain ⟨s3, h6, rfl⟩ := mem_grp.1 h4
    have e1 := mem_lit h2
    have e2 := mem_star_chr h6
    have e3 := mem_lit h5
    simp only [List.length_cons, List.length_nil] at e1 e3
    refine ⟨by dsimp only; omega, ?_⟩
    dsimp only
    rw [e3.2, e2.2, e1.2, show s.pos - 2 = s3.pos by omega, show st.pos + 2 = s1.pos by omega]
    simp
  · right
    obtain ⟨s, h1, rfl⟩ := mem_grp.1 h
    obtain ⟨s1, h2, h3⟩ := mem_seq.1 h1
    obtain ⟨s2, h4, h5⟩ := mem_seq.1 h3
    obtain ⟨s3, h6, rfl⟩ := mem_grp.1 h4
    have e1 := mem_lit h2
    have e2 := mem_star_chr h6
    have e3 := mem_lit h5
    simp only [List.length_cons, List.length_nil] at e1 e3
    refine ⟨by dsimp only; omega, ?_⟩
    dsimp only
    rw [e3.2, e2.2, e1.2, show s.pos - 3 = s3.pos by omega, show st.pos + 4 = s1.pos by omega]
    simp

/-! ### From captures to Itos -/

theorem leaf_span (s : Span) (d : Option String) : (Node.leaf s d).span = s := rfl

theorem canon_leaf {s : Span} {d : Option String} (h0 : 0 ≤ s.start) (h1 : s.start ≤ s.stop) : Canon (.leaf s d) :=
  .mk h0 h1 ⟨by simp, by simp⟩ (by simp) (by simp)

theorem canon_nameAt {p q : Nat} {pre : Option Nat} (h : NameFits p pre q) : Canon (nameAt p pre q) := by
  have hl := h.lt
  cases pre with
  | none =>
    refine .mk (by dsimp only; omega) (by dsimp only; omega) ⟨?_, by simp⟩ (by simp) ?_
    · intro c hc
      simp only [List.map_cons, List.map_nil, List.mem_singleton, leaf_span] at hc
      subst hc; dsimp only; omega
    · intro k hk
      rw [List.mem_singleton] at hk
      subst hk
      exact canon_leaf (by dsimp only; omega) (by dsimp only; omega)
  | some a =>
    obtain ⟨h1, h2⟩ := h
    refine .mk (by dsimp only; omega) (by dsimp only; omega) ⟨?_, ?_⟩ ?_ ?_
    · intro c hc
      simp only [List.map_cons, List.map_nil, List.mem_cons, List.not_mem_nil, or_false, leaf_span] at hc
      rcases hc with rfl | rfl <;> dsimp only <;> omega
    · simp only [List.map_cons, List.map_nil, List.pairwise_cons, List.mem_singleton, Node.leaf, Node.span]
      simp
      omega
    · simp only [List.map_cons, List.map_nil, List.pairwise_cons, List.mem_singleton, Node.leaf, Node.span]
      simp
      omega
    · intro k hk
      simp only [List.mem_cons, List.not_mem_nil, or_false] at hk
      rcases hk with rfl | rfl <;> exact canon_leaf (by dsimp only; omega) (by dsimp only; omega)

theorem nameAt_span (p : Nat) (pre : Option Nat) (q : Nat) : (nameAt p pre q).span = ⟨p, q⟩ := rfl
theorem attributeAt_span (p : Nat) (pre : Option Nat) (m q : Nat) : (attributeAt p pre m q).span = ⟨p, q⟩ := rfl

/-- One Ito for a match of the tag pattern. -/
theorem fromMatch_tag {len i p q : Nat} {pre : Option Nat} (h : NameFits p pre q) (hq : q ≤ len) :
    Match.fromMatch len (spansOf tagKeys ⟨i, q, nameCaps p pre q⟩) = .ok [nameAt p pre q] := by
  have hl := h.lt
  refine fromMatch_listed len _ _ ?_ (by simp) ?_ ?_
  · intro n hn
    rw [List.mem_singleton] at hn
    subst hn
    exact ⟨canon_nameAt h, by show ((q : Nat) : Int) ≤ len; omega⟩
  · cases pre <;> rfl
  · cases pre with
    | none =>
      simp only [nameAt, preorderAll, preorder, Node.leaf, List.nil_append, List.append_nil, List.cons_append, List.pairwise_cons,
        List.mem_cons, List.not_mem_nil, or_false, List.mem_singleton]
      unfold Before
      simp
    | some a =>
      obtain ⟨h1, h2⟩ := h
      simp only [nameAt, preorderAll, preorder, Node.leaf, List.nil_append, List.append_nil, List.cons_append, List.pairwise_cons,
        List.mem_cons, List.not_mem_nil, or_false, List.mem_singleton]
      unfold Before
      refine ⟨?_, ?_, by simp⟩
      · rintro e (rfl | rfl) <;> dsimp only <;> omega
      · rintro e rfl
        dsimp only
        omega

/-- One Ito for a match of the attribute pattern. -/
theorem fromMatch_attr {len i p m q : Nat} {pre : Option Nat} (h : NameFits p pre m) (hm : m + 3 < q) (hq : q ≤ len) :
    Match.fromMatch len (spansOf attrKeys ⟨i, q, nameCaps p pre m ++ [("value", m + 2, q - 1), ("attribute", p, q)]⟩) =
      .ok [attributeAt p pre m q] := by
  have hl := h.lt
  refine fromMatch_listed len _ _ ?_ (by simp) ?_ ?_
  · intro n hn
    rw [List.mem_singleton] at hn
    subst hn
    refine ⟨?_, by show ((q : Nat) : Int) ≤ len; omega⟩
    refine .mk (by dsimp only; omega) (by dsimp only; omega) ⟨?_, ?_⟩ ?_ ?_
    · intro c hc
      simp only [List.map_cons, List.map_nil, List.mem_cons, List.not_mem_nil, or_false, nameAt_span, leaf_span] at hc
      rcases hc with rfl | rfl <;> dsimp only <;> omega
    · simp only [List.map_cons, List.map_nil, List.pairwise_cons, List.mem_singleton, nameAt_span, leaf_span]
      simp
      omega
    · simp only [List.map_cons, List.map_nil, List.pairwise_cons, List.mem_singleton, nameAt_span, leaf_span]
      simp
      omega
    · intro k hk
      simp only [List.mem_cons, List.not_mem_nil, or_false] at hk
      rcases hk with rfl | rfl
      · exact canon_nameAt h
      · exact canon_leaf (by dsimp only; omega) (by dsimp only; omega)
  · cases pre <;> rfl
  · cases pre with
    | none =>
      simp only [attributeAt, nameAt, preorderAll, preorder, Node.leaf, List.nil_append, List.append_nil, List.cons_append, List.pairwise_cons,
        List.mem_cons, List.not_mem_nil, or_false, List.mem_singleton]
      unfold Before
      refine ⟨?_, ?_, ?_, by simp⟩
      · rintro e (rfl | rfl | rfl) <;> dsimp only <;> omega
      · rintro e (rfl | rfl) <;> dsimp only <;> omega
      · rintro e rfl
        dsimp only
        omega
    | some a =>
      obtain ⟨h1, h2⟩ := h
      simp only [attributeAt, nameAt, preorderAll, preorder, Node.leaf, List.nil_append, List.append_nil, List.cons_append, List.pairwise_cons,
        List.mem_cons, List.not_mem_nil, or_false, List.mem_singleton]
      unfold Before
      refine ⟨?_, ?_, ?_, ?_, by simp⟩
      · rintro e (rfl | rfl | rfl | rfl) <;> dsimp only <;> omega
      · rintro e (rfl | rfl | rfl) <;> dsimp only <;> omega
      · rintro e (rfl | rfl) <;> dsimp only <;> omega
      · rintro e rfl
        dsimp only
        omega

theorem fromMatch_two {len p a b q : Nat} {d : String} {groups : List (Option String × List Span)}
    (hg : (groups.flatMap fun g => g.2.map fun s => (s, g.1)).Perm
      [((⟨p, q⟩ : Span), some d), (⟨a, b⟩, some "value")]) (h1 : p < a) (h2 : a ≤ b) (h3 : b ≤ q) (hq : q ≤ len) :
    Match.fromMatch len groups = .ok [.mk ⟨p, q⟩ (some d) none [.leaf ⟨a, b⟩ (some "value")]] := by
  refine C18_from_match_exact len groups _ ?_ (by simp) ?_ ?_ ?_
  · intro n hn
    rw [List.mem_singleton] at hn
    subst hn
    refine ⟨.mk (by dsimp only; omega) (by dsimp only; omega) ⟨?_, by simp⟩ (by simp) ?_,
      by show ((q : Nat) : Int) ≤ len; omega⟩
    · intro c hc
      simp only [List.map_cons, List.map_nil, List.mem_singleton, leaf_span] at hc
      subst hc; dsimp only; omega
    · intro k hk
      rw [List.mem_singleton] at hk
      subst hk
      exact canon_leaf (by dsimp only; omega) (by dsimp only; omega)
  · exact hg.symm
  · simp only [preorderAll, preorder, Node.leaf, List.nil_append, List.append_nil, List.cons_append, List.pairwise_cons,
      List.mem_cons, List.not_mem_nil, or_false, List.mem_singleton]
    refine ⟨?_, by simp⟩
    rintro e rfl
    dsimp only
    omega
  · intro s
    -- the two spans differ, so at most one of them is `s`
    have hd : ((⟨p, q⟩ : Span) == ⟨a, b⟩) = false := by
      rw [beq_eq_false_iff_ne]
      intro e
      injection e with e1 e2
      omega
    have hperm := (hg.filter (fun e => e.1 == s)).symm
    simp only [preorderAll, preorder, Node.leaf, List.nil_append, List.append_nil, List.cons_append] at hperm ⊢
    have hlen : ([((⟨p, q⟩ : Span), some d), ((⟨a, b⟩ : Span), some "value")].filter (fun e => e.1 == s)).length ≤ 1 := by
      by_cases e1 : (⟨p, q⟩ : Span) = s
      · subst e1
        have : ((⟨a, b⟩ : Span) == ⟨p, q⟩) = false := by
          rw [beq_eq_false_iff_ne]; intro e; injection e with e1 e2; omega
        simp [List.filter_cons, this]
      · have : ((⟨p, q⟩ : Span) == s) = false := by rw [beq_eq_false_iff_ne]; exact e1
        rw [List.filter_cons, this]
        simp only [Bool.false_eq_true, if_false]
        exact List.length_filter_le _ _
    generalize [((⟨p, q⟩ : Span), some d), ((⟨a, b⟩ : Span), some "value")].filter (fun e => e.1 == s) = l at hperm hlen
    match l, hlen with
    | [], _ => exact (List.nil_perm.1 hperm).symm
    | [x], _ => exact (List.singleton_perm.1 hperm).symm ▸ rfl

theorem fromMatch_pi {len i q : Nat} (h : i + 4 ≤ q) (hq : q ≤ len) :
    Match.fromMatch len (spansOf textKeys ⟨i, q, [("value", i + 2, q - 2), ("pi", i, q)]⟩) = .ok [piAt i q] :=
  fromMatch_two (List.Perm.refl _) (by omega) (by omega) (by omega) hq

theorem fromMatch_comment {len i q : Nat} (h : i + 7 ≤ q) (hq : q ≤ len) :
    Match.fromMatch len (spansOf textKeys ⟨i, q, [("value", i + 4, q - 3), ("comment", i, q)]⟩) = .ok [commentAt i q] :=
  fromMatch_two (List.Perm.swap _ _ _) (by omega) (by omega) (by omega) hq

/-! ### Extraction never raises -/

theorem fromReLoop_each {len : Nat} {keys : List String} {lo hi : Int} : ∀ (fs : List Found) (rv : List Node),
    (∀ f ∈ fs, lo ≤ f.start ∧ (f.stop : Int) ≤ hi ∧ ∃ n, Match.fromMatch len (spansOf keys f) = .ok [n] ∧
      (f.start : Int) ≤ n.start ∧ n.start < n.stop ∧ n.stop ≤ f.stop) →
    fs.Pairwise (fun f g => f.stop ≤ g.start) →
    ∃ ns, Match.fromReLoop len none rv (fs.map (spansOf keys)) = .ok (rv ++ ns) ∧ XTiles lo hi ns ∧
      ∀ n ∈ ns, ∃ f ∈ fs, Match.fromMatch len (spansOf keys f) = .ok [n]
  | [], rv, _, _ => ⟨[], by rw [List.map_nil, Match.fromReLoop, List.append_nil], XTiles.nil _ _, by simp⟩
  | f :: fs, rv, h, hp => by
    obtain ⟨h1, h2, n, h3, h4, h5, h6⟩ := h f (by simp)
    obtain ⟨p1, p2⟩ := List.pairwise_cons.1 hp
    have hfs : (f.stop : Int) ≤ hi := h2
    obtain ⟨ns, g1, g2, g3⟩ := fromReLoop_each (len := len) (keys := keys) (lo := (f.stop : Int)) (hi := hi) fs (rv ++ [n])
      (fun g hg => by
        obtain ⟨q1, q2, q3⟩ := h g (List.mem_cons_of_mem _ hg)
        exact ⟨by have := p1 g hg; omega, q2, q3⟩) p2
    refine ⟨n :: ns, ?_, ?_, ?_⟩
    · rw [List.map_cons, Match.fromReLoop, h3]
      dsimp only
      rw [g1]
      simp
    · have t1 : XTiles lo f.stop [n] := XTiles.single (by omega) h5 h6
      exact t1.append g2 (Int.le_refl _) (by omega) hfs
    · intro k hk
      rcases List.mem_cons.1 hk with rfl | hk
      · exact ⟨f, by simp, h3⟩
      · obtain ⟨g, hg, e⟩ := g3 k hk
        exact ⟨g, List.mem_cons_of_mem _ hg, e⟩

/-- A pattern each of whose matches makes one Ito within the match. -/
theorem extractRe_total {re : Re} (hr : RegexSpec.Free re) (hne : ¬ RegexSpec.Lang re []) {keys : List String}
    {x : FIto Char} {a b : Nat} (ha : x.start = a) (hb : x.stop = b) (hab : a ≤ b) (hl : b ≤ x.string.length)
    (hone : ∀ (i : Nat) (w : List Char) (st : St), st ∈ out re ⟨i, w, []⟩ → st.pos ≤ x.string.length →
      ∃ n, Match.fromMatch x.string.length (spansOf keys ⟨i, st.pos, st.caps⟩) = .ok [n] ∧
        (i : Int) ≤ n.start ∧ n.start < n.stop ∧ n.stop ≤ st.pos) :
    ∃ ns, extractRe re keys x = .ok ns ∧ XTiles x.start x.stop ns := by
  unfold extractRe Match.fromRe
  obtain ⟨h1, h2⟩ := finditer_found hr hne _ false x.start.toNat x.text
  have htl : x.text.length = b - a := by
    rw [FIto.text_eq ha hb, List.length_drop, List.length_take]
    omega
  obtain ⟨ns, g1, g2, _⟩ := fromReLoop_each (len := x.string.length) (keys := keys) (lo := x.start) (hi := x.stop)
    (finditer re x.start.toNat x.text) [] (by
      intro f hf
      obtain ⟨q1, q2, q3, u, w, st, e1, e2, e3, e4, e5⟩ := h1 f hf
      rw [ha, hb] at *
      refine ⟨by omega, by omega, ?_⟩
      obtain ⟨n, r1, r2, r3, r4⟩ := hone _ w st e3 (by omega)
      refine ⟨n, ?_, by omega, r3, by omega⟩
      rw [← r1]
      congr 2
      rw [← e2, e4, e5]) h2
  rw [g1]
  exact ⟨ns, by rw [List.nil_append], g2⟩

theorem tagRe_free : RegexSpec.Free tagRe := by
  simp [tagRe, tagG, opt, plus, RegexSpec.Free]
theorem attrRe_free : RegexSpec.Free attrRe := by
  simp [attrRe, tagG, valueG, opt, plus, RegexSpec.Free]
theorem textRe_free : RegexSpec.Free textRe := by
  simp [textRe, piG, commentG, lazyAny, lit, RegexSpec.Free]

theorem tagRe_nonempty : ¬ RegexSpec.Lang tagRe [] := by
  rintro ⟨v, w, h, ⟨c, _, rfl⟩, _⟩
  simp at h
theorem textRe_nonempty : ¬ RegexSpec.Lang textRe [] := by
  rintro (⟨v, w, h, hv, _⟩ | ⟨v, w, h, hv, _⟩) <;>
    · rw [lang_lit] at hv
      subst hv
      simp at h

/-- The tag pattern. -/
theorem tags_total {x : FIto Char} {a b : Nat} (ha : x.start = a) (hb : x.stop = b) (hab : a ≤ b)
    (hl : b ≤ x.string.length) : ∃ ns, extractRe tagRe tagKeys x = .ok ns ∧ XTiles x.start x.stop ns := by
  refine extractRe_total tagRe_free tagRe_nonempty ha hb hab hl ?_
  intro i w st hst hp
  obtain ⟨p, pre, h1, h2, h3⟩ := mem_tagRe hst
  have := h2.lt
  refine ⟨nameAt p pre st.pos, ?_, ?_, ?_, ?_⟩
  · rw [h3]; exact fromMatch_tag h2 hp
  · show (i : Int) ≤ ((p : Nat) : Int); dsimp only at h1; omega
  · show ((p : Nat) : Int) < ((st.pos : Nat) : Int); omega
  · show ((st.pos : Nat) : Int) ≤ _; omega

/-- The pattern for comments and processing instructions. -/
theorem texts_total {x : FIto Char} {a b : Nat} (ha : x.start = a) (hb : x.stop = b) (hab : a ≤ b)
    (hl : b ≤ x.string.length) : ∃ ns, extractRe textRe textKeys x = .ok ns ∧ XTiles x.start x.stop ns := by
  refine extractRe_total textRe_free textRe_nonempty ha hb hab hl ?_
  intro i w st hst hp
  rcases mem_textRe hst with ⟨h1, h2⟩ | ⟨h1, h2⟩ <;> dsimp only at h1 h2 <;> rw [h2]
  · exact ⟨_, fromMatch_pi h1 hp, Int.le_refl _, by show ((i : Nat) : Int) < ((st.pos : Nat) : Int); omega, Int.le_refl _⟩
  · exact ⟨_, fromMatch_comment h1 hp, Int.le_refl _, by show ((i : Nat) : Int) < ((st.pos : Nat) : Int); omega, Int.le_refl _⟩

theorem endKids_total {x : FIto Char} {a b : Nat} (ha : x.start = a) (hb : x.stop = b) (hab : a ≤ b)
    (hl : b ≤ x.string.length) : ∃ ns, endKids x = .ok ns := by
  obtain ⟨ns, h1, h2⟩ := tags_total ha hb hab hl
  unfold endKids
  rw [h1]
  exact ⟨_, addAll_tiles (l := []) h2⟩

theorem textKids_total {x : FIto Char} {a b : Nat} (ha : x.start = a) (hb : x.stop = b) (hab : a ≤ b)
    (hl : b ≤ x.string.length) : ∃ ns, textKids x = .ok ns := by
  obtain ⟨ns, h1, h2⟩ := texts_total ha hb hab hl
  unfold textKids
  rw [h1]
  exact ⟨_, addAll_tiles (l := []) h2⟩

end Pawpaw.Props
