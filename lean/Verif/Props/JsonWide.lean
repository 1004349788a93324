import Verif.Props.Json
import Verif.Spec.JsonWide
/-!
# C44: the JSON round trip of every tree without zero-width nodes, exactly
-/
set_option linter.unusedSectionVars false
namespace Pawpaw.Props
open TreeSpec Kids Query Json

/-- A well-formed tree without zero-width nodes. -/
inductive WW : Node → Prop
  | mk {s : Span} {d : Option String} {v : Option Nat} {ks : List Node}
      (h0 : 0 ≤ s.start) (h1 : s.start < s.stop) (hk : KidsOK s (ks.map Node.span))
      (h : ∀ k ∈ ks, WW k) : WW (.mk s d v ks)

theorem WW.lt {n : Node} (h : WW n) : n.span.start < n.span.stop := by cases h; assumption

theorem WW.wf {n : Node} (h : WW n) : WF n := by
  induction h with
  | mk h0 h1 hk _ ih => exact .mk h0 (Int.le_of_lt h1) hk ih

theorem ww_of {n : Node} (h : WF n) : AllWide (listing n) → WW n := by
  induction h with
  | @mk s d v ks h0 h1 hk _ ih =>
    intro hw
    refine .mk h0 (hw (s, d, v) (by simp [listing])) hk (fun k hm => ih k hm (fun c hc => hw c ?_))
    rw [listing]
    exact List.mem_cons_of_mem _ (listingAll_mem hm hc)

theorem placeEnd_not_into (st : List Span) (s : Span) (i k : Nat) : placeEnd st s i ≠ .into k := by
  have h : ∀ (b x y : Prop) [Decidable b] [Decidable x] [Decidable y] (j : Nat),
      (if b then Place.overlap else if x then .insert i else if y then .same i else .absorb i j) ≠ .into k := by
    intro b x y _ _ _ j
    split
    · simp
    · split
      · simp
      · split <;> simp
  exact h _ _ _ _

/-- Where an Ito goes among wide children: `L` before it, `M` inside it, `R` after it. -/
theorem place_fit {p s : Span} {L M R : List Span} (hk : KidsOK p (L ++ M ++ R))
    (hw : ∀ c ∈ L ++ M ++ R, c.start < c.stop) (hs : s.start < s.stop)
    (hL : ∀ a ∈ L, a.stop ≤ s.start) (hM : ∀ c ∈ M, s.start ≤ c.start ∧ c.stop ≤ s.stop)
    (hR : ∀ b ∈ R, s.stop ≤ b.start) :
    (M = [] ∧ place (L ++ M ++ R) s = .insert L.length) ∨
    (M = [s] ∧ place (L ++ M ++ R) s = .same L.length) ∨
    (M ≠ [] ∧ M ≠ [s] ∧ place (L ++ M ++ R) s = .absorb L.length (L ++ M).length) := by
  have hsp := place_spec hk (Int.le_of_lt hs)
  have hord := hk.ordered
  have hwL : ∀ c ∈ L, c.start < c.stop := fun c hc => hw c (by simp [hc])
  have hwM : ∀ c ∈ M, c.start < c.stop := fun c hc => hw c (by simp [hc])
  have hwR : ∀ c ∈ R, c.start < c.stop := fun c hc => hw c (by simp [hc])
  -- the elements that start before `s`
  have hcut : ∀ l' r' : List Span, L ++ M ++ R = l' ++ r' → (∀ a ∈ l', a.start < s.start) →
      (∀ b ∈ r', s.start ≤ b.start) → L = l' ∧ M ++ R = r' := by
    intro l' r' e h1 h2
    rw [List.append_assoc] at e
    refine takeWhile_append_split (fun c : Span => decide (c.start < s.start)) _ _ _ _ e ?_ ?_ ?_ ?_
    · intro a ha; have := hL a ha; have := hwL a ha; simp only [decide_eq_true_eq]; omega
    · intro a ha; have := h1 a ha; simp only [decide_eq_true_eq]; omega
    · intro b hb
      simp only [decide_eq_false_iff_not]
      rcases List.mem_append.1 hb with hb | hb
      · have := hM b hb; omega
      · have := hR b hb; omega
    · intro b hb; have := h2 b hb; simp only [decide_eq_false_iff_not]; omega
  -- a child of the same span is the only one inside
  have honly : s ∈ M → M = [s] := by
    intro hm
    obtain ⟨m1, m2, rfl⟩ := List.append_of_mem hm
    rw [List.append_assoc, List.pairwise_append] at hord
    have h2 := hord.2.1
    rw [List.append_assoc, List.pairwise_append, List.cons_append, List.pairwise_cons] at h2
    have e1 : m1 = [] := by
      cases m1 with
      | nil => rfl
      | cons a m1 =>
        have := (h2.2.2 a (by simp) s (by simp)).1
        have := (hM a (by simp)).1
        omega
    have e2 : m2 = [] := by
      cases m2 with
      | nil => rfl
      | cons a m2 =>
        have := (h2.2.1.1 a (by simp)).2
        have := (hM a (by simp)).2
        have := hwM a (by simp)
        omega
    rw [e1, e2]; rfl
  have hnotL : s ∉ L := fun h => by have := hL s h; omega
  have hnotR : s ∉ R := fun h => by have := hR s h; omega
  cases hp : place (L ++ M ++ R) s with
  | into k =>
    exfalso
    rw [hp] at hsp
    obtain ⟨l', c, r', e, rfl, h1, h2, h3⟩ := hsp
    have hc : c ∈ L ++ M ++ R := by rw [e]; simp
    have hcM : c ∈ M := by
      rw [List.mem_append, List.mem_append] at hc
      rcases hc with (hc | hc) | hc
      · have := hL c hc; omega
      · exact hc
      · have := hR c hc; omega
    have hcs : c = s := by
      have := hM c hcM
      obtain ⟨c1, c2⟩ := c
      obtain ⟨s1, s2⟩ := s
      dsimp only at *
      have e1 : c1 = s1 := by omega
      have e2 : c2 = s2 := by omega
      rw [e1, e2]
    subst hcs
    have hl' : L = l' ∧ M ++ R = c :: r' := hcut l' (c :: r') e h3 (by
      intro b hb
      rcases List.mem_cons.1 hb with rfl | hb
      · omega
      · rw [e, List.pairwise_append, List.pairwise_cons] at hord
        have := (hord.2.1.1 b hb).1
        omega)
    obtain ⟨rfl, -⟩ := hl'
    rw [e] at hp
    have hb := bfindStart_present (s := c) (l := L) (r := r') (by rw [← e]; exact hk.sortedStart) h3 rfl
    unfold place at hp
    rw [hb] at hp
    have hge : (L.length : Int) ≥ 0 := by omega
    simp only [hge, if_true, Int.toNat_natCast] at hp
    rw [List.getElem?_append_right (Nat.le_refl _), Nat.sub_self] at hp
    simp only [List.getElem?_cons_zero, Int.lt_irrefl, if_false] at hp
    exact placeEnd_not_into _ _ _ _ hp
  | insert i =>
    rw [hp] at hsp
    obtain ⟨l', r', e, rfl, h1, h2⟩ := hsp
    obtain ⟨rfl, e2⟩ := hcut l' r' e (fun a ha => (h1 a ha).1) (fun b hb => Int.le_of_lt (h2 b hb).1)
    have : M = [] := by
      cases M with
      | nil => rfl
      | cons c M =>
        have := (h2 c (by rw [← e2]; simp)).2
        have := hM c (by simp)
        have := hwM c (by simp)
        omega
    exact Or.inl ⟨this, rfl⟩
  | same k =>
    rw [hp] at hsp
    obtain ⟨l', r', e, rfl⟩ := hsp
    have hm : s ∈ M := by
      have : s ∈ L ++ M ++ R := by rw [e]; simp
      rw [List.mem_append, List.mem_append] at this
      rcases this with (h | h) | h
      · exact absurd h hnotL
      · exact h
      · exact absurd h hnotR
    rw [e, List.pairwise_append, List.pairwise_cons] at hord
    obtain ⟨rfl, -⟩ := hcut l' (s :: r') e (fun a ha => (hord.2.2 a ha s (by simp)).1) (by
      intro b hb
      rcases List.mem_cons.1 hb with rfl | hb
      · omega
      · have := (hord.2.1.1 b hb).1; omega)
    exact Or.inr (Or.inl ⟨honly hm, rfl⟩)
  | absorb i j =>
    rw [hp] at hsp
    obtain ⟨l', m', r', e, rfl, rfl, hne, hns, h1, h2, h3⟩ := hsp
    rw [List.append_assoc l'] at e
    obtain ⟨rfl, e2⟩ := hcut l' (m' ++ r') e (fun a ha => (h1 a ha).1) (by
      intro b hb
      rcases List.mem_append.1 hb with hb | hb
      · exact (h2 b hb).1
      · exact Int.le_of_lt (h3 b hb).1)
    have hwr' : ∀ b ∈ r', b.start < b.stop := fun b hb => hw b (by rw [e]; simp [hb])
    obtain ⟨rfl, -⟩ := takeWhile_append_split (fun c : Span => decide (c.stop ≤ s.stop)) M R m' r' e2
      (by intro a ha; have := hM a ha; simp only [decide_eq_true_eq]; omega)
      (by intro a ha; have := h2 a ha; simp only [decide_eq_true_eq]; omega)
      (by intro a ha; have := hR a ha; have := hwR a ha; simp only [decide_eq_false_iff_not]; omega)
      (by intro a ha; have := h3 a ha; have := hwr' a ha; simp only [decide_eq_false_iff_not]; omega)
    exact Or.inr (Or.inr ⟨hne, hns, rfl⟩)
  | overlap =>
    exfalso
    rw [hp] at hsp
    obtain ⟨c, hc, hn⟩ := hsp
    apply hn
    unfold Laminar
    rw [List.mem_append, List.mem_append] at hc
    rcases hc with (hc | hc) | hc
    · exact Or.inl (hL c hc)
    · have := hM c hc; omega
    · exact Or.inr (Or.inl (hR c hc))

/-- A childless node added among the descendants `ks` of a node of its span: it goes below those of its own span. -/
def sink (s : Span) (d : Option String) (v : Option Nat) : List Node → Node
  | [.mk s' d' v' ks'] => if s' = s then .mk s' d' v' [sink s d v ks'] else .mk s d v [.mk s' d' v' ks']
  | ks => .mk s d v ks
termination_by ks => sizeOf ks
decreasing_by simp; omega

theorem sink_other (s : Span) (d : Option String) (v : Option Nat) (ks : List Node) (h : ks.map Node.span ≠ [s]) :
    sink s d v ks = .mk s d v ks := by
  unfold sink
  split
  · rename_i s' d' v' ks'
    rw [if_neg]
    rintro rfl
    exact h rfl
  · rfl

theorem sink_same (s : Span) (d d' : Option String) (v v' : Option Nat) (ks : List Node) :
    sink s d v [.mk s d' v' ks] = .mk s d' v' [sink s d v ks] := by
  rw [sink, if_pos rfl]

theorem sink_span (s : Span) (d : Option String) (v : Option Nat) (ks : List Node) : (sink s d v ks).span = s := by
  unfold sink
  split
  · split
    · assumption
    · rfl
  · rfl

theorem sink_ww {s : Span} (d : Option String) (v : Option Nat) (h0 : 0 ≤ s.start) (h1 : s.start < s.stop) :
    ∀ (n : Nat) (ks : List Node), sizeOf ks ≤ n → KidsOK s (ks.map Node.span) → (∀ k ∈ ks, WW k) →
      WW (sink s d v ks)
  | 0, ks, hn, _, _ => by cases ks <;> simp at hn
  | n + 1, ks, hn, hk, hw => by
    by_cases h : ks.map Node.span = [s]
    · obtain ⟨k, rfl⟩ : ∃ k, ks = [k] := by
        cases ks with
        | nil => cases h
        | cons k ks => cases ks with
          | nil => exact ⟨k, rfl⟩
          | cons k' ks => simp at h
      obtain ⟨s', d', v', ks'⟩ := k
      simp only [List.map_cons, Node.span, List.map_nil, List.cons.injEq, and_true] at h
      subst h
      rw [sink_same]
      have hkw := hw _ (List.mem_singleton.2 rfl)
      cases hkw with
      | mk _ _ hk' hw' =>
        have ih := sink_ww d v h0 h1 n ks' (by simp at hn; omega) hk' hw'
        refine .mk h0 h1 ?_ (by intro k hm; rw [List.mem_singleton] at hm; rw [hm]; exact ih)
        rw [List.map_singleton, sink_span]
        exact ⟨by intro c hc; rw [List.mem_singleton] at hc; subst hc; omega, by simp⟩
    · rw [sink_other _ _ _ _ h]
      exact .mk h0 h1 hk hw

theorem hierAt_among (key : Key) (s : Span) (d : Option String) (v : Option Nat) (k : Node) (R : List Node)
    (ks' : List Node) (h : hierNode key s d v k = .ok ks') : ∀ L : List Node,
    hierAt key s d v (L ++ k :: R) L.length = .ok (L ++ .mk k.span k.desc k.vf ks' :: R)
  | [] => by rw [List.nil_append, List.length_nil, hierAt, h]; rfl
  | a :: L => by
    rw [List.cons_append, List.length_cons, hierAt, hierAt_among key s d v k R ks' h L]
    rfl

/-- A childless node added without key: the nodes inside its span become its children, but a node of its own span
its ancestor. -/
theorem hierNode_fit {s : Span} (d : Option String) (v : Option Nat) (h0 : 0 ≤ s.start) (h1 : s.start < s.stop) :
    ∀ (n : Nat) (M : List Node), sizeOf M ≤ n → ∀ (p : Span) (d0 : Option String) (v0 : Option Nat) (L R : List Node),
      KidsOK p ((L ++ M ++ R).map Node.span) → (∀ k ∈ L ++ M ++ R, WW k) → Inside p s →
      (∀ a ∈ L, a.span.stop ≤ s.start) → (∀ c ∈ M, s.start ≤ c.span.start ∧ c.span.stop ≤ s.stop) →
      (∀ b ∈ R, s.stop ≤ b.span.start) →
      hierNode none s d v (.mk p d0 v0 (L ++ M ++ R)) = .ok (L ++ sink s d v M :: R)
  | 0, M, hn => by cases M <;> simp at hn
  | n + 1, M, hn => by
    intro p d0 v0 L R hk hw hin hL hM hR
    have hno : outside p s = false := by
      cases h : outside p s with
      | false => rfl
      | true => exact absurd hin (outside_iff.1 h)
    rw [hierNode]
    by_cases he : L ++ M ++ R = []
    · rw [if_pos he, hno]
      simp only [List.append_eq_nil_iff] at he
      obtain ⟨⟨rfl, rfl⟩, rfl⟩ := he
      rw [sink_other _ _ _ _ (by simp)]
      rfl
    · rw [if_neg he]
      have hk' := hk
      rw [List.map_append, List.map_append] at hk'
      have hpl := place_fit (s := s) hk'
        (by
          intro c hc
          rw [← List.map_append, ← List.map_append] at hc
          obtain ⟨k, hm, rfl⟩ := List.mem_map.1 hc
          exact (hw k hm).lt) h1
        (by intro a ha; obtain ⟨k, hm, rfl⟩ := List.mem_map.1 ha; exact hL k hm)
        (by intro a ha; obtain ⟨k, hm, rfl⟩ := List.mem_map.1 ha; exact hM k hm)
        (by intro a ha; obtain ⟨k, hm, rfl⟩ := List.mem_map.1 ha; exact hR k hm)
      rw [← List.map_append, ← List.map_append, List.length_map, List.length_map] at hpl
      rcases hpl with ⟨hm, hp⟩ | ⟨hm, hp⟩ | ⟨hm1, hm2, hp⟩
      · rw [hp]
        rw [List.map_eq_nil_iff] at hm
        subst hm
        dsimp only
        rw [List.append_nil, insertIdx_append, sink_other _ _ _ _ (by simp)]
        simp only [hno, Bool.false_eq_true, if_false]
      · rw [hp]
        obtain ⟨k, rfl⟩ : ∃ k, M = [k] := by
          cases M with
          | nil => cases hm
          | cons k ks => cases ks with
            | nil => exact ⟨k, rfl⟩
            | cons k' ks => simp at hm
        obtain ⟨s', d', v', ks'⟩ := k
        simp only [List.map_cons, Node.span, List.map_nil, List.cons.injEq, and_true] at hm
        subst hm
        have hkw := hw (.mk s' d' v' ks') (by simp)
        cases hkw with
        | mk _ _ hk2 hw2 =>
          have ih := hierNode_fit d v h0 h1 n ks' (by simp at hn; omega) s' d' v' [] []
            (by simpa using hk2) (by simpa using hw2) ⟨Int.le_refl _, Int.le_refl _⟩ (by simp)
            (by
              intro c hc
              have := hk2.inside c.span (List.mem_map.2 ⟨c, hc, rfl⟩)
              exact ⟨this.1, this.2.2⟩) (by simp)
          rw [List.nil_append, List.append_nil, List.nil_append] at ih
          rw [List.append_assoc, List.singleton_append]
          have := hierAt_among none s' d v (.mk s' d' v' ks') R _ ih L
          dsimp only
          rw [getElem?_mid]
          simp only [Key.goesUnder, if_true]
          rw [this, sink_same]
          rfl
      · rw [hp]
        rw [sink_other _ _ _ _ hm2]
        have hf : ForestOK p (L ++ M ++ R) := ⟨hk, fun k hm => (hw k hm).wf⟩
        rcases absorb_ok (d := d) (v := v) hf h0 (Int.le_of_lt h1)
          (fun a ha => by
            have := hL a ha
            have := (hw a (by simp [ha])).lt
            simp only [Node.start, Node.stop]
            omega)
          hM
          (fun b hb => by
            have := hR b hb
            simp only [Node.start]
            omega) with ⟨_, h⟩ | ⟨h, _⟩
        · exact absurd hin h
        · exact h

mutual
/-- Every tower of nodes of one span turned inside out. -/
def twist : Node → Node
  | .mk s d v ks => sink s d v (twistAll ks)
def twistAll : List Node → List Node
  | [] => []
  | k :: ks => twist k :: twistAll ks
end

theorem twist_span (n : Node) : (twist n).span = n.span := by
  obtain ⟨s, d, v, ks⟩ := n
  rw [twist, sink_span]; rfl

theorem twistAll_map (ks : List Node) : twistAll ks = ks.map twist := by
  induction ks with
  | nil => rfl
  | cons k ks ih => simp [twistAll, ih]

theorem twistAll_spans (ks : List Node) : (twistAll ks).map Node.span = ks.map Node.span := by
  rw [twistAll_map, List.map_map]
  exact List.map_congr_left (fun k _ => twist_span k)

theorem twist_ww {n : Node} (h : WW n) : WW (twist n) := by
  induction h with
  | mk h0 h1 hk _ ih =>
    rw [twist]
    refine sink_ww _ _ h0 h1 _ _ (Nat.le_refl _) (by rw [twistAll_spans]; exact hk) ?_
    rw [twistAll_map]
    intro k hm
    obtain ⟨k', hk', rfl⟩ := List.mem_map.1 hm
    exact ih k' hk'

/-- The children of a node in its place. -/
theorem kidsOK_open {p s : Span} {L M R : List Span} (h : KidsOK p (L ++ s :: R)) (hm : KidsOK s M)
    (hw : ∀ c ∈ M, c.start < c.stop) : KidsOK p (L ++ M ++ R) := by
  have hs := h.inside s (by simp)
  have hord := h.ordered
  rw [List.pairwise_append, List.pairwise_cons] at hord
  constructor
  · intro c hc
    rw [List.mem_append, List.mem_append] at hc
    rcases hc with (hc | hc) | hc
    · exact h.inside c (by simp [hc])
    · have := hm.inside c hc; omega
    · exact h.inside c (by simp [hc])
  · rw [List.append_assoc, List.pairwise_append, List.pairwise_append]
    refine ⟨hord.1, ⟨hm.ordered, hord.2.1.2, ?_⟩, ?_⟩
    · intro a ha b hb
      have := hm.inside a ha
      have := hord.2.1.1 b hb
      have := hw a ha
      omega
    · intro a ha b hb
      have ha1 := h.inside a (by simp [ha])
      rcases List.mem_append.1 hb with hb | hb
      · have h1 := hord.2.2 a ha s (by simp)
        have h2 := hm.inside b hb
        omega
      · exact hord.2.2 a ha b (by simp [hb])

mutual
/-- A tree added among other children (some) without key: between those before it and those after it, every tower
of nodes of one span turned inside out. -/
theorem hier_fit : ∀ (c : Node), WW c → ∀ (p : Span) (L R : List Node), L ++ R ≠ [] →
    KidsOK p ((L ++ c :: R).map Node.span) → (∀ k ∈ L ++ R, WW k) →
    hier none p (L ++ R) c = .ok (L ++ twist c :: R)
  | .mk s d v ks, hc, p, L, R, hne, hk, hw => by
    cases hc with
    | mk h0 h1 hks hkw =>
      rw [List.map_append, List.map_cons] at hk
      have hin := hk.inside s (by simp [Node.span])
      have hord := hk.ordered
      rw [List.pairwise_append, List.pairwise_cons] at hord
      have hop : KidsOK p ((L ++ ks ++ R).map Node.span) := by
        rw [List.map_append, List.map_append]
        refine kidsOK_open hk hks ?_
        intro c hc
        obtain ⟨k, hm, rfl⟩ := List.mem_map.1 hc
        exact (hkw k hm).lt
      rw [hier, if_neg hne, hierRev_fit ks hkw p L R hne hop hw]
      dsimp only
      rw [hier1, twist]
      refine hierNode_fit d v h0 h1 _ _ (Nat.le_refl _) p none none L R ?_ ?_ ⟨hin.1, hin.2.2⟩ ?_ ?_ ?_
      · rw [List.map_append, List.map_append, twistAll_spans, ← List.map_append, ← List.map_append]
        exact hop
      · intro k hm
        rw [List.mem_append, List.mem_append] at hm
        rcases hm with (hm | hm) | hm
        · exact hw k (by simp [hm])
        · rw [twistAll_map] at hm
          obtain ⟨k', hk', rfl⟩ := List.mem_map.1 hm
          exact twist_ww (hkw k' hk')
        · exact hw k (by simp [hm])
      · intro a ha
        exact (hord.2.2 a.span (List.mem_map.2 ⟨a, ha, rfl⟩) s (by simp [Node.span])).2
      · intro c hc
        rw [twistAll_map] at hc
        obtain ⟨k', hk', rfl⟩ := List.mem_map.1 hc
        rw [twist_span]
        have := hks.inside k'.span (List.mem_map.2 ⟨k', hk', rfl⟩)
        exact ⟨this.1, this.2.2⟩
      · intro b hb
        exact (hord.2.1.1 b.span (List.mem_map.2 ⟨b, hb, rfl⟩)).2
theorem hierRev_fit : ∀ (ks : List Node), (∀ k ∈ ks, WW k) → ∀ (p : Span) (L R : List Node), L ++ R ≠ [] →
    KidsOK p ((L ++ ks ++ R).map Node.span) → (∀ k ∈ L ++ R, WW k) →
    hierRev none p (L ++ R) ks = .ok (L ++ twistAll ks ++ R)
  | [], _, p, L, R, hne, hk, hw => by rw [hierRev, twistAll, List.append_nil]
  | k :: ks, hkw, p, L, R, hne, hk, hw => by
    have hk2 : KidsOK p ((L ++ ks ++ R).map Node.span) := by
      refine ⟨fun c hc => hk.inside c ?_, hk.ordered.sublist ?_⟩
      · simp only [List.map_append, List.map_cons, List.mem_append, List.mem_cons] at hc ⊢
        rcases hc with (hc | hc) | hc
        · exact Or.inl (Or.inl hc)
        · exact Or.inl (Or.inr (Or.inr hc))
        · exact Or.inr hc
      · refine List.Sublist.map _ ?_
        exact List.Sublist.append (List.Sublist.append (List.Sublist.refl _) (List.sublist_cons_self _ _))
          (List.Sublist.refl _)
    rw [hierRev, hierRev_fit ks (fun k' h => hkw k' (by simp [h])) p L R hne hk2 hw]
    dsimp only
    rw [List.append_assoc, hier_fit k (hkw k (by simp)) p L (twistAll ks ++ R)]
    · rw [twistAll]; simp
    · intro h
      apply hne
      simp only [List.append_eq_nil_iff] at h ⊢
      exact ⟨h.1, h.2.2⟩
    · simp only [List.map_append, List.map_cons, twistAll_spans, List.append_assoc, List.cons_append] at hk ⊢
      exact hk
    · intro k' hm
      rw [List.mem_append, List.mem_append] at hm
      rcases hm with hm | hm | hm
      · exact hw k' (by simp [hm])
      · rw [twistAll_map] at hm
        obtain ⟨k2, hk', rfl⟩ := List.mem_map.1 hm
        exact twist_ww (hkw k2 (by simp [hk']))
      · exact hw k' (by simp [hm])
end

/-- The children of a node added one after the other to an empty store: the first stays as it is. -/
theorem hierAll_fit {p : Span} : ∀ (ks L : List Node), L ≠ [] → (∀ k ∈ L ++ ks, WW k) →
    KidsOK p ((L ++ ks).map Node.span) → hierAll none p L ks = .ok (L ++ twistAll ks)
  | [], L, _, _, _ => by rw [hierAll, twistAll, List.append_nil]
  | k :: ks, L, hne, hw, hk => by
    have hk1 : KidsOK p ((L ++ [k]).map Node.span) := by
      refine ⟨fun c hc => hk.inside c ?_, hk.ordered.sublist ?_⟩
      · simp only [List.map_append, List.map_cons, List.mem_append, List.mem_cons, List.map_nil,
          List.not_mem_nil, or_false] at hc ⊢
        rcases hc with hc | hc
        · exact Or.inl hc
        · exact Or.inr (Or.inl hc)
      · refine List.Sublist.map _ (List.Sublist.append (List.Sublist.refl _) ?_)
        simp
    have h1 := hier_fit k (hw k (by simp)) p L [] (by simpa using hne) hk1
      (fun k' hm => hw k' (by simp at hm; simp [hm]))
    rw [List.append_nil] at h1
    rw [hierAll, h1]
    dsimp only
    rw [hierAll_fit ks (L ++ [twist k]) (by simp)]
    · rw [twistAll]; simp
    · intro k' hm
      simp only [List.mem_append, List.mem_singleton] at hm
      rcases hm with (hm | hm) | hm
      · exact hw k' (by simp [hm])
      · rw [hm]; exact twist_ww (hw k (by simp))
      · exact hw k' (by simp [hm])
    · simp only [List.map_append, List.map_cons, twist_span, List.append_assoc, List.map_nil, List.singleton_append] at hk ⊢
      exact hk

/-- … and the others are turned. -/
def refit : List Node → List Node
  | [] => []
  | k :: ks => k :: twistAll ks

theorem hierAll_refit {p : Span} (ks : List Node) (hw : ∀ k ∈ ks, WW k) (hk : KidsOK p (ks.map Node.span)) :
    hierAll none p [] ks = .ok (refit ks) := by
  cases ks with
  | nil => rfl
  | cons k ks =>
    have hin := hk.inside k.span (by simp)
    have hno : outside p k.span = false := by
      cases h : outside p k.span with
      | false => rfl
      | true => exact absurd ⟨hin.1, hin.2.2⟩ (outside_iff.1 h)
    have h1 : hier none p [] k = .ok [k] := by
      obtain ⟨s, d, v, ks'⟩ := k
      rw [hier, if_pos rfl]
      simp only [Node.span] at hno
      rw [hno]
      rfl
    rw [hierAll, h1]
    dsimp only
    rw [hierAll_fit ks [k] (by simp) (by simpa using hw) (by simpa using hk)]
    rfl

/-! ### What is decoded -/

mutual
/-- What decoding makes of a tree. -/
def again : Node → Node
  | .mk s d _ ks => .mk s d none (refit (againAll ks))
def againAll : List Node → List Node
  | [] => []
  | k :: ks => again k :: againAll ks
end

theorem again_span (n : Node) : (again n).span = n.span := by cases n; rfl

theorem againAll_map (ks : List Node) : againAll ks = ks.map again := by
  induction ks with
  | nil => rfl
  | cons k ks ih => simp [againAll, ih]

theorem againAll_spans (ks : List Node) : (againAll ks).map Node.span = ks.map Node.span := by
  rw [againAll_map, List.map_map]
  exact List.map_congr_left (fun k _ => again_span k)

theorem refit_spans (ks : List Node) : (refit ks).map Node.span = ks.map Node.span := by
  cases ks with
  | nil => rfl
  | cons k ks => simp [refit, twistAll_spans]

theorem refit_ww (ks : List Node) (h : ∀ k ∈ ks, WW k) : ∀ k ∈ refit ks, WW k := by
  cases ks with
  | nil => exact h
  | cons k ks =>
    intro k' hm
    rw [refit, List.mem_cons] at hm
    rcases hm with rfl | hm
    · exact h _ (by simp)
    · rw [twistAll_map] at hm
      obtain ⟨k2, hk', rfl⟩ := List.mem_map.1 hm
      exact twist_ww (h k2 (by simp [hk']))

theorem again_ww {n : Node} (h : WW n) : WW (again n) := by
  induction h with
  | mk h0 h1 hk _ ih =>
    rw [again]
    refine .mk h0 h1 (by rw [refit_spans, againAll_spans]; exact hk) (refit_ww _ ?_)
    rw [againAll_map]
    intro k hm
    obtain ⟨k', hk', rfl⟩ := List.mem_map.1 hm
    exact ih k' hk'

theorem decodeItos_of (len : Nat) (f : Node → Node) (ks : List Node)
    (h : ∀ k ∈ ks, decodeIto len (itoDoc k) = .ok (f k)) : decodeItos len (itoDocs ks) = .ok (ks.map f) := by
  induction ks with
  | nil => rfl
  | cons k ks ih =>
    rw [itoDocs, decodeItos, h k (by simp), ih (fun k' hk' => h k' (by simp [hk']))]
    rfl

theorem decodeIto_wide (len : Nat) {n : Node} (h : WW n) : n.stop ≤ len → decodeIto len (itoDoc n) = .ok (again n) := by
  induction h with
  | @mk s d v ks h0 h1 hk hwf ih =>
    intro hl
    have hks := decodeItos_of len again ks (fun k hm => ih k hm (by
      have hin := hk.inside k.span (List.mem_map.mpr ⟨k, hm, rfl⟩)
      simp only [Node.stop, Node.span] at hl hin ⊢
      omega))
    rw [itoDoc, decodeIto, hks, fromIndices_span h0 (Int.le_of_lt h1) hl]
    dsimp only
    rw [show (⟨s.start, s.stop⟩ : Span) = s from rfl, ← againAll_map, hierAll_refit]
    · rfl
    · rw [againAll_map]
      intro k hm
      obtain ⟨k', hk', rfl⟩ := List.mem_map.1 hm
      exact again_ww (hwf k' hk')
    · rw [againAll_spans]; exact hk

/-! ### Towers -/

/-- Nodes of span `s` nested in one another, with these descs, `ks` in the innermost. -/
def tower (s : Span) : Option String → List (Option String) → List Node → Node
  | d, [], ks => .mk s d none ks
  | d, e :: ds, ks => .mk s d none [tower s e ds ks]

theorem tower_span (s : Span) (d : Option String) (ds : List (Option String)) (ks : List Node) :
    (tower s d ds ks).span = s := by cases ds <;> rfl

theorem towerDescs_tower (s : Span) (ks : List Node) (h : ks.map Node.span ≠ [s]) :
    ∀ (ds : List (Option String)) (d : Option String), towerDescs (tower s d ds ks) = d :: ds
  | [], d => by
    rw [tower]
    unfold towerDescs
    split
    · rename_i k e
      cases e
      rw [if_neg]
      intro hh
      apply h
      simp [hh]
    · rename_i e
      cases e
      rfl
  | e :: ds, d => by
    rw [tower, towerDescs, if_pos (tower_span ..), towerDescs_tower s ks h ds e]

theorem tower_inj (s : Span) (ks ks' : List Node) : ∀ (ds ds' : List (Option String)) (d d' : Option String),
    ds.length = ds'.length → (tower s d ds ks = tower s d' ds' ks' ↔ (d :: ds = d' :: ds' ∧ ks = ks'))
  | [], [], d, d', _ => by simp [tower]
  | [], _ :: _, _, _, h => by simp at h
  | _ :: _, [], _, _, h => by simp at h
  | e :: ds, e' :: ds', d, d', h => by
    have ih := tower_inj s ks ks' ds ds' e e' (by simpa using h)
    simp only [tower, Node.mk.injEq, true_and, List.cons.injEq, and_true] at ih ⊢
    rw [ih]
    constructor
    · rintro ⟨rfl, ⟨rfl, rfl⟩, rfl⟩; exact ⟨⟨rfl, rfl, rfl⟩, rfl⟩
    · rintro ⟨⟨rfl, rfl, rfl⟩, rfl⟩; exact ⟨rfl, ⟨rfl, rfl⟩, rfl⟩

/-- Induction on wide trees without values, a tower at a time. -/
theorem tower_induct {P : Node → Prop}
    (step : ∀ (s : Span) (d : Option String) (ds : List (Option String)) (ks : List Node), s.start < s.stop →
      ks.map Node.span ≠ [s] → KidsOK s (ks.map Node.span) → (∀ k ∈ ks, WW k ∧ bare k = k ∧ P k) →
      P (tower s d ds ks)) : ∀ {n : Node}, WW n → bare n = n → P n := by
  have key : ∀ {n : Node}, WW n → bare n = n → ∃ (d : Option String) (ds : List (Option String)) (ks : List Node),
      n = tower n.span d ds ks ∧ ks.map Node.span ≠ [n.span] ∧ KidsOK n.span (ks.map Node.span) ∧
        (∀ k ∈ ks, WW k ∧ bare k = k ∧ P k) := by
    intro n hw
    induction hw with
    | @mk s d v ks h0 h1 hk hkw ih =>
      intro hb
      rw [bare] at hb
      simp only [Node.mk.injEq, true_and] at hb
      obtain ⟨rfl, hb⟩ := hb
      rw [bareAll_map] at hb
      have hbk : ∀ k ∈ ks, bare k = k := by
        intro k hm
        obtain ⟨i, hi, rfl⟩ := List.getElem_of_mem hm
        have := congrArg (·[i]?) hb
        simp only [List.getElem?_map, List.getElem?_eq_getElem hi, Option.map_some, Option.some.injEq] at this
        exact this
      by_cases h : ks.map Node.span = [s]
      · obtain ⟨k, rfl⟩ : ∃ k, ks = [k] := by
          cases ks with
          | nil => cases h
          | cons k ks => cases ks with
            | nil => exact ⟨k, rfl⟩
            | cons k' ks => simp at h
        obtain ⟨d', ds', ks', e, h2, h3, h4⟩ := ih k (by simp) (hbk k (by simp))
        simp only [List.map_cons, List.map_nil, List.cons.injEq, and_true] at h
        rw [h] at e h2 h3
        refine ⟨d, d' :: ds', ks', ?_, h2, h3, h4⟩
        rw [e]; rfl
      · refine ⟨d, [], ks, rfl, h, hk, ?_⟩
        intro k hm
        refine ⟨hkw k hm, hbk k hm, ?_⟩
        obtain ⟨d', ds', ks', e, h2, h3, h4⟩ := ih k hm (hbk k hm)
        rw [e]
        exact step _ _ _ _ (hkw k hm).lt h2 h3 h4
  intro n hw hb
  obtain ⟨d', ds', ks', e, h2, h3, h4⟩ := key hw hb
  rw [e]
  exact step _ _ _ _ hw.lt h2 h3 h4

theorem sink_tower (s : Span) (d : Option String) (ks : List Node) (h : ks.map Node.span ≠ [s]) :
    ∀ (ds : List (Option String)) (e : Option String),
      sink s d none [tower s e ds ks] = tower s e (ds ++ [d]) ks
  | [], e => by rw [tower, sink_same, sink_other _ _ _ _ h]; rfl
  | e' :: ds, e => by rw [tower, sink_same, sink_tower s d ks h ds e']; rfl

/-- Like `tower`, for a list that is not empty. -/
def towerL (s : Span) : List (Option String) → List Node → Node
  | [], ks => .mk s none none ks
  | d :: ds, ks => tower s d ds ks

theorem twist_tower (s : Span) (ks : List Node) (h : ks.map Node.span ≠ [s]) :
    ∀ (ds : List (Option String)) (d : Option String),
      twist (tower s d ds ks) = towerL s (d :: ds).reverse (twistAll ks)
  | [], d => by rw [tower, twist, sink_other _ _ _ _ (by rw [twistAll_spans]; exact h)]; rfl
  | e :: ds, d => by
    rw [tower, twist, twistAll, twistAll, twist_tower s ks h ds e, List.reverse_cons (a := d)]
    cases hr : (e :: ds).reverse with
    | nil => simp at hr
    | cons a l =>
      rw [towerL, sink_tower _ _ _ (by rw [twistAll_spans]; exact h)]
      rfl

theorem again_tower (s : Span) (ks : List Node) :
    ∀ (ds : List (Option String)) (d : Option String),
      again (tower s d ds ks) = tower s d ds (refit (againAll ks))
  | [], d => rfl
  | e :: ds, d => by
    rw [tower, again, againAll, againAll, again_tower s ks ds e, refit, twistAll]
    rfl

theorem map_eq_self {f : Node → Node} {ks : List Node} (h : ∀ k ∈ ks, f k = k) : ks.map f = ks := by
  conv => rhs; rw [← List.map_id ks]
  exact List.map_congr_left h

theorem towerL_rev (s : Span) (ds : List (Option String)) (hne : ds ≠ []) (ks : List Node)
    (h : ks.map Node.span ≠ [s]) : twist (towerL s ds ks) = towerL s ds.reverse (twistAll ks) := by
  cases ds with
  | nil => exact absurd rfl hne
  | cons d ds => exact twist_tower s ks h ds d

/-- Turned twice, as before. -/
theorem twist_twist {n : Node} (hw : WW n) (hb : bare n = n) : twist (twist n) = n := by
  refine tower_induct (P := fun n => twist (twist n) = n) ?_ hw hb
  intro s d ds ks _ h _ hks
  rw [twist_tower s ks h, towerL_rev _ _ (by simp) _ (by rw [twistAll_spans]; exact h), List.reverse_reverse,
    twistAll_map, twistAll_map, List.map_map, map_eq_self]
  · rfl
  · intro k hm
    exact (hks k hm).2.2

mutual
theorem again_bare : ∀ n : Node, again (bare n) = again n
  | .mk s d v ks => by rw [bare, again, again, againAll_bare ks]
theorem againAll_bare : ∀ ks : List Node, againAll (bareAll ks) = againAll ks
  | [] => rfl
  | k :: ks => by rw [bareAll, againAll, againAll, again_bare k, againAll_bare ks]
end

mutual
theorem bare_bare : ∀ n : Node, bare (bare n) = bare n
  | .mk s d v ks => by rw [bare, bare, bareAll_bare ks]
theorem bareAll_bare : ∀ ks : List Node, bareAll (bareAll ks) = bareAll ks
  | [] => rfl
  | k :: ks => by rw [bareAll, bareAll, bare_bare k, bareAll_bare ks]
end

theorem towerL_inj (s : Span) (ks ks' : List Node) (ds ds' : List (Option String)) (h : ds.length = ds'.length)
    (hne : ds ≠ []) : towerL s ds ks = towerL s ds' ks' ↔ (ds = ds' ∧ ks = ks') := by
  cases ds with
  | nil => exact absurd rfl hne
  | cons d ds =>
    cases ds' with
    | nil => simp at h
    | cons d' ds' => exact tower_inj s ks ks' ds ds' d d' (by simpa using h)

theorem map_eq_self_iff {f : Node → Node} {ks : List Node} : ks.map f = ks ↔ ∀ k ∈ ks, f k = k := by
  constructor
  · intro hb k hm
    obtain ⟨i, hi, rfl⟩ := List.getElem_of_mem hm
    have := congrArg (·[i]?) hb
    simp only [List.getElem?_map, List.getElem?_eq_getElem hi, Option.map_some, Option.some.injEq] at this
    exact this
  · exact map_eq_self

theorem bare_tower (s : Span) (ks : List Node) : ∀ (ds : List (Option String)) (d : Option String),
    bare (tower s d ds ks) = tower s d ds (bareAll ks)
  | [], d => rfl
  | e :: ds, d => by rw [tower, bare, bareAll, bareAll, bare_tower s ks ds e]; rfl

theorem bare_twist {n : Node} (hw : WW n) (hb : bare n = n) : bare (twist n) = twist n := by
  refine tower_induct (P := fun n => bare (twist n) = twist n) ?_ hw hb
  intro s d ds ks _ h _ hks
  rw [twist_tower s ks h]
  have e : bareAll (twistAll ks) = twistAll ks := by
    rw [bareAll_map, map_eq_self]
    rw [twistAll_map]
    intro k hm
    obtain ⟨k', hk', rfl⟩ := List.mem_map.1 hm
    exact (hks k' hk').2.2
  cases hr : (d :: ds).reverse with
  | nil => simp at hr
  | cons a l => rw [towerL, bare_tower, e]

theorem bare_again {n : Node} (hw : WW n) : bare (again n) = again n := by
  induction hw with
  | @mk s d v ks h0 h1 hk hkw ih =>
    rw [again, bare, bareAll_map, map_eq_self]
    cases ks with
    | nil => simp [againAll, refit]
    | cons k ks =>
      intro k' hm
      rw [againAll, refit, List.mem_cons, twistAll_map, againAll_map] at hm
      rcases hm with rfl | hm
      · exact ih k (by simp)
      · obtain ⟨k2, hk2, rfl⟩ := List.mem_map.1 hm
        obtain ⟨k3, hk3, rfl⟩ := List.mem_map.1 hk2
        exact bare_twist (again_ww (hkw k3 (by simp [hk3]))) (ih k3 (by simp [hk3]))

/-! ### Where it is the tree itself -/

/-- `Mirrored`, `b` turns having been made already. -/
def MirroredAt (b : Nat) (t : Node) : Prop :=
  ∀ q n, t.get? q = some n → Outermost t q → (turns q + b) % 2 = 1 → (towerDescs n).reverse = towerDescs n

/-- … below the root. -/
def Below (b : Nat) (t : Node) : Prop :=
  ∀ i q n, t.get? (i :: q) = some n → Outermost t (i :: q) → (turns (i :: q) + b) % 2 = 1 →
    (towerDescs n).reverse = towerDescs n

def bend (i : Nat) : Nat := if i = 0 then 0 else 1

theorem turns_cons (i : Nat) (q : List Nat) : turns (i :: q) = turns q + bend i := by
  unfold turns bend
  by_cases h : i = 0 <;> simp [h]

theorem outermost_nil (t : Node) : Outermost t [] := by
  intro q' i n m h
  simp at h

theorem outermost_cons {s : Span} {d : Option String} {v : Option Nat} {ks : List Node} {i : Nat} {k : Node}
    (hk : ks[i]? = some k) (q : List Nat) :
    Outermost (.mk s d v ks) (i :: q) ↔ ((q = [] → k.span ≠ s) ∧ Outermost k q) := by
  have hget : ∀ q, (Node.mk s d v ks).get? (i :: q) = k.get? q := by
    intro q
    rw [Node.get?_cons]
    simp [Node.kids, hk]
  constructor
  · intro h
    constructor
    · rintro rfl
      exact fun e => h [] i (.mk s d v ks) k rfl rfl (by rw [hget]; rfl) e.symm
    · rintro q' j n m rfl h1 h2
      exact h (i :: q') j n m rfl (by rw [hget]; exact h1) (by rw [hget]; exact h2)
  · rintro ⟨h1, h2⟩ q' j n m e g1 g2
    cases q' with
    | nil =>
      rw [List.nil_append, List.cons.injEq] at e
      obtain ⟨rfl, rfl⟩ := e
      rw [hget, Node.get?, Option.some.injEq] at g2
      rw [Node.get?, Option.some.injEq] at g1
      subst g1 g2
      exact fun e => h1 rfl e.symm
    | cons a q' =>
      rw [List.cons_append, List.cons.injEq] at e
      obtain ⟨rfl, rfl⟩ := e
      rw [hget] at g1 g2
      exact h2 q' j n m rfl g1 g2

theorem mirroredAt_iff (b : Nat) (t : Node) :
    MirroredAt b t ↔ ((b % 2 = 1 → (towerDescs t).reverse = towerDescs t) ∧ Below b t) := by
  constructor
  · intro h
    refine ⟨fun hb => h [] t rfl (outermost_nil t) (by simpa [turns] using hb), ?_⟩
    exact fun i q n => h (i :: q) n
  · rintro ⟨h1, h2⟩ q n hq ho ht
    cases q with
    | nil =>
      rw [Node.get?, Option.some.injEq] at hq
      subst hq
      exact h1 (by simpa [turns] using ht)
    | cons i q => exact h2 i q n hq ho ht

theorem below_mk (b : Nat) (s : Span) (d : Option String) (v : Option Nat) (ks : List Node) :
    Below b (.mk s d v ks) ↔ ∀ i k, ks[i]? = some k →
      if k.span = s then Below (b + bend i) k else MirroredAt (b + bend i) k := by
  have hget : ∀ i k, ks[i]? = some k → ∀ q, (Node.mk s d v ks).get? (i :: q) = k.get? q := by
    intro i k hk q
    rw [Node.get?_cons]
    simp [Node.kids, hk]
  constructor
  · intro h i k hk
    split
    · intro j q n h1 h2 h3
      refine h i (j :: q) n (by rw [hget i k hk]; exact h1) ((outermost_cons hk _).2 ⟨by simp, h2⟩) ?_
      rw [turns_cons]; rw [← h3]; congr 1; omega
    · rename_i hs
      intro q n h1 h2 h3
      refine h i q n (by rw [hget i k hk]; exact h1) ((outermost_cons hk _).2 ⟨fun _ => hs, h2⟩) ?_
      rw [turns_cons]; rw [← h3]; congr 1; omega
  · intro h i q n h1 h2 h3
    cases hk : ks[i]? with
    | none =>
      rw [Node.get?_cons] at h1
      simp [Node.kids, hk] at h1
    | some k =>
      rw [hget i k hk] at h1
      have ho := (outermost_cons hk q).1 h2
      have hh := h i k hk
      rw [turns_cons] at h3
      have h3' : (turns q + (b + bend i)) % 2 = 1 := by rw [← h3]; congr 1; omega
      by_cases hs : k.span = s
      · rw [if_pos hs] at hh
        cases q with
        | nil => exact absurd hs (ho.1 rfl)
        | cons j q => exact hh j q n h1 ho.2 h3'
      · rw [if_neg hs] at hh
        exact hh q n h1 ho.2 h3'

theorem below_tower (s : Span) (ks : List Node) (h : ∀ k ∈ ks, k.span ≠ s) :
    ∀ (ds : List (Option String)) (d : Option String) (b : Nat),
      Below b (tower s d ds ks) ↔ ∀ i k, ks[i]? = some k → MirroredAt (b + bend i) k
  | [], d, b => by
    rw [tower, below_mk]
    refine forall_congr' (fun i => forall_congr' (fun k => ?_))
    constructor
    · intro hh hk
      have := hh hk
      rwa [if_neg (h k (List.mem_of_getElem? hk))] at this
    · intro hh hk
      rw [if_neg (h k (List.mem_of_getElem? hk))]
      exact hh hk
  | e :: ds, d, b => by
    rw [tower, below_mk, ← below_tower s ks h ds e b]
    constructor
    · intro hh
      have := hh 0 _ rfl
      rwa [if_pos (tower_span ..)] at this
    · intro hh i k hk
      cases i with
      | zero =>
        simp only [List.getElem?_cons_zero, Option.some.injEq] at hk
        subst hk
        rw [if_pos (tower_span ..)]
        exact hh
      | succ i => simp at hk

/-- A child of its parent's span is the only one. -/
theorem lone_of_span {s : Span} {ks : List Node} (hk : KidsOK s (ks.map Node.span)) (hw : ∀ k ∈ ks, WW k)
    (h : ks.map Node.span ≠ [s]) : ∀ k ∈ ks, k.span ≠ s := by
  intro k hm e
  apply h
  obtain ⟨m1, m2, rfl⟩ := List.append_of_mem hm
  have hord := hk.ordered
  rw [List.map_append, List.map_cons, List.pairwise_append, List.pairwise_cons] at hord
  have e1 : m1 = [] := by
    cases m1 with
    | nil => rfl
    | cons a m1 =>
      have h1 := (hord.2.2 a.span (by simp) k.span (by simp)).1
      have h2 := (hk.inside a.span (by simp)).1
      rw [e] at h1
      omega
  have e2 : m2 = [] := by
    cases m2 with
    | nil => rfl
    | cons a m2 =>
      have h1 := (hord.2.1.1 a.span (by simp)).2
      have h2 := (hk.inside a.span (by simp)).2.2
      have h3 := (hw a (by simp)).lt
      rw [e] at h1
      omega
  rw [e1, e2]
  simp [e]

theorem mirroredAt_two (t : Node) : MirroredAt (1 + 1) t ↔ MirroredAt 0 t := by
  unfold MirroredAt
  refine forall_congr' fun q => forall_congr' fun n => forall_congr' fun _ => forall_congr' fun _ => ?_
  rw [show (turns q + (1 + 1)) % 2 = (turns q + 0) % 2 by omega]

theorem refit_again_iff (ks : List Node) : refit (againAll ks) = ks ↔
    ∀ i k, ks[i]? = some k → if i = 0 then again k = k else twist (again k) = k := by
  cases ks with
  | nil => simp [againAll, refit]
  | cons k ks =>
    rw [againAll, refit, List.cons.injEq, twistAll_map, againAll_map, List.map_map, map_eq_self_iff]
    constructor
    · rintro ⟨h1, h2⟩ i k' hk
      cases i with
      | zero =>
        simp only [List.getElem?_cons_zero, Option.some.injEq] at hk
        subst hk
        exact h1
      | succ i => exact h2 k' (List.mem_of_getElem? (by simpa using hk))
    · intro h
      refine ⟨h 0 k rfl, fun k' hm => ?_⟩
      obtain ⟨i, hi, rfl⟩ := List.getElem_of_mem hm
      exact h (i + 1) ks[i] (by simp [List.getElem?_eq_getElem hi])

theorem twist_refit_again_iff (ks : List Node) (hw : ∀ k ∈ ks, WW k) : twistAll (refit (againAll ks)) = ks ↔
    ∀ i k, ks[i]? = some k → if i = 0 then twist (again k) = k else again k = k := by
  cases ks with
  | nil => simp [againAll, refit, twistAll]
  | cons k ks =>
    rw [againAll, refit, twistAll, List.cons.injEq, twistAll_map, twistAll_map, againAll_map, List.map_map,
      List.map_map, map_eq_self_iff]
    have hh : ∀ k' ∈ ks, twist (twist (again k')) = again k' := fun k' hm =>
      twist_twist (again_ww (hw k' (by simp [hm]))) (bare_again (hw k' (by simp [hm])))
    constructor
    · rintro ⟨h1, h2⟩ i k' hk
      cases i with
      | zero =>
        simp only [List.getElem?_cons_zero, Option.some.injEq] at hk
        subst hk
        exact h1
      | succ i =>
        have hm := List.mem_of_getElem? (l := ks) (i := i) (by simpa using hk)
        rw [if_neg (by omega), ← hh k' hm]
        exact h2 k' hm
    · intro h
      refine ⟨h 0 k rfl, fun k' hm => ?_⟩
      show twist (twist (again k')) = k'
      rw [hh k' hm]
      obtain ⟨i, hi, rfl⟩ := List.getElem_of_mem hm
      exact h (i + 1) ks[i] (by simp [List.getElem?_eq_getElem hi])

theorem again_iff {n : Node} (hw : WW n) (hb : bare n = n) :
    (again n = n ↔ MirroredAt 0 n) ∧ (twist (again n) = n ↔ MirroredAt 1 n) := by
  refine tower_induct (P := fun n => (again n = n ↔ MirroredAt 0 n) ∧ (twist (again n) = n ↔ MirroredAt 1 n)) ?_ hw hb
  intro s d ds ks hs h hk hks
  have hl := lone_of_span hk (fun k hm => (hks k hm).1) h
  constructor
  · rw [again_tower, tower_inj _ _ _ _ _ _ _ rfl, mirroredAt_iff, towerDescs_tower s ks h, below_tower s ks hl,
      refit_again_iff]
    constructor
    · rintro ⟨-, h1⟩
      refine ⟨by simp, fun i k hi => ?_⟩
      have h2 := h1 i k hi
      have h3 := (hks k (List.mem_of_getElem? hi)).2.2
      unfold bend
      split at h2
      · rename_i h0; rw [if_pos h0]; exact h3.1.1 h2
      · rename_i h0; rw [if_neg h0]; exact h3.2.1 h2
    · rintro ⟨-, h1⟩
      refine ⟨rfl, fun i k hi => ?_⟩
      have h2 := h1 i k hi
      have h3 := (hks k (List.mem_of_getElem? hi)).2.2
      unfold bend at h2
      split
      · rename_i h0; rw [if_pos h0] at h2; exact h3.1.2 h2
      · rename_i h0; rw [if_neg h0] at h2; exact h3.2.2 h2
  · rw [again_tower, twist_tower _ _ (by rw [refit_spans, againAll_spans]; exact h),
      show tower s d ds ks = towerL s (d :: ds) ks from rfl, towerL_inj _ _ _ _ _ (by simp) (by simp),
      show towerL s (d :: ds) ks = tower s d ds ks from rfl, mirroredAt_iff, towerDescs_tower s ks h,
      below_tower s ks hl, twist_refit_again_iff ks (fun k hm => (hks k hm).1)]
    constructor
    · rintro ⟨h0, h1⟩
      refine ⟨fun _ => h0, fun i k hi => ?_⟩
      have h2 := h1 i k hi
      have h3 := (hks k (List.mem_of_getElem? hi)).2.2
      unfold bend
      split at h2
      · rename_i h0; rw [if_pos h0]; exact h3.2.1 h2
      · rename_i h0; rw [if_neg h0, mirroredAt_two]; exact h3.1.1 h2
    · rintro ⟨h0, h1⟩
      refine ⟨h0 rfl, fun i k hi => ?_⟩
      have h2 := h1 i k hi
      have h3 := (hks k (List.mem_of_getElem? hi)).2.2
      unfold bend at h2
      split
      · rename_i h0; rw [if_pos h0] at h2; exact h3.2.2 h2
      · rename_i h0; rw [if_neg h0, mirroredAt_two] at h2; exact h3.1.2 h2

/-! ### Shape -/

mutual
/-- The spans only. -/
def skel : Node → Node
  | .mk s _ _ ks => .mk s none none (skelAll ks)
def skelAll : List Node → List Node
  | [] => []
  | k :: ks => skel k :: skelAll ks
end

theorem skelAll_map (ks : List Node) : skelAll ks = ks.map skel := by
  induction ks with
  | nil => rfl
  | cons k ks ih => simp [skelAll, ih]

theorem skel_sink (s : Span) (d : Option String) (v : Option Nat) : ∀ (n : Nat) (ks : List Node), sizeOf ks ≤ n →
    skel (sink s d v ks) = .mk s none none (skelAll ks)
  | 0, ks, hn => by cases ks <;> simp at hn
  | n + 1, ks, hn => by
    by_cases h : ks.map Node.span = [s]
    · obtain ⟨k, rfl⟩ : ∃ k, ks = [k] := by
        cases ks with
        | nil => cases h
        | cons k ks => cases ks with
          | nil => exact ⟨k, rfl⟩
          | cons k' ks => simp at h
      obtain ⟨s', d', v', ks'⟩ := k
      simp only [List.map_cons, Node.span, List.map_nil, List.cons.injEq, and_true] at h
      subst h
      rw [sink_same, skel, skelAll, skelAll, skel_sink s' d v n ks' (by simp at hn; omega)]
      rfl
    · rw [sink_other _ _ _ _ h]
      rfl

mutual
theorem skel_twist : ∀ n : Node, skel (twist n) = skel n
  | .mk s d v ks => by rw [twist, skel_sink _ _ _ _ _ (Nat.le_refl _), skelAll_twist ks]; rfl
theorem skelAll_twist : ∀ ks : List Node, skelAll (twistAll ks) = skelAll ks
  | [] => rfl
  | k :: ks => by rw [twistAll, skelAll, skel_twist k, skelAll_twist ks]; rfl
end

theorem skelAll_refit (ks : List Node) : skelAll (refit ks) = skelAll ks := by
  cases ks with
  | nil => rfl
  | cons k ks => rw [refit, skelAll, skelAll_twist]; rfl

mutual
theorem skel_again : ∀ n : Node, skel (again n) = skel n
  | .mk s d v ks => by rw [again, skel, skelAll_refit, skelAll_again ks]; rfl
theorem skelAll_again : ∀ ks : List Node, skelAll (againAll ks) = skelAll ks
  | [] => rfl
  | k :: ks => by rw [againAll, skelAll, skel_again k, skelAll_again ks]; rfl
end

theorem skel_get : ∀ (q : List Nat) (n : Node), ((skel n).get? q).map Node.span = (n.get? q).map Node.span
  | [], n => by obtain ⟨s, d, v, ks⟩ := n; rfl
  | i :: q, .mk s d v ks => by
    rw [Node.get?_cons, Node.get?_cons]
    simp only [skel, Node.kids, skelAll_map, List.getElem?_map]
    cases ks[i]? with
    | none => rfl
    | some k => simpa using skel_get q k

theorem again_get (t : Node) (q : List Nat) : ((again t).get? q).map Node.span = (t.get? q).map Node.span := by
  rw [← skel_get, skel_again, skel_get]

theorem bare_get : ∀ (q : List Nat) (n : Node), (bare n).get? q = (n.get? q).map bare
  | [], n => rfl
  | i :: q, .mk s d v ks => by
    rw [Node.get?_cons, Node.get?_cons]
    simp only [bare, Node.kids, bareAll_map, List.getElem?_map]
    cases ks[i]? with
    | none => rfl
    | some k => simpa using bare_get q k

theorem towerDescs_bare : ∀ (n : Nat) (t : Node), sizeOf t ≤ n → towerDescs (bare t) = towerDescs t
  | 0, t, hn => by cases t; simp at hn
  | n + 1, .mk s d v [], hn => by simp [bare, bareAll, towerDescs]
  | n + 1, .mk s d v [k], hn => by
    rw [bare, bareAll, bareAll, towerDescs, towerDescs, bare_span, towerDescs_bare n k (by simp at hn; omega)]
  | n + 1, .mk s d v (k :: k' :: ks), hn => by
    rw [bare, bareAll, bareAll, towerDescs, towerDescs] <;> simp

theorem outermost_bare (t : Node) (q : List Nat) : Outermost (bare t) q ↔ Outermost t q := by
  unfold Outermost
  constructor
  · intro h q' i n m e h1 h2
    have := h q' i (bare n) (bare m) e (by rw [bare_get, h1]; rfl) (by rw [bare_get, h2]; rfl)
    rwa [bare_span, bare_span] at this
  · intro h q' i n m e h1 h2
    rw [bare_get, Option.map_eq_some_iff] at h1 h2
    obtain ⟨n', g1, rfl⟩ := h1
    obtain ⟨m', g2, rfl⟩ := h2
    rw [bare_span, bare_span]
    exact h q' i n' m' e g1 g2

theorem mirroredAt_bare (t : Node) : MirroredAt 0 (bare t) ↔ Mirrored t := by
  unfold MirroredAt Mirrored
  constructor
  · intro h q n hq ho ht
    have := h q (bare n) (by rw [bare_get, hq]; rfl) ((outermost_bare t q).2 ho) ht
    rwa [towerDescs_bare _ _ (Nat.le_refl _)] at this
  · intro h q n hq ho ht
    rw [bare_get, Option.map_eq_some_iff] at hq
    obtain ⟨n', g1, rfl⟩ := hq
    rw [towerDescs_bare _ _ (Nat.le_refl _)]
    exact h q n' g1 ((outermost_bare t q).1 ho) ht

variable {V : Type} [DecidableEq V]

/-- C44, exactly, for every tree without zero-width nodes and every node of it but the root: encoding with the whole
tree and decoding end normally, give the node at the same path of a tree with the same spans at the same paths — and
that tree is the original one (value functions apart) if and only if the original is `Mirrored`: nested nodes of one
span come back in reverse order, once for every step to a child that is not the first. -/
theorem C44_wide_exact (X : Ext) (env : Env V) (hw : WF env.tree) (hl : env.tree.stop ≤ env.string.length)
    (hwide : ∀ s ∈ spans env.tree, s.start < s.stop)
    (x : Path) (hx : IsNode env.tree x) (hne : x ≠ []) (stringless : Bool) (given : Option (List Char))
    (hg : stringless = true → given = some env.string) :
    ∃ doc t, encode X env stringless true x = .ok doc ∧ decode X given doc = .ok (env.string, t, some x) ∧
      (∀ q, (t.get? q).map Node.span = (env.tree.get? q).map Node.span) ∧
      (t = bare env.tree ↔ Mirrored env.tree) := by
  have hww : WW env.tree := ww_of hw (fun c hc => hwide c.1 (List.mem_map.mpr ⟨c, hc, rfl⟩))
  refine ⟨⟨if stringless then none else some env.string, pathText x, itoDoc env.tree⟩, again env.tree, ?_, ?_,
    again_get env.tree, ?_⟩
  · unfold encode
    simp [find_root, hne, Node.get?]
  · have hs : (if stringless then none else some env.string).or given = some env.string := by
      cases stringless
      · rfl
      · simp [hg]
    have hd := decodeIto_wide env.string.length hww hl
    unfold decode
    rw [hs]
    simp only [hd]
    have hb : IsNode (again env.tree) x := by
      unfold IsNode at hx ⊢
      have := congrArg Option.isSome (again_get env.tree x)
      rwa [Option.isSome_map, Option.isSome_map, hx] at this
    have hf := C33_path_finds X (⟨again env.tree, env.string, fun _ => .error .nameError, none, none⟩ : Env Nat) x hb
    unfold Query.find
    rw [hf]
    rfl
  · have hbw : WW (bare env.tree) := ww_of (bare_wf _ hw) (by
      intro c hc
      have hc' : c.1 ∈ (listing (bare env.tree)).map Prod.fst := List.mem_map.2 ⟨c, hc, rfl⟩
      rw [bare_spans] at hc'
      exact hwide c.1 hc')
    rw [← again_bare, (again_iff hbw (bare_bare _)).1, mirroredAt_bare]

/-- The tree of `C44_same_span_violated` is not mirrored, and a tower in a first child is not turned. -/
example : ¬ Mirrored nestEnv.tree := by
  intro h
  have ho : Outermost nestEnv.tree [1] := by
    intro q' i n m e h1 h2
    have : q' = [] := by
      cases q' with
      | nil => rfl
      | cons a q' => simp at e
    subst this
    simp only [List.nil_append, List.cons.injEq, and_true] at e
    subst e
    cases h1
    cases h2
    decide
  exact absurd (h [1] _ rfl ho rfl) (by decide)

/-- `a` over `b` in the first child, `c` over `d` in the second child of the second: turned twice. -/
def evenTree : Node :=
  .mk ⟨0, 4⟩ none none [.mk ⟨0, 1⟩ (some "a") none [.mk ⟨0, 1⟩ (some "b") none []],
    .mk ⟨1, 4⟩ none none [.mk ⟨1, 2⟩ none none [], .mk ⟨2, 3⟩ (some "c") none [.mk ⟨2, 3⟩ (some "d") none []]]]

example : decodeIto 4 (itoDoc evenTree) = .ok evenTree ∧ again evenTree = evenTree := by
  constructor
  · decide
  · simp [evenTree, again, againAll, refit, twistAll, twist, sink]

end Pawpaw.Props
