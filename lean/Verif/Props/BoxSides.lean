import Verif.Props.BoxTable
/-!
# C113: boxes from their sides
-/
set_option linter.unusedSectionVars false
set_option maxRecDepth 100000
namespace Pawpaw.Props
open Box BoxSpec BoxTable

/-! ## Joining two arms -/

theorem dist1_off (c : BoxChar) (d : Direction) (a : Style) : dist1 c ⟨d, a⟩ = off c d a := by
  unfold dist1 off
  rw [styleOf_arm]
  unfold arm
  cases c.styles.find? (fun ds => ds.direction = d) with
  | none => rfl
  | some t =>
    simp only [Option.map_some, differ]
    by_cases h1 : a.weight = t.style.weight <;> by_cases h2 : a.count = t.style.count <;>
      by_cases h3 : a.dash = t.style.dash <;> by_cases h4 : a.path = t.style.path <;> simp [h1, h2, h3, h4]

theorem distance_off (c : BoxChar) (d1 d2 : Direction) (a b : Style) :
    distance c [⟨d1, a⟩, ⟨d2, b⟩] = off c d1 a + off c d2 b := by
  simp [distance, dist1_off]

theorem style_occurs {c : BoxChar} (hc : c ∈ table) {d : Direction} {s : Style} (h : styleOf c d = some s) :
    s ∈ occurring := by
  have ha := arm_of_styleOf h
  have hm : (⟨d, s⟩ : DirectionStyle) ∈ c.styles := List.mem_of_find?_eq_some ha
  have := List.all_eq_true.mp (List.all_eq_true.mp occurs c hc) _ hm
  simpa using this

theorem join_ok {d1 d2 : Direction} (hj : joinsB d1 d2 = true) {a b : Style} (ha : a ∈ occurring) (hb : b ∈ occurring) :
    ∃ c, fromDirectionStyles table [⟨d1, a⟩, ⟨d2, b⟩] true = .ok c ∧ Joins c d1 (some a) d2 (some b) := by
  have h := List.all_eq_true.mp (List.all_eq_true.mp hj a ha) b hb
  rcases C69_fuzzy table [⟨d1, a⟩, ⟨d2, b⟩] with ⟨before, c, after, e1, e2, e3, e4⟩ | ⟨_, e⟩
  · rw [e2] at h
    simp only [Bool.and_eq_true] at h
    have hc : c ∈ table.filter (fun i => i.styles.length = 2) := by
      have : c ∈ before ++ c :: after := by simp
      rw [← e1] at this; exact this
    rw [List.mem_filter] at hc
    refine ⟨c, e2, hc.1, by simpa using hc.2, h.1, h.2, a, b, rfl, rfl, fun c' hc' hl => ?_⟩
    have hm : c' ∈ before ++ c :: after := by
      rw [← e1, List.mem_filter]; exact ⟨hc', by simpa using hl⟩
    rw [← distance_off, ← distance_off]
    rcases List.mem_append.mp hm with hm | hm
    · exact Nat.le_of_lt (e3 c' hm)
    · rcases List.mem_cons.mp hm with rfl | hm
      · exact Nat.le_refl _
      · exact e4 c' hm
  · rw [e] at h; cases h

/-- The pairs of directions that are joined. -/
theorem joins_all (d1 d2 : Direction) (h : (d1, d2) ∈ [(Direction.W, Direction.E), (.N, .S), (.E, .W), (.S, .N),
    (.W, .S), (.N, .W), (.E, .N), (.S, .E)]) : joinsB d1 d2 = true := by
  simp only [List.mem_cons, Prod.mk.injEq, List.not_mem_nil, or_false] at h
  rcases h with ⟨rfl, rfl⟩ | ⟨rfl, rfl⟩ | ⟨rfl, rfl⟩ | ⟨rfl, rfl⟩ | ⟨rfl, rfl⟩ | ⟨rfl, rfl⟩ | ⟨rfl, rfl⟩ | ⟨rfl, rfl⟩
  · exact joins_WE
  · exact joins_NS
  · exact joins_EW
  · exact joins_SN
  · exact joins_WS
  · exact joins_NW
  · exact joins_EN
  · exact joins_SE

theorem armE_ok {c : BoxChar} {d : Direction} (h : (styleOf c d).isSome) :
    ∃ s, styleOf c d = some s ∧ armE c d = .ok ⟨d, s⟩ := by
  obtain ⟨s, hs⟩ := Option.isSome_iff_exists.mp h
  exact ⟨s, hs, by rw [armE, arm_of_styleOf hs]⟩

theorem armRot_ok {c : BoxChar} {d d' : Direction} {k : Int} (h : (styleOf c d).isSome) (hd : d.rotate k = .ok d') :
    ∃ s, styleOf c d = some s ∧ armRot c d k = .ok ⟨d', s⟩ := by
  obtain ⟨s, hs, e⟩ := armE_ok h
  exact ⟨s, hs, by rw [armRot, e]; simp only [DirectionStyle.rotate, hd]⟩

/-- Two arms of characters of the table are joined. -/
theorem joinE_arms {p q : BoxChar} (hp : p ∈ table) (hq : q ∈ table) {d1 d2 : Direction}
    (h1 : (styleOf p d1).isSome) (h2 : (styleOf q d2).isSome) (hj : joinsB d1 d2 = true) :
    ∃ c, joinE table (armE p d1) (armE q d2) = .ok c ∧ Joins c d1 (styleOf p d1) d2 (styleOf q d2) := by
  obtain ⟨a, ha, e1⟩ := armE_ok h1
  obtain ⟨b, hb, e2⟩ := armE_ok h2
  obtain ⟨c, e, hc⟩ := join_ok hj (style_occurs hp ha) (style_occurs hq hb)
  exact ⟨c, by rw [e1, e2]; exact e, by rw [ha, hb]; exact hc⟩

theorem joinE_rot {p q : BoxChar} (hp : p ∈ table) (hq : q ∈ table) {d1 d2 d1' d2' : Direction} {k1 k2 : Int}
    (h1 : (styleOf p d1).isSome) (h2 : (styleOf q d2).isSome) (r1 : d1.rotate k1 = .ok d1')
    (r2 : d2.rotate k2 = .ok d2') (hj : joinsB d1' d2' = true) :
    ∃ c, joinE table (armRot p d1 k1) (armRot q d2 k2) = .ok c ∧ Joins c d1' (styleOf p d1) d2' (styleOf q d2) := by
  obtain ⟨a, ha, e1⟩ := armRot_ok h1 r1
  obtain ⟨b, hb, e2⟩ := armRot_ok h2 r2
  obtain ⟨c, e, hc⟩ := join_ok hj (style_occurs hp ha) (style_occurs hq hb)
  exact ⟨c, by rw [e1, e2]; exact e, by rw [ha, hb]; exact hc⟩

/-! ## The sides -/

/-- Side `i` (0 north, 1 east, 2 south, 3 west) may be this character. -/
def Fit (i : Nat) (c : BoxChar) : Prop := if i % 2 = 0 then Horizontal c else Vertical c

/-- Its two arms along the side have the same style. -/
def Even (i : Nat) (c : BoxChar) : Prop :=
  if i % 2 = 0 then styleOf c .W = styleOf c .E else styleOf c .N = styleOf c .S

theorem turned {c c' : BoxChar} {k : Int} (h : ∀ d d', Direction.rotate d (90 * k) = .ok d' → styleOf c' d' = styleOf c d)
    {d d' : Direction} (hd : d.rotate (90 * k) = .ok d') : styleOf c' d' = styleOf c d := h d d' hd

/-- A quarter turn of a side is the next side. -/
theorem rotate_side {i : Nat} (hi : i < 4) {c : BoxChar} (h : Fit i c) :
    ∃ b, c.rotate table 90 = .ok b ∧ Fit ((i + 1) % 4) b ∧ (Even i c → Even ((i + 1) % 4) b) := by
  have hc : c ∈ table := by unfold Fit at h; split at h <;> exact h.1
  obtain ⟨b, hb, e, hs⟩ := C112_rotate hc 1
  have n : styleOf b .N = styleOf c .W := hs .W .N (by decide)
  have s : styleOf b .S = styleOf c .E := hs .E .S (by decide)
  have ee : styleOf b .E = styleOf c .N := hs .N .E (by decide)
  have w : styleOf b .W = styleOf c .S := hs .S .W (by decide)
  refine ⟨b, e, ?_⟩
  have : i = 0 ∨ i = 1 ∨ i = 2 ∨ i = 3 := by omega
  rcases this with rfl | rfl | rfl | rfl <;>
    simp only [Fit, Even, Horizontal, Vertical, n, s, ee, w, hb] at h ⊢ <;> simp_all

/-- The reflection used for a single side gives the next side. -/
theorem reflect_side {i : Nat} (hi : i < 4) {c : BoxChar} (h : Fit i c) :
    ∃ d b, (sideDir i).rotate 45 = .ok d ∧ c.reflect table d = .ok b ∧ Fit ((i + 1) % 4) b ∧
      (Even i c → Even ((i + 1) % 4) b) := by
  have hc : c ∈ table := by unfold Fit at h; split at h <;> exact h.1
  have : i = 0 ∨ i = 1 ∨ i = 2 ∨ i = 3 := by omega
  rcases this with rfl | rfl | rfl | rfl
  · obtain ⟨b, hb, e, hs⟩ := C112_reflect hc .NE
    have s : styleOf b .S = styleOf c .W := hs .W .S (by decide)
    have n : styleOf b .N = styleOf c .E := hs .E .N (by decide)
    refine ⟨.NE, b, by decide, e, ?_⟩
    simp only [Fit, Even, Horizontal, Vertical] at h ⊢
    simp_all
  · obtain ⟨b, hb, e, hs⟩ := C112_reflect hc .SE
    have w : styleOf b .W = styleOf c .N := hs .N .W (by decide)
    have ee : styleOf b .E = styleOf c .S := hs .S .E (by decide)
    refine ⟨.SE, b, by decide, e, ?_⟩
    simp only [Fit, Even, Horizontal, Vertical] at h ⊢
    simp_all
  · obtain ⟨b, hb, e, hs⟩ := C112_reflect hc .SW
    have s : styleOf b .S = styleOf c .W := hs .W .S (by decide)
    have n : styleOf b .N = styleOf c .E := hs .E .N (by decide)
    refine ⟨.SW, b, by decide, e, ?_⟩
    simp only [Fit, Even, Horizontal, Vertical] at h ⊢
    simp_all
  · obtain ⟨b, hb, e, hs⟩ := C112_reflect hc .NW
    have w : styleOf b .W = styleOf c .N := hs .N .W (by decide)
    have ee : styleOf b .E = styleOf c .S := hs .S .E (by decide)
    refine ⟨.NW, b, by decide, e, ?_⟩
    simp only [Fit, Even, Horizontal, Vertical] at h ⊢
    simp_all

/-- The side between two given ones. -/
theorem join_side {i : Nat} (hi : i < 4) {p q : BoxChar} (hp : Fit i p) (hq : Fit ((i + 2) % 4) q) :
    ∃ b, joinE table (armRot p (sideDir ((i + 1) % 4)) (-90)) (armRot q (sideDir ((i + 1) % 4)) 90) = .ok b ∧
      Fit ((i + 1) % 4) b := by
  have : i = 0 ∨ i = 1 ∨ i = 2 ∨ i = 3 := by omega
  rcases this with rfl | rfl | rfl | rfl
  · simp only [Fit, Horizontal, Vertical] at hp hq ⊢
    obtain ⟨b, e, hj⟩ := joinE_rot (p := p) (q := q) (d1 := .E) (d2 := .E) (k1 := -90) (k2 := 90) (d1' := .N) (d2' := .S)
      hp.1 hq.1 hp.2.2 hq.2.2 (by decide) (by decide) joins_NS
    exact ⟨b, e, hj.1, hj.2.2.1, hj.2.2.2.1⟩
  · simp only [Fit, Horizontal, Vertical] at hp hq ⊢
    obtain ⟨b, e, hj⟩ := joinE_rot (p := p) (q := q) (d1 := .S) (d2 := .S) (k1 := -90) (k2 := 90) (d1' := .E) (d2' := .W)
      hp.1 hq.1 hp.2.2 hq.2.2 (by decide) (by decide) joins_EW
    exact ⟨b, e, hj.1, hj.2.2.2.1, hj.2.2.1⟩
  · simp only [Fit, Horizontal, Vertical] at hp hq ⊢
    obtain ⟨b, e, hj⟩ := joinE_rot (p := p) (q := q) (d1 := .W) (d2 := .W) (k1 := -90) (k2 := 90) (d1' := .S) (d2' := .N)
      hp.1 hq.1 hp.2.1 hq.2.1 (by decide) (by decide) joins_SN
    exact ⟨b, e, hj.1, hj.2.2.2.1, hj.2.2.1⟩
  · simp only [Fit, Horizontal, Vertical] at hp hq ⊢
    obtain ⟨b, e, hj⟩ := joinE_rot (p := p) (q := q) (d1 := .N) (d2 := .N) (k1 := -90) (k2 := 90) (d1' := .W) (d2' := .E)
      hp.1 hq.1 hp.2.1 hq.2.1 (by decide) (by decide) joins_WE
    exact ⟨b, e, hj.1, hj.2.2.1, hj.2.2.2.1⟩

/-- A list of four sides, some given. -/
structure Sides (P : Nat → BoxChar → Prop) (l : List Arg) : Prop where
  len : l.length = 4
  fit : ∀ i < 4, l.getD i .none = .none ∨ ∃ c, l.getD i .none = .bdc c ∧ P i c

theorem Sides.given {P : Nat → BoxChar → Prop} {l : List Arg} (hl : Sides P l) {i : Nat} (hi : i < 4) (hg : (l.getD i .none).given = true) :
    ∃ c, l.getD i .none = .bdc c ∧ P i c := by
  rcases hl.fit i hi with h | h
  · rw [h] at hg; cases hg
  · exact h

theorem getD_set (l : List Arg) (i j : Nat) (a : Arg) (hi : i < l.length) :
    (l.set i a).getD j .none = if j = i then a else l.getD j .none := by
  rw [List.getD_eq_getElem?_getD, List.getElem?_set]
  by_cases e : i = j
  · subst e; simp [hi]
  · rw [if_neg e, if_neg (fun h => e h.symm), List.getD_eq_getElem?_getD]

theorem Sides.set {P : Nat → BoxChar → Prop} {l : List Arg} (hl : Sides P l) {i : Nat} (hi : i < 4) {c : BoxChar} (hc : P i c) :
    Sides P (l.set i (.bdc c)) := by
  refine ⟨by simp [hl.len], fun j hj => ?_⟩
  rw [getD_set l i j _ (by rw [hl.len]; exact hi)]
  by_cases e : j = i
  · rw [if_pos e]; exact Or.inr ⟨c, rfl, e ▸ hc⟩
  · rw [if_neg e]; exact hl.fit j hj

/-- What one round does: the current place is filled if it was not, nothing else is touched. -/
def Filled (P : Nat → BoxChar → Prop) (l l' : List Arg) (cur : Nat) : Prop :=
  Sides P l' ∧ (l'.getD cur .none).given = true ∧
    (∀ j, j ≠ cur → l'.getD j .none = l.getD j .none) ∧
    ((l.getD cur .none).given = true → l'.getD cur .none = l.getD cur .none)

theorem sideRound_filled {l : List Arg} (hl : Sides Fit l) (first i : Nat)
    (hg : (l.getD ((first + i) % 4) .none).given = true) :
    ∃ l', sideRound table first i l = .ok l' ∧ Filled Fit l l' (((first + i) % 4 + 1) % 4) := by
  generalize hp : (first + i) % 4 = p at hg ⊢
  have hp4 : p < 4 := by omega
  obtain ⟨cp, e1, f1⟩ := hl.given hp4 hg
  unfold sideRound
  dsimp only
  rw [hp]
  by_cases hc : (l.getD ((p + 1) % 4) .none).given = true
  · rw [if_pos hc]
    exact ⟨l, rfl, hl, hc, fun _ _ => rfl, fun _ => rfl⟩
  · rw [if_neg hc, e1]
    simp only [Arg.asBdc]
    have fill : ∀ b, Fit ((p + 1) % 4) b → Filled Fit l (l.set ((p + 1) % 4) (.bdc b)) ((p + 1) % 4) := by
      intro b hb
      have hlt : (p + 1) % 4 < l.length := by rw [hl.len]; omega
      refine ⟨hl.set (by omega) hb, ?_, fun j hj => ?_, fun h => absurd h hc⟩
      · rw [getD_set l _ _ _ hlt, if_pos rfl]; rfl
      · rw [getD_set l _ _ _ hlt, if_neg hj]
    by_cases hn : (l.getD (((p + 1) % 4 + 1) % 4) .none).given = true
    · rw [hn]
      simp only [Bool.not_true, Bool.false_eq_true, if_false]
      obtain ⟨cq, e2, f2⟩ := hl.given (by omega) hn
      rw [e2]
      dsimp only
      rw [show ((p + 1) % 4 + 1) % 4 = (p + 2) % 4 by omega] at f2
      obtain ⟨b, e, hb⟩ := join_side hp4 f1 f2
      rw [e]
      exact ⟨_, rfl, fill b hb⟩
    · rw [Bool.not_eq_true] at hn
      rw [hn]
      simp only [Bool.not_false, if_true]
      obtain ⟨b, e, hb, _⟩ := rotate_side hp4 f1
      rw [e]
      exact ⟨_, rfl, fill b hb⟩

/-- Three rounds fill the list. -/
theorem rounds_filled {P : Nat → BoxChar → Prop} {f : Nat → Nat → List Arg → Except PyErr (List Arg)}
    (hf : ∀ (l : List Arg) (first i : Nat), Sides P l → (l.getD ((first + i) % 4) .none).given = true →
      ∃ l', f first i l = .ok l' ∧ Filled P l l' (((first + i) % 4 + 1) % 4))
    {l : List Arg} (hl : Sides P l) {first : Nat} (h4 : first < 4) (hg : (l.getD first .none).given = true) :
    ∃ c0 c1 c2 c3, threeRounds (f first) l = .ok [.bdc c0, .bdc c1, .bdc c2, .bdc c3] ∧ P 0 c0 ∧ P 1 c1 ∧
      P 2 c2 ∧ P 3 c3 ∧ ∀ j, (l.getD j .none).given = true → [Arg.bdc c0, .bdc c1, .bdc c2, .bdc c3].getD j .none = l.getD j .none := by
  obtain ⟨l1, e1, s1, g1, o1, k1⟩ := hf l first 0 hl (by rw [Nat.add_zero, Nat.mod_eq_of_lt h4]; exact hg)
  obtain ⟨l2, e2, s2, g2, o2, k2⟩ := hf l1 first 1 s1 (by rw [show (first + 1) % 4 = ((first + 0) % 4 + 1) % 4 by omega]; exact g1)
  obtain ⟨l3, e3, s3, g3, o3, k3⟩ := hf l2 first 2 s2 (by rw [show (first + 2) % 4 = ((first + 1) % 4 + 1) % 4 by omega]; exact g2)
  have keep : ∀ j, (l.getD j .none).given = true → l3.getD j .none = l.getD j .none := by
    intro j hj
    have a1 : l1.getD j .none = l.getD j .none := by
      by_cases e : j = ((first + 0) % 4 + 1) % 4
      · rw [e] at hj ⊢; exact k1 hj
      · exact o1 j e
    have a2 : l2.getD j .none = l1.getD j .none := by
      by_cases e : j = ((first + 1) % 4 + 1) % 4
      · rw [← a1] at hj; rw [e] at hj ⊢; exact k2 hj
      · exact o2 j e
    have a3 : l3.getD j .none = l2.getD j .none := by
      by_cases e : j = ((first + 2) % 4 + 1) % 4
      · rw [← a1, ← a2] at hj; rw [e] at hj ⊢; exact k3 hj
      · exact o3 j e
    rw [a3, a2, a1]
  have all : ∀ j < 4, (l3.getD j .none).given = true := by
    intro j hj
    by_cases h3 : j = ((first + 2) % 4 + 1) % 4
    · rw [h3]; exact g3
    · rw [o3 j h3]
      by_cases h2 : j = ((first + 1) % 4 + 1) % 4
      · rw [h2]; exact g2
      · rw [o2 j h2]
        by_cases h1 : j = ((first + 0) % 4 + 1) % 4
        · rw [h1]; exact g1
        · rw [o1 j h1]
          have : j = first := by omega
          rw [this]; exact hg
  obtain ⟨c0, q0, p0⟩ := s3.given (by decide : 0 < 4) (all 0 (by decide))
  obtain ⟨c1, q1, p1⟩ := s3.given (by decide : 1 < 4) (all 1 (by decide))
  obtain ⟨c2, q2, p2⟩ := s3.given (by decide : 2 < 4) (all 2 (by decide))
  obtain ⟨c3, q3, p3⟩ := s3.given (by decide : 3 < 4) (all 3 (by decide))
  have hl3 : l3 = [.bdc c0, .bdc c1, .bdc c2, .bdc c3] := by
    have hlen := s3.len
    match l3, hlen with
    | [a, b, c, d], _ =>
      simp only [List.getD_cons_zero, List.getD_cons_succ] at q0 q1 q2 q3
      rw [q0, q1, q2, q3]
  refine ⟨c0, c1, c2, c3, ?_, p0, p1, p2, p3, ?_⟩
  · rw [threeRounds, e1]
    dsimp only
    rw [e2]
    dsimp only
    rw [e3, hl3]
  · rw [← hl3]; exact keep

/-- The corners that are made for four sides: each has, in each of its two directions, the style the side
along it has *in that same direction*, as nearly as may be. -/
structure Corners (p : Parts) : Prop where
  nw : Joins p.nw .S (styleOf p.w .S) .E (styleOf p.n .E)
  ne : Joins p.ne .W (styleOf p.n .W) .S (styleOf p.e .S)
  se : Joins p.se .N (styleOf p.e .N) .W (styleOf p.s .W)
  sw : Joins p.sw .E (styleOf p.s .E) .N (styleOf p.w .N)

theorem closeSides_ok {n e s w : BoxChar} (hn : Horizontal n) (he : Vertical e) (hs : Horizontal s) (hw : Vertical w) :
    ∃ p, closeSides table [.bdc n, .bdc e, .bdc s, .bdc w] = .ok p ∧ p.n = n ∧ p.e = e ∧ p.s = s ∧ p.w = w ∧ Corners p := by
  obtain ⟨c0, e0, j0⟩ := joinE_arms hn.1 he.1 hn.2.1 he.2.2 joins_WS
  obtain ⟨c1, e1, j1⟩ := joinE_arms he.1 hs.1 he.2.1 hs.2.1 joins_NW
  obtain ⟨c2, e2, j2⟩ := joinE_arms hs.1 hw.1 hs.2.2 hw.2.1 joins_EN
  obtain ⟨c3, e3, j3⟩ := joinE_arms hw.1 hn.1 hw.2.2 hn.2.2 joins_SE
  have k0 : cornerAt table [.bdc n, .bdc e, .bdc s, .bdc w] 0 = .ok c0 := e0
  have k1 : cornerAt table [.bdc n, .bdc e, .bdc s, .bdc w] 1 = .ok c1 := e1
  have k2 : cornerAt table [.bdc n, .bdc e, .bdc s, .bdc w] 2 = .ok c2 := e2
  have k3 : cornerAt table [.bdc n, .bdc e, .bdc s, .bdc w] 3 = .ok c3 := e3
  refine ⟨⟨c3, n, c0, w, e, c2, s, c1⟩, ?_, rfl, rfl, rfl, rfl, ⟨j3, j0, j1, j2⟩⟩
  rw [closeSides]
  simp only [mapE, k0, k1, k2, k3, Arg.asBdc]

/-- A side given or not. -/
def side : Option BoxChar → Arg
  | none => .none
  | some c => .bdc c

theorem firstGiven_ok : ∀ (l : List Arg), (∃ i, (l.getD i .none).given = true) →
    ∃ f, firstGiven l = .ok f ∧ f < l.length ∧ (l.getD f .none).given = true
  | [], ⟨i, hi⟩ => by simp [Arg.given] at hi
  | a :: as, ⟨i, hi⟩ => by
    rw [firstGiven]
    by_cases ha : a.given = true
    · rw [if_pos ha]; exact ⟨0, rfl, by simp, by simpa using ha⟩
    · rw [if_neg ha]
      cases i with
      | zero => exact absurd (by simpa using hi) ha
      | succ i =>
        obtain ⟨f, e, hf, hg⟩ := firstGiven_ok as ⟨i, by simpa using hi⟩
        rw [e]
        exact ⟨f + 1, rfl, by simpa using hf, by simpa using hg⟩

theorem checkArms_ok {a b : Direction} : ∀ (l : List Arg),
    (∀ x ∈ l, x = .none ∨ ∃ c, x = .bdc c ∧ (styleOf c a).isSome ∧ (styleOf c b).isSome) → checkArms a b l = .ok ()
  | [], _ => rfl
  | x :: l, h => by
    have ih := checkArms_ok l (fun y hy => h y (by simp [hy]))
    rcases h x (by simp) with rfl | ⟨c, rfl, h1, h2⟩
    · rw [checkArms]; exact ih
    · have e1 : (arm c a).isNone = false := by
        rw [styleOf_arm] at h1; cases e : arm c a with
        | none => rw [e] at h1; cases h1
        | some _ => rfl
      have e2 : (arm c b).isNone = false := by
        rw [styleOf_arm] at h2; cases e : arm c b with
        | none => rw [e] at h2; cases h2
        | some _ => rfl
      rw [checkArms, e1, e2]
      simpa using ih

theorem checkSides_ok : ∀ (l : List Arg), (∀ x ∈ l, ∀ s, x ≠ .str s) → checkSides table l = .ok ()
  | [], _ => rfl
  | x :: l, h => by
    have ih := checkSides_ok l (fun y hy => h y (by simp [hy]))
    cases x with
    | none => exact ih
    | bdc c => exact ih
    | str s => exact absurd rfl (h (.str s) (by simp) s)

/-- One round when a single side is given. -/
theorem sideRound1_filled (E : Nat → BoxChar → Prop)
    (hE : ∀ i c, E i c → Fit i c)
    (hr : ∀ i < 4, ∀ c, E i c → ∃ d b, (sideDir i).rotate 45 = .ok d ∧ c.reflect table d = .ok b ∧ E ((i + 1) % 4) b)
    {l : List Arg} (hl : Sides E l) (first i : Nat)
    (hg : (l.getD ((first + i) % 4) .none).given = true) :
    ∃ b, sideRound1 table first i l = .ok (l.set (((first + i) % 4 + 1) % 4) (.bdc b)) ∧ E (((first + i) % 4 + 1) % 4) b := by
  generalize hp : (first + i) % 4 = p at hg ⊢
  have hp4 : p < 4 := by omega
  obtain ⟨cp, e1, f1⟩ := hl.given hp4 hg
  obtain ⟨d, b, h1, h2, h3⟩ := hr p hp4 cp f1
  refine ⟨b, ?_, h3⟩
  unfold sideRound1
  dsimp only
  rw [hp, e1]
  simp only [Arg.asBdc, h1, h2]

theorem rounds1_filled (E : Nat → BoxChar → Prop)
    (hE : ∀ i c, E i c → Fit i c)
    (hr : ∀ i < 4, ∀ c, E i c → ∃ d b, (sideDir i).rotate 45 = .ok d ∧ c.reflect table d = .ok b ∧ E ((i + 1) % 4) b)
    {l : List Arg} (hl : Sides E l) {first : Nat} (h4 : first < 4) (hg : (l.getD first .none).given = true) :
    ∃ c0 c1 c2 c3, threeRounds (sideRound1 table first) l = .ok [.bdc c0, .bdc c1, .bdc c2, .bdc c3] ∧ E 0 c0 ∧ E 1 c1 ∧
      E 2 c2 ∧ E 3 c3 ∧ [Arg.bdc c0, .bdc c1, .bdc c2, .bdc c3].getD first .none = l.getD first .none := by
  have st : ∀ (l : List Arg) (i : Nat), Sides E l → (l.getD ((first + i) % 4) .none).given = true →
      ∃ l', sideRound1 table first i l = .ok l' ∧ Sides E l' ∧ (l'.getD (((first + i) % 4 + 1) % 4) .none).given = true ∧
        ∀ j, j ≠ ((first + i) % 4 + 1) % 4 → l'.getD j .none = l.getD j .none := by
    intro l i hl hg
    obtain ⟨b, e, hb⟩ := sideRound1_filled E hE hr hl first i hg
    have hlt : ((first + i) % 4 + 1) % 4 < l.length := by rw [hl.len]; omega
    refine ⟨_, e, hl.set (by omega) hb, ?_, fun j hj => ?_⟩
    · rw [getD_set l _ _ _ hlt, if_pos rfl]; rfl
    · rw [getD_set l _ _ _ hlt, if_neg hj]
  obtain ⟨l1, e1, s1, g1, o1⟩ := st l 0 hl (by rw [Nat.add_zero, Nat.mod_eq_of_lt h4]; exact hg)
  obtain ⟨l2, e2, s2, g2, o2⟩ := st l1 1 s1 (by rw [show (first + 1) % 4 = ((first + 0) % 4 + 1) % 4 by omega]; exact g1)
  obtain ⟨l3, e3, s3, g3, o3⟩ := st l2 2 s2 (by rw [show (first + 2) % 4 = ((first + 1) % 4 + 1) % 4 by omega]; exact g2)
  have all : ∀ j < 4, (l3.getD j .none).given = true := by
    intro j hj
    by_cases h3 : j = ((first + 2) % 4 + 1) % 4
    · rw [h3]; exact g3
    · rw [o3 j h3]
      by_cases h2 : j = ((first + 1) % 4 + 1) % 4
      · rw [h2]; exact g2
      · rw [o2 j h2]
        by_cases h1 : j = ((first + 0) % 4 + 1) % 4
        · rw [h1]; exact g1
        · rw [o1 j h1]
          have : j = first := by omega
          rw [this]; exact hg
  obtain ⟨c0, q0, p0⟩ := s3.given (by decide : 0 < 4) (all 0 (by decide))
  obtain ⟨c1, q1, p1⟩ := s3.given (by decide : 1 < 4) (all 1 (by decide))
  obtain ⟨c2, q2, p2⟩ := s3.given (by decide : 2 < 4) (all 2 (by decide))
  obtain ⟨c3, q3, p3⟩ := s3.given (by decide : 3 < 4) (all 3 (by decide))
  have hl3 : l3 = [.bdc c0, .bdc c1, .bdc c2, .bdc c3] := by
    have hlen := s3.len
    match l3, hlen with
    | [a, b, c, d], _ =>
      simp only [List.getD_cons_zero, List.getD_cons_succ] at q0 q1 q2 q3
      rw [q0, q1, q2, q3]
  refine ⟨c0, c1, c2, c3, ?_, p0, p1, p2, p3, ?_⟩
  · rw [threeRounds, e1]
    dsimp only
    rw [e2]
    dsimp only
    rw [e3, hl3]
  · rw [← hl3, o3 first (by omega), o2 first (by omega), o1 first (by omega)]

/-! ## The property -/

/-- What may be passed for north or south: nothing, or a character with arms left and right. -/
def MayH (x : Option BoxChar) : Prop := ∀ c, x = some c → Horizontal c
/-- What may be passed for west or east: nothing, or a character with arms up and down. -/
def MayV (x : Option BoxChar) : Prop := ∀ c, x = some c → Vertical c

theorem side_none {x : Option BoxChar} : side x = .none ↔ x = none := by cases x <;> simp [side]
theorem side_given {x : Option BoxChar} : (side x).given = x.isSome := by cases x <;> rfl

theorem side_fit {i : Nat} {x : Option BoxChar} {P : Nat → BoxChar → Prop} (h : ∀ c, x = some c → P i c) :
    side x = .none ∨ ∃ c, side x = .bdc c ∧ P i c := by
  cases x with
  | none => exact Or.inl rfl
  | some c => exact Or.inr ⟨c, rfl, h c rfl⟩

theorem sides_of {P : Nat → BoxChar → Prop} {n e s w : Option BoxChar} (h0 : ∀ c, n = some c → P 0 c)
    (h1 : ∀ c, e = some c → P 1 c) (h2 : ∀ c, s = some c → P 2 c) (h3 : ∀ c, w = some c → P 3 c) :
    Sides P [side n, side e, side s, side w] := by
  refine ⟨rfl, fun i hi => ?_⟩
  have : i = 0 ∨ i = 1 ∨ i = 2 ∨ i = 3 := by omega
  rcases this with rfl | rfl | rfl | rfl
  · exact side_fit h0
  · exact side_fit h1
  · exact side_fit h2
  · exact side_fit h3

/-- The side of the box is the one given, if one was. -/
def Kept (x : Option BoxChar) (c : BoxChar) : Prop := ∀ a, x = some a → c = a

theorem kept_of {x : Option BoxChar} {c : BoxChar} (h : (side x).given = true → Arg.bdc c = side x) : Kept x c := by
  intro a ha
  rw [ha] at h
  have := h rfl
  simpa [side] using this

/-- **C113 (partial).**  For any sides, at least one of them given, each with arms along its side:
`from_sides` succeeds; the given sides are kept, all sides run along their edge, and the corners are as
`Corners` says.  What is missing: `Corners` takes the style of a corner's arm from the arm of the side that
points *the same way*, not from the one that touches it (`C113_touching_violated`); the two agree when the
arms of each side are alike (`C113_symmetric_sides`). -/
theorem C113_from_sides_partial (n w e s : Option BoxChar) (hn : MayH n) (hw : MayV w) (he : MayV e) (hs : MayH s)
    (hany : n.isSome ∨ w.isSome ∨ e.isSome ∨ s.isSome) :
    ∃ p, fromSides table (side n) (side w) (side e) (side s) = .ok p ∧
      Kept n p.n ∧ Kept w p.w ∧ Kept e p.e ∧ Kept s p.s ∧
      Horizontal p.n ∧ Vertical p.w ∧ Vertical p.e ∧ Horizontal p.s ∧ Corners p := by
  have hF : Sides Fit [side n, side e, side s, side w] := sides_of (fun c h => by simpa [Fit] using hn c h)
    (fun c h => by simpa [Fit] using he c h) (fun c h => by simpa [Fit] using hs c h) (fun c h => by simpa [Fit] using hw c h)
  obtain ⟨f, hf, hf4, hfg⟩ := firstGiven_ok [side n, side e, side s, side w] (by
    rcases hany with h | h | h | h
    · exact ⟨0, by simpa [side_given] using h⟩
    · exact ⟨3, by simpa [side_given] using h⟩
    · exact ⟨1, by simpa [side_given] using h⟩
    · exact ⟨2, by simpa [side_given] using h⟩)
  have hf4' : f < 4 := hf4
  have hck : checkSides table [side n, side e, side s, side w] = .ok () := checkSides_ok _ (by
    intro x hx t
    simp only [List.mem_cons, List.not_mem_nil, or_false] at hx
    rcases hx with rfl | rfl | rfl | rfl
    · cases n <;> simp [side]
    · cases e <;> simp [side]
    · cases s <;> simp [side]
    · cases w <;> simp [side])
  unfold fromSides
  dsimp only
  rw [hf]
  dsimp only
  rw [hck]
  dsimp only
  by_cases h1 : [side n, side e, side s, side w].countP (fun a => !a.given) = 3
  · rw [if_pos h1]
    obtain ⟨c0, c1, c2, c3, er, p0, p1, p2, p3, hk⟩ := rounds1_filled Fit (fun _ _ h => h)
      (fun i hi c h => by
        obtain ⟨d, b, a1, a2, a3, _⟩ := reflect_side hi h
        exact ⟨d, b, a1, a2, a3⟩) hF hf4' hfg
    rw [er]
    dsimp only
    simp only [Fit] at p0 p1 p2 p3
    obtain ⟨p, ep, en, ee, es, ew, hc⟩ := closeSides_ok (n := c0) (e := c1) (s := c2) (w := c3) (by simpa using p0) (by simpa using p1)
      (by simpa using p2) (by simpa using p3)
    refine ⟨p, ep, ?_, ?_, ?_, ?_, by rw [en]; simpa using p0, by rw [ew]; simpa using p3, by rw [ee]; simpa using p1,
      by rw [es]; simpa using p2, hc⟩
    all_goals
      apply kept_of
      intro hg
      have : f = 0 ∨ f = 1 ∨ f = 2 ∨ f = 3 := by omega
      rcases this with rfl | rfl | rfl | rfl <;>
        simp only [List.getD_cons_zero, List.getD_cons_succ] at hk hfg <;>
        cases n <;> cases e <;> cases s <;> cases w <;>
        simp_all [side, Arg.given]
  · rw [if_neg h1]
    have hH : ∀ x : Option BoxChar, MayH x → side x = .none ∨ ∃ c, side x = .bdc c ∧ (styleOf c .W).isSome ∧ (styleOf c .E).isSome :=
      fun x hx => by
        cases x with
        | none => exact Or.inl rfl
        | some c => exact Or.inr ⟨c, rfl, (hx c rfl).2⟩
    have hV : ∀ x : Option BoxChar, MayV x → side x = .none ∨ ∃ c, side x = .bdc c ∧ (styleOf c .N).isSome ∧ (styleOf c .S).isSome :=
      fun x hx => by
        cases x with
        | none => exact Or.inl rfl
        | some c => exact Or.inr ⟨c, rfl, (hx c rfl).2⟩
    rw [checkArms_ok [side n, side s] (by
      intro x hx
      simp only [List.mem_cons, List.not_mem_nil, or_false] at hx
      rcases hx with rfl | rfl
      · exact hH n hn
      · exact hH s hs)]
    dsimp only
    rw [checkArms_ok [side e, side w] (by
      intro x hx
      simp only [List.mem_cons, List.not_mem_nil, or_false] at hx
      rcases hx with rfl | rfl
      · exact hV e he
      · exact hV w hw)]
    dsimp only
    obtain ⟨c0, c1, c2, c3, er, p0, p1, p2, p3, hk⟩ := rounds_filled (P := Fit) (f := sideRound table)
      (fun l first i hl hg => sideRound_filled hl first i hg) hF hf4' hfg
    rw [er]
    dsimp only
    simp only [Fit] at p0 p1 p2 p3
    obtain ⟨p, ep, en, ee, es, ew, hc⟩ := closeSides_ok (n := c0) (e := c1) (s := c2) (w := c3) (by simpa using p0) (by simpa using p1)
      (by simpa using p2) (by simpa using p3)
    refine ⟨p, ep, ?_, ?_, ?_, ?_, by rw [en]; simpa using p0, by rw [ew]; simpa using p3, by rw [ee]; simpa using p1,
      by rw [es]; simpa using p2, hc⟩
    · rw [en]; exact kept_of (fun hg => hk 0 hg)
    · rw [ew]; exact kept_of (fun hg => hk 3 hg)
    · rw [ee]; exact kept_of (fun hg => hk 1 hg)
    · rw [es]; exact kept_of (fun hg => hk 2 hg)

/-- C113: whenever the two arms of each side of the box are alike, every corner fits the sides it touches. -/
theorem C113_symmetric_sides {p : Parts} (hc : Corners p) (hs : Symmetric p) : CornersFit p := by
  refine ⟨?_, ?_, ?_, ?_⟩
  · rw [hs.w, hs.n]; exact hc.nw
  · rw [← hs.n, hs.e]; exact hc.ne
  · rw [← hs.e, ← hs.s]; exact hc.se
  · rw [hs.s, ← hs.w]; exact hc.sw

/-- C113 for a single side with two like arms (whichever side it is): the whole box is made of it, and every
corner fits. -/
theorem C113_one_side (n w e s : Option BoxChar) (hn : MayH n) (hw : MayV w) (he : MayV e) (hs : MayH s)
    (h1 : [side n, side e, side s, side w].countP (fun a => !a.given) = 3)
    (sn : ∀ c, n = some c → styleOf c .W = styleOf c .E) (ss : ∀ c, s = some c → styleOf c .W = styleOf c .E)
    (sw : ∀ c, w = some c → styleOf c .N = styleOf c .S) (se : ∀ c, e = some c → styleOf c .N = styleOf c .S) :
    ∃ p, fromSides table (side n) (side w) (side e) (side s) = .ok p ∧ Symmetric p ∧ CornersFit p := by
  have hany : n.isSome ∨ w.isSome ∨ e.isSome ∨ s.isSome := by
    cases n <;> cases w <;> cases e <;> cases s <;> simp_all [side, Arg.given]
  obtain ⟨p, hp, _, _, _, _, _, _, _, _, hc⟩ := C113_from_sides_partial n w e s hn hw he hs hany
  refine ⟨p, hp, ?_⟩
  have key : Symmetric p := by
    have hF : Sides (fun i c => Fit i c ∧ Even i c) [side n, side e, side s, side w] := sides_of
      (fun c h => ⟨by simpa [Fit] using hn c h, by simpa [Even] using sn c h⟩)
      (fun c h => ⟨by simpa [Fit] using he c h, by simpa [Even] using se c h⟩)
      (fun c h => ⟨by simpa [Fit] using hs c h, by simpa [Even] using ss c h⟩)
      (fun c h => ⟨by simpa [Fit] using hw c h, by simpa [Even] using sw c h⟩)
    obtain ⟨f, hf, hf4, hfg⟩ := firstGiven_ok [side n, side e, side s, side w] (by
      rcases hany with h | h | h | h
      · exact ⟨0, by simpa [side_given] using h⟩
      · exact ⟨3, by simpa [side_given] using h⟩
      · exact ⟨1, by simpa [side_given] using h⟩
      · exact ⟨2, by simpa [side_given] using h⟩)
    have hck : checkSides table [side n, side e, side s, side w] = .ok () := checkSides_ok _ (by
      intro x hx t
      simp only [List.mem_cons, List.not_mem_nil, or_false] at hx
      rcases hx with rfl | rfl | rfl | rfl
      · cases n <;> simp [side]
      · cases e <;> simp [side]
      · cases s <;> simp [side]
      · cases w <;> simp [side])
    obtain ⟨c0, c1, c2, c3, er, p0, p1, p2, p3, _⟩ := rounds1_filled (fun i c => Fit i c ∧ Even i c) (fun _ _ h => h.1)
      (fun i hi c h => by
        obtain ⟨d, b, a1, a2, a3, a4⟩ := reflect_side hi h.1
        exact ⟨d, b, a1, a2, a3, a4 h.2⟩) hF hf4 hfg
    unfold fromSides at hp
    dsimp only at hp
    rw [hf] at hp
    dsimp only at hp
    rw [hck] at hp
    dsimp only at hp
    rw [if_pos h1, er] at hp
    dsimp only at hp
    simp only [Fit, Even] at p0 p1 p2 p3
    obtain ⟨p', ep, en, ee, es, ew, _⟩ := closeSides_ok (n := c0) (e := c1) (s := c2) (w := c3) (by simpa using p0.1)
      (by simpa using p1.1) (by simpa using p2.1) (by simpa using p3.1)
    rw [ep] at hp
    cases hp
    refine ⟨?_, ?_, ?_, ?_⟩
    · rw [en]; simpa using p0.2
    · rw [es]; simpa using p2.2
    · rw [ew]; simpa using p3.2
    · rw [ee]; simpa using p1.2
  exact ⟨key, C113_symmetric_sides hc key⟩

/-- C113 is false of sides given as `str` (which the signature allows): whatever else is passed, the call
raises. -/
theorem C113_str_violated (t : List BoxChar) (n w e s : Arg) (h : ∃ x, .str x ∈ [n, w, e, s]) :
    ∃ err, fromSides t n w e s = .error err := by
  obtain ⟨x, hx⟩ := h
  unfold fromSides
  dsimp only
  cases hf : firstGiven [n, e, s, w] with
  | error e => exact ⟨e, rfl⟩
  | ok f =>
    dsimp only
    cases hk : checkSides t [n, e, s, w] with
    | error e => exact ⟨e, rfl⟩
    | ok u =>
      dsimp only
      by_cases h1 : [n, e, s, w].countP (fun a => !a.given) = 3
      · rw [if_pos h1]
        have : (([n, e, s, w] : List Arg).getD ((f + 0) % 4) .none).asBdc = .error .attributeError := by
          simp only [List.mem_cons, List.not_mem_nil, or_false] at hx
          cases n <;> cases e <;> cases s <;> cases w <;> simp_all [Arg.given, firstGiven] <;>
            first
              | omega
              | (subst hf; rfl)
        refine ⟨.attributeError, ?_⟩
        rw [threeRounds, sideRound1, this]
      · rw [if_neg h1]
        cases hc : checkArms .W .E [n, s] with
        | error e => exact ⟨e, rfl⟩
        | ok u' =>
          dsimp only
          cases hd : checkArms .N .S [e, w] with
          | error e => exact ⟨e, rfl⟩
          | ok u'' =>
            exfalso
            have noStr : ∀ (a b : Direction) (l : List Arg) (v : Unit), checkArms a b l = .ok v → ∀ y, Arg.str y ∉ l := by
              intro a b l
              induction l with
              | nil => intro _ _ y hy; cases hy
              | cons z l ih =>
                intro v hv y hy
                cases z with
                | none =>
                  rw [checkArms] at hv
                  rcases List.mem_cons.mp hy with hy | hy
                  · cases hy
                  · exact ih v hv y hy
                | str q => rw [checkArms] at hv; cases hv
                | bdc q =>
                  rw [checkArms] at hv
                  split at hv
                  · cases hv
                  · rcases List.mem_cons.mp hy with hy | hy
                    · cases hy
                    · exact ih v hv y hy
            have a1 := noStr _ _ _ _ hc x
            have a2 := noStr _ _ _ _ hd x
            simp only [List.mem_cons, List.not_mem_nil, or_false, not_or] at hx a1 a2
            rcases hx with h | h | h | h
            · exact a1.1 h
            · exact a2.2 h
            · exact a2.1 h
            · exact a1.2 h

/-- C113: with no side at all `StopIteration` leaves the function, not the `ValueError` it is meant to raise. -/
theorem C113_no_side_violated (t : List BoxChar) : fromSides t .none .none .none .none = .error .stopIteration := rfl

/-! ## When the join is exact -/

theorem differ_zero {a b : Style} (h : differ a b = 0) : b = a := by
  obtain ⟨a1, a2, a3, a4⟩ := a
  obtain ⟨b1, b2, b3, b4⟩ := b
  unfold differ at h
  dsimp only at h
  by_cases h1 : a1 = b1 <;> by_cases h2 : a2 = b2 <;> by_cases h3 : a3 = b3 <;> by_cases h4 : a4 = b4 <;> simp_all

theorem off_zero {c : BoxChar} {d : Direction} {a : Style} (h : off c d a = 0) : styleOf c d = some a := by
  unfold off at h
  cases e : styleOf c d with
  | none => rw [e] at h; cases h
  | some b => rw [e] at h; rw [differ_zero h]

theorem off_self {c : BoxChar} {d : Direction} {a : Style} (h : styleOf c d = some a) : off c d a = 0 := by
  unfold off
  rw [h]
  simp [differ]

/-- There is a character with these two arms exactly when the condition says so. -/
def exactB (pairs : List (Direction × Direction)) (P : Style → Style → Bool) : Bool :=
  pairs.all fun p => occurring.all fun a => occurring.all fun b =>
    (table.any fun c => c.styles.length == 2 && (styleOf c p.1 == some a && styleOf c p.2 == some b)) == P a b

theorem exact_corners : exactB cornerPairs (fun a b => decide (Bends a b)) = true := by decide +kernel
theorem exact_sides : exactB sidePairs (fun a b => decide (Straight a b)) = true := by decide +kernel

theorem exact_of {pairs : List (Direction × Direction)} {P : Style → Style → Bool} (h : exactB pairs P = true)
    {d1 d2 : Direction} (hd : (d1, d2) ∈ pairs) {a b : Style} (ha : a ∈ occurring) (hb : b ∈ occurring) {c : BoxChar}
    (hj : Joins c d1 (some a) d2 (some b)) : (styleOf c d1 = some a ∧ styleOf c d2 = some b) ↔ P a b = true := by
  have h1 := List.all_eq_true.mp (List.all_eq_true.mp (List.all_eq_true.mp h _ hd) a ha) b hb
  rw [beq_iff_eq] at h1
  rw [← h1, List.any_eq_true]
  constructor
  · intro hs
    exact ⟨c, hj.1, by simp [hj.2.1, hs.1, hs.2]⟩
  · rintro ⟨c0, hc0, e⟩
    simp only [Bool.and_eq_true, beq_iff_eq] at e
    obtain ⟨_, _, _, _, x, y, hx, hy, hm⟩ := hj
    cases hx
    cases hy
    have := hm c0 hc0 e.1
    rw [off_self e.2.1, off_self e.2.2] at this
    exact ⟨off_zero (by omega), off_zero (by omega)⟩

/-- **C113.**  A corner that joins two arms of characters of the table has exactly their styles if and only
if both are arcs, or each is light or heavy, or each is single or double (never dashed). -/
theorem C113_corner_exact {d1 d2 : Direction} (hd : (d1, d2) ∈ cornerPairs) {a b : Style} {p q c : BoxChar} {da db : Direction}
    (hp : p ∈ table) (ha : styleOf p da = some a) (hq : q ∈ table) (hb : styleOf q db = some b)
    (hj : Joins c d1 (some a) d2 (some b)) : (styleOf c d1 = some a ∧ styleOf c d2 = some b) ↔ Bends a b := by
  have := exact_of exact_corners hd (style_occurs hp ha) (style_occurs hq hb) hj
  simpa using this

/-- **C113.**  A side that joins two arms has exactly their styles if and only if they are alike and not
arcs, or each is light or heavy. -/
theorem C113_side_exact {d1 d2 : Direction} (hd : (d1, d2) ∈ sidePairs) {a b : Style} {p q c : BoxChar} {da db : Direction}
    (hp : p ∈ table) (ha : styleOf p da = some a) (hq : q ∈ table) (hb : styleOf q db = some b)
    (hj : Joins c d1 (some a) d2 (some b)) : (styleOf c d1 = some a ∧ styleOf c d2 = some b) ↔ Straight a b := by
  have := exact_of exact_sides hd (style_occurs hp ha) (style_occurs hq hb) hj
  simpa using this

private def light : BoxChar := ⟨'─', [⟨.E, ⟨1, 1, 1, 1⟩⟩, ⟨.W, ⟨1, 1, 1, 1⟩⟩]⟩
private def heavy : BoxChar := ⟨'━', [⟨.E, ⟨2, 1, 1, 1⟩⟩, ⟨.W, ⟨2, 1, 1, 1⟩⟩]⟩

/-- C113 is false of a light top with a heavy bottom: the right side is made `╽` (light above, heavy below),
and the corner above it `┒`, heavy below, although `┐` would fit. -/
theorem C113_touching_violated : ∃ n s p, Horizontal n ∧ Horizontal s ∧
    fromSides table (side (some n)) (side none) (side none) (side (some s)) = .ok p ∧
    p.ne.char = '┒' ∧ p.e.char = '╽' ∧ ¬ CornersFit p := by
  refine ⟨light, heavy, ⟨⟨'┎', [⟨.E, ⟨1, 1, 1, 1⟩⟩, ⟨.S, ⟨2, 1, 1, 1⟩⟩]⟩, light, ⟨'┒', [⟨.S, ⟨2, 1, 1, 1⟩⟩, ⟨.W, ⟨1, 1, 1, 1⟩⟩]⟩,
    ⟨'╽', [⟨.N, ⟨1, 1, 1, 1⟩⟩, ⟨.S, ⟨2, 1, 1, 1⟩⟩]⟩, ⟨'╽', [⟨.N, ⟨1, 1, 1, 1⟩⟩, ⟨.S, ⟨2, 1, 1, 1⟩⟩]⟩,
    ⟨'┕', [⟨.N, ⟨1, 1, 1, 1⟩⟩, ⟨.E, ⟨2, 1, 1, 1⟩⟩]⟩, heavy, ⟨'┙', [⟨.N, ⟨1, 1, 1, 1⟩⟩, ⟨.W, ⟨2, 1, 1, 1⟩⟩]⟩⟩, ?_, ?_, ?_, rfl, rfl, ?_⟩
  · unfold Horizontal; decide +kernel
  · unfold Horizontal; decide +kernel
  · decide +kernel
  · intro h
    obtain ⟨_, _, _, _, x, y, hx, hy, hm⟩ := h.ne
    have ex : x = ⟨1, 1, 1, 1⟩ := by
      have : styleOf light .E = some ⟨1, 1, 1, 1⟩ := by decide
      rw [this] at hx; exact (Option.some.inj hx).symm
    have ey : y = ⟨1, 1, 1, 1⟩ := by
      have : styleOf (⟨'╽', [⟨.N, ⟨1, 1, 1, 1⟩⟩, ⟨.S, ⟨2, 1, 1, 1⟩⟩]⟩ : BoxChar) .N = some ⟨1, 1, 1, 1⟩ := by decide
      rw [this] at hy; exact (Option.some.inj hy).symm
    subst ex ey
    have := hm ⟨'┐', [⟨.S, ⟨1, 1, 1, 1⟩⟩, ⟨.W, ⟨1, 1, 1, 1⟩⟩]⟩ (by decide +kernel) rfl
    revert this
    decide

/-- Non-vacuity: a box from its heavy bottom. -/
example : (∃ c, Horizontal c ∧ styleOf c .W = styleOf c .E ∧
    fromSides table (side none) (side none) (side none) (side (some c)) = .ok
      ⟨⟨'┏', [⟨.E, ⟨2, 1, 1, 1⟩⟩, ⟨.S, ⟨2, 1, 1, 1⟩⟩]⟩, heavy, ⟨'┓', [⟨.S, ⟨2, 1, 1, 1⟩⟩, ⟨.W, ⟨2, 1, 1, 1⟩⟩]⟩,
        ⟨'┃', [⟨.N, ⟨2, 1, 1, 1⟩⟩, ⟨.S, ⟨2, 1, 1, 1⟩⟩]⟩, ⟨'┃', [⟨.N, ⟨2, 1, 1, 1⟩⟩, ⟨.S, ⟨2, 1, 1, 1⟩⟩]⟩,
        ⟨'┗', [⟨.N, ⟨2, 1, 1, 1⟩⟩, ⟨.E, ⟨2, 1, 1, 1⟩⟩]⟩, heavy, ⟨'┛', [⟨.N, ⟨2, 1, 1, 1⟩⟩, ⟨.W, ⟨2, 1, 1, 1⟩⟩]⟩⟩) := by
  refine ⟨heavy, ?_, by decide, by decide +kernel⟩
  unfold Horizontal
  decide +kernel

end Pawpaw.Props
