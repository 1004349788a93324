import Verif.Props.BoxSides
/-!
# C114: boxes from their corners
-/
set_option linter.unusedSectionVars false
set_option maxRecDepth 100000
namespace Pawpaw.Props
open Box BoxSpec BoxTable

/-- The code's table of corner arms is the one of the specification. -/
theorem cornerDirs_eq : cornerDirs = placeArms := rfl

theorem rotate_corner {i : Nat} (hi : i < 4) {c : BoxChar} (h : CornerFit i c) :
    ∃ b, c.rotate table 90 = .ok b ∧ CornerFit ((i + 1) % 4) b := by
  obtain ⟨b, hb, e, hs⟩ := C112_rotate h.1 1
  have n : styleOf b .N = styleOf c .W := hs .W .N (by decide)
  have s : styleOf b .S = styleOf c .E := hs .E .S (by decide)
  have ee : styleOf b .E = styleOf c .N := hs .N .E (by decide)
  have w : styleOf b .W = styleOf c .S := hs .S .W (by decide)
  refine ⟨b, e, hb, ?_⟩
  have : i = 0 ∨ i = 1 ∨ i = 2 ∨ i = 3 := by omega
  rcases this with rfl | rfl | rfl | rfl <;> simp only [CornerFit, cornerDirs, placeArms] at h ⊢ <;> simp_all

theorem reflect_corner {i : Nat} (hi : i < 4) {c : BoxChar} (h : CornerFit i c) :
    ∃ b, c.reflect table (cornerDirs i).2 = .ok b ∧ CornerFit ((i + 1) % 4) b := by
  have : i = 0 ∨ i = 1 ∨ i = 2 ∨ i = 3 := by omega
  rcases this with rfl | rfl | rfl | rfl
  · obtain ⟨b, hb, e, hs⟩ := C112_reflect h.1 .S
    have a1 : styleOf b .S = styleOf c .S := hs .S .S (by decide)
    have a2 : styleOf b .W = styleOf c .E := hs .E .W (by decide)
    refine ⟨b, e, hb, ?_⟩
    simp only [CornerFit, cornerDirs, placeArms] at h ⊢
    simp_all
  · obtain ⟨b, hb, e, hs⟩ := C112_reflect h.1 .W
    have a1 : styleOf b .W = styleOf c .W := hs .W .W (by decide)
    have a2 : styleOf b .N = styleOf c .S := hs .S .N (by decide)
    refine ⟨b, e, hb, ?_⟩
    simp only [CornerFit, cornerDirs, placeArms] at h ⊢
    simp_all
  · obtain ⟨b, hb, e, hs⟩ := C112_reflect h.1 .N
    have a1 : styleOf b .N = styleOf c .N := hs .N .N (by decide)
    have a2 : styleOf b .E = styleOf c .W := hs .W .E (by decide)
    refine ⟨b, e, hb, ?_⟩
    simp only [CornerFit, cornerDirs, placeArms] at h ⊢
    simp_all
  · obtain ⟨b, hb, e, hs⟩ := C112_reflect h.1 .E
    have a1 : styleOf b .E = styleOf c .E := hs .E .E (by decide)
    have a2 : styleOf b .S = styleOf c .N := hs .N .S (by decide)
    refine ⟨b, e, hb, ?_⟩
    simp only [CornerFit, cornerDirs, placeArms] at h ⊢
    simp_all

theorem join_corner {i : Nat} (hi : i < 4) {p q : BoxChar} (hp : CornerFit i p) (hq : CornerFit ((i + 2) % 4) q) :
    ∃ b, joinE table (armRot p (cornerDirs i).1 180) (armRot q (cornerDirs ((i + 2) % 4)).2 180) = .ok b ∧
      CornerFit ((i + 1) % 4) b := by
  have : i = 0 ∨ i = 1 ∨ i = 2 ∨ i = 3 := by omega
  rcases this with rfl | rfl | rfl | rfl
  · obtain ⟨b, e, hj⟩ := joinE_rot (k1 := 180) (k2 := 180) (d1' := .W) (d2' := .S) hp.1 hq.1 hp.2.1 hq.2.2 (by decide) (by decide) joins_WS
    exact ⟨b, e, hj.1, hj.2.2.2.1, hj.2.2.1⟩
  · obtain ⟨b, e, hj⟩ := joinE_rot (k1 := 180) (k2 := 180) (d1' := .N) (d2' := .W) hp.1 hq.1 hp.2.1 hq.2.2 (by decide) (by decide) joins_NW
    exact ⟨b, e, hj.1, hj.2.2.2.1, hj.2.2.1⟩
  · obtain ⟨b, e, hj⟩ := joinE_rot (k1 := 180) (k2 := 180) (d1' := .E) (d2' := .N) hp.1 hq.1 hp.2.1 hq.2.2 (by decide) (by decide) joins_EN
    exact ⟨b, e, hj.1, hj.2.2.2.1, hj.2.2.1⟩
  · obtain ⟨b, e, hj⟩ := joinE_rot (k1 := 180) (k2 := 180) (d1' := .S) (d2' := .E) hp.1 hq.1 hp.2.1 hq.2.2 (by decide) (by decide) joins_SE
    exact ⟨b, e, hj.1, hj.2.2.2.1, hj.2.2.1⟩

theorem cornerRound_filled (l : List Arg) (first i : Nat) (hl : Sides CornerFit l)
    (hg : (l.getD ((first + i) % 4) .none).given = true) :
    ∃ l', cornerRound table first i l = .ok l' ∧ Filled CornerFit l l' (((first + i) % 4 + 1) % 4) := by
  generalize hp : (first + i) % 4 = p at hg ⊢
  have hp4 : p < 4 := by omega
  obtain ⟨cp, e1, f1⟩ := hl.given hp4 hg
  unfold cornerRound
  dsimp only
  rw [hp]
  by_cases hc : (l.getD ((p + 1) % 4) .none).given = true
  · rw [if_pos hc]
    exact ⟨l, rfl, hl, hc, fun _ _ => rfl, fun _ => rfl⟩
  · rw [if_neg hc, e1]
    simp only [Arg.asBdc]
    have fill : ∀ b, CornerFit ((p + 1) % 4) b → Filled CornerFit l (l.set ((p + 1) % 4) (.bdc b)) ((p + 1) % 4) := by
      intro b hb
      have hlt : (p + 1) % 4 < l.length := by rw [hl.len]; omega
      refine ⟨hl.set (by omega) hb, ?_, fun j hj => ?_, fun h => absurd h hc⟩
      · rw [getD_set l _ _ _ hlt, if_pos rfl]; rfl
      · rw [getD_set l _ _ _ hlt, if_neg hj]
    by_cases hn : (l.getD (((p + 1) % 4 + 1) % 4) .none).given = true
    · rw [hn]
      simp only [Bool.not_true, Bool.false_eq_true, if_false]
      obtain ⟨cq, e2, f2⟩ := hl.given (by omega) hn
      rw [e2]
      dsimp only
      rw [show ((p + 1) % 4 + 1) % 4 = (p + 2) % 4 by omega] at f2 ⊢
      obtain ⟨b, e, hb⟩ := join_corner hp4 f1 f2
      rw [e]
      exact ⟨_, rfl, fill b hb⟩
    · rw [Bool.not_eq_true] at hn
      rw [hn]
      simp only [Bool.not_false, if_true]
      obtain ⟨b, e, hb⟩ := rotate_corner hp4 f1
      rw [e]
      exact ⟨_, rfl, fill b hb⟩

/-- With a single corner, the place to be filled is empty in every round. -/
theorem cornerRound1_filled {l : List Arg} (hl : Sides CornerFit l) (first i : Nat)
    (hg : (l.getD ((first + i) % 4) .none).given = true) :
    ∃ b, cornerRound1 table first i l = .ok (l.set (((first + i) % 4 + 1) % 4) (.bdc b)) ∧
      CornerFit (((first + i) % 4 + 1) % 4) b := by
  generalize hp : (first + i) % 4 = p at hg ⊢
  have hp4 : p < 4 := by omega
  obtain ⟨cp, e1, f1⟩ := hl.given hp4 hg
  obtain ⟨b, h2, h3⟩ := reflect_corner hp4 f1
  refine ⟨b, ?_, h3⟩
  unfold cornerRound1
  dsimp only
  rw [hp, e1]
  simp only [Arg.asBdc, h2]

theorem cornerRounds1 {c : BoxChar} {j : Nat} (hj : j < 4) (hc : CornerFit j c) :
    ∃ c0 c1 c2 c3, threeRounds (cornerRound1 table j) ([Arg.none, .none, .none, .none].set j (.bdc c)) =
        .ok [.bdc c0, .bdc c1, .bdc c2, .bdc c3] ∧ CornerFit 0 c0 ∧ CornerFit 1 c1 ∧ CornerFit 2 c2 ∧ CornerFit 3 c3 ∧
      [c0, c1, c2, c3][j]? = some c := by
  have h0 : Sides CornerFit [Arg.none, .none, .none, .none] := ⟨rfl, fun i hi => by
    have : i = 0 ∨ i = 1 ∨ i = 2 ∨ i = 3 := by omega
    rcases this with rfl | rfl | rfl | rfl <;> exact Or.inl rfl⟩
  have hl := h0.set hj hc
  have hlen : ∀ (l : List Arg) (k : Nat), Sides CornerFit l → ((k + 1) % 4) < l.length := by
    intro l k h; rw [h.len]; omega
  generalize hL : [Arg.none, .none, .none, .none].set j (.bdc c) = l at hl
  have hgj : l.getD j .none = .bdc c := by rw [← hL, getD_set _ _ _ _ (by simpa using hj), if_pos rfl]
  have st : ∀ (l : List Arg) (i : Nat), Sides CornerFit l → (l.getD ((j + i) % 4) .none).given = true →
      ∃ l', cornerRound1 table j i l = .ok l' ∧ Sides CornerFit l' ∧ (l'.getD (((j + i) % 4 + 1) % 4) .none).given = true ∧
        ∀ k, k ≠ ((j + i) % 4 + 1) % 4 → l'.getD k .none = l.getD k .none := by
    intro l i hl hg
    obtain ⟨b, e, hb⟩ := cornerRound1_filled hl j i hg
    refine ⟨_, e, hl.set (by omega) hb, ?_, fun k hk => ?_⟩
    · rw [getD_set l _ _ _ (hlen l _ hl), if_pos rfl]; rfl
    · rw [getD_set l _ _ _ (hlen l _ hl), if_neg hk]
  obtain ⟨l1, e1, s1, g1, o1⟩ := st l 0 hl (by rw [Nat.add_zero, Nat.mod_eq_of_lt hj, hgj]; rfl)
  obtain ⟨l2, e2, s2, g2, o2⟩ := st l1 1 s1 (by rw [show (j + 1) % 4 = ((j + 0) % 4 + 1) % 4 by omega]; exact g1)
  obtain ⟨l3, e3, s3, g3, o3⟩ := st l2 2 s2 (by rw [show (j + 2) % 4 = ((j + 1) % 4 + 1) % 4 by omega]; exact g2)
  have hj3 : l3.getD j .none = .bdc c := by rw [o3 j (by omega), o2 j (by omega), o1 j (by omega), hgj]
  have all : ∀ k < 4, (l3.getD k .none).given = true := by
    intro k hk
    by_cases h3 : k = ((j + 2) % 4 + 1) % 4
    · rw [h3]; exact g3
    · rw [o3 k h3]
      by_cases h2 : k = ((j + 1) % 4 + 1) % 4
      · rw [h2]; exact g2
      · rw [o2 k h2]
        by_cases h1 : k = ((j + 0) % 4 + 1) % 4
        · rw [h1]; exact g1
        · rw [o1 k h1, show k = j by omega, hgj]; rfl
  obtain ⟨c0, q0, p0⟩ := s3.given (by decide : 0 < 4) (all 0 (by decide))
  obtain ⟨c1, q1, p1⟩ := s3.given (by decide : 1 < 4) (all 1 (by decide))
  obtain ⟨c2, q2, p2⟩ := s3.given (by decide : 2 < 4) (all 2 (by decide))
  obtain ⟨c3, q3, p3⟩ := s3.given (by decide : 3 < 4) (all 3 (by decide))
  have hl3 : l3 = [.bdc c0, .bdc c1, .bdc c2, .bdc c3] := by
    have hlen := s3.len
    match l3, hlen with
    | [a, b, c, d], _ =>
      simp only [List.getD_cons_zero, List.getD_cons_succ] at q0 q1 q2 q3
      rw [q0, q1, q2, q3]
  refine ⟨c0, c1, c2, c3, ?_, p0, p1, p2, p3, ?_⟩
  · rw [threeRounds, e1]
    dsimp only
    rw [e2]
    dsimp only
    rw [e3, hl3]
  · rw [hl3] at hj3
    have : j = 0 ∨ j = 1 ∨ j = 2 ∨ j = 3 := by omega
    rcases this with rfl | rfl | rfl | rfl <;>
      simp only [List.getD_cons_zero, List.getD_cons_succ, Arg.bdc.injEq] at hj3 <;> rw [← hj3] <;> rfl

/-! ## Which corner goes where -/

theorem mem_permutations : ∀ (k : Nat) (xs p : List Nat), p ∈ permutations k xs ↔
    p.length = k ∧ p.Nodup ∧ ∀ x ∈ p, x ∈ xs
  | 0, xs, p => by
    rw [permutations, List.mem_singleton]
    constructor
    · rintro rfl; simp
    · intro h; exact List.length_eq_zero_iff.mp h.1
  | k + 1, xs, p => by
    rw [permutations, List.mem_flatMap]
    constructor
    · rintro ⟨x, hx, hm⟩
      obtain ⟨q, hq, rfl⟩ := List.mem_map.mp hm
      obtain ⟨h1, h2, h3⟩ := (mem_permutations k _ q).mp hq
      refine ⟨by simp [h1], List.nodup_cons.mpr ⟨fun hc => ?_, h2⟩, fun y hy => ?_⟩
      · have := h3 x hc
        simp at this
      · rcases List.mem_cons.mp hy with rfl | hy
        · exact hx
        · exact (List.mem_filter.mp (h3 y hy)).1
    · rintro ⟨h1, h2, h3⟩
      cases p with
      | nil => cases h1
      | cons x q =>
        rw [List.nodup_cons] at h2
        refine ⟨x, h3 x (by simp), List.mem_map.mpr ⟨q, (mem_permutations k _ q).mpr ⟨by simpa using h1, h2.2, fun y hy => ?_⟩, rfl⟩⟩
        rw [List.mem_filter]
        exact ⟨h3 y (by simp [hy]), by simpa using fun e : y = x => h2.1 (e ▸ hy)⟩

theorem bestPerm_spec (cs : List BoxChar) : ∀ (ps : List (List Nat)) (best : Option (List Nat × Nat)),
    (∀ q b, best = some (q, b) → b ≠ cs.length * 2) →
    (∃ p ∈ ps, permScore cs p = cs.length * 2 ∧ bestPerm cs best ps = some (p, cs.length * 2)) ∨
    ((∀ p ∈ ps, permScore cs p ≠ cs.length * 2) ∧ ∀ q b, bestPerm cs best ps = some (q, b) → b ≠ cs.length * 2)
  | [], best, hb => Or.inr ⟨by simp, fun q b h => hb q b (by simpa [bestPerm] using h)⟩
  | p :: ps, best, hb => by
    by_cases h : permScore cs p = cs.length * 2
    · left
      exact ⟨p, by simp, h, by rw [bestPerm.eq_def]; exact (if_pos h).trans (by rw [h])⟩
    · have step : ∃ best', bestPerm cs best (p :: ps) = bestPerm cs best' ps ∧ ∀ q b, best' = some (q, b) → b ≠ cs.length * 2 := by
        cases best with
        | none =>
          refine ⟨some (p, permScore cs p), by rw [bestPerm, if_neg h], fun q b e => ?_⟩
          cases e; exact h
        | some qb =>
          obtain ⟨q, b⟩ := qb
          by_cases hgt : permScore cs p > b
          · refine ⟨some (p, permScore cs p), by rw [bestPerm.eq_def]; exact (if_neg h).trans (if_pos hgt), fun q b e => ?_⟩
            cases e; exact h
          · exact ⟨some (q, b), by rw [bestPerm.eq_def]; exact (if_neg h).trans (if_neg hgt), hb⟩
      obtain ⟨best', e, hb'⟩ := step
      rcases bestPerm_spec cs ps best' hb' with ⟨p', h1, h2, h3⟩ | ⟨h1, h2⟩
      · exact Or.inl ⟨p', by simp [h1], h2, by rw [e, h3]⟩
      · refine Or.inr ⟨fun p' hp' => ?_, fun q b h' => h2 q b (by rw [← e, h'])⟩
        rcases List.mem_cons.mp hp' with rfl | hp'
        · exact h
        · exact h1 p' hp'

theorem cornerScore_two (c : BoxChar) (j : Nat) : cornerScore c j ≤ 2 ∧
    (cornerScore c j = 2 ↔ (styleOf c (cornerDirs j).1).isSome ∧ (styleOf c (cornerDirs j).2).isSome) := by
  unfold cornerScore
  simp only [styleOf_arm, Option.isSome_map]
  by_cases h1 : (arm c (cornerDirs j).1).isSome = true <;> by_cases h2 : (arm c (cornerDirs j).2).isSome = true <;>
    simp [h1, h2]

theorem permScore_full : ∀ (cs : List BoxChar) (p : List Nat), p.length = cs.length →
    permScore cs p ≤ cs.length * 2 ∧ (permScore cs p = cs.length * 2 ↔
      ∀ (i : Nat) (c : BoxChar) (j : Nat), cs[i]? = some c → p[i]? = some j →
        (styleOf c (cornerDirs j).1).isSome ∧ (styleOf c (cornerDirs j).2).isSome)
  | [], [], _ => by simp [permScore]
  | [], _ :: _, h => by cases h
  | _ :: _, [], h => by cases h
  | c :: cs, j :: js, h => by
    have ih := permScore_full cs js (by simpa using h)
    have hc := cornerScore_two c j
    have e : permScore (c :: cs) (j :: js) = cornerScore c j + permScore cs js := by simp [permScore]
    rw [e]
    refine ⟨by simp only [List.length_cons]; omega, ?_⟩
    constructor
    · intro hs
      have h1 : cornerScore c j = 2 := by simp only [List.length_cons] at hs; omega
      have h2 : permScore cs js = cs.length * 2 := by simp only [List.length_cons] at hs; omega
      intro i c' j' hi hj
      cases i with
      | zero =>
        simp only [List.getElem?_cons_zero, Option.some.injEq] at hi hj
        subst hi hj
        exact hc.2.mp h1
      | succ i => exact ih.2.mp h2 i c' j' (by simpa using hi) (by simpa using hj)
    · intro hall
      have h1 := hc.2.mpr (hall 0 c j rfl rfl)
      have h2 := ih.2.mpr (fun i c' j' hi hj => hall (i + 1) c' j' (by simpa using hi) (by simpa using hj))
      simp only [List.length_cons]
      omega

theorem placeCorners_spec : ∀ (cs : List BoxChar) (p : List Nat) (tmp : List Arg), p.length = cs.length → p.Nodup →
    (∀ j ∈ p, j < tmp.length) → (placeCorners cs p tmp).length = tmp.length ∧
    (∀ (i : Nat) (c : BoxChar) (j : Nat), cs[i]? = some c → p[i]? = some j → (placeCorners cs p tmp).getD j .none = .bdc c) ∧
    ∀ j, j ∉ p → (placeCorners cs p tmp).getD j .none = tmp.getD j .none
  | [], [], tmp, _, _, _ => ⟨rfl, by simp, fun _ _ => rfl⟩
  | [], _ :: _, _, h, _, _ => by cases h
  | _ :: _, [], _, h, _, _ => by cases h
  | c :: cs, j :: js, tmp, h, hn, hlt => by
    rw [List.nodup_cons] at hn
    have hj := hlt j (by simp)
    obtain ⟨h1, h2, h3⟩ := placeCorners_spec cs js (tmp.set j (.bdc c)) (by simpa using h) hn.2
      (fun k hk => by rw [List.length_set]; exact hlt k (by simp [hk]))
    rw [placeCorners]
    refine ⟨by rw [h1, List.length_set], fun i c' j' hi hj' => ?_, fun k hk => ?_⟩
    · cases i with
      | zero =>
        simp only [List.getElem?_cons_zero, Option.some.injEq] at hi hj'
        subst hi hj'
        rw [h3 j hn.1, getD_set tmp j j _ hj, if_pos rfl]
      | succ i => exact h2 i c' j' (by simpa using hi) (by simpa using hj')
    · rw [List.mem_cons, not_or] at hk
      rw [h3 k hk.2, getD_set tmp j k _ hj, if_neg hk.1]

theorem closeCorners_ok {c0 c1 c2 c3 : BoxChar} (h0 : CornerFit 0 c0) (h1 : CornerFit 1 c1) (h2 : CornerFit 2 c2)
    (h3 : CornerFit 3 c3) : ∃ p, closeCorners table [.bdc c0, .bdc c1, .bdc c2, .bdc c3] = .ok p ∧
      p.nw = c0 ∧ p.ne = c1 ∧ p.se = c2 ∧ p.sw = c3 ∧ SidesFit p := by
  obtain ⟨s0, e0, j0⟩ := joinE_rot (k1 := 180) (k2 := 180) (d1' := .W) (d2' := .E) h0.1 h1.1 h0.2.1 h1.2.2 (by decide : Direction.rotate _ 180 = _) (by decide : Direction.rotate _ 180 = _) joins_WE
  obtain ⟨s1, e1, j1⟩ := joinE_rot (k1 := 180) (k2 := 180) (d1' := .N) (d2' := .S) h1.1 h2.1 h1.2.1 h2.2.2 (by decide : Direction.rotate _ 180 = _) (by decide : Direction.rotate _ 180 = _) joins_NS
  obtain ⟨s2, e2, j2⟩ := joinE_rot (k1 := 180) (k2 := 180) (d1' := .E) (d2' := .W) h2.1 h3.1 h2.2.1 h3.2.2 (by decide : Direction.rotate _ 180 = _) (by decide : Direction.rotate _ 180 = _) joins_EW
  obtain ⟨s3, e3, j3⟩ := joinE_rot (k1 := 180) (k2 := 180) (d1' := .S) (d2' := .N) h3.1 h0.1 h3.2.1 h0.2.2 (by decide : Direction.rotate _ 180 = _) (by decide : Direction.rotate _ 180 = _) joins_SN
  have k0 : sideAt table [.bdc c0, .bdc c1, .bdc c2, .bdc c3] 0 = .ok s0 := e0
  have k1 : sideAt table [.bdc c0, .bdc c1, .bdc c2, .bdc c3] 1 = .ok s1 := e1
  have k2 : sideAt table [.bdc c0, .bdc c1, .bdc c2, .bdc c3] 2 = .ok s2 := e2
  have k3 : sideAt table [.bdc c0, .bdc c1, .bdc c2, .bdc c3] 3 = .ok s3 := e3
  refine ⟨⟨c0, s0, c1, s3, s1, c3, s2, c2⟩, ?_, rfl, rfl, rfl, rfl, ⟨j0, j1, j2, j3⟩⟩
  rw [closeCorners]
  simp only [mapE, k0, k1, k2, k3, Arg.asBdc]

theorem mapE_bdc (cs : List BoxChar) : mapE (Arg.corner table) (cs.map .bdc) = .ok cs := by
  induction cs with
  | nil => rfl
  | cons c cs ih => simp [mapE, Arg.corner, ih]

/-- **C114.**  For any one to four box drawing characters: if they can be put, each in a place of its own,
where they have the arms a corner there needs, `from_corners` finds such a way, keeps every character at its
place, makes the missing corners, and gives each side the nearest style to the corner arms that touch it. -/
theorem C114_from_corners (cs : List BoxChar) (hcs : ∀ c ∈ cs, c ∈ table) (h1 : cs ≠ []) (h4 : cs.length ≤ 4)
    (hex : ∃ p, Places cs p) :
    ∃ p b, Places cs p ∧ fromCorners table (cs.map .bdc) = .ok b ∧
      (∀ (i : Nat) (c : BoxChar) (j : Nat), cs[i]? = some c → p[i]? = some j → cornerOf b j = c) ∧
      CornerFit 0 b.nw ∧ CornerFit 1 b.ne ∧ CornerFit 2 b.se ∧ CornerFit 3 b.sw ∧ SidesFit b := by
  obtain ⟨q, hq⟩ := hex
  have hpos : 0 < cs.length := List.length_pos_iff.mpr h1
  rcases bestPerm_spec cs (permutations cs.length [0, 1, 2, 3]) none (by simp) with ⟨p, hp, hs, hb⟩ | ⟨hn, _⟩
  · obtain ⟨l1, l2, l3⟩ := (mem_permutations _ _ _).mp hp
    have hlt : ∀ j ∈ p, j < 4 := fun j hj => by
      have := l3 j hj
      simp only [List.mem_cons, List.not_mem_nil, or_false] at this
      omega
    have hpl : Places cs p := ⟨l1, l2, hlt, (permScore_full cs p l1).2.mp hs⟩
    obtain ⟨t1, t2, t3⟩ := placeCorners_spec cs p [.none, .none, .none, .none] l1 l2 hlt
    have hmem : ∀ j ∈ p, ∃ (i : Nat) (c : BoxChar), cs[i]? = some c ∧ p[i]? = some j := by
      intro j hj
      obtain ⟨i, hi, e⟩ := List.getElem_of_mem hj
      exact ⟨i, cs[i]'(by omega), List.getElem?_eq_getElem _, by rw [List.getElem?_eq_getElem hi, e]⟩
    have hS : Sides CornerFit (placeCorners cs p [.none, .none, .none, .none]) := by
      refine ⟨t1, fun j hj => ?_⟩
      by_cases hm : j ∈ p
      · obtain ⟨i, c, e1, e2⟩ := hmem j hm
        exact Or.inr ⟨c, t2 i c j e1 e2, hcs c (List.mem_of_getElem? e1), hpl.2.2.2 i c j e1 e2⟩
      · left
        rw [t3 j hm]
        have : j = 0 ∨ j = 1 ∨ j = 2 ∨ j = 3 := by omega
        rcases this with rfl | rfl | rfl | rfl <;> rfl
    obtain ⟨f, hf, hf4, hfg⟩ := firstGiven_ok (placeCorners cs p [.none, .none, .none, .none]) (by
      obtain ⟨c, cs', e⟩ := List.exists_cons_of_ne_nil h1
      have hp0 : 0 < p.length := by omega
      exact ⟨p[0], by rw [t2 0 c p[0] (by rw [e]; rfl) (List.getElem?_eq_getElem hp0)]; rfl⟩)
    rw [t1] at hf4
    have hf4' : f < 4 := hf4
    have main : ∃ c0 c1 c2 c3, threeRounds (if cs.length = 1 then cornerRound1 table f else cornerRound table f)
          (placeCorners cs p [.none, .none, .none, .none]) = .ok [.bdc c0, .bdc c1, .bdc c2, .bdc c3] ∧
        CornerFit 0 c0 ∧ CornerFit 1 c1 ∧ CornerFit 2 c2 ∧ CornerFit 3 c3 ∧
        ∀ (i : Nat) (c : BoxChar) (j : Nat), cs[i]? = some c → p[i]? = some j → [c0, c1, c2, c3][j]? = some c := by
      by_cases hone : cs.length = 1
      · rw [if_pos hone]
        obtain ⟨c, rfl⟩ := List.length_eq_one_iff.mp hone
        obtain ⟨j, rfl⟩ := List.length_eq_one_iff.mp (l1.trans hone)
        have hj4 := hlt j (by simp)
        have hfit : CornerFit j c := ⟨hcs c (by simp), hpl.2.2.2 0 c j rfl rfl⟩
        have hfj : f = j := by
          apply Decidable.byContradiction
          intro hne
          rw [t3 f (by simpa using hne)] at hfg
          have : f = 0 ∨ f = 1 ∨ f = 2 ∨ f = 3 := by omega
          rcases this with rfl | rfl | rfl | rfl <;> cases hfg
        subst hfj
        obtain ⟨c0, c1, c2, c3, e, p0, p1, p2, p3, hk⟩ := cornerRounds1 hf4' hfit
        refine ⟨c0, c1, c2, c3, e, p0, p1, p2, p3, fun i c' j' hi hj' => ?_⟩
        cases i with
        | zero =>
          simp only [List.getElem?_cons_zero, Option.some.injEq] at hi hj'
          subst hi hj'; exact hk
        | succ i => simp at hi
      · rw [if_neg hone]
        obtain ⟨c0, c1, c2, c3, e, p0, p1, p2, p3, hk⟩ := rounds_filled (P := CornerFit) (f := cornerRound table)
          cornerRound_filled hS hf4' hfg
        refine ⟨c0, c1, c2, c3, e, p0, p1, p2, p3, fun i c j hi hj => ?_⟩
        have hj4 := hlt j (List.mem_of_getElem? hj)
        have := hk j (by rw [t2 i c j hi hj]; rfl)
        rw [t2 i c j hi hj] at this
        have h : j = 0 ∨ j = 1 ∨ j = 2 ∨ j = 3 := by omega
        rcases h with rfl | rfl | rfl | rfl <;>
          simp only [List.getD_cons_zero, List.getD_cons_succ, Arg.bdc.injEq] at this <;> rw [← this] <;> rfl
    obtain ⟨c0, c1, c2, c3, e, p0, p1, p2, p3, hk⟩ := main
    obtain ⟨b, eb, b0, b1, b2, b3, hfit⟩ := closeCorners_ok p0 p1 p2 p3
    refine ⟨p, b, hpl, ?_, fun i c j hi hj => ?_, by rw [b0]; exact p0, by rw [b1]; exact p1, by rw [b2]; exact p2,
      by rw [b3]; exact p3, hfit⟩
    · unfold fromCorners
      rw [List.length_map, if_neg (by omega), if_neg (by omega), mapE_bdc]
      dsimp only
      rw [hb]
      dsimp only
      rw [if_neg (by simp)]
      rw [hf]
      dsimp only
      rw [e]
      exact eb
    · have hj4 := hlt j (List.mem_of_getElem? hj)
      have := hk i c j hi hj
      have h : j = 0 ∨ j = 1 ∨ j = 2 ∨ j = 3 := by omega
      rcases h with rfl | rfl | rfl | rfl <;> simp only [List.getElem?_cons_zero, List.getElem?_cons_succ, Option.some.injEq] at this <;>
        simp only [cornerOf] <;> rw [← this]
      · exact b0
      · exact b1
      · exact b2
      · exact b3
  · exact absurd ((permScore_full cs q hq.1).2.mpr hq.2.2.2) (hn q ((mem_permutations _ _ _).mpr ⟨hq.1, hq.2.1, fun j hj => by
      have := hq.2.2.1 j hj
      simp only [List.mem_cons, List.not_mem_nil, or_false]
      omega⟩))

/-- **C114.**  In every other case `from_corners` raises `ValueError`: no corner, more than four, or corners
that cannot each have a place of their own. -/
theorem C114_refuses (cs : List BoxChar) (h : cs = [] ∨ 4 < cs.length ∨ ¬ ∃ p, Places cs p) :
    fromCorners table (cs.map .bdc) = .error .valueError := by
  unfold fromCorners
  rw [List.length_map]
  by_cases h0 : cs.length = 0
  · rw [if_pos h0]
  · rw [if_neg h0]
    by_cases h4 : cs.length > 4
    · rw [if_pos h4]
    · rw [if_neg h4, mapE_bdc]
      dsimp only
      have hno : ¬ ∃ p, Places cs p := by
        rcases h with rfl | h | h
        · exact absurd rfl h0
        · exact absurd h h4
        · exact h
      rcases bestPerm_spec cs (permutations cs.length [0, 1, 2, 3]) none (by simp) with ⟨p, hp, hs, hb⟩ | ⟨_, hb⟩
      · obtain ⟨l1, l2, l3⟩ := (mem_permutations _ _ _).mp hp
        exact absurd ⟨p, l1, l2, fun j hj => by
          have := l3 j hj
          simp only [List.mem_cons, List.not_mem_nil, or_false] at this
          omega, (permScore_full cs p l1).2.mp hs⟩ hno
      · cases e : bestPerm cs none (permutations cs.length [0, 1, 2, 3]) with
        | none => rfl
        | some r =>
          obtain ⟨q, b⟩ := r
          dsimp only
          rw [if_pos (hb q b e)]

theorem mapE_corner_str : ∀ (cs : List BoxChar) (args : List Arg), (∀ c ∈ cs, c ∈ table) →
    args.length = cs.length →
    (∀ (i : Nat) (a : Arg) (c : BoxChar), args[i]? = some a → cs[i]? = some c → a = .bdc c ∨ a = .str c.char.toString) →
    mapE (Arg.corner table) args = .ok cs
  | [], [], _, _, _ => rfl
  | [], _ :: _, _, h, _ => by cases h
  | _ :: _, [], _, h, _ => by cases h
  | c :: cs, a :: args, hc, hl, h => by
    have ih := mapE_corner_str cs args (fun x hx => hc x (by simp [hx])) (by simpa using hl)
      (fun i a' c' h1 h2 => h (i + 1) a' c' (by simpa using h1) (by simpa using h2))
    have ha : Arg.corner table a = .ok c := by
      rcases h 0 a c rfl rfl with rfl | rfl
      · rfl
      · obtain ⟨x, hx, e⟩ := List.mem_map.mp (hc c (by simp))
        obtain ⟨nm, c'⟩ := x
        dsimp only at e
        subst e
        exact (C112_lookup hx).1
    rw [mapE, ha, ih]

/-- **C114.**  A corner may as well be given as a `str`. -/
theorem C114_str (cs : List BoxChar) (args : List Arg) (hcs : ∀ c ∈ cs, c ∈ table) (hl : args.length = cs.length)
    (h : ∀ (i : Nat) (a : Arg) (c : BoxChar), args[i]? = some a → cs[i]? = some c → a = .bdc c ∨ a = .str c.char.toString) :
    fromCorners table args = fromCorners table (cs.map .bdc) := by
  unfold fromCorners
  rw [List.length_map, hl, mapE_corner_str cs args hcs hl h, mapE_bdc]

/-- Non-vacuity: an arc above left and a heavy corner below right. -/
example : ∃ cs p, (∀ c ∈ cs, c ∈ table) ∧ cs ≠ [] ∧ cs.length ≤ 4 ∧ Places cs p := by
  refine ⟨[⟨'┛', [⟨.N, ⟨2, 1, 1, 1⟩⟩, ⟨.W, ⟨2, 1, 1, 1⟩⟩]⟩, ⟨'╭', [⟨.E, ⟨1, 1, 1, 2⟩⟩, ⟨.S, ⟨1, 1, 1, 2⟩⟩]⟩], [2, 0],
    by decide +kernel, by simp, by decide, rfl, by decide, by decide, ?_⟩
  intro i c j hi hj
  match i with
  | 0 => simp at hi hj; subst hi hj; decide
  | 1 => simp at hi hj; subst hi hj; decide
  | i + 2 => simp at hi

end Pawpaw.Props
