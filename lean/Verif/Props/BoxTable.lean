import Verif.Lemmas.BoxTable
/-!
# C112: the box drawing characters
-/
set_option linter.unusedSectionVars false
set_option maxRecDepth 100000
namespace Pawpaw.Props
open Box BoxSpec BoxTable

theorem arm_dir {c : BoxChar} {d : Direction} {t : DirectionStyle} (h : arm c d = some t) : t.direction = d := by
  simpa using List.find?_some h

theorem styleOf_arm (c : BoxChar) (d : Direction) : styleOf c d = (arm c d).map DirectionStyle.style := rfl

theorem arm_of_styleOf {c : BoxChar} {d : Direction} {s : Style} (h : styleOf c d = some s) :
    arm c d = some ⟨d, s⟩ := by
  rw [styleOf_arm] at h
  cases e : arm c d with
  | none => rw [e] at h; cases h
  | some t =>
    rw [e] at h
    have := arm_dir e
    obtain ⟨td, ts⟩ := t
    simp only [Option.map_some, Option.some.injEq] at h this
    rw [this, h]

theorem hasStyle_iff (c : BoxChar) (t : DirectionStyle) : HasStyle c t ↔ arm c t.direction = some t := Iff.rfl

theorem hasAllB_iff (c : BoxChar) (ts : List DirectionStyle) :
    hasAllB c ts = true ↔ c.styles.length = ts.length ∧ ∀ t ∈ ts, HasStyle c t := by
  simp [hasAllB, hasB, hasStyle_iff]

theorem unique_of {c c' : BoxChar} (hc : c ∈ table) (hc' : c' ∈ table)
    (h : c'.styles.length = c.styles.length ∧ ∀ t ∈ c.styles, HasStyle c' t) : c = c' := by
  have := List.all_eq_true.mp (List.all_eq_true.mp unique c hc) c' hc'
  rw [(hasAllB_iff c' c.styles).mpr h] at this
  simpa using this

/-- If a character of the table has exactly these styles, the nearest one has. -/
theorem fuzzy_exact {ts : List DirectionStyle} {c0 : BoxChar} (hc0 : c0 ∈ table)
    (h0 : c0.styles.length = ts.length ∧ ∀ t ∈ ts, HasStyle c0 t) :
    ∃ c ∈ table, fromDirectionStyles table ts true = .ok c ∧ c.styles.length = ts.length ∧ ∀ t ∈ ts, HasStyle c t := by
  rcases C69_fuzzy table ts with ⟨before, c, after, e1, e2, e3, e4⟩ | ⟨hn, _⟩
  · have hc : c ∈ table.filter (fun i => i.styles.length = ts.length) := by rw [e1]; simp
    rw [List.mem_filter] at hc
    refine ⟨c, hc.1, e2, by simpa using hc.2, ?_⟩
    rw [← distance_eq_zero]
    have hm : c0 ∈ before ++ c :: after := by
      rw [← e1, List.mem_filter]; exact ⟨hc0, by simpa using h0.1⟩
    have hz := (distance_eq_zero c0 ts).mpr h0.2
    rcases List.mem_append.mp hm with hm | hm
    · have := e3 c0 hm; omega
    · rcases List.mem_cons.mp hm with rfl | hm
      · exact hz
      · have := e4 c0 hm; omega
  · exact absurd h0.1 (hn c0 hc0)

theorem closed_spec {g : Direction → Direction} (hg : closedB g = true) {c : BoxChar} (hc : c ∈ table) :
    ∃ c' ∈ table, fromDirectionStyles table (moved g c.styles) true = .ok c' ∧
      c'.styles.length = c.styles.length ∧ ∀ d, styleOf c' (g d) = styleOf c d := by
  obtain ⟨c0, hc0, h⟩ := List.any_eq_true.mp (List.all_eq_true.mp hg c hc)
  simp only [Bool.and_eq_true] at h
  obtain ⟨h1, h2, h3⟩ := h
  rw [hasAllB_iff] at h1
  obtain ⟨c', hc', e, hl, hs⟩ := fuzzy_exact hc0 h1
  have : c0 = c' := unique_of hc0 hc' ⟨by rw [hl, h1.1], fun t ht => hs t (by
    have := List.all_eq_true.mp h2 t ht
    simpa using this)⟩
  subst this
  refine ⟨c0, hc0, e, by rw [hl]; simp [moved], fun d => ?_⟩
  have := List.all_eq_true.mp h3 d (mem_dirs d)
  simpa using this

/-! ## Looking characters up -/

/-- **C112.**  A character is determined by its arms. -/
theorem C112_unique {c c' : BoxChar} (hc : c ∈ table) (hc' : c' ∈ table)
    (h : ∀ d, styleOf c d = styleOf c' d) : c = c' := by
  have key : (table.all fun c => table.all fun c' => !(dirs.all (fun d => styleOf c d == styleOf c' d)) || decide (c = c')) = true := by
    decide +kernel
  have := List.all_eq_true.mp (List.all_eq_true.mp key c hc) c' hc'
  have ht : dirs.all (fun d => styleOf c d == styleOf c' d) = true := by
    rw [List.all_eq_true]; intro d _; rw [h d]; simp
  rw [ht] at this
  simpa using this

/-- **C112.**  Every character is found by its character, its name, and its arms in whatever order they are
given, asked for exactly or not. -/
theorem C112_lookup {nm : String} {c : BoxChar} (h : (nm, c) ∈ named) :
    fromChar table c.char.toString = .ok c ∧ fromName named nm = .ok c ∧
    ∀ ts : List DirectionStyle, ts.Perm c.styles →
      fromDirectionStyles table ts true = .ok c ∧ fromDirectionStyles table ts false = .ok c := by
  have hc : c ∈ table := List.mem_map.mpr ⟨_, h, rfl⟩
  refine ⟨?_, ?_, fun ts hp => ?_⟩
  · have key : (table.all fun c => decide (table.find? (fun b => b.char = c.char) = some c)) = true := by
      decide +kernel
    have := List.all_eq_true.mp key c hc
    rw [decide_eq_true_eq] at this
    rw [fromChar]
    have e : (fun b : BoxChar => decide (b.char.toString = c.char.toString)) = (fun b => decide (b.char = c.char)) := by
      funext b
      congr 1
      apply propext
      constructor
      · intro h
        have := congrArg String.toList h
        simpa [Char.toString] using this
      · intro h; rw [h]
    rw [e, this]
  · have key : (named.all fun x => decide (named.find? (fun b => b.1 = x.1) = some x)) = true := by
      decide +kernel
    have := List.all_eq_true.mp key (nm, c) h
    rw [decide_eq_true_eq] at this
    rw [fromName, this]
  · have self : ∀ t ∈ ts, HasStyle c t := by
      have key : (table.all fun c => hasAllB c c.styles) = true := by decide +kernel
      have := (hasAllB_iff c c.styles).mp (List.all_eq_true.mp key c hc)
      exact fun t ht => this.2 t (hp.mem_iff.mp ht)
    have hlen : c.styles.length = ts.length := hp.length_eq.symm
    have same : ∀ c' ∈ table, c'.styles.length = ts.length → (∀ t ∈ ts, HasStyle c' t) → c' = c := by
      intro c' hc' hl hs
      exact (unique_of hc hc' ⟨by rw [hl, hlen], fun t ht => hs t (hp.mem_iff.mpr ht)⟩).symm
    constructor
    · obtain ⟨c', hc', e, hl, hs⟩ := fuzzy_exact hc ⟨hlen, self⟩
      rw [e, same c' hc' hl hs]
    · rcases C69_exact table ts with ⟨b, c', a, e1, e2, e3, _⟩ | ⟨hn, _⟩
      · rw [e2, same c' (by rw [e1]; simp) e3.1 e3.2]
      · exact absurd ⟨hlen, self⟩ (hn c hc)

/-- **C112.**  The arms of every character are those its Unicode name tells of, and the table holds the whole
Unicode block `Box Drawing`, each character once. -/
theorem C112_names {nm : String} {c : BoxChar} (h : (nm, c) ∈ named) :
    c.styles.length = (describes nm).length ∧ ∀ t ∈ describes nm, t ∈ c.styles := by
  have key : (named.all fun x => x.2.styles.length == (describes x.1).length &&
      (describes x.1).all (fun t => x.2.styles.contains t)) = true := by decide +kernel
  have := List.all_eq_true.mp key (nm, c) h
  simpa using this

theorem C112_block (k : Nat) (h1 : 0x2500 ≤ k) (h2 : k ≤ 0x257F) :
    (table.filter (fun c => c.char.toNat = k)).length = 1 := by
  have key : ((List.range 128).all fun i => (table.filter (fun c => c.char.toNat = 0x2500 + i)).length == 1) = true := by
    decide +kernel
  have := List.all_eq_true.mp key (k - 0x2500) (List.mem_range.mpr (by omega))
  rw [show 0x2500 + (k - 0x2500) = k by omega] at this
  simpa using this

/-! ## Turning and reflecting characters -/

theorem mapE_ok {α β : Type} (f : α → Except PyErr β) (g : α → β) (h : ∀ x, f x = .ok (g x)) (xs : List α) :
    mapE f xs = .ok (xs.map g) := by
  induction xs with
  | nil => rfl
  | cons x xs ih => rw [mapE, h, ih]; rfl

theorem rotate_turn (d : Direction) (k : Int) : d.rotate (90 * k) = .ok (turn (2 * (k % 4).toNat) d) := by
  have e : d.rotate (90 * k) = d.rotate (90 * (k % 4)) := by
    unfold Direction.rotate
    have h : d.value + 90 * k = d.value + 90 * (k % 4) + 360 * (k / 4) := by
      have := Int.mul_ediv_add_emod k 4
      omega
    rw [h, C56_periodic]
  rw [e]
  have h0 : 0 ≤ k % 4 := by omega
  have h4 : k % 4 < 4 := by omega
  obtain ⟨m, hm⟩ := Int.eq_ofNat_of_zero_le h0
  rw [hm] at h4 ⊢
  have : m = 0 ∨ m = 1 ∨ m = 2 ∨ m = 3 := by omega
  rcases this with rfl | rfl | rfl | rfl <;> cases d <;> decide

theorem reflect_mirror (d s : Direction) : d.reflect s = .ok (mirror s d) := by
  cases d <;> cases s <;> decide

theorem closed_turn (k : Int) : closedB (turn (2 * (k % 4).toNat)) = true := by
  have h0 : 0 ≤ k % 4 := by omega
  have h4 : k % 4 < 4 := by omega
  obtain ⟨m, hm⟩ := Int.eq_ofNat_of_zero_le h0
  rw [hm] at h4 ⊢
  have : m = 0 ∨ m = 1 ∨ m = 2 ∨ m = 3 := by omega
  rcases this with rfl | rfl | rfl | rfl
  · exact closed0
  · exact closed2
  · exact closed4
  · exact closed6

/-- **C112.**  Turning a character by any number of quarter turns, either way, gives a character of the
table: exactly the one whose arms are the character's, turned. -/
theorem C112_rotate {c : BoxChar} (hc : c ∈ table) (k : Int) :
    ∃ c' ∈ table, c.rotate table (90 * k) = .ok c' ∧
      ∀ d d', d.rotate (90 * k) = .ok d' → styleOf c' d' = styleOf c d := by
  obtain ⟨c', hc', e, _, hs⟩ := closed_spec (closed_turn k) hc
  refine ⟨c', hc', ?_, fun d d' hd => ?_⟩
  · rw [BoxChar.rotate, mapE_ok _ (fun ds => ⟨turn (2 * (k % 4).toNat) ds.direction, ds.style⟩)
      (fun ds => by rw [DirectionStyle.rotate, rotate_turn])]
    exact e
  · rw [rotate_turn] at hd
    cases hd
    exact hs d

/-- **C112.**  Reflecting a character at any of the eight directions gives exactly the character whose arms
are the character's, reflected. -/
theorem C112_reflect {c : BoxChar} (hc : c ∈ table) (s : Direction) :
    ∃ c' ∈ table, c.reflect table s = .ok c' ∧
      ∀ d d', d.reflect s = .ok d' → styleOf c' d' = styleOf c d := by
  obtain ⟨c', hc', e, _, hs⟩ := closed_spec (closed_mirror s) hc
  refine ⟨c', hc', ?_, fun d d' hd => ?_⟩
  · rw [BoxChar.reflect, mapE_ok _ (fun ds => ⟨mirror s ds.direction, ds.style⟩)
      (fun ds => by rw [DirectionStyle.reflect, reflect_mirror])]
    exact e
  · rw [reflect_mirror] at hd
    cases hd
    exact hs d

/-- **C112.**  Quarter turns of characters add up, and four of them do nothing. -/
theorem C112_rotate_add {c : BoxChar} (hc : c ∈ table) (j k : Int) :
    (∃ b, c.rotate table (90 * j) = .ok b ∧ b.rotate table (90 * k) = c.rotate table (90 * (j + k))) ∧
    c.rotate table (360 * j) = .ok c := by
  constructor
  · obtain ⟨b, hb, e1, h1⟩ := C112_rotate hc j
    obtain ⟨b2, hb2, e2, h2⟩ := C112_rotate hb k
    obtain ⟨b3, hb3, e3, h3⟩ := C112_rotate hc (j + k)
    refine ⟨b, e1, ?_⟩
    rw [e2, e3]
    congr 1
    refine C112_unique hb2 hb3 fun d => ?_
    -- go back to the direction it came from
    obtain ⟨⟨d0, hd0, hd0'⟩, _⟩ := C56_rotate_inverse d (-(2 * (j + k)))
    have hback : d0.rotate (90 * (j + k)) = .ok d := by
      rw [show 90 * (j + k) = -(45 * -(2 * (j + k))) by omega]; exact hd0'
    obtain ⟨d1, hd1, hd1'⟩ := C56_rotate_add d0 (2 * j) (90 * k)
    rw [show 45 * (2 * j) = 90 * j by omega] at hd1 hd1'
    rw [show 90 * j + 90 * k = 90 * (j + k) by omega, hback] at hd1'
    rw [h2 d1 d hd1', h1 d0 d1 hd1, h3 d0 d hback]
  · obtain ⟨b, hb, e, h⟩ := C112_rotate hc (4 * j)
    rw [show 360 * j = 90 * (4 * j) by omega, e]
    congr 1
    refine C112_unique hb hc fun d => ?_
    refine h d d ?_
    rw [show 90 * (4 * j) = 360 * j by omega]
    exact (C56_rotate_inverse d j).2

/-- **C112.**  Reflecting a character twice at the same direction does nothing. -/
theorem C112_reflect_twice {c : BoxChar} (hc : c ∈ table) (s : Direction) :
    ∃ b, c.reflect table s = .ok b ∧ b.reflect table s = .ok c := by
  obtain ⟨b, hb, e1, h1⟩ := C112_reflect hc s
  obtain ⟨b2, hb2, e2, h2⟩ := C112_reflect hb s
  refine ⟨b, e1, ?_⟩
  rw [e2]
  congr 1
  refine C112_unique hb2 hc fun d => ?_
  obtain ⟨⟨d1, hd1, hd1'⟩, _⟩ := C56_reflect d s
  rw [h2 d1 d hd1', h1 d d1 hd1]

/-- Non-vacuity: `╞` turned by a quarter is `╥`, reflected at east it is itself. -/
example : (⟨'╞', [⟨.N, ⟨1, 1, 1, 1⟩⟩, ⟨.E, ⟨1, 2, 1, 1⟩⟩, ⟨.S, ⟨1, 1, 1, 1⟩⟩]⟩ : BoxChar) ∈ table ∧
    (BoxChar.rotate table ⟨'╞', [⟨.N, ⟨1, 1, 1, 1⟩⟩, ⟨.E, ⟨1, 2, 1, 1⟩⟩, ⟨.S, ⟨1, 1, 1, 1⟩⟩]⟩ (90 * -7)).toOption.map
      BoxChar.char = some '╥' := by decide +kernel

end Pawpaw.Props
