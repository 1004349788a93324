import Verif.Model.Box
import Verif.Props.StrOps
import Verif.Props.WsSplit
/-!
# C56, C58, C69: box drawing
-/
set_option linter.unusedSectionVars false
namespace Pawpaw.Props
open Pawpaw Pawpaw.Box

/-! ### C56: directions -/

/-- The direction number `k`, counted clockwise from north. -/
theorem fromDegrees_lt (k : Nat) (hk : k < 8) (d : Int) (hd : d % 360 / 45 = k) :
    ∃ r, Direction.fromDegrees d = .ok r ∧ r.value = 45 * k := by
  unfold Direction.fromDegrees
  rw [hd, show ((k : Int) + 1).toNat = k + 1 by omega]
  match k, hk with
  | 0, _ => exact ⟨.N, rfl, rfl⟩
  | 1, _ => exact ⟨.NE, rfl, rfl⟩
  | 2, _ => exact ⟨.E, rfl, rfl⟩
  | 3, _ => exact ⟨.SE, rfl, rfl⟩
  | 4, _ => exact ⟨.S, rfl, rfl⟩
  | 5, _ => exact ⟨.SW, rfl, rfl⟩
  | 6, _ => exact ⟨.W, rfl, rfl⟩
  | 7, _ => exact ⟨.NW, rfl, rfl⟩

theorem value_inj {a b : Direction} (h : a.value = b.value) : a = b := by
  cases a <;> cases b <;> first | rfl | (simp [Direction.value] at h)

theorem value_range (a : Direction) : ∃ k : Nat, k < 8 ∧ a.value = 45 * k := by
  cases a
  · exact ⟨0, by decide, rfl⟩
  · exact ⟨1, by decide, rfl⟩
  · exact ⟨2, by decide, rfl⟩
  · exact ⟨3, by decide, rfl⟩
  · exact ⟨4, by decide, rfl⟩
  · exact ⟨5, by decide, rfl⟩
  · exact ⟨6, by decide, rfl⟩
  · exact ⟨7, by decide, rfl⟩

/-- **C56.** For every integer, `from_degrees` never raises and gives the direction whose angle is the
greatest multiple of 45 not above the given angle (modulo 360). -/
theorem C56_from_degrees (d : Int) :
    ∃ r, Direction.fromDegrees d = .ok r ∧ ∃ t : Int, 0 ≤ d - 360 * t ∧ d - 360 * t < 360 ∧
      r.value ≤ d - 360 * t ∧ d - 360 * t < r.value + 45 := by
  have h1 : 0 ≤ d % 360 / 45 := by omega
  obtain ⟨k, hk⟩ := Int.eq_ofNat_of_zero_le h1
  have hk8 : k < 8 := by omega
  obtain ⟨r, h2, h3⟩ := fromDegrees_lt k hk8 d hk
  refine ⟨r, h2, d / 360, ?_, ?_, ?_, ?_⟩ <;> omega

/-- The direction is determined by the angle. -/
theorem fromDegrees_iff (d : Int) (r : Direction) :
    Direction.fromDegrees d = .ok r ↔ r.value = d % 360 / 45 * 45 := by
  have h1 : 0 ≤ d % 360 / 45 := by omega
  obtain ⟨k, hk⟩ := Int.eq_ofNat_of_zero_le h1
  have hk8 : k < 8 := by omega
  obtain ⟨q, h2, h3⟩ := fromDegrees_lt k hk8 d hk
  constructor
  · intro h
    rw [h2, Except.ok.injEq] at h
    rw [← h, h3, hk]; omega
  · intro h
    have : q = r := value_inj (by rw [h3, h, hk]; omega)
    rw [h2, this]

/-- **C56.** `from_degrees` is periodic. -/
theorem C56_periodic (d t : Int) : Direction.fromDegrees (d + 360 * t) = Direction.fromDegrees d := by
  unfold Direction.fromDegrees
  rw [Int.add_mul_emod_self_left]

/-- **C56.** A direction is `from_degrees` of its own angle. -/
theorem C56_value (a : Direction) : Direction.fromDegrees a.value = .ok a := by
  cases a <;> decide

/-- **C56.** Rotating by a multiple of 45 degrees and then by any angle is rotating by the sum. -/
theorem C56_rotate_add (a : Direction) (s t : Int) :
    ∃ b, a.rotate (45 * s) = .ok b ∧ b.rotate t = a.rotate (45 * s + t) := by
  unfold Direction.rotate
  obtain ⟨k, hk8, hk⟩ := value_range a
  obtain ⟨b, h1, -⟩ := C56_from_degrees (a.value + 45 * s)
  refine ⟨b, h1, ?_⟩
  rw [fromDegrees_iff] at h1
  obtain ⟨c, h2, -⟩ := C56_from_degrees (b.value + t)
  rw [h2]
  symm
  rw [fromDegrees_iff] at h2 ⊢
  rw [h2]
  have : b.value = (a.value + 45 * s) % 360 := by omega
  rw [this]
  omega

/-- **C56.** Rotating by a multiple of 45 degrees is undone by rotating back; a full turn does nothing. -/
theorem C56_rotate_inverse (a : Direction) (s : Int) :
    (∃ b, a.rotate (45 * s) = .ok b ∧ b.rotate (-(45 * s)) = .ok a) ∧ a.rotate (360 * s) = .ok a := by
  constructor
  · obtain ⟨b, h1, h2⟩ := C56_rotate_add a s (-(45 * s))
    refine ⟨b, h1, ?_⟩
    rw [h2, Int.add_right_neg]
    unfold Direction.rotate
    rw [Int.add_zero, C56_value]
  · unfold Direction.rotate
    rw [C56_periodic, C56_value]

/-- **C56.** Reflecting twice at the same surface does nothing, and the surface's own direction stays. -/
theorem C56_reflect (a s : Direction) :
    (∃ b, a.reflect s = .ok b ∧ b.reflect s = .ok a) ∧ s.reflect s = .ok s := by
  cases a <;> cases s <;> exact ⟨⟨_, rfl, by decide⟩, by decide⟩

/-- **C56.** Reflection reverses rotation: reflecting after turning right is turning left after
reflecting. -/
theorem C56_reflect_rotate (a s : Direction) (t : Int) :
    ∃ b c, a.rotate (45 * t) = .ok b ∧ a.reflect s = .ok c ∧ b.reflect s = c.rotate (-(45 * t)) := by
  unfold Direction.reflect Direction.rotate
  obtain ⟨b, h1, -⟩ := C56_from_degrees (a.value + 45 * t)
  obtain ⟨c, h2, -⟩ := C56_from_degrees (a.value + (s.value - a.value) * 2)
  refine ⟨b, c, h1, h2, ?_⟩
  obtain ⟨ka, hka, ea⟩ := value_range a
  obtain ⟨ks, hks, es⟩ := value_range s
  obtain ⟨r, h3, -⟩ := C56_from_degrees (c.value + -(45 * t))
  rw [h3]
  rw [fromDegrees_iff] at *
  rw [h3]
  omega

example : Direction.W.rotate 135 = .ok .NE ∧ Direction.E.rotate (-100) = .ok .NW ∧
    Direction.E.reflect .N = .ok .W := by decide
/-- Rotations by other angles do not add up: 44 + 1 is not 45. -/
example : Direction.N.rotate 44 = .ok .N ∧ Direction.N.rotate 1 = .ok .N ∧
    Direction.N.rotate 45 = .ok .NE := by decide

/-! ### C69: choosing a character -/

/-- The character has this very style in this direction (its first entry for the direction). -/
def HasStyle (c : BoxChar) (t : DirectionStyle) : Prop :=
  c.styles.find? (fun ds => ds.direction = t.direction) = some t

theorem dist1_eq_zero (c : BoxChar) (t : DirectionStyle) : dist1 c t = 0 ↔ HasStyle c t := by
  unfold dist1 HasStyle
  cases h : c.styles.find? (fun ds => ds.direction = t.direction) with
  | none => simp
  | some d =>
    have hd : d.direction = t.direction := by simpa using List.find?_some h
    obtain ⟨dd, ⟨w, n, a, p⟩⟩ := d
    obtain ⟨td, ⟨w', n', a', p'⟩⟩ := t
    simp only [Option.some.injEq, DirectionStyle.mk.injEq, Style.mk.injEq] at hd ⊢
    constructor
    · intro h
      refine ⟨hd, ?_⟩
      by_cases h1 : w' = w <;> by_cases h2 : n' = n <;> by_cases h3 : a' = a <;> by_cases h4 : p' = p <;>
        simp_all
    · rintro ⟨_, rfl, rfl, rfl, rfl⟩
      simp

theorem distance_eq_zero (c : BoxChar) (ts : List DirectionStyle) :
    distance c ts = 0 ↔ ∀ t ∈ ts, HasStyle c t := by
  unfold distance
  induction ts with
  | nil => simp
  | cons t ts ih =>
    rw [List.map_cons, List.sum_cons, List.forall_mem_cons, ← ih, ← dist1_eq_zero]
    omega

/-- **C69.** For every table of characters: an exact look-up finds the first character with as many
directions as asked for that has every style asked for, and raises `ValueError` iff there is none. -/
theorem C69_exact (table : List BoxChar) (ts : List DirectionStyle) :
    (∃ before c after, table = before ++ c :: after ∧
      fromDirectionStyles table ts false = .ok c ∧
      (c.styles.length = ts.length ∧ ∀ t ∈ ts, HasStyle c t) ∧
      ∀ b ∈ before, ¬ (b.styles.length = ts.length ∧ ∀ t ∈ ts, HasStyle b t)) ∨
    ((∀ b ∈ table, ¬ (b.styles.length = ts.length ∧ ∀ t ∈ ts, HasStyle b t)) ∧
      fromDirectionStyles table ts false = .error .valueError) := by
  have key : fromDirectionStyles table ts false =
      match table.find? (fun i => decide (i.styles.length = ts.length) && decide (distance i ts = 0)) with
      | some b => .ok b
      | none => .error .valueError := by
    unfold fromDirectionStyles
    simp only [Bool.false_eq_true, if_false, List.find?_filter]
    have e : (fun a : BoxChar => decide (decide (a.styles.length = ts.length) = true ∧
        decide (distance a ts = 0) = true)) =
        (fun i => decide (i.styles.length = ts.length) && decide (distance i ts = 0)) := by
      funext i; simp
    rw [e]
    rfl
  rw [key]
  cases h : table.find? (fun i => decide (i.styles.length = ts.length) && decide (distance i ts = 0)) with
  | none =>
    right
    refine ⟨?_, rfl⟩
    intro b hb hc
    have := List.find?_eq_none.1 h b hb
    rw [← distance_eq_zero] at hc
    simp [hc.1, hc.2] at this
  | some c =>
    left
    obtain ⟨h1, before, after, h2, h3⟩ := List.find?_eq_some_iff_append.1 h
    refine ⟨before, c, after, h2, rfl, ?_, ?_⟩
    · simpa [distance_eq_zero] using h1
    · intro b hb hc
      have := h3 b hb
      rw [← distance_eq_zero] at hc
      simp [hc.1, hc.2] at this

theorem fuzzyLoop_spec (ts : List DirectionStyle) : ∀ (is : List BoxChar) (bi : BoxChar),
    ∃ before c after, bi :: is = before ++ c :: after ∧
      fuzzyLoop ts (some (distance bi ts, bi)) is = some (distance c ts, c) ∧
      (∀ b ∈ before, distance c ts < distance b ts) ∧ (∀ b ∈ after, distance c ts ≤ distance b ts)
  | [], bi => ⟨[], bi, [], rfl, rfl, by simp, by simp⟩
  | i :: is, bi => by
    rw [fuzzyLoop]
    by_cases hlt : distance i ts < distance bi ts
    · rw [if_pos hlt]
      obtain ⟨before, c, after, h1, h2, h3, h4⟩ := fuzzyLoop_spec ts is i
      refine ⟨bi :: before, c, after, by rw [h1]; rfl, h2, ?_, h4⟩
      intro b hb
      rcases List.mem_cons.1 hb with rfl | hb
      · have hi : i ∈ before ++ c :: after := by rw [← h1]; exact List.mem_cons_self
        rcases List.mem_append.1 hi with hi | hi
        · have := h3 i hi; omega
        · rcases List.mem_cons.1 hi with rfl | hi
          · exact hlt
          · have := h4 i hi; omega
      · exact h3 b hb
    · rw [if_neg hlt]
      obtain ⟨before, c, after, h1, h2, h3, h4⟩ := fuzzyLoop_spec ts is bi
      cases before with
      | nil =>
        obtain ⟨rfl, rfl⟩ := List.cons.inj h1
        refine ⟨[], bi, i :: is, rfl, h2, by simp, ?_⟩
        intro b hb
        rcases List.mem_cons.1 hb with rfl | hb
        · omega
        · exact h4 b hb
      | cons x xs =>
        obtain ⟨rfl, rfl⟩ := List.cons.inj h1
        refine ⟨bi :: i :: xs, c, after, rfl, h2, ?_, h4⟩
        intro b hb
        have hbi := h3 bi List.mem_cons_self
        rcases List.mem_cons.1 hb with rfl | hb
        · exact hbi
        · rcases List.mem_cons.1 hb with rfl | hb
          · omega
          · exact h3 b (List.mem_cons_of_mem _ hb)

/-- **C69.** A fuzzy look-up gives, of the characters with as many directions as asked for, the first of
those nearest to what was asked for; with no such character it raises (`UnboundLocalError`). -/
theorem C69_fuzzy (table : List BoxChar) (ts : List DirectionStyle) :
    (∃ before c after, table.filter (fun i => i.styles.length = ts.length) = before ++ c :: after ∧
      fromDirectionStyles table ts true = .ok c ∧
      (∀ b ∈ before, distance c ts < distance b ts) ∧ (∀ b ∈ after, distance c ts ≤ distance b ts)) ∨
    ((∀ b ∈ table, b.styles.length ≠ ts.length) ∧
      fromDirectionStyles table ts true = .error .nameError) := by
  unfold fromDirectionStyles
  simp only [if_true]
  cases h : table.filter (fun i => i.styles.length = ts.length) with
  | nil =>
    right
    refine ⟨?_, rfl⟩
    intro b hb he
    have : b ∈ table.filter (fun i => i.styles.length = ts.length) := by
      rw [List.mem_filter]; exact ⟨hb, by simpa using he⟩
    rw [h] at this
    simp at this
  | cons i is =>
    left
    obtain ⟨before, c, after, h1, h2, h3, h4⟩ := fuzzyLoop_spec ts is i
    exact ⟨before, c, after, h1, by rw [fuzzyLoop, h2], h3, h4⟩

section Examples
private def light : Style := ⟨1, 1, 1, 1⟩
private def heavy : Style := ⟨2, 1, 1, 1⟩
private def exTable : List BoxChar :=
  [⟨'─', [⟨.E, light⟩, ⟨.W, light⟩]⟩, ⟨'│', [⟨.N, light⟩, ⟨.S, light⟩]⟩, ⟨'━', [⟨.E, heavy⟩, ⟨.W, heavy⟩]⟩]
example : fromDirectionStyles exTable [⟨.W, heavy⟩, ⟨.E, heavy⟩] false = .ok ⟨'━', [⟨.E, heavy⟩, ⟨.W, heavy⟩]⟩ := by
  decide
example : fromDirectionStyles exTable [⟨.W, light⟩, ⟨.E, heavy⟩] true = .ok ⟨'─', [⟨.E, light⟩, ⟨.W, light⟩]⟩ := by
  decide
example : fromDirectionStyles exTable [⟨.W, light⟩, ⟨.E, heavy⟩] false = .error .valueError := by decide
example : fromDirectionStyles exTable [⟨.W, light⟩] true = .error .nameError := by decide
end Examples

/-! ### C58: `Boxer` -/

theorem printableCount_eq (p : Char → Bool) (x : FIto Char) (h : x.Valid) :
    printableCount p x = (x.text.filter p).length := by
  obtain ⟨h1, h2⟩ := C14_iter x h
  unfold printableCount
  have key : ∀ (l : List (FIto Char)) (t : List Char), l.map FIto.text = t.map (fun c => [c]) →
      (∀ y ∈ l, SubIto y x) →
      (l.filter (fun c => c.strIsprintable p)).length = (t.filter p).length := by
    intro l
    induction l with
    | nil => intro t ht _; cases t with | nil => rfl | cons => cases ht
    | cons y l ih =>
      intro t ht hs
      cases t with
      | nil => cases ht
      | cons c t =>
        rw [List.map_cons, List.map_cons, List.cons.injEq] at ht
        have := ih t ht.2 (fun z hz => hs z (List.mem_cons_of_mem _ hz))
        have hv : y.Valid := (hs y List.mem_cons_self).2.2.1
        have hp : y.strIsprintable p = p c := by
          rw [C15_isprintable_partial y hv p (by
            rw [ht.1]
            cases hc : p c
            · right; simp [hc]
            · left; simp [hc]), ht.1]
          simp
        rw [List.filter_cons, List.filter_cons, hp]
        cases p c <;> simp [this]
  exact key _ _ h1 h2

theorem foldl_max_le (xs : List Nat) (x : Nat) : x ≤ xs.foldl max x ∧ ∀ y ∈ xs, y ≤ xs.foldl max x := by
  induction xs generalizing x with
  | nil => simp
  | cons z xs ih =>
    obtain ⟨h1, h2⟩ := ih (max x z)
    simp only [List.foldl_cons, List.mem_cons, forall_eq_or_imp]
    exact ⟨by omega, by omega, h2⟩

theorem foldl_max_mem (xs : List Nat) (x : Nat) : xs.foldl max x ∈ x :: xs := by
  induction xs generalizing x with
  | nil => simp
  | cons z xs ih =>
    have := ih (max x z)
    simp only [List.foldl_cons, List.mem_cons] at this ⊢
    rcases this with h | h
    · rcases Nat.le_total x z with hz | hz
      · right; left; omega
      · left; omega
    · right; right; exact h

theorem repeatStr_length (s : List Char) (k : Nat) : (repeatStr s k).length = k * s.length := by
  unfold repeatStr
  simp [List.length_flatten]

theorem center_length (s : List Char) (w : Nat) : (center s w).length = max w s.length := by
  unfold center
  simp only [List.length_append, List.length_replicate]
  omega

/-- **C58.** For every non-empty list of lines and every box parts: the first and last line are the
borders; between them, in order, each line of the text, unchanged, between blanks (as many on the left
as on the right, or one less) and the side parts.  When all characters are printable, the blanks fill up
each line to the longest one. -/
theorem C58_content (b : Boxer) (p : Char → Bool) (lines : List (FIto Char)) (hne : lines ≠ [])
    (hv : ∀ l ∈ lines, l.Valid) (hp : ∀ l ∈ lines, ∀ c ∈ l.text, p c = true) :
    ∃ width, (∀ l ∈ lines, l.text.length ≤ width) ∧ (∃ l ∈ lines, l.text.length = width) ∧
      ∃ pads : List (Nat × Nat), pads.length = lines.length ∧
        (∀ q ∈ pads, q.1 ≤ q.2 ∧ q.2 ≤ q.1 + 1) ∧
        (∀ i (h : i < lines.length) (h' : i < pads.length),
          pads[i].1 + (lines[i].text.length) + pads[i].2 = width) ∧
        b.fromLines p lines = .ok ([b.nw ++ repeatStr b.n (width + 2) ++ b.ne] ++
          (lines.zip pads).map (fun q => b.w ++ [' '] ++ (List.replicate q.2.1 ' ' ++ q.1.text ++
            List.replicate q.2.2 ' ') ++ [' '] ++ b.e) ++
          [b.sw ++ repeatStr b.s (width + 2) ++ b.se]) := by
  have hc : ∀ l ∈ lines, printableCount p l = l.text.length := by
    intro l hl
    rw [printableCount_eq p l (hv l hl), List.filter_eq_self.2 (hp l hl)]
  have hmap : lines.map (printableCount p) = lines.map (fun l => l.text.length) :=
    List.map_congr_left hc
  cases lines with
  | nil => exact absurd rfl hne
  | cons l ls =>
    obtain ⟨w, hw⟩ : ∃ w, pyMax ((l :: ls).map (fun l => l.text.length)) = .ok w := ⟨_, rfl⟩
    have hw' : w = (ls.map (fun l => l.text.length)).foldl max l.text.length := by
      rw [List.map_cons, pyMax, Except.ok.injEq] at hw
      exact hw.symm
    have hle : ∀ q ∈ l :: ls, q.text.length ≤ w := by
      intro q hq
      obtain ⟨g1, g2⟩ := foldl_max_le (ls.map (fun l => l.text.length)) l.text.length
      rw [hw']
      rcases List.mem_cons.1 hq with rfl | hq
      · exact g1
      · exact g2 _ (List.mem_map.2 ⟨q, hq, rfl⟩)
    refine ⟨w, hle, ?_, (l :: ls).map (fun q => ((w - q.text.length) / 2,
      w - q.text.length - (w - q.text.length) / 2)), by simp, ?_, ?_, ?_⟩
    · have := foldl_max_mem (ls.map (fun l => l.text.length)) l.text.length
      rw [← hw', ← List.map_cons (f := fun l : FIto Char => l.text.length)] at this
      obtain ⟨q, hq, e⟩ := List.mem_map.1 this
      exact ⟨q, hq, e⟩
    · intro q hq
      obtain ⟨x, _, rfl⟩ := List.mem_map.1 hq
      dsimp only
      omega
    · intro i h h'
      have := hle _ (List.getElem_mem h)
      rw [List.getElem_map]
      dsimp only
      omega
    · unfold Boxer.fromLines
      rw [hmap, hw]
      simp only [Except.ok.injEq]
      congr 2
      generalize l :: ls = ls
      induction ls with
      | nil => rfl
      | cons q qs ih =>
        simp only [List.map_cons, List.zip_cons_cons]
        rw [← ih]
        rfl

/-- **C58.** When the parts fit together (left parts equally wide, right parts equally wide, top and bottom
one wide) and all characters are printable, all the lines of the box have the same width. -/
theorem C58_rectangle_partial (b : Boxer) (p : Char → Bool) (lines : List (FIto Char)) (hne : lines ≠ [])
    (hv : ∀ l ∈ lines, l.Valid) (hp : ∀ l ∈ lines, ∀ c ∈ l.text, p c = true)
    (h1 : b.nw.length = b.w.length) (h2 : b.sw.length = b.w.length)
    (h3 : b.ne.length = b.e.length) (h4 : b.se.length = b.e.length)
    (h5 : b.n.length = 1) (h6 : b.s.length = 1) :
    ∃ out width, b.fromLines p lines = .ok out ∧ out.length = lines.length + 2 ∧
      ∀ l ∈ out, l.length = width := by
  obtain ⟨w, hle, -, pads, g1, -, g3, g4⟩ := C58_content b p lines hne hv hp
  refine ⟨_, b.w.length + (w + 2) + b.e.length, g4, ?_, ?_⟩
  · simp [g1]
  · intro l hl
    simp only [List.mem_append, List.mem_singleton, List.mem_map] at hl
    rcases hl with (rfl | ⟨q, hq, rfl⟩) | rfl
    · simp only [List.length_append, repeatStr_length, h1, h3, h5]; omega
    · obtain ⟨i, hi, e⟩ := List.getElem_of_mem hq
      have hi' : i < lines.length ∧ i < pads.length := by
        rw [List.length_zip] at hi; omega
      have := g3 i hi'.1 hi'.2
      have e2 : q = (lines[i]'hi'.1, pads[i]'hi'.2) := by rw [← e, List.getElem_zip]
      rw [e2]
      simp only [List.length_append, List.length_replicate, List.length_singleton]
      omega
    · simp only [List.length_append, repeatStr_length, h2, h4, h6]; omega

/-- **C58.** `from_srcs` boxes the lines, in order, of all the sources: the texts are Python's `splitlines`
of each. -/
theorem C58_from_srcs (b : Boxer) (p : Char → Bool) (srcs : List (FIto Char)) (hv : ∀ x ∈ srcs, x.Valid) :
    ∃ lines, b.fromSrcs p srcs = b.fromLines p lines ∧ (∀ l ∈ lines, l.Valid) ∧
      lines.map FIto.text = srcs.flatMap (fun x => PyStr.splitlines x.text false) := by
  refine ⟨_, rfl, ?_, ?_⟩
  · intro l hl
    obtain ⟨x, hx, hl⟩ := List.mem_flatMap.1 hl
    exact ((C10_str_splitlines x (hv x hx) false none).2 l hl).2.1
  · induction srcs with
    | nil => rfl
    | cons x xs ih =>
      rw [List.flatMap_cons, List.flatMap_cons, List.map_append,
        (C10_str_splitlines x (hv x List.mem_cons_self) false none).1,
        ih (fun y hy => hv y (List.mem_cons_of_mem _ hy))]

private def exBoxer : Boxer := ⟨['+'], ['-'], ['+'], ['|'], ['|'], ['+'], ['-'], ['+']⟩

/-- **C58 fails for lines with unprintable characters**: they are left out when the width is computed,
but not when the line is written, so the box is not a rectangle. -/
theorem C58_unprintable_violated :
    ∃ (b : Boxer) (p : Char → Bool) (lines : List (FIto Char)) (out : List (List Char)),
      (∀ l ∈ lines, l.Valid) ∧ b.fromLines p lines = .ok out ∧
      ∃ l ∈ out, ∃ l' ∈ out, l.length ≠ l'.length :=
  ⟨exBoxer, (fun c => c != '\t'), [⟨['a', '\t', 'b'], ⟨0, 3⟩, none⟩],
    [['+', '-', '-', '-', '-', '+'], ['|', ' ', 'a', '\t', 'b', ' ', '|'], ['+', '-', '-', '-', '-', '+']],
    by
      intro l hl
      rw [List.mem_singleton] at hl
      subst hl
      exact ⟨by decide, by decide, by decide⟩,
    by decide, _, List.mem_cons_self, _, List.mem_cons_of_mem _ List.mem_cons_self, by decide⟩

/-- **C58.** Nothing to box (an empty source, for one) is a `ValueError`. -/
theorem C58_empty (b : Boxer) (p : Char → Bool) :
    b.fromLines p [] = .error .valueError ∧
    b.fromSrcs p [⟨[], ⟨0, 0⟩, none⟩] = .error .valueError := ⟨rfl, rfl⟩

example : exBoxer.fromSrcs (fun _ => true) [⟨"abc\nd".toList, ⟨0, 5⟩, none⟩] =
    .ok ["+-----+".toList, "| abc |".toList, "|  d  |".toList, "+-----+".toList] := by decide

end Pawpaw.Props
