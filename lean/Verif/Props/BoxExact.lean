import Verif.Props.Box
/-!
# C58: exactly when a box is a rectangle
-/
set_option linter.unusedSectionVars false
namespace Pawpaw.Props
open Pawpaw Pawpaw.Box

/-- C58, exactly, for any parts and any lines, printable or not: the lines of the box all have the same width
if and only if the top border, every written line and the bottom border have; a written line is as wide as
its text or as the largest number of printable characters in a line, whichever is more. -/
theorem C58_rectangle_exact (b : Boxer) (p : Char → Bool) (lines : List (FIto Char)) (hne : lines ≠ [])
    (hv : ∀ l ∈ lines, l.Valid) :
    ∃ out most, b.fromLines p lines = .ok out ∧ (∀ l ∈ lines, (l.text.filter p).length ≤ most) ∧
      (∃ l ∈ lines, (l.text.filter p).length = most) ∧
      ((∃ width, ∀ r ∈ out, r.length = width) ↔
        (∀ l ∈ lines, b.w.length + 2 + max most l.text.length + b.e.length =
          b.nw.length + (most + 2) * b.n.length + b.ne.length) ∧
        b.sw.length + (most + 2) * b.s.length + b.se.length = b.nw.length + (most + 2) * b.n.length + b.ne.length) := by
  have hmap : lines.map (printableCount p) = lines.map (fun l => (l.text.filter p).length) :=
    List.map_congr_left fun l hl => printableCount_eq p l (hv l hl)
  obtain ⟨M, hM⟩ : ∃ M, pyMax (lines.map (printableCount p)) = .ok M := by
    cases lines with
    | nil => exact absurd rfl hne
    | cons l ls => exact ⟨_, rfl⟩
  have hM' := hM
  rw [hmap] at hM'
  have hbound : (∀ l ∈ lines, (l.text.filter p).length ≤ M) ∧ ∃ l ∈ lines, (l.text.filter p).length = M := by
    cases lines with
    | nil => exact absurd rfl hne
    | cons l ls =>
      rw [List.map_cons, pyMax, Except.ok.injEq] at hM'
      obtain ⟨g1, g2⟩ := foldl_max_le (ls.map (fun l => (l.text.filter p).length)) (l.text.filter p).length
      have g3 := foldl_max_mem (ls.map (fun l => (l.text.filter p).length)) (l.text.filter p).length
      rw [hM'] at g1 g2 g3
      refine ⟨?_, ?_⟩
      · intro q hq
        rcases List.mem_cons.1 hq with rfl | hq
        · exact g1
        · exact g2 _ (List.mem_map.2 ⟨q, hq, rfl⟩)
      · rw [← List.map_cons (f := fun l : FIto Char => (l.text.filter p).length)] at g3
        obtain ⟨q, hq, e⟩ := List.mem_map.1 g3
        exact ⟨q, hq, e⟩
  refine ⟨_, M, by unfold Boxer.fromLines; rw [hM], hbound.1, hbound.2, ?_⟩
  have len1 : (b.nw ++ repeatStr b.n (M + 2) ++ b.ne).length = b.nw.length + (M + 2) * b.n.length + b.ne.length := by
    simp only [List.length_append, repeatStr_length]
  have len3 : (b.sw ++ repeatStr b.s (M + 2) ++ b.se).length = b.sw.length + (M + 2) * b.s.length + b.se.length := by
    simp only [List.length_append, repeatStr_length]
  have len2 : ∀ l : FIto Char, (b.w ++ [' '] ++ center l.text M ++ [' '] ++ b.e).length =
      b.w.length + 2 + max M l.text.length + b.e.length := by
    intro l
    simp only [List.length_append, center_length, List.length_singleton]
    omega
  constructor
  · rintro ⟨width, h⟩
    have h1 := h (b.nw ++ repeatStr b.n (M + 2) ++ b.ne) (by simp)
    have h3 := h (b.sw ++ repeatStr b.s (M + 2) ++ b.se) (by simp)
    rw [len1] at h1
    rw [len3] at h3
    refine ⟨fun l hl => ?_, by rw [h3, h1]⟩
    have h2 := h (b.w ++ [' '] ++ center l.text M ++ [' '] ++ b.e)
      (List.mem_append_left _ (List.mem_append_right _ (List.mem_map.2 ⟨l, hl, rfl⟩)))
    rw [len2] at h2
    rw [h2, h1]
  · rintro ⟨h2, h3⟩
    refine ⟨b.nw.length + (M + 2) * b.n.length + b.ne.length, ?_⟩
    intro r hr
    rw [List.mem_append, List.mem_append, List.mem_singleton, List.mem_singleton, List.mem_map] at hr
    rcases hr with (rfl | ⟨l, hl, rfl⟩) | rfl
    · exact len1
    · rw [len2, h2 l hl]
    · rw [len3, h3]

/-- C58, exactly, for parts that fit together (as single characters do): the box is a rectangle if and only
if no line has more characters than the largest number of printable characters in a line. -/
theorem C58_unprintable_exact (b : Boxer) (p : Char → Bool) (lines : List (FIto Char)) (hne : lines ≠ [])
    (hv : ∀ l ∈ lines, l.Valid)
    (h1 : b.nw.length = b.w.length) (h2 : b.sw.length = b.w.length)
    (h3 : b.ne.length = b.e.length) (h4 : b.se.length = b.e.length)
    (h5 : b.n.length = 1) (h6 : b.s.length = 1) :
    ∃ out, b.fromLines p lines = .ok out ∧ ((∃ width, ∀ r ∈ out, r.length = width) ↔
      ∃ l ∈ lines, ∀ l' ∈ lines, l'.text.length ≤ (l.text.filter p).length) := by
  obtain ⟨out, M, g1, g2, ⟨l, hl, g3⟩, g4⟩ := C58_rectangle_exact b p lines hne hv
  refine ⟨out, g1, ?_⟩
  rw [g4, h1, h2, h3, h4, h5, h6]
  constructor
  · rintro ⟨h, _⟩
    refine ⟨l, hl, fun l' hl' => ?_⟩
    have := h l' hl'
    omega
  · rintro ⟨x, hx, h⟩
    have := g2 x hx
    refine ⟨fun l' hl' => ?_, rfl⟩
    have := h l' hl'
    omega

/-- Both sides occur. -/
example : ∃ l ∈ [(⟨['a', 'b'], ⟨0, 2⟩, none⟩ : FIto Char), ⟨['c'], ⟨0, 1⟩, none⟩],
    ∀ l' ∈ [(⟨['a', 'b'], ⟨0, 2⟩, none⟩ : FIto Char), ⟨['c'], ⟨0, 1⟩, none⟩],
      l'.text.length ≤ (l.text.filter fun c => decide (c ≠ '\t')).length := by decide
example : ¬ ∃ l ∈ [(⟨['a', '\t'], ⟨0, 2⟩, none⟩ : FIto Char), ⟨['c'], ⟨0, 1⟩, none⟩],
    ∀ l' ∈ [(⟨['a', '\t'], ⟨0, 2⟩, none⟩ : FIto Char), ⟨['c'], ⟨0, 1⟩, none⟩],
      l'.text.length ≤ (l.text.filter fun c => decide (c ≠ '\t')).length := by decide

end Pawpaw.Props
