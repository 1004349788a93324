import Verif.Props.BoxTable
/-!
# C112: look-ups that find nothing
-/
namespace Pawpaw.Props
open Pawpaw BoxTable Box

/-- C112: a name that no character bears, and a text that is no box-drawing character, raise `ValueError`; whatever is
found bears the name, or is the character, asked for. -/
theorem C112_unknown (nm ch : String) :
    (fromName named nm = .error .valueError ↔ nm ∉ named.map (·.1)) ∧
    (∀ c, fromName named nm = .ok c → (nm, c) ∈ named) ∧
    (fromChar table ch = .error .valueError ↔ ch ∉ table.map (fun c => c.char.toString)) ∧
    (∀ c, fromChar table ch = .ok c → c ∈ table ∧ c.char.toString = ch) := by
  refine ⟨⟨?_, ?_⟩, ?_, ⟨?_, ?_⟩, ?_⟩
  · intro h hm
    obtain ⟨⟨n, c⟩, hc, rfl⟩ := List.mem_map.1 hm
    rw [(C112_lookup hc).2.1] at h
    cases h
  · intro h
    unfold fromName
    rw [List.find?_eq_none.2]
    rintro ⟨n, c⟩ hx he
    exact h (List.mem_map.2 ⟨_, hx, by simpa using he⟩)
  · intro c h
    unfold fromName at h
    split at h
    · rename_i b hb
      obtain ⟨n, b⟩ := b
      obtain rfl := Except.ok.inj h
      have h1 := List.find?_some hb
      have h2 := List.mem_of_find?_eq_some hb
      simp only [decide_eq_true_eq] at h1
      exact h1 ▸ h2
    · cases h
  · intro h hm
    obtain ⟨c, hc, rfl⟩ := List.mem_map.1 hm
    obtain ⟨⟨n, c'⟩, hc', rfl⟩ := List.mem_map.1 hc
    rw [(C112_lookup hc').1] at h
    cases h
  · intro h
    unfold fromChar
    split
    · rename_i b hb
      have h1 := List.find?_some hb
      have h2 := List.mem_of_find?_eq_some hb
      exact absurd (List.mem_map.2 ⟨_, h2, by simpa using h1⟩) h
    · rfl
  · intro c h
    unfold fromChar at h
    split at h
    · rename_i b hb
      obtain rfl := Except.ok.inj h
      have h1 := List.find?_some hb
      have h2 := List.mem_of_find?_eq_some hb
      exact ⟨h2, by simpa using h1⟩
    · cases h

/-- Non-vacuity: a name and a text that there are, and ones that there are not. -/
example : fromName named "nonesuch" = .error .valueError ∧ (fromChar table "x") = .error .valueError ∧
    (table.map (fun c => c.char.toString)).contains "─" = true := by decide +kernel

end Pawpaw.Props
