import Verif.Lemmas.Finditer
/-!
# What the matcher finds, assertions included
-/
set_option linter.unusedSectionVars false
namespace Pawpaw.Regex
open RegexSpec

/-- Repetition of `R`, which relates the position, the text read and the text after it. -/
inductive Rep (R : Nat → List Char → List Char → Prop) : Nat → List Char → List Char → Prop
  | nil {i w} : Rep R i [] w
  | cons {i u v w} : R i u (v ++ w) → Rep R (i + u.length) v w → Rep R i (u ++ v) w

/-- `r` can read `u` at position `i` when `w` follows. -/
def Sem : Re → Nat → List Char → List Char → Prop
  | .eps, _, u, _ => u = []
  | .chr p, _, u, _ => ∃ c, p c = true ∧ u = [c]
  | .seq a b, i, u, w => ∃ v x, u = v ++ x ∧ Sem a i v (x ++ w) ∧ Sem b (i + v.length) x w
  | .alt a b, i, u, w => Sem a i u w ∨ Sem b i u w
  | .star _ a, i, u, w => Rep (Sem a) i u w
  | .grp _ a, i, u, w => Sem a i u w
  | .bos, i, u, _ => u = [] ∧ i = 0
  | .eos, _, u, w => u = [] ∧ (w = [] ∨ w = ['\n'])
  | .look a, i, u, w => u = [] ∧ ∃ v x, w = v ++ x ∧ Sem a i v x
  | .test p, i, u, w => u = [] ∧ p i w = true
  | .dep a f, i, u, w => ∃ v x, u = v ++ x ∧ Sem a i v (x ++ w) ∧ Sem (f v) (i + v.length) x w

theorem iter_sem {g : Bool} {f : St → List St} {R : Nat → List Char → List Char → Prop}
    (hf : ∀ st st', st' ∈ f st → ∃ u, Reads st u st' ∧ R st.pos u st'.rest) :
    ∀ (n : Nat) (st st' : St), st' ∈ iter g f n st → ∃ u, Reads st u st' ∧ Rep R st.pos u st'.rest
  | 0, st, st', h => by
    rw [iter, List.mem_singleton] at h
    subst h
    exact ⟨[], .nil _, .nil⟩
  | n + 1, st, st', h => by
    have key : st' = st ∨ st' ∈ (f st).flatMap (fun st' => if st.pos < st'.pos then iter g f n st' else []) := by
      rw [iter] at h
      cases g
      · simpa using h
      · simp only [if_true, List.mem_append, List.mem_singleton] at h
        exact h.symm
    rcases key with rfl | h
    · exact ⟨[], .nil _, .nil⟩
    · obtain ⟨s1, h1, h2⟩ := List.mem_flatMap.1 h
      split at h2
      · obtain ⟨u, r1, l1⟩ := hf st s1 h1
        obtain ⟨v, r2, l2⟩ := iter_sem hf n s1 st' h2
        refine ⟨u ++ v, r1.trans r2, .cons ?_ ?_⟩
        · rw [← r2.1]; exact l1
        · rw [← r1.2]; exact l2
      · cases h2

theorem out_sem : ∀ (r : Re) (st st' : St), st' ∈ out r st → ∃ u, Reads st u st' ∧ Sem r st.pos u st'.rest
  | .eps, st, st', h => by
    rw [out, List.mem_singleton] at h
    subst h
    exact ⟨[], .nil _, rfl⟩
  | .chr p, st, st', h => by
    rw [out] at h
    split at h
    · cases h
    · rename_i c cs hr
      split at h
      · rename_i hc
        rw [List.mem_singleton] at h
        subst h
        exact ⟨[c], ⟨hr, rfl⟩, c, hc, rfl⟩
      · cases h
  | .seq a b, st, st', h => by
    rw [out] at h
    obtain ⟨s1, h1, h2⟩ := List.mem_flatMap.1 h
    obtain ⟨u, r1, l1⟩ := out_sem a st s1 h1
    obtain ⟨v, r2, l2⟩ := out_sem b s1 st' h2
    exact ⟨u ++ v, r1.trans r2, u, v, rfl, by rw [← r2.1]; exact l1, by rw [← r1.2]; exact l2⟩
  | .alt a b, st, st', h => by
    rw [out] at h
    rcases List.mem_append.1 h with h | h
    · obtain ⟨u, h1, h2⟩ := out_sem a st st' h
      exact ⟨u, h1, Or.inl h2⟩
    · obtain ⟨u, h1, h2⟩ := out_sem b st st' h
      exact ⟨u, h1, Or.inr h2⟩
  | .star g a, st, st', h => by
    rw [out] at h
    exact iter_sem (out_sem a) _ st st' h
  | .grp n a, st, st', h => by
    rw [out] at h
    obtain ⟨s1, h1, rfl⟩ := List.mem_map.1 h
    exact out_sem a st s1 h1
  | .bos, st, st', h => by
    rw [out] at h
    split at h
    · rename_i hp
      rw [List.mem_singleton] at h; subst h; exact ⟨[], .nil _, rfl, hp⟩
    · cases h
  | .eos, st, st', h => by
    rw [out] at h
    split at h
    · rename_i hp
      rw [List.mem_singleton] at h; subst h; exact ⟨[], .nil _, rfl, hp⟩
    · cases h
  | .look a, st, st', h => by
    rw [out] at h
    rw [Option.mem_toList, Option.map_eq_some_iff] at h
    obtain ⟨t, ht, rfl⟩ := h
    obtain ⟨u, h1, h2⟩ := out_sem a st t (List.mem_of_head? ht)
    exact ⟨[], ⟨rfl, rfl⟩, rfl, u, t.rest, h1.1, h2⟩
  | .test p, st, st', h => by
    rw [out] at h
    split at h
    · rename_i hp
      rw [List.mem_singleton] at h; subst h; exact ⟨[], .nil _, rfl, hp⟩
    · cases h
  | .dep a f, st, st', h => by
    rw [out] at h
    obtain ⟨s1, h1, h2⟩ := List.mem_flatMap.1 h
    obtain ⟨u, r1, l1⟩ := out_sem a st s1 h1
    rw [r1.take] at h2
    obtain ⟨v, r2, l2⟩ := out_sem (f u) s1 st' h2
    exact ⟨u ++ v, r1.trans r2, u, v, rfl, by rw [← r2.1]; exact l1, by rw [← r1.2]; exact l2⟩

theorem rep_nonempty {R : Nat → List Char → List Char → Prop} {i : Nat} {u w : List Char} (h : Rep R i u w) :
    Rep (fun i v x => R i v x ∧ v ≠ []) i u w := by
  induction h with
  | nil => exact .nil
  | @cons i v x w hv _ ih =>
    by_cases he : v = []
    · subst he
      simpa using ih
    · exact .cons ⟨hv, he⟩ ih

theorem sem_iter {g : Bool} {f : St → List St} {R : Nat → List Char → List Char → Prop}
    (hf : ∀ i u w caps, R i u w → ∃ c, ⟨i + u.length, w, c⟩ ∈ f ⟨i, u ++ w, caps⟩) {i : Nat} {u w : List Char}
    (hu : Rep (fun i v x => R i v x ∧ v ≠ []) i u w) : ∀ (n : Nat) (caps), u.length ≤ n →
      ∃ c, ⟨i + u.length, w, c⟩ ∈ iter g f n ⟨i, u ++ w, caps⟩ := by
  induction hu with
  | @nil i w =>
    intro n caps _
    refine ⟨caps, ?_⟩
    cases n with
    | zero => simp [iter]
    | succ n => rw [iter]; cases g <;> simp
  | @cons i v x w hv _ ih =>
    intro n caps hn
    have hl := List.length_pos_iff.2 hv.2
    rw [List.length_append] at hn
    cases n with
    | zero => omega
    | succ n =>
      obtain ⟨c1, h1⟩ := hf i v (x ++ w) caps hv.1
      obtain ⟨c2, h2⟩ := ih n c1 (by omega)
      refine ⟨c2, ?_⟩
      have : (⟨i + (v ++ x).length, w, c2⟩ : St) ∈ (f ⟨i, v ++ x ++ w, caps⟩).flatMap
          (fun st' => if i < st'.pos then iter g f n st' else []) := by
        rw [List.mem_flatMap]
        refine ⟨_, by rw [List.append_assoc]; exact h1, ?_⟩
        rw [if_pos (by dsimp only; omega), List.length_append, ← Nat.add_assoc]
        exact h2
      rw [iter]
      cases g
      · simp only [Bool.false_eq_true, if_false]
        exact List.mem_cons_of_mem _ this
      · simp only [if_true]
        exact List.mem_append_left _ this

theorem sem_out : ∀ (r : Re) (i : Nat) (u w : List Char) (caps : List (String × Nat × Nat)), Sem r i u w →
    ∃ c, ⟨i + u.length, w, c⟩ ∈ out r ⟨i, u ++ w, caps⟩
  | .eps, i, u, w, caps, h => by
    cases h
    exact ⟨caps, by rw [out]; simp⟩
  | .chr p, i, u, w, caps, h => by
    obtain ⟨c, hc, rfl⟩ := h
    exact ⟨caps, by rw [out]; simp [hc]⟩
  | .seq a b, i, u, w, caps, h => by
    obtain ⟨v, x, rfl, h1, h2⟩ := h
    obtain ⟨c1, k1⟩ := sem_out a i v (x ++ w) caps h1
    obtain ⟨c2, k2⟩ := sem_out b (i + v.length) x w c1 h2
    refine ⟨c2, ?_⟩
    rw [out, List.append_assoc]
    exact List.mem_flatMap.2 ⟨_, k1, by rw [List.length_append, ← Nat.add_assoc]; exact k2⟩
  | .alt a b, i, u, w, caps, h => by
    rcases h with h | h
    · obtain ⟨c, hc⟩ := sem_out a i u w caps h
      exact ⟨c, by rw [out]; exact List.mem_append_left _ hc⟩
    · obtain ⟨c, hc⟩ := sem_out b i u w caps h
      exact ⟨c, by rw [out]; exact List.mem_append_right _ hc⟩
  | .star g a, i, u, w, caps, h => by
    obtain ⟨c, hc⟩ := sem_iter (g := g) (sem_out a) (rep_nonempty h) (u ++ w).length caps (by simp)
    exact ⟨c, by rw [out]; exact hc⟩
  | .grp n a, i, u, w, caps, h => by
    obtain ⟨c, hc⟩ := sem_out a i u w caps h
    exact ⟨_, by rw [out]; exact List.mem_map_of_mem hc⟩
  | .bos, i, u, w, caps, h => by
    obtain ⟨rfl, rfl⟩ := h
    exact ⟨caps, by rw [out]; simp⟩
  | .eos, i, u, w, caps, h => by
    obtain ⟨rfl, h⟩ := h
    exact ⟨caps, by rw [out]; simp [h]⟩
  | .look a, i, u, w, caps, h => by
    obtain ⟨rfl, v, x, rfl, h⟩ := h
    obtain ⟨c, hc⟩ := sem_out a i v x caps h
    cases ho : (out a ⟨i, v ++ x, caps⟩).head? with
    | none => rw [List.head?_eq_none_iff] at ho; rw [ho] at hc; cases hc
    | some t =>
      refine ⟨t.caps, ?_⟩
      rw [out]
      simp only [List.nil_append, List.length_nil, Nat.add_zero]
      rw [ho]
      simp
  | .test p, i, u, w, caps, h => by
    obtain ⟨rfl, h⟩ := h
    refine ⟨caps, ?_⟩
    rw [out]
    simp only [List.nil_append, List.length_nil, Nat.add_zero]
    rw [if_pos h]
    simp
  | .dep a f, i, u, w, caps, h => by
    obtain ⟨v, x, rfl, h1, h2⟩ := h
    obtain ⟨c1, k1⟩ := sem_out a i v (x ++ w) caps h1
    obtain ⟨c2, k2⟩ := sem_out (f v) (i + v.length) x w c1 h2
    refine ⟨c2, ?_⟩
    rw [out, List.append_assoc]
    refine List.mem_flatMap.2 ⟨_, k1, ?_⟩
    rw [Reads.take (u := v) ⟨rfl, rfl⟩]
    rw [List.length_append, ← Nat.add_assoc]
    exact k2

/-- Whether there is any way to match. -/
theorem out_ne (r : Re) (i : Nat) (rest : List Char) (caps : List (String × Nat × Nat)) :
    out r ⟨i, rest, caps⟩ ≠ [] ↔ ∃ u w, rest = u ++ w ∧ Sem r i u w := by
  constructor
  · intro h
    obtain ⟨st, hst⟩ := List.exists_mem_of_ne_nil _ h
    obtain ⟨u, h1, h2⟩ := out_sem r _ st hst
    exact ⟨u, st.rest, h1.1, h2⟩
  · rintro ⟨u, w, rfl, h⟩
    obtain ⟨c, hc⟩ := sem_out r i u w caps h
    exact List.ne_nil_of_mem hc

theorem rep_many {R : Nat → List Char → List Char → Prop} {L : List Char → Prop} (h : ∀ i u w, R i u w ↔ L u) (i : Nat)
    (u w : List Char) : Rep R i u w ↔ Many L u := by
  constructor
  · intro hr
    induction hr with
    | nil => exact .nil
    | cons h1 _ ih => exact .cons ((h _ _ _).1 h1) ih
  · intro hm
    induction hm generalizing i with
    | nil => exact .nil
    | cons h1 _ ih => exact .cons ((h _ _ _).2 h1) (ih _)

/-- Without assertions what follows does not matter. -/
theorem sem_free : ∀ (r : Re), Free r → ∀ (i : Nat) (u w : List Char), Sem r i u w ↔ Lang r u
  | .eps, _, _, _, _ => Iff.rfl
  | .chr _, _, _, _, _ => Iff.rfl
  | .seq a b, h, i, u, w => by
    show (∃ v x, u = v ++ x ∧ Sem a i v (x ++ w) ∧ Sem b (i + v.length) x w) ↔ _
    simp only [sem_free a h.1, sem_free b h.2]
    rfl
  | .alt a b, h, i, u, w => by
    show Sem a i u w ∨ Sem b i u w ↔ _
    rw [sem_free a h.1, sem_free b h.2]
    rfl
  | .star g a, h, i, u, w => rep_many (sem_free a h) i u w
  | .grp n a, h, i, u, w => sem_free a h i u w
  | .dep a f, h, i, u, w => by
    show (∃ v x, u = v ++ x ∧ Sem a i v (x ++ w) ∧ Sem (f v) (i + v.length) x w) ↔ _
    simp only [sem_free a h.1, fun v => sem_free (f v) (h.2 v)]
    rfl

end Pawpaw.Regex
