import Verif.Lemmas.Regex
/-!
# What `finditer` finds, and what groups capture
-/
set_option linter.unusedSectionVars false
namespace Pawpaw.Regex
open RegexSpec

/-- Every character an expression can consume satisfies `P`. -/
def Only (P : Char → Prop) : Re → Prop
  | .chr p => ∀ c, p c = true → P c
  | .seq a b => Only P a ∧ Only P b
  | .alt a b => Only P a ∧ Only P b
  | .star _ a => Only P a
  | .grp _ a => Only P a
  | .dep a f => Only P a ∧ ∀ u, Only P (f u)
  | _ => True

theorem many_only {P : Char → Prop} {u : List Char} (h : Many (fun u => ∀ c ∈ u, P c) u) : ∀ c ∈ u, P c := by
  induction h with
  | nil => simp
  | cons h1 _ ih =>
    intro c hc
    rcases List.mem_append.1 hc with hc | hc
    · exact h1 c hc
    · exact ih c hc

theorem out_only {P : Char → Prop} : ∀ (r : Re), Only P r → ∀ (st st' : St), st' ∈ out r st →
    ∃ u, Reads st u st' ∧ ∀ c ∈ u, P c
  | .eps, _, st, st', h => by
    rw [out, List.mem_singleton] at h
    subst h
    exact ⟨[], .nil _, by simp⟩
  | .chr p, hp, st, st', h => by
    rw [out] at h
    split at h
    · cases h
    · rename_i c cs hr
      split at h
      · rename_i hc
        rw [List.mem_singleton] at h
        subst h
        exact ⟨[c], ⟨hr, rfl⟩, by simpa using hp c hc⟩
      · cases h
  | .seq a b, hr, st, st', h => by
    rw [out] at h
    obtain ⟨s1, h1, h2⟩ := List.mem_flatMap.1 h
    obtain ⟨u, r1, l1⟩ := out_only a hr.1 st s1 h1
    obtain ⟨v, r2, l2⟩ := out_only b hr.2 s1 st' h2
    refine ⟨u ++ v, r1.trans r2, fun c hc => ?_⟩
    rcases List.mem_append.1 hc with hc | hc
    · exact l1 c hc
    · exact l2 c hc
  | .alt a b, hr, st, st', h => by
    rw [out] at h
    rcases List.mem_append.1 h with h | h
    · exact out_only a hr.1 st st' h
    · exact out_only b hr.2 st st' h
  | .star g a, hr, st, st', h => by
    rw [out] at h
    obtain ⟨u, h1, h2⟩ := iter_sound (out_only a hr) _ st st' h
    exact ⟨u, h1, many_only h2⟩
  | .grp n a, hr, st, st', h => by
    rw [out] at h
    obtain ⟨s1, h1, rfl⟩ := List.mem_map.1 h
    exact out_only a hr st s1 h1
  | .bos, _, st, st', h => by
    rw [out] at h
    split at h
    · rw [List.mem_singleton] at h; subst h; exact ⟨[], .nil _, by simp⟩
    · cases h
  | .eos, _, st, st', h => by
    rw [out] at h
    split at h
    · rw [List.mem_singleton] at h; subst h; exact ⟨[], .nil _, by simp⟩
    · cases h
  | .look a, _, st, st', h => by
    rw [out] at h
    rw [Option.mem_toList, Option.map_eq_some_iff] at h
    obtain ⟨t, _, rfl⟩ := h
    exact ⟨[], ⟨rfl, rfl⟩, by simp⟩
  | .test _, _, st, st', h => by
    rw [out] at h
    split at h
    · rw [List.mem_singleton] at h; subst h; exact ⟨[], .nil _, by simp⟩
    · cases h
  | .dep a f, hr, st, st', h => by
    rw [out] at h
    obtain ⟨s1, h1, h2⟩ := List.mem_flatMap.1 h
    obtain ⟨u, r1, l1⟩ := out_only a hr.1 st s1 h1
    rw [r1.take] at h2
    obtain ⟨v, r2, l2⟩ := out_only (f u) (hr.2 u) s1 st' h2
    refine ⟨u ++ v, r1.trans r2, fun c hc => ?_⟩
    rcases List.mem_append.1 hc with hc | hc
    · exact l1 c hc
    · exact l2 c hc

theorem only_true : ∀ r : Re, Only (fun _ => True) r
  | .eps | .bos | .eos | .look _ | .test _ => trivial
  | .chr _ => fun _ _ => trivial
  | .seq a b => ⟨only_true a, only_true b⟩
  | .alt a b => ⟨only_true a, only_true b⟩
  | .star _ a => only_true a
  | .grp _ a => only_true a
  | .dep a f => ⟨only_true a, fun u => only_true (f u)⟩

theorem out_reads (r : Re) (st st' : St) (h : st' ∈ out r st) : ∃ u, Reads st u st' :=
  let ⟨u, hu, _⟩ := out_only r (only_true r) st st' h
  ⟨u, hu⟩

/-- What a match is: the best one at the place where it starts; or, where that is empty, the best that is not. -/
def FoundAt (r : Re) (i : Nat) (rest : List Char) (f : Found) : Prop :=
  ∃ pre suf st, rest = pre ++ suf ∧ f.start = i + pre.length ∧ st ∈ out r ⟨f.start, suf, []⟩ ∧ f.stop = st.pos ∧
    f.caps = st.caps ∧ ((out r ⟨f.start, suf, []⟩).head? = some st ∨
      ∃ st0, (out r ⟨f.start, suf, []⟩).head? = some st0 ∧ st0.pos = f.start ∧ f.start < st.pos)

theorem FoundAt.skip {r : Re} {i : Nat} {u rest : List Char} {f : Found} (h : FoundAt r (i + u.length) rest f) :
    FoundAt r i (u ++ rest) f := by
  obtain ⟨pre, suf, st, e1, e2, e3⟩ := h
  exact ⟨u ++ pre, suf, st, by rw [e1, List.append_assoc], by rw [e2, List.length_append]; omega, e3⟩

theorem finditerAux_at (r : Re) : ∀ (n : Nat) (adv : Bool) (i : Nat) (rest : List Char),
    (adv = true → ∃ st0, (out r ⟨i, rest, []⟩).head? = some st0 ∧ st0.pos = i) →
    ∀ f ∈ finditerAux r n adv i rest, FoundAt r i rest f
  | 0, _, _, _, _, f, hf => by simp [finditerAux] at hf
  | n + 1, adv, i, rest, hadv, f, hf => by
    unfold finditerAux at hf
    cases ho : (out r ⟨i, rest, []⟩).find? (fun st => !adv || decide (i < st.pos)) with
    | none =>
      rw [ho] at hf
      simp only at hf
      cases rest with
      | nil => cases hf
      | cons c cs =>
        exact FoundAt.skip (u := [c]) (finditerAux_at r n false (i + 1) cs (by simp) f hf)
    | some st =>
      rw [ho] at hf
      simp only at hf
      have hm := List.mem_of_find?_eq_some ho
      have hp := List.find?_some ho
      rcases List.mem_cons.1 hf with rfl | hf
      · refine ⟨[], rest, st, rfl, rfl, hm, rfl, rfl, ?_⟩
        cases adv with
        | false =>
          left
          dsimp only
          cases hl : out r ⟨i, rest, []⟩ with
          | nil => rw [hl] at hm; cases hm
          | cons a l =>
            rw [hl] at ho
            simp at ho
            simp [ho]
        | true =>
          right
          obtain ⟨st0, h1, h2⟩ := hadv rfl
          exact ⟨st0, h1, h2, by simpa using hp⟩
      · obtain ⟨u, h1, h2⟩ := out_reads r _ st hm
        simp only at h1 h2
        rw [h1]
        apply FoundAt.skip
        rw [← h2]
        refine finditerAux_at r n _ st.pos st.rest ?_ f hf
        intro he
        have he := of_decide_eq_true he
        -- an empty match was the best one
        have hu : u = [] := List.length_eq_zero_iff.1 (by omega)
        rw [hu, List.nil_append] at h1
        cases adv with
        | true => simp [he] at hp
        | false =>
          rw [he, ← h1]
          refine ⟨st, ?_, he⟩
          cases hl : out r ⟨i, rest, []⟩ with
          | nil => rw [hl] at hm; cases hm
          | cons a l =>
            rw [hl] at ho
            simp at ho
            simp [ho]

theorem finditer_at {r : Re} {i : Nat} {rest : List Char} {f : Found} (hf : f ∈ finditer r i rest) : FoundAt r i rest f :=
  finditerAux_at r _ false i rest (by simp) f hf

/-- Wherever the pattern can match, some match starts there or covers that place. -/
theorem finditerAux_covers (r : Re) : ∀ (n : Nat) (adv : Bool) (i : Nat) (pre suf : List Char),
    2 * (pre ++ suf).length + (if adv then 1 else 2) ≤ n → (adv = true → pre ≠ []) →
    out r ⟨i + pre.length, suf, []⟩ ≠ [] →
    ∃ f ∈ finditerAux r n adv i (pre ++ suf), f.start = i + pre.length ∨ (f.start < i + pre.length ∧ i + pre.length < f.stop)
  | 0, adv, _, _, _, h, _, _ => by cases adv <;> simp at h
  | n + 1, adv, i, pre, suf, hn, hadv, h => by
    unfold finditerAux
    cases pre with
    | nil =>
      simp only [List.nil_append, List.length_nil, Nat.add_zero] at h ⊢
      cases adv with
      | true => exact absurd rfl (hadv rfl)
      | false =>
        cases hl : out r ⟨i, suf, []⟩ with
        | nil => exact absurd hl h
        | cons a l => exact ⟨_, by simp; exact Or.inl rfl, Or.inl rfl⟩
    | cons c pre =>
      have e1 : i + (c :: pre).length = (i + 1) + pre.length := by rw [List.length_cons]; omega
      cases ho : (out r ⟨i, c :: pre ++ suf, []⟩).find? (fun st => !adv || decide (i < st.pos)) with
      | none =>
        rw [e1] at h ⊢
        exact finditerAux_covers r n false (i + 1) pre suf (by
          simp only [List.cons_append, List.length_cons, Bool.false_eq_true, if_false] at hn ⊢
          split at hn <;> omega) (by simp) h
      | some st =>
        simp only
        have hm := List.mem_of_find?_eq_some ho
        have hp := List.find?_some ho
        obtain ⟨u, h1, h2⟩ := out_reads r _ st hm
        simp only at h1 h2
        by_cases hin : i + (c :: pre).length < st.pos
        · refine ⟨_, List.mem_cons_self .., Or.inr ⟨?_, hin⟩⟩
          simp only [List.length_cons]; omega
        · -- the match ends before the place
          have hle : u.length ≤ (c :: pre).length := by omega
          obtain ⟨v, e1, e2⟩ : ∃ v, c :: pre = u ++ v ∧ st.rest = v ++ suf := by
            rcases List.append_eq_append_iff.1 h1 with ⟨t, e1, e2⟩ | ⟨t, e1, e2⟩
            · have : t = [] := by
                have := congrArg List.length e1
                rw [List.length_append] at this
                exact List.length_eq_zero_iff.1 (by omega)
              subst this
              exact ⟨[], by simpa using e1.symm, by simpa using e2.symm⟩
            · exact ⟨t, e1, e2⟩
          have e3 : i + (c :: pre).length = st.pos + v.length := by
            rw [e1, h2, List.length_append]; omega
          rw [e3] at h ⊢
          rw [e2]
          have hlen : (c :: pre ++ suf).length = u.length + (v ++ suf).length := by rw [h1, e2, List.length_append]
          obtain ⟨g, hg, hg'⟩ := finditerAux_covers r n (decide (st.pos = i)) st.pos v suf (by
            by_cases he : st.pos = i
            · cases adv with
              | true => simp [he] at hp
              | false => simp only [he, decide_true, if_true] ; simp only [Bool.false_eq_true, if_false] at hn; omega
            · simp only [he, decide_false, Bool.false_eq_true, if_false]
              split at hn <;> omega) (by
            intro he
            have he := of_decide_eq_true he
            have hu : u = [] := List.length_eq_zero_iff.1 (by omega)
            rw [hu, List.nil_append] at e1
            rw [← e1]; simp) h
          exact ⟨g, List.mem_cons_of_mem _ hg, hg'⟩

theorem finditer_covers {r : Re} {i : Nat} {pre suf : List Char} (h : out r ⟨i + pre.length, suf, []⟩ ≠ []) :
    ∃ f ∈ finditer r i (pre ++ suf), f.start = i + pre.length ∨ (f.start < i + pre.length ∧ i + pre.length < f.stop) :=
  finditerAux_covers r _ false i pre suf (by simp) (by simp) h

/-- `x` is the content of a group named `n` somewhere in an expression. -/
def GroupIn (n : String) (x : Re) : Re → Prop
  | .seq a b => GroupIn n x a ∨ GroupIn n x b
  | .alt a b => GroupIn n x a ∨ GroupIn n x b
  | .star _ a => GroupIn n x a
  | .grp m a => (m = n ∧ a = x) ∨ GroupIn n x a
  | .dep a f => GroupIn n x a ∨ ∃ u, GroupIn n x (f u)
  | _ => False

/-- A capture made between two states: a text its group stands for. -/
def CapOf (r : Re) (st : St) (c : String × Nat × Nat) : Prop :=
  ∃ x pre u w, GroupIn c.1 x r ∧ Lang x u ∧ st.rest = pre ++ u ++ w ∧ c.2.1 = st.pos + pre.length ∧ c.2.2 = c.2.1 + u.length

theorem CapOf.later {r : Re} {st s1 : St} {u : List Char} (h : Reads st u s1) {c} (hc : CapOf r s1 c) : CapOf r st c := by
  obtain ⟨x, pre, v, w, h1, h2, h3, h4, h5⟩ := hc
  refine ⟨x, u ++ pre, v, w, h1, h2, by rw [h.1, h3]; simp, by rw [h4, h.2, List.length_append]; omega, h5⟩

theorem CapOf.mono {r r' : Re} (h : ∀ n x, GroupIn n x r → GroupIn n x r') {st : St} {c} (hc : CapOf r st c) : CapOf r' st c := by
  obtain ⟨x, pre, v, w, h1, h2⟩ := hc
  exact ⟨x, pre, v, w, h _ _ h1, h2⟩

theorem iter_capOf {g : Bool} {a : Re} (ha : Free a)
    (hf : ∀ st st', st' ∈ out a st → ∀ c ∈ st'.caps, c ∈ st.caps ∨ CapOf a st c) :
    ∀ (n : Nat) (st st' : St), st' ∈ iter g (out a) n st → ∀ c ∈ st'.caps, c ∈ st.caps ∨ CapOf a st c
  | 0, st, st', h, c, hc => by
    rw [iter, List.mem_singleton] at h
    subst h
    exact Or.inl hc
  | n + 1, st, st', h, c, hc => by
    have key : st' = st ∨ st' ∈ (out a st).flatMap (fun st' => if st.pos < st'.pos then iter g (out a) n st' else []) := by
      rw [iter] at h
      cases g
      · simpa using h
      · simp only [if_true, List.mem_append, List.mem_singleton] at h
        exact h.symm
    rcases key with rfl | h
    · exact Or.inl hc
    · obtain ⟨s1, h1, h2⟩ := List.mem_flatMap.1 h
      split at h2
      · rcases iter_capOf ha hf n s1 st' h2 c hc with h | h
        · exact hf st s1 h1 c h
        · obtain ⟨u, hu, _⟩ := out_sound a ha st s1 h1
          exact Or.inr (h.later hu)
      · cases h2

/-- Every capture is a text its group stands for. -/
theorem out_capOf : ∀ (r : Re), Free r → ∀ (st st' : St), st' ∈ out r st → ∀ c ∈ st'.caps, c ∈ st.caps ∨ CapOf r st c
  | .eps, _, st, st', h, c, hc => by
    rw [out, List.mem_singleton] at h
    subst h
    exact Or.inl hc
  | .chr p, _, st, st', h, c, hc => by
    rw [out] at h
    split at h
    · cases h
    · split at h
      · rw [List.mem_singleton] at h
        subst h
        exact Or.inl hc
      · cases h
  | .seq a b, hr, st, st', h, c, hc => by
    rw [out] at h
    obtain ⟨s1, h1, h2⟩ := List.mem_flatMap.1 h
    obtain ⟨u, hu, _⟩ := out_sound a hr.1 st s1 h1
    rcases out_capOf b hr.2 s1 st' h2 c hc with h | h
    · rcases out_capOf a hr.1 st s1 h1 c h with h | h
      · exact Or.inl h
      · exact Or.inr (h.mono fun _ _ => Or.inl)
    · exact Or.inr ((h.later hu).mono fun _ _ => Or.inr)
  | .alt a b, hr, st, st', h, c, hc => by
    rw [out] at h
    rcases List.mem_append.1 h with h | h
    · exact (out_capOf a hr.1 st st' h c hc).imp id fun h => h.mono fun _ _ => Or.inl
    · exact (out_capOf b hr.2 st st' h c hc).imp id fun h => h.mono fun _ _ => Or.inr
  | .star g a, hr, st, st', h, c, hc => by
    rw [out] at h
    exact (iter_capOf (a := a) hr (out_capOf a hr) _ st st' h c hc).imp id fun h => h.mono fun _ _ h => h
  | .grp n a, hr, st, st', h, c, hc => by
    rw [out] at h
    obtain ⟨s1, h1, rfl⟩ := List.mem_map.1 h
    rcases List.mem_append.1 hc with hc | hc
    · exact (out_capOf a hr st s1 h1 c hc).imp id fun h => h.mono fun _ _ => Or.inr
    · rw [List.mem_singleton] at hc
      subst hc
      obtain ⟨u, hu, hl⟩ := out_sound a hr st s1 h1
      exact Or.inr ⟨a, [], u, s1.rest, Or.inl ⟨rfl, rfl⟩, hl, by simpa using hu.1, rfl, hu.2⟩
  | .dep a f, hr, st, st', h, c, hc => by
    rw [out] at h
    obtain ⟨s1, h1, h2⟩ := List.mem_flatMap.1 h
    obtain ⟨u, hu, _⟩ := out_sound a hr.1 st s1 h1
    rcases out_capOf _ (hr.2 _) s1 st' h2 c hc with h | h
    · rcases out_capOf a hr.1 st s1 h1 c h with h | h
      · exact Or.inl h
      · exact Or.inr (h.mono fun _ _ => Or.inl)
    · exact Or.inr ((h.later hu).mono (r' := .dep a f) fun _ _ h => Or.inr ⟨_, h⟩)
  | .bos, hr, _, _, _, _, _ => hr.elim
  | .eos, hr, _, _, _, _, _ => hr.elim
  | .look _, hr, _, _, _, _, _ => hr.elim

end Pawpaw.Regex
