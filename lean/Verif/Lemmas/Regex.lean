import Verif.Spec.Regex
/-!
# The matcher finds exactly the texts of the language
-/
namespace Pawpaw.Regex
open RegexSpec

/-- From `st` to `st'` by reading `u`. -/
def Reads (st : St) (u : List Char) (st' : St) : Prop := st.rest = u ++ st'.rest ∧ st'.pos = st.pos + u.length

theorem Reads.nil (st : St) : Reads st [] st := ⟨rfl, rfl⟩

theorem Reads.trans {a b c : St} {u v : List Char} (h1 : Reads a u b) (h2 : Reads b v c) : Reads a (u ++ v) c := by
  refine ⟨by rw [h1.1, h2.1, List.append_assoc], ?_⟩
  rw [h2.2, h1.2, List.length_append]
  omega

/-- The text that was read. -/
theorem Reads.take {st st' : St} {u : List Char} (h : Reads st u st') : st.rest.take (st'.pos - st.pos) = u := by
  rw [h.2, h.1]
  simp

theorem iter_sound {g : Bool} {f : St → List St} {L : List Char → Prop}
    (hf : ∀ st st', st' ∈ f st → ∃ u, Reads st u st' ∧ L u) :
    ∀ (n : Nat) (st st' : St), st' ∈ iter g f n st → ∃ u, Reads st u st' ∧ Many L u
  | 0, st, st', h => by
    rw [iter, List.mem_singleton] at h
    subst h
    exact ⟨[], .nil _, .nil⟩
  | n + 1, st, st', h => by
    have key : st' = st ∨ st' ∈ (f st).flatMap (fun st' => if st.pos < st'.pos then iter g f n st' else []) := by
      rw [iter] at h
      cases g
      · simpa using h
      · simp only [if_true, List.mem_append, List.mem_singleton] at h
        exact h.symm
    rcases key with rfl | h
    · exact ⟨[], .nil _, .nil⟩
    · obtain ⟨s1, h1, h2⟩ := List.mem_flatMap.1 h
      split at h2
      · obtain ⟨u, r1, l1⟩ := hf st s1 h1
        obtain ⟨v, r2, l2⟩ := iter_sound hf n s1 st' h2
        exact ⟨u ++ v, r1.trans r2, .cons l1 l2⟩
      · cases h2

theorem out_sound : ∀ (r : Re), Free r → ∀ (st st' : St), st' ∈ out r st → ∃ u, Reads st u st' ∧ Lang r u
  | .eps, _, st, st', h => by
    rw [out, List.mem_singleton] at h
    subst h
    exact ⟨[], .nil _, rfl⟩
  | .chr p, _, st, st', h => by
    rw [out] at h
    split at h
    · cases h
    · rename_i c cs hr
      split at h
      · rename_i hp
        rw [List.mem_singleton] at h
        subst h
        exact ⟨[c], ⟨hr, rfl⟩, c, hp, rfl⟩
      · cases h
  | .seq a b, hr, st, st', h => by
    rw [out] at h
    obtain ⟨s1, h1, h2⟩ := List.mem_flatMap.1 h
    obtain ⟨u, r1, l1⟩ := out_sound a hr.1 st s1 h1
    obtain ⟨v, r2, l2⟩ := out_sound b hr.2 s1 st' h2
    exact ⟨u ++ v, r1.trans r2, u, v, rfl, l1, l2⟩
  | .alt a b, hr, st, st', h => by
    rw [out] at h
    rcases List.mem_append.1 h with h | h
    · obtain ⟨u, r1, l1⟩ := out_sound a hr.1 st st' h
      exact ⟨u, r1, .inl l1⟩
    · obtain ⟨u, r1, l1⟩ := out_sound b hr.2 st st' h
      exact ⟨u, r1, .inr l1⟩
  | .star g a, hr, st, st', h => by
    rw [out] at h
    exact iter_sound (out_sound a hr) _ st st' h
  | .grp n a, hr, st, st', h => by
    rw [out] at h
    obtain ⟨s1, h1, rfl⟩ := List.mem_map.1 h
    obtain ⟨u, r1, l1⟩ := out_sound a hr st s1 h1
    exact ⟨u, ⟨r1.1, r1.2⟩, l1⟩
  | .dep a f, hr, st, st', h => by
    rw [out] at h
    obtain ⟨s1, h1, h2⟩ := List.mem_flatMap.1 h
    obtain ⟨u, r1, l1⟩ := out_sound a hr.1 st s1 h1
    rw [r1.take] at h2
    obtain ⟨v, r2, l2⟩ := out_sound (f u) (hr.2 u) s1 st' h2
    exact ⟨u ++ v, r1.trans r2, u, v, rfl, l1, l2⟩

/-- Only non-empty pieces are needed. -/
theorem many_nonempty {L : List Char → Prop} {u : List Char} (h : Many L u) : Many (fun v => L v ∧ v ≠ []) u := by
  induction h with
  | nil => exact .nil
  | @cons v w hv _ ih =>
    by_cases he : v = []
    · subst he; exact ih
    · exact .cons ⟨hv, he⟩ ih

theorem iter_complete {g : Bool} {f : St → List St} {L : List Char → Prop}
    (hf : ∀ st u w, st.rest = u ++ w → L u → ∃ c, ⟨st.pos + u.length, w, c⟩ ∈ f st) {u : List Char}
    (hu : Many (fun v => L v ∧ v ≠ []) u) : ∀ (n : Nat) (st : St) (w : List Char), u.length ≤ n → st.rest = u ++ w →
      ∃ c, ⟨st.pos + u.length, w, c⟩ ∈ iter g f n st := by
  induction hu with
  | nil =>
    intro n st w _ hr
    have e : (⟨st.pos + ([] : List Char).length, w, st.caps⟩ : St) = st := by
      obtain ⟨p, r, c⟩ := st
      simp only at hr
      subst hr
      rfl
    refine ⟨st.caps, ?_⟩
    rw [e]
    cases n with
    | zero => simp [iter]
    | succ n => rw [iter]; cases g <;> simp
  | @cons v u' hv _ ih =>
    intro n st w hn hr
    have hl : 0 < v.length := List.length_pos_iff.2 hv.2
    rw [List.length_append] at hn
    cases n with
    | zero => omega
    | succ n =>
      obtain ⟨c1, h1⟩ := hf st v (u' ++ w) (by rw [hr, List.append_assoc]) hv.1
      obtain ⟨c2, h2⟩ := ih n ⟨st.pos + v.length, u' ++ w, c1⟩ w (by omega) rfl
      refine ⟨c2, ?_⟩
      have hm : (⟨st.pos + (v ++ u').length, w, c2⟩ : St) ∈
          (f st).flatMap (fun st' => if st.pos < st'.pos then iter g f n st' else []) := by
        refine List.mem_flatMap.2 ⟨_, h1, ?_⟩
        rw [if_pos (by simp only; omega)]
        rw [List.length_append, ← Nat.add_assoc]
        exact h2
      rw [iter]
      cases g
      · simp only [Bool.false_eq_true, if_false]
        exact List.mem_cons_of_mem _ hm
      · simp only [if_true]
        exact List.mem_append_left _ hm

theorem out_complete : ∀ (r : Re) (st : St) (u w : List Char), st.rest = u ++ w → Lang r u →
    ∃ c, ⟨st.pos + u.length, w, c⟩ ∈ out r st
  | .eps, st, u, w, hr, hl => by
    cases hl
    refine ⟨st.caps, ?_⟩
    rw [out, List.mem_singleton]
    obtain ⟨p, r, c⟩ := st
    simp only at hr
    subst hr
    rfl
  | .chr p, st, u, w, hr, hl => by
    obtain ⟨c, hp, rfl⟩ := hl
    refine ⟨st.caps, ?_⟩
    rw [out]
    rw [hr]
    simp [hp]
  | .seq a b, st, u, w, hr, hl => by
    obtain ⟨v1, v2, rfl, l1, l2⟩ := hl
    obtain ⟨c1, h1⟩ := out_complete a st v1 (v2 ++ w) (by rw [hr, List.append_assoc]) l1
    obtain ⟨c2, h2⟩ := out_complete b ⟨st.pos + v1.length, v2 ++ w, c1⟩ v2 w rfl l2
    refine ⟨c2, ?_⟩
    rw [out]
    refine List.mem_flatMap.2 ⟨_, h1, ?_⟩
    rw [List.length_append, ← Nat.add_assoc]
    exact h2
  | .alt a b, st, u, w, hr, hl => by
    rcases hl with hl | hl
    · obtain ⟨c, h⟩ := out_complete a st u w hr hl
      exact ⟨c, by rw [out]; exact List.mem_append_left _ h⟩
    · obtain ⟨c, h⟩ := out_complete b st u w hr hl
      exact ⟨c, by rw [out]; exact List.mem_append_right _ h⟩
  | .star g a, st, u, w, hr, hl => by
    rw [out]
    exact iter_complete (fun st u w h1 h2 => out_complete a st u w h1 h2) (many_nonempty hl) _ st w
      (by rw [hr, List.length_append]; omega) hr
  | .grp n a, st, u, w, hr, hl => by
    obtain ⟨c, h⟩ := out_complete a st u w hr hl
    refine ⟨c ++ [(n, st.pos, st.pos + u.length)], ?_⟩
    rw [out]
    exact List.mem_map.2 ⟨_, h, rfl⟩
  | .bos, _, _, _, _, hl => hl.elim
  | .eos, _, _, _, _, hl => hl.elim
  | .dep a f, st, u, w, hr, hl => by
    obtain ⟨v1, v2, rfl, l1, l2⟩ := hl
    obtain ⟨c1, h1⟩ := out_complete a st v1 (v2 ++ w) (by rw [hr, List.append_assoc]) l1
    obtain ⟨c2, h2⟩ := out_complete (f v1) ⟨st.pos + v1.length, v2 ++ w, c1⟩ v2 w rfl l2
    refine ⟨c2, ?_⟩
    rw [out]
    refine List.mem_flatMap.2 ⟨_, h1, ?_⟩
    rw [Reads.take (u := v1) ⟨by simp [hr], rfl⟩]
    rw [List.length_append, ← Nat.add_assoc]
    exact h2

/-- `pattern.match` of `^ r $` succeeds exactly when the text, or the text without a final newline, is in the
language of `r`. -/
theorem anchored (r : Re) (hr : Free r) (s : List Char) :
    (matchStart (.seq .bos (.seq r .eos)) s).isSome = true ↔ Lang r s ∨ ∃ u, s = u ++ ['\n'] ∧ Lang r u := by
  unfold matchStart
  rw [Option.isSome_map, List.isSome_head?]
  constructor
  · intro h
    cases ho : out (.seq .bos (.seq r .eos)) ⟨0, s, []⟩ with
    | nil => exact absurd ho h
    | cons st _ =>
      have hm : st ∈ out (.seq .bos (.seq r .eos)) ⟨0, s, []⟩ := by rw [ho]; exact List.mem_cons_self
      rw [out] at hm
      obtain ⟨s0, h0, h1⟩ := List.mem_flatMap.1 hm
      rw [out, if_pos rfl, List.mem_singleton] at h0
      subst h0
      rw [out] at h1
      obtain ⟨s1, h1, h2⟩ := List.mem_flatMap.1 h1
      obtain ⟨u, r1, l1⟩ := out_sound r hr _ s1 h1
      rw [out] at h2
      split at h2
      · rename_i hc
        have := r1.1
        simp only at this
        rcases hc with hc | hc
        · left; rw [this, hc, List.append_nil]; exact l1
        · right; exact ⟨u, by rw [this, hc], l1⟩
      · cases h2
  · intro h
    have key : ∀ u w, s = u ++ w → (w = [] ∨ w = ['\n']) → Lang r u → out (.seq .bos (.seq r .eos)) ⟨0, s, []⟩ ≠ [] := by
      intro u w hs hw hl
      obtain ⟨c, hc⟩ := out_complete r ⟨0, s, []⟩ u w hs hl
      have : (⟨0 + u.length, w, c⟩ : St) ∈ out (.seq .bos (.seq r .eos)) ⟨0, s, []⟩ := by
        rw [out]
        refine List.mem_flatMap.2 ⟨⟨0, s, []⟩, by rw [out, if_pos rfl]; exact List.mem_singleton.2 rfl, ?_⟩
        rw [out]
        refine List.mem_flatMap.2 ⟨_, hc, ?_⟩
        rw [out, if_pos hw]
        exact List.mem_singleton.2 rfl
      intro hn
      rw [hn] at this
      cases this
    have : out (.seq .bos (.seq r .eos)) ⟨0, s, []⟩ ≠ [] := by
      rcases h with h | ⟨u, rfl, h⟩
      · exact key s [] (by simp) (.inl rfl) h
      · exact key u _ rfl (.inr rfl) h
    exact this

/-! ### Languages of the abbreviations -/

theorem lang_lit : ∀ (cs u : List Char), Lang (lit cs) u ↔ u = cs
  | [], u => Iff.rfl
  | [c], u => by
    show (∃ d, (d == c) = true ∧ u = [d]) ↔ u = [c]
    constructor
    · rintro ⟨d, hd, rfl⟩; rw [eq_of_beq hd]
    · rintro rfl; exact ⟨c, beq_self_eq_true c, rfl⟩
  | c :: d :: cs, u => by
    show (∃ v w, u = v ++ w ∧ (∃ e, (e == c) = true ∧ v = [e]) ∧ Lang (lit (d :: cs)) w) ↔ _
    constructor
    · rintro ⟨v, w, rfl, ⟨e, he, rfl⟩, hw⟩
      rw [(lang_lit (d :: cs) w).1 hw, eq_of_beq he]
      rfl
    · rintro rfl
      exact ⟨[c], d :: cs, rfl, ⟨c, beq_self_eq_true c, rfl⟩, (lang_lit _ _).2 rfl⟩

theorem lang_opt (a : Re) (u : List Char) : Lang (opt a) u ↔ Lang a u ∨ u = [] := Iff.rfl

theorem lang_many_chr (p : Char → Bool) (u : List Char) : Lang (many (.chr p)) u ↔ ∀ c ∈ u, p c = true := by
  show Many _ u ↔ _
  constructor
  · intro h
    induction h with
    | nil => simp
    | cons hv _ ih =>
      obtain ⟨c, hc, rfl⟩ := hv
      intro d hd
      rcases List.mem_append.1 hd with hd | hd
      · rw [List.mem_singleton] at hd; subst hd; exact hc
      · exact ih d hd
  · intro h
    induction u with
    | nil => exact .nil
    | cons c u ih =>
      exact .cons (u := [c]) ⟨c, h c List.mem_cons_self, rfl⟩ (ih (fun d hd => h d (List.mem_cons_of_mem _ hd)))

theorem lang_plus_chr (p : Char → Bool) (u : List Char) : Lang (plus (.chr p)) u ↔ u ≠ [] ∧ ∀ c ∈ u, p c = true := by
  constructor
  · rintro ⟨v, w, rfl, ⟨c, hc, rfl⟩, hw⟩
    have := (lang_many_chr p w).1 hw
    refine ⟨by simp, ?_⟩
    intro d hd
    rcases List.mem_append.1 hd with hd | hd
    · rw [List.mem_singleton] at hd; subst hd; exact hc
    · exact this d hd
  · rintro ⟨hne, h⟩
    cases u with
    | nil => exact absurd rfl hne
    | cons c u =>
      exact ⟨[c], u, rfl, ⟨c, h c List.mem_cons_self, rfl⟩,
        (lang_many_chr p u).2 (fun d hd => h d (List.mem_cons_of_mem _ hd))⟩

theorem many_iff {L : List Char → Prop} {u : List Char} : Many L u ↔ ∃ ps : List (List Char), (∀ p ∈ ps, L p) ∧ u = ps.flatten := by
  constructor
  · intro h
    induction h with
    | nil => exact ⟨[], by simp, rfl⟩
    | @cons v w hv _ ih =>
      obtain ⟨ps, h1, rfl⟩ := ih
      refine ⟨v :: ps, ?_, rfl⟩
      intro p hp
      rcases List.mem_cons.1 hp with rfl | hp
      · exact hv
      · exact h1 p hp
  · rintro ⟨ps, h1, rfl⟩
    induction ps with
    | nil => exact .nil
    | cons p ps ih =>
      exact .cons (h1 p List.mem_cons_self) (ih (fun q hq => h1 q (List.mem_cons_of_mem _ hq)))

end Pawpaw.Regex
