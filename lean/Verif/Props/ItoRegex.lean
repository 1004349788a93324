import Verif.Spec.ItoRegex
import Verif.Lemmas.RegexSem
import Verif.Lemmas.RegexRun
import Verif.Lemmas.Slice
/-!
# C105: the `regex_…` methods
-/
set_option linter.unusedSectionVars false
namespace Pawpaw.Props
open Pawpaw Regex RegexSpec

theorem flatMap_cong {α β : Type} {f g : α → List β} {l : List α} (h : ∀ a ∈ l, f a = g a) : l.flatMap f = l.flatMap g := by
  induction l with
  | nil => rfl
  | cons a l ih => rw [List.flatMap_cons, List.flatMap_cons, h a (by simp), ih (fun b hb => h b (by simp [hb]))]

/-- A state, as a state of the matcher in the whole string. -/
def movedSt (k : Nat) (st : St) : St := ⟨st.pos + k, st.rest, st.caps.map fun c => (c.1, c.2.1 + k, c.2.2 + k)⟩

theorem iter_moved (k : Nat) (g : Bool) (f : St → List St) (hf : ∀ st, f (movedSt k st) = (f st).map (movedSt k)) :
    ∀ (n : Nat) (st : St), iter g f n (movedSt k st) = (iter g f n st).map (movedSt k)
  | 0, st => rfl
  | n + 1, st => by
    have e : (f (movedSt k st)).flatMap (fun st' => if (movedSt k st).pos < st'.pos then iter g f n st' else []) =
        ((f st).flatMap fun st' => if st.pos < st'.pos then iter g f n st' else []).map (movedSt k) := by
      rw [hf, List.flatMap_map, List.map_flatMap]
      refine flatMap_cong (fun st' _ => ?_)
      have e2 : ((movedSt k st).pos < (movedSt k st').pos) ↔ (st.pos < st'.pos) := by
        simp only [movedSt]; omega
      by_cases h : st.pos < st'.pos
      · rw [if_pos h, if_pos (e2.2 h), iter_moved k g f hf n st']
      · rw [if_neg h, if_neg (fun h' => h (e2.1 h'))]; rfl
    rw [iter, iter]
    rw [e]
    cases g <;> simp

theorem out_moved (k : Nat) : ∀ (r : Re), Ahead r → ∀ st, out r (movedSt k st) = (out r st).map (movedSt k)
  | .eps, _, st => by simp [out]
  | .chr p, _, st => by
    rw [out, out]
    simp only [movedSt]
    cases st.rest with
    | nil => rfl
    | cons c cs =>
      dsimp only
      split
      · simp [movedSt]; omega
      · rfl
  | .seq a b, h, st => by
    rw [out, out, out_moved k a h.1, List.flatMap_map, List.map_flatMap]
    exact flatMap_cong (fun st' _ => out_moved k b h.2 st')
  | .alt a b, h, st => by
    rw [out, out, out_moved k a h.1, out_moved k b h.2, List.map_append]
  | .star g a, h, st => by
    rw [out, out]
    exact iter_moved k g (out a) (out_moved k a h) _ st
  | .grp n a, h, st => by
    rw [out, out, out_moved k a h, List.map_map, List.map_map]
    refine List.map_congr_left (fun st' _ => ?_)
    simp [movedSt]
  | .eos, _, st => by
    rw [out, out]
    by_cases h : st.rest = [] ∨ st.rest = ['\n']
    · rw [if_pos h, if_pos (c := (movedSt k st).rest = [] ∨ (movedSt k st).rest = ['\n']) h]; rfl
    · rw [if_neg h, if_neg (c := (movedSt k st).rest = [] ∨ (movedSt k st).rest = ['\n']) h]; rfl
  | .look a, h, st => by
    rw [out, out, out_moved k a h, List.head?_map]
    cases (out a st).head? <;> simp [movedSt]
  | .test p, h, st => by
    rw [out, out]
    have e : p (movedSt k st).pos (movedSt k st).rest = p st.pos st.rest := h _ _ _
    simp only [e]
    split <;> rfl
  | .dep a f, h, st => by
    rw [out, out, out_moved k a h.1, List.flatMap_map, List.map_flatMap]
    refine flatMap_cong (fun st' _ => ?_)
    rw [out_moved k _ (h.2 _)]
    simp only [movedSt]
    have e : st'.pos + k - (st.pos + k) = st'.pos - st.pos := by omega
    simp only [e]

theorem out_at (k : Nat) {r : Re} (h : Ahead r) (i : Nat) (rest : List Char) :
    out r ⟨i + k, rest, []⟩ = (out r ⟨i, rest, []⟩).map (movedSt k) := out_moved k r h ⟨i, rest, []⟩

theorem matchAt_moved (k : Nat) {r : Re} (h : Ahead r) (i : Nat) (rest : List Char) :
    matchAt r (i + k) rest = (matchAt r i rest).map (moved k) := by
  unfold matchAt
  rw [out_at k h, List.head?_map, Option.map_map, Option.map_map]
  rfl

theorem fullAt_moved (k : Nat) {r : Re} (h : Ahead r) (i : Nat) (rest : List Char) :
    fullAt r (i + k) rest = (fullAt r i rest).map (moved k) := by
  unfold fullAt
  rw [out_at k h, List.find?_map, Option.map_map, Option.map_map]
  rfl

theorem search_moved (k : Nat) {r : Re} (h : Ahead r) : ∀ (rest : List Char) (i : Nat),
    search r (i + k) rest = (search r i rest).map (moved k)
  | [], i => by rw [search, search, matchAt_moved k h]
  | c :: cs, i => by
    rw [search, search, matchAt_moved k h]
    cases matchAt r i (c :: cs) with
    | some f => rfl
    | none =>
      dsimp only [Option.map_none]
      rw [show i + k + 1 = i + 1 + k by omega]
      exact search_moved k h cs (i + 1)

theorem overlapped_moved (k : Nat) {r : Re} (h : Ahead r) : ∀ (rest : List Char) (i : Nat),
    overlapped r (i + k) rest = (overlapped r i rest).map (moved k)
  | [], i => by
    rw [overlapped, overlapped, matchAt_moved k h]
    cases matchAt r i [] <;> rfl
  | c :: cs, i => by
    rw [overlapped, overlapped, matchAt_moved k h, show i + k + 1 = i + 1 + k by omega, overlapped_moved k h cs (i + 1)]
    cases matchAt r i (c :: cs) <;> simp

theorem finditerAux_moved (k : Nat) {r : Re} (h : Ahead r) : ∀ (n : Nat) (adv : Bool) (i : Nat) (rest : List Char),
    finditerAux r n adv (i + k) rest = (finditerAux r n adv i rest).map (moved k)
  | 0, _, _, _ => rfl
  | n + 1, adv, i, rest => by
    rw [finditerAux_succ, finditerAux_succ, out_at k h, List.find?_map]
    have e : ((fun st : St => !adv || decide (i + k < st.pos)) ∘ movedSt k) = fun st => !adv || decide (i < st.pos) := by
      funext st
      simp only [Function.comp, movedSt]
      congr 1
      exact decide_eq_decide.2 (by omega)
    rw [e]
    cases (out r ⟨i, rest, []⟩).find? (fun st => !adv || decide (i < st.pos)) with
    | some st =>
      dsimp only [Option.map_some]
      rw [List.map_cons]
      have e2 : decide ((movedSt k st).pos = i + k) = decide (st.pos = i) :=
        decide_eq_decide.2 (by simp only [movedSt]; omega)
      have e3 := finditerAux_moved k h n (decide (st.pos = i)) st.pos st.rest
      rw [e2, ← e3]
      rfl
    | none =>
      dsimp only [Option.map_none]
      cases rest with
      | nil => rfl
      | cons c cs =>
        dsimp only
        rw [show i + k + 1 = i + 1 + k by omega]
        exact finditerAux_moved k h n false (i + 1) cs

/-- C105: for a pattern that does not look back, matching in an Ito is matching in its text: `regex_search`,
`regex_match`, `regex_fullmatch` and `regex_finditer`, overlapped or not, give the matches of `str(ito)`, with all their
groups, moved by `ito.start`. -/
theorem C105_own_text (x : FIto Char) {r : Re} (h : Ahead r) (over : Bool) :
    x.regexSearch r = (search r 0 x.text).map (moved x.start.toNat) ∧
    x.regexMatch r = (matchAt r 0 x.text).map (moved x.start.toNat) ∧
    x.regexFullmatch r = (fullAt r 0 x.text).map (moved x.start.toNat) ∧
    x.regexFinditer r over =
      (if over then overlapped r 0 x.text else finditer r 0 x.text).map (moved x.start.toNat) := by
  have e : ∀ k, k = 0 + k := by omega
  refine ⟨?_, ?_, ?_, ?_⟩
  · unfold FIto.regexSearch
    conv => lhs; rw [e x.start.toNat]
    exact search_moved _ h _ 0
  · unfold FIto.regexMatch
    conv => lhs; rw [e x.start.toNat]
    exact matchAt_moved _ h 0 _
  · unfold FIto.regexFullmatch
    conv => lhs; rw [e x.start.toNat]
    exact fullAt_moved _ h 0 _
  · unfold FIto.regexFinditer
    cases over
    · simp only [Bool.false_eq_true, if_false]
      conv => lhs; rw [e x.start.toNat]
      exact finditerAux_moved _ h _ _ 0 _
    · simp only [if_true]
      conv => lhs; rw [e x.start.toNat]
      exact overlapped_moved _ h _ 0

/-! ### Inside the Ito -/

/-- The capture lies between two places. -/
def Between (a b : Nat) (c : String × Nat × Nat) : Prop := a ≤ c.2.1 ∧ c.2.1 ≤ c.2.2 ∧ c.2.2 ≤ b

theorem iter_capsIn {g : Bool} {f : St → List St}
    (hr : ∀ st st', st' ∈ f st → ∃ u, Reads st u st')
    (hf : ∀ st st', st' ∈ f st → ∀ c ∈ st'.caps, c ∈ st.caps ∨ Between st.pos (st.pos + st.rest.length) c) :
    ∀ (n : Nat) (st st' : St), st' ∈ iter g f n st →
      ∀ c ∈ st'.caps, c ∈ st.caps ∨ Between st.pos (st.pos + st.rest.length) c
  | 0, st, st', h, c, hc => by
    rw [iter, List.mem_singleton] at h
    subst h
    exact Or.inl hc
  | n + 1, st, st', h, c, hc => by
    have key : st' = st ∨ st' ∈ (f st).flatMap (fun st' => if st.pos < st'.pos then iter g f n st' else []) := by
      rw [iter] at h
      cases g
      · simpa using h
      · simp only [if_true, List.mem_append, List.mem_singleton] at h
        exact h.symm
    rcases key with rfl | h
    · exact Or.inl hc
    · obtain ⟨s1, h1, h2⟩ := List.mem_flatMap.1 h
      split at h2
      · obtain ⟨u, e1, e2⟩ := hr st s1 h1
        rcases iter_capsIn hr hf n s1 st' h2 c hc with hc | hc
        · exact hf st s1 h1 c hc
        · right
          have := congrArg List.length e1
          rw [List.length_append] at this
          unfold Between at hc ⊢
          omega
      · cases h2

theorem seq_caps {st s1 : St} {u : List Char} {c : String × Nat × Nat} (hr : Reads st u s1)
    (h : Between s1.pos (s1.pos + s1.rest.length) c) : Between st.pos (st.pos + st.rest.length) c := by
  obtain ⟨e1, e2⟩ := hr
  have := congrArg List.length e1
  rw [List.length_append] at this
  unfold Between at h ⊢
  omega

/-- Every capture lies in the text. -/
theorem out_capsIn : ∀ (r : Re) (st st' : St), st' ∈ out r st →
    ∀ c ∈ st'.caps, c ∈ st.caps ∨ Between st.pos (st.pos + st.rest.length) c
  | .eps, st, st', h, c, hc => by
    rw [out, List.mem_singleton] at h
    subst h
    exact Or.inl hc
  | .chr p, st, st', h, c, hc => by
    rw [out] at h
    split at h
    · cases h
    · split at h
      · rw [List.mem_singleton] at h
        subst h
        exact Or.inl hc
      · cases h
  | .seq a b, st, st', h, c, hc => by
    rw [out] at h
    obtain ⟨s1, h1, h2⟩ := List.mem_flatMap.1 h
    obtain ⟨u, hu⟩ := out_reads a st s1 h1
    rcases out_capsIn b s1 st' h2 c hc with hc | hc
    · exact out_capsIn a st s1 h1 c hc
    · exact Or.inr (seq_caps hu hc)
  | .alt a b, st, st', h, c, hc => by
    rw [out, List.mem_append] at h
    rcases h with h | h
    · exact out_capsIn a st st' h c hc
    · exact out_capsIn b st st' h c hc
  | .star g a, st, st', h, c, hc => by
    rw [out] at h
    exact iter_capsIn (fun st st' h => out_reads a st st' h) (fun st st' h => out_capsIn a st st' h) _ st st' h c hc
  | .grp n a, st, st', h, c, hc => by
    rw [out] at h
    obtain ⟨s1, h1, rfl⟩ := List.mem_map.1 h
    simp only [List.mem_append, List.mem_singleton] at hc
    rcases hc with hc | rfl
    · exact out_capsIn a st s1 h1 c hc
    · obtain ⟨u, e1, e2⟩ := out_reads a st s1 h1
      have := congrArg List.length e1
      rw [List.length_append] at this
      right
      unfold Between
      dsimp only
      omega
  | .bos, st, st', h, c, hc => by
    rw [out] at h
    split at h
    · rw [List.mem_singleton] at h
      subst h
      exact Or.inl hc
    · cases h
  | .eos, st, st', h, c, hc => by
    rw [out] at h
    split at h
    · rw [List.mem_singleton] at h
      subst h
      exact Or.inl hc
    · cases h
  | .look a, st, st', h, c, hc => by
    rw [out, Option.mem_toList, Option.map_eq_some_iff] at h
    obtain ⟨s1, h1, rfl⟩ := h
    exact out_capsIn a st s1 (List.mem_of_head? h1) c hc
  | .test p, st, st', h, c, hc => by
    rw [out] at h
    split at h
    · rw [List.mem_singleton] at h
      subst h
      exact Or.inl hc
    · cases h
  | .dep a f, st, st', h, c, hc => by
    rw [out] at h
    obtain ⟨s1, h1, h2⟩ := List.mem_flatMap.1 h
    obtain ⟨u, hu⟩ := out_reads a st s1 h1
    rcases out_capsIn _ s1 st' h2 c hc with hc | hc
    · exact out_capsIn a st s1 h1 c hc
    · exact Or.inr (seq_caps hu hc)

/-- A match within the text from `i` on. -/
def WithinText (i : Nat) (rest : List Char) (f : Found) : Prop :=
  i ≤ f.start ∧ f.start ≤ f.stop ∧ f.stop ≤ i + rest.length ∧ ∀ c ∈ f.caps, Between i (i + rest.length) c

theorem within_of_out {r : Re} {i j : Nat} {a rest : List Char} {st : St} (hj : j = i + a.length)
    (h : st ∈ out r ⟨j, rest, []⟩) : WithinText i (a ++ rest) ⟨j, st.pos, st.caps⟩ := by
  obtain ⟨u, e1, e2⟩ := out_reads r _ _ h
  dsimp only at e1 e2
  have := congrArg List.length e1
  rw [List.length_append] at this
  unfold WithinText
  rw [List.length_append]
  dsimp only
  refine ⟨by omega, by omega, by omega, fun c hc => ?_⟩
  rcases out_capsIn r _ _ h c hc with hc | hc
  · cases hc
  · unfold Between at hc ⊢
    dsimp only at hc
    omega

theorem within_matchAt {r : Re} {i j : Nat} {a rest : List Char} {f : Found} (hj : j = i + a.length)
    (h : matchAt r j rest = some f) : WithinText i (a ++ rest) f := by
  unfold matchAt at h
  rw [Option.map_eq_some_iff] at h
  obtain ⟨st, h1, rfl⟩ := h
  exact within_of_out hj (List.mem_of_head? h1)

theorem within_search {r : Re} {i : Nat} {f : Found} : ∀ {rest a : List Char} {j : Nat}, j = i + a.length →
    search r j rest = some f → WithinText i (a ++ rest) f
  | [], a, j, hj, h => within_matchAt hj h
  | c :: cs, a, j, hj, h => by
    rw [search] at h
    cases hm : matchAt r j (c :: cs) with
    | some g =>
      rw [hm] at h
      cases h
      exact within_matchAt hj hm
    | none =>
      rw [hm] at h
      have := within_search (i := i) (a := a ++ [c]) (j := j + 1) (by rw [List.length_append, List.length_singleton]; omega) h
      simpa using this

theorem within_overlapped {r : Re} {i : Nat} {f : Found} : ∀ {rest a : List Char} {j : Nat}, j = i + a.length →
    f ∈ overlapped r j rest → WithinText i (a ++ rest) f
  | [], a, j, hj, h => by
    rw [overlapped, Option.mem_toList] at h
    exact within_matchAt hj h
  | c :: cs, a, j, hj, h => by
    rw [overlapped, List.mem_append, Option.mem_toList] at h
    rcases h with h | h
    · exact within_matchAt hj h
    · have := within_overlapped (i := i) (a := a ++ [c]) (j := j + 1) (by rw [List.length_append, List.length_singleton]; omega) h
      simpa using this

theorem within_finditer {r : Re} {i : Nat} {rest : List Char} {f : Found} (h : f ∈ finditer r i rest) : WithinText i rest f := by
  obtain ⟨pre, suf, st, rfl, h1, h2, h3, h4, -⟩ := finditer_at h
  have := within_of_out (i := i) (a := pre) h1 h2
  rw [← h3, ← h4] at this
  exact this

/-- The Ito's span is within its string. -/
def OnString (x : FIto Char) : Prop := 0 ≤ x.start ∧ x.start ≤ x.stop ∧ x.stop ≤ x.string.length

theorem text_len {x : FIto Char} (h : OnString x) : x.text = (x.string.drop x.start.toNat).take (x.stop - x.start).toNat ∧
    (x.text.length : Int) = x.stop - x.start := by
  obtain ⟨h0, h1, h2⟩ := h
  have e : x.text = (x.string.drop x.start.toNat).take (x.stop - x.start).toNat := by
    obtain ⟨a, ha⟩ := Int.eq_ofNat_of_zero_le h0
    obtain ⟨b, hb⟩ := Int.eq_ofNat_of_zero_le (Int.le_trans h0 h1)
    rw [FIto.text_eq (a := a) (b := b) ha hb, ha, hb, List.drop_take, Int.toNat_natCast,
      show ((b : Int) - (a : Int)).toNat = b - a by omega]
  refine ⟨e, ?_⟩
  rw [e, List.length_take, List.length_drop]
  omega

/-- C105: every match found in an Ito, with any pattern, lies in it, and so does every group. -/
theorem C105_inside (x : FIto Char) (hx : OnString x) (r : Re) (over : Bool) (f : Found)
    (hf : x.regexSearch r = some f ∨ x.regexMatch r = some f ∨ x.regexFullmatch r = some f ∨
      f ∈ x.regexFinditer r over) :
    x.start ≤ f.start ∧ f.start ≤ f.stop ∧ (f.stop : Int) ≤ x.stop ∧
      ∀ c ∈ f.caps, x.start ≤ c.2.1 ∧ c.2.1 ≤ c.2.2 ∧ (c.2.2 : Int) ≤ x.stop := by
  have key : WithinText x.start.toNat x.text f := by
    rcases hf with h | h | h | h
    · exact within_search (a := []) rfl h
    · exact within_matchAt (a := []) rfl h
    · unfold FIto.regexFullmatch fullAt at h
      rw [Option.map_eq_some_iff] at h
      obtain ⟨st, h1, rfl⟩ := h
      exact within_of_out (a := []) rfl (List.mem_of_find?_eq_some h1)
    · unfold FIto.regexFinditer at h
      split at h
      · exact within_overlapped (a := []) rfl h
      · exact within_finditer h
  obtain ⟨h0, h1, h2⟩ := hx
  have hl := (text_len ⟨h0, h1, h2⟩).2
  obtain ⟨k1, k2, k3, k4⟩ := key
  refine ⟨by omega, k2, by omega, fun c hc => ?_⟩
  obtain ⟨c1, c2, c3⟩ := k4 c hc
  exact ⟨by omega, c2, by omega⟩

/-! ### What is found -/

/-- C105: `regex_fullmatch` finds a match iff the text of the Ito is in the language of the pattern; the match then
spans the Ito. -/
theorem C105_fullmatch (x : FIto Char) (hx : OnString x) {r : Re} (hr : Free r) :
    ((x.regexFullmatch r).isSome = true ↔ Lang r x.text) ∧
    ∀ f, x.regexFullmatch r = some f → (f.start : Int) = x.start ∧ (f.stop : Int) = x.stop := by
  have hl := (text_len hx).2
  obtain ⟨h0, h1, h2⟩ := hx
  constructor
  · unfold FIto.regexFullmatch fullAt
    rw [Option.isSome_map, List.find?_isSome]
    constructor
    · rintro ⟨st, h1, h2⟩
      obtain ⟨u, e, hu⟩ := out_sound r hr _ _ h1
      have := e.1
      dsimp only at this
      rw [of_decide_eq_true h2, List.append_nil] at this
      rwa [this]
    · intro h
      obtain ⟨c, hc⟩ := sem_out r x.start.toNat x.text [] [] ((sem_free r hr _ _ _).2 h)
      rw [List.append_nil] at hc
      exact ⟨_, hc, by simp⟩
  · intro f hf
    unfold FIto.regexFullmatch fullAt at hf
    rw [Option.map_eq_some_iff] at hf
    obtain ⟨st, g1, rfl⟩ := hf
    obtain ⟨u, e1, e2⟩ := out_reads r _ _ (List.mem_of_find?_eq_some g1)
    have g2 := List.find?_some g1
    dsimp only at e1 e2
    rw [of_decide_eq_true g2, List.append_nil] at e1
    rw [← e1] at e2
    dsimp only
    omega

theorem matchAt_some (r : Re) (hr : Free r) (i : Nat) (rest : List Char) :
    (matchAt r i rest).isSome = true ↔ ∃ u w, rest = u ++ w ∧ Lang r u := by
  unfold matchAt
  rw [Option.isSome_map, List.isSome_head?]
  rw [out_ne]
  constructor
  · rintro ⟨u, w, e, h⟩; exact ⟨u, w, e, (sem_free r hr _ _ _).1 h⟩
  · rintro ⟨u, w, e, h⟩; exact ⟨u, w, e, (sem_free r hr _ _ _).2 h⟩

/-- C105: `regex_match` finds a match iff the text of the Ito begins with a text of the pattern. -/
theorem C105_match (x : FIto Char) {r : Re} (hr : Free r) :
    (x.regexMatch r).isSome = true ↔ ∃ u w, x.text = u ++ w ∧ Lang r u := matchAt_some r hr _ _

theorem search_first (r : Re) (hr : Free r) : ∀ (rest : List Char) (i : Nat),
    (search r i rest = none → ∀ p u, At rest u p → ¬ Lang r u) ∧
    ∀ f, search r i rest = some f → ∃ p u, f.start = i + p ∧ f.stop = i + p + u.length ∧ At rest u p ∧ Lang r u ∧
      ∀ p' < p, ∀ v, At rest v p' → ¬ Lang r v
  | rest, i => by
    have hit : ∀ f, matchAt r i rest = some f → ∃ p u, f.start = i + p ∧ f.stop = i + p + u.length ∧ At rest u p ∧
        Lang r u ∧ ∀ p' < p, ∀ v, At rest v p' → ¬ Lang r v := by
      intro f hf
      unfold matchAt at hf
      rw [Option.map_eq_some_iff] at hf
      obtain ⟨st, h1, rfl⟩ := hf
      obtain ⟨u, ⟨e1, e2⟩, hu⟩ := out_sound r hr _ _ (List.mem_of_head? h1)
      exact ⟨0, u, rfl, e2, ⟨[], st.rest, e1, rfl⟩, hu, by omega⟩
    have miss : matchAt r i rest = none → ∀ u, At rest u 0 → ¬ Lang r u := by
      rintro hm u ⟨a, w, e, ha⟩ hu
      have := (matchAt_some r hr i rest).2 ⟨u, w, by
        rw [e, List.eq_nil_of_length_eq_zero ha.symm]; rfl, hu⟩
      rw [hm] at this
      cases this
    cases rest with
    | nil =>
      refine ⟨fun h => ?_, fun f hf => hit f hf⟩
      rintro p u ⟨a, w, e, rfl⟩
      have ha : a = [] := by
        cases a with
        | nil => rfl
        | cons c a => simp at e
      subst ha
      exact miss h u ⟨[], w, e, rfl⟩
    | cons c cs =>
      have ih := search_first r hr cs (i + 1)
      rw [search]
      cases hm : matchAt r i (c :: cs) with
      | some g => exact ⟨by simp, fun f hf => by cases hf; exact hit g hm⟩
      | none =>
        dsimp only
        have hmiss := miss hm
        refine ⟨fun h => ?_, fun f hf => ?_⟩
        · rintro p u ⟨a, w, e, rfl⟩
          cases a with
          | nil => exact hmiss u ⟨[], w, e, rfl⟩
          | cons d a =>
            rw [List.cons_append, List.cons_append, List.cons.injEq] at e
            exact ih.1 h a.length u ⟨a, w, e.2, rfl⟩
        · obtain ⟨p, u, h1, h2, ⟨a, w, e, rfl⟩, h4, h5⟩ := ih.2 f hf
          refine ⟨a.length + 1, u, by omega, by omega, ⟨c :: a, w, by rw [e]; rfl, by simp⟩, h4, ?_⟩
          rintro p' hp' v ⟨b, w', e', rfl⟩
          cases b with
          | nil => exact hmiss v ⟨[], w', e', rfl⟩
          | cons d b =>
            rw [List.cons_append, List.cons_append, List.cons.injEq] at e'
            exact h5 b.length (by simpa using hp') v ⟨b, w', e'.2, rfl⟩
termination_by rest => rest.length

/-- C105: `regex_search` finds a match iff some part of the Ito's text is in the language of the pattern, and then at the
first place where there is one. -/
theorem C105_search (x : FIto Char) {r : Re} (hr : Free r) :
    (x.regexSearch r = none → ∀ p u, At x.text u p → ¬ Lang r u) ∧
    ∀ f, x.regexSearch r = some f → ∃ p u, f.start = x.start.toNat + p ∧ f.stop = x.start.toNat + p + u.length ∧
      At x.text u p ∧ Lang r u ∧ ∀ p' < p, ∀ v, At x.text v p' → ¬ Lang r v := search_first r hr x.text x.start.toNat

theorem overlapped_starts (r : Re) (hr : Free r) : ∀ (rest : List Char) (i : Nat),
    (∀ f ∈ overlapped r i rest, i ≤ f.start) ∧
    (overlapped r i rest).Pairwise (fun f g => f.start < g.start) ∧
    ∀ p, (∃ f ∈ overlapped r i rest, f.start = i + p) ↔ ∃ u, At rest u p ∧ Lang r u
  | rest, i => by
    have hs : ∀ f, matchAt r i rest = some f → f.start = i := by
      intro f hf
      unfold matchAt at hf
      rw [Option.map_eq_some_iff] at hf
      obtain ⟨st, h1, rfl⟩ := hf
      rfl
    have h0 : (matchAt r i rest).isSome = true ↔ ∃ u, At rest u 0 ∧ Lang r u := by
      rw [matchAt_some r hr]
      constructor
      · rintro ⟨u, w, e, h⟩; exact ⟨u, ⟨[], w, e, rfl⟩, h⟩
      · rintro ⟨u, ⟨a, w, e, ha⟩, h⟩
        exact ⟨u, w, by rw [e, List.eq_nil_of_length_eq_zero ha.symm]; rfl, h⟩
    cases rest with
    | nil =>
      rw [overlapped]
      cases hm : matchAt r i [] with
      | none =>
        refine ⟨by simp, by simp, fun p => ⟨by simp, ?_⟩⟩
        rintro ⟨u, ⟨a, w, e, rfl⟩, h⟩
        have ha : a = [] := by
          cases a with
          | nil => rfl
          | cons c a => simp at e
        subst ha
        have := h0.2 ⟨u, ⟨[], w, e, rfl⟩, h⟩
        rw [hm] at this
        cases this
      | some f =>
        have hfs := hs f hm
        refine ⟨by simp [hfs], by simp, fun p => ?_⟩
        rw [hm] at h0
        constructor
        · rintro ⟨g, hg, e⟩
          rw [Option.toList_some, List.mem_singleton] at hg
          subst hg
          have : p = 0 := by omega
          subst this
          exact h0.1 rfl
        · rintro ⟨u, ⟨a, w, e, rfl⟩, h⟩
          have ha : a = [] := by
            cases a with
            | nil => rfl
            | cons c a => simp at e
          subst ha
          exact ⟨f, by simp, by simpa using hfs⟩
    | cons c cs =>
      obtain ⟨i1, i2, i3⟩ := overlapped_starts r hr cs (i + 1)
      have hshift : ∀ p, (∃ u, At cs u p ∧ Lang r u) ↔ ∃ u, At (c :: cs) u (p + 1) ∧ Lang r u := by
        intro p
        constructor
        · rintro ⟨u, ⟨a, w, e, rfl⟩, h⟩
          exact ⟨u, ⟨c :: a, w, by rw [e]; rfl, by simp⟩, h⟩
        · rintro ⟨u, ⟨a, w, e, hp⟩, h⟩
          cases a with
          | nil => simp at hp
          | cons d a =>
            rw [List.cons_append, List.cons_append, List.cons.injEq] at e
            exact ⟨u, ⟨a, w, e.2, by simpa using hp⟩, h⟩
      rw [overlapped]
      refine ⟨?_, ?_, ?_⟩
      · intro f hf
        rw [List.mem_append, Option.mem_toList] at hf
        rcases hf with hf | hf
        · exact Nat.le_of_eq (hs f hf).symm
        · have := i1 f hf; omega
      · rw [List.pairwise_append]
        refine ⟨by cases matchAt r i (c :: cs) <;> simp, i2, ?_⟩
        intro f hf g hg
        rw [Option.mem_toList] at hf
        have := hs f hf
        have := i1 g hg
        omega
      · intro p
        cases p with
        | zero =>
          rw [← h0]
          constructor
          · rintro ⟨f, hf, e⟩
            rw [List.mem_append, Option.mem_toList] at hf
            rcases hf with hf | hf
            · rw [hf]; rfl
            · have := i1 f hf; omega
          · intro h
            obtain ⟨f, hf⟩ := Option.isSome_iff_exists.1 h
            exact ⟨f, by rw [List.mem_append, Option.mem_toList]; exact Or.inl hf, by rw [hs f hf]; rfl⟩
        | succ p =>
          rw [← hshift, ← i3 p]
          constructor
          · rintro ⟨f, hf, e⟩
            rw [List.mem_append, Option.mem_toList] at hf
            rcases hf with hf | hf
            · have := hs f hf; omega
            · exact ⟨f, hf, by omega⟩
          · rintro ⟨f, hf, e⟩
            exact ⟨f, by rw [List.mem_append]; exact Or.inr hf, by omega⟩
termination_by rest => rest.length

/-- C105: with `overlapped=True`, exactly one match at every place of the Ito where a text of the pattern begins, from
left to right. -/
theorem C105_overlapped (x : FIto Char) {r : Re} (hr : Free r) :
    (x.regexFinditer r true).Pairwise (fun f g => f.start < g.start) ∧
    ∀ p, (∃ f ∈ x.regexFinditer r true, f.start = x.start.toNat + p) ↔ ∃ u, At x.text u p ∧ Lang r u :=
  (overlapped_starts r hr x.text x.start.toNat).2

/-- C105: `^` is the beginning of the string, not of the Ito: in an Ito that begins later, nothing is found. -/
theorem C105_caret (x : FIto Char) (hx : 0 < x.start) (r : Re) (over : Bool) :
    x.regexSearch (.seq .bos r) = none ∧ x.regexMatch (.seq .bos r) = none ∧
    x.regexFullmatch (.seq .bos r) = none ∧ x.regexFinditer (.seq .bos r) over = [] := by
  have ho : ∀ i rest, 0 < i → out (.seq .bos r) ⟨i, rest, []⟩ = [] := by
    intro i rest hi
    rw [out, out, if_neg (by dsimp only; omega)]
    rfl
  have hi : 0 < x.start.toNat := by omega
  have hm : ∀ i rest, 0 < i → matchAt (.seq .bos r) i rest = none := by
    intro i rest h
    unfold matchAt
    rw [ho i rest h]
    rfl
  have hs : ∀ (rest : List Char) i, 0 < i → search (.seq .bos r) i rest = none := by
    intro rest
    induction rest with
    | nil => intro i h; rw [search, hm i _ h]
    | cons c cs ih => intro i h; rw [search, hm i _ h]; exact ih (i + 1) (by omega)
  have hov : ∀ (rest : List Char) i, 0 < i → overlapped (.seq .bos r) i rest = [] := by
    intro rest
    induction rest with
    | nil => intro i h; rw [overlapped, hm i _ h]; rfl
    | cons c cs ih => intro i h; rw [overlapped, hm i _ h, ih (i + 1) (by omega)]; rfl
  have hfi : ∀ n adv i rest, 0 < i → finditerAux (.seq .bos r) n adv i rest = [] := by
    intro n
    induction n with
    | zero => intros; rfl
    | succ n ih =>
      intro adv i rest h
      rw [finditerAux_succ, ho i rest h]
      dsimp only [List.find?_nil]
      cases rest with
      | nil => rfl
      | cons c cs => exact ih false (i + 1) cs (by omega)
  refine ⟨hs _ _ hi, hm _ _ hi, ?_, ?_⟩
  · unfold FIto.regexFullmatch fullAt
    rw [ho _ _ hi]
    rfl
  · unfold FIto.regexFinditer
    split
    · exact hov _ _ hi
    · exact hfi _ _ _ _ hi

/-- C105: `regex_findall` of a pattern that does not look back gives the texts it gives on `str(ito)`. -/
theorem C105_findall (x : FIto Char) (hx : OnString x) {r : Re} (h : Ahead r) (over : Bool) :
    x.regexFindall r over = (FIto.ofStr x.text none none).regexFindall r over := by
  have hl := text_len hx
  have hin : ∀ f ∈ (if over then overlapped r 0 x.text else finditer r 0 x.text), f.start ≤ f.stop ∧ f.stop ≤ x.text.length := by
    intro f hf
    have : WithinText 0 x.text f := by
      split at hf
      · exact within_overlapped (a := []) rfl hf
      · exact within_finditer hf
    exact ⟨this.2.1, by have := this.2.2.1; omega⟩
  have he : (FIto.ofStr x.text none none).text = x.text ∧ (FIto.ofStr x.text none none).start = 0 := by
    refine ⟨?_, ?_⟩
    · have hon : OnString (FIto.ofStr x.text none none) := by
        unfold OnString FIto.ofStr FIto.start FIto.stop Span.fromIndices Span.clampIndex
        simp
      obtain ⟨e1, e2⟩ := text_len hon
      rw [e1]
      unfold FIto.ofStr FIto.start FIto.stop Span.fromIndices Span.clampIndex
      simp
    · unfold FIto.ofStr FIto.start Span.fromIndices Span.clampIndex
      simp
  obtain ⟨h0, h1, h2⟩ := hx
  unfold FIto.regexFindall
  rw [(C105_own_text x h over).2.2.2, (C105_own_text (FIto.ofStr x.text none none) h over).2.2.2, he.1, he.2,
    List.map_map, List.map_map]
  refine List.map_congr_left (fun f hf => ?_)
  obtain ⟨k1, k2⟩ := hin f hf
  simp only [Function.comp, moved]
  rw [show (FIto.ofStr x.text none none).string = x.text from rfl, hl.1, List.drop_take, List.take_take,
    List.drop_drop]
  have hlen : x.text.length = (x.stop - x.start).toNat := by omega
  rw [show f.stop + (0 : Int).toNat - (f.start + (0 : Int).toNat) = f.stop - f.start by omega,
    show f.stop + x.start.toNat - (f.start + x.start.toNat) = f.stop - f.start by omega,
    show min (f.stop - f.start) ((x.stop - x.start).toNat - (f.start + (0 : Int).toNat)) = f.stop - f.start by
      rw [hlen] at k2; simp only [Int.toNat_zero]; omega]
  congr 2
  simp only [Int.toNat_zero]
  omega

/-- `b+` in the part `bab` of `abbab`. -/
example : (⟨['a', 'b', 'b', 'a', 'b'], ⟨2, 5⟩, none⟩ : FIto Char).regexFinditer (plus (.chr (· == 'b'))) false =
    [⟨2, 3, []⟩, ⟨4, 5, []⟩] ∧ OnString ⟨['a', 'b', 'b', 'a', 'b'], ⟨2, 5⟩, none⟩ ∧
    (⟨['a', 'b', 'b', 'a', 'b'], ⟨1, 5⟩, none⟩ : FIto Char).regexFinditer (plus (.chr (· == 'b'))) true =
      [⟨1, 3, []⟩, ⟨2, 3, []⟩, ⟨4, 5, []⟩] := by
  refine ⟨by decide, by unfold OnString; decide, by decide⟩

example : Free (plus (.chr (· == 'b'))) ∧ Ahead (plus (.chr (· == 'b'))) := by
  simp [plus, Free, Ahead]

end Pawpaw.Props
