import Verif.Lemmas.Regex
import Verif.Lemmas.Finditer
/-!
# Running the matcher: continuations, runs of a class, and `finditer`
-/
set_option linter.unusedSectionVars false
namespace Pawpaw.Props
open Pawpaw Pawpaw.Regex RegexSpec

/-- Match `r`, then go on with `k`. -/
def outk (r : Re) (k : St → List St) (st : St) : List St := (out r st).flatMap k

theorem outk_pure (r : Re) (st : St) : outk r (fun s => [s]) st = out r st := by
  unfold outk; exact List.flatMap_singleton' _

theorem outk_eps (k : St → List St) (st : St) : outk .eps k st = k st := by
  simp [outk, out]

theorem outk_chr (p : Char → Bool) (k : St → List St) (i : Nat) (x : Char) (w : List Char) (c : List (String × Nat × Nat)) :
    outk (.chr p) k ⟨i, x :: w, c⟩ = if p x = true then k ⟨i + 1, w, c⟩ else [] := by
  unfold outk out
  dsimp only
  split <;> simp

theorem outk_chr_nil (p : Char → Bool) (k : St → List St) (i : Nat) (c : List (String × Nat × Nat)) :
    outk (.chr p) k ⟨i, [], c⟩ = [] := by
  unfold outk out
  simp

theorem outk_seq (a b : Re) (k : St → List St) (st : St) : outk (.seq a b) k st = outk a (outk b k) st := by
  unfold outk
  rw [out, List.flatMap_assoc]

theorem outk_alt (a b : Re) (k : St → List St) (st : St) : outk (.alt a b) k st = outk a k st ++ outk b k st := by
  unfold outk
  rw [out, List.flatMap_append]

theorem outk_opt (a : Re) (k : St → List St) (st : St) : outk (opt a) k st = outk a k st ++ k st := by
  unfold opt
  rw [outk_alt, outk_eps]

theorem outk_grp (n : String) (a : Re) (k : St → List St) (st : St) :
    outk (.grp n a) k st = outk a (fun st' => k { st' with caps := st'.caps ++ [(n, st.pos, st'.pos)] }) st := by
  unfold outk
  rw [out, List.flatMap_map]

/-- Nothing comes of it if every way on fails. -/
theorem outk_nil {r : Re} (hr : Free r) {k : St → List St} {st : St}
    (h : ∀ u w c, st.rest = u ++ w → Lang r u → k ⟨st.pos + u.length, w, c⟩ = []) : outk r k st = [] := by
  unfold outk
  rw [List.flatMap_eq_nil_iff]
  intro st' hst
  obtain ⟨u, ⟨h1, h2⟩, hu⟩ := out_sound r hr st st' hst
  have := h u st'.rest st'.caps h1 hu
  rw [← h2] at this
  exact this

theorem out_nil {r : Re} (hr : Free r) {st : St} (h : ∀ u w, st.rest = u ++ w → ¬ Lang r u) : out r st = [] := by
  rw [← outk_pure]
  exact outk_nil hr (fun u w c hu hl => absurd hl (h u w hu))

/-- A greedy run of a class, when what follows cannot start with a character of the class. -/
theorem outk_star_run (p : Char → Bool) (k : St → List St) (hk : ∀ i x w c, p x = true → k ⟨i, x :: w, c⟩ = []) :
    ∀ (u : List Char) (i : Nat) (w : List Char) (c : List (String × Nat × Nat)), (∀ x ∈ u, p x = true) →
      (∀ x ∈ w.head?, p x = false) →
      outk (.star true (.chr p)) k ⟨i, u ++ w, c⟩ = k ⟨i + u.length, w, c⟩ := by
  have key : ∀ (u : List Char) (n i : Nat) (w : List Char) (c : List (String × Nat × Nat)), u.length ≤ n →
      (∀ x ∈ u, p x = true) → (∀ x ∈ w.head?, p x = false) →
      (iter true (out (.chr p)) n ⟨i, u ++ w, c⟩).flatMap k = k ⟨i + u.length, w, c⟩ := by
    intro u
    induction u with
    | nil =>
      intro n i w c _ _ hw
      cases n with
      | zero => simp [iter]
      | succ n =>
        rw [iter]
        have : out (.chr p) ⟨i, [] ++ w, c⟩ = [] := by
          rw [out]
          cases w with
          | nil => rfl
          | cons x w =>
            have := hw x rfl
            simp [this]
        rw [this]
        simp
    | cons x u ih =>
      intro n i w c hn hu hw
      cases n with
      | zero => simp at hn
      | succ n =>
        have hx := hu x (by simp)
        rw [iter]
        have : out (.chr p) ⟨i, (x :: u) ++ w, c⟩ = [⟨i + 1, u ++ w, c⟩] := by
          rw [out]
          simp [hx]
        rw [this]
        have hk0 := hk i x (u ++ w) c hx
        simp only [List.flatMap_cons, List.flatMap_nil, List.append_nil, if_true]
        rw [if_pos (by omega), List.flatMap_append, ih n (i + 1) w c (by simp at hn; omega)
          (fun y hy => hu y (List.mem_cons_of_mem _ hy)) hw]
        simp only [List.flatMap_cons, List.flatMap_nil, List.append_nil]
        rw [show (x :: u) ++ w = x :: (u ++ w) from rfl, hk0, List.append_nil, List.length_cons]
        congr 2
        omega
  intro u i w c hu hw
  unfold outk
  rw [out]
  exact key u _ i w c (by simp) hu hw

theorem outk_plus_run (p : Char → Bool) (k : St → List St) (hk : ∀ i x w c, p x = true → k ⟨i, x :: w, c⟩ = [])
    {u : List Char} (hne : u ≠ []) (i : Nat) (w : List Char) (c : List (String × Nat × Nat))
    (hu : ∀ x ∈ u, p x = true) (hw : ∀ x ∈ w.head?, p x = false) :
    outk (plus (.chr p)) k ⟨i, u ++ w, c⟩ = k ⟨i + u.length, w, c⟩ := by
  cases u with
  | nil => exact absurd rfl hne
  | cons x u =>
    unfold plus
    rw [outk_seq, List.cons_append, outk_chr, if_pos (hu x (by simp)),
      outk_star_run p k hk u (i + 1) w c (fun y hy => hu y (List.mem_cons_of_mem _ hy)) hw, List.length_cons]
    congr 2
    omega

/-- The greedy run itself: its longest way comes first. -/
theorem plus_head (p : Char → Bool) {u : List Char} (hne : u ≠ []) (i : Nat) (w : List Char)
    (c : List (String × Nat × Nat)) (hu : ∀ x ∈ u, p x = true) (hw : ∀ x ∈ w.head?, p x = false) (k : St → List St)
    (hk : k ⟨i + u.length, w, c⟩ ≠ []) :
    (outk (plus (.chr p)) k ⟨i, u ++ w, c⟩).head? = (k ⟨i + u.length, w, c⟩).head? := by
  have key : ∀ (u : List Char) (n i : Nat) (w : List Char) (c : List (String × Nat × Nat)), u.length ≤ n →
      (∀ x ∈ u, p x = true) → (∀ x ∈ w.head?, p x = false) → k ⟨i + u.length, w, c⟩ ≠ [] →
      ((iter true (out (.chr p)) n ⟨i, u ++ w, c⟩).flatMap k).head? = (k ⟨i + u.length, w, c⟩).head? := by
    intro u
    induction u with
    | nil =>
      intro n i w c _ _ hw _
      cases n with
      | zero => simp [iter]
      | succ n =>
        rw [iter]
        have : out (.chr p) ⟨i, [] ++ w, c⟩ = [] := by
          rw [out]
          cases w with
          | nil => rfl
          | cons x w =>
            have := hw x rfl
            simp [this]
        rw [this]
        simp
    | cons x u ih =>
      intro n i w c hn hu hw hk
      cases n with
      | zero => simp at hn
      | succ n =>
        have hx := hu x (by simp)
        rw [iter]
        have : out (.chr p) ⟨i, (x :: u) ++ w, c⟩ = [⟨i + 1, u ++ w, c⟩] := by
          rw [out]
          simp [hx]
        rw [this]
        simp only [List.flatMap_cons, List.flatMap_nil, List.append_nil, if_true]
        have e : i + (x :: u).length = i + 1 + u.length := by rw [List.length_cons]; omega
        rw [e] at hk ⊢
        have := ih n (i + 1) w c (by simp at hn; omega) (fun y hy => hu y (List.mem_cons_of_mem _ hy)) hw hk
        rw [if_pos (by omega), List.flatMap_append, List.head?_append, this]
        cases hh : k ⟨i + 1 + u.length, w, c⟩ with
        | nil => exact absurd hh hk
        | cons y ys => rfl
  cases u with
  | nil => exact absurd rfl hne
  | cons x u =>
    unfold plus
    have e : i + (x :: u).length = i + 1 + u.length := by rw [List.length_cons]; omega
    rw [e] at hk ⊢
    rw [outk_seq, List.cons_append, outk_chr, if_pos (hu x (by simp))]
    unfold outk
    rw [out]
    exact key u _ (i + 1) w c (by simp) (fun y hy => hu y (List.mem_cons_of_mem _ hy)) hw hk

/-- A lazy run: the first way on that works. -/
theorem lazy_run (k : St → List St) : ∀ (u : List Char) (i : Nat) (w : List Char) (c : List (String × Nat × Nat)),
    (∀ a b, u = a ++ b → b ≠ [] → k ⟨i + a.length, b ++ w, c⟩ = []) → k ⟨i + u.length, w, c⟩ ≠ [] →
    (outk (.star false (.chr fun _ => true)) k ⟨i, u ++ w, c⟩).head? = (k ⟨i + u.length, w, c⟩).head? := by
  have key : ∀ (u : List Char) (n i : Nat) (w : List Char) (c : List (String × Nat × Nat)), u.length ≤ n →
      (∀ a b, u = a ++ b → b ≠ [] → k ⟨i + a.length, b ++ w, c⟩ = []) → k ⟨i + u.length, w, c⟩ ≠ [] →
      ((iter false (out (.chr fun _ => true)) n ⟨i, u ++ w, c⟩).flatMap k).head? = (k ⟨i + u.length, w, c⟩).head? := by
    intro u
    induction u with
    | nil =>
      intro n i w c _ _ hk
      have e : (iter false (out (.chr fun _ => true)) n ⟨i, [] ++ w, c⟩).flatMap k =
          k ⟨i, w, c⟩ ++ ((iter false (out (.chr fun _ => true)) n ⟨i, w, c⟩).drop 1).flatMap k := by
        cases n <;> simp [iter]
      rw [e, List.head?_append]
      simp only [List.length_nil, Nat.add_zero] at hk ⊢
      cases hh : k ⟨i, w, c⟩ with
      | nil => exact absurd hh hk
      | cons y ys => rfl
    | cons x u ih =>
      intro n i w c hn hu hk
      cases n with
      | zero => simp at hn
      | succ n =>
        have h0 := hu [] (x :: u) rfl (by simp)
        have e : i + (x :: u).length = i + 1 + u.length := by rw [List.length_cons]; omega
        rw [e] at hk ⊢
        rw [iter]
        have : out (.chr fun _ => true) ⟨i, (x :: u) ++ w, c⟩ = [⟨i + 1, u ++ w, c⟩] := by
          rw [out]
          simp
        rw [this]
        simp only [List.flatMap_cons, List.flatMap_nil, List.append_nil, Bool.false_eq_true, if_false]
        simp only [List.length_nil, Nat.add_zero] at h0
        rw [if_pos (by omega), h0, List.nil_append]
        refine ih n (i + 1) w c (by simp at hn; omega) ?_ hk
        intro a b hab hb
        have := hu (x :: a) b (by rw [hab]; rfl) hb
        rw [List.length_cons] at this
        rw [show i + 1 + a.length = i + (a.length + 1) by omega]
        exact this
  intro u i w c hu hk
  unfold outk
  rw [out]
  exact key u _ i w c (by simp) hu hk

/-! ### `finditer` -/

/-- One step. -/
theorem finditerAux_succ (r : Re) (n : Nat) (adv : Bool) (i : Nat) (rest : List Char) : finditerAux r (n + 1) adv i rest =
    match (out r ⟨i, rest, []⟩).find? (fun st => !adv || decide (i < st.pos)) with
    | some st => ⟨i, st.pos, st.caps⟩ :: finditerAux r n (decide (st.pos = i)) st.pos st.rest
    | none =>
      match rest with
      | [] => []
      | _ :: cs => finditerAux r n false (i + 1) cs := rfl

theorem find_head {l : List St} {i : Nat} : l.find? (fun st => !false || decide (i < st.pos)) = l.head? := by
  cases l <;> simp

theorem find_mem {l : List St} {p : St → Bool} {st : St} (h : l.find? p = some st) : st ∈ l ∧ p st = true :=
  ⟨List.mem_of_find?_eq_some h, List.find?_some h⟩

/-- The steps needed. -/
def steps (adv : Bool) (rest : List Char) : Nat := 2 * rest.length + if adv then 1 else 2

/-- More steps than needed change nothing. -/
theorem finditerAux_fuel (r : Re) : ∀ (n m : Nat) (adv : Bool) (i : Nat) (rest : List Char), steps adv rest ≤ n →
    n ≤ m → finditerAux r m adv i rest = finditerAux r n adv i rest
  | 0, m, adv, i, rest, h, _ => by unfold steps at h; cases adv <;> simp at h
  | n + 1, 0, adv, i, rest, _, h => by omega
  | n + 1, m + 1, adv, i, rest, h1, h2 => by
    rw [finditerAux_succ, finditerAux_succ]
    cases hh : (out r ⟨i, rest, []⟩).find? (fun st => !adv || decide (i < st.pos)) with
    | none =>
      cases rest with
      | nil => rfl
      | cons x cs =>
        refine finditerAux_fuel r n m false (i + 1) cs ?_ (by omega)
        unfold steps at *
        cases adv <;> simp at h1 ⊢ <;> omega
    | some st =>
      dsimp only
      obtain ⟨hm, hp⟩ := find_mem hh
      obtain ⟨u, e1, e2⟩ := out_reads r _ _ hm
      dsimp only at e1 e2
      have hl : rest.length = u.length + st.rest.length := by rw [e1, List.length_append]
      rw [finditerAux_fuel r n m (decide (st.pos = i)) st.pos st.rest ?_ (by omega)]
      unfold steps at *
      by_cases he : st.pos = i
      · cases adv
        · simp [he] at h1 ⊢; omega
        · simp [he] at hp
      · cases adv <;> simp [he] at h1 ⊢ <;> omega

theorem finditer_nil (r : Re) (i : Nat) (h : out r ⟨i, [], []⟩ = []) : finditer r i [] = [] := by
  unfold finditer
  rw [List.length_nil, finditerAux_succ, h]
  rfl

/-- A place where nothing matches. -/
theorem finditer_skip (r : Re) (i : Nat) (x : Char) (w : List Char)
    (h : out r ⟨i, x :: w, []⟩ = []) : finditer r i (x :: w) = finditer r (i + 1) w := by
  unfold finditer
  rw [List.length_cons, show 2 * (w.length + 1) + 2 = 2 * w.length + 2 + 1 + 1 by omega, finditerAux_succ, h]
  simp only [List.find?_nil]
  exact finditerAux_fuel r _ _ false _ _ (by simp [steps]) (by omega)

/-- A stretch in which nothing matches. -/
theorem finditer_skips (r : Re) : ∀ (u : List Char) (i : Nat) (w : List Char),
    (∀ a b j, u = a ++ b → b ≠ [] → out r ⟨j, b ++ w, []⟩ = []) → finditer r i (u ++ w) = finditer r (i + u.length) w
  | [], i, w, _ => rfl
  | x :: u, i, w, h => by
    rw [List.cons_append, finditer_skip r i x (u ++ w) (h [] (x :: u) i rfl (by simp)),
      finditer_skips r u (i + 1) w (fun a b j hab hb => h (x :: a) b j (by rw [hab]; rfl) hb), List.length_cons]
    congr 1
    omega

/-- A place where something matches. -/
theorem finditer_hit {r : Re} (hr : Free r) (i : Nat) (rest : List Char) (st : St)
    (h : (out r ⟨i, rest, []⟩).head? = some st) (hp : i < st.pos) :
    finditer r i rest = ⟨i, st.pos, st.caps⟩ :: finditer r st.pos st.rest := by
  unfold finditer
  rw [finditerAux_succ, find_head, h]
  dsimp only
  obtain ⟨u, ⟨e1, e2⟩, _⟩ := out_sound r hr _ _ (List.mem_of_mem_head? h)
  dsimp only at e1 e2
  have hl : rest.length = u.length + st.rest.length := by rw [e1, List.length_append]
  rw [show decide (st.pos = i) = false by simp; omega]
  rw [finditerAux_fuel r (2 * st.rest.length + 2) _ false st.pos st.rest (by simp [steps]) (by omega)]

/-- All matches found are ways to match, in order and apart. -/
theorem finditer_found {r : Re} (hr : Free r) (hne : ¬ Lang r []) : ∀ (n : Nat) (adv : Bool) (i : Nat) (rest : List Char),
    (∀ f ∈ finditerAux r n adv i rest, i ≤ f.start ∧ f.start < f.stop ∧ f.stop ≤ i + rest.length ∧
      ∃ u w st, rest = u ++ w ∧ f.start = i + u.length ∧ st ∈ out r ⟨i + u.length, w, []⟩ ∧ st.pos = f.stop ∧ st.caps = f.caps) ∧
    (finditerAux r n adv i rest).Pairwise (fun f g => f.stop ≤ g.start)
  | 0, adv, i, rest => by simp [finditerAux]
  | n + 1, adv, i, rest => by
    rw [finditerAux_succ]
    cases hh : (out r ⟨i, rest, []⟩).find? (fun st => !adv || decide (i < st.pos)) with
    | none =>
      cases rest with
      | nil => simp
      | cons x cs =>
        obtain ⟨h1, h2⟩ := finditer_found hr hne n false (i + 1) cs
        refine ⟨fun f hf => ?_, h2⟩
        obtain ⟨g1, g2, g3, u, w, st, e1, e2, e3, e4, e5⟩ := h1 f hf
        refine ⟨by omega, g2, by rw [List.length_cons]; omega, x :: u, w, st, by rw [e1]; rfl,
          by rw [List.length_cons]; omega, ?_, e4, e5⟩
        rw [show i + (x :: u).length = i + 1 + u.length by rw [List.length_cons]; omega]
        exact e3
    | some st =>
      dsimp only
      have hm := (find_mem hh).1
      obtain ⟨u, ⟨h1, h2⟩, hl⟩ := out_sound r hr _ _ hm
      dsimp only at h1 h2
      have hu : 0 < u.length := by
        cases u with
        | nil => exact absurd hl hne
        | cons x u => simp
      obtain ⟨g1, g2⟩ := finditer_found hr hne n (decide (st.pos = i)) st.pos st.rest
      have hlen : rest.length = u.length + st.rest.length := by rw [h1, List.length_append]
      refine ⟨?_, ?_⟩
      · intro f hf
        rcases List.mem_cons.1 hf with rfl | hf
        · exact ⟨Nat.le_refl _, by dsimp only; omega, by dsimp only; omega, [], rest, st, rfl, rfl, hm, rfl, rfl⟩
        · obtain ⟨q1, q2, q3, v, w, st', e1, e2, e3, e4, e5⟩ := g1 f hf
          refine ⟨by omega, q2, by omega, u ++ v, w, st', by rw [h1, e1, List.append_assoc],
            by rw [List.length_append]; omega, ?_, e4, e5⟩
          rw [show i + (u ++ v).length = st.pos + v.length by rw [List.length_append]; omega]
          exact e3
      · refine List.pairwise_cons.2 ⟨?_, g2⟩
        intro f hf
        exact (g1 f hf).1

end Pawpaw.Props
