import Verif.Props.Parsers
/-!
# The pattern of filters
-/
namespace Pawpaw.Props
open Pawpaw Pawpaw.Regex RegexSpec ReSyntax Patterns Pawpaw.Query QuerySpec

/-- All ways of a greedy run: the longest first. -/
theorem out_star_run (p : Char → Bool) (i : Nat) (l : List Char) (c : List (String × Nat × Nat)) :
    out (.star true (.chr p)) ⟨i, l, c⟩ = ((List.range (runOf p l + 1)).reverse.map fun j => ⟨i + j, l.drop j, c⟩) := by
  rw [out]
  dsimp only
  have key : ∀ (n : Nat) (i : Nat) (l : List Char), l.length ≤ n →
      iter true (out (.chr p)) n ⟨i, l, c⟩ = ((List.range (runOf p l + 1)).reverse.map fun j => ⟨i + j, l.drop j, c⟩) := by
    intro n
    induction n with
    | zero =>
      intro i l h
      obtain rfl : l = [] := List.length_eq_zero_iff.1 (by omega)
      rfl
    | succ n ih =>
      intro i l h
      rw [iter]
      cases l with
      | nil => rw [out_chr_empty]; rfl
      | cons x l =>
        by_cases hx : p x = true
        · rw [out_chr_cons, if_pos hx]
          simp only [List.flatMap_cons, List.flatMap_nil, List.append_nil, if_true]
          rw [if_pos (by omega), ih (i + 1) l (by simp at h; omega), runOf_cons hx, List.range_succ_eq_map (n := runOf p l + 1),
            List.reverse_cons, List.map_append, ← List.map_reverse, List.map_map]
          congr 1
          apply List.map_congr_left
          intro j _
          simp only [Function.comp, Nat.succ_eq_add_one, List.drop_succ_cons, St.mk.injEq, and_true]
          omega
        · rw [out_chr_cons, if_neg hx, runOf_stop (fun d hd => by obtain rfl := Option.some.inj hd; simpa using hx)]
          rfl
  exact key _ i l (Nat.le_refl _)

/-- What the whole text must be. -/
def ends (st : St) : List St := if st.rest = [] then [st] else []

theorem fullMatch_eq (r : Re) (p : List Char) : fullMatch r p = ((outk r ends ⟨0, p, []⟩).head?).map fun st => ⟨0, st.pos, st.caps⟩ := by
  unfold fullMatch outk
  congr 1
  generalize out r ⟨0, p, []⟩ = l
  induction l with
  | nil => rfl
  | cons x l ih =>
    rw [List.find?_cons, List.flatMap_cons]
    by_cases h : x.rest = []
    · simp [ends, h]
    · simp only [h, decide_false, ends, if_false, List.nil_append]
      exact ih

/-- `(?P<v>.+?)\]` to the end. -/
def valueRe : Re := .seq (.grp "v" (.seq (.chr fun _ => true) (.star false (.chr fun _ => true)))) (.chr (· == ']'))

theorem close_ends (i : Nat) (l : List Char) (c : List (String × Nat × Nat)) :
    outk (.chr (· == ']')) ends ⟨i, l, c⟩ = if l = [']'] then [⟨i + 1, [], c⟩] else [] := by
  cases l with
  | nil => rw [outk_chr_nil]; rfl
  | cons x l =>
    rw [outk_chr]
    by_cases hx : x = ']'
    · subst hx
      rw [if_pos (by decide)]
      unfold ends
      cases l <;> simp
    · rw [if_neg (by simpa using hx), if_neg (by simp [hx])]

theorem value_short (i : Nat) (l : List Char) (c : List (String × Nat × Nat)) (h : l = [] ∨ l = [']']) :
    outk valueRe ends ⟨i, l, c⟩ = [] := by
  unfold valueRe
  rw [outk_seq, outk_grp, outk_seq]
  rcases h with rfl | rfl
  · rw [outk_chr_nil]
  · rw [outk_chr, if_pos rfl]
    rfl

theorem value_long (i : Nat) (x : Char) (v : List Char) (c : List (String × Nat × Nat)) :
    (outk valueRe ends ⟨i, x :: v ++ [']'], c⟩).head? = some ⟨i + v.length + 2, [], c ++ [("v", i, i + v.length + 1)]⟩ := by
  unfold valueRe
  rw [outk_seq, outk_grp, outk_seq, List.cons_append, outk_chr, if_pos rfl]
  have e : (outk (.chr (· == ']')) ends ⟨i + 1 + v.length, [']'], c ++ [("v", i, i + 1 + v.length)]⟩) =
      [⟨i + 1 + v.length + 1, [], c ++ [("v", i, i + 1 + v.length)]⟩] := by rw [close_ends, if_pos rfl]
  rw [lazy_run _ v (i + 1) [']'] c ?_ ?_]
  · dsimp only
    rw [e]
    simp only [List.head?_cons, Option.some.injEq, St.mk.injEq, List.append_cancel_left_eq, List.cons.injEq, Prod.mk.injEq, true_and, and_true]
    omega
  · intro a b hab hb
    dsimp only
    rw [close_ends, if_neg]
    intro hx
    cases b with
    | nil => exact hb rfl
    | cons y b => simp at hx
  · dsimp only
    rw [e]
    simp

/-- `\s*(?P<v>.+?)\]` to the end, for the text `w` before the bracket. -/
theorem spaced_value (sp : Char → Bool) (hsp : sp ']' = false) (i : Nat) (w : List Char) (c : List (String × Nat × Nat)) :
    (outk (.star true (.chr sp)) (outk valueRe ends) ⟨i, w ++ [']'], c⟩).head? =
      if w = [] then none
      else some ⟨i + w.length + 1, [], c ++ [("v", if w.dropWhile sp = [] then i + w.length - 1 else i + runOf sp w, i + w.length)]⟩ := by
  have hr : runOf sp (w ++ [']']) = runOf sp w := by
    unfold runOf
    rw [List.takeWhile_append]
    split
    · rw [List.takeWhile_cons, if_neg (by rw [hsp]; simp)]; rename_i hh; simp [hh]
    · rfl
  have hle := runOf_le sp w
  unfold outk
  rw [out_star_run, hr, List.range_succ, List.reverse_append]
  simp only [List.reverse_cons, List.reverse_nil, List.nil_append, List.cons_append, List.map_cons, List.flatMap_cons]
  have hdrop : (w ++ [']']).drop (runOf sp w) = w.dropWhile sp ++ [']'] := by
    rw [List.drop_append_of_le_length hle, drop_runOf]
  rw [hdrop]
  cases hd : w.dropWhile sp with
  | cons x v =>
    have hw : w ≠ [] := by rintro rfl; simp at hd
    have hlen : w.length = runOf sp w + (v.length + 1) := by
      conv => lhs; rw [← List.takeWhile_append_dropWhile (p := sp) (l := w)]
      rw [List.length_append, hd]; rfl
    have := value_long (i + runOf sp w) x v c
    unfold outk at this
    rw [List.head?_append, this, if_neg hw, if_neg (by simp)]
    simp only [Option.some_or, Option.some.injEq, St.mk.injEq, List.append_cancel_left_eq, List.cons.injEq, Prod.mk.injEq, true_and, and_true]
    omega
  | nil =>
    have hlen : runOf sp w = w.length := by
      conv => rhs; rw [← List.takeWhile_append_dropWhile (p := sp) (l := w)]
      rw [hd, List.append_nil]; rfl
    have h0 := value_short (i + runOf sp w) ([] ++ [']']) c (Or.inr rfl)
    unfold outk at h0
    rw [h0, List.nil_append, if_pos rfl, hlen]
    by_cases hw : w = []
    · subst hw; rfl
    · rw [if_neg hw]
      obtain ⟨y, z, rfl⟩ : ∃ y z, w = y ++ [z] := ⟨_, _, (List.dropLast_concat_getLast hw).symm⟩
      have hl : (y ++ [z]).length = y.length + 1 := by simp
      rw [hl, List.range_succ, List.reverse_append]
      simp only [List.reverse_cons, List.reverse_nil, List.nil_append, List.cons_append, List.map_cons, List.flatMap_cons]
      have hdr : (y ++ [z] ++ [']']).drop y.length = z :: [] ++ [']'] := by
        rw [List.append_assoc, List.drop_left]
      have := value_long (i + y.length) z [] c
      unfold outk at this
      rw [hdr, List.head?_append, this]
      simp only [Option.some_or, Option.some.injEq, St.mk.injEq, List.append_cancel_left_eq, List.cons.injEq, Prod.mk.injEq, true_and, and_true,
        List.length_nil]
      omega

/-- The whole pattern. -/
def filterRe (sp : Char → Bool) : Re :=
  .seq (.chr (· == '[')) (.seq (.alt (.grp "not" (.chr (· == '~'))) .eps) (.seq (.grp "k" (plus (.chr isKeyChar)))
    (.seq (.chr (· == ':')) (.seq (.star true (.chr sp)) valueRe))))

theorem keyChar_eq (c : Char) : (decide ('a'.toNat ≤ c.toNat) && decide (c.toNat ≤ 'z'.toNat) || c == '-') = isKeyChar c := by
  unfold isKeyChar
  congr 1
  rw [Bool.eq_iff_iff, Bool.and_eq_true, decide_eq_true_eq, decide_eq_true_eq, decide_eq_true_eq]
  exact Iff.rfl

theorem denotes_filter (E : ReSyntax.Env) (h : E.fold = none) (hd : E.dotall = true) : Denotes E false Patterns.filter (filterRe E.space) := by
  obtain ⟨dg, sp, wd, ls, tx, lo, da, fo⟩ := E
  dsimp only at h hd; subst h hd
  refine denotes_of read_filter (same_of_flat ?_)
  have : isKeyChar = fun c => (decide ('a'.toNat ≤ c.toNat) && decide (c.toNat ≤ 'z'.toNat) || c == '-') := by
    funext c; exact (keyChar_eq c).symm
  simp only [filterRe, this]
  rfl

/-- What is in brackets, after the optional `~`, for a key that is not empty. -/
theorem keyed (sp : Char → Bool) (i : Nat) (l : List Char) (c : List (String × Nat × Nat)) :
    outk (.seq (.grp "k" (plus (.chr isKeyChar))) (.seq (.chr (· == ':')) (.seq (.star true (.chr sp)) valueRe))) ends ⟨i, l, c⟩ =
      if l.takeWhile isKeyChar = [] then []
      else match l.dropWhile isKeyChar with
        | ':' :: w => outk (.star true (.chr sp)) (outk valueRe ends)
            ⟨i + runOf isKeyChar l + 1, w, c ++ [("k", i, i + runOf isKeyChar l)]⟩
        | _ => [] := by
  rw [outk_seq, outk_grp]
  by_cases h0 : l.takeWhile isKeyChar = []
  · rw [if_pos h0]
    unfold outk
    rw [plus, plus_none (by unfold runOf; rw [h0]; rfl)]
    rfl
  · rw [if_neg h0]
    have hk : ∀ i x w c', isKeyChar x = true → (fun st' : St => outk (.seq (.chr (· == ':')) (.seq (.star true (.chr sp)) valueRe)) ends
        ⟨st'.pos, st'.rest, st'.caps ++ [("k", i, st'.pos)]⟩) ⟨i, x :: w, c'⟩ = [] := by
      intro i x w c' hx
      dsimp only
      rw [outk_seq, outk_chr, if_neg]
      intro e
      rw [eq_of_beq e] at hx
      exact absurd hx (by decide)
    have hrun := outk_plus_run isKeyChar (fun st' : St => outk (.seq (.chr (· == ':')) (.seq (.star true (.chr sp)) valueRe)) ends
        ⟨st'.pos, st'.rest, st'.caps ++ [("k", i, st'.pos)]⟩) (fun j x w c' hx => by
          dsimp only
          rw [outk_seq, outk_chr, if_neg]
          intro e
          rw [eq_of_beq e] at hx
          exact absurd hx (by decide)) h0 i (l.dropWhile isKeyChar) c
      (fun x hx => by have := List.all_takeWhile (p := isKeyChar) (l := l); rw [List.all_eq_true] at this; exact this x hx)
      (fun x hx => by
        have h1 := List.head?_dropWhile_not isKeyChar l
        rw [Option.mem_def.1 hx] at h1
        simpa using h1)
    rw [List.takeWhile_append_dropWhile] at hrun
    rw [hrun]
    dsimp only
    rw [outk_seq]
    cases l.dropWhile isKeyChar with
    | nil => rw [outk_chr_nil]
    | cons x w =>
      rw [outk_chr]
      by_cases hx : x = ':'
      · subst hx
        rw [if_pos (by decide), outk_seq]
        rfl
      · rw [if_neg (by simpa using hx)]
        split
        · rename_i e; exact absurd (List.cons.inj e).1 hx
        · rfl

theorem stop_append {p : Char → Bool} {d : Char} (hd : p d = false) (l : List Char) :
    (l ++ [d]).takeWhile p = l.takeWhile p ∧ (l ++ [d]).dropWhile p = l.dropWhile p ++ [d] := by
  induction l with
  | nil => simp [hd]
  | cons x l ih =>
    rw [List.cons_append, List.takeWhile_cons, List.takeWhile_cons, List.dropWhile_cons, List.dropWhile_cons]
    split
    · exact ⟨by rw [ih.1], ih.2⟩
    · exact ⟨rfl, rfl⟩

/-- What is in brackets, after the optional `~`: the text `l` before the closing bracket. -/
theorem keyed_head (sp : Char → Bool) (hsp : sp ']' = false) (i : Nat) (l : List Char) (c : List (String × Nat × Nat)) :
    (outk (.seq (.grp "k" (plus (.chr isKeyChar))) (.seq (.chr (· == ':')) (.seq (.star true (.chr sp)) valueRe))) ends
      ⟨i, l ++ [']'], c⟩).head? =
      if l.takeWhile isKeyChar = [] then none
      else match l.dropWhile isKeyChar with
        | ':' :: w => if w = [] then none else some ⟨i + l.length + 1, [], c ++ [("k", i, i + runOf isKeyChar l)] ++
            [("v", if w.dropWhile sp = [] then i + l.length - 1 else i + runOf isKeyChar l + 1 + runOf sp w, i + l.length)]⟩
        | _ => none := by
  obtain ⟨h1, h2⟩ := stop_append (p := isKeyChar) (d := ']') (by decide) l
  have hr : runOf isKeyChar (l ++ [']']) = runOf isKeyChar l := by unfold runOf; rw [h1]
  rw [keyed, h1, h2, hr]
  by_cases h0 : l.takeWhile isKeyChar = []
  · rw [if_pos h0, if_pos h0]; rfl
  rw [if_neg h0, if_neg h0]
  cases hd : l.dropWhile isKeyChar with
  | nil => rfl
  | cons x w =>
    by_cases hx : x = ':'
    · subst hx
      have hlen : l.length = runOf isKeyChar l + (w.length + 1) := by
        conv => lhs; rw [← List.takeWhile_append_dropWhile (p := isKeyChar) (l := l)]
        rw [List.length_append, hd]; rfl
      show (outk (.star true (.chr sp)) (outk valueRe ends) ⟨_, w ++ [']'], _⟩).head? = _
      rw [spaced_value sp hsp]
      have e1 : i + runOf isKeyChar l + 1 + w.length = i + l.length := by omega
      rw [e1]
      rfl
    · rw [List.cons_append]
      split
      · rename_i e; exact absurd (List.cons.inj e).1 hx
      · split
        · rename_i e; exact absurd (List.cons.inj e).1 hx
        · rfl

/-- What `parseBracket` makes of the text after the optional `~`. -/
def keyAndValue (l : List Char) : Option (List Char × List Char) :=
  if l.takeWhile isKeyChar = [] then none else
    match l.dropWhile isKeyChar with
    | ':' :: w => if w.dropWhile reSpace ≠ [] then some (l.takeWhile isKeyChar, w.dropWhile reSpace)
      else match w.getLast? with
        | some d => some (l.takeWhile isKeyChar, [d])
        | none => none
    | _ => none

theorem parseBracket_eq (b : List Char) : parseBracket ('[' :: b ++ [']']) =
    (keyAndValue (if b.head? = some '~' then b.drop 1 else b)).map fun kv => (decide (b.head? = some '~'), kv) := by
  unfold parseBracket keyAndValue
  have : (('[' :: b ++ [']']).drop 1).dropLast = b := by simp
  rw [this]
  dsimp only
  simp only [decide_eq_true_eq]
  generalize (if b.head? = some '~' then b.drop 1 else b) = l
  by_cases h0 : l.takeWhile isKeyChar = []
  · rw [if_pos h0, if_pos h0]; rfl
  · rw [if_neg h0, if_neg h0]
    generalize l.dropWhile isKeyChar = d
    cases d with
    | nil => rfl
    | cons x w =>
      by_cases hx : x = ':'
      · subst hx
        simp only []
        by_cases hv : w.dropWhile reSpace ≠ []
        · simp only [if_pos hv]; rfl
        · simp only [if_neg hv]
          cases w.getLast? <;> rfl
      · split
        · rename_i e; exact absurd (List.cons.inj e).1 hx
        · split
          · rename_i e; exact absurd (List.cons.inj e).1 hx
          · rfl

theorem bracket_tail (pre l : List Char) (c : List (String × Nat × Nat)) :
    (keyAndValue l = none ∧ (outk (.seq (.grp "k" (plus (.chr isKeyChar))) (.seq (.chr (· == ':')) (.seq (.star true (.chr reSpace)) valueRe))) ends
      ⟨pre.length, l ++ [']'], c⟩).head? = none) ∨
    ∃ k v st i1 j1 i2 j2, keyAndValue l = some (k, v) ∧
      (outk (.seq (.grp "k" (plus (.chr isKeyChar))) (.seq (.chr (· == ':')) (.seq (.star true (.chr reSpace)) valueRe))) ends
        ⟨pre.length, l ++ [']'], c⟩).head? = some st ∧ st.caps = c ++ [("k", i1, j1)] ++ [("v", i2, j2)] ∧
      ((pre ++ l ++ [']']).drop i1).take (j1 - i1) = k ∧ ((pre ++ l ++ [']']).drop i2).take (j2 - i2) = v := by
  rw [keyed_head reSpace (by decide)]
  unfold keyAndValue
  by_cases h0 : l.takeWhile isKeyChar = []
  · rw [if_pos h0, if_pos h0]; exact .inl ⟨rfl, rfl⟩
  rw [if_neg h0, if_neg h0]
  split
  · rename_i w hw
    have hl : l = l.takeWhile isKeyChar ++ ':' :: w := by rw [← hw, List.takeWhile_append_dropWhile]
    generalize hk : l.takeWhile isKeyChar = key at hl h0
    have hrun : runOf isKeyChar l = key.length := by unfold runOf; rw [hk]
    rw [hrun]
    have hkey : ∀ t : List Char, ((pre ++ l ++ t).drop pre.length).take (pre.length + key.length - pre.length) = key := by
      intro t
      rw [List.append_assoc, List.drop_left, Nat.add_sub_cancel_left, hl, List.append_assoc, List.take_left]
    by_cases hv : w.dropWhile reSpace ≠ []
    · rw [if_pos hv]
      have hwn : w ≠ [] := by rintro rfl; exact hv rfl
      rw [if_neg hwn, if_neg hv]
      refine .inr ⟨_, _, _, _, _, _, _, rfl, rfl, rfl, hkey _, ?_⟩
      have e : pre ++ l ++ [']'] = (pre ++ (key ++ [':'] ++ w.takeWhile reSpace)) ++ (w.dropWhile reSpace ++ [']']) := by
        have e0 : w = w.takeWhile reSpace ++ w.dropWhile reSpace := by rw [List.takeWhile_append_dropWhile]
        generalize w.takeWhile reSpace = a at e0
        generalize w.dropWhile reSpace = z at e0
        rw [hl, e0]
        simp [List.append_assoc]
      have hlen : l.length = key.length + 1 + (runOf reSpace w + (w.dropWhile reSpace).length) := by
        conv => lhs; rw [hl]
        rw [List.length_append, List.length_cons]
        have : w.length = runOf reSpace w + (w.dropWhile reSpace).length := by
          conv => lhs; rw [← List.takeWhile_append_dropWhile (p := reSpace) (l := w)]
          rw [List.length_append]; rfl
        omega
      have e1 : pre.length + key.length + 1 + runOf reSpace w = (pre ++ (key ++ [':'] ++ w.takeWhile reSpace)).length := by
        simp [runOf]; omega
      rw [e, e1, List.drop_left, ← e1, show pre.length + l.length - (pre.length + key.length + 1 + runOf reSpace w) =
        (w.dropWhile reSpace).length by omega, List.take_left]
    · rw [if_neg hv]
      have hv : w.dropWhile reSpace = [] := Classical.not_not.1 hv
      by_cases hwn : w = []
      · subst hwn; exact .inl ⟨rfl, rfl⟩
      · rw [if_neg hwn, if_pos hv, List.getLast?_eq_some_getLast hwn]
        refine .inr ⟨_, _, _, _, _, _, _, rfl, rfl, rfl, hkey _, ?_⟩
        obtain ⟨y, z, rfl⟩ : ∃ y z, w = y ++ [z] := ⟨_, _, (List.dropLast_concat_getLast hwn).symm⟩
        have e : pre ++ l ++ [']'] = (pre ++ (key ++ [':'] ++ y)) ++ ([z] ++ [']']) := by
          rw [hl]; simp [List.append_assoc]
        have e1 : pre.length + l.length - 1 = (pre ++ (key ++ [':'] ++ y)).length := by
          rw [hl]; simp; omega
        have hp : 1 ≤ l.length := by rw [hl]; simp; omega
        rw [e, e1, List.drop_left, ← e1, show pre.length + l.length - (pre.length + l.length - 1) = [z].length by simp; omega,
          List.take_left]
        simp
  · exact .inl ⟨rfl, rfl⟩

/-- One pair of brackets: the pattern of the source matches all of it exactly when the filter is accepted, and the groups `not`,
`k` and `v` are what the filter is made of. -/
theorem C118_filter (E : ReSyntax.Env) (hf : E.fold = none) (hd : E.dotall = true) (hs : E.space = reSpace) :
    ∃ r, compile E false Patterns.filter = some r ∧ ∀ b : List Char,
    (parseBracket ('[' :: b ++ [']']) = none ∧ fullMatch r ('[' :: b ++ [']']) = none) ∨
    (∃ neg k v m, parseBracket ('[' :: b ++ [']']) = some (neg, k, v) ∧ fullMatch r ('[' :: b ++ [']']) = some m ∧
      group m "k" ('[' :: b ++ [']']) = some k ∧ group m "v" ('[' :: b ++ [']']) = some v ∧
      group m "not" ('[' :: b ++ [']']) = if neg then some ['~'] else none) := by
  obtain ⟨r, h1, h2⟩ := best_of_denotes (denotes_filter E hf hd)
  rw [hs] at h2
  refine ⟨r, h1, fun b => ?_⟩
  have hout : fullMatch r ('[' :: b ++ [']']) = fullMatch (filterRe reSpace) ('[' :: b ++ [']']) := by unfold fullMatch; rw [h2]
  rw [hout, fullMatch_eq, parseBracket_eq]
  have hstart : outk (filterRe reSpace) ends ⟨0, '[' :: b ++ [']'], []⟩ =
      outk (.alt (.grp "not" (.chr (· == '~'))) .eps) (outk (.seq (.grp "k" (plus (.chr isKeyChar)))
        (.seq (.chr (· == ':')) (.seq (.star true (.chr reSpace)) valueRe))) ends) ⟨1, b ++ [']'], []⟩ := by
    unfold filterRe
    rw [outk_seq, List.cons_append, outk_chr, if_pos (by decide), outk_seq]
  rw [hstart, outk_alt, outk_eps, outk_grp]
  by_cases hn : b.head? = some '~'
  · obtain ⟨b', rfl⟩ : ∃ b', b = '~' :: b' := by
      cases b with
      | nil => cases hn
      | cons x b' => obtain rfl := Option.some.inj hn; exact ⟨b', rfl⟩
    rw [if_pos hn]
    have hno : outk (.seq (.grp "k" (plus (.chr isKeyChar))) (.seq (.chr (· == ':')) (.seq (.star true (.chr reSpace)) valueRe))) ends
        ⟨1, '~' :: b' ++ [']'], []⟩ = [] := by
      rw [keyed, if_pos (by rw [List.cons_append, List.takeWhile_cons, if_neg (by decide)])]
    rw [hno, List.append_nil, List.cons_append, outk_chr, if_pos (by decide)]
    rcases bracket_tail ['[', '~'] b' ([] ++ [("not", 1, 2)]) with ⟨g1, g2⟩ | ⟨k, v, st, i1, j1, i2, j2, g1, g2, g3, g4, g5⟩
    · left
      exact ⟨by rw [List.drop_one, List.tail_cons, g1]; rfl, by
        show Option.map _ (outk _ ends ⟨2, b' ++ [']'], [] ++ [("not", 1, 2)]⟩).head? = _
        erw [g2]; rfl⟩
    · right
      refine ⟨true, k, v, ⟨0, st.pos, st.caps⟩, by rw [List.drop_one, List.tail_cons, g1]; simp, ?_, ?_, ?_, ?_⟩
      · show Option.map _ (outk _ ends ⟨2, b' ++ [']'], [] ++ [("not", 1, 2)]⟩).head? = _
        erw [g2]; rfl
      all_goals unfold group groupSpan; dsimp only; rw [g3]
      · exact congrArg some g4
      · exact congrArg some g5
      · rfl
  · rw [if_neg hn]
    have hno : outk (.chr (· == '~')) (fun st' : St => outk (.seq (.grp "k" (plus (.chr isKeyChar)))
        (.seq (.chr (· == ':')) (.seq (.star true (.chr reSpace)) valueRe))) ends
          { st' with caps := st'.caps ++ [("not", (⟨1, b ++ [']'], []⟩ : St).pos, st'.pos)] }) ⟨1, b ++ [']'], []⟩ = [] := by
      cases b with
      | nil => rw [List.nil_append, outk_chr, if_neg (by decide)]
      | cons x b =>
        rw [List.cons_append, outk_chr, if_neg]
        intro e
        exact hn (by rw [eq_of_beq e]; rfl)
    rw [hno, List.nil_append]
    rcases bracket_tail ['['] b [] with ⟨g1, g2⟩ | ⟨k, v, st, i1, j1, i2, j2, g1, g2, g3, g4, g5⟩
    · left
      exact ⟨by rw [g1]; rfl, by erw [g2]; rfl⟩
    · right
      refine ⟨false, k, v, ⟨0, st.pos, st.caps⟩, by rw [g1]; simp [hn], by erw [g2]; rfl, ?_, ?_, ?_⟩
      all_goals unfold group groupSpan; dsimp only; rw [g3]
      · exact congrArg some g4
      · exact congrArg some g5
      · rfl

/-- A filter whose value contains a bracket, a negated one, and a text that is none. -/
example : parseBracket "[d: a]b]".toList = some (false, ['d'], ['a', ']', 'b']) ∧
    parseBracket "[~desc:x]".toList = some (true, "desc".toList, ['x']) ∧ parseBracket "[d:]".toList = none := by decide +kernel
example : ∃ E : ReSyntax.Env, E.fold = none ∧ E.dotall = true ∧ E.space = reSpace :=
  ⟨{ digit := Char.isDigit, space := reSpace, word := Char.isAlphanum, dotall := true }, rfl, rfl, rfl⟩

end Pawpaw.Props
