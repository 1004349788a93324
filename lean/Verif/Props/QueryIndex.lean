import Verif.Props.Query
/-!
# C40: index filters
-/
set_option linter.unusedSectionVars false
namespace Pawpaw.Props
open Pawpaw Pawpaw.Query Pawpaw.Util Pawpaw.Ecf QuerySpec UtilSpec TreeSpec PyStr
variable {V : Type} [DecidableEq V]

/-! ## Numbers and splitting -/

theorem splitGo_char_none (c : Char) (a : List Char) (h : c ∉ a) : ∀ acc,
    PyStr.splitGo [c] none acc a = [acc ++ a] := by
  induction a with
  | nil => intro acc; simp [PyStr.splitGo]
  | cons d a ih =>
    intro acc
    have hd : c ≠ d := fun hh => h (by simp [hh])
    rw [PyStr.splitGo]
    · rw [if_neg (by simp [List.isPrefixOf, hd]), ih (fun hh => h (by simp [hh]))]
      simp
    · simp

theorem splitGo_char (c : Char) (a b : List Char) (h : c ∉ a) : ∀ acc,
    PyStr.splitGo [c] none acc (a ++ c :: b) = (acc ++ a) :: PyStr.splitGo [c] none [] b := by
  induction a with
  | nil =>
    intro acc
    rw [List.nil_append, PyStr.splitGo]
    · rw [if_pos (by simp [List.isPrefixOf])]
      simp
    · simp
  | cons d a ih =>
    intro acc
    have hd : c ≠ d := fun hh => h (by simp [hh])
    rw [List.cons_append, PyStr.splitGo]
    · rw [if_neg (by simp [List.isPrefixOf, hd]), ih (fun hh => h (by simp [hh]))]
      simp
    · simp

theorem split_char_none (c : Char) (a : List Char) (h : c ∉ a) : PyStr.split a [c] (-1) = [a] := by
  have := splitGo_char_none c a h []
  simpa [PyStr.split, PyStr.limitOf] using this

theorem split_char (c : Char) (a b : List Char) (h : c ∉ a) :
    PyStr.split (a ++ c :: b) [c] (-1) = a :: PyStr.split b [c] (-1) := by
  have := splitGo_char c a b h []
  simpa [PyStr.split, PyStr.limitOf] using this

theorem split_intercalate_char (c : Char) : ∀ ps : List (List Char), ps ≠ [] → (∀ p ∈ ps, c ∉ p) →
    PyStr.split ([c].intercalate ps) [c] (-1) = ps
  | [], h, _ => absurd rfl h
  | [p], _, hp => by simpa [List.intercalate] using split_char_none c p (hp p (by simp))
  | p :: q :: ps, _, hp => by
    have := split_intercalate_char c (q :: ps) (by simp) (fun r hr => hp r (by simp at hr ⊢; right; exact hr))
    have e : [c].intercalate (p :: q :: ps) = p ++ c :: [c].intercalate (q :: ps) := by
      simp [List.intercalate]
    rw [e, split_char c p _ (hp p (by simp)), this]

theorem isDigit_eq (c : Char) : isDigit c = c.isDigit := by
  unfold isDigit Char.isDigit
  rw [Bool.eq_iff_iff]
  simp [Char.le_def]

theorem digits_isDigit (n : Nat) : ∀ c ∈ (toString n : String).toList, isDigit c = true := by
  intro c hc
  rw [isDigit_eq]
  have : c ∈ Nat.toDigits 10 n := by rw [← Nat.toList_repr]; exact hc
  exact Nat.isDigit_of_mem_toDigits (by decide) (by decide) this

theorem digits_ne_nil (n : Nat) : (toString n : String).toList ≠ [] := by
  have : (toString n : String).toList = Nat.toDigits 10 n := Nat.toList_repr
  rw [this]
  exact Nat.toDigits_ne_nil

theorem digitsVal_digits (n : Nat) : digitsVal (toString n : String).toList = n := by
  have : (toString n : String).toList = Nat.toDigits 10 n := Nat.toList_repr
  rw [this]
  exact Nat.ofDigitChars_ten_toDigits

theorem allDigits_digits (n : Nat) : allDigits (toString n : String).toList = true := by
  unfold allDigits
  rw [Bool.and_eq_true, decide_eq_true_eq, List.all_eq_true]
  exact ⟨digits_ne_nil n, digits_isDigit n⟩

theorem isDigit_iff (c : Char) : isDigit c = true ↔ 48 ≤ c.toNat ∧ c.toNat ≤ 57 := by
  unfold isDigit
  simp [Char.le_def]
  constructor
  · rintro ⟨h1, h2⟩; exact ⟨h1, h2⟩
  · rintro ⟨h1, h2⟩; exact ⟨h1, h2⟩

theorem digit_not_space {c : Char} (h : isDigit c = true) : isSpace c = false := by
  rw [isDigit_iff] at h
  unfold isSpace
  simp
  omega

theorem digit_ne {c d : Char} (h : isDigit c = true) (hd : ¬ (48 ≤ d.toNat ∧ d.toNat ≤ 57)) : c ≠ d := by
  intro hh; rw [isDigit_iff, hh] at h; exact hd h

theorem underscored_digits : ∀ s : List Char, s ≠ [] → (∀ c ∈ s, isDigit c = true) → underscored s = some s
  | [], h, _ => absurd rfl h
  | [c], _, h => by rw [underscored, if_pos (h c (by simp))]
  | c :: d :: s, _, h => by
    have hd : d ≠ '_' := digit_ne (h d (by simp)) (by decide)
    rw [underscored.eq_def]
    split
    · simp at *
    · simp at *
    · rename_i heq; simp at heq; exact absurd heq.2.1 hd
    · rename_i heq
      simp at heq
      obtain ⟨rfl, rfl, rfl⟩ := heq
      rw [if_pos (h c (by simp)), underscored_digits (d :: s) (by simp) (fun e he => h e (by simp at he ⊢; right; exact he))]
      rfl

theorem strip_digits (s : List Char) (h : ∀ c ∈ s, isDigit c = true) : strip s = s := by
  cases s with
  | nil => rfl
  | cons c s =>
    rcases List.eq_nil_or_concat s with rfl | ⟨m, d, rfl⟩
    · unfold strip PyStr.stripBy PyStr.lstripBy PyStr.rstripBy
      have := digit_not_space (h c (by simp))
      simp [this]
    · rw [List.concat_eq_append]
      exact strip_solid c d m (digit_not_space (h c (by simp))) (digit_not_space (h d (by simp)))

theorem pyInt_digits (n : Nat) : pyInt (toString n : String).toList = .ok (n : Int) := by
  have h1 := digits_isDigit n
  have h2 := digits_ne_nil n
  have h3 := digitsVal_digits n
  generalize (toString n : String).toList = s at h1 h2 h3 ⊢
  unfold pyInt
  rw [strip_digits s h1]
  split
  · exact absurd rfl (digit_ne (h1 '-' (by simp)) (by decide))
  · exact absurd rfl (digit_ne (h1 '+' (by simp)) (by decide))
  · rw [underscored_digits s h2 h1]
    simp only [h3]

/-! ## The filter -/

/-- What a range of the specification is in the program. -/
def idxProg : Idx → Int × Option Int
  | .one a => (a, some ((a : Int) + 1))
  | .range a b => (a, some (b : Int))
  | .from a => (a, none)

theorem parseRange_text (r : Idx) : parseRange r.text.toList = .ok (idxProg r) := by
  have nd : ∀ n : Nat, '-' ∉ (toString n : String).toList := fun n hh =>
    absurd rfl (digit_ne (digits_isDigit n _ hh) (by decide))
  unfold parseRange
  cases r with
  | one a =>
    simp only [Idx.text]
    rw [split_char_none _ _ (nd a)]
    simp only [pyInt_digits, idxProg]
  | range a b =>
    simp only [Idx.text, String.toList_append]
    rw [List.append_assoc]
    have : ("-" : String).toList = ['-'] := rfl
    rw [this, List.singleton_append, split_char _ _ _ (nd a), split_char_none _ _ (nd b)]
    simp only [pyInt_digits, allDigits_digits, if_true, digitsVal_digits, idxProg]
  | «from» a =>
    simp only [Idx.text, String.toList_append]
    have : ("-" : String).toList = ['-'] := rfl
    rw [this, split_char _ _ _ (nd a), split_char_none _ _ (by simp)]
    simp only [pyInt_digits, idxProg]
    rfl

theorem idx_text_chars (r : Idx) : r.text.toList ≠ [] ∧ ∀ c ∈ r.text.toList, isDigit c = true ∨ c = '-' := by
  have hm : ("-" : String).toList = ['-'] := rfl
  cases r with
  | one a => exact ⟨digits_ne_nil a, fun c hc => Or.inl (digits_isDigit a c hc)⟩
  | range a b =>
    simp only [Idx.text, String.toList_append, hm]
    refine ⟨by simp, ?_⟩
    intro c hc
    simp only [List.mem_append, List.mem_singleton] at hc
    rcases hc with (hc | hc) | hc
    · exact Or.inl (digits_isDigit a c hc)
    · exact Or.inr hc
    · exact Or.inl (digits_isDigit b c hc)
  | «from» a =>
    simp only [Idx.text, String.toList_append, hm]
    refine ⟨by simp, ?_⟩
    intro c hc
    simp only [List.mem_append, List.mem_singleton] at hc
    rcases hc with hc | hc
    · exact Or.inl (digits_isDigit a c hc)
    · exact Or.inr hc

theorem parseRanges_text (rs : List Idx) :
    parseRanges (rs.map (fun r => r.text.toList)) = .ok (rs.map idxProg) := by
  induction rs with
  | nil => rfl
  | cons r rs ih => simp only [List.map_cons, parseRanges, parseRange_text, ih]

theorem inRange_prog (k : Nat) (r : Idx) : inRange k (idxProg r) = decide (r.Has k) := by
  have h : inRange k (idxProg r) = true ↔ r.Has k := by
    cases r with
    | one a =>
      show (decide ((a : Int) ≤ k) && decide ((k : Int) < a + 1)) = true ↔ k = a
      rw [Bool.and_eq_true, decide_eq_true_eq, decide_eq_true_eq]
      omega
    | range a b =>
      show (decide ((a : Int) ≤ k) && decide ((k : Int) < b)) = true ↔ a ≤ k ∧ k < b
      rw [Bool.and_eq_true, decide_eq_true_eq, decide_eq_true_eq]
      omega
    | «from» a =>
      show (decide ((a : Int) ≤ k) && true) = true ↔ a ≤ k
      rw [Bool.and_true, decide_eq_true_eq]
      omega
  rw [Bool.eq_iff_iff, decide_eq_true_eq, h]

theorem intercalate_mem {c d : Char} {ps : List (List Char)} (h : d ∈ [c].intercalate ps) :
    d = c ∨ ∃ p ∈ ps, d ∈ p := by
  induction ps with
  | nil => simp [List.intercalate] at h
  | cons p ps ih =>
    cases ps with
    | nil =>
      simp [List.intercalate] at h
      exact Or.inr ⟨p, by simp, h⟩
    | cons q ps =>
      have e : [c].intercalate (p :: q :: ps) = p ++ c :: [c].intercalate (q :: ps) := by
        simp [List.intercalate]
      rw [e, List.mem_append, List.mem_cons] at h
      rcases h with h | h | h
      · exact Or.inr ⟨p, by simp, h⟩
      · exact Or.inl h
      · rcases ih h with h | ⟨r, hr, h⟩
        · exact Or.inl h
        · exact Or.inr ⟨r, by simp at hr ⊢; right; exact hr, h⟩

theorem idxText_chars (rs : List Idx) : ∀ c ∈ idxText rs, isDigit c = true ∨ c = '-' ∨ c = ',' := by
  intro c hc
  rcases intercalate_mem hc with h | ⟨p, hp, h⟩
  · exact Or.inr (Or.inr h)
  · simp only [List.mem_map] at hp
    obtain ⟨r, _, rfl⟩ := hp
    rcases (idx_text_chars r).2 c h with h | h
    · exact Or.inl h
    · exact Or.inr (Or.inl h)

theorem idxText_ne_nil {rs : List Idx} (h : rs ≠ []) : idxText rs ≠ [] := by
  cases rs with
  | nil => exact absurd rfl h
  | cons r rs =>
    intro hh
    have h1 := (idx_text_chars r).1
    unfold idxText at hh
    cases rs with
    | nil => simp [List.intercalate] at hh; exact h1 (by rw [hh]; rfl)
    | cons q rs =>
      simp [List.intercalate] at hh

theorem digit_not_structural {c : Char} (h : isDigit c = true ∨ c = '-' ∨ c = ',') :
    c ∉ structuralChars ∧ reSpace c = false := by
  rcases h with h | h | h
  · constructor
    · intro hh
      simp only [structuralChars, List.mem_cons, List.not_mem_nil, or_false] at hh
      rcases hh with hh | hh | hh | hh | hh | hh <;> exact digit_ne h (by decide) hh
    · unfold reSpace; rw [digit_not_space h]; rfl
  · rw [h]; decide
  · rw [h]; decide

theorem parseBracket_text (neg : Bool) (k v : List Char) (hk : k ≠ []) (hk2 : ∀ c ∈ k, isKeyChar c = true)
    (hv : v ≠ []) (hd : v.dropWhile reSpace = v) :
    parseBracket ('[' :: ((if neg then ['~'] else []) ++ (k ++ ':' :: v)) ++ [']']) = some (neg, k, v) := by
  have e : (('[' :: ((if neg then ['~'] else []) ++ (k ++ ':' :: v)) ++ [']']).drop 1).dropLast =
      (if neg then ['~'] else []) ++ (k ++ ':' :: v) := by
    rw [List.cons_append, List.drop_one, List.tail_cons, List.dropLast_concat]
  have hh : (k ++ ':' :: v).head? ≠ some '~' := by
    cases k with
    | nil => exact absurd rfl hk
    | cons c k =>
      intro hh
      simp at hh
      have := hk2 c (by simp)
      rw [hh] at this
      exact absurd this (by decide)
  have h1 : decide (((if neg then ['~'] else []) ++ (k ++ ':' :: v)).head? = some '~') = neg := by
    cases neg with
    | true => simp
    | false => exact decide_eq_false hh
  have h2 : (if neg then ((if neg then ['~'] else []) ++ (k ++ ':' :: v)).drop 1
      else (if neg then ['~'] else []) ++ (k ++ ':' :: v)) = k ++ ':' :: v := by
    cases neg <;> simp
  have h3 : (k ++ ':' :: v).takeWhile isKeyChar = k := by
    rw [List.takeWhile_append_of_pos hk2, List.takeWhile_cons_of_neg (by decide)]
    simp
  have h4 : (k ++ ':' :: v).dropWhile isKeyChar = ':' :: v := by
    rw [List.dropWhile_append_of_pos hk2, List.dropWhile_cons_of_neg (by decide)]
  unfold parseBracket
  simp only
  rw [e, h1, h2, h3, h4, if_neg hk]
  simp only [hd]
  rw [if_pos hv]

theorem mkFilter_index (X : Ext) (neg : Bool) (rs : List Idx) (h : rs ≠ []) :
    (mkFilter X (indexFilter neg rs) : Except PyErr (Filter (Ctx V))) =
      .ok (fun x => .ok (if neg then !decide (∃ r ∈ rs, r.Has x.2.1) else decide (∃ r ∈ rs, r.Has x.2.1))) := by
  have hv := idxText_ne_nil h
  have hc := idxText_chars rs
  have hs : PyStr.split (idxText rs) [','] (-1) = rs.map (fun r => r.text.toList) := by
    apply split_intercalate_char
    · simpa using h
    · intro p hp
      simp only [List.mem_map] at hp
      obtain ⟨r, _, rfl⟩ := hp
      intro hh
      rcases (idx_text_chars r).2 _ hh with hh | hh
      · exact absurd rfl (digit_ne hh (by decide))
      · exact absurd hh (by decide)
  have hd : (idxText rs).dropWhile reSpace = idxText rs := by
    cases he : idxText rs with
    | nil => rfl
    | cons c s =>
      rw [List.dropWhile_cons_of_neg]
      rw [(digit_not_structural (hc c (by rw [he]; simp))).2]
      simp
  have hp : parseBracket (indexFilter neg rs) = some (neg, ['i'], idxText rs) := by
    exact parseBracket_text neg ['i'] _ (by simp) (by simp [isKeyChar]) hv hd
  unfold mkFilter
  rw [hp]
  simp only [filterFunc]
  have hk : String.ofList ['i'] = "i" := rfl
  rw [hk]
  simp only [show ("i" ∈ ["desc", "d"]) = False from by simp,
    show ("i" ∈ ["string", "s"]) = False from by simp,
    show ("i" ∈ ["str-casefold", "scf", "lcs"]) = False from by simp,
    show ("i" ∈ ["str-casefold-ew", "scfew", "lcsew"]) = False from by simp,
    show ("i" ∈ ["str-casefold-sw", "scfsw", "lcssw"]) = False from by simp,
    show ("i" ∈ ["str-ew", "sew"]) = False from by simp,
    show ("i" ∈ ["str-sw", "ssw"]) = False from by simp,
    show ("i" ∈ ["index", "i"]) = True from by simp, if_false, if_true]
  rw [hs, parseRanges_text]
  simp only
  congr 1
  funext x
  have : (rs.map idxProg).any (inRange x.2.1) = decide (∃ r ∈ rs, r.Has x.2.1) := by
    rw [List.any_map, Bool.eq_iff_iff, List.any_eq_true, decide_eq_true_eq]
    simp only [Function.comp_apply, inRange_prog, decide_eq_true_eq]
  rw [this]
  rfl

/-! ## Numbering -/

theorem enumFrom_map_snd (l : List Path) : ∀ e, (enumFrom e l).map Prod.snd = l := by
  induction l with
  | nil => intro e; rfl
  | cons p l ih => intro e; simp [enumFrom, ih]

theorem enumFrom_append (l m : List Path) : ∀ e, enumFrom e (l ++ m) = enumFrom e l ++ enumFrom (e + l.length) m := by
  induction l with
  | nil => intro e; simp [enumFrom]
  | cons p l ih =>
    intro e
    simp [enumFrom, ih]
    congr 1
    omega

/-- `to_ecs` numbers what it yields 0, 1, 2, … -/
theorem toEcs_numbered (a : Axis) (l : List Path) (s : Option Path) :
    a.toEcs l s = enumFrom 0 ((a.toEcs l s).map Prod.snd) := by
  unfold Axis.toEcs
  cases s with
  | none => rw [enumFrom_map_snd]
  | some s =>
    simp only
    split
    · split
      · rfl
      · split
        · simp [enumFrom, enumFrom_map_snd]
        · simp [enumFrom, enumFrom_map_snd]
    · split
      · split <;> rfl
      · rename_i p ps
        rw [List.map_append, enumFrom_map_snd, enumFrom_append]
        split
        · simp [enumFrom]
        · simp [enumFrom]

theorem findRun_numbered (a : Axis) (t : Node) (x : Path) :
    (Axis.findRun a t ⟨[x], none⟩).out = enumFrom 0 ((Axis.findRun a t ⟨[x], none⟩).out.map Prod.snd) := by
  unfold Axis.findRun
  have hb : ∀ f : Path → Run EIto, (∀ y, (f y).out = enumFrom 0 ((f y).out.map Prod.snd)) →
      ((⟨[x], none⟩ : Run Path).bind f).out = enumFrom 0 (((⟨[x], none⟩ : Run Path).bind f).out.map Prod.snd) := by
    intro f hf
    rw [bind_single]
    exact hf x
  have hs : ∀ y : Path, (match a.step t y with
    | .error e => Run.raise e
    | .ok ns => (⟨a.toEcs ns (some y), none⟩ : Run EIto)).out = enumFrom 0 ((match a.step t y with
    | .error e => Run.raise e
    | .ok ns => (⟨a.toEcs ns (some y), none⟩ : Run EIto)).out.map Prod.snd) := by
    intro y
    cases a.step t y with
    | error e => rfl
    | ok ns => exact toEcs_numbered a ns (some y)
  have ho : (match ([x] : List Path).find? (fun i => decide (Query.parent i = none)), (none : Option PyErr) with
    | some root, _ => (⟨a.toEcs [] (some root), none⟩ : Run EIto)
    | none, some e => .raise e
    | none, none =>
      match ([x] : List Path).getLast? with
      | none => .raise .nameError
      | some i => ⟨if a.key = AxisKey.preceding then a.precedingTail t i else a.followingTail t i, none⟩).out =
      enumFrom 0 ((match ([x] : List Path).find? (fun i => decide (Query.parent i = none)), (none : Option PyErr) with
    | some root, _ => (⟨a.toEcs [] (some root), none⟩ : Run EIto)
    | none, some e => .raise e
    | none, none =>
      match ([x] : List Path).getLast? with
      | none => .raise .nameError
      | some i => ⟨if a.key = AxisKey.preceding then a.precedingTail t i else a.followingTail t i, none⟩).out.map Prod.snd) := by
    cases ([x] : List Path).find? (fun i => decide (Query.parent i = none)) with
    | some r => exact toEcs_numbered a [] (some r)
    | none =>
      simp only [List.getLast?_singleton]
      split
      · unfold Axis.precedingTail; exact toEcs_numbered a _ _
      · unfold Axis.followingTail; exact toEcs_numbered a _ _
  split
  · exact toEcs_numbered a _ none
  · exact toEcs_numbered a _ none
  · exact ho
  · exact ho
  · exact hb _ hs

theorem filterList_ok {τ : Type} (P : τ → Bool) (e : Option PyErr) (l : List τ) :
    Run.filterList (fun x => .ok (P x)) e l = ⟨l.filter P, e⟩ := by
  induction l with
  | nil => rfl
  | cons x l ih =>
    rw [Run.filterList]
    cases h : P x with
    | true => simp [ih, h, Run.yield]
    | false => simp [ih, h]

theorem pick_enum (P : Nat → Prop) [DecidablePred P] (l : List Path) :
    ((enumFrom 0 l).filter (fun ec => decide (P ec.1))).map Prod.snd = pick P l := by
  unfold pick
  rw [List.range_eq_range']
  generalize 0 = e
  induction l generalizing e with
  | nil => rfl
  | cons p l ih =>
    rw [List.length_cons, List.range'_succ, List.zip_cons_cons, List.filterMap_cons, enumFrom, List.filter_cons]
    simp only
    by_cases h : P e
    · simp only [h, decide_true, if_true, List.map_cons]
      rw [ih]
    · simp only [h, decide_false, if_false, Bool.false_eq_true]
      rw [ih]

/-- C40: an index filter selects by position.  Whatever the axis finds from a node (without the filter, in
the axis' order), the same query with `[i:…]` finds exactly the elements whose 0-based position the list
names — a number `a`, a half-open range `a-b` or an open range `a-` — in the same order; with `[~i:…]`
exactly the others.  It ends the same way. -/
theorem C40_index_filter (X : Ext) (env : Env V) (plus neg : Bool) (a : Axis) (rs : List Idx) (hrs : rs ≠ [])
    (x : Path) :
    findAll X env (axisText plus a ++ indexFilter neg rs) x =
      ⟨pick (fun k => (∃ r ∈ rs, r.Has k) ↔ neg = false) (findAll X env (axisText plus a) x).out,
        (findAll X env (axisText plus a) x).exc⟩ := by
  have hb : Lit ((if neg then ['~'] else []) ++ 'i' :: ':' :: idxText rs) := by
    apply lit_of_plain
    intro c hc
    simp only [List.mem_append, List.mem_cons] at hc
    rcases hc with hc | hc | hc | hc
    · cases neg <;> simp at hc; rw [hc]; decide
    · rw [hc]; decide
    · rw [hc]; decide
    · exact (digit_not_structural (idxText_chars rs c hc)).1
  have hl : ((if neg then ['~'] else []) ++ 'i' :: ':' :: idxText rs).getLast? ≠ some '\\' := by
    intro hh
    have := List.mem_of_getLast? hh
    simp only [List.mem_append, List.mem_cons] at this
    rcases this with hc | hc | hc | hc
    · cases neg <;> simp at hc
    · exact absurd hc (by decide)
    · exact absurd hc (by decide)
    · exact (digit_not_structural (idxText_chars rs _ hc)).1 (by decide)
  have hc := compile_bracket (V := V) X plus a hb hl
  have hm := mkFilter_index (V := V) X neg rs hrs
  have e : indexFilter neg rs = '[' :: (((if neg then ['~'] else []) ++ 'i' :: ':' :: idxText rs) ++ [']']) := rfl
  rw [← e, hm] at hc
  simp only at hc
  unfold findAll
  rw [hc, compile_axis]
  simp only [runPhrases, List.foldl_cons, List.foldl_nil, Phrase.findAll, Run.filter, Run.map]
  have h1 : ∀ ec : EIto, Phrase.combined (V := V) ⟨a, tautology, tautology⟩ (env, ec) = .ok true := fun _ => rfl
  have h2 : ∀ ec : EIto, Phrase.combined (V := V) ⟨a, (fun x => .ok (if neg then
      !decide (∃ r ∈ rs, r.Has x.2.1) else decide (∃ r ∈ rs, r.Has x.2.1))), tautology⟩ (env, ec) =
      .ok (decide ((∃ r ∈ rs, r.Has ec.1) ↔ neg = false)) := by
    intro ec
    by_cases hP : ∃ r ∈ rs, r.Has ec.1
    · cases neg <;> simp only [Phrase.combined, tautology, hP, decide_true, if_true, Bool.not_true] <;> rfl
    · cases neg <;> simp only [Phrase.combined, tautology, hP, decide_false, if_true, Bool.not_false] <;> rfl
  simp only [h1, h2, filterList_ok]
  have hn := findRun_numbered a env.tree x
  generalize Axis.findRun a env.tree ⟨[x], none⟩ = R at hn ⊢
  have ht : R.out.filter (fun _ => true) = R.out := by simp
  rw [ht]
  have hp := pick_enum (fun k => (∃ r ∈ rs, r.Has k) ↔ neg = false) (R.out.map Prod.snd)
  rw [← hp, ← hn]

/-- A root (0,3) with children (0,1), (1,2), (2,3) on `"abc"`, for examples. -/
def demoEnv : Env Nat :=
  ⟨.mk ⟨0, 3⟩ none none [.mk ⟨0, 1⟩ none none [], .mk ⟨1, 2⟩ none none [], .mk ⟨2, 3⟩ none none []],
    ['a', 'b', 'c'], fun _ => .ok 0, none, none⟩

/-- External functions for examples (ASCII text). -/
def demoExt : Ext := ⟨id, fun _ => true⟩

example : (findAll demoExt demoEnv ['*', '[', 'i', ':', '0', ',', '2', '-', ']'] []) = ⟨[[0], [2]], none⟩ := by
  have := C40_index_filter demoExt demoEnv false false ⟨.children, false, .no⟩ [.one 0, .from 2] (by simp) []
  have e : axisText false ⟨.children, false, .no⟩ ++ indexFilter false [.one 0, .from 2] =
    ['*', '[', 'i', ':', '0', ',', '2', '-', ']'] := by decide
  have h : findAll demoExt demoEnv (axisText false ⟨.children, false, .no⟩) [] = ⟨[[0], [1], [2]], none⟩ := by
    rfl
  rw [e, h] at this
  exact this

end Pawpaw.Props
