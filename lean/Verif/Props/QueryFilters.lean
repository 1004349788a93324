import Verif.Props.QueryValue
import Verif.Props.Index
/-!
# C73: the other string filters; C74: predicate and value filters
-/
set_option linter.unusedSectionVars false
namespace Pawpaw.Props
open Pawpaw Pawpaw.Query Pawpaw.Util Pawpaw.Ecf QuerySpec UtilSpec TreeSpec PyStr
variable {V : Type} [DecidableEq V]

/-- `[key:v1,v2,…]`, or with `neg` `[~key:…]`, for a key of any length. -/
def keyedFilter (neg : Bool) (key : String) (vs : List (List Char)) : List Char :=
  '[' :: (((if neg then ['~'] else []) ++ (key.toList ++ ':' :: valuesText vs)) ++ [']'])

/-- The text of the node at `p`. -/
def nodeText (env : Env V) (p : Path) : List Char :=
  match env.tree.get? p with
  | some n => (n.flat env.string).text
  | none => []

theorem ctx_text (env : Env V) (i : Nat) (p : Path) : (Ctx.ito (V := V) (env, (i, p))).text = nodeText env p := by
  unfold Ctx.ito nodeText
  cases h : env.tree.get? p with
  | some n => rfl
  | none =>
    show slice env.string (some 0) (some 0) = []
    have := slice_nat env.string 0 0
    simpa using this

/-- The keys of the filters. -/
def filterKeys : List String :=
  ["desc", "d", "string", "s", "str-casefold", "scf", "lcs", "str-casefold-ew", "scfew", "lcsew",
    "str-casefold-sw", "scfsw", "lcssw", "str-ew", "sew", "str-sw", "ssw", "index", "i", "predicate", "p",
    "value", "v"]

theorem filterKeys_ok : ∀ k ∈ filterKeys, k.toList ≠ [] ∧ (∀ c ∈ k.toList, isKeyChar c = true) ∧
    ∀ c ∈ k.toList, c ∉ structuralChars := by decide

theorem mkFilter_keyed (X : Ext) (neg : Bool) (key : String) (hk : key ∈ filterKeys) (vs : List (List Char))
    (hw : Writable vs) :
    (mkFilter X (keyedFilter neg key vs) : Except PyErr (Filter (Ctx V))) =
      filterFunc X neg key.toList (valuesText vs) := by
  obtain ⟨h1, h2, _⟩ := hw
  obtain ⟨k1, k2, _⟩ := filterKeys_ok key hk
  cases vs with
  | nil => exact absurd rfl h1
  | cons v vs =>
    obtain ⟨h3, h4⟩ := h2 v rfl
    obtain ⟨c, t, e, hc⟩ := valuesText_head v vs h3
    have hs : reSpace c = false := by
      rcases hc with hc | hc
      · rw [hc]; decide
      · exact h4 c hc
    have := parseBracket_text neg key.toList (valuesText (v :: vs)) k1 k2 (by rw [e]; simp)
      (by rw [e, List.dropWhile_cons_of_neg (by simp [hs])])
    unfold mkFilter keyedFilter
    rw [List.cons_append] at this
    rw [this]

theorem lit_keyed (neg : Bool) (key : String) (hk : key ∈ filterKeys) (vs : List (List Char)) :
    Lit ((if neg then ['~'] else []) ++ (key.toList ++ ':' :: valuesText vs)) := by
  obtain ⟨_, _, k3⟩ := filterKeys_ok key hk
  have h2 : Lit (key.toList ++ ':' :: valuesText vs) :=
    (lit_of_plain _ k3).append (.plain ':' _ (by decide) (lit_valuesText vs))
  cases neg with
  | false => exact h2
  | true => exact .plain '~' _ (by decide) h2

theorem last_keyed (neg : Bool) (key : String) (vs : List (List Char)) (hw : Writable vs) :
    ((if neg then ['~'] else []) ++ (key.toList ++ ':' :: valuesText vs)).getLast? ≠ some '\\' := by
  have := valuesText_last vs hw.1 hw.2.2
  rw [List.getLast?_append, List.getLast?_append, List.getLast?_cons]
  cases hl : (valuesText vs).getLast? with
  | none => simp
  | some c => rw [hl] at this; simpa using this

/-! ## Asking every value in turn -/

theorem anyList_values (f : List Char → Bool) : ∀ vs : List (List Char),
    Run.anyList (fun s => match descape s with
      | .error e => .error e
      | .ok d => .ok (f d)) none (vs.map escape) = .ok (vs.any f)
  | [] => rfl
  | v :: vs => by
    rw [List.map_cons, Run.anyList, C41_descape_escape, anyList_values f vs]
    simp only [List.any_cons]
    cases f v <;> rfl

theorem fAny_values (neg : Bool) (vs : List (List Char)) (hne : vs ≠ []) (f : List Char → Except PyErr Bool)
    (g : List Char → Bool) (hf : ∀ v, f v = .ok (g v)) :
    fAny neg (valuesText vs) f = .ok (if neg then !vs.any g else vs.any g) := by
  cases vs with
  | nil => exact absurd rfl hne
  | cons v vs =>
    obtain ⟨h1, h2, _⟩ := C41_join_split v vs
    have hf' : f = fun v => .ok (g v) := funext hf
    unfold fAny chunks Run.map
    simp only [valuesText] at *
    rw [h1, h2, hf']
    exact congrArg (notIf neg) (anyList_values g (v :: vs))

/-! ## Affixes -/

theorem startsWith_prefix (s t : List Char) : startsWith s t = decide (t <+: s) := by
  unfold startsWith PyStr.startswithAny PyStr.startswith okAt occursAt
  simp only [List.any_cons, List.any_nil, Bool.or_false, adjStart, adjEnd, Int.toNat_zero, List.drop_zero]
  rw [Bool.eq_iff_iff]
  simp only [Bool.and_eq_true, decide_eq_true_eq, beq_iff_eq]
  constructor
  · rintro ⟨_, h⟩
    refine ⟨s.drop t.length, ?_⟩
    have := List.take_append_drop t.length s
    rw [h] at this
    exact this
  · rintro ⟨r, rfl⟩
    simp
    omega

theorem endsWith_suffix (s t : List Char) : endsWith s t = decide (t <:+ s) := by
  unfold endsWith PyStr.endswithAny PyStr.endswith okAt occursAt
  simp only [List.any_cons, List.any_nil, Bool.or_false, adjStart, adjEnd]
  rw [Bool.eq_iff_iff]
  simp only [Bool.and_eq_true, decide_eq_true_eq, beq_iff_eq]
  constructor
  · rintro ⟨h1, ⟨_, _⟩, h⟩
    refine ⟨s.take (s.length - t.length), ?_⟩
    have e : ((s.length : Int) - t.length).toNat = s.length - t.length := by omega
    rw [e, List.take_of_length_le (by simp; omega)] at h
    have := List.take_append_drop (s.length - t.length) s
    rw [h] at this
    exact this
  · rintro ⟨r, rfl⟩
    have e : (((r ++ t).length : Int) - t.length).toNat = r.length := by simp
    refine ⟨?_, ⟨?_, ?_⟩, ?_⟩
    · simp
    · exact decide_eq_true (Int.natCast_nonneg _)
    · apply decide_eq_true
      have e2 : ((((r ++ t).length : Int) - t.length).toNat : Int) = r.length := congrArg _ e
      have e3 : ((r ++ t).length : Int) = r.length + t.length := by simp
      have e4 : ((((r ++ t).length : Int) - t.length).toNat : Int) + t.length ≤ ((r ++ t).length : Int) := by omega
      exact e4
    · rw [e]; simp

theorem ctx_valid (env : Env V) (hv : ∀ p n, env.tree.get? p = some n → (n.flat env.string).Valid) (x : EIto) :
    (Ctx.ito (V := V) (env, x)).Valid := by
  unfold Ctx.ito
  cases h : env.tree.get? x.2 with
  | some n => exact hv _ n h
  | none => exact ⟨by simp, by simp, by simp⟩

theorem neg_iff (neg b : Bool) (P : Prop) [Decidable P] (h : b = decide P) :
    (if neg then !b else b) = decide (P ↔ neg = false) := by
  subst h
  by_cases hP : P <;> cases neg <;> simp [hP]

/-- Every filter with one of the keys `keys` keeps what satisfies `P`, given what its function computes. -/
theorem findAll_keyed (X : Ext) (env : Env V) (plus neg : Bool) (a : Axis) (key : String) (hk : key ∈ filterKeys)
    (vs : List (List Char)) (hw : Writable vs) (P : Path → Prop) [DecidablePred P]
    (hf : ∃ f : Filter (Ctx V), (filterFunc X neg key.toList (valuesText vs)) = .ok f ∧
      ∀ i p, f (env, (i, p)) = .ok (decide (P p ↔ neg = false))) (x : Path) :
    findAll X env (axisText plus a ++ keyedFilter neg key vs) x =
      ⟨(findAll X env (axisText plus a) x).out.filter (fun p => decide (P p ↔ neg = false)),
        (findAll X env (axisText plus a) x).exc⟩ := by
  obtain ⟨f, hf1, hf2⟩ := hf
  have hm := mkFilter_keyed (V := V) X neg key hk vs hw
  rw [hf1] at hm
  unfold keyedFilter at hm ⊢
  unfold findAll
  rw [compile_bracket X plus a (lit_keyed neg key hk vs) (last_keyed neg key vs hw), hm, compile_axis]
  simp only [runPhrases, List.foldl_cons, List.foldl_nil, Phrase.findAll, Run.filter, Run.map]
  have h1 : ∀ ec : EIto, Phrase.combined (V := V) ⟨a, tautology, tautology⟩ (env, ec) = .ok true := fun _ => rfl
  have h2 : ∀ ec : EIto, Phrase.combined (V := V) ⟨a, f, tautology⟩ (env, ec) =
      .ok (decide (P ec.2 ↔ neg = false)) := by
    intro ec
    simp only [Phrase.combined]
    rw [show (env, ec) = (env, (ec.1, ec.2)) from rfl, hf2]
    cases h : decide (P ec.2 ↔ neg = false) <;> rfl
  simp only [h1, h2, filterList_ok]
  rw [show (List.filter (fun _ : EIto => true) (Axis.findRun a env.tree ⟨[x], none⟩).out) =
    (Axis.findRun a env.tree ⟨[x], none⟩).out from by simp]
  congr 1
  rw [List.filter_map]
  rfl

/-- C73: `[sew:…]` keeps exactly the nodes whose text ends with one of the values, `[~sew:…]` the others. -/
theorem C73_endswith (X : Ext) (env : Env V) (plus neg : Bool) (a : Axis) (key : String)
    (hk : key = "sew" ∨ key = "str-ew") (vs : List (List Char)) (hw : Writable vs)
    (hv : ∀ p n, env.tree.get? p = some n → (n.flat env.string).Valid) (x : Path) :
    findAll X env (axisText plus a ++ keyedFilter neg key vs) x =
      ⟨(findAll X env (axisText plus a) x).out.filter (fun p =>
          decide ((∃ v ∈ vs, v <:+ nodeText env p) ↔ neg = false)),
        (findAll X env (axisText plus a) x).exc⟩ := by
  refine findAll_keyed X env plus neg a key (by rcases hk with rfl | rfl <;> decide) vs hw
    (fun p => ∃ v ∈ vs, v <:+ nodeText env p) ?_ x
  refine ⟨fun x => fAny neg (valuesText vs) (fun s => x.ito.strEndswith [s] none none), ?_, ?_⟩
  · rcases hk with rfl | rfl <;> rfl
  · intro i p
    have := fAny_values neg vs hw.1 (fun s => (Ctx.ito (V := V) (env, (i, p))).strEndswith [s] none none)
      (fun v => decide (v <:+ nodeText env p)) (fun v => by
        rw [C06_str_endswith_partial _ (ctx_valid env hv (i, p)) [v] none none (Or.inr (by simp)), ctx_text]
        exact congrArg _ (endsWith_suffix _ _))
    simp only at this ⊢
    rw [this]
    congr 1
    exact neg_iff neg _ _ (by rw [Bool.eq_iff_iff]; simp)

/-- C73: `[ssw:…]` keeps exactly the nodes whose text starts with one of the values, `[~ssw:…]` the others. -/
theorem C73_startswith (X : Ext) (env : Env V) (plus neg : Bool) (a : Axis) (key : String)
    (hk : key = "ssw" ∨ key = "str-sw") (vs : List (List Char)) (hw : Writable vs)
    (hv : ∀ p n, env.tree.get? p = some n → (n.flat env.string).Valid) (x : Path) :
    findAll X env (axisText plus a ++ keyedFilter neg key vs) x =
      ⟨(findAll X env (axisText plus a) x).out.filter (fun p =>
          decide ((∃ v ∈ vs, v <+: nodeText env p) ↔ neg = false)),
        (findAll X env (axisText plus a) x).exc⟩ := by
  refine findAll_keyed X env plus neg a key (by rcases hk with rfl | rfl <;> decide) vs hw
    (fun p => ∃ v ∈ vs, v <+: nodeText env p) ?_ x
  refine ⟨fun x => fAny neg (valuesText vs) (fun s => x.ito.strStartswith [s] none none), ?_, ?_⟩
  · rcases hk with rfl | rfl <;> rfl
  · intro i p
    have := fAny_values neg vs hw.1 (fun s => (Ctx.ito (V := V) (env, (i, p))).strStartswith [s] none none)
      (fun v => decide (v <+: nodeText env p)) (fun v => by
        rw [C06_str_startswith_partial _ (ctx_valid env hv (i, p)) [v] none none (Or.inr (by simp)), ctx_text]
        exact congrArg _ (startsWith_prefix _ _))
    simp only at this ⊢
    rw [this]
    congr 1
    exact neg_iff neg _ _ (by rw [Bool.eq_iff_iff]; simp)

/-! ## Case folding -/

/-- What the theorems on case-insensitive filters assume of `str.casefold` (Unicode full case folding): it
folds character by character, leaves the seven characters the query language reserves alone, makes none of
them from another character, and folding twice is folding once. -/
structure Folds (X : Ext) : Prop where
  perChar : ∃ f : Char → List Char, (∀ s, X.casefold s = s.flatMap f) ∧
    (∀ c, escChar c ≠ [c] → f c = [c]) ∧ (∀ c, escChar c = [c] → ∀ d ∈ f c, escChar d = [d])
  idem : ∀ s, X.casefold (X.casefold s) = X.casefold s

theorem escape_flatMap (l : List Char) (h : ∀ d ∈ l, escChar d = [d]) : l.flatMap escChar = l := by
  induction l with
  | nil => rfl
  | cons c l ih => rw [List.flatMap_cons, h c (by simp), ih (fun d hd => h d (by simp [hd]))]; rfl

theorem fold_escape (X : Ext) (hX : Folds X) (v : List Char) : X.casefold (escape v) = escape (X.casefold v) := by
  obtain ⟨f, h1, h2, h3⟩ := hX.perChar
  rw [C41_escape_spec, C41_escape_spec, h1, h1, List.flatMap_assoc, List.flatMap_assoc]
  congr 1
  funext c
  by_cases h : escChar c = [c]
  · rw [h, escape_flatMap (f c) (h3 c h)]; simp
  · rw [h2 c h]
    have hb : f '\\' = ['\\'] := h2 '\\' (by decide)
    have : escChar c = ['\\', c] := by
      unfold escChar at h ⊢
      split
      · rfl
      · rename_i hh; rw [if_neg hh] at h; exact absurd rfl h
    rw [this]
    simp [hb, h2 c h, this]

theorem fold_append (X : Ext) (hX : Folds X) (u v : List Char) : X.casefold (u ++ v) = X.casefold u ++ X.casefold v := by
  obtain ⟨f, h1, _, _⟩ := hX.perChar
  rw [h1, h1, h1, List.flatMap_append]

theorem fold_comma (X : Ext) (hX : Folds X) : X.casefold [','] = [','] := by
  obtain ⟨f, h1, h2, _⟩ := hX.perChar
  rw [h1]
  simp [h2 ',' (by decide)]

theorem fold_nil (X : Ext) (hX : Folds X) : X.casefold [] = [] := by
  obtain ⟨f, h1, _, _⟩ := hX.perChar
  rw [h1]; rfl

theorem fold_values (X : Ext) (hX : Folds X) : ∀ vs : List (List Char),
    X.casefold (valuesText vs) = valuesText (vs.map X.casefold)
  | [] => fold_nil X hX
  | [v] => by simpa [valuesText, List.intercalate] using fold_escape X hX v
  | v :: w :: vs => by
    have e : ∀ a b l, valuesText (a :: b :: l) = escape a ++ ([','] ++ valuesText (b :: l)) := by
      intro a b l; simp [valuesText, List.intercalate]
    have ih := fold_values X hX (w :: vs)
    simp only [List.map_cons] at ih ⊢
    rw [e, e, fold_append X hX, fold_append X hX, fold_comma X hX, fold_escape X hX, ih]

/-- C73: `[scf:…]` keeps exactly the nodes whose case-folded text is that of one of the values. -/
theorem C73_casefold (X : Ext) (hX : Folds X) (env : Env V) (plus neg : Bool) (a : Axis) (key : String)
    (hk : key = "scf" ∨ key = "lcs" ∨ key = "str-casefold") (vs : List (List Char)) (hw : Writable vs) (x : Path) :
    findAll X env (axisText plus a ++ keyedFilter neg key vs) x =
      ⟨(findAll X env (axisText plus a) x).out.filter (fun p =>
          decide ((∃ v ∈ vs, X.casefold v = X.casefold (nodeText env p)) ↔ neg = false)),
        (findAll X env (axisText plus a) x).exc⟩ := by
  refine findAll_keyed X env plus neg a key (by rcases hk with rfl | rfl | rfl <;> decide) vs hw
    (fun p => ∃ v ∈ vs, X.casefold v = X.casefold (nodeText env p)) ?_ x
  refine ⟨fCasefold X neg (valuesText vs), ?_, ?_⟩
  · rcases hk with rfl | rfl | rfl <;> rfl
  · intro i p
    unfold fCasefold
    rw [fold_values X hX]
    cases vs with
    | nil => exact absurd rfl hw.1
    | cons v vs =>
      rw [List.map_cons, listed_values, ctx_text]
      simp only [notIf]
      congr 1
      apply neg_iff
      rw [Bool.eq_iff_iff]
      simp only [decide_eq_true_eq, List.map_cons, List.map_map, List.mem_cons, List.mem_map, Function.comp,
        hX.idem]
      constructor
      · rintro (h | ⟨w, hw, h⟩)
        · exact ⟨v, Or.inl rfl, h.symm⟩
        · exact ⟨w, Or.inr hw, h⟩
      · rintro ⟨w, hw | hw, h⟩
        · left; rw [← h, hw]
        · exact Or.inr ⟨w, hw, h⟩

/-- C73: `[scfew:…]` and `[scfsw:…]`: the same with ends-with and starts-with. -/
theorem C73_casefold_affix (X : Ext) (hX : Folds X) (env : Env V) (plus neg : Bool) (a : Axis)
    (vs : List (List Char)) (hw : Writable vs) (x : Path) :
    (∀ key, key = "scfew" ∨ key = "lcsew" ∨ key = "str-casefold-ew" →
      findAll X env (axisText plus a ++ keyedFilter neg key vs) x =
      ⟨(findAll X env (axisText plus a) x).out.filter (fun p =>
          decide ((∃ v ∈ vs, X.casefold v <:+ X.casefold (nodeText env p)) ↔ neg = false)),
        (findAll X env (axisText plus a) x).exc⟩) ∧
    (∀ key, key = "scfsw" ∨ key = "lcssw" ∨ key = "str-casefold-sw" →
      findAll X env (axisText plus a ++ keyedFilter neg key vs) x =
      ⟨(findAll X env (axisText plus a) x).out.filter (fun p =>
          decide ((∃ v ∈ vs, X.casefold v <+: X.casefold (nodeText env p)) ↔ neg = false)),
        (findAll X env (axisText plus a) x).exc⟩) := by
  have hne : vs.map X.casefold ≠ [] := by simp [hw.1]
  constructor
  · intro key hk
    refine findAll_keyed X env plus neg a key (by rcases hk with rfl | rfl | rfl <;> decide) vs hw
      (fun p => ∃ v ∈ vs, X.casefold v <:+ X.casefold (nodeText env p)) ?_ x
    refine ⟨fun x => fAny neg (X.casefold (valuesText vs))
      (fun s => .ok (endsWith (X.casefold x.ito.text) (X.casefold s))), ?_, ?_⟩
    · rcases hk with rfl | rfl | rfl <;> rfl
    · intro i p
      simp only
      rw [fold_values X hX, fAny_values neg _ hne _ (fun v => decide (X.casefold v <:+ X.casefold (nodeText env p)))
        (fun v => by rw [endsWith_suffix, ctx_text])]
      congr 1
      apply neg_iff
      rw [Bool.eq_iff_iff]
      simp [hX.idem]
  · intro key hk
    refine findAll_keyed X env plus neg a key (by rcases hk with rfl | rfl | rfl <;> decide) vs hw
      (fun p => ∃ v ∈ vs, X.casefold v <+: X.casefold (nodeText env p)) ?_ x
    refine ⟨fun x => fAny neg (X.casefold (valuesText vs))
      (fun s => .ok (startsWith (X.casefold x.ito.text) (X.casefold s))), ?_, ?_⟩
    · rcases hk with rfl | rfl | rfl <;> rfl
    · intro i p
      simp only
      rw [fold_values X hX, fAny_values neg _ hne _ (fun v => decide (X.casefold v <+: X.casefold (nodeText env p)))
        (fun v => by rw [startsWith_prefix, ctx_text])]
      congr 1
      apply neg_iff
      rw [Bool.eq_iff_iff]
      simp [hX.idem]

/-- C73: every key of the documented table selects the filter it stands for: the long and the short names
are the same filter. -/
theorem C73_synonyms (X : Ext) (neg : Bool) (v : List Char) :
    (∀ k ∈ ["d"], (filterFunc X neg k.toList v : Except PyErr (Filter (Ctx V))) = filterFunc X neg "desc".toList v) ∧
    (∀ k ∈ ["s"], (filterFunc X neg k.toList v : Except PyErr (Filter (Ctx V))) = filterFunc X neg "string".toList v) ∧
    (∀ k ∈ ["i"], (filterFunc X neg k.toList v : Except PyErr (Filter (Ctx V))) = filterFunc X neg "index".toList v) ∧
    (∀ k ∈ ["p"], (filterFunc X neg k.toList v : Except PyErr (Filter (Ctx V))) = filterFunc X neg "predicate".toList v) ∧
    (∀ k ∈ ["v"], (filterFunc X neg k.toList v : Except PyErr (Filter (Ctx V))) = filterFunc X neg "value".toList v) := by
  refine ⟨?_, ?_, ?_, ?_, ?_⟩ <;> intro k hk <;> simp only [List.mem_singleton] at hk <;> subst hk <;> rfl

/-- C73: a key outside the table is refused; the name `str` that the table's own heading suggests is one. -/
theorem C73_unknown_key (X : Ext) (neg : Bool) (k v : List Char) (h : String.ofList k ∉ filterKeys) :
    (filterFunc X neg k v : Except PyErr (Filter (Ctx V))) = .error .valueError := by
  simp only [filterKeys, List.mem_cons, List.not_mem_nil, or_false, not_or] at h
  obtain ⟨h1, h2, h3, h4, h5, h6, h7, h8, h9, h10, h11, h12, h13, h14, h15, h16, h17, h18, h19, h20, h21, h22,
    h23⟩ := h
  unfold filterFunc
  simp [*]

/-! ## Predicates and values -/

theorem zip_enum (l : List Path) : (List.range l.length).zip l = enumFrom 0 l := by
  rw [List.range_eq_range']
  generalize 0 = e
  induction l generalizing e with
  | nil => rfl
  | cons p l ih => rw [List.length_cons, List.range'_succ, List.zip_cons_cons, enumFrom, ih]

/-- A filter asks its function about every enumerated result of the axis. -/
theorem findAll_asks (X : Ext) (env : Env V) (plus neg : Bool) (a : Axis) (key : String) (hk : key ∈ filterKeys)
    (vs : List (List Char)) (hw : Writable vs) (f : Filter (Ctx V))
    (hf : filterFunc X neg key.toList (valuesText vs) = .ok f) (x : Path) :
    findAll X env (axisText plus a ++ keyedFilter neg key vs) x =
      (Run.filterList (fun ec => f (env, ec)) (findAll X env (axisText plus a) x).exc
        ((List.range (findAll X env (axisText plus a) x).out.length).zip
          (findAll X env (axisText plus a) x).out)).map Prod.snd := by
  have hm := mkFilter_keyed (V := V) X neg key hk vs hw
  rw [hf] at hm
  unfold keyedFilter at hm ⊢
  rw [zip_enum]
  unfold findAll
  rw [compile_bracket X plus a (lit_keyed neg key hk vs) (last_keyed neg key vs hw), hm, compile_axis]
  simp only [runPhrases, List.foldl_cons, List.foldl_nil, Phrase.findAll, Run.filter]
  have h1 : ∀ ec : EIto, Phrase.combined (V := V) ⟨a, tautology, tautology⟩ (env, ec) = .ok true := fun _ => rfl
  have h2 : ∀ ec : EIto, Phrase.combined (V := V) ⟨a, f, tautology⟩ (env, ec) = f (env, ec) := by
    intro ec
    simp only [Phrase.combined]
    cases f (env, ec) with
    | error e => rfl
    | ok b => cases b <;> rfl
  simp only [h1, h2, filterList_ok, Run.map]
  rw [show (List.filter (fun _ : EIto => true) (Axis.findRun a env.tree ⟨[x], none⟩).out) =
    (Axis.findRun a env.tree ⟨[x], none⟩).out from by simp, ← findRun_numbered a env.tree x]

theorem allM_ok {τ : Type} (f : τ → Except PyErr Bool) (g : τ → Bool) (l : List τ) (h : ∀ t ∈ l, f t = .ok (g t)) :
    allM f l = .ok (l.all g) := by
  induction l with
  | nil => rfl
  | cons t l ih =>
    rw [allM, h t (by simp), ih (fun u hu => h u (by simp [hu])), List.all_cons]
    cases g t <;> rfl

theorem filterFunc_predicate (X : Ext) (neg : Bool) (key : String) (hk : key = "p" ∨ key = "predicate")
    (vs : List (List Char)) (hw : Writable vs) :
    (filterFunc X neg key.toList (valuesText vs) : Except PyErr (Filter (Ctx V))) = .ok (fun x =>
      match x.1.predicates with
      | none => .error .valueError
      | some ps => allM (fun p => notIf neg (p.2 x.2)) (ps.filter (fun p => decide (p.1 ∈ vs)))) := by
  have hl : listed (valuesText vs) = .ok vs := by
    cases vs with
    | nil => exact absurd rfl hw.1
    | cons v vs => exact listed_values v vs
  have : (match listed (valuesText vs) with
    | .error e => .error e
    | .ok keys => .ok (fun (x : Ctx V) =>
      match x.1.predicates with
      | none => .error .valueError
      | some ps => allM (fun p => notIf neg (p.2 x.2)) (ps.filter (fun p => decide (p.1 ∈ keys)))) :
      Except PyErr (Filter (Ctx V))) = .ok (fun (x : Ctx V) =>
      match x.1.predicates with
      | none => .error .valueError
      | some ps => allM (fun p => notIf neg (p.2 x.2)) (ps.filter (fun p => decide (p.1 ∈ vs)))) := by
    rw [hl]
  rcases hk with rfl | rfl <;> exact this

theorem filterFunc_value (X : Ext) (neg : Bool) (key : String) (hk : key = "v" ∨ key = "value")
    (vs : List (List Char)) (hw : Writable vs) :
    (filterFunc X neg key.toList (valuesText vs) : Except PyErr (Filter (Ctx V))) = .ok (fun x =>
      match x.1.value x.2.2 with
      | .error e => .error e
      | .ok v =>
        match x.1.values with
        | none => .error .valueError
        | some ps => notIf neg (.ok (decide (v ∈ (ps.filter (fun p => decide (p.1 ∈ vs))).map Prod.snd)))) := by
  have hl : listed (valuesText vs) = .ok vs := by
    cases vs with
    | nil => exact absurd rfl hw.1
    | cons v vs => exact listed_values v vs
  have : (match listed (valuesText vs) with
    | .error e => .error e
    | .ok keys => .ok (fun (x : Ctx V) =>
      match x.1.value x.2.2 with
      | .error e => .error e
      | .ok v =>
        match x.1.values with
        | none => .error .valueError
        | some ps => notIf neg (.ok (decide (v ∈ (ps.filter (fun p => decide (p.1 ∈ keys))).map Prod.snd)))) :
      Except PyErr (Filter (Ctx V))) = .ok (fun (x : Ctx V) =>
      match x.1.value x.2.2 with
      | .error e => .error e
      | .ok v =>
        match x.1.values with
        | none => .error .valueError
        | some ps => notIf neg (.ok (decide (v ∈ (ps.filter (fun p => decide (p.1 ∈ vs))).map Prod.snd)))) := by
    rw [hl]
  rcases hk with rfl | rfl <;> exact this

/-- C74: `[p:k1,k2,…]` keeps exactly the enumerated results for which every predicate that is passed under
one of the keys answers true (with `[~p:…]`: answers false); keys that name no predicate do not count. -/
theorem C74_predicate_filter (X : Ext) (env : Env V) (plus neg : Bool) (a : Axis) (key : String)
    (hk : key = "p" ∨ key = "predicate") (vs : List (List Char)) (hw : Writable vs)
    (ps : List (List Char × (EIto → Bool)))
    (hps : env.predicates = some (ps.map (fun q => (q.1, fun ec => .ok (q.2 ec))))) (x : Path) :
    findAll X env (axisText plus a ++ keyedFilter neg key vs) x =
      ⟨(((List.range (findAll X env (axisText plus a) x).out.length).zip
          (findAll X env (axisText plus a) x).out).filter
            (fun ec => decide (∀ q ∈ ps, q.1 ∈ vs → q.2 ec = !neg))).map Prod.snd,
        (findAll X env (axisText plus a) x).exc⟩ := by
  rw [findAll_asks X env plus neg a key (by rcases hk with rfl | rfl <;> decide) vs hw _
    (filterFunc_predicate X neg key hk vs hw) x]
  simp only [hps]
  have key : ∀ ec : EIto, allM (fun p : List Char × (EIto → Except PyErr Bool) => notIf neg (p.2 ec))
      ((ps.map (fun q => (q.1, fun ec => .ok (q.2 ec)))).filter (fun p => decide (p.1 ∈ vs))) =
      .ok (decide (∀ q ∈ ps, q.1 ∈ vs → q.2 ec = !neg)) := by
    intro ec
    rw [List.filter_map]
    have : ∀ (l : List (List Char × (EIto → Bool))),
        allM (fun p : List Char × (EIto → Except PyErr Bool) => notIf neg (p.2 ec))
          (l.map (fun q => (q.1, fun ec => .ok (q.2 ec)))) = .ok (l.all (fun q => q.2 ec == !neg)) := by
      intro l
      induction l with
      | nil => rfl
      | cons q l ih =>
        rw [List.map_cons, allM, ih, List.all_cons]
        simp only [notIf]
        cases q.2 ec <;> cases neg <;> rfl
    rw [this]
    congr 1
    rw [Bool.eq_iff_iff]
    simp only [List.all_filter, List.all_eq_true, decide_eq_true_eq, Function.comp, Bool.or_eq_true,
      Bool.not_eq_true', decide_eq_false_iff_not, beq_iff_eq]
    constructor
    · intro h q hq hv
      exact (h q hq).resolve_left (fun hh => hh hv)
    · intro h q hq
      by_cases hv : q.1 ∈ vs
      · exact Or.inr (h q hq hv)
      · exact Or.inl hv
  simp only [key, filterList_ok, Run.map]

/-- C74: `[v:k1,k2,…]` keeps exactly the nodes whose `value()` equals a value passed under one of the keys. -/
theorem C74_value_filter (X : Ext) (env : Env V) (plus neg : Bool) (a : Axis) (key : String)
    (hk : key = "v" ∨ key = "value") (vs : List (List Char)) (hw : Writable vs)
    (ps : List (List Char × V)) (hps : env.values = some ps) (val : Path → V) (hval : ∀ p, env.value p = .ok (val p))
    (x : Path) :
    findAll X env (axisText plus a ++ keyedFilter neg key vs) x =
      ⟨(findAll X env (axisText plus a) x).out.filter (fun p =>
          decide ((∃ q ∈ ps, q.1 ∈ vs ∧ q.2 = val p) ↔ neg = false)),
        (findAll X env (axisText plus a) x).exc⟩ := by
  refine findAll_keyed X env plus neg a key (by rcases hk with rfl | rfl <;> decide) vs hw
    (fun p => ∃ q ∈ ps, q.1 ∈ vs ∧ q.2 = val p) ?_ x
  refine ⟨_, filterFunc_value X neg key hk vs hw, ?_⟩
  · intro i p
    simp only [hval, hps, notIf]
    congr 1
    apply neg_iff
    rw [Bool.eq_iff_iff]
    simp only [decide_eq_true_eq, List.mem_map, List.mem_filter]
    constructor
    · rintro ⟨q, ⟨h1, h2⟩, h3⟩; exact ⟨q, h1, h2, h3⟩
    · rintro ⟨q, h1, h2, h3⟩; exact ⟨q, ⟨h1, h2⟩, h3⟩

/-- C74: without predicates (values) such a filter is a `ValueError` as soon as the axis finds something. -/
theorem C74_missing_arguments (X : Ext) (env : Env V) (plus neg : Bool) (a : Axis) (vs : List (List Char))
    (hw : Writable vs) (x y : Path) (hy : (findAll X env (axisText plus a) x).out.head? = some y) :
    (env.predicates = none → ∀ key, key = "p" ∨ key = "predicate" →
      findAll X env (axisText plus a ++ keyedFilter neg key vs) x = .raise .valueError) ∧
    (env.values = none → (∃ v, env.value y = .ok v) → ∀ key, key = "v" ∨ key = "value" →
      findAll X env (axisText plus a ++ keyedFilter neg key vs) x = .raise .valueError) := by
  constructor
  · intro hn key hk
    rw [findAll_asks X env plus neg a key (by rcases hk with rfl | rfl <;> decide) vs hw _
      (filterFunc_predicate X neg key hk vs hw) x, zip_enum]
    generalize findAll X env (axisText plus a) x = R at hy
    obtain ⟨out, exc⟩ := R
    cases out with
    | nil => simp at hy
    | cons p out => simp only [enumFrom, Run.filterList, hn]; rfl
  · intro hn ⟨v, hv⟩ key hk
    rw [findAll_asks X env plus neg a key (by rcases hk with rfl | rfl <;> decide) vs hw _
      (filterFunc_value X neg key hk vs hw) x, zip_enum]
    generalize findAll X env (axisText plus a) x = R at hy
    obtain ⟨out, exc⟩ := R
    cases out with
    | nil => simp at hy
    | cons p out =>
      simp only [List.head?_cons, Option.some.injEq] at hy
      subst hy
      simp only [enumFrom, Run.filterList, hv, hn]; rfl

/-! ## Non-vacuity -/

/-- A case folding for examples: `A` to `a`. -/
def foldExt : Ext := ⟨fun s => s.flatMap (fun c => if c = 'A' then ['a'] else [c]), fun _ => true⟩

theorem foldExt_folds : Folds foldExt := by
  refine ⟨⟨fun c => if c = 'A' then ['a'] else [c], fun _ => rfl, ?_, ?_⟩, ?_⟩
  · intro c hc
    simp only
    split
    · rename_i h; subst h; exact absurd rfl hc
    · rfl
  · intro c hc d hd
    simp only at hd
    split at hd
    · simp only [List.mem_singleton] at hd; subst hd; decide
    · simp only [List.mem_singleton] at hd; subst hd; exact hc
  · intro s
    show (s.flatMap _).flatMap _ = s.flatMap _
    rw [List.flatMap_assoc]
    congr 1
    funext c
    by_cases h : c = 'A'
    · subst h; decide
    · simp [h]

/-- `demoEnv` with a predicate `even` (of the position) and a value `one`. -/
def demoEnv2 : Env Nat :=
  { demoEnv with
    string := ['A', 'b', 'c'], value := fun p => .ok p.length
    values := some [(['o'], 1), (['z'], 0)]
    predicates := some ([(['e'], fun ec : EIto => ec.1 % 2 == 0), (['f'], fun _ => false)].map
      (fun q => (q.1, fun ec => .ok (q.2 ec)))) }

theorem writable_one (c : Char) (h : reSpace c = false) (h2 : c ≠ '\\') : Writable [[c]] := by
  refine ⟨by simp, ?_, ?_⟩
  · intro v hv; simp at hv; subst hv; exact ⟨by simp, by intro d hd; simp at hd; subst hd; exact h⟩
  · intro v hv; simp at hv; subst hv; simpa using h2

theorem demoEnv2_valid : ∀ p n, demoEnv2.tree.get? p = some n → (n.flat demoEnv2.string).Valid := by
  have hV : ∀ (s : Span) d v ks, 0 ≤ s.start → s.start ≤ s.stop → s.stop ≤ 3 →
      ((Node.mk s d v ks).flat demoEnv2.string).Valid := fun s d v ks h1 h2 h3 => ⟨h1, h2, h3⟩
  have leaf : ∀ (s : Span) (p : Path) n, (Node.mk s none none []).get? p = some n → n = .mk s none none [] := by
    intro s p n h
    cases p with
    | nil => rw [Node.get?] at h; exact (Option.some.inj h).symm
    | cons i p => simp [Node.get?] at h
  intro p n h
  have h' : (Node.mk ⟨0, 3⟩ none none [.mk ⟨0, 1⟩ none none [], .mk ⟨1, 2⟩ none none [],
    .mk ⟨2, 3⟩ none none []]).get? p = some n := h
  cases p with
  | nil =>
    rw [Node.get?] at h'
    rw [← Option.some.inj h']
    exact hV _ _ _ _ (by decide) (by decide) (by decide)
  | cons i p =>
    rcases i with _ | _ | _ | i
    · rw [leaf ⟨0, 1⟩ p n (by simpa [Node.get?, Node.kids] using h')]
      exact hV _ _ _ _ (by decide) (by decide) (by decide)
    · rw [leaf ⟨1, 2⟩ p n (by simpa [Node.get?, Node.kids] using h')]
      exact hV _ _ _ _ (by decide) (by decide) (by decide)
    · rw [leaf ⟨2, 3⟩ p n (by simpa [Node.get?, Node.kids] using h')]
      exact hV _ _ _ _ (by decide) (by decide) (by decide)
    · simp [Node.get?] at h'

example : findAll demoExt demoEnv2 (['*'] ++ keyedFilter true "sew" [['b']]) [] = ⟨[[0], [2]], none⟩ ∧
    findAll foldExt demoEnv2 (['*'] ++ keyedFilter false "scfsw" [['a']]) [] = ⟨[[0]], none⟩ ∧
    findAll demoExt demoEnv2 (['*'] ++ keyedFilter false "p" [['e']]) [] = ⟨[[0], [2]], none⟩ ∧
    findAll demoExt demoEnv2 (['*'] ++ keyedFilter true "v" [['z']]) [] = ⟨[[0], [1], [2]], none⟩ := by
  have ax : (['*'] : List Char) = axisText false ⟨.children, false, .no⟩ := rfl
  refine ⟨?_, ?_, ?_, ?_⟩ <;> rw [ax]
  · rw [C73_endswith demoExt demoEnv2 false true ⟨.children, false, .no⟩ "sew" (Or.inl rfl) [['b']]
      (writable_one 'b' (by decide) (by decide)) demoEnv2_valid []]
    decide
  · rw [(C73_casefold_affix foldExt foldExt_folds demoEnv2 false false ⟨.children, false, .no⟩ [['a']]
      (writable_one 'a' (by decide) (by decide)) []).2 "scfsw" (Or.inl rfl)]
    decide
  · rw [C74_predicate_filter demoExt demoEnv2 false false ⟨.children, false, .no⟩ "p" (Or.inl rfl) [['e']]
      (writable_one 'e' (by decide) (by decide)) [(['e'], fun ec : EIto => ec.1 % 2 == 0), (['f'], fun _ => false)]
      rfl []]
    decide
  · rw [C74_value_filter demoExt demoEnv2 false true ⟨.children, false, .no⟩ "v" (Or.inl rfl) [['z']]
      (writable_one 'z' (by decide) (by decide)) [(['o'], 1), (['z'], 0)] rfl (fun p => p.length) (fun _ => rfl) []]
    decide

/-- C74: a key that names no predicate lets everything pass. -/
theorem C74_unknown_predicate_passes :
    findAll demoExt demoEnv2 (['*'] ++ keyedFilter false "p" [['x']]) [] = ⟨[[0], [1], [2]], none⟩ := by decide

end Pawpaw.Props
