import Verif.Props.QueryCompose
/-!
# C66: desc and string filters; C67: what a query text can raise
-/
set_option linter.unusedSectionVars false
namespace Pawpaw.Props
open Pawpaw Pawpaw.Query Pawpaw.Util Pawpaw.Ecf QuerySpec UtilSpec TreeSpec PyStr
variable {V : Type} [DecidableEq V]

/-- A list of values, each escaped, as a filter takes it. -/
def valuesText (vs : List (List Char)) : List Char := [','].intercalate (vs.map escape)

/-- `[key:v1,v2,…]`, or with `neg` `[~key:…]`. -/
def valueFilter (neg : Bool) (key : Char) (vs : List (List Char)) : List Char :=
  '[' :: ((if neg then ['~'] else []) ++ ([key] ++ ':' :: valuesText vs)) ++ [']']

theorem descapeAll_ok (vs : List (List Char)) : descapeAll (vs.map escape) none = .ok vs := by
  induction vs with
  | nil => rfl
  | cons v vs ih => simp only [List.map_cons, descapeAll, C41_descape_escape, ih]

theorem listed_values (v : List Char) (vs : List (List Char)) : listed (valuesText (v :: vs)) = .ok (v :: vs) := by
  obtain ⟨h1, h2, _⟩ := C41_join_split v vs
  unfold listed chunks Run.map
  simp only [valuesText] at *
  rw [h1, h2]
  exact descapeAll_ok (v :: vs)

theorem lit_intercalate : ∀ ps : List (List Char), (∀ p ∈ ps, Lit p) → Lit ([','].intercalate ps)
  | [], _ => .nil
  | [p], h => by simpa [List.intercalate] using h p (by simp)
  | p :: q :: ps, h => by
    have := lit_intercalate (q :: ps) (fun r hr => h r (by simp at hr ⊢; right; exact hr))
    have e : [','].intercalate (p :: q :: ps) = p ++ ',' :: [','].intercalate (q :: ps) := by
      simp [List.intercalate]
    rw [e]
    exact (h p (by simp)).append (.plain ',' _ (by decide) this)

theorem lit_valuesText (vs : List (List Char)) : Lit (valuesText vs) := by
  apply lit_intercalate
  intro p hp
  obtain ⟨v, _, rfl⟩ := List.mem_map.mp hp
  exact lit_escape v

theorem escape_ne_nil {v : List Char} (h : v ≠ []) : escape v ≠ [] := by
  rw [C41_escape_spec]
  cases v with
  | nil => exact absurd rfl h
  | cons c v =>
    rw [List.flatMap_cons]
    unfold escChar
    split <;> simp

theorem escape_nil : escape [] = [] := by rw [C41_escape_spec]; rfl

theorem valuesText_head (v : List Char) (vs : List (List Char)) (h : v ≠ []) :
    ∃ c t, valuesText (v :: vs) = c :: t ∧ (c = '\\' ∨ v.head? = some c) := by
  cases v with
  | nil => exact absurd rfl h
  | cons d v =>
    have e : ∃ t, valuesText ((d :: v) :: vs) = escape (d :: v) ++ t := by
      cases vs with
      | nil => exact ⟨[], by simp [valuesText, List.intercalate]⟩
      | cons w vs => exact ⟨',' :: valuesText (w :: vs), by simp [valuesText, List.intercalate]⟩
    obtain ⟨t, e⟩ := e
    rw [e, C41_escape_spec, List.flatMap_cons]
    unfold escChar
    split
    · exact ⟨'\\', _, rfl, Or.inl rfl⟩
    · exact ⟨d, _, rfl, Or.inr rfl⟩

theorem escape_last (v : List Char) : (escape v).getLast? = v.getLast? := by
  rw [C41_escape_spec]
  rcases List.eq_nil_or_concat v with rfl | ⟨u, c, rfl⟩
  · rfl
  · rw [List.concat_eq_append, List.flatMap_append]
    simp only [List.flatMap_cons, List.flatMap_nil, List.append_nil]
    unfold escChar
    split <;> simp

theorem valuesText_last (vs : List (List Char)) (hne : vs ≠ [])
    (h : ∀ v, vs.getLast? = some v → v.getLast? ≠ some '\\') : (valuesText vs).getLast? ≠ some '\\' := by
  induction vs with
  | nil => exact absurd rfl hne
  | cons v vs ih =>
    cases vs with
    | nil =>
      have := h v rfl
      simpa [valuesText, List.intercalate, escape_last] using this
    | cons w vs =>
      have e : valuesText (v :: w :: vs) = escape v ++ ',' :: valuesText (w :: vs) := by
        simp [valuesText, List.intercalate]
      have := ih (by simp) (fun u hu => h u (by simpa using hu))
      rw [e, List.getLast?_append, List.getLast?_cons]
      cases hl : (valuesText (w :: vs)).getLast? with
      | none => simp
      | some c => rw [hl] at this; simpa using this

/-- What the filters need: something is written, it does not begin with whitespace and does not end with
a backslash. -/
def Writable (vs : List (List Char)) : Prop :=
  vs ≠ [] ∧ (∀ v, vs.head? = some v → v ≠ [] ∧ ∀ c, v.head? = some c → reSpace c = false) ∧
  (∀ v, vs.getLast? = some v → v.getLast? ≠ some '\\')

theorem mkFilter_values (X : Ext) (neg : Bool) (key : Char) (hk : isKeyChar key = true) (vs : List (List Char))
    (hw : Writable vs) :
    (mkFilter X (valueFilter neg key vs) : Except PyErr (Filter (Ctx V))) =
      filterFunc X neg [key] (valuesText vs) := by
  obtain ⟨h1, h2, _⟩ := hw
  cases vs with
  | nil => exact absurd rfl h1
  | cons v vs =>
    obtain ⟨h3, h4⟩ := h2 v rfl
    obtain ⟨c, t, e, hc⟩ := valuesText_head v vs h3
    have hs : reSpace c = false := by
      rcases hc with hc | hc
      · rw [hc]; decide
      · exact h4 c hc
    unfold mkFilter valueFilter
    rw [parseBracket_text neg [key] (valuesText (v :: vs)) (by simp) (by simpa using hk) (by rw [e]; simp)
      (by rw [e, List.dropWhile_cons_of_neg (by simp [hs])])]

theorem findAll_filter (X : Ext) (env : Env V) (plus : Bool) (a : Axis) {b : List Char} (hb : Lit b)
    (hl : b.getLast? ≠ some '\\') (P : Ctx V → Bool)
    (hm : (mkFilter X ('[' :: (b ++ [']'])) : Except PyErr (Filter (Ctx V))) = .ok (fun x => .ok (P x)))
    (hP : ∀ env i j p, P (env, (i, p)) = P (env, (j, p))) (x : Path) :
    findAll X env (axisText plus a ++ '[' :: (b ++ [']'])) x =
      ⟨(findAll X env (axisText plus a) x).out.filter (fun p => P (env, (0, p))),
        (findAll X env (axisText plus a) x).exc⟩ := by
  unfold findAll
  rw [compile_bracket X plus a hb hl, hm, compile_axis]
  simp only [runPhrases, List.foldl_cons, List.foldl_nil, Phrase.findAll, Run.filter, Run.map]
  have h1 : ∀ ec : EIto, Phrase.combined (V := V) ⟨a, tautology, tautology⟩ (env, ec) = .ok true := fun _ => rfl
  have h2 : ∀ ec : EIto, Phrase.combined (V := V) ⟨a, (fun x => .ok (P x)), tautology⟩ (env, ec) =
      .ok (P (env, ec)) := by
    intro ec
    simp only [Phrase.combined]
    cases h : P (env, ec) <;> rfl
  simp only [h1, h2, filterList_ok]
  rw [show (List.filter (fun _ : EIto => true) (Axis.findRun a env.tree ⟨[x], none⟩).out) =
    (Axis.findRun a env.tree ⟨[x], none⟩).out from by simp]
  congr 1
  rw [List.filter_map]
  congr 1
  apply List.filter_congr
  intro ec _
  exact hP env ec.1 0 ec.2

theorem valueFilter_eq (neg : Bool) (key : Char) (vs : List (List Char)) : valueFilter neg key vs =
    '[' :: (((if neg then ['~'] else []) ++ ([key] ++ ':' :: valuesText vs)) ++ [']']) := rfl

theorem lit_valueFilter (neg : Bool) (key : Char) (hk : key ∉ structuralChars) (vs : List (List Char)) :
    Lit ((if neg then ['~'] else []) ++ ([key] ++ ':' :: valuesText vs)) := by
  have h := lit_valuesText vs
  have h2 : Lit ([key] ++ ':' :: valuesText vs) := .plain key _ hk (.plain ':' _ (by decide) h)
  cases neg with
  | false => exact h2
  | true => exact .plain '~' _ (by decide) h2

theorem last_valueFilter (neg : Bool) (key : Char) (vs : List (List Char)) (hw : Writable vs) :
    ((if neg then ['~'] else []) ++ ([key] ++ ':' :: valuesText vs)).getLast? ≠ some '\\' := by
  have := valuesText_last vs hw.1 hw.2.2
  rw [List.getLast?_append, List.getLast?_append, List.getLast?_cons]
  cases hl : (valuesText vs).getLast? with
  | none => simp
  | some c => rw [hl] at this; simpa using this

/-- C66: `[d:v1,v2,…]` (values escaped) keeps, of what the axis finds, exactly the nodes whose `desc` is
one of the values; `[~d:…]` exactly the others.  The order does not change. -/
theorem C66_desc_filter_partial (X : Ext) (env : Env V) (plus neg : Bool) (a : Axis) (vs : List (List Char))
    (hw : Writable vs) (x : Path) :
    findAll X env (axisText plus a ++ valueFilter neg 'd' vs) x =
      ⟨(findAll X env (axisText plus a) x).out.filter (fun p =>
          decide ((((env.tree.get? p).bind Node.desc).map String.toList ∈ vs.map some) ↔ neg = false)),
        (findAll X env (axisText plus a) x).exc⟩ := by
  rw [valueFilter_eq]
  apply findAll_filter X env plus a (lit_valueFilter neg 'd' (by decide) vs) (last_valueFilter neg 'd' vs hw)
    (fun x => decide ((x.desc ∈ vs.map some) ↔ neg = false))
  · rw [← valueFilter_eq, mkFilter_values X neg 'd' (by decide) vs hw]
    simp only [filterFunc]
    have hk : String.ofList ['d'] = "d" := rfl
    rw [hk, if_pos (by simp)]
    congr 1
    funext x
    unfold fDesc
    cases vs with
    | nil => exact absurd rfl hw.1
    | cons v vs =>
      rw [listed_values]
      simp only [notIf]
      congr 1
      by_cases h : x.desc ∈ (v :: vs).map some
      · cases neg <;> simp only [h, decide_true, decide_false] <;> rfl
      · cases neg <;> simp only [h, decide_true, decide_false] <;> rfl
  · intro env i j p; rfl

/-- C66: the same for `[s:…]` and the node's text. -/
theorem C66_string_filter_partial (X : Ext) (env : Env V) (plus neg : Bool) (a : Axis) (vs : List (List Char))
    (hw : Writable vs) (x : Path) :
    findAll X env (axisText plus a ++ valueFilter neg 's' vs) x =
      ⟨(findAll X env (axisText plus a) x).out.filter (fun p =>
          decide (((match env.tree.get? p with
            | some n => (n.flat env.string).text
            | none => []) ∈ vs) ↔ neg = false)),
        (findAll X env (axisText plus a) x).exc⟩ := by
  have hito : ∀ (env : Env V) (i : Nat) (p : Path), Ctx.ito (V := V) (env, (i, p)) = match env.tree.get? p with
      | some n => n.flat env.string
      | none => ⟨env.string, ⟨0, 0⟩, none⟩ := fun _ _ _ => rfl
  have htext : ∀ (env : Env V) (i : Nat) (p : Path), (Ctx.ito (V := V) (env, (i, p))).text =
      match env.tree.get? p with
      | some n => (n.flat env.string).text
      | none => [] := by
    intro env i p
    rw [hito]
    cases env.tree.get? p with
    | some n => rfl
    | none =>
      show slice env.string (some 0) (some 0) = []
      have := slice_nat env.string 0 0
      simpa using this
  rw [valueFilter_eq]
  have := findAll_filter X env plus a (lit_valueFilter neg 's' (by decide) vs) (last_valueFilter neg 's' vs hw)
    (fun x => decide ((x.ito.text ∈ vs) ↔ neg = false)) (by
      rw [← valueFilter_eq, mkFilter_values X neg 's' (by decide) vs hw]
      simp only [filterFunc]
      have hk : String.ofList ['s'] = "s" := rfl
      rw [hk, if_neg (by simp), if_pos (by simp)]
      congr 1
      funext x
      unfold fStr
      cases vs with
      | nil => exact absurd rfl hw.1
      | cons v vs =>
        rw [listed_values]
        simp only [notIf]
        congr 1
        by_cases h : x.ito.text ∈ v :: vs
        · cases neg <;> simp only [h, decide_true, decide_false] <;> rfl
        · cases neg <;> simp only [h, decide_true, decide_false] <;> rfl) (by intro env i j p; rfl) x
  rw [this]
  simp only [htext]

/-- Non-vacuity: the values `b` and `,` on the children of a root. -/
example : Writable [['b'], [',']] ∧ valueFilter false 's' [['b'], [',']] = ['[', 's', ':', 'b', ',', '\\', ',', ']'] ∧
    findAll demoExt demoEnv (['*'] ++ ['[', 's', ':', 'b', ',', '\\', ',', ']']) [] = ⟨[[1]], none⟩ := by
  have hw : Writable [['b'], [',']] := by
    refine ⟨by simp, ?_, ?_⟩
    · intro v hv; simp at hv; subst hv; exact ⟨by simp, by intro c hc; simp at hc; subst hc; decide⟩
    · intro v hv; simp at hv; subst hv; simp
  have e : valueFilter false 's' [['b'], [',']] = ['[', 's', ':', 'b', ',', '\\', ',', ']'] := by decide
  refine ⟨hw, e, ?_⟩
  have := C66_string_filter_partial demoExt demoEnv false false ⟨.children, false, .no⟩ [['b'], [',']] hw []
  rw [e, findAll_children] at this
  rw [show (['*'] : List Char) = axisText false ⟨.children, false, .no⟩ from rfl, this]
  decide

/-- C66 needs its conditions: an empty value cannot be written. -/
theorem C66_empty_violated :
    (findAll demoExt demoEnv (['*'] ++ valueFilter false 's' [[]]) []).exc = some .valueError := by decide

/-- C66 needs its conditions: whitespace before the first value is dropped, so `[s: b]` selects the text
`b` and not ` b`. -/
theorem C66_leading_space_violated :
    findAll demoExt demoEnv (['*'] ++ valueFilter false 's' [[' ', 'b']]) [] = ⟨[[1]], none⟩ := by decide

/-- C66 needs its conditions: a value that ends with a backslash, although escaped, is refused. -/
theorem C66_trailing_backslash_violated :
    (findAll demoExt demoEnv (['*'] ++ valueFilter false 's' [['a', '\\']]) []).exc = some .valueError := by
  decide

end Pawpaw.Props
