import Verif.Model.NlpNumber
/-!
# C81, C82: the settings of `nlp.Number`
-/
set_option linter.unusedSectionVars false
namespace Pawpaw.Props
open Pawpaw Pawpaw.NlpNumber

/-- The documented pattern for given settings: optional sign; an integer with thousands separators (or
plain, if they are optional) with optional decimals, or decimals alone; optional exponent. -/
def patternFor (E : Env) (point sep : List Char) (optional : Bool) : List Char :=
  let dec := "(?P<decimal>".toList ++ E.escape point ++ "\\d+)".toList
  let int := "(?P<integer>\\d{1,3}(?:".toList ++ E.escape sep ++ "\\d{3})+".toList ++
    (if optional then "|\\d+".toList else []) ++ ")".toList
  "(?P<number>".toList ++ signPat ++ "?(?:".toList ++ int ++ dec ++ "?|".toList ++ dec ++ ")".toList ++
    sciExpPat ++ "?)".toList

/-- A `Number` whose pattern is that of its settings. -/
def InSync (E : Env) (x : Obj) : Prop := x.re = some (patternFor E x.decimalPoint x.thousandsSep x.optional)

/-- What a user of the setters expects. -/
def SettersWork (E : Env) : Prop :=
  ∀ x, init E [] = .ok x → ∀ ss, InSync E (history E x ss)

/-- The state right after construction without arguments. -/
theorem init_nil (E : Env) : ∃ x, init E [] = .ok x ∧ InSync E x ∧ x.decimalPoint = E.locDecimalPoint ∧
    x.optional = true ∧ x.thousandsSep = (if E.locThousandsSep ≠ [] then E.locThousandsSep else [',']) := by
  refine ⟨_, rfl, rfl, rfl, rfl, rfl⟩

/-- **C81.** Whatever properties are assigned after construction, in whatever order, and whether or not
assignments raise: `integer_pat`, `decimal_pat`, `num_pat` and `re` stay what the constructor made them. -/
theorem C81_frozen (E : Env) (x : Obj) (ss : List Assign) :
    (history E x ss).re = x.re ∧ (history E x ss).numPat = x.numPat ∧
    (history E x ss).intPat = x.intPat ∧ (history E x ss).decimalPat = x.decimalPat := by
  induction ss generalizing x with
  | nil => exact ⟨rfl, rfl, rfl, rfl⟩
  | cons s ss ih =>
    have h : (assign E x s).1.re = x.re ∧ (assign E x s).1.numPat = x.numPat ∧
        (assign E x s).1.intPat = x.intPat ∧ (assign E x s).1.decimalPat = x.decimalPat := by
      cases s with
      | decimalPoint v => exact ⟨rfl, rfl, rfl, rfl⟩
      | optional v => exact ⟨rfl, rfl, rfl, rfl⟩
      | thousandsSep v =>
        rw [assign]
        split <;> exact ⟨rfl, rfl, rfl, rfl⟩
    have := ih (assign E x s).1
    exact ⟨this.1.trans h.1, this.2.1.trans h.2.1, this.2.2.1.trans h.2.2.1, this.2.2.2.trans h.2.2.2⟩

theorem patternFor_optional (E : Env) (p q : List Char) :
    (patternFor E p q true).length = (patternFor E p q false).length + 4 := by
  have h : (if True then "|\\d+".toList else ([] : List Char)).length = 4 := by decide
  have h' : (if false = true then "|\\d+".toList else ([] : List Char)).length = 0 := by decide
  unfold patternFor
  simp only [List.length_append, h, h']
  omega

/-- **C81.** So the setters do not work: assigning `thousands_sep_optional` leaves a pattern that is not
that of the settings. -/
theorem C81_setters_violated (E : Env) : ¬ SettersWork E := by
  intro h
  obtain ⟨x, hx, h0, -⟩ := init_nil E
  have h1 := h x hx [.optional false]
  have h2 := h x hx [.optional true]
  unfold InSync at h1 h2
  rw [(C81_frozen E x _).1] at h1 h2
  rw [h1] at h2
  have h2 := congrArg List.length (Option.some.inj h2)
  have h3 : (patternFor E x.decimalPoint x.thousandsSep false).length =
    (patternFor E x.decimalPoint x.thousandsSep true).length := h2
  rw [patternFor_optional] at h3
  omega

/-- **C81.** What holds: assignments that give the settings their old values back leave the pattern right. -/
theorem C81_setters_partial (E : Env) (x : Obj) (ss : List Assign) (h : InSync E x)
    (hd : (history E x ss).decimalPoint = x.decimalPoint) (ht : (history E x ss).thousandsSep = x.thousandsSep)
    (ho : (history E x ss).optional = x.optional) : InSync E (history E x ss) := by
  unfold InSync
  rw [(C81_frozen E x ss).1, hd, ht, ho]
  exact h

/-! ## The constructor's keyword arguments -/

/-- What a user expects of keyword arguments: they are accepted when a later assignment of the same values
would be, and the pattern is that of the settings. -/
def KwargsWork (E : Env) : Prop :=
  ∀ kwargs, (∀ s, Assign.thousandsSep s ∈ kwargs → s ≠ [] ∧ E.isSpace s = false) →
    ∃ x, init E kwargs = .ok x ∧ InSync E x

/-- **C82.** `decimal_point=` and `thousands_sep_optional=` cannot be used as keyword arguments: whenever one
of them is given (first, or after acceptable arguments) the constructor raises `AttributeError`. -/
theorem C82_kwargs_raise (E : Env) (pre post : List Assign) (s : Assign)
    (hpre : ∀ t ∈ pre, ∃ v, t = .thousandsSep v ∧ v ≠ [] ∧ E.isSpace v = false)
    (hs : (∃ v, s = .decimalPoint v) ∨ (∃ v, s = .optional v)) :
    init E (pre ++ s :: post) = .error .attributeError := by
  have key : ∀ (pre : List Assign) (x : Obj), x.intPat = none →
      (∀ t ∈ pre, ∃ v, t = .thousandsSep v ∧ v ≠ [] ∧ E.isSpace v = false) →
      (setAll E x (pre ++ s :: post)).2 = .error .attributeError := by
    intro pre
    induction pre with
    | nil =>
      intro x hx _
      rw [List.nil_append, setAll]
      rcases hs with ⟨v, rfl⟩ | ⟨v, rfl⟩
      · simp [assign, buildNumPatRe, hx, Except.map]
      · simp [assign, buildNumPatRe, hx, Except.map]
    | cons t pre ih =>
      intro x hx h
      obtain ⟨v, rfl, h1, h2⟩ := h t List.mem_cons_self
      rw [List.cons_append, setAll, assign, if_neg (by simp [h1, h2])]
      exact ih _ hx (fun t ht => h t (List.mem_cons_of_mem _ ht))
  unfold init
  have := key pre { decimalPoint := E.locDecimalPoint, thousandsSep := if E.locThousandsSep ≠ [] then E.locThousandsSep else [','], optional := true } rfl hpre
  revert this
  dsimp only
  generalize setAll E _ _ = r
  obtain ⟨x, r⟩ := r
  intro h
  simp only at h
  subst h
  rfl

/-- **C82.** So keyword arguments do not work. -/
theorem C82_kwargs_violated (E : Env) : ¬ KwargsWork E := by
  intro h
  obtain ⟨x, hx, -⟩ := h [.optional true] (by simp)
  have := C82_kwargs_raise E [] [] (.optional true) (by simp) (.inr ⟨_, rfl⟩)
  rw [List.nil_append] at this
  rw [this] at hx
  cases hx

/-- **C82.** What holds: `thousands_sep=` is accepted, exactly when it has a non-whitespace character, and
then the pattern is that of the settings. -/
theorem C82_thousands_sep_partial (E : Env) (v : List Char) :
    if v = [] ∨ E.isSpace v = true then init E [.thousandsSep v] = .error .valueError
    else ∃ x, init E [.thousandsSep v] = .ok x ∧ InSync E x ∧ x.thousandsSep = v ∧
      x.decimalPoint = E.locDecimalPoint ∧ x.optional = true := by
  split
  · rename_i h
    unfold init
    simp only [setAll, assign]
    rw [if_pos h]
  · rename_i h
    unfold init
    simp only [setAll, assign]
    rw [if_neg h]
    exact ⟨_, rfl, rfl, rfl, rfl, rfl⟩

section Examples
private def exE : Env := {
  escape := fun s => s.flatMap fun c => if c.isAlphanum then [c] else ['\\', c]
  isSpace := fun s => !s.isEmpty && s.all (· == ' ')
  locDecimalPoint := ['.'], locThousandsSep := [] }
example : ∃ x, init exE [.thousandsSep ['_']] = .ok x ∧ InSync exE x :=
  ⟨_, rfl, rfl⟩
example : ∃ x, init exE [] = .ok x ∧
    (history exE x [.decimalPoint [','], .thousandsSep [], .optional false]).decimalPoint = [','] :=
  ⟨_, rfl, rfl⟩
end Examples

end Pawpaw.Props
