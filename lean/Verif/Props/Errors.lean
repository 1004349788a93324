import Verif.Spec.Errors
/-!
# C127: arguments of the wrong type
-/
namespace Pawpaw.Props
open Pawpaw Pawpaw.Errs ErrsSpec

mutual
theorem mem_tyStrs : ∀ (t : Ty) (n : String), n ∈ t.strs ↔ Names t n
  | .qual q s, n => by
    simp only [Ty.strs]
    by_cases h : q = "Callable"
    · subst h
      simp only [if_true, List.mem_singleton]
      constructor
      · rintro rfl; exact .callable
      · intro h; cases h with
        | qual h => exact absurd rfl h
        | callable => rfl
    · simp only [if_neg h, List.mem_singleton]
      constructor
      · rintro rfl; exact .qual h
      · intro h'; cases h' with
        | qual _ => rfl
        | callable => exact absurd rfl h
  | .bound b, n => by
    simp only [Ty.strs, mem_tyStrs b n]
    exact ⟨.bound, fun h => by cases h; assumption⟩
  | .union args, n => by
    simp only [Ty.strs, mem_typeStrs args n]
    constructor
    · rintro ⟨t, ht, h⟩; exact .union ht h
    · intro h; cases h with
      | union ha h => exact ⟨_, ha, h⟩
  | .none, n => by
    simp only [Ty.strs, List.mem_singleton]
    exact ⟨by rintro rfl; exact .none, fun h => by cases h; rfl⟩
  | .other r, n => by
    simp only [Ty.strs, List.mem_singleton]
    exact ⟨by rintro rfl; exact .other, fun h => by cases h; rfl⟩
theorem mem_typeStrs : ∀ (ts : List Ty) (n : String), n ∈ typeStrs ts ↔ ∃ t ∈ ts, Names t n
  | [], n => by simp [typeStrs]
  | t :: ts, n => by
    simp only [typeStrs, List.mem_append, mem_tyStrs t n, mem_typeStrs ts n, List.mem_cons]
    constructor
    · rintro (h | ⟨t', ht, h⟩)
      · exact ⟨t, .inl rfl, h⟩
      · exact ⟨t', .inr ht, h⟩
    · rintro ⟨t', rfl | ht, h⟩
      · exact .inl h
      · exact .inr ⟨t', ht, h⟩
end

/-- **C127**, the part that holds: an argument that is not callable, or whose signature `inspect` can tell,
is refused with a `TypeError` that names the parameter, exactly the allowed types, and the argument. -/
theorem C127_message_partial (name : String) (v : PyVal) (allowed : List Ty) (a s : String)
    (ha : (v.callable = true ∧ v.signature = .ok a) ∨ (v.callable = false ∧ v.repr = .ok a))
    (hs : v.str = .ok s) :
    ∃ L : List String, (∀ n, n ∈ L ↔ ∃ t ∈ allowed, Names t n) ∧
      parameterInvalidType name v allowed =
        ⟨.typeError, some ("parameter '" ++ name ++ "' must be type " ++ " or ".intercalate L ++ ", not " ++ a)⟩ ∧
      parameterIterableContainsInvalidType name v allowed =
        ⟨.typeError, some ("parameter '" ++ name ++ "' must contain elements of type " ++
          " or ".intercalate L ++ ", however, it contains an element of type " ++ a ++ ": " ++ s)⟩ := by
  have h : actual v = .ok a := by
    unfold actual
    rcases ha with ⟨h1, h2⟩ | ⟨h1, h2⟩ <;> simp [h1, h2]
  refine ⟨typeStrs allowed, mem_typeStrs allowed, ?_, ?_⟩
  · simp only [parameterInvalidType, h, buildTypesStr]
  · simp only [parameterIterableContainsInvalidType, h, hs, buildTypesStr]

/-- **C127 violated.** A callable argument whose signature `inspect` cannot tell, as the classes `str` and
`dict`, is refused with the error of `inspect.signature`, a `ValueError`: not with a `TypeError`, and the
parameter is not named. -/
theorem C127_signature_violated (name : String) (v : PyVal) (allowed : List Ty) (e : PyErr)
    (hc : v.callable = true) (he : v.signature = .error e) :
    parameterInvalidType name v allowed = ⟨e, none⟩ ∧
      parameterIterableContainsInvalidType name v allowed = ⟨e, none⟩ := by
  have h : actual v = .error e := by simp [actual, hc, he]
  simp only [parameterInvalidType, parameterIterableContainsInvalidType, h, and_self]

/-- Hence a `TypeError` is raised exactly when the argument can be shown. -/
theorem C127_kind_partial (name : String) (v : PyVal) (allowed : List Ty) :
    (∃ m, parameterInvalidType name v allowed = ⟨.typeError, some m⟩) ↔ ∃ a, actual v = .ok a := by
  unfold parameterInvalidType
  cases actual v with
  | error e => simp
  | ok a => simp

/-- `Ito(7)` -/
def errEx : PyVal := ⟨false, .error .typeError, .ok "7", .ok "7"⟩
/-- The class `dict` -/
def errCls : PyVal := ⟨true, .error .valueError, .ok "<class 'dict'>", .ok "<class 'dict'>"⟩

-- the hypotheses are met, and the model computes what Python does
example : parameterInvalidType "src" errEx [.qual "str" "<class 'str'>", .union [.qual "Ito" "", .none]] =
    ⟨.typeError, some "parameter 'src' must be type str or Ito or None, not 7"⟩ := by decide +kernel
example : parameterInvalidType "src" errCls [.qual "str" "<class 'str'>"] = ⟨.valueError, none⟩ := rfl

end Pawpaw.Props
