import Verif.Spec.Classes
import Verif.Model.Query
/-!
# C118, the classes: which characters count as space
-/
namespace Pawpaw.Props
open Pawpaw Query ClassSpec

/-- The characters `\s` of a pattern stands for are those with the property White_Space; `str.isspace` and `str.strip` count
the information separators as well. -/
theorem C118_space (c : Char) : (reSpace c = true ↔ InRanges whiteSpace c) ∧
    (isSpace c = true ↔ InRanges whiteSpace c ∨ InRanges separators c) := by
  unfold reSpace isSpace InRanges whiteSpace separators
  simp only [List.mem_cons, List.not_mem_nil, or_false, exists_eq_or_imp, exists_eq_left, Bool.and_eq_true, Bool.or_eq_true,
    decide_eq_true_eq, beq_iff_eq, Bool.not_eq_true', Bool.and_eq_false_iff, decide_eq_false_iff_not]
  constructor <;> omega

example : reSpace '\u2003' = true ∧ reSpace (Char.ofNat 28) = false ∧ isSpace (Char.ofNat 28) = true := by decide

end Pawpaw.Props
