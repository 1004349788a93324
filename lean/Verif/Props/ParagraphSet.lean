import Verif.Model.ParagraphSet
/-!
# C129: settings of `Paragraph`
-/
namespace Pawpaw.Props
open Pawpaw Pawpaw.ParagraphSet

/-- The ints assigned to `min_separators`, in order. -/
def minsAssigned : List Op → List Int
  | [] => []
  | .min (.int n) :: ops => n :: minsAssigned ops
  | _ :: ops => minsAssigned ops

/-- The bools assigned to `trim_ws`, in order. -/
def trimsAssigned : List Op → List Bool
  | [] => []
  | .trim (.bool b) :: ops => b :: trimsAssigned ops
  | _ :: ops => trimsAssigned ops

/-- No texts are assigned to `separators`. -/
def NoSeparators (ops : List Op) : Prop := ∀ l, Op.separators (.strs l) ∉ ops

theorem para_run {compile : Seps × Int → Except PyErr Unit} (eol : List String)
    (hc : ∀ n, compile (.list eol, n) = .ok ()) : ∀ (ops : List Op) (s : Settings), NoSeparators ops →
      s.seps = .list eol → s.re = (s.seps, s.min) →
      let t := run compile s ops
      t.seps = .list eol ∧ t.re = (t.seps, t.min) ∧ t.min = (minsAssigned ops).getLastD s.min ∧
        t.trim = (trimsAssigned ops).getLastD s.trim
  | [], s, _, h1, h2 => ⟨h1, h2, rfl, rfl⟩
  | op :: ops, s, hn, h1, h2 => by
    have hn' : NoSeparators ops := fun l h => hn l (List.mem_cons_of_mem _ h)
    have ih := para_run eol hc ops
    have e : run compile s (op :: ops) = run compile (step compile s op).1 ops := rfl
    simp only [e]
    have same : ∀ s', s' = s → minsAssigned (op :: ops) = minsAssigned ops →
        trimsAssigned (op :: ops) = trimsAssigned ops →
        (let t := run compile s' ops
         t.seps = .list eol ∧ t.re = (t.seps, t.min) ∧ t.min = (minsAssigned (op :: ops)).getLastD s.min ∧
           t.trim = (trimsAssigned (op :: ops)).getLastD s.trim) := by
      rintro _ rfl h3 h4
      rw [h3, h4]
      exact ih _ hn' h1 h2
    match op with
    | .separators (.strs l) => exact absurd (List.mem_cons_self) (hn l)
    | .separators (.int _) => exact same _ rfl rfl rfl
    | .separators (.bool _) => exact same _ rfl rfl rfl
    | .separators .other => exact same _ rfl rfl rfl
    | .min (.strs _) => exact same _ rfl rfl rfl
    | .min (.bool _) => exact same _ rfl rfl rfl
    | .min .other => exact same _ rfl rfl rfl
    | .trim (.strs _) => exact same _ rfl rfl rfl
    | .trim (.int _) => exact same _ rfl rfl rfl
    | .trim .other => exact same _ rfl rfl rfl
    | .min (.int n) =>
      have hs : (step compile s (.min (.int n))).1 = { s with min := n, re := (s.seps, n) } := by
        simp only [step, setMin, rebuild, buildRe, h1, hc, Except.map]
      rw [hs]
      have := ih { s with min := n, re := (s.seps, n) } hn' h1 rfl
      rw [show minsAssigned (.min (.int n) :: ops) = n :: minsAssigned ops from rfl, List.getLastD_cons,
        show trimsAssigned (.min (.int n) :: ops) = trimsAssigned ops from rfl]
      exact this
    | .trim (.bool b) =>
      have := ih { s with trim := b } hn' h1 h2
      rw [show trimsAssigned (.trim (.bool b) :: ops) = b :: trimsAssigned ops from rfl, List.getLastD_cons,
        show minsAssigned (.trim (.bool b) :: ops) = minsAssigned ops from rfl]
      exact this

/-- **C129 (partial).** While no texts are assigned to `separators`, every setting is the last value assigned to it, or the one
it was made with; what is refused changes nothing; and the pattern is that of the settings. -/
theorem C129_settings_partial {compile : Seps × Int → Except PyErr Unit} (eol : List String)
    (hc : ∀ n, compile (.list eol, n) = .ok ()) (min : Int) (trim : Bool) (ops : List Op) (hn : NoSeparators ops) :
    ∃ s, init compile eol min trim = .ok s ∧
      let t := run compile s ops
      getSeparators t = eol.map .str ∧ t.min = (minsAssigned ops).getLastD min ∧
        t.trim = (trimsAssigned ops).getLastD trim ∧ t.re = (.list eol, t.min) := by
  refine ⟨⟨.list eol, min, trim, (.list eol, min)⟩, by simp [init, hc, Except.map], ?_⟩
  obtain ⟨h1, h2, h3, h4⟩ := para_run (compile := compile) eol hc ops ⟨.list eol, min, trim, (.list eol, min)⟩ hn rfl rfl
  exact ⟨by simp [getSeparators, h1], h3, h4, by rw [h2, h1]⟩

/-- An assignment that is refused for its type changes nothing. -/
theorem C129_refused_partial (compile : Seps × Int → Except PyErr Unit) (s : Settings) (v : Arg) :
    ((∀ l, v ≠ .strs l) → step compile s (.separators v) = (s, .error .typeError)) ∧
    ((∀ n, v ≠ .int n) → step compile s (.min v) = (s, .error .typeError)) ∧
    ((∀ b, v ≠ .bool b) → step compile s (.trim v) = (s, .error .typeError)) := by
  cases v <;> simp [step, setSeparators, setMin, setTrim]

/-- **C129 violated.** Whatever texts are assigned to `separators`, and whether or not `regex` refuses the pattern, the
property does not read as those texts afterwards; if `regex` refuses it, the pattern is still the old one. -/
theorem C129_separators_violated (compile : Seps × Int → Except PyErr Unit) (s : Settings) (l : List String) :
    let t := step compile s (.separators (.strs l))
    getSeparators t.1 ≠ l.map .str ∧ (∀ e, compile (.alias, s.min) = .error e → t.2 = .error e ∧ t.1.re = s.re) ∧
      (compile (.alias, s.min) = .ok () → t.2 = .ok () ∧ t.1.re ≠ (.list l, s.min)) := by
  have h : ∀ u : Settings, u.seps = .alias → getSeparators u ≠ l.map .str := by
    intro u hu
    simp only [getSeparators, hu]
    cases l <;> simp
  cases hc : compile (.alias, s.min) with
  | error e =>
    simp only [step, setSeparators, rebuild, buildRe, hc, Except.map]
    refine ⟨h _ rfl, ?_, by simp⟩
    rintro e' ⟨⟩
    simp
  | ok _ =>
    simp only [step, setSeparators, rebuild, buildRe, hc, Except.map]
    refine ⟨h _ rfl, by simp, fun _ => by simp⟩

/-- A `regex` that refuses what is not a list of texts. -/
def paraCompile : Seps × Int → Except PyErr Unit
  | (.list _, _) => .ok ()
  | (.alias, _) => .error .typeError

-- the hypotheses are met
example : (∀ n, paraCompile (.list ["\n"], n) = .ok ()) ∧
    NoSeparators [.min (.int 3), .min .other, .separators (.int 1), .trim (.bool true), .min (.int 4)] :=
  ⟨fun _ => rfl, fun l h => by simp at h⟩
example : (run paraCompile ⟨.list ["\n"], 2, false, (.list ["\n"], 2)⟩
    [.min (.int 3), .min .other, .separators (.int 1), .trim (.bool true), .min (.int 4)]).re = (.list ["\n"], 4) := rfl
example : paraCompile (.alias, 2) = .error .typeError := rfl

end Pawpaw.Props
