import Verif.Props.QueryIndex
import Verif.Props.Axis
/-!
# C34: axis expressions as query texts
-/
set_option linter.unusedSectionVars false
namespace Pawpaw.Props
open TreeSpec Query QuerySpec Ecf
variable {V : Type} [DecidableEq V]

theorem filterList_true {τ : Type} (e : Option PyErr) (l : List τ) :
    Run.filterList (fun _ => .ok true) e l = ⟨l, e⟩ := by
  induction l with
  | nil => rfl
  | cons x l ih => simp [Run.filterList, ih, Run.yield]

/-- C34: `x.find_all(text)` for the text of an axis evaluates that axis from `x`, so every statement
about an axis's result is one about the query text.  (`plus`: with an explicit `+`.) -/
theorem C34_query_text (X : Ext) (env : Env V) (plus : Bool) (a : Axis) (x : Path) :
    Query.findAll X env (axisText plus a) x =
      match a.findAll env.tree [x] with
      | .ok es => ⟨es.map Prod.snd, none⟩
      | .error e => ⟨[], some e⟩ := by
  unfold Query.findAll
  rw [compile_axis]
  simp only [runPhrases, List.foldl_cons, List.foldl_nil, Phrase.findAll, Run.filter, Run.map]
  have h1 : (fun ec : EIto => Phrase.combined (V := V) ⟨a, tautology, tautology⟩ (env, ec)) = fun _ => .ok true :=
    rfl
  rw [h1, filterList_true]
  have hout : ∀ a : Axis, a.findRun env.tree ⟨[x], none⟩ =
      match a.findAll env.tree [x] with
      | .ok es => ⟨es, none⟩
      | .error e => ⟨[], some e⟩ := by
    intro a
    obtain ⟨k, rev, os⟩ := a
    cases k
    case self => rfl
    case dedup => rfl
    case preceding =>
      simp only [Axis.findRun, Axis.findAll, Axis.outside, List.find?_cons, List.find?_nil]
      by_cases hx : Query.parent x = none <;> simp [hx]
    case following =>
      simp only [Axis.findRun, Axis.findAll, Axis.outside, List.find?_cons, List.find?_nil]
      by_cases hx : Query.parent x = none <;> simp [hx]
    all_goals
      simp only [Axis.findRun, Axis.findAll, Run.bind, Run.bindList, Axis.loop]
      generalize Axis.step _ env.tree x = r
      cases r <;> simp [Run.raise]
  rw [hout]
  cases a.findAll env.tree [x] <;> rfl

/-- C34 at the level of query texts: for every axis but self and those of C36 and C65, the query yields
the nodes the axis reaches, in its order, plus the node itself where `!` or `!!` says so. -/
theorem C34_query (X : Ext) (env : Env V) (hw : WF env.tree) {p : Path} (hp : IsNode env.tree p)
    (plus : Bool) (a : Axis)
    (hk : a.key ≠ .self ∧ a.key ≠ .dedup ∧ a.key ≠ .preceding ∧ a.key ≠ .following) :
    ∃ ns, Query.findAll X env (axisText plus a) p = ⟨addSelf a p ns, none⟩ ∧
      (∀ q, q ∈ ns ↔ Reaches env.tree p a.key q) ∧ InAxisOrder a ns := by
  obtain ⟨ns, e, h1, h2⟩ := C34_axis hw hp a hk
  refine ⟨ns, ?_, h1, h2⟩
  rw [C34_query_text, e]
  simp only
  congr 1
  unfold numbered
  rw [List.map_snd_zip]
  simp

/-- Non-vacuity: the descendants of the root of `exTree`. -/
example : Query.findAll demoExt ⟨exTree, [], fun _ => .ok 0, none, none⟩ ['*', '*'] [] =
    (⟨[[0], [0, 0], [1], [2]], none⟩ : Run Path) := by decide

end Pawpaw.Props
