import Verif.Props.QueryErrors
/-!
# C65: the de-duplicating axis `><`
-/
set_option linter.unusedSectionVars false
namespace Pawpaw.Props
open Pawpaw Pawpaw.Query Pawpaw.Util Pawpaw.Ecf QuerySpec UtilSpec TreeSpec PyStr
variable {V : Type} [DecidableEq V]

/-- The first of every set of elements with the same `key`, in order. -/
def firstsBy {τ κ : Type} [DecidableEq κ] (key : τ → κ) : List τ → List τ
  | [] => []
  | x :: l => x :: (firstsBy key l).filter (fun y => decide (key y ≠ key x))

theorem dedup_spec (t : Node) (l : List Path) : ∀ seen : List Path,
    Query.dedup t seen l =
      seen ++ (firstsBy (keyAt t) l).filter (fun y => !seen.any (fun q => decide (keyAt t q = keyAt t y))) := by
  induction l with
  | nil => intro seen; simp [Query.dedup, firstsBy]
  | cons p l ih =>
    intro seen
    rw [Query.dedup]
    by_cases h : seen.any (fun q => decide (keyAt t q = keyAt t p)) = true
    · rw [if_pos h, ih seen, firstsBy, List.filter_cons]
      simp only [h, Bool.not_true, Bool.false_eq_true, if_false, List.filter_filter]
      congr 1
      apply List.filter_congr
      intro y _
      cases hs : seen.any (fun q => decide (keyAt t q = keyAt t y)) with
      | true => rfl
      | false =>
        simp only [Bool.not_false, Bool.true_and, Bool.true_eq, decide_eq_true_eq]
        intro hy
        rw [hy] at hs
        rw [hs] at h
        exact absurd h (by decide)
    · rw [if_neg h, ih (seen ++ [p]), firstsBy, List.filter_cons]
      have hf : seen.any (fun q => decide (keyAt t q = keyAt t p)) = false := by simpa using h
      simp only [hf, Bool.not_false, if_true, List.append_assoc, List.singleton_append, List.filter_filter]
      congr 2
      apply List.filter_congr
      intro y _
      rw [List.any_append, Bool.not_or]
      congr 1
      simp only [List.any_cons, List.any_nil, Bool.or_false, ne_eq, decide_not]
      rw [decide_eq_decide.mpr (eq_comm (a := keyAt t p) (b := keyAt t y))]

theorem firstsBy_inj {τ κ : Type} [DecidableEq κ] [DecidableEq τ] (key : τ → κ) (l : List τ)
    (h : ∀ a ∈ l, ∀ b ∈ l, key a = key b → a = b) : firstsBy key l = firstsBy id l := by
  have hmem : ∀ (l : List τ) (y : τ), y ∈ firstsBy (id : τ → τ) l → y ∈ l := by
    intro l
    induction l with
    | nil => intro y hy; cases hy
    | cons x l ih =>
      intro y hy
      simp only [firstsBy, List.mem_cons, List.mem_filter] at hy
      rcases hy with hy | hy
      · simp [hy]
      · simp [ih y hy.1]
  induction l with
  | nil => rfl
  | cons x l ih =>
    rw [firstsBy, firstsBy, ih (fun a ha b hb => h a (by simp [ha]) b (by simp [hb]))]
    congr 1
    apply List.filter_congr
    intro y hy
    have hyl := hmem l y hy
    apply decide_eq_decide.mpr
    constructor
    · intro hn he; exact hn (by rw [show y = x from he])
    · intro hn he; exact hn (h y (by simp [hyl]) x (by simp) he)

/-- C65: `p/><` yields, of the results of `p`, the first of every set of equal ones (equality of Itos:
span, desc, value function), in order — reversed for the axis `-><`. -/
theorem C65_dedup_by_equality (X : Ext) (env : Env V) (p : List Char) (hp : p ≠ [])
    (he : ¬ Escaped '\\' p p.length) (hb : braceDepth p p.length = 0) (rev : Bool) (x : Path) (l : List Path)
    (h : findAll X env p x = ⟨l, none⟩) :
    findAll X env (p ++ '/' :: axisText false ⟨.dedup, rev, .no⟩) x =
      ⟨if rev then (firstsBy (keyAt env.tree) l).reverse else firstsBy (keyAt env.tree) l, none⟩ := by
  have hne : axisText false ⟨.dedup, rev, .no⟩ ≠ [] := by cases rev <;> simp [axisText, keyText]
  have hcp : ∃ ps : List (Phrase V), compile X p = .ok ps := by
    unfold findAll at h
    cases hc : (compile X p : Except PyErr (List (Phrase V))) with
    | error e => rw [hc] at h; simp [Run.raise] at h
    | ok ps => exact ⟨ps, rfl⟩
  obtain ⟨ps, hcp⟩ := hcp
  rw [C39_compose X env p _ hp hne he hb x, hcp, compile_axis]
  simp only [h, runPhrases, List.foldl_cons, List.foldl_nil, Phrase.findAll, Run.filter, Run.map, Axis.findRun]
  have h1 : ∀ ec : EIto, Phrase.combined (V := V) ⟨⟨.dedup, rev, .no⟩, tautology, tautology⟩ (env, ec) =
    .ok true := fun _ => rfl
  simp only [h1, filterList_ok, Axis.toEcs]
  rw [show ∀ m : List EIto, List.filter (fun _ => true) m = m from fun m => by simp, enumFrom_map_snd]
  have hd := dedup_spec env.tree l []
  rw [List.nil_append, show ∀ m : List Path, List.filter (fun y => !([] : List Path).any
    (fun q => decide (keyAt env.tree q = keyAt env.tree y))) m = m from fun m => by simp] at hd
  rw [hd]

/-- C65, for the nodes themselves: when no two different results are equal as Itos, `p/><` is the results
of `p` without repetition, in order of first occurrence.  Missing: different nodes that are equal, see
`C65_equal_nodes_violated`. -/
theorem C65_dedup_partial (X : Ext) (env : Env V) (p : List Char) (hp : p ≠ [])
    (he : ¬ Escaped '\\' p p.length) (hb : braceDepth p p.length = 0) (x : Path) (l : List Path)
    (h : findAll X env p x = ⟨l, none⟩)
    (hk : ∀ a ∈ l, ∀ b ∈ l, keyAt env.tree a = keyAt env.tree b → a = b) :
    findAll X env (p ++ '/' :: ['>', '<']) x = ⟨firstsBy id l, none⟩ := by
  have := C65_dedup_by_equality X env p hp he hb false x l h
  rw [firstsBy_inj _ l hk] at this
  exact this

/-- A root (0,2) whose only child has the same span and desc. -/
def twinEnv : Env Nat := ⟨.mk ⟨0, 2⟩ none none [.mk ⟨0, 2⟩ none none []], ['a', 'b'], fun _ => .ok 0, none, none⟩

/-- C65 is false for different nodes that are equal: `*!!/><` from the root keeps one of the two. -/
theorem C65_equal_nodes_violated :
    findAll demoExt twinEnv ['*', '!', '!'] [] = ⟨[[], [0]], none⟩ ∧
    findAll demoExt twinEnv ['*', '!', '!', '/', '>', '<'] [] = ⟨[[]], none⟩ := by decide

/-- Non-vacuity: `*/..` gives the root three times, `*/../><` once. -/
example : findAll demoExt demoEnv ['*', '/', '.', '.'] [] = ⟨[[], [], []], none⟩ ∧
    findAll demoExt demoEnv ['*', '/', '.', '.', '/', '>', '<'] [] = ⟨[[]], none⟩ ∧
    (∀ a ∈ ([[], [], []] : List Path), ∀ b ∈ ([[], [], []] : List Path),
      keyAt demoEnv.tree a = keyAt demoEnv.tree b → a = b) := by decide

end Pawpaw.Props
