import Verif.Props.QueryIndex
import Verif.Props.Axis
/-!
# C39: query composition; C33: `.path`
-/
set_option linter.unusedSectionVars false
namespace Pawpaw.Props
open Pawpaw Pawpaw.Query Pawpaw.Util Pawpaw.Ecf QuerySpec UtilSpec TreeSpec PyStr
variable {V : Type} [DecidableEq V]

/-! ## Sub-queries are shorter -/

theorem collect_congr {E : Type} (mk mk' : List Char → Except PyErr (Filter E)) (txt : List Char)
    (h : ∀ g, g.length ≤ txt.length → mk g = mk' g) :
    ∀ (gs : List (Nat × Nat)) (first : Bool) (last : Nat),
      collect mk txt first last gs = collect mk' txt first last gs := by
  intro gs
  induction gs with
  | nil => intro first last; rfl
  | cons g gs ih =>
    intro first last
    obtain ⟨a, b⟩ := g
    simp only [collect]
    rw [h ((txt.take b).drop a) (by simp; omega)]
    split
    · rfl
    · cases mk' ((txt.take b).drop a) with
      | error e => rfl
      | ok f => simp only [ih]

theorem ecf_congr {E : Type} (o c : Char) (mk mk' : List Char → Except PyErr (Filter E)) (txt : List Char)
    (h : ∀ g, g.length ≤ txt.length → mk g = mk' g) : ecf o c mk txt = ecf o c mk' txt := by
  unfold ecf
  rw [collect_congr mk mk' txt h]

theorem strip_length (s : List Char) : (strip s).length ≤ s.length := by
  unfold strip PyStr.stripBy PyStr.lstripBy PyStr.rstripBy
  have h1 : ((s.dropWhile isSpace).reverse.dropWhile isSpace).length ≤ (s.dropWhile isSpace).reverse.length :=
    (List.dropWhile_sublist _).length_le
  have h2 : (s.dropWhile isSpace).length ≤ s.length := (List.dropWhile_sublist _).length_le
  simp only [List.length_reverse] at *
  omega

theorem parsePhrase_congr (X : Ext) (sub sub' : List Char → Except PyErr (Filter (Ctx V))) (p : List Char)
    (h : ∀ s, s.length < p.length → sub s = sub' s) : parsePhrase X sub p = parsePhrase X sub' p := by
  by_cases hp : p = []
  · rw [hp]; rfl
  have hlen : 0 < p.length := List.length_pos_iff.mpr hp
  unfold parsePhrase
  cases parseAxis p with
  | error e => rfl
  | ok an =>
    obtain ⟨axis, n⟩ := an
    simp only
    cases (Util.findUnescaped (FIto.ofStr p none none) ['{'] '\\' (some (n : Int)) none).next with
    | error e => rfl
    | ok c =>
      simp only
      have : ∀ k, ecf '{' '}' (fun g => sub ((g.drop 1).dropLast)) (strip (p.drop k)) =
          ecf '{' '}' (fun g => sub' ((g.drop 1).dropLast)) (strip (p.drop k)) := by
        intro k
        apply ecf_congr
        intro g hg
        apply h
        have := strip_length (p.drop k)
        simp only [List.length_drop, List.length_dropLast] at *
        omega
      rw [this]

theorem parsePhrases_congr (X : Ext) (sub sub' : List Char → Except PyErr (Filter (Ctx V))) (n : Nat)
    (h : ∀ s, s.length < n → sub s = sub' s) : ∀ (ps : List (List Char)) (e : Option PyErr),
    (∀ p ∈ ps, p.length ≤ n) → parsePhrases X sub ps e = parsePhrases X sub' ps e := by
  intro ps e
  induction ps with
  | nil => intro _; cases e <;> rfl
  | cons p ps ih =>
    intro hp
    have h1 := hp p (by simp)
    rw [parsePhrases, parsePhrases, parsePhrase_congr X sub sub' p (fun s hs => h s (by omega)),
      ih (fun q hq => hp q (by simp [hq]))]

theorem goPhr_length (s : List Char) : ∀ (esc : Bool) (cnt : Int) (acc : List Char),
    ∀ p ∈ (goPhr esc cnt acc s).out, p.length ≤ acc.length + s.length := by
  induction s with
  | nil =>
    intro esc cnt acc p hp
    unfold goPhr at hp
    cases esc <;> simp [Run.raise, Run.yield, Run.done] at hp
    rw [hp]; omega
  | cons c s ih =>
    intro esc cnt acc p hp
    rw [goPhr] at hp
    have push : ∀ esc' cnt', p ∈ (goPhr esc' cnt' (acc ++ [c]) s).out → p.length ≤ acc.length + (c :: s).length := by
      intro esc' cnt' hh
      have := ih esc' cnt' (acc ++ [c]) p hh
      simp at this ⊢
      omega
    split at hp
    · exact push _ _ hp
    split at hp
    · exact push _ _ hp
    split at hp
    · exact push _ _ hp
    split at hp
    · exact push _ _ hp
    split at hp
    · simp only [Run.yield, List.mem_cons] at hp
      rcases hp with hp | hp
      · rw [hp]; omega
      · have := ih _ _ _ p hp
        simp at this ⊢
        omega
    · exact push _ _ hp

theorem splitPhrases_length (path : List Char) : ∀ p ∈ (splitPhrases path).out, p.length ≤ path.length := by
  by_cases h : path = []
  · rw [h]; intro p hp; simp [splitPhrases, Run.raise] at hp
  · rw [splitPhrases_goPhr path h]
    intro p hp
    have := goPhr_length path false 0 [] p hp
    simpa using this

/-- What one sub-query means. -/
def subFunc (phs : Except PyErr (List (Phrase V))) : Except PyErr (Filter (Ctx V)) :=
  match phs with
  | .error e => .error e
  | .ok phs => .ok (fun x =>
    match (runPhrases x.1 phs ⟨[x.2.2], none⟩).next with
    | .error e => .error e
    | .ok r => .ok r.isSome)

theorem parse_succ (X : Ext) (f : Nat) (path : List Char) :
    (parse X (f + 1) path : Except PyErr (List (Phrase V))) =
      if path = [] ∨ ¬ path.any X.isPrintable then .error .valueError
      else parsePhrases X (fun sq => subFunc (parse X f sq)) (splitPhrases path).out (splitPhrases path).exc := by
  rw [parse]
  rfl

/-- The bound on the nesting of sub-queries used by the model is never reached. -/
theorem parse_fuel (X : Ext) : ∀ (f g : Nat) (path : List Char), path.length < f → path.length < g →
    (parse X f path : Except PyErr (List (Phrase V))) = parse X g path := by
  intro f
  induction f with
  | zero => intro g path h; omega
  | succ f ih =>
    intro g path h1 h2
    cases g with
    | zero => omega
    | succ g =>
      rw [parse_succ, parse_succ]
      split
      · rfl
      · apply parsePhrases_congr X _ _ path.length
        · intro s hs
          rw [ih g s (by omega) (by omega)]
        · exact splitPhrases_length path

theorem compile_eq (X : Ext) (path : List Char) :
    (compile X path : Except PyErr (List (Phrase V))) =
      if path = [] ∨ ¬ path.any X.isPrintable then .error .valueError
      else parsePhrases X (fun sq => subFunc (compile X sq)) (splitPhrases path).out (splitPhrases path).exc := by
  unfold compile
  rw [parse_succ]
  split
  · rfl
  · apply parsePhrases_congr X _ _ path.length
    · intro s hs
      rw [parse_fuel X path.length (s.length + 1) s hs (by omega)]
    · exact splitPhrases_length path

/-! ## Concatenation -/

theorem parsePhrases_append (X : Ext) (sub : List Char → Except PyErr (Filter (Ctx V))) (l m : List (List Char))
    (e : Option PyErr) : parsePhrases X sub (l ++ m) e =
      match parsePhrases X sub l none with
      | .error err => .error err
      | .ok a => match parsePhrases X sub m e with
        | .error err => .error err
        | .ok b => .ok (a ++ b) := by
  induction l with
  | nil =>
    rw [List.nil_append]
    simp only [parsePhrases, List.nil_append]
    cases parsePhrases X sub m e <;> rfl
  | cons p l ih =>
    rw [List.cons_append, parsePhrases, parsePhrases, ih]
    cases parsePhrase X sub p with
    | error err => rfl
    | ok ph =>
      simp only
      cases parsePhrases X sub l none with
      | error err => rfl
      | ok a =>
        simp only
        cases parsePhrases X sub m e with
        | error err => rfl
        | ok b => rfl

theorem goPhr_head (s : List Char) : ∀ (esc : Bool) (cnt : Int) (acc : List Char), '/' ∉ s →
    goPhr esc cnt acc s = ⟨[], some .valueError⟩ ∨ goPhr esc cnt acc s = ⟨[acc ++ s], none⟩ := by
  induction s with
  | nil =>
    intro esc cnt acc _
    unfold goPhr
    cases esc
    · right; simp [Run.yield, Run.done]
    · left; rfl
  | cons c s ih =>
    intro esc cnt acc h
    have hs : '/' ∉ s := fun hh => h (by simp [hh])
    have hc : c ≠ '/' := fun hh => h (by simp [hh])
    have push : ∀ esc' cnt', goPhr esc' cnt' (acc ++ [c]) s = ⟨[], some .valueError⟩ ∨
        goPhr esc' cnt' (acc ++ [c]) s = ⟨[acc ++ c :: s], none⟩ := by
      intro esc' cnt'
      have := ih esc' cnt' (acc ++ [c]) hs
      simpa using this
    rw [goPhr]
    split
    · exact push _ _
    split
    · exact push _ _
    split
    · exact push _ _
    split
    · exact push _ _
    rw [if_neg (by simp [hc])]
    exact push _ _

/-- A text without printable characters is no query. -/
theorem unprintable_fails (X : Ext) (sub : List Char → Except PyErr (Filter (Ctx V))) (q : List Char) (hq : q ≠ [])
    (h : ¬ q.any X.isPrintable) :
    parsePhrases X sub (splitPhrases q).out (splitPhrases q).exc = .error .valueError := by
  have hpr : ∀ c ∈ q, X.isPrintable c = false := by
    intro c hc
    cases hh : X.isPrintable c with
    | false => rfl
    | true => exact absurd (List.any_eq_true.mpr ⟨c, hc, hh⟩) h
  have asc : ∀ c ∈ ['/', '+', '-', '.', '*', '<', '>'], c ∉ q := by
    intro c hc hh
    have := hpr c hh
    simp only [List.mem_cons, List.not_mem_nil, or_false] at hc
    rcases hc with rfl | rfl | rfl | rfl | rfl | rfl | rfl <;> simp [Ext.isPrintable] at this
  rw [splitPhrases_goPhr q hq]
  rcases goPhr_head q false 0 [] (asc '/' (by simp)) with h1 | h1
  · rw [h1]; rfl
  · rw [h1, List.nil_append]
    simp only [parsePhrases]
    have hax : parseAxis q = .error .valueError := by
      cases q with
      | nil => exact absurd rfl hq
      | cons c q =>
        have hne : ∀ d ∈ ['/', '+', '-', '.', '*', '<', '>'], c ≠ d := by
          intro d hd hh
          exact asc d hd (by rw [← hh]; simp)
        have ho : orderLen (c :: q) = 0 := by
          unfold orderLen
          rw [if_neg]
          simp [hne '+' (by simp), hne '-' (by simp)]
        unfold parseAxis
        rw [ho]
        simp only [List.drop_zero]
        have hk : parseKey (c :: q) = none := by
          unfold parseKey
          split
          · rename_i heq; simp at heq; exact absurd heq.1 (hne '.' (by simp))
          · rename_i heq; simp at heq; exact absurd heq.1 (hne '*' (by simp))
          · rename_i heq; simp at heq; exact absurd heq.1 (hne '>' (by simp))
          · rename_i heq; simp at heq; exact absurd heq.1 (hne '<' (by simp))
          · rename_i heq; simp at heq; exact absurd heq.1 (hne '>' (by simp))
          · rfl
        rw [hk]
    unfold parsePhrase
    rw [hax]

/-- C39: a query `p/q` is the phrases of `p` followed by those of `q` (`p` must be complete: no dangling
escape, braces balanced). -/
theorem compile_append (X : Ext) (p q : List Char) (hp : p ≠ []) (hq : q ≠ [])
    (he : ¬ Escaped '\\' p p.length) (hb : braceDepth p p.length = 0) :
    (compile X (p ++ '/' :: q) : Except PyErr (List (Phrase V))) =
      match (compile X p : Except PyErr (List (Phrase V))) with
      | .error e => .error e
      | .ok a => match (compile X q : Except PyErr (List (Phrase V))) with
        | .error e => .error e
        | .ok b => .ok (a ++ b) := by
  have hs : X.isPrintable '/' = true := by unfold Ext.isPrintable; rw [if_pos (by decide)]; decide
  have hpe : (splitPhrases p).exc = none := by rw [(C38_split_phrases p hp).1 he]
  have key : ∀ r : List Char, r ≠ [] →
      (parsePhrases X (fun sq => subFunc (compile X sq)) (splitPhrases r).out (splitPhrases r).exc :
        Except PyErr (List (Phrase V))) = compile X r := by
    intro r hr
    rw [compile_eq X r]
    by_cases hpr : r.any X.isPrintable = true
    · rw [if_neg (by simp [hr, hpr])]
    · rw [if_pos (Or.inr hpr), unprintable_fails X _ r hr hpr]
  rw [compile_eq X (p ++ '/' :: q), if_neg (by simp [hs]), C38_split_append p q hp hq he hb]
  simp only
  rw [parsePhrases_append, key q hq]
  have := key p hp
  rw [hpe] at this
  rw [this]

theorem runPhrases_append (env : Env V) (a b : List (Phrase V)) (r : Run Path) :
    runPhrases env (a ++ b) r = runPhrases env b (runPhrases env a r) := by
  unfold runPhrases
  rw [List.foldl_append]

/-- The phrase treats every node it gets separately: its axis is not `.`, `><`, `<<<` or `>>>`, or it is
`.` with a filter that does not look at positions. -/
def PerNode (ph : Phrase V) : Prop :=
  ph.axis.key ∉ [AxisKey.self, .dedup, .preceding, .following] ∨
  (ph.axis.key = .self ∧ ∀ env i j p, ph.combined (env, (i, p)) = ph.combined (env, (j, p)))

theorem filter_map_index (f : EIto → Except PyErr Bool) (hf : ∀ i j p, f (i, p) = f (j, p)) (l : List Path)
    (e : Option PyErr) : ∀ k, Run.map Prod.snd (Run.filterList f e (enumFrom k l)) =
      Run.filterList (fun p => f (0, p)) e l := by
  induction l with
  | nil => intro k; rfl
  | cons p l ih =>
    intro k
    rw [enumFrom, Run.filterList, Run.filterList, hf k 0 p]
    cases f (0, p) with
    | error err => rfl
    | ok b =>
      cases b with
      | false => exact ih (k + 1)
      | true =>
        have := ih (k + 1)
        simp only [Run.map, Run.yield, List.map_cons] at this ⊢
        rw [← this]

theorem filterList_bind {τ : Type} (f : τ → Except PyErr Bool) (e : Option PyErr) (l : List τ) :
    Run.filterList f e l = (⟨l, e⟩ : Run τ).bind (fun y => Run.filterList f none [y]) := by
  unfold Run.bind
  simp only
  induction l with
  | nil => rfl
  | cons x l ih =>
    rw [Run.bindList, Run.filterList, ih]
    simp only [Run.filterList]
    cases f x with
    | error err => rfl
    | ok b => cases b <;> simp [Run.yield]

theorem findAll_perNode (ph : Phrase V) (h : PerNode ph) (env : Env V) (r : Run Path) :
    ph.findAll env r = r.bind (fun y => ph.findAll env ⟨[y], none⟩) := by
  rcases h with h | ⟨h, hidx⟩
  · have hr : ∀ r, Axis.findRun ph.axis env.tree r = r.bind (fun i =>
        match ph.axis.step env.tree i with
        | .error e => .raise e
        | .ok ns => ⟨ph.axis.toEcs ns (some i), none⟩) := by
      intro r
      unfold Axis.findRun
      split
      · rename_i hk; rw [hk] at h; simp at h
      · rename_i hk; rw [hk] at h; simp at h
      · rename_i hk; rw [hk] at h; simp at h
      · rename_i hk; rw [hk] at h; simp at h
      · rfl
    unfold Phrase.findAll
    simp only [hr, bind_single]
    rw [filter_bind, map_bind]
  · have hr : ∀ r, ph.findAll env r = Run.filterList (fun p => ph.combined (env, (0, p))) r.exc r.out := by
      intro r
      unfold Phrase.findAll Axis.findRun
      rw [h]
      simp only [Axis.toEcs, Run.filter]
      exact filter_map_index (fun ec => ph.combined (env, ec)) (fun i j p => hidx env i j p) r.out r.exc 0
    simp only [hr]
    rw [filterList_bind]

theorem runPhrases_perNode (env : Env V) (phs : List (Phrase V)) (h : ∀ ph ∈ phs, PerNode ph) : ∀ r : Run Path,
    runPhrases env phs r = r.bind (fun y => runPhrases env phs ⟨[y], none⟩) := by
  induction phs with
  | nil =>
    intro r
    have : ∀ (l : List Path) (e : Option PyErr), Run.bindList (fun y => (⟨[y], none⟩ : Run Path)) e l = ⟨l, e⟩ := by
      intro l e
      induction l with
      | nil => rfl
      | cons x l ih => simp [Run.bindList, ih]
    exact (this r.out r.exc).symm
  | cons ph phs ih =>
    intro r
    have e : ∀ r, runPhrases env (ph :: phs) r = runPhrases env phs (ph.findAll env r) := fun r => rfl
    have ih' := ih (fun q hq => h q (by simp [hq]))
    simp only [e]
    rw [ih', findAll_perNode ph (h ph (by simp)), bind_assoc]
    congr 1
    funext y
    rw [← ih']

/-- C39: `p/q` runs the phrases of `q` on the results of `p`, lazily; it is an error when either is. -/
theorem C39_compose (X : Ext) (env : Env V) (p q : List Char) (hp : p ≠ []) (hq : q ≠ [])
    (he : ¬ Escaped '\\' p p.length) (hb : braceDepth p p.length = 0) (x : Path) :
    findAll X env (p ++ '/' :: q) x =
      match (compile X p : Except PyErr (List (Phrase V))), (compile X q : Except PyErr (List (Phrase V))) with
      | .error e, _ => .raise e
      | .ok _, .error e => .raise e
      | .ok _, .ok qs => runPhrases env qs (findAll X env p x) := by
  unfold findAll
  rw [compile_append X p q hp hq he hb]
  cases (compile X p : Except PyErr (List (Phrase V))) with
  | error e => rfl
  | ok ps =>
    simp only
    cases (compile X q : Except PyErr (List (Phrase V))) with
    | error e => rfl
    | ok qs => simp only [runPhrases_append]

/-- C39: when every phrase of `q` treats nodes separately, `p/q` finds what `q` finds from each result of
`p`, in order, up to the first exception.  (The phrases with `.` and a position filter, `><`, `<<<` and
`>>>` look at the whole stream; see `C39_self_position_violated`.) -/
theorem C39_compose_nodes_partial (X : Ext) (env : Env V) (p q : List Char) (hp : p ≠ []) (hq : q ≠ [])
    (he : ¬ Escaped '\\' p p.length) (hb : braceDepth p p.length = 0) (x : Path)
    (ps qs : List (Phrase V)) (hcp : compile X p = .ok ps) (hcq : compile X q = .ok qs)
    (hl : ∀ ph ∈ qs, PerNode ph) :
    findAll X env (p ++ '/' :: q) x = (findAll X env p x).bind (findAll X env q) := by
  rw [C39_compose X env p q hp hq he hb x, hcp, hcq]
  simp only
  rw [runPhrases_perNode env qs hl]
  congr 1
  funext y
  unfold findAll
  rw [hcq]

/-- C39: `find` gives the first result of `find_all`; `None` exactly when that ends without a result. -/
theorem C39_find (X : Ext) (env : Env V) (p : List Char) (x y : Path) :
    (Query.find X env p x = .ok (some y) ↔ (findAll X env p x).out.head? = some y) ∧
    (Query.find X env p x = .ok none ↔ (findAll X env p x).out = [] ∧ (findAll X env p x).exc = none) ∧
    (∀ e, Query.find X env p x = .error e ↔ (findAll X env p x).out = [] ∧ (findAll X env p x).exc = some e) := by
  unfold Query.find Run.next
  cases (findAll X env p x).out with
  | nil => cases (findAll X env p x).exc <;> simp
  | cons z l => simp

/-! ## `.path` -/

theorem goState_plain (s : List Char) (h : '\\' ∉ s ∧ '{' ∉ s ∧ '}' ∉ s) : goState false 0 s = (false, 0) := by
  induction s with
  | nil => rfl
  | cons c s ih =>
    simp only [List.mem_cons, not_or] at h
    rw [goState, if_neg (by decide), if_neg (fun hh => h.1.1 hh.symm), if_neg (fun hh => h.2.1.1 hh.symm),
      if_neg (fun hh => h.2.2.1 hh.symm)]
    exact ih ⟨h.1.2, h.2.1.2, h.2.2.2⟩

theorem complete_of_plain (p : List Char) (h : '\\' ∉ p ∧ '{' ∉ p ∧ '}' ∉ p) :
    ¬ Escaped '\\' p p.length ∧ braceDepth p p.length = 0 := by
  have hst := goState_spec p []
  have h0 : decide (Escaped '\\' p 0) = false := by apply decide_eq_false; simp [Escaped, runBefore]
  have h1 : braceDepth p 0 = 0 := by simp [braceDepth]
  simp only [List.nil_append, List.length_nil] at hst
  rw [h0, h1, goState_plain p h] at hst
  simp only [Prod.mk.injEq] at hst
  exact ⟨of_decide_eq_false hst.1.symm, hst.2.symm⟩

theorem pathText_nil : pathText [] = ['.'] := by rw [pathText.eq_def]; rfl

theorem pathText_snoc (p : Path) (k : Nat) :
    pathText (p ++ [k]) = pathText p ++ '/' :: (axisText false ⟨.children, false, .no⟩ ++ indexFilter false [.one k]) := by
  rw [pathText.eq_def]
  have hp : parent (p ++ [k]) = some p := by simp [parent]
  split
  · rename_i h; rw [hp] at h; cases h
  · rename_i q h
    rw [hp] at h
    cases h
    have h1 : ("/*[i:" : String).toList = ['/', '*', '[', 'i', ':'] := rfl
    have h2 : (Idx.one k).text.toList = Nat.toDigits 10 k := Nat.toList_repr
    simp only [h1, List.getLast?_append, List.getLast?_singleton, Option.some_or, Option.getD_some, showNat,
      indexFilter, idxText, List.map_cons, List.map_nil, h2]
    simp [axisText, keyText, orSelfText, List.intercalate]

theorem pathText_plain (p : Path) : ∀ c ∈ pathText p, c ≠ '\\' ∧ c ≠ '{' ∧ c ≠ '}' := by
  induction hn : p.length generalizing p with
  | zero =>
    have : p = [] := List.eq_nil_of_length_eq_zero hn
    rw [this, pathText_nil]
    intro c hc
    simp at hc
    rw [hc]; decide
  | succ n ih =>
    rcases List.eq_nil_or_concat p with hp | ⟨q, k, hp⟩
    · rw [hp] at hn; simp at hn
    rw [List.concat_eq_append] at hp
    subst hp
    rw [pathText_snoc]
    intro c hc
    rw [List.mem_append] at hc
    rcases hc with hc | hc
    · exact ih q (by simpa using hn) c hc
    · have : c ∈ ['/', '*', '[', 'i', ':', ']'] ∨ c ∈ idxText [.one k] := by
        simp [axisText, keyText, orSelfText, indexFilter] at hc
        simp
        rcases hc with h | h | h | h | h | h | h <;> simp [h]
      rcases this with h | h
      · simp only [List.mem_cons, List.not_mem_nil, or_false] at h
        rcases h with h | h | h | h | h | h <;> rw [h] <;> decide
      · have := not_structural (digit_not_structural (idxText_chars _ c h)).1
        exact ⟨this.1, this.2.2.2.1, this.2.2.2.2.1⟩

theorem pathText_ne_nil (p : Path) : pathText p ≠ [] := by
  rcases List.eq_nil_or_concat p with hp | ⟨q, k, hp⟩
  · rw [hp, pathText_nil]; simp
  · rw [hp, List.concat_eq_append, pathText_snoc]; simp

theorem findAll_children (X : Ext) (env : Env V) (x : Path) :
    findAll X env (axisText false ⟨.children, false, .no⟩) x = ⟨Query.children env.tree x, none⟩ := by
  unfold findAll
  rw [compile_axis]
  simp only [runPhrases, List.foldl_cons, List.foldl_nil, Phrase.findAll, Run.filter, Run.map, Axis.findRun,
    bind_single, Axis.step]
  have h1 : ∀ ec : EIto, Phrase.combined (V := V) ⟨⟨.children, false, .no⟩, tautology, tautology⟩ (env, ec) =
    .ok true := fun _ => rfl
  simp only [h1, filterList_ok]
  simp only [Bool.false_eq_true, if_false]
  have : ∀ l : List Path, (Axis.toEcs ⟨.children, false, .no⟩ l (some x)).map Prod.snd = l := by
    intro l
    unfold Axis.toEcs
    simp only [reduceCtorEq, false_and, if_false]
    cases l with
    | nil => simp
    | cons y l => simp [enumFrom_map_snd]
  rw [show (List.filter (fun _ : EIto => true) (Axis.toEcs ⟨.children, false, .no⟩ (Query.children env.tree x) (some x)))
    = Axis.toEcs ⟨.children, false, .no⟩ (Query.children env.tree x) (some x) from by simp, this]

theorem pick_one {τ : Type} (P : Nat → Prop) [DecidablePred P] (k : Nat) (hP : ∀ j, P j ↔ j = k) (l : List τ) :
    pick P l = l[k]?.toList := by
  have : ∀ (l : List τ) (s : Nat), ((List.range' s l.length).zip l).filterMap
      (fun p => if P p.1 then some p.2 else none) = if s ≤ k then l[k - s]?.toList else [] := by
    intro l
    induction l with
    | nil => intro s; simp
    | cons x l ih =>
      intro s
      rw [List.length_cons, List.range'_succ, List.zip_cons_cons, List.filterMap_cons, ih (s + 1)]
      simp only
      by_cases h : P s
      · have hk := (hP s).1 h
        subst hk
        rw [if_pos h]
        simp
        omega
      · have hk : s ≠ k := fun hh => h ((hP s).2 hh)
        rw [if_neg h]
        simp only
        by_cases h2 : s ≤ k
        · rw [if_pos h2, if_pos (by omega)]
          have : k - s = (k - (s + 1)) + 1 := by omega
          rw [this, List.getElem?_cons_succ]
        · rw [if_neg h2, if_neg (by omega)]
  unfold pick
  rw [List.range_eq_range', this l 0]
  simp

/-- The number of children is bounded by the node's. -/
theorem children_get (t : Node) (p : Path) (k : Nat) (h : t.get? (p ++ [k]) ≠ none) :
    (Query.children t p)[k]? = some (p ++ [k]) := by
  have hk : k < (kidsAt t p).length := by
    induction p generalizing t with
    | nil =>
      simp only [List.nil_append] at h
      unfold kidsAt
      cases t with
      | mk sp d vf ks =>
        simp only [Node.get?] at h ⊢
        simp only [Option.map_some, Option.getD_some, Node.kids]
        by_cases hlt : k < ks.length
        · exact hlt
        · exfalso; apply h; simp [List.getElem?_eq_none (Nat.le_of_not_lt hlt)]
    | cons i p ih =>
      rw [List.cons_append] at h
      unfold kidsAt
      cases t with
      | mk sp d vf ks =>
        simp only [Node.get?] at h ⊢
        cases hi : ks[i]? with
        | none => rw [hi] at h; exact absurd rfl h
        | some c =>
          rw [hi] at h
          exact ih c h
  unfold Query.children
  simp [hk]

/-- C33: evaluating a node's `.path` from the root finds that node and nothing else. -/
theorem C33_path_finds (X : Ext) (env : Env V) (p : Path) (h : IsNode env.tree p) :
    findAll X env (pathText p) [] = ⟨[p], none⟩ := by
  induction hn : p.length generalizing p with
  | zero =>
    have : p = [] := List.eq_nil_of_length_eq_zero hn
    subst this
    rw [pathText_nil]
    have hc := compile_axis (V := V) X false ⟨.self, false, .no⟩
    unfold findAll
    rw [show (['.'] : List Char) = axisText false ⟨.self, false, .no⟩ from rfl, hc]
    rfl
  | succ n ih =>
    rcases List.eq_nil_or_concat p with hp | ⟨q, k, hp⟩
    · rw [hp] at hn; simp at hn
    rw [List.concat_eq_append] at hp
    subst hp
    have hq : IsNode env.tree q := isNode_parent h
    have hqf := ih q hq (by simpa using hn)
    have hpl := pathText_plain q
    obtain ⟨he, hb⟩ := complete_of_plain (pathText q)
      ⟨fun hh => (hpl _ hh).1 rfl, fun hh => (hpl _ hh).2.1 rfl, fun hh => (hpl _ hh).2.2 rfl⟩
    have h40 := C40_index_filter X env false false ⟨.children, false, .no⟩ [.one k] (by simp) q
    rw [findAll_children] at h40
    rw [pick_one _ k (by intro j; simp [Idx.Has]), children_get _ _ _ (by rw [IsNode] at h; intro hh; rw [hh] at h; cases h)] at h40
    rw [pathText_snoc, C39_compose X env _ _ (pathText_ne_nil q) (by simp [indexFilter]) he hb, hqf]
    unfold findAll at hqf h40
    cases hcp : (compile X (pathText q) : Except PyErr (List (Phrase V))) with
    | error e => rw [hcp] at hqf; simp [Run.raise] at hqf
    | ok ps =>
      cases hcq : (compile X (axisText false ⟨.children, false, .no⟩ ++ indexFilter false [.one k]) :
        Except PyErr (List (Phrase V))) with
      | error e => rw [hcq] at h40; simp [Run.raise] at h40
      | ok qs =>
        rw [hcq] at h40
        simpa using h40

/-- C33: distinct nodes have distinct paths. -/
theorem C33_path_injective (t : Node) (p q : Path) (hp : IsNode t p) (hq : IsNode t q)
    (h : pathText p = pathText q) : p = q := by
  have h1 := C33_path_finds (V := Nat) demoExt ⟨t, [], fun _ => .ok 0, none, none⟩ p hp
  have h2 := C33_path_finds (V := Nat) demoExt ⟨t, [], fun _ => .ok 0, none, none⟩ q hq
  rw [h, h2] at h1
  simpa using h1.symm

/-- Non-vacuity. -/
example : IsNode demoEnv.tree [1] ∧ pathText [1] = ['.', '/', '*', '[', 'i', ':', '1', ']'] := by
  refine ⟨by decide, ?_⟩
  rw [show ([1] : Path) = [] ++ [1] from rfl, pathText_snoc, pathText_nil]
  decide

/-- Non-vacuity of `C39_compose_nodes_partial`: `*!/..` composed of `*!` and `..`. -/
example : findAll demoExt demoEnv (['*', '!'] ++ '/' :: ['.', '.']) [] = ⟨[[], [], []], none⟩ ∧
    (∃ qs : List (Phrase Nat), compile demoExt ['.', '.'] = .ok qs ∧ ∀ ph ∈ qs, PerNode ph) := by
  have hq := compile_axis (V := Nat) demoExt false ⟨.parent, false, .no⟩
  have hp := compile_axis (V := Nat) demoExt false ⟨.children, false, .ifEmpty⟩
  have hl : ∀ ph ∈ [(⟨⟨.parent, false, .no⟩, tautology, tautology⟩ : Phrase Nat)], PerNode ph := by
    intro ph hph
    simp only [List.mem_singleton] at hph
    rw [hph]
    left; decide
  refine ⟨?_, _, hq, hl⟩
  obtain ⟨he, hb⟩ := complete_of_plain ['*', '!'] (by decide)
  rw [C39_compose_nodes_partial demoExt demoEnv ['*', '!'] ['.', '.'] (by simp) (by simp) he hb [] _ _ hp hq hl]
  rfl

/-- C39 is false for a position filter on `.`: `*/.[i:0]` keeps the first child only, although `.[i:0]`
finds the node itself from every child. -/
theorem C39_self_position_violated :
    findAll demoExt demoEnv (['*'] ++ '/' :: ['.', '[', 'i', ':', '0', ']']) [] = ⟨[[0]], none⟩ ∧
    (findAll demoExt demoEnv ['*'] []).bind (findAll demoExt demoEnv ['.', '[', 'i', ':', '0', ']']) =
      ⟨[[0], [1], [2]], none⟩ := by
  have e : (['.', '[', 'i', ':', '0', ']'] : List Char) =
    axisText false ⟨.self, false, .no⟩ ++ indexFilter false [.one 0] := by decide
  have hp := compile_axis (V := Nat) demoExt false ⟨.children, false, .no⟩
  have hs : ∀ x, findAll demoExt demoEnv (axisText false ⟨.self, false, .no⟩) x = ⟨[x], none⟩ := by
    intro x
    unfold findAll
    rw [compile_axis]
    rfl
  have hm := mkFilter_index (V := Nat) demoExt false [.one 0] (by simp)
  have hb : Lit ['i', ':', '0'] := lit_of_plain _ (by decide)
  have hc := compile_bracket (V := Nat) demoExt false ⟨.self, false, .no⟩ hb (by decide)
  have e2 : ('[' :: (['i', ':', '0'] ++ [']'])) = indexFilter false [.one 0] := by decide
  rw [e2, hm] at hc
  simp only at hc
  constructor
  · obtain ⟨he, hb⟩ := complete_of_plain ['*'] (by decide)
    rw [C39_compose demoExt demoEnv ['*'] _ (by simp) (by simp) he hb, e, hc]
    rw [show (['*'] : List Char) = axisText false ⟨.children, false, .no⟩ from rfl, hp, findAll_children]
    rfl
  · have h40 := fun x => C40_index_filter demoExt demoEnv false false ⟨.self, false, .no⟩ [.one 0] (by simp) x
    have hx : findAll demoExt demoEnv ['.', '[', 'i', ':', '0', ']'] = fun x => ⟨[x], none⟩ := by
      funext x
      rw [e, h40 x, hs]
      rfl
    rw [hx]
    rw [show (['*'] : List Char) = axisText false ⟨.children, false, .no⟩ from rfl, findAll_children]
    rfl

/-- Without the balance condition on `p` composition fails: in `*[s:}]/..` the slash does not separate
phrases, so it is an error although both parts are queries. -/
theorem C39_unbalanced_violated :
    (findAll demoExt demoEnv ['*', '[', 's', ':', '}', ']'] []).exc = none ∧
    (findAll demoExt demoEnv ['.', '.'] []).exc = none ∧
    (findAll demoExt demoEnv (['*', '[', 's', ':', '}', ']'] ++ '/' :: ['.', '.']) []).exc = some .valueError := by
  refine ⟨by decide, by decide, by decide⟩

end Pawpaw.Props
