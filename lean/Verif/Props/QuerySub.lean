import Verif.Props.QueryFilters
import Verif.Spec.QuerySub
/-!
# C75: sub-queries
-/
set_option linter.unusedSectionVars false
namespace Pawpaw.Props
open Pawpaw Pawpaw.Query Pawpaw.Util Pawpaw.Ecf QuerySpec UtilSpec TreeSpec PyStr
variable {V : Type} [DecidableEq V]

/-! ## The scanners on a text with matching braces -/

theorem goPhr_braced {q : List Char} (h : Braced q) : ∀ (cnt : Int) (acc rest : List Char), 0 < cnt →
    goPhr false cnt acc (q ++ rest) = goPhr false cnt (acc ++ q) rest := by
  induction h with
  | nil => intro cnt acc rest _; simp
  | plain c s h1 h2 h3 _ ih =>
    intro cnt acc rest hc
    rw [List.cons_append, goPhr]
    simp only [Bool.false_eq_true, if_false, h1, h2, h3]
    rw [if_neg (by omega), ih _ _ _ hc]; simp
  | esc c s _ _ ih =>
    intro cnt acc rest hc
    rw [List.cons_append, List.cons_append, goPhr]
    simp only [Bool.false_eq_true, if_false, if_true]
    rw [goPhr]
    simp only [if_true]
    rw [ih _ _ _ hc]; simp
  | group a b _ _ iha ihb =>
    intro cnt acc rest hc
    rw [List.cons_append, List.append_assoc, goPhr]
    simp only [Bool.false_eq_true, if_false, show ('{' : Char) ≠ '\\' from by decide, if_true]
    rw [iha _ _ _ (by omega), List.cons_append, goPhr]
    simp only [Bool.false_eq_true, if_false, show ('}' : Char) ≠ '\\' from by decide,
      show ('}' : Char) ≠ '{' from by decide, if_true]
    rw [show cnt + 1 - 1 = cnt from by omega, ihb _ _ _ hc]
    simp

theorem countUnescaped_braced {q : List Char} (h : Braced q) : ∃ n, ∀ c, c = '{' ∨ c = '}' → ∀ rest,
    countUnescaped c false (q ++ rest) = n + countUnescaped c false rest := by
  induction h with
  | nil => exact ⟨0, by intros; simp⟩
  | plain d s h1 h2 h3 _ ih =>
    obtain ⟨n, ih⟩ := ih
    refine ⟨n, ?_⟩
    intro c hc rest
    have : d ≠ c := by rcases hc with hc | hc <;> rw [hc] <;> assumption
    rw [List.cons_append, countUnescaped]
    simp [this, h1, ih c hc]
  | esc d s _ _ ih =>
    obtain ⟨n, ih⟩ := ih
    refine ⟨n, ?_⟩
    intro c hc rest
    have hcb : '\\' ≠ c := by rcases hc with hc | hc <;> rw [hc] <;> decide
    rw [List.cons_append, List.cons_append, countUnescaped]
    simp only [Bool.not_false, Bool.true_and, Bool.and_true, decide_eq_false hcb, Bool.false_eq_true, if_false,
      decide_true]
    rw [countUnescaped]
    simp [ih c hc]
  | group a b _ _ iha ihb =>
    obtain ⟨n, iha⟩ := iha
    obtain ⟨m, ihb⟩ := ihb
    refine ⟨n + m + 1, ?_⟩
    intro c hc rest
    rw [List.cons_append, List.append_assoc, countUnescaped]
    rcases hc with rfl | rfl
    · simp only [show (decide ('{' = '\\') && true) = false from by decide, Bool.not_false, Bool.true_and,
        decide_true, if_true]
      rw [iha _ (Or.inl rfl), List.cons_append, countUnescaped]
      simp only [show (decide ('}' = '\\') && true) = false from by decide, Bool.not_false, Bool.true_and,
        show decide (('}' : Char) = '{') = false from by decide, Bool.false_eq_true, if_false]
      rw [ihb _ (Or.inl rfl)]; omega
    · simp only [show (decide ('{' = '\\') && true) = false from by decide, Bool.not_false, Bool.true_and,
        show decide (('{' : Char) = '}') = false from by decide, Bool.false_eq_true, if_false]
      rw [iha _ (Or.inr rfl), List.cons_append, countUnescaped]
      simp only [show (decide ('}' = '\\') && true) = false from by decide, Bool.not_false, Bool.true_and,
        decide_true, if_true]
      rw [ihb _ (Or.inr rfl)]; omega

theorem balancedLen_close (d : Nat) (xs : List Char) : balancedLen '{' '}' d false ('}' :: xs) =
    match d with
    | 0 => some 1
    | n + 1 => (balancedLen '{' '}' n false xs).map (· + 1) := by
  cases d <;> simp [balancedLen]

theorem balancedLen_open (d : Nat) (xs : List Char) : balancedLen '{' '}' d false ('{' :: xs) =
    (balancedLen '{' '}' (d + 1) false xs).map (· + 1) := by
  cases d <;> simp [balancedLen]

theorem balancedLen_other (d : Nat) (prev : Bool) (c : Char) (xs : List Char)
    (h : prev = true ∨ (c ≠ '{' ∧ c ≠ '}')) : balancedLen '{' '}' d prev (c :: xs) =
    (balancedLen '{' '}' d (decide (c = '\\')) xs).map (· + 1) := by
  rcases h with h | ⟨h1, h2⟩
  · subst h; cases d <;> simp [balancedLen]
  · cases d <;> simp [balancedLen, h1, h2]

theorem balancedLen_braced {q : List Char} (h : Braced q) : ∀ (d : Nat) (prev : Bool) (rest : List Char),
    (prev = true → q ≠ [] ∧ q.head? ≠ some '{' ∧ q.head? ≠ some '}') →
    balancedLen '{' '}' d prev (q ++ rest) = (balancedLen '{' '}' d false rest).map (· + q.length) := by
  induction h with
  | nil =>
    intro d prev rest hp
    cases prev with
    | true => exact absurd rfl (hp rfl).1
    | false => simp
  | plain c s h1 h2 h3 _ ih =>
    intro d prev rest _
    rw [List.cons_append, balancedLen_other d prev c _ (Or.inr ⟨h2, h3⟩), decide_eq_false h1,
      ih d false rest (by simp), Option.map_map]
    congr 1
  | esc c s hc hs ih =>
    intro d prev rest _
    rw [List.cons_append, List.cons_append, balancedLen_other d prev '\\' _ (Or.inr (by decide)), decide_eq_true rfl,
      balancedLen_other d true c _ (Or.inl rfl), ih d _ rest (fun hh => hc (of_decide_eq_true hh)), Option.map_map,
      Option.map_map]
    congr 1
  | group a b _ _ iha ihb =>
    intro d prev rest hp
    have hpf : prev = false := by
      cases prev with
      | false => rfl
      | true => exact absurd rfl (hp rfl).2.1
    subst hpf
    rw [List.cons_append, List.append_assoc, balancedLen_open, iha (d + 1) false _ (by simp), List.cons_append,
      balancedLen_close]
    simp only
    rw [ihb d false rest (by simp), Option.map_map, Option.map_map, Option.map_map]
    congr 1
    funext n
    simp only [Function.comp, List.length_cons, List.length_append]
    omega

theorem ecf_braces {E : Type} (mk : List Char → Except PyErr (Filter E)) {q : List Char} (hq : Braced q) :
    ecf '{' '}' mk ('{' :: (q ++ ['}'])) = mk ('{' :: (q ++ ['}'])) := by
  obtain ⟨n, hn⟩ := countUnescaped_braced hq
  have c1 : countUnescaped '{' false ('{' :: (q ++ ['}'])) = n + 1 := by
    rw [countUnescaped, show (decide ('{' = '\\') && !false) = false from by decide, hn _ (Or.inl rfl)]
    simp [countUnescaped]; omega
  have c2 : countUnescaped '}' false ('{' :: (q ++ ['}'])) = n + 1 := by
    rw [countUnescaped, show (decide ('{' = '\\') && !false) = false from by decide, hn _ (Or.inr rfl)]
    simp [countUnescaped]
  have g : groups '{' '}' 0 false 0 ('{' :: (q ++ ['}'])) = [(0, q.length + 2)] := by
    rw [groups]
    simp only [Bool.not_false, Bool.true_and, decide_true, if_true]
    rw [balancedLen_braced hq 0 false _ (by simp)]
    simp only [balancedLen, Bool.not_false, Bool.true_and, decide_true, if_true, Option.map_some]
    have := groups_skip '{' '}' (q ++ ['}']) false (0 + 1)
    simp only [List.length_append, List.length_cons, List.length_nil] at this
    rw [show 1 + q.length = q.length + (0 + 1) from by omega, this]
    simp; omega
  have hlen : ('{' :: (q ++ ['}'])).length = q.length + 2 := by simp
  unfold ecf
  rw [c1, c2, if_neg (by simp), g]
  unfold collect
  simp only [Bool.not_true, Bool.false_and, Bool.false_eq_true, if_false, List.drop_zero, List.take_zero]
  rw [← hlen, List.take_length]
  cases hm : mk ('{' :: (q ++ ['}'])) with
  | error e => rfl
  | ok f =>
    simp only [collect, Bool.false_eq_true, if_false, List.drop_length, strip_nil]
    rw [combined_single]
    simp only
    rw [func_single]

/-! ## A phrase with a sub-query -/

/-- Nothing, or one filter in brackets. -/
inductive OneFilter (X : Ext) : List Char → Filter (Ctx V) → Prop where
  | none : OneFilter X [] tautology
  | one (b : List Char) (f : Filter (Ctx V)) : Lit b → b.getLast? ≠ some '\\' →
      (mkFilter X ('[' :: (b ++ [']'])) : Except PyErr (Filter (Ctx V))) = .ok f → OneFilter X ('[' :: (b ++ [']'])) f

theorem axisText_last (plus : Bool) (a : Axis) : ∃ t c, axisText plus a = t ++ [c] ∧ backChar c = false := by
  have h : ∀ c ∈ axisText plus a, backChar c = false := by
    intro c hc
    have : c ∈ ['+', '-', '.', '*', '<', '>', '!'] := by
      obtain ⟨k, rev, os⟩ := a
      unfold axisText at hc
      rw [List.mem_append, List.mem_append] at hc
      rcases hc with (hc | hc) | hc
      · simp only at hc
        split at hc
        · simp at hc; simp [hc]
        · split at hc
          · simp at hc; simp [hc]
          · cases hc
      · cases k <;> simp [keyText] at hc <;> simp [hc] <;> rcases hc with hc | hc <;> simp [hc]
      · cases os <;> simp [orSelfText] at hc <;> simp [hc]
    simp only [List.mem_cons, List.not_mem_nil, or_false] at this
    rcases this with h | h | h | h | h | h | h <;> rw [h] <;> decide
  obtain ⟨_, c, t, h2, _⟩ := axisText_plain plus a
  rcases List.eq_nil_or_concat (axisText plus a) with h0 | ⟨u, d, h0⟩
  · rw [h0] at h2; cases h2
  · rw [List.concat_eq_append] at h0
    exact ⟨u, d, h0, h d (by rw [h0]; simp)⟩

theorem backUp_stop (t : List Char) (c : Char) (rest : List Char) (hc : backChar c = false) :
    backUp (t ++ [c] ++ rest) (t ++ [c]).length = (t ++ [c]).length := by
  rw [List.length_append, List.length_singleton, backUp]
  have : (t ++ [c] ++ rest)[t.length]? = some c := by simp
  rw [this]
  simp only [hc, Bool.false_eq_true, if_false]

theorem oneFilter_lit {X : Ext} {F : List Char} {f : Filter (Ctx V)} (h : OneFilter X F f) (rest : List Char)
    (i : Int) : findUnescapedLoop ['{'] '\\' 0 false i (F ++ '{' :: rest) =
      findUnescapedLoop ['{'] '\\' 0 false (i + F.length) ('{' :: rest) := by
  cases h with
  | none => simp
  | one b f hb hl hm =>
    rw [List.cons_append, findUnescapedLoop]
    simp only [Bool.false_eq_true, if_false, show ('[' : Char) ≠ '\\' from by decide,
      show ('[' : Char) ∉ ['{'] from by decide]
    rw [List.append_assoc, findUnescapedLoop_lit hb, List.singleton_append, findUnescapedLoop]
    simp only [Bool.false_eq_true, if_false, show (']' : Char) ≠ '\\' from by decide,
      show (']' : Char) ∉ ['{'] from by decide]
    congr 1
    simp only [List.length_cons, List.length_append, List.length_nil]
    omega

theorem parsePhrase_sub (X : Ext) (sub : List Char → Except PyErr (Filter (Ctx V))) (plus : Bool) (a : Axis)
    {F : List Char} {f : Filter (Ctx V)} (hF : OneFilter X F f) {q : List Char} (hq : Braced q) :
    parsePhrase X sub (axisText plus a ++ F ++ '{' :: (q ++ ['}'])) =
      match sub q with
      | .error e => .error e
      | .ok g => .ok ⟨a, f, g⟩ := by
  have hax := parseAxis_text plus a (F ++ '{' :: (q ++ ['}'])) (by
    intro c hc
    simp only [List.mem_cons, List.not_mem_nil, or_false] at hc
    cases hF <;> rcases hc with hc | hc | hc | hc | hc <;> rw [hc] <;> simp)
  have hlast : ∃ t c, axisText plus a ++ F = t ++ [c] ∧ backChar c = false := by
    cases hF with
    | none => simpa using axisText_last plus a
    | one b f hb hl hm => exact ⟨axisText plus a ++ '[' :: b, ']', by simp, by decide⟩
  rw [← List.append_assoc] at hax
  obtain ⟨t, c, e1, e2⟩ := hlast
  have hback : backUp (axisText plus a ++ F ++ '{' :: (q ++ ['}'])) (axisText plus a ++ F).length =
      (axisText plus a ++ F).length := by
    rw [e1]; exact backUp_stop t c _ e2
  generalize axisText plus a = ax at hax hback ⊢
  unfold parsePhrase
  rw [hax]
  simp only
  rw [findUnescaped_drop _ _ (by simp), List.append_assoc, List.drop_left, oneFilter_lit hF, findUnescapedLoop]
  simp only [Bool.false_eq_true, if_false, show ('{' : Char) ≠ '\\' from by decide,
    show ('{' : Char) ∈ ['{'] from by decide, if_true, Run.next, Run.yield]
  have hi2 : ((ax.length : Int) + F.length - 0).toNat = (ax ++ F).length := by simp; omega
  rw [hi2]
  simp only [← List.append_assoc ax F, List.drop_left, hback]
  rw [strip_solid _ _ _ (by decide) (by decide)]
  simp only [List.cons_ne_nil, if_false, List.drop_left]
  rw [strip_solid _ _ _ (by decide) (by decide), ecf_braces _ hq]
  have hd : (('{' :: (q ++ ['}'])).drop 1).dropLast = q := by simp
  rw [hd]
  cases sub q with
  | error e => rfl
  | ok g =>
    simp only
    rw [List.take_left, List.drop_left]
    cases hF with
    | none => rfl
    | one b f hb hl hm =>
      rw [strip_solid _ _ _ (by decide) (by decide), if_neg (by simp), ecf_single _ hb hl, hm]

theorem compile_sub (X : Ext) (plus : Bool) (a : Axis) {F : List Char} {f : Filter (Ctx V)} (hF : OneFilter X F f)
    {q : List Char} (hq : Braced q) :
    (compile X (axisText plus a ++ F ++ '{' :: (q ++ ['}'])) : Except PyErr (List (Phrase V))) =
      match subFunc (compile X q : Except PyErr (List (Phrase V))) with
      | .error e => .error e
      | .ok g => .ok [⟨a, f, g⟩] := by
  obtain ⟨h1, c, t, h2, h3⟩ := axisText_plain plus a
  have hp : (axisText plus a ++ F ++ '{' :: (q ++ ['}'])).any X.isPrintable = true := by
    rw [h2]
    have : X.isPrintable c = true := by
      unfold Ext.isPrintable
      rw [if_pos (by omega)]
      exact decide_eq_true h3
    simp [this]
  have hsplit : splitPhrases (axisText plus a ++ F ++ '{' :: (q ++ ['}'])) =
      ⟨[axisText plus a ++ F ++ '{' :: (q ++ ['}'])], none⟩ := by
    rw [splitPhrases_goPhr _ (by simp), List.append_assoc, goPhr_lit h1]
    have hFs : ∀ acc rest, goPhr false 0 acc (F ++ rest) = goPhr false 0 (acc ++ F) rest := by
      intro acc rest
      cases hF with
      | none => simp
      | one b f hb hl hm =>
        rw [List.cons_append, goPhr]
        simp only [Bool.false_eq_true, if_false, show ('[' : Char) ≠ '\\' from by decide,
          show ('[' : Char) ≠ '{' from by decide, show ('[' : Char) ≠ '}' from by decide,
          show ('[' : Char) ≠ '/' from by decide, false_and]
        rw [List.append_assoc, goPhr_lit hb, List.singleton_append, goPhr]
        simp only [Bool.false_eq_true, if_false, show (']' : Char) ≠ '\\' from by decide,
          show (']' : Char) ≠ '{' from by decide, show (']' : Char) ≠ '}' from by decide,
          show (']' : Char) ≠ '/' from by decide, false_and]
        simp
    rw [hFs, goPhr]
    simp only [Bool.false_eq_true, if_false, show ('{' : Char) ≠ '\\' from by decide, if_true]
    rw [goPhr_braced hq _ _ _ (by omega), goPhr]
    simp only [Bool.false_eq_true, if_false, show ('}' : Char) ≠ '\\' from by decide,
      show ('}' : Char) ≠ '{' from by decide, if_true]
    simp [goPhr, Run.yield, Run.done]
  rw [compile_eq, if_neg (by rw [hp]; simp), hsplit]
  simp only [parsePhrases]
  rw [parsePhrase_sub X _ plus a hF hq]
  cases subFunc (compile X q : Except PyErr (List (Phrase V))) with
  | error e => rfl
  | ok g => rfl

/-! ## C75 -/

/-- What running a query from one node tells a sub-query: whether something was found; an exception before
the first result is passed on. -/
def found (r : Run Path) : Except PyErr Bool :=
  match r.out, r.exc with
  | _ :: _, _ => .ok true
  | [], some e => .error e
  | [], none => .ok false

theorem next_isSome (r : Run Path) : (match r.next with
    | .error e => .error e
    | .ok o => .ok o.isSome) = found r := by
  obtain ⟨out, exc⟩ := r
  cases out with
  | cons p out => rfl
  | nil => cases exc <;> rfl

/-- Python's `a and b` for questions that may raise. -/
def andAsk (a b : Except PyErr Bool) : Except PyErr Bool :=
  match a with
  | .error e => .error e
  | .ok false => .ok false
  | .ok true => b

/-- C75 (general form): a phrase with a filter and a sub-query asks, for each enumerated result of the axis,
first the filter; if that holds, whether the sub-query finds something from there. -/
theorem C75_subquery (X : Ext) (env : Env V) (plus : Bool) (a : Axis) {F : List Char} {f : Filter (Ctx V)}
    (hF : OneFilter X F f) {q : List Char} (hq : Braced q) (phs : List (Phrase V)) (hc : compile X q = .ok phs)
    (x : Path) :
    findAll X env (axisText plus a ++ F ++ '{' :: (q ++ ['}'])) x =
      (Run.filterList (fun ec => andAsk (f (env, ec)) (found (findAll X env q ec.2))) (findAll X env (axisText plus a) x).exc
        ((List.range (findAll X env (axisText plus a) x).out.length).zip
          (findAll X env (axisText plus a) x).out)).map Prod.snd := by
  rw [zip_enum]
  have hr : ∀ y, findAll X env q y = runPhrases env phs ⟨[y], none⟩ := by
    intro y; unfold findAll; rw [hc]
  simp only [hr]
  unfold findAll
  rw [compile_sub X plus a hF hq, hc, compile_axis]
  have one : ∀ (ph : Phrase V) (r : Run Path), runPhrases env [ph] r = (Run.filterList (fun ec => ph.combined (env, ec))
      (ph.axis.findRun env.tree r).exc (ph.axis.findRun env.tree r).out).map Prod.snd := fun _ _ => rfl
  simp only [subFunc]
  rw [one, one]
  have h1 : ∀ ec : EIto, Phrase.combined (V := V) ⟨a, tautology, tautology⟩ (env, ec) = .ok true := fun _ => rfl
  simp only [h1, filterList_ok]
  have : ∀ ec : EIto, Phrase.combined (V := V) ⟨a, f, fun x =>
      match (runPhrases x.1 phs ⟨[x.2.2], none⟩).next with
      | .error e => .error e
      | .ok r => .ok r.isSome⟩ (env, ec) = andAsk (f (env, ec)) (found (runPhrases env phs ⟨[ec.2], none⟩)) := by
    intro ec
    simp only [Phrase.combined, andAsk]
    cases f (env, ec) with
    | error e => rfl
    | ok b => cases b with
      | false => rfl
      | true => exact next_isSome _
  simp only [Run.map]
  rw [show (List.filter (fun _ : EIto => true) (Axis.findRun a env.tree ⟨[x], none⟩).out) =
    (Axis.findRun a env.tree ⟨[x], none⟩).out from by simp, ← findRun_numbered a env.tree x]
  exact congrArg (fun g : EIto → Except PyErr Bool =>
    (Run.filterList g (a.findRun env.tree ⟨[x], none⟩).exc (a.findRun env.tree ⟨[x], none⟩).out).map Prod.snd)
    (funext this)

/-- C75: when the sub-query raises nothing, `axis{q}` keeps exactly the results of `axis` from which `q` finds
something. -/
theorem C75_exists (X : Ext) (env : Env V) (plus : Bool) (a : Axis) {q : List Char} (hq : Braced q)
    (hok : ∀ y, (findAll X env q y).exc = none) (x : Path) :
    findAll X env (axisText plus a ++ '{' :: (q ++ ['}'])) x =
      ⟨(findAll X env (axisText plus a) x).out.filter (fun y => decide ((findAll X env q y).out ≠ [])),
        (findAll X env (axisText plus a) x).exc⟩ := by
  cases hc : (compile X q : Except PyErr (List (Phrase V))) with
  | error e =>
    have := hok x
    unfold findAll at this
    rw [hc] at this
    cases this
  | ok phs =>
    have := C75_subquery X env plus a (OneFilter.none (V := V)) hq phs hc x
    rw [List.append_nil] at this
    rw [this]
    have hf : ∀ y, found (findAll X env q y) = .ok (decide ((findAll X env q y).out ≠ [])) := by
      intro y
      have := hok y
      generalize findAll X env q y = R at this ⊢
      obtain ⟨out, exc⟩ := R
      simp only at this
      subst this
      cases out <;> rfl
    simp only [tautology, andAsk, hf, filterList_ok, Run.map, zip_enum]
    congr 1
    have : ∀ (l : List Path) (k : Nat), ((enumFrom k l).filter
        (fun ec => decide ((findAll X env q ec.2).out ≠ []))).map Prod.snd =
        l.filter (fun y => decide ((findAll X env q y).out ≠ [])) := by
      intro l
      induction l with
      | nil => intro k; rfl
      | cons p l ih =>
        intro k
        rw [enumFrom, List.filter_cons, List.filter_cons]
        simp only
        split
        · rw [List.map_cons, ih]
        · rw [ih]
    exact this _ 0

/-- C75: `axis[filter]{q}` keeps exactly the results of `axis[filter]` from which `q` finds something. -/
theorem C75_filter_and_subquery (X : Ext) (env : Env V) (plus : Bool) (a : Axis) {b : List Char} (hb : Lit b)
    (hl : b.getLast? ≠ some '\\') (P : Ctx V → Bool)
    (hm : (mkFilter X ('[' :: (b ++ [']'])) : Except PyErr (Filter (Ctx V))) = .ok (fun x => .ok (P x)))
    {q : List Char} (hq : Braced q) (hok : ∀ y, (findAll X env q y).exc = none) (x : Path) :
    findAll X env (axisText plus a ++ '[' :: (b ++ [']']) ++ '{' :: (q ++ ['}'])) x =
      ⟨(findAll X env (axisText plus a ++ '[' :: (b ++ [']'])) x).out.filter
          (fun y => decide ((findAll X env q y).out ≠ [])),
        (findAll X env (axisText plus a ++ '[' :: (b ++ [']'])) x).exc⟩ := by
  cases hc : (compile X q : Except PyErr (List (Phrase V))) with
  | error e =>
    have := hok x
    unfold findAll at this
    rw [hc] at this
    cases this
  | ok phs =>
    rw [C75_subquery X env plus a (OneFilter.one b _ hb hl hm) hq phs hc x]
    have hf : ∀ y, found (findAll X env q y) = .ok (decide ((findAll X env q y).out ≠ [])) := by
      intro y
      have := hok y
      generalize findAll X env q y = R at this ⊢
      obtain ⟨out, exc⟩ := R
      simp only at this
      subst this
      cases out <;> rfl
    have e : findAll X env (axisText plus a ++ '[' :: (b ++ [']'])) x =
        ⟨((enumFrom 0 (findAll X env (axisText plus a) x).out).filter (fun ec => P (env, ec))).map Prod.snd,
          (findAll X env (axisText plus a) x).exc⟩ := by
      unfold findAll
      rw [compile_bracket X plus a hb hl, hm, compile_axis]
      simp only [runPhrases, List.foldl_cons, List.foldl_nil, Phrase.findAll, Run.filter]
      have h1 : ∀ ec : EIto, Phrase.combined (V := V) ⟨a, tautology, tautology⟩ (env, ec) = .ok true := fun _ => rfl
      have h2 : ∀ ec : EIto, Phrase.combined (V := V) ⟨a, (fun x => .ok (P x)), tautology⟩ (env, ec) =
          .ok (P (env, ec)) := by
        intro ec
        simp only [Phrase.combined]
        cases h : P (env, ec) <;> rfl
      simp only [h1, h2, filterList_ok, Run.map]
      rw [show (List.filter (fun _ : EIto => true) (Axis.findRun a env.tree ⟨[x], none⟩).out) =
        (Axis.findRun a env.tree ⟨[x], none⟩).out from by simp, ← findRun_numbered a env.tree x]
    rw [e, zip_enum]
    have h3 : ∀ ec : EIto, andAsk (.ok (P (env, ec))) (found (findAll X env q ec.2)) =
        .ok (P (env, ec) && decide ((findAll X env q ec.2).out ≠ [])) := by
      intro ec
      rw [hf]
      cases P (env, ec) <;> rfl
    simp only [h3, filterList_ok, Run.map]
    congr 1
    rw [List.filter_map, List.filter_filter]
    congr 1
    apply List.filter_congr
    intro ec _
    simp only [Function.comp]
    exact Bool.and_comm _ _

/-- C75: a sub-query that is no query makes the whole text none, with the same error. -/
theorem C75_invalid (X : Ext) (env : Env V) (plus : Bool) (a : Axis) {F : List Char} {f : Filter (Ctx V)}
    (hF : OneFilter X F f) {q : List Char} (hq : Braced q) (e : PyErr)
    (hc : (compile X q : Except PyErr (List (Phrase V))) = .error e) (x : Path) :
    findAll X env (axisText plus a ++ F ++ '{' :: (q ++ ['}'])) x = .raise e := by
  unfold findAll
  rw [compile_sub X plus a hF hq, hc]
  rfl

/-- Non-vacuity: the children of the root that have a next sibling; nesting: those whose next sibling has
one. -/
example : Braced ['>'] ∧ Braced "./{*}\\{".toList ∧
    findAll demoExt demoEnv "*{>}".toList [] = ⟨[[0], [1]], none⟩ ∧
    findAll demoExt demoEnv "*{>{>}}".toList [] = ⟨[[0]], none⟩ ∧
    findAll demoExt demoEnv "*[s:b]{>}".toList [] = ⟨[[1]], none⟩ := by
  refine ⟨.plain _ _ (by decide) (by decide) (by decide) .nil, ?_, by decide, by decide, by decide⟩
  exact .plain _ _ (by decide) (by decide) (by decide) (.plain _ _ (by decide) (by decide) (by decide)
    (.group ['*'] ['\\', '{'] (.plain _ _ (by decide) (by decide) (by decide) .nil)
      (.esc _ _ (by decide) .nil)))

end Pawpaw.Props
