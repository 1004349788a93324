import Verif.Props.QueryExpr
/-!
# C37, C75: expressions of filters and of sub-queries within a query
-/
set_option linter.unusedSectionVars false
namespace Pawpaw.Props
open Pawpaw Pawpaw.Query Pawpaw.Util Pawpaw.Ecf QuerySpec UtilSpec TreeSpec PyStr EcfSpec
variable {V : Type} [DecidableEq V]

theorem opChar_ne {d : Char} (h : opChar d) : backChar d = true ∧ d ≠ '\\' ∧ d ≠ '{' ∧ d ≠ '}' ∧ d ≠ '/' ∧ d ≠ '[' ∧ d ≠ ']' ∧
    d ∉ ['.', '*', '<', '>', '!'] := by
  simp only [opChar, List.mem_cons, List.not_mem_nil, or_false] at h
  rcases h with h | h | h | h | h | h | h <;> subst h <;> decide

/-- Tokens of filters: operator characters, and groups whose content has its special characters escaped. -/
structure FilterToks (ts : List (Tok (List Char))) : Prop where
  chars : ∀ d, .ch d ∈ ts → opChar d
  lit : ∀ b ∈ atoms ts, Lit b ∧ b.getLast? ≠ some '\\'

/-- Tokens of sub-queries: operator characters, and groups whose braces match. -/
structure SubToks (ts : List (Tok (List Char))) : Prop where
  chars : ∀ d, .ch d ∈ ts → opChar d
  braced : ∀ b ∈ atoms ts, Braced b

theorem FilterToks.tail {t : Tok (List Char)} {ts : List (Tok (List Char))} (h : FilterToks (t :: ts)) : FilterToks ts :=
  ⟨fun d hd => h.chars d (by simp [hd]), fun b hb => h.lit b (by cases t <;> simp [atoms, hb])⟩
theorem SubToks.tail {t : Tok (List Char)} {ts : List (Tok (List Char))} (h : SubToks (t :: ts)) : SubToks ts :=
  ⟨fun d hd => h.chars d (by simp [hd]), fun b hb => h.braced b (by cases t <;> simp [atoms, hb])⟩

theorem goPhr_plain {d : Char} (h1 : d ≠ '\\') (h2 : d ≠ '{') (h3 : d ≠ '}') (h4 : d ≠ '/') (cnt : Int) (acc rest : List Char) :
    goPhr false cnt acc (d :: rest) = goPhr false cnt (acc ++ [d]) rest := by
  rw [goPhr]
  simp only [Bool.false_eq_true, if_false, h1, h2, h3, h4, false_and]

theorem goPhr_filters : ∀ {ts : List (Tok (List Char))}, FilterToks ts → ∀ (acc rest : List Char),
    goPhr false 0 acc (written '[' ']' ts ++ rest) = goPhr false 0 (acc ++ written '[' ']' ts) rest
  | [], _, acc, rest => by simp [written]
  | .ch d :: ts, h, acc, rest => by
    obtain ⟨_, h1, h2, h3, h4, _⟩ := opChar_ne (h.chars d (by simp))
    rw [written, List.cons_append, goPhr_plain h1 h2 h3 h4, goPhr_filters h.tail]
    simp
  | .atom b :: ts, h, acc, rest => by
    obtain ⟨hb, _⟩ := h.lit b (by simp [atoms])
    rw [written, List.cons_append, goPhr_plain (by decide) (by decide) (by decide) (by decide), List.append_assoc, goPhr_lit hb,
      List.cons_append, goPhr_plain (by decide) (by decide) (by decide) (by decide), goPhr_filters h.tail]
    simp

theorem goPhr_subs : ∀ {ts : List (Tok (List Char))}, SubToks ts → ∀ (acc rest : List Char),
    goPhr false 0 acc (written '{' '}' ts ++ rest) = goPhr false 0 (acc ++ written '{' '}' ts) rest
  | [], _, acc, rest => by simp [written]
  | .ch d :: ts, h, acc, rest => by
    obtain ⟨_, h1, h2, h3, h4, _⟩ := opChar_ne (h.chars d (by simp))
    rw [written, List.cons_append, goPhr_plain h1 h2 h3 h4, goPhr_subs h.tail]
    simp
  | .atom b :: ts, h, acc, rest => by
    have hb := h.braced b (by simp [atoms])
    rw [written, List.cons_append, goPhr]
    simp only [Bool.false_eq_true, if_false, show ('{' : Char) ≠ '\\' from by decide, if_true]
    rw [List.append_assoc, goPhr_braced hb _ _ _ (by omega), List.cons_append, goPhr]
    simp only [Bool.false_eq_true, if_false, show ('}' : Char) ≠ '\\' from by decide,
      show ('}' : Char) ≠ '{' from by decide, if_true]
    rw [show (0 : Int) + 1 - 1 = 0 from by omega, goPhr_subs h.tail]
    simp

theorem find_plain {d : Char} (h1 : d ≠ '\\') (h2 : d ≠ '{') (i : Int) (rest : List Char) :
    findUnescapedLoop ['{'] '\\' 0 false i (d :: rest) = findUnescapedLoop ['{'] '\\' 0 false (i + 1) rest := by
  rw [findUnescapedLoop]
  simp only [Bool.false_eq_true, if_false, h1, List.mem_singleton, h2]

theorem find_filters : ∀ {ts : List (Tok (List Char))}, FilterToks ts → ∀ (i : Int) (rest : List Char),
    findUnescapedLoop ['{'] '\\' 0 false i (written '[' ']' ts ++ rest) =
      findUnescapedLoop ['{'] '\\' 0 false (i + (written '[' ']' ts).length) rest
  | [], _, i, rest => by simp [written]
  | .ch d :: ts, h, i, rest => by
    obtain ⟨_, h1, h2, _⟩ := opChar_ne (h.chars d (by simp))
    rw [written, List.cons_append, find_plain h1 h2, find_filters h.tail]
    congr 1; simp; omega
  | .atom b :: ts, h, i, rest => by
    obtain ⟨hb, _⟩ := h.lit b (by simp [atoms])
    rw [written, List.cons_append, find_plain (by decide) (by decide), List.append_assoc, findUnescapedLoop_lit hb,
      List.cons_append, find_plain (by decide) (by decide), find_filters h.tail]
    congr 1; simp; omega

theorem find_chars (op : List Char) (h : ∀ d ∈ op, opChar d) (i : Int) (rest : List Char) :
    findUnescapedLoop ['{'] '\\' 0 false i (op ++ rest) = findUnescapedLoop ['{'] '\\' 0 false (i + op.length) rest := by
  induction op generalizing i with
  | nil => simp
  | cons d op ih =>
    obtain ⟨_, h1, h2, _⟩ := opChar_ne (h d (by simp))
    rw [List.cons_append, find_plain h1 h2, ih (fun e he => h e (by simp [he]))]
    congr 1; simp; omega

theorem backUp_run (s : List Char) (d : Char) (hd : backChar d = false) : ∀ (op : List Char) (rest : List Char), (∀ e ∈ op, backChar e = true) →
    backUp (s ++ [d] ++ op ++ rest) (s ++ [d] ++ op).length = (s ++ [d]).length := by
  intro op
  induction h : op.length generalizing op with
  | zero =>
    intro rest _
    rw [List.length_eq_zero_iff.mp h, List.append_nil]
    exact backUp_stop s d rest hd
  | succ n ih =>
    intro rest ho
    rcases List.eq_nil_or_concat op with h0 | ⟨u, e, h0⟩
    · rw [h0] at h; cases h
    · rw [List.concat_eq_append] at h0
      subst h0
      have e1 : (s ++ [d] ++ (u ++ [e])).length = (s ++ [d] ++ u).length + 1 := by simp; omega
      have e2 : s ++ [d] ++ (u ++ [e]) ++ rest = s ++ [d] ++ u ++ (e :: rest) := by simp
      rw [e1, e2, backUp]
      have : (s ++ [d] ++ u ++ e :: rest)[(s ++ [d] ++ u).length]? = some e := by simp
      rw [this]
      simp only [ho e (by simp), if_true]
      exact ih u (by simpa using h) (e :: rest) (fun f hf => ho f (by simp [hf]))

theorem written_head {o c : Char} {ts : List (Tok (List Char))} (hc : ∀ d, .ch d ∈ ts → opChar d) (rest : List Char)
    (ho : o ∉ ['.', '*', '<', '>', '!']) (hr : ∀ c ∈ ['.', '*', '<', '>', '!'], rest.head? ≠ some c) :
    ∀ c' ∈ ['.', '*', '<', '>', '!'], (written o c ts ++ rest).head? ≠ some c' := by
  intro c' hc'
  cases ts with
  | nil => exact hr c' hc'
  | cons t ts =>
    cases t with
    | ch d =>
      have := (opChar_ne (hc d (by simp))).2.2.2.2.2.2.2
      simp only [written, List.cons_append, List.head?_cons]
      intro h; cases h; exact this hc'
    | atom b =>
      simp only [written, List.cons_append, List.head?_cons]
      intro h; cases h; exact ho hc'

theorem strip_written_ne {o c : Char} (hk : Kinds o c) {ts : List (Tok (List Char))} (hc : ∀ d, .ch d ∈ ts → opChar d)
    (hne : atoms ts ≠ []) : strip (written o c ts) ≠ [] := by
  obtain ⟨ts', h1, h2⟩ := strip_written hk ts hc
  rw [h1]
  intro h
  have : ts' = [] := by
    cases ts' with
    | nil => rfl
    | cons t ts => cases t <;> simp [written] at h
  subst this
  apply hne
  rw [← atoms_unspaced, ← h2]; rfl

/-- A phrase of an axis and filters. -/
theorem parsePhrase_filters (X : Ext) (sub : List Char → Except PyErr (Filter (Ctx V))) (plus : Bool) (a : Axis)
    {ts : List (Tok (List Char))} (h : FilterToks ts) (hne : atoms ts ≠ []) :
    parsePhrase X sub (axisText plus a ++ written '[' ']' ts) =
      match (ecf '[' ']' (mkFilter X) (strip (written '[' ']' ts)) : Except PyErr (Filter (Ctx V))) with
      | .error e => .error e
      | .ok f => .ok ⟨a, f, tautology⟩ := by
  have hax := parseAxis_text plus a (written '[' ']' ts) (by
    have := written_head (o := '[') (c := ']') h.chars [] (by decide) (by simp)
    simpa using this)
  have hs := strip_written_ne (o := '[') (c := ']') (Or.inl ⟨rfl, rfl⟩) h.chars hne
  generalize axisText plus a = ax at hax ⊢
  unfold parsePhrase
  rw [hax]
  simp only
  have hf := find_filters h ax.length []
  rw [List.append_nil] at hf
  rw [findUnescaped_drop _ _ (by simp), List.drop_left, hf]
  have hd : ∀ i : Int, (findUnescapedLoop ['{'] '\\' 0 false i []).next = .ok none := by
    intro i; rfl
  rw [hd]
  simp only [List.drop_length, strip_nil, if_true, List.take_length, List.drop_left]
  rw [if_neg hs]
  cases (ecf '[' ']' (mkFilter X) (strip (written '[' ']' ts)) : Except PyErr (Filter (Ctx V))) <;> rfl

theorem printable_axis (X : Ext) (plus : Bool) (a : Axis) (rest : List Char) :
    axisText plus a ++ rest ≠ [] ∧ (axisText plus a ++ rest).any X.isPrintable = true := by
  obtain ⟨h1, c, t, h2, h3⟩ := axisText_plain plus a
  rw [h2]
  refine ⟨by simp, ?_⟩
  have : X.isPrintable c = true := by
    unfold Ext.isPrintable
    rw [if_pos (by omega)]
    exact decide_eq_true h3
  simp [this]

theorem compile_filters (X : Ext) (plus : Bool) (a : Axis) {ts : List (Tok (List Char))} (h : FilterToks ts) (hne : atoms ts ≠ []) :
    (compile X (axisText plus a ++ written '[' ']' ts) : Except PyErr (List (Phrase V))) =
      match (ecf '[' ']' (mkFilter X) (strip (written '[' ']' ts)) : Except PyErr (Filter (Ctx V))) with
      | .error e => .error e
      | .ok f => .ok [⟨a, f, tautology⟩] := by
  obtain ⟨hp1, hp2⟩ := printable_axis X plus a (written '[' ']' ts)
  have hsplit : splitPhrases (axisText plus a ++ written '[' ']' ts) = ⟨[axisText plus a ++ written '[' ']' ts], none⟩ := by
    rw [splitPhrases_goPhr _ hp1, goPhr_lit (axisText_plain plus a).1]
    have := goPhr_filters h ([] ++ axisText plus a) []
    rw [List.append_nil] at this
    rw [this]
    simp [goPhr, Run.yield, Run.done]
  rw [compile_eq, if_neg (by rw [hp2]; simpa using hp1), hsplit]
  simp only [parsePhrases]
  rw [parsePhrase_filters X _ plus a h hne]
  cases (ecf '[' ']' (mkFilter X) (strip (written '[' ']' ts)) : Except PyErr (Filter (Ctx V))) with
  | error e => rfl
  | ok g => rfl

/-! ## C37 -/

theorem findAll_one (env : Env V) (a : Axis) (f g : Filter (Ctx V)) (x : Path) :
    runPhrases env [⟨a, f, g⟩] ⟨[x], none⟩ =
      (Run.filterList (fun ec => andAsk (f (env, ec)) (g (env, ec))) (a.findRun env.tree ⟨[x], none⟩).exc
        (a.findRun env.tree ⟨[x], none⟩).out).map Prod.snd := by
  have one : ∀ (ph : Phrase V) (r : Run Path), runPhrases env [ph] r = (Run.filterList (fun ec => ph.combined (env, ec))
      (ph.axis.findRun env.tree r).exc (ph.axis.findRun env.tree r).out).map Prod.snd := fun _ _ => rfl
  rw [one]
  congr 2

/-- The results of an axis, numbered. -/
def candidates (X : Ext) (env : Env V) (plus : Bool) (a : Axis) (x : Path) : List EIto :=
  (List.range (findAll X env (axisText plus a) x).out.length).zip (findAll X env (axisText plus a) x).out

theorem findAll_axis (X : Ext) (env : Env V) (plus : Bool) (a : Axis) (x : Path) :
    (a.findRun env.tree ⟨[x], none⟩).exc = (findAll X env (axisText plus a) x).exc ∧
    (a.findRun env.tree ⟨[x], none⟩).out = candidates X env plus a x := by
  unfold candidates
  have : findAll X env (axisText plus a) x = ⟨(a.findRun env.tree ⟨[x], none⟩).out.map Prod.snd, (a.findRun env.tree ⟨[x], none⟩).exc⟩ := by
    unfold findAll
    rw [compile_axis]
    simp only
    rw [findAll_one]
    have h1 : ∀ ec : EIto, andAsk (tautology (V := V) (env, ec)) (tautology (V := V) (env, ec)) = .ok true := fun _ => rfl
    simp only [h1, filterList_ok, Run.map]
    rw [List.filter_eq_self.mpr (fun _ _ => rfl)]
  rw [this]
  refine ⟨rfl, ?_⟩
  rw [zip_enum]
  exact findRun_numbered a env.tree x

theorem filterList_mem {τ : Type} (f : τ → Except PyErr Bool) (P : τ → Bool) (e : Option PyErr) (l : List τ)
    (h : ∀ x ∈ l, f x = .ok (P x)) : Run.filterList f e l = ⟨l.filter P, e⟩ := by
  induction l with
  | nil => rfl
  | cons x l ih =>
    rw [Run.filterList, h x (by simp), ih (fun y hy => h y (by simp [hy]))]
    cases hp : P x with
    | true => simp [hp, Run.yield]
    | false => simp [hp]

theorem filterToks_of {ts : List (Tok (List Char))} {e : Expr (List Char)} (hts : unspaced ts = e.toks)
    (hl : ∀ b ∈ atoms e.toks, Lit b ∧ b.getLast? ≠ some '\\') : FilterToks ts ∧ atoms ts ≠ [] := by
  have hat : atoms ts = atoms e.toks := by rw [← hts, atoms_unspaced]
  refine ⟨⟨fun d hd => expr_opChars hts d hd, by rw [hat]; exact hl⟩, ?_⟩
  rw [hat]; intro h; have := expr_atoms e; rw [h] at this; simp at this

/-- C37 for `find_all`: an axis with an expression of filters (`~`, `&`, `^`, `|`, parentheses, spaces anywhere between) keeps
exactly those enumerated results of the axis for which the expression is true; if no group in parentheses holds a single
term only, `e.spill` is `e`. -/
theorem C37_find_all (X : Ext) (env : Env V) (plus : Bool) (a : Axis) (e : Expr (List Char)) (ts : List (Tok (List Char)))
    (hts : unspaced ts = e.toks) (hl : ∀ b ∈ atoms e.toks, Lit b ∧ b.getLast? ≠ some '\\') (F : List Char → Filter (Ctx V))
    (hm : ∀ b ∈ atoms e.toks, mkFilter X ('[' :: (b ++ [']'])) = .ok (F b)) (P : List Char → EIto → Bool) (x : Path)
    (hv : ∀ b ∈ atoms e.toks, ∀ ec ∈ candidates X env plus a x, F b (env, ec) = .ok (P b ec))
    (hlate : e.late = false) :
    findAll X env (axisText plus a ++ written '[' ']' ts) x =
      ⟨((candidates X env plus a x).filter (fun ec => e.spill.eval (fun b => P b ec))).map Prod.snd,
        (findAll X env (axisText plus a) x).exc⟩ := by
  obtain ⟨h1, h2⟩ := filterToks_of hts hl
  obtain ⟨g, g1, g2⟩ := (ecf_expr (o := '[') (c := ']') (Or.inl ⟨rfl, rfl⟩) (mkFilter X) F e ts hts
    (fun b hb => closedGroup_lit (hl b hb).1 (hl b hb).2) hm).1 hlate
  obtain ⟨a1, a2⟩ := findAll_axis X env plus a x
  have : findAll X env (axisText plus a ++ written '[' ']' ts) x = runPhrases env [⟨a, g, tautology⟩] ⟨[x], none⟩ := by
    rw [findAll, compile_filters X plus a h1 h2, g1]
  rw [this, findAll_one, a1, a2]
  rw [filterList_mem _ (fun ec => e.spill.eval (fun b => P b ec))]
  · rfl
  · intro ec hec
    rw [g2 (env, ec) (fun b => P b ec) (fun b hb => hv b hb ec hec)]
    cases e.spill.eval (fun b => P b ec) <;> rfl

mutual
theorem not_lone_lateT {A : Type} : ∀ t : Term A, t.lone = false → t.late = false ∧ t.early = false
  | .atom _ _, _ => ⟨rfl, rfl⟩
  | .group _ e, h => by
    simp only [Term.lone, Bool.or_eq_false_iff] at h
    obtain ⟨h1, h2⟩ := not_lone_lateE e h.2
    exact ⟨h1, by simp [Term.early, h.1, h2]⟩
theorem not_lone_lateE {A : Type} : ∀ e : Expr A, e.lone = false → e.late = false ∧ e.early = false
  | .one t, h => not_lone_lateT t h
  | .cons t o e, h => by
    simp only [Expr.lone, Bool.or_eq_false_iff] at h
    obtain ⟨h1, h2⟩ := not_lone_lateT t h.1
    exact ⟨by simp [Expr.late, h1, h.2], h2⟩
end

/-- C37: without groups of a single term the expression is evaluated as written. -/
theorem C37_find_all_plain (X : Ext) (env : Env V) (plus : Bool) (a : Axis) (e : Expr (List Char)) (ts : List (Tok (List Char)))
    (hts : unspaced ts = e.toks) (hl : ∀ b ∈ atoms e.toks, Lit b ∧ b.getLast? ≠ some '\\') (F : List Char → Filter (Ctx V))
    (hm : ∀ b ∈ atoms e.toks, mkFilter X ('[' :: (b ++ [']'])) = .ok (F b)) (P : List Char → EIto → Bool) (x : Path)
    (hv : ∀ b ∈ atoms e.toks, ∀ ec ∈ candidates X env plus a x, F b (env, ec) = .ok (P b ec))
    (hbig : e.Big) :
    findAll X env (axisText plus a ++ written '[' ']' ts) x =
      ⟨((candidates X env plus a x).filter (fun ec => e.eval (fun b => P b ec))).map Prod.snd,
        (findAll X env (axisText plus a) x).exc⟩ := by
  have h1 := big_not_loneE e hbig
  rw [C37_find_all X env plus a e ts hts hl F hm P x hv (not_lone_lateE e h1).1, spillE_id e (not_lone_lateE e h1).2]

/-- C37: a group of a single term after another filter breaks the expression: it is refused, or the first result of the axis
raises `TypeError`. -/
theorem C37_find_all_late_violated (X : Ext) (env : Env V) (plus : Bool) (a : Axis) (e : Expr (List Char)) (ts : List (Tok (List Char)))
    (hts : unspaced ts = e.toks) (hl : ∀ b ∈ atoms e.toks, Lit b ∧ b.getLast? ≠ some '\\') (F : List Char → Filter (Ctx V))
    (hm : ∀ b ∈ atoms e.toks, mkFilter X ('[' :: (b ++ [']'])) = .ok (F b)) (P : List Char → EIto → Bool) (x : Path)
    (hv : ∀ b ∈ atoms e.toks, ∀ ec ∈ candidates X env plus a x, F b (env, ec) = .ok (P b ec))
    (hlate : e.late = true) :
    findAll X env (axisText plus a ++ written '[' ']' ts) x = .raise .valueError ∨
      findAll X env (axisText plus a ++ written '[' ']' ts) x =
        if (findAll X env (axisText plus a) x).out = [] then findAll X env (axisText plus a) x else .raise .typeError := by
  obtain ⟨h1, h2⟩ := filterToks_of hts hl
  obtain ⟨a1, a2⟩ := findAll_axis X env plus a x
  rcases (ecf_expr (o := '[') (c := ']') (Or.inl ⟨rfl, rfl⟩) (mkFilter X) F e ts hts
    (fun b hb => closedGroup_lit (hl b hb).1 (hl b hb).2) hm).2 hlate with g1 | ⟨g, g1, g2⟩
  · left
    rw [findAll, compile_filters X plus a h1 h2, g1]
  · right
    have : findAll X env (axisText plus a ++ written '[' ']' ts) x = runPhrases env [⟨a, g, tautology⟩] ⟨[x], none⟩ := by
      rw [findAll, compile_filters X plus a h1 h2, g1]
    rw [this, findAll_one, a1, a2]
    have h3 : ∀ ec ∈ candidates X env plus a x, andAsk (g (env, ec)) (tautology (V := V) (env, ec)) = .error .typeError := by
      intro ec hec
      rw [g2 (env, ec) (fun b hb => ⟨_, hv b hb ec hec⟩)]
      rfl
    unfold candidates at h3 ⊢
    generalize findAll X env (axisText plus a) x = R at h3
    obtain ⟨out, exc⟩ := R
    cases out with
    | nil => rfl
    | cons y out =>
      have h4 := h3 (0, y) (by simp [List.range_succ_eq_map])
      simp only [List.length_cons, List.range_succ_eq_map, List.zip_cons_cons, Run.filterList, h4]
      rfl

theorem gather_near {E : Type} (o c : Char) (mk : List Char → Except PyErr (Filter E)) (F : List Char → Filter E) :
    ∀ (ts : List (Tok (List Char))) (first : Bool) (op : List Char), (∀ d ∈ op, opChar d) → (∀ d, .ch d ∈ ts → opChar d) →
    (∀ b ∈ atoms ts, mk (o :: (b ++ [c])) = .ok (F b)) →
    apart (!first && op.all (fun d => decide (d = ' '))) ts = false → gather o c mk first op ts = .error .valueError := by
  intro ts
  induction ts with
  | nil => intro _ _ _ _ _ h; cases h
  | cons t ts ih =>
    intro first op ho hc hm hap
    cases t with
    | ch d =>
      rw [gather]
      refine ih first (op ++ [d]) ?_ (fun e he => hc e (by simp [he])) (fun b hb => hm b (by simpa [atoms] using hb)) ?_
      · intro e he
        rcases List.mem_append.mp he with he | he
        · exact ho e he
        · rw [List.mem_singleton.mp he]; exact hc d (by simp)
      · rw [apart] at hap
        rw [List.all_append]
        simpa [Bool.and_assoc] using hap
    | atom b =>
      rw [gather]
      split
      · rfl
      · rename_i hn
        rw [hm b (by simp [atoms])]
        simp only
        rw [ih false [] (by simp) (fun e he => hc e (by simp [he])) (fun b hb => hm b (by simp [atoms, hb]))]
        rw [apart, Bool.and_eq_false_iff] at hap
        rcases hap with hap | hap
        · exfalso
          apply hn
          simp only [Bool.not_eq_false', Bool.and_eq_true] at hap
          rw [Bool.and_eq_true]
          exact ⟨hap.1, decide_eq_true ((strip_blank ho).mpr hap.2)⟩
        · simpa using hap

/-- Tokens in which two groups follow each other with nothing but spaces between. -/
def Adjacent (ts : List (Tok (List Char))) : Prop :=
  ∃ A b n b' B, ts = A ++ .atom b :: (List.replicate n (.ch ' ') ++ .atom b' :: B)

theorem apart_adjacent {ts : List (Tok (List Char))} (h : Adjacent ts) (near : Bool) : apart near ts = false := by
  obtain ⟨A, b, n, b', B, rfl⟩ := h
  have h1 : ∀ n : Nat, apart true (List.replicate n (.ch ' ') ++ .atom b' :: B) = false := by
    intro n
    induction n with
    | zero => rfl
    | succ n ih => rw [List.replicate_succ, List.cons_append, apart]; simpa using ih
  induction A generalizing near with
  | nil => simp [apart, h1]
  | cons t A ih => cases t <;> simp [apart, ih]

theorem stripped_adjacent {ts ts' : List (Tok (List Char))} (h : unspaced ts' = unspaced ts)
    (ha : Adjacent ts) : apart false ts' = false := by
  rw [apart_unspaced, h, ← apart_unspaced]
  exact apart_adjacent ha false

/-- C37: two filters without an operator between them are refused. -/
theorem C37_missing_operator (X : Ext) (env : Env V) (plus : Bool) (a : Axis) (ts : List (Tok (List Char))) (h : FilterToks ts)
    (F : List Char → Filter (Ctx V)) (hm : ∀ b ∈ atoms ts, (mkFilter X ('[' :: (b ++ [']'])) : Except PyErr (Filter (Ctx V))) = .ok (F b))
    (ha : Adjacent ts) (x : Path) : findAll X env (axisText plus a ++ written '[' ']' ts) x = .raise .valueError := by
  have hne : atoms ts ≠ [] := by
    obtain ⟨A, b, n, b', B, rfl⟩ := ha
    rw [atoms_append, atoms]; simp
  have hk : Kinds '[' ']' := Or.inl ⟨rfl, rfl⟩
  obtain ⟨ts1, h1, h2⟩ := strip_written hk ts h.chars
  have hat : atoms ts1 = atoms ts := by rw [← atoms_unspaced, h2, atoms_unspaced]
  have hc : ∀ d, .ch d ∈ ts1 → opChar d := by
    intro d hd
    by_cases hs : d = ' '
    · subst hs; simp [opChar]
    · have := mem_unspaced hs hd
      rw [h2] at this
      exact h.chars d (List.mem_filter.mp this).1
  have h3 := collect_gather '[' ']' (mkFilter X : _ → Except PyErr (Filter (Ctx V))) ts1 true [] []
  simp only [List.append_nil, List.nil_append, List.length_nil] at h3
  have hg : ∀ b ∈ atoms ts1, ClosedGroup '[' ']' b := by rw [hat]; exact fun b hb => closedGroup_lit (h.lit b hb).1 (h.lit b hb).2
  have : (ecf '[' ']' (mkFilter X) (strip (written '[' ']' ts)) : Except PyErr (Filter (Ctx V))) = .error .valueError := by
    rw [h1]
    unfold ecf
    rw [if_neg (by rw [count_written hk ts1 hc hg]; simp), groups_written hk ts1 0 hc hg, h3,
      gather_near '[' ']' (mkFilter X) F ts1 true [] (by simp) hc (by rw [hat]; exact hm)
        (by simpa using stripped_adjacent h2 ha)]
  rw [findAll, compile_filters X plus a h hne, this]

/-! ## Sub-queries -/

theorem written_chs (o c : Char) (op : List Char) (ts : List (Tok (List Char))) :
    written o c (op.map Tok.ch ++ ts) = op ++ written o c ts := by
  induction op with
  | nil => rfl
  | cons d op ih => rw [List.map_cons, List.cons_append, written, ih]; rfl

/-- The tokens begin with operator characters up to the first group. -/
theorem lead_chars : ∀ (ws : List (Tok (List Char))), atoms ws ≠ [] →
    ∃ (op : List Char) (b : List Char) (ws' : List (Tok (List Char))), ws = op.map Tok.ch ++ .atom b :: ws'
  | [], h => absurd rfl h
  | .ch d :: ws, hne => by
    obtain ⟨op, b, ws', h1⟩ := lead_chars ws (by simpa [atoms] using hne)
    exact ⟨d :: op, b, ws', by rw [h1]; rfl⟩
  | .atom b :: ws, _ => ⟨[], b, ws, rfl⟩

/-- Nothing, or tokens of filters that end with a filter. -/
def EndsInFilter (ts : List (Tok (List Char))) : Prop := ts = [] ∨ ∃ s b, ts = s ++ [.atom b]

/-- A phrase of an axis, filters and sub-queries. -/
theorem parsePhrase_subs (X : Ext) (sub : List Char → Except PyErr (Filter (Ctx V))) (plus : Bool) (a : Axis)
    {ts ws : List (Tok (List Char))} (h : FilterToks ts) (he : EndsInFilter ts) (hw : SubToks ws) (hne : atoms ws ≠ []) :
    parsePhrase X sub (axisText plus a ++ written '[' ']' ts ++ written '{' '}' ws) =
      match (ecf '{' '}' (fun g => sub ((g.drop 1).dropLast)) (strip (written '{' '}' ws)) : Except PyErr (Filter (Ctx V))) with
      | .error e => .error e
      | .ok g =>
        match (if ts = [] then .ok tautology else ecf '[' ']' (mkFilter X) (strip (written '[' ']' ts)) :
          Except PyErr (Filter (Ctx V))) with
        | .error e => .error e
        | .ok f => .ok ⟨a, f, g⟩ := by
  obtain ⟨op, b, ws', o0⟩ := lead_chars ws hne
  have o1 : ∀ d ∈ op, opChar d := fun d hd => hw.chars d (by rw [o0]; simp [hd])
  have o2 : written '{' '}' ws = op ++ written '{' '}' (.atom b :: ws') := by rw [o0, written_chs]
  have hax := parseAxis_text plus a (written '[' ']' ts ++ written '{' '}' ws) (by
    refine written_head h.chars _ (by decide) ?_
    have := written_head (o := '{') (c := '}') hw.chars [] (by decide) (by simp)
    simpa using this)
  have hlast : ∃ t c, axisText plus a ++ written '[' ']' ts = t ++ [c] ∧ backChar c = false := by
    rcases he with rfl | ⟨s, b, rfl⟩
    · simpa [written] using axisText_last plus a
    · exact ⟨axisText plus a ++ written '[' ']' s ++ '[' :: b, ']', by simp [written_append, written], by decide⟩
  obtain ⟨t, c, e1, e2⟩ := hlast
  have hsw := strip_written_ne (o := '{') (c := '}') (Or.inr ⟨rfl, rfl⟩) hw.chars hne
  rw [← List.append_assoc] at hax
  generalize hA : axisText plus a = ax at hax e1 ⊢
  have hback : backUp (ax ++ written '[' ']' ts ++ written '{' '}' ws) (ax ++ written '[' ']' ts ++ op).length =
      (ax ++ written '[' ']' ts).length := by
    rw [o2, ← List.append_assoc _ op, e1]
    exact backUp_run t c e2 op _ (fun d hd => (opChar_ne (o1 d hd)).1)
  unfold parsePhrase
  rw [hax]
  simp only
  have hfind : (findUnescaped (FIto.ofStr (ax ++ written '[' ']' ts ++ written '{' '}' ws) none none) ['{'] '\\'
      (some (ax.length : Int)) none).next = .ok (some ((ax ++ written '[' ']' ts ++ op).length : Int)) := by
    rw [findUnescaped_drop _ _ (by simp), List.append_assoc, List.drop_left, find_filters h, o2, find_chars op o1, written, findUnescapedLoop]
    simp only [Bool.false_eq_true, if_false, show ('{' : Char) ≠ '\\' from by decide,
      show ('{' : Char) ∈ ['{'] from by decide, if_true, Run.next, Run.yield]
    congr 2
    simp; omega
  rw [hfind]
  simp only [Int.toNat_natCast]
  have hst : strip (List.drop (ax ++ written '[' ']' ts ++ op).length (ax ++ written '[' ']' ts ++ written '{' '}' ws)) ≠ [] := by
    rw [o2, ← List.append_assoc _ op, List.drop_left]
    have := strip_written_ne (o := '{') (c := '}') (ts := .atom b :: ws') (Or.inr ⟨rfl, rfl⟩) ?_ (by simp [atoms])
    · exact this
    · intro d hd
      exact hw.chars d (by rw [o0]; exact List.mem_append_right _ hd)
  simp only [if_neg hst, hback, List.drop_left, List.take_left]
  cases (ecf '{' '}' (fun g => sub ((g.drop 1).dropLast)) (strip (written '{' '}' ws)) : Except PyErr (Filter (Ctx V))) with
  | error e => rfl
  | ok g =>
    simp only
    rcases he with rfl | ⟨s, b, rfl⟩
    · simp only [written, strip_nil, if_true]
    · have h1 := strip_written_ne (o := '[') (c := ']') (Or.inl ⟨rfl, rfl⟩) h.chars (by simp [atoms_append, atoms])
      rw [if_neg h1, if_neg (by simp)]
      cases (ecf '[' ']' (mkFilter X) (strip (written '[' ']' (s ++ [.atom b]))) : Except PyErr (Filter (Ctx V))) <;> rfl

theorem compile_subs (X : Ext) (plus : Bool) (a : Axis) {ts ws : List (Tok (List Char))} (h : FilterToks ts) (he : EndsInFilter ts)
    (hw : SubToks ws) (hne : atoms ws ≠ []) :
    (compile X (axisText plus a ++ written '[' ']' ts ++ written '{' '}' ws) : Except PyErr (List (Phrase V))) =
      match (ecf '{' '}' (fun g => subFunc (compile X ((g.drop 1).dropLast))) (strip (written '{' '}' ws)) : Except PyErr (Filter (Ctx V))) with
      | .error e => .error e
      | .ok g =>
        match (if ts = [] then .ok tautology else ecf '[' ']' (mkFilter X) (strip (written '[' ']' ts)) :
          Except PyErr (Filter (Ctx V))) with
        | .error e => .error e
        | .ok f => .ok [⟨a, f, g⟩] := by
  obtain ⟨hp1, hp2⟩ := printable_axis X plus a (written '[' ']' ts ++ written '{' '}' ws)
  rw [← List.append_assoc] at hp1 hp2
  have hsplit : splitPhrases (axisText plus a ++ written '[' ']' ts ++ written '{' '}' ws) =
      ⟨[axisText plus a ++ written '[' ']' ts ++ written '{' '}' ws], none⟩ := by
    rw [splitPhrases_goPhr _ hp1, List.append_assoc, goPhr_lit (axisText_plain plus a).1, goPhr_filters h]
    have := goPhr_subs hw ([] ++ axisText plus a ++ written '[' ']' ts) []
    rw [List.append_nil] at this
    rw [this]
    simp [goPhr, Run.yield, Run.done]
  rw [compile_eq, if_neg (by rw [hp2]; simpa using hp1), hsplit]
  simp only [parsePhrases]
  rw [parsePhrase_subs X _ plus a h he hw hne]
  cases (ecf '{' '}' (fun g => subFunc (compile X ((g.drop 1).dropLast))) (strip (written '{' '}' ws)) : Except PyErr (Filter (Ctx V))) with
  | error e => rfl
  | ok g =>
    simp only
    cases (if ts = [] then .ok tautology else ecf '[' ']' (mkFilter X) (strip (written '[' ']' ts)) : Except PyErr (Filter (Ctx V))) with
    | error e => rfl
    | ok g => rfl

/-- The filter a sub-query makes. -/
def subAsk (X : Ext) (q : List Char) : Filter (Ctx V) := fun x => found (findAll X x.1 q x.2.2)

theorem sub_made (X : Ext) (env : Env V) {q : List Char} (x : Path) (h : (findAll X env q x).exc = none) :
    (subFunc (compile X q) : Except PyErr (Filter (Ctx V))) = .ok (subAsk X q) := by
  cases hc : (compile X q : Except PyErr (List (Phrase V))) with
  | error e =>
    unfold findAll at h
    rw [hc] at h
    cases h
  | ok phs =>
    simp only [subFunc]
    congr 1
    funext y
    simp only [subAsk, findAll, hc]
    exact next_isSome _

theorem found_ok {r : Run Path} (h : r.exc = none) : found r = .ok (decide (r.out ≠ [])) := by
  obtain ⟨out, exc⟩ := r
  simp only at h
  subst h
  cases out <;> rfl

theorem subToks_of {ts : List (Tok (List Char))} {e : Expr (List Char)} (hts : unspaced ts = e.toks)
    (hl : ∀ b ∈ atoms e.toks, Braced b) : SubToks ts ∧ atoms ts ≠ [] := by
  have hat : atoms ts = atoms e.toks := by rw [← hts, atoms_unspaced]
  refine ⟨⟨fun d hd => expr_opChars hts d hd, by rw [hat]; exact hl⟩, ?_⟩
  rw [hat]; intro h; have := expr_atoms e; rw [h] at this; simp at this

/-- What an expression of sub-queries says of a result. -/
def holdsSub (X : Ext) (env : Env V) (e : Expr (List Char)) (y : Path) : Bool :=
  e.eval (fun q => decide ((findAll X env q y).out ≠ []))

/-! ## C117 -/

/-- C117: an axis with an expression of sub-queries keeps exactly those results of the axis for which the expression is true,
each sub-query standing for whether it finds something from there. -/
theorem C117_subqueries_partial (X : Ext) (env : Env V) (plus : Bool) (a : Axis) (e : Expr (List Char)) (ws : List (Tok (List Char)))
    (hws : unspaced ws = e.toks) (hb : ∀ q ∈ atoms e.toks, Braced q) (hok : ∀ q ∈ atoms e.toks, ∀ y, (findAll X env q y).exc = none)
    (hlate : e.late = false) (x : Path) :
    findAll X env (axisText plus a ++ written '{' '}' ws) x =
      ⟨(findAll X env (axisText plus a) x).out.filter (holdsSub X env e.spill), (findAll X env (axisText plus a) x).exc⟩ := by
  obtain ⟨h1, h2⟩ := subToks_of hws hb
  obtain ⟨g, g1, g2⟩ := (ecf_expr (o := '{') (c := '}') (Or.inr ⟨rfl, rfl⟩) (fun g => subFunc (compile X ((g.drop 1).dropLast)))
    (subAsk X) e ws hws (fun b hq => closedGroup_braced (hb b hq)) (by
      intro q hq
      have hd : (('{' :: (q ++ ['}'])).drop 1).dropLast = q := by simp
      rw [hd]
      exact sub_made X env [] (hok q hq []))).1 hlate
  obtain ⟨a1, a2⟩ := findAll_axis X env plus a x
  have : findAll X env (axisText plus a ++ written '{' '}' ws) x = runPhrases env [⟨a, tautology, g⟩] ⟨[x], none⟩ := by
    have := compile_subs (V := V) X plus a (ts := []) ⟨by simp, by simp [atoms]⟩ (Or.inl rfl) h1 h2
    simp only [written, List.append_nil] at this
    rw [findAll, this, g1]
    simp
  rw [this, findAll_one, a1, a2]
  have h3 : ∀ ec : EIto, andAsk (tautology (V := V) (env, ec)) (g (env, ec)) = .ok (holdsSub X env e.spill ec.2) := by
    intro ec
    rw [g2 (env, ec) (fun q => decide ((findAll X env q ec.2).out ≠ [])) (fun q hq => found_ok (hok q hq ec.2))]
    rfl
  simp only [h3, filterList_ok, Run.map]
  congr 1
  rw [candidates, zip_enum]
  have : ∀ (l : List Path) (k : Nat) (p : Path → Bool), ((enumFrom k l).filter (fun ec => p ec.2)).map Prod.snd = l.filter p := by
    intro l
    induction l with
    | nil => intro k p; rfl
    | cons y l ih =>
      intro k p
      rw [enumFrom, List.filter_cons, List.filter_cons]
      simp only
      split
      · rw [List.map_cons, ih]
      · rw [ih]
  exact this _ 0 _

/-- C117: an axis with an expression of filters and one of sub-queries keeps exactly those enumerated results of the axis for
which both are true; the expression of filters must end with a filter. -/
theorem C117_filters_and_subqueries_partial (X : Ext) (env : Env V) (plus : Bool) (a : Axis) (e : Expr (List Char))
    (ts : List (Tok (List Char))) (hts : unspaced ts = e.toks) (hend : ∃ s b, ts = s ++ [.atom b])
    (hl : ∀ b ∈ atoms e.toks, Lit b ∧ b.getLast? ≠ some '\\') (F : List Char → Filter (Ctx V))
    (hm : ∀ b ∈ atoms e.toks, mkFilter X ('[' :: (b ++ [']'])) = .ok (F b)) (P : List Char → EIto → Bool) (x : Path)
    (hv : ∀ b ∈ atoms e.toks, ∀ ec ∈ candidates X env plus a x, F b (env, ec) = .ok (P b ec))
    (e' : Expr (List Char)) (ws : List (Tok (List Char)))
    (hws : unspaced ws = e'.toks) (hb : ∀ q ∈ atoms e'.toks, Braced q) (hok : ∀ q ∈ atoms e'.toks, ∀ y, (findAll X env q y).exc = none)
    (hlate : e.late = false) (hlate' : e'.late = false) :
    findAll X env (axisText plus a ++ written '[' ']' ts ++ written '{' '}' ws) x =
      ⟨(findAll X env (axisText plus a ++ written '[' ']' ts) x).out.filter (holdsSub X env e'.spill),
        (findAll X env (axisText plus a ++ written '[' ']' ts) x).exc⟩ := by
  obtain ⟨h1, h2⟩ := subToks_of hws hb
  obtain ⟨i1, i2⟩ := filterToks_of hts hl
  obtain ⟨g, g1, g2⟩ := (ecf_expr (o := '{') (c := '}') (Or.inr ⟨rfl, rfl⟩) (fun g => subFunc (compile X ((g.drop 1).dropLast)))
    (subAsk X) e' ws hws (fun b hq => closedGroup_braced (hb b hq)) (by
      intro q hq
      have hd : (('{' :: (q ++ ['}'])).drop 1).dropLast = q := by simp
      rw [hd]
      exact sub_made X env [] (hok q hq []))).1 hlate'
  obtain ⟨f, f1, f2⟩ := (ecf_expr (o := '[') (c := ']') (Or.inl ⟨rfl, rfl⟩) (mkFilter X) F e ts hts
    (fun b hb => closedGroup_lit (hl b hb).1 (hl b hb).2) hm).1 hlate
  obtain ⟨a1, a2⟩ := findAll_axis X env plus a x
  have hne : ts ≠ [] := by
    obtain ⟨s, b, rfl⟩ := hend; simp
  have : findAll X env (axisText plus a ++ written '[' ']' ts ++ written '{' '}' ws) x = runPhrases env [⟨a, f, g⟩] ⟨[x], none⟩ := by
    rw [findAll, compile_subs (V := V) X plus a i1 (Or.inr hend) h1 h2, g1]
    simp only [if_neg hne, f1]
  rw [this, findAll_one, a1, a2, C37_find_all X env plus a e ts hts hl F hm P x hv hlate]
  have h3 : ∀ ec ∈ candidates X env plus a x, andAsk (f (env, ec)) (g (env, ec)) =
      .ok (e.spill.eval (fun b => P b ec) && holdsSub X env e'.spill ec.2) := by
    intro ec hec
    rw [g2 (env, ec) (fun q => decide ((findAll X env q ec.2).out ≠ [])) (fun q hq => found_ok (hok q hq ec.2)),
      f2 (env, ec) (fun b => P b ec) (fun b hb => hv b hb ec hec)]
    cases e.spill.eval (fun b => P b ec) <;> rfl
  rw [filterList_mem _ _ _ _ h3]
  simp only [Run.map]
  congr 1
  rw [List.filter_map, List.filter_filter]
  congr 1
  apply List.filter_congr
  intro ec _
  simp only [Function.comp]
  exact Bool.and_comm _ _

/-- C117 violated: after an expression of filters that ends with a parenthesis no sub-query can stand; the parenthesis is taken
for a part of the sub-query, and the query is refused. -/
theorem C117_parenthesis_violated (X : Ext) (env : Env V) (plus : Bool) (a : Axis) (ts : List (Tok (List Char))) (h : FilterToks ts)
    (hend : ∃ s b, ts = s ++ [.atom b]) (tail : List Char) (htail : ∀ c ∈ tail, c = ')' ∨ c = ' ') (hparen : ')' ∈ tail)
    (e' : Expr (List Char)) (ws : List (Tok (List Char))) (hws : unspaced ws = e'.toks) (hb : ∀ q ∈ atoms e'.toks, Braced q)
    (hok : ∀ q ∈ atoms e'.toks, ∀ y, (findAll X env q y).exc = none) (x : Path) :
    findAll X env (axisText plus a ++ (written '[' ']' ts ++ tail) ++ written '{' '}' ws) x = .raise .valueError := by
  obtain ⟨h1, h2⟩ := subToks_of hws hb
  have hat : atoms ws = atoms e'.toks := by rw [← hws, atoms_unspaced]
  have ht : ∀ c ∈ tail, opChar c := by
    intro c hc
    rcases htail c hc with rfl | rfl <;> simp [opChar]
  have hs : SubToks (tail.map Tok.ch ++ ws) := by
    refine ⟨?_, by rw [atoms_chs]; exact h1.braced⟩
    intro d hd
    rcases List.mem_append.mp hd with hd | hd
    · obtain ⟨c, hc, he⟩ := List.mem_map.mp hd
      cases he; exact ht _ hc
    · exact h1.chars d hd
  have hne : atoms (tail.map Tok.ch ++ ws) ≠ [] := by rw [atoms_chs]; exact h2
  have hk : Kinds '{' '}' := Or.inr ⟨rfl, rfl⟩
  have e0 : axisText plus a ++ (written '[' ']' ts ++ tail) ++ written '{' '}' ws =
      axisText plus a ++ written '[' ']' ts ++ written '{' '}' (tail.map Tok.ch ++ ws) := by
    rw [written_chs]; simp
  obtain ⟨us, u1, u2⟩ := strip_written hk _ hs.chars
  have hat' : atoms us = atoms e'.toks := by rw [← atoms_unspaced, u2, atoms_unspaced, atoms_chs, hat]
  have hc : ∀ d, .ch d ∈ us → opChar d := by
    intro d hd
    by_cases hsp : d = ' '
    · subst hsp; simp [opChar]
    · have := mem_unspaced hsp hd
      rw [u2] at this
      exact hs.chars d (List.mem_filter.mp this).1
  have hap : ∀ (s : List Char) (r : List (Tok (List Char))), apart false (s.map Tok.ch ++ r) = apart false r := by
    intro s r
    induction s with
    | nil => rfl
    | cons c s ih => rw [List.map_cons, List.cons_append, apart]; simpa using ih
  obtain ⟨ts', t1, t2⟩ := ecf_written hk (fun g => (subFunc (compile X ((g.drop 1).dropLast)) : Except PyErr (Filter (Ctx V)))) (subAsk X) us hc
    (by rw [hat']; exact fun b hq => closedGroup_braced (hb b hq))
    (by
      rw [hat']
      intro q hq
      have hd : (('{' :: (q ++ ['}'])).drop 1).dropLast = q := by simp
      simp only [hd]
      exact sub_made X env [] (hok q hq []))
    (by rw [hat', ← hat]; exact h2)
    (by
      rw [apart_unspaced, u2, ← apart_unspaced, hap, apart_unspaced, hws]
      have := apartE e' [] rfl
      rwa [List.append_nil] at this)
  have hcount : ∀ d, d ≠ ' ' → chCount d ts' = tail.count d + chCount d e'.toks := by
    intro d hd
    rw [← chCount_unspaced d hd ts', t1, u2]
    have m : ∀ l : List (Tok (List Char)), chCount d (l.map (mapTok (subAsk (V := V) X))) = chCount d l := by
      intro l
      induction l with
      | nil => rfl
      | cons t l ih => cases t <;> simp [mapTok, chCount_ch, chCount_atom, ih]
    have m2 : ∀ (s : List Char) (r : List (Tok (List Char))), chCount d (s.map Tok.ch ++ r) = s.count d + chCount d r := by
      intro s r
      induction s with
      | nil => simp
      | cons c s ih =>
        rw [List.map_cons, List.cons_append, chCount_ch, ih, List.count_cons]
        split <;> simp_all <;> omega
    rw [m, chCount_unspaced d hd, m2, ← hws, chCount_unspaced d hd]
  have hcomb : combined (atoms ts') (operands ts') = .error .valueError := by
    obtain ⟨o1, o2⟩ := expr_open e'
    have c1 := hcount '(' (by decide)
    have c2 := hcount ')' (by decide)
    have n1 : tail.count '(' = 0 := by
      rw [List.count_eq_zero]
      intro hm
      rcases htail _ hm with h | h <;> cases h
    have n2 : 0 < tail.count ')' := List.count_pos_iff.mpr hparen
    have n3 : chCount '(' ts' ≠ chCount ')' ts' := by omega
    unfold combined
    split
    · rfl
    · split
      · rfl
      · split
        · rfl
        · rw [if_pos]
          exact n3
  rw [e0, findAll, compile_subs (V := V) X plus a h (Or.inr hend) hs hne, u1, t2, hcomb]

/-! ## Examples -/

/-- `[i:1] | ([i:0] & ~[i:2])` as an expression of filters. -/
def demoExpr : Expr (List Char) :=
  .cons (.atom 0 ['i', ':', '1']) .or (.one (.group 0 (.cons (.atom 0 ['i', ':', '0']) .and (.one (.atom 1 ['i', ':', '2'])))))
/-- With spaces. -/
def demoToks : List (Tok (List Char)) :=
  [.ch ' ', .atom ['i', ':', '1'], .ch ' ', .ch '|', .ch ' ', .ch '(', .atom ['i', ':', '0'], .ch '&', .ch '~', .atom ['i', ':', '2'], .ch ')']

/-- Non-vacuity: the hypotheses of C37_find_all_plain hold, and it says something. -/
example : unspaced demoToks = demoExpr.toks ∧ demoExpr.Big ∧ (∀ b ∈ atoms demoExpr.toks, Lit b ∧ b.getLast? ≠ some '\\') ∧
    written '[' ']' demoToks = " [i:1] | ([i:0]&~[i:2])".toList ∧
    (∃ F : List Char → Filter (Ctx Nat), (∀ b ∈ atoms demoExpr.toks, mkFilter demoExt ('[' :: (b ++ [']'])) = .ok (F b)) ∧
      ∀ b ∈ atoms demoExpr.toks, ∀ ec ∈ candidates demoExt demoEnv false ⟨.children, false, .no⟩ [],
        F b (demoEnv, ec) = .ok (decide (b = ['i', ':', Char.ofNat (48 + ec.1)]))) ∧
    findAll demoExt demoEnv "* [i:1] | ([i:0]&~[i:2])".toList [] = ⟨[[0], [1]], none⟩ := by
  refine ⟨by decide, by simp [demoExpr, Expr.Big, Term.Big], ?_, by decide, ?_, by decide +kernel⟩
  · intro b hb
    have : b = ['i', ':', '1'] ∨ b = ['i', ':', '0'] ∨ b = ['i', ':', '2'] := by
      have e : atoms demoExpr.toks = [['i', ':', '1'], ['i', ':', '0'], ['i', ':', '2']] := by decide
      rw [e] at hb
      simpa using hb
    rcases this with h | h | h <;> subst h <;>
      exact ⟨.plain _ _ (by decide) (.plain _ _ (by decide) (.plain _ _ (by decide) .nil)), by decide⟩
  · have one : ∀ k : Nat, (mkFilter demoExt (indexFilter false [.one k]) : Except PyErr (Filter (Ctx Nat))) =
        .ok (fun x => .ok (decide (x.2.1 = k))) := by
      intro k
      rw [mkFilter_index demoExt false [.one k] (by simp)]
      simp [Idx.Has]
    refine ⟨fun b x => .ok (decide (x.2.1 = if b = ['i', ':', '1'] then 1 else if b = ['i', ':', '0'] then 0 else 2)), ?_, ?_⟩
    · intro b hb
      have : b = ['i', ':', '1'] ∨ b = ['i', ':', '0'] ∨ b = ['i', ':', '2'] := by
        have e : atoms demoExpr.toks = [['i', ':', '1'], ['i', ':', '0'], ['i', ':', '2']] := by decide
        rw [e] at hb
        simpa using hb
      rcases this with h | h | h <;> subst h
      · exact (by decide : ('[' :: (['i', ':', '1'] ++ [']'])) = indexFilter false [.one 1]) ▸ one 1
      · exact (by decide : ('[' :: (['i', ':', '0'] ++ [']'])) = indexFilter false [.one 0]) ▸ one 0
      · exact (by decide : ('[' :: (['i', ':', '2'] ++ [']'])) = indexFilter false [.one 2]) ▸ one 2
    · intro b hb ec hec
      have e1 : atoms demoExpr.toks = [['i', ':', '1'], ['i', ':', '0'], ['i', ':', '2']] := by decide
      have e2 : candidates demoExt demoEnv false ⟨.children, false, .no⟩ [] = [(0, [0]), (1, [1]), (2, [2])] := by decide
      rw [e1] at hb
      rw [e2] at hec
      simp only [List.mem_cons, List.not_mem_nil, or_false] at hb hec
      rcases hb with h | h | h <;> subst h <;> rcases hec with h | h | h <;> subst h <;> rfl

/-- Non-vacuity: sub-queries with operators; a parenthesis before a sub-query; a lone group; a missing operator. -/
example : findAll demoExt demoEnv "* ~({>} & {<})".toList [] = ⟨[[0], [2]], none⟩ ∧
    findAll demoExt demoEnv "*[i:1] | [i:0] ~{<}".toList [] = ⟨[[0]], none⟩ ∧
    findAll demoExt demoEnv "*([i:0] | [i:1]){>}".toList [] = ⟨[], some .valueError⟩ ∧
    findAll demoExt demoEnv "*[i:0] | ([i:1])".toList [] = ⟨[], some .typeError⟩ ∧
    findAll demoExt demoEnv "*[i:0] [i:1]".toList [] = ⟨[], some .valueError⟩ := by
  refine ⟨?_, ?_, ?_, ?_, ?_⟩ <;> decide +kernel
example : ∃ e : Expr (List Char), unspaced [.ch ' ', .ch '~', .ch '(', .atom ['>'], .ch ' ', .ch '&', .ch ' ', .atom ['<'], .ch ')'] = e.toks ∧
    (∀ q ∈ atoms e.toks, Braced q) ∧ e.late = false ∧ (∀ q ∈ atoms e.toks, (findAll demoExt demoEnv q [1]).exc = none) := by
  refine ⟨.one (.group 1 (.cons (.atom 0 ['>']) .and (.one (.atom 0 ['<'])))), by decide, ?_, rfl, by decide⟩
  intro q hq
  have e : atoms (Expr.one (.group 1 (.cons (.atom 0 ['>']) .and (.one (.atom 0 ['<']))))).toks = [['>'], ['<']] := by decide
  rw [e] at hq
  simp only [List.mem_cons, List.not_mem_nil, or_false] at hq
  rcases hq with h | h <;> subst h <;> exact .plain _ _ (by decide) (by decide) (by decide) .nil

end Pawpaw.Props
