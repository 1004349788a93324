import Verif.Props.QueryExprText
/-!
# C117, C125: operators between filters and sub-queries, and malformed expressions of filters
-/
set_option linter.unusedSectionVars false
namespace Pawpaw.Props
open Pawpaw Pawpaw.Query Pawpaw.Util Pawpaw.Ecf QuerySpec UtilSpec TreeSpec PyStr EcfSpec
variable {V : Type} [DecidableEq V]

theorem chCount_map {A B : Type} (f : A → B) (d : Char) (l : List (Tok A)) : chCount d (l.map (mapTok f)) = chCount d l := by
  induction l with
  | nil => rfl
  | cons t l ih => cases t <;> simp [mapTok, chCount_ch, chCount_atom, ih]

theorem opChars_map {A B : Type} {f : A → B} {ts : List (Tok A)} {ts' : List (Tok B)} (h : unspaced ts' = (unspaced ts).map (mapTok f))
    (hc : ∀ d, .ch d ∈ ts → opChar d) : ∀ d, .ch d ∈ ts' → opChar d := by
  intro d hd
  by_cases hs : d = ' '
  · subst hs; simp [opChar]
  · have := mem_unspaced hs hd
    rw [h, List.mem_map] at this
    obtain ⟨t, ht, he⟩ := this
    cases t with
    | atom b => cases he
    | ch e => cases he; exact hc d (List.mem_filter.mp ht).1

theorem opChars_strip {A : Type} {ts ts' : List (Tok A)} (h : unspaced ts' = unspaced ts)
    (hc : ∀ d, .ch d ∈ ts → opChar d) : ∀ d, .ch d ∈ ts' → opChar d := by
  intro d hd
  by_cases hs : d = ' '
  · subst hs; simp [opChar]
  · have := mem_unspaced hs hd
    rw [h] at this
    exact hc d (List.mem_filter.mp this).1

/-- The constructor on a list of tokens. -/
theorem combined_toks {E : Type} (ts : List (Tok (Filter E))) (hc : ∀ d, .ch d ∈ ts → opChar d) (hne : atoms ts ≠ []) :
    combined (atoms ts) (operands ts) =
      if chCount '(' ts ≠ chCount ')' ts then .error .valueError else pz (chCount '(' ts) ts := by
  have hany : (operands ts).any (fun op => op.any (fun c => decide (c ∉ operators ∧ c ∉ [' ', '(', ')']))) = false := by
    rw [List.any_eq_false]
    intro op hop
    rw [Bool.not_eq_true, List.any_eq_false]
    intro c hcm
    rw [Bool.not_eq_true]
    apply decide_eq_false
    have := hc c (mem_operands hop hcm)
    simp only [opChar, List.mem_cons, List.not_mem_nil, or_false] at this
    rcases this with h | h | h | h | h | h | h <;> subst h <;> decide
  unfold combined
  rw [if_neg (by rw [List.length_eq_zero_iff]; exact hne), if_neg (by rw [operands_length]; simp), hany, if_neg (by simp)]
  rfl

/-! ## An operator between the filters and a sub-query -/

theorem unspaced_atom {A : Type} (a : A) (ts : List (Tok A)) : unspaced (.atom a :: ts) = .atom a :: unspaced ts :=
  unspaced_keep (.atom a) (by simp) ts

/-- A single sub-query with operators in front: only the negations count. -/
theorem sub_leading (X : Ext) (env : Env V) (q : List Char) (hb : Braced q) (x : Path) (hok : (findAll X env q x).exc = none)
    (ops : List Char) (ho : ∀ c ∈ ops, c ∈ ['&', '^', '|', '~', ' ']) :
    (ecf '{' '}' (fun g => subFunc (compile X ((g.drop 1).dropLast))) (strip (written '{' '}' (ops.map Tok.ch ++ [.atom q]))) :
      Except PyErr (Filter (Ctx V))) = .ok (fun y => evalOne ops (subAsk X q) y) := by
  have hk : Kinds '{' '}' := Or.inr ⟨rfl, rfl⟩
  have hc : ∀ d, Tok.ch d ∈ (ops.map Tok.ch ++ [.atom q] : List (Tok (List Char))) → opChar d := by
    intro d hd
    have : d ∈ ops := by simpa using hd
    have := ho d this
    simp only [List.mem_cons, List.not_mem_nil, or_false] at this
    rcases this with h | h | h | h | h <;> subst h <;> simp [opChar]
  obtain ⟨us, u1, u2⟩ := strip_written hk _ hc
  have hat : atoms us = [q] := by rw [← atoms_unspaced, u2, atoms_unspaced, atoms_chs]; rfl
  have hap : ∀ (s : List Char) (r : List (Tok (List Char))), apart false (s.map Tok.ch ++ r) = apart false r := by
    intro s r
    induction s with
    | nil => rfl
    | cons c s ih => rw [List.map_cons, List.cons_append, apart]; simpa using ih
  obtain ⟨ts', t1, t2⟩ := ecf_written hk (fun g => (subFunc (compile X ((g.drop 1).dropLast)) : Except PyErr (Filter (Ctx V)))) (subAsk X) us
    (opChars_strip u2 hc) (by rw [hat]; intro b hq; rw [List.mem_singleton.mp hq]; exact closedGroup_braced hb)
    (by
      rw [hat]
      intro b hq
      rw [List.mem_singleton.mp hq]
      have hd : (('{' :: (q ++ ['}'])).drop 1).dropLast = q := by simp
      simp only [hd]
      exact sub_made X env x hok)
    (by rw [hat]; simp)
    (by rw [apart_unspaced, u2, ← apart_unspaced, hap]; rfl)
  have hm : ∀ d, d ≠ ' ' → chCount d ts' = ops.count d := by
    intro d hd
    rw [← chCount_unspaced d hd ts', t1, u2, chCount_map, chCount_unspaced d hd, chCount_append, chCount_atom]
    simp [chCount, operands_chs, operands]
  have hat' : atoms ts' = [subAsk X q] := by
    rw [← atoms_unspaced, t1, u2, atoms_map, atoms_unspaced, atoms_chs]; rfl
  have h0 : ops.count '(' = 0 := by
    rw [List.count_eq_zero]; intro h; have := ho _ h; simp at this
  have h1 : ops.count ')' = 0 := by
    rw [List.count_eq_zero]; intro h; have := ho _ h; simp at this
  rw [u1, t2, combined_toks ts' (opChars_map t1 (opChars_strip u2 hc)) (by rw [hat']; simp), hm _ (by decide), hm _ (by decide), h0, h1,
    if_neg (by simp)]
  simp only [pz, parens]
  congr 1
  have hop : (operands ts').map (·.filter notSpace) = [ops.filter notSpace, []] := by
    rw [← operands_unspaced, t1, u2, unspaced_append, unspaced_chars, List.map_append, List.map_map]
    have e : (mapTok (subAsk (V := V) X) ∘ (Tok.ch : Char → Tok (List Char))) = Tok.ch := rfl
    have e2 : (unspaced [Tok.atom q] : List (Tok (List Char))) = [.atom q] := rfl
    rw [e, e2, List.map_cons, mapTok, operands_chs_atom]
    rfl
  have hn : ∀ s : List Char, (s.filter notSpace).count '~' = s.count '~' := by
    intro s
    rw [List.count_filter (by decide)]
  rw [hat']
  obtain ⟨o0, o1, e⟩ : ∃ o0 o1, operands ts' = [o0, o1] := by
    have := operands_length ts'
    rw [hat'] at this
    match h : operands ts', this with
    | [a, b], _ => exact ⟨a, b, rfl⟩
  rw [e] at hop ⊢
  simp only [List.map_cons, List.map_nil, List.cons.injEq, and_true] at hop
  have hcnt : o0.count '~' = ops.count '~' := by rw [← hn o0, hop.1, hn ops]
  funext y
  simp only [func, evalAll, evalOne, hcnt]
  cases subAsk X q y with
  | error e => rfl
  | ok v => simp [reduce]

/-- C117 violated: the operators between the filters and a sub-query are not applied — `*[a] | {q}` is read as `*[a]{q}`, which
keeps what satisfies both.  Of what stands there only the negations count. -/
theorem C117_operator_violated (X : Ext) (env : Env V) (plus : Bool) (a : Axis) (ts : List (Tok (List Char))) (h : FilterToks ts)
    (hend : ∃ s b, ts = s ++ [.atom b]) (ops : List Char) (ho : ∀ c ∈ ops, c ∈ ['&', '^', '|', '~', ' '])
    (q : List Char) (hb : Braced q) (x : Path) (hok : (findAll X env q x).exc = none) :
    findAll X env (axisText plus a ++ written '[' ']' ts ++ (ops ++ '{' :: (q ++ ['}']))) x =
      findAll X env (axisText plus a ++ written '[' ']' ts ++ (ops.filter (· = '~') ++ '{' :: (q ++ ['}']))) x := by
  have hw : ∀ ops : List Char, (∀ c ∈ ops, c ∈ ['&', '^', '|', '~', ' ']) → SubToks (ops.map Tok.ch ++ [.atom q]) := by
    intro ops ho
    refine ⟨?_, fun b hq => ?_⟩
    rotate_left
    · have e : b = q := by simpa [atoms_chs, atoms] using hq
      rw [e]; exact hb
    intro d hd
    have : d ∈ ops := by simpa using hd
    have := ho d this
    simp only [List.mem_cons, List.not_mem_nil, or_false] at this
    rcases this with h | h | h | h | h <;> subst h <;> simp [opChar]
  have hf : ∀ c ∈ ops.filter (· = '~'), c ∈ ['&', '^', '|', '~', ' '] := fun c hc => ho c (List.mem_filter.mp hc).1
  have he : (fun y => evalOne ops (subAsk (V := V) X q) y) = fun y => evalOne (ops.filter (· = '~')) (subAsk X q) y := by
    funext y
    have hn : (ops.filter (· = '~')).count '~' = ops.count '~' := List.count_filter (by simp)
    simp only [evalOne, hn]
  have k1 := compile_subs (V := V) X plus a h (Or.inr hend) (hw ops ho) (by rw [atoms_chs]; simp [atoms])
  have k2 := compile_subs (V := V) X plus a h (Or.inr hend) (hw _ hf) (by rw [atoms_chs]; simp [atoms])
  rw [sub_leading X env q hb x hok ops ho, he, written_chs] at k1
  rw [sub_leading X env q hb x hok _ hf, written_chs] at k2
  have k3 := k1.trans k2.symm
  simp only [written] at k3
  unfold findAll
  rw [k3]

/-! ## Two filters without an operator between them -/

/-- Two filters with nothing but negations and spaces between them. -/
def NoOperator (ts : List (Tok (List Char))) : Prop :=
  ∃ (A : List (Tok (List Char))) (b : List Char) (gap : List Char) (b' : List Char) (B : List (Tok (List Char))), ts = A ++ .atom b :: (gap.map Tok.ch ++ .atom b' :: B) ∧ ∀ c ∈ gap, c = '~' ∨ c = ' '

theorem gapAfter_unspaced {A : Type} (ts : List (Tok A)) : gapAfter (unspaced ts) = gapAfter ts := by
  induction ts with
  | nil => rfl
  | cons t ts ih =>
    cases t with
    | atom a => rw [unspaced_atom]; rfl
    | ch c =>
      by_cases h : c = ' '
      · subst h; rw [unspaced_drop, ih]; simp [gapAfter]
      · rw [unspaced_keep _ (by simpa using h), gapAfter, gapAfter, ih]

theorem gapped_unspaced {A : Type} (ts : List (Tok A)) : gapped (unspaced ts) = gapped ts := by
  induction ts with
  | nil => rfl
  | cons t ts ih =>
    cases t with
    | atom a => rw [unspaced_atom, gapped, gapped, ih, gapAfter_unspaced]
    | ch c =>
      by_cases h : c = ' '
      · subst h; rw [unspaced_drop, ih]; rfl
      · rw [unspaced_keep _ (by simpa using h), gapped, gapped, ih]

theorem gapped_map {A B : Type} (f : A → B) (ts : List (Tok A)) : gapped (ts.map (mapTok f)) = gapped ts := by
  have h1 : ∀ ts : List (Tok A), gapAfter (ts.map (mapTok f)) = gapAfter ts := by
    intro ts
    induction ts with
    | nil => rfl
    | cons t ts ih => cases t <;> simp [mapTok, gapAfter, ih]
  induction ts with
  | nil => rfl
  | cons t ts ih => cases t <;> simp [mapTok, gapped, ih, h1]

theorem noOperator_gapped {ts : List (Tok (List Char))} (h : NoOperator ts) : gapped ts = true := by
  obtain ⟨A, b, gap, b', B, rfl, hg⟩ := h
  apply gapped_append_right
  have : gapAfter (gap.map Tok.ch ++ .atom b' :: B : List (Tok (List Char))) = true := by
    induction gap with
    | nil => rfl
    | cons c gap ih =>
      rw [List.map_cons, List.cons_append, gapAfter, ih (fun d hd => hg d (by simp [hd]))]
      rcases hg c (by simp) with rfl | rfl <;> decide
  rw [gapped, this]; rfl

/-- C125: where nothing but negations and spaces stands between two filters, the query never gives a result: it is refused with
`ValueError`, or the first result of the axis raises `TypeError`. -/
theorem C125_gap_partial (X : Ext) (env : Env V) (plus : Bool) (a : Axis) (ts : List (Tok (List Char))) (h : FilterToks ts)
    (hgap : NoOperator ts) (F : List Char → Filter (Ctx V)) (hm : ∀ b ∈ atoms ts, mkFilter X ('[' :: (b ++ [']'])) = .ok (F b)) (x : Path)
    (hv : ∀ b ∈ atoms ts, ∀ ec ∈ candidates X env plus a x, ∃ v, F b (env, ec) = .ok v) :
    findAll X env (axisText plus a ++ written '[' ']' ts) x = .raise .valueError ∨
      findAll X env (axisText plus a ++ written '[' ']' ts) x =
        if (findAll X env (axisText plus a) x).out = [] then findAll X env (axisText plus a) x else .raise .typeError := by
  have hne : atoms ts ≠ [] := by
    obtain ⟨A, b, g, b', B, rfl, _⟩ := hgap
    rw [atoms_append, atoms]; simp
  have hk : Kinds '[' ']' := Or.inl ⟨rfl, rfl⟩
  obtain ⟨ts1, s1, s2⟩ := strip_written hk ts h.chars
  have hat : atoms ts1 = atoms ts := by rw [← atoms_unspaced, s2, atoms_unspaced]
  have hc := opChars_strip s2 h.chars
  have hg : ∀ b ∈ atoms ts1, ClosedGroup '[' ']' b := by rw [hat]; exact fun b hb => closedGroup_lit (h.lit b hb).1 (h.lit b hb).2
  have hcomp := compile_filters (V := V) X plus a h hne
  obtain ⟨a1, a2⟩ := findAll_axis X env plus a x
  by_cases hap : apart false ts1 = true
  case neg =>
    left
    have h3 := collect_gather '[' ']' (mkFilter X : _ → Except PyErr (Filter (Ctx V))) ts1 true [] []
    simp only [List.append_nil, List.nil_append, List.length_nil] at h3
    have : (ecf '[' ']' (mkFilter X) (strip (written '[' ']' ts)) : Except PyErr (Filter (Ctx V))) = .error .valueError := by
      rw [s1]
      unfold ecf
      rw [if_neg (by rw [count_written hk ts1 hc hg]; simp), groups_written hk ts1 0 hc hg, h3,
        gather_near '[' ']' (mkFilter X) F ts1 true [] (by simp) hc (by rw [hat]; exact hm) (by simpa using hap)]
    rw [findAll, hcomp, this]
  case pos =>
    obtain ⟨ts', t1, t2⟩ := ecf_written hk (mkFilter X) F ts1 hc hg (by rw [hat]; exact hm) (by rw [hat]; exact hne) hap
    have hat' : atoms ts' = (atoms ts).map F := by rw [← atoms_unspaced, t1, s2, atoms_map, atoms_unspaced]
    have hne' : atoms ts' ≠ [] := by rw [hat']; simpa using hne
    have hgp : gapped ts' = true := by
      rw [← gapped_unspaced, t1, gapped_map, s2, gapped_unspaced]; exact noOperator_gapped hgap
    rw [combined_toks ts' (opChars_map t1 hc) hne'] at t2
    by_cases hb : chCount '(' ts' ≠ chCount ')' ts'
    · left
      rw [if_pos hb] at t2
      rw [findAll, hcomp, s1, t2]
    · rw [if_neg hb] at t2
      rcases gapped_error _ ts' (Nat.le_refl _) hne' with e1 | ⟨fs, os, e1, e2⟩
      · left
        rw [e1] at t2
        rw [findAll, hcomp, s1, t2]
      · right
        rw [e1] at t2
        have : findAll X env (axisText plus a ++ written '[' ']' ts) x = runPhrases env [⟨a, func fs os, tautology⟩] ⟨[x], none⟩ := by
          rw [findAll, hcomp, s1, t2]
        rw [this, findAll_one, a1, a2]
        have h3 : ∀ ec ∈ candidates X env plus a x, andAsk (func fs os (env, ec)) (tautology (V := V) (env, ec)) = .error .typeError := by
          intro ec hec
          rw [e2 (env, ec) (by
            intro f hf
            rw [hat', List.mem_map] at hf
            obtain ⟨b, hb, rfl⟩ := hf
            exact Or.inl (hv b hb ec hec)) (Or.inl hgp)]
          rfl
        unfold candidates at h3 ⊢
        generalize findAll X env (axisText plus a) x = R at h3
        obtain ⟨out, exc⟩ := R
        cases out with
        | nil => rfl
        | cons y out =>
          have h4 := h3 (0, y) (by simp [List.range_succ_eq_map])
          simp only [List.length_cons, List.range_succ_eq_map, List.zip_cons_cons, Run.filterList, h4]
          rfl

/-! ## Unbalanced parentheses -/

/-- C125: a different number of opening and closing parentheses is refused with `ValueError`. -/
theorem C125_unbalanced_partial (X : Ext) (env : Env V) (plus : Bool) (a : Axis) (ts : List (Tok (List Char))) (h : FilterToks ts)
    (hne : atoms ts ≠ []) (F : List Char → Filter (Ctx V)) (hm : ∀ b ∈ atoms ts, mkFilter X ('[' :: (b ++ [']'])) = .ok (F b))
    (hb : ts.count (.ch '(') ≠ ts.count (.ch ')')) (x : Path) :
    findAll X env (axisText plus a ++ written '[' ']' ts) x = .raise .valueError := by
  have hcnt : ∀ (d : Char) (l : List (Tok (List Char))), l.count (.ch d) = chCount d l := by
    intro d l
    induction l with
    | nil => rfl
    | cons t l ih =>
      cases t with
      | atom b => rw [chCount_atom, List.count_cons_of_ne (by simp), ih]
      | ch e =>
        rw [chCount_ch, List.count_cons, ih]
        by_cases he : e = d <;> simp [he] <;> omega
  rw [hcnt, hcnt] at hb
  have hk : Kinds '[' ']' := Or.inl ⟨rfl, rfl⟩
  obtain ⟨ts1, s1, s2⟩ := strip_written hk ts h.chars
  have hat : atoms ts1 = atoms ts := by rw [← atoms_unspaced, s2, atoms_unspaced]
  have hc := opChars_strip s2 h.chars
  have hg : ∀ b ∈ atoms ts1, ClosedGroup '[' ']' b := by rw [hat]; exact fun b hb => closedGroup_lit (h.lit b hb).1 (h.lit b hb).2
  have hcomp := compile_filters (V := V) X plus a h hne
  have he : (ecf '[' ']' (mkFilter X) (strip (written '[' ']' ts)) : Except PyErr (Filter (Ctx V))) = .error .valueError := by
    rw [s1]
    by_cases hap : apart false ts1 = true
    · obtain ⟨ts', t1, t2⟩ := ecf_written hk (mkFilter X) F ts1 hc hg (by rw [hat]; exact hm) (by rw [hat]; exact hne) hap
      have hat' : atoms ts' = (atoms ts).map F := by rw [← atoms_unspaced, t1, s2, atoms_map, atoms_unspaced]
      have hcc : ∀ d, d ≠ ' ' → chCount d ts' = chCount d ts := by
        intro d hd
        rw [← chCount_unspaced d hd ts', t1, s2, chCount_map, chCount_unspaced d hd]
      rw [t2, combined_toks ts' (opChars_map t1 hc) (by rw [hat']; simpa using hne), hcc _ (by decide), hcc _ (by decide), if_pos hb]
    · have h3 := collect_gather '[' ']' (mkFilter X : _ → Except PyErr (Filter (Ctx V))) ts1 true [] []
      simp only [List.append_nil, List.nil_append, List.length_nil] at h3
      unfold ecf
      rw [if_neg (by rw [count_written hk ts1 hc hg]; simp), groups_written hk ts1 0 hc hg, h3,
        gather_near '[' ']' (mkFilter X) F ts1 true [] (by simp) hc (by rw [hat]; exact hm) (by simpa using hap)]
  rw [findAll, hcomp, he]

/-! ## Superfluous operators -/

/-- The strongest of the binary operators in a text. -/
def strongest (o : List Char) : Option Op :=
  if '&' ∈ o then some .and else if '^' ∈ o then some .xor else if '|' ∈ o then some .or else none

/-- What of the text between two filters counts: the number of negations and the strongest binary operator. -/
def reading (o : List Char) : Nat × Option Op := (o.count '~', strongest o)

theorem findIdx_congr {A : Type} {p q : A → Bool} {l : List A} (h : ∀ x ∈ l, p x = q x) : l.findIdx? p = l.findIdx? q := by
  induction l with
  | nil => rfl
  | cons x l ih => rw [List.findIdx?_cons, List.findIdx?_cons, h x (by simp), ih (fun y hy => h y (by simp [hy]))]

theorem highest_strongest (ops : List (List Char)) : highestFrom ops diadic =
    match (ops.map strongest).findIdx? (fun s => decide (s = some .and)) with
    | some i => some (i, and)
    | none =>
      match (ops.map strongest).findIdx? (fun s => decide (s = some .xor)) with
      | some i => some (i, xor)
      | none =>
        match (ops.map strongest).findIdx? (fun s => decide (s = some .or)) with
        | some i => some (i, or)
        | none => none := by
  have e1 : ops.findIdx? (fun op => decide ('&' ∈ op)) = (ops.map strongest).findIdx? (fun s => decide (s = some .and)) := by
    rw [List.findIdx?_map]
    apply findIdx_congr
    intro o _
    simp only [Function.comp, strongest]
    by_cases h : '&' ∈ o
    · simp [h]
    · by_cases h2 : '^' ∈ o <;> by_cases h3 : '|' ∈ o <;> simp [h, h2, h3]
  simp only [diadic, highestFrom, e1]
  cases hf : (ops.map strongest).findIdx? (fun s => decide (s = some .and)) with
  | some i => rfl
  | none =>
    rw [← e1, List.findIdx?_eq_none_iff] at hf
    have e2 : ops.findIdx? (fun op => decide ('^' ∈ op)) = (ops.map strongest).findIdx? (fun s => decide (s = some .xor)) := by
      rw [List.findIdx?_map]
      apply findIdx_congr
      intro o ho
      have h : '&' ∉ o := by simpa using hf o ho
      simp only [Function.comp, strongest]
      by_cases h2 : '^' ∈ o <;> by_cases h3 : '|' ∈ o <;> simp [h, h2, h3]
    simp only [e2]
    cases hf2 : (ops.map strongest).findIdx? (fun s => decide (s = some .xor)) with
    | some i => rfl
    | none =>
      rw [← e2, List.findIdx?_eq_none_iff] at hf2
      have e3 : ops.findIdx? (fun op => decide ('|' ∈ op)) = (ops.map strongest).findIdx? (fun s => decide (s = some .or)) := by
        rw [List.findIdx?_map]
        apply findIdx_congr
        intro o ho
        have h : '&' ∉ o := by simpa using hf o ho
        have h2 : '^' ∉ o := by simpa using hf2 o ho
        simp only [Function.comp, strongest]
        by_cases h3 : '|' ∈ o <;> simp [h, h2, h3]
      simp only [e3]
      cases (ops.map strongest).findIdx? (fun s => decide (s = some .or)) <;> rfl

theorem reduce_strongest : ∀ (n : Nat) (vals : List Bool) (ops ops' : List (List Char)), ops.map strongest = ops'.map strongest →
    reduce n vals ops = reduce n vals ops'
  | _, [], _, _, _ => by simp [reduce]
  | _, [v], _, _, _ => by simp [reduce]
  | 0, _ :: _ :: _, _, _, _ => by simp [reduce]
  | n + 1, u :: v :: vs, ops, ops', h => by
    simp only [reduce]
    rw [highest_strongest, highest_strongest, h]
    split
    · rfl
    · split
      · apply reduce_strongest
        rw [List.map_append, List.map_append, List.map_take, List.map_take, List.map_drop, List.map_drop, h]
      · rfl

theorem evalAll_counts {E : Type} (x : E) : ∀ (fs : List (Filter E)) (os os' : List (List Char)),
    (os.take fs.length).map (·.count '~') = (os'.take fs.length).map (·.count '~') → evalAll x os fs = evalAll x os' fs
  | [], os, os', _ => by cases os <;> cases os' <;> rfl
  | f :: fs, [], [], _ => rfl
  | f :: fs, [], _ :: _, h => by simp at h
  | f :: fs, _ :: _, [], h => by simp at h
  | f :: fs, o :: os, o' :: os', h => by
    simp only [List.length_cons, List.take_succ_cons, List.map_cons, List.cons.injEq] at h
    simp only [evalAll, evalOne, h.1, evalAll_counts x fs os os' h.2]

theorem operands_map {A B : Type} (f : A → B) (ts : List (Tok A)) : operands (ts.map (mapTok f)) = operands ts := by
  induction ts with
  | nil => rfl
  | cons t ts ih => cases t <;> simp [mapTok, operands, ih]

theorem reading_filter (o : List Char) : reading (o.filter notSpace) = reading o := by
  have h : ∀ c, c ≠ ' ' → (c ∈ o.filter notSpace ↔ c ∈ o) := by
    intro c hc; rw [List.mem_filter]; simp [notSpace, hc]
  unfold reading strongest
  rw [List.count_filter (by decide)]
  simp only [h '&' (by decide), h '^' (by decide), h '|' (by decide)]

theorem apart_operands : ∀ (ts : List (Tok (List Char))) (near : Bool), apart near ts =
    match operands ts with
    | o :: r :: os => (!near || o.any notSpace) && ((r :: os).dropLast).all (fun o => o.any notSpace)
    | _ => true
  | [], near => rfl
  | .ch d :: ts, near => by
    obtain ⟨o, os, e⟩ := operands_cons ts
    rw [apart, apart_operands ts, operands, e]
    cases os with
    | nil => rfl
    | cons r os =>
      simp only [List.any_cons, notSpace]
      by_cases hd : d = ' ' <;> cases near <;> simp [hd]
  | .atom b :: ts, near => by
    obtain ⟨o, os, e⟩ := operands_cons ts
    rw [apart, apart_operands ts, operands, e]
    cases os with
    | nil => cases near <;> simp
    | cons r os => cases near <;> simp [List.dropLast_cons_cons]

theorem any_reading {o : List Char} (h : ∀ c ∈ o, c ∈ ['&', '^', '|', '~', ' ']) :
    o.any notSpace = decide (reading o ≠ (0, none)) := by
  rw [Bool.eq_iff_iff, List.any_eq_true, decide_eq_true_eq]
  constructor
  · rintro ⟨c, hc, hn⟩ he
    simp only [reading, Prod.mk.injEq, List.count_eq_zero] at he
    obtain ⟨e1, e2⟩ := he
    have := h c hc
    simp only [List.mem_cons, List.not_mem_nil, or_false] at this
    unfold strongest at e2
    rcases this with rfl | rfl | rfl | rfl | rfl
    · simp [hc] at e2
    · by_cases h1 : '&' ∈ o <;> simp [hc, h1] at e2
    · by_cases h1 : '&' ∈ o <;> by_cases h2 : '^' ∈ o <;> simp [hc, h1, h2] at e2
    · exact e1 hc
    · simp [notSpace] at hn
  · intro he
    by_cases h1 : '&' ∈ o
    · exact ⟨_, h1, by decide⟩
    · by_cases h2 : '^' ∈ o
      · exact ⟨_, h2, by decide⟩
      · by_cases h3 : '|' ∈ o
        · exact ⟨_, h3, by decide⟩
        · by_cases h4 : '~' ∈ o
          · exact ⟨_, h4, by decide⟩
          · exact absurd (by simp [reading, strongest, h1, h2, h3, List.count_eq_zero.mpr h4]) he

/-- What an expression of filters without parentheses is read as. -/
theorem ecf_reading {E : Type} (mk : List Char → Except PyErr (Filter E)) (F : List Char → Filter E) (ts us : List (Tok (List Char)))
    (hts : ∀ d, .ch d ∈ ts → d ∈ ['&', '^', '|', '~', ' ']) (hus : ∀ d, .ch d ∈ us → d ∈ ['&', '^', '|', '~', ' '])
    (hne : atoms ts ≠ []) (hg : ∀ b ∈ atoms ts, ClosedGroup '[' ']' b) (hm : ∀ b ∈ atoms ts, mk ('[' :: (b ++ [']'])) = .ok (F b))
    (hat : atoms us = atoms ts)
    (hfirst : (operands us).head?.map (·.count '~') = (operands ts).head?.map (·.count '~'))
    (hmid : (((operands us).drop 1).dropLast).map reading = (((operands ts).drop 1).dropLast).map reading) :
    ecf '[' ']' mk (strip (written '[' ']' us)) = ecf '[' ']' mk (strip (written '[' ']' ts)) := by
  have hk : Kinds '[' ']' := Or.inl ⟨rfl, rfl⟩
  have toOp : ∀ d, d ∈ ['&', '^', '|', '~', ' '] → opChar d := by
    intro d h
    simp only [List.mem_cons, List.not_mem_nil, or_false] at h
    rcases h with h | h | h | h | h <;> subst h <;> simp [opChar]
  -- both texts at once
  have key : ∀ ws : List (Tok (List Char)), (∀ d, .ch d ∈ ws → d ∈ ['&', '^', '|', '~', ' ']) → atoms ws = atoms ts →
      if ((((operands ws).drop 1).dropLast).map reading).all (fun r => decide (r ≠ (0, none))) = true then
        ∃ os, os.map reading = (operands ws).map reading ∧
          ecf '[' ']' mk (strip (written '[' ']' ws)) = .ok (func ((atoms ts).map F) os)
      else ecf '[' ']' mk (strip (written '[' ']' ws)) = .error .valueError := by
    intro ws hws haw
    obtain ⟨ws1, s1, s2⟩ := strip_written hk ws (fun d hd => toOp d (hws d hd))
    have hat1 : atoms ws1 = atoms ts := by rw [← atoms_unspaced, s2, atoms_unspaced, haw]
    have hc := opChars_strip s2 (fun d hd => toOp d (hws d hd))
    have hap : apart false ws1 = ((((operands ws).drop 1).dropLast).map reading).all (fun r => decide (r ≠ (0, none))) := by
      rw [apart_unspaced, s2, ← apart_unspaced, apart_operands]
      obtain ⟨o, os, e⟩ := operands_cons ws
      rw [e]
      cases os with
      | nil => rfl
      | cons r os =>
        simp only [Bool.not_false, Bool.true_or, Bool.true_and, List.drop_succ_cons, List.drop_zero, List.all_map]
        rw [Bool.eq_iff_iff, List.all_eq_true, List.all_eq_true]
        have : ∀ q ∈ (r :: os).dropLast, q.any notSpace = decide (reading q ≠ (0, none)) := by
          intro q hq
          apply any_reading
          intro c hcq
          exact hws c (mem_operands (by rw [e]; exact List.mem_cons_of_mem _ (List.dropLast_subset _ hq)) hcq)
        exact forall_congr' fun q => forall_congr' fun hq => by rw [this q hq]; rfl
    rw [← hap, s1]
    split
    · rename_i ha
      obtain ⟨ws', t1, t2⟩ := ecf_written hk mk F ws1 hc (by rw [hat1]; exact hg) (by rw [hat1]; exact hm) (by rw [hat1]; exact hne) ha
      have hat' : atoms ws' = (atoms ts).map F := by rw [← atoms_unspaced, t1, s2, atoms_map, atoms_unspaced, haw]
      have hz : ∀ d, d ∉ ['&', '^', '|', '~', ' '] → chCount d ws' = 0 := by
        intro d hd
        have hsp : d ≠ ' ' := by rintro rfl; simp at hd
        rw [← chCount_unspaced d hsp ws', t1, s2, chCount_map, chCount_unspaced d hsp]
        apply chCount_zero
        exact fun hm => hd (hws d hm)
      rw [combined_toks ws' (opChars_map t1 hc) (by rw [hat']; simpa using hne), hz '(' (by decide), hz ')' (by decide),
        if_neg (by simp)] at t2
      refine ⟨operands ws', ?_, ?_⟩
      · have e1 : ∀ l : List (List Char), l.map reading = (l.map (·.filter notSpace)).map reading := by
          intro l
          rw [List.map_map]
          apply List.map_congr_left
          intro o _
          exact (reading_filter o).symm
        rw [e1 (operands ws'), e1 (operands ws), ← operands_unspaced, ← operands_unspaced, t1, s2, operands_map]
      · rw [t2]
        simp only [pz, parens, hat']
    · rename_i ha
      have h3 := collect_gather '[' ']' mk ws1 true [] []
      simp only [List.append_nil, List.nil_append, List.length_nil] at h3
      have hg1 : ∀ b ∈ atoms ws1, ClosedGroup '[' ']' b := by rw [hat1]; exact hg
      unfold ecf
      rw [if_neg (by rw [count_written hk ws1 hc hg1]; simp), groups_written hk ws1 0 hc hg1, h3,
        gather_near '[' ']' mk F ws1 true [] (by simp) hc (by rw [hat1]; exact hm) (by simpa using ha)]
  have k1 := key us hus hat
  have k2 := key ts hts rfl
  rw [hmid] at k1
  split at k1
  · rename_i hc
    rw [if_pos hc] at k2
    obtain ⟨os, o1, o2⟩ := k1
    obtain ⟨os', o1', o2'⟩ := k2
    rw [o2, o2']
    congr 1
    funext x
    have hl : ∀ (ws : List (Tok (List Char))) (r : List (List Char)), atoms ws = atoms ts → r.map reading = (operands ws).map reading →
        r.length = (atoms ts).length + 1 := by
      intro ws r hw hr
      have := congrArg List.length hr
      rw [List.length_map, List.length_map, operands_length, hw] at this
      exact this
    have l1 := hl us os hat o1
    have l2 := hl ts os' rfl o1'
    have hmid2 : ((os.drop 1).dropLast).map reading = ((os'.drop 1).dropLast).map reading := by
      rw [List.map_dropLast, List.map_drop, o1, List.map_dropLast, List.map_drop, o1', ← List.map_drop, ← List.map_dropLast, hmid,
        List.map_dropLast, List.map_drop]
    have hst : ((os.drop 1).dropLast).map strongest = ((os'.drop 1).dropLast).map strongest := by
      have := congrArg (List.map Prod.snd) hmid2
      simpa [List.map_map, Function.comp_def, reading] using this
    have hct : ((os.drop 1).dropLast).map (·.count '~') = ((os'.drop 1).dropLast).map (·.count '~') := by
      have := congrArg (List.map Prod.fst) hmid2
      simpa [List.map_map, Function.comp_def, reading] using this
    have hhd : os.head?.map (·.count '~') = os'.head?.map (·.count '~') := by
      have q : ∀ r : List (List Char), r.head?.map (·.count '~') = (r.map reading).head?.map Prod.fst := by
        intro r; cases r <;> rfl
      rw [q os, q os', o1, o1', ← q, ← q, hfirst]
    have htake : (os.take ((atoms ts).map F).length).map (·.count '~') = (os'.take ((atoms ts).map F).length).map (·.count '~') := by
      have t : ∀ r : List (List Char), r.length = (atoms ts).length + 1 → r.take ((atoms ts).map F).length = r.dropLast := by
        intro r hr
        rw [List.dropLast_eq_take, List.length_map, hr]; rfl
      rw [t os l1, t os' l2]
      have hpos : 0 < (atoms ts).length := List.length_pos_iff.mpr hne
      match os, os', l1, l2, hhd, hct with
      | o :: p :: os, o' :: p' :: os', _, _, h1, h2 =>
        simp only [List.head?_cons, Option.map_some, Option.some.injEq] at h1
        simp only [List.dropLast_cons_cons, List.map_cons, h1]
        simpa using h2
      | [], _, l, _, _, _ => simp at l
      | [_], _, l, _, _, _ => simp at l; exact absurd l hne
      | _ :: _ :: _, [], _, l, _, _ => simp at l
      | _ :: _ :: _, [_], _, l, _, _ => simp at l; exact absurd l hne
    simp only [func]
    rw [evalAll_counts x _ os os' htake]
    cases evalAll x os' ((atoms ts).map F) with
    | error e => rfl
    | ok vals => exact reduce_strongest _ _ _ _ hst
  · rename_i hc
    rw [if_neg hc] at k2
    rw [k1, k2]

/-- C125 violated: superfluous binary operators are accepted.  Of the text between two filters only the negations and the
strongest binary operator count, of the text before the first filter only the negations, and of the text after the last filter
nothing: `*|[a] &^| [b] &` is read as `*[a]&[b]`. -/
theorem C125_superfluous_violated (X : Ext) (env : Env V) (plus : Bool) (a : Axis) (ts us : List (Tok (List Char)))
    (hts : ∀ d, .ch d ∈ ts → d ∈ ['&', '^', '|', '~', ' ']) (hus : ∀ d, .ch d ∈ us → d ∈ ['&', '^', '|', '~', ' '])
    (hne : atoms ts ≠ []) (hl : ∀ b ∈ atoms ts, Lit b ∧ b.getLast? ≠ some '\\') (F : List Char → Filter (Ctx V))
    (hm : ∀ b ∈ atoms ts, mkFilter X ('[' :: (b ++ [']'])) = .ok (F b)) (hat : atoms us = atoms ts)
    (hfirst : (operands us).head?.map (·.count '~') = (operands ts).head?.map (·.count '~'))
    (hmid : (((operands us).drop 1).dropLast).map reading = (((operands ts).drop 1).dropLast).map reading) (x : Path) :
    findAll X env (axisText plus a ++ written '[' ']' us) x = findAll X env (axisText plus a ++ written '[' ']' ts) x := by
  have toOp : ∀ d, d ∈ ['&', '^', '|', '~', ' '] → opChar d := by
    intro d h
    simp only [List.mem_cons, List.not_mem_nil, or_false] at h
    rcases h with h | h | h | h | h <;> subst h <;> simp [opChar]
  have c1 := compile_filters (V := V) X plus a (ts := ts) ⟨fun d hd => toOp d (hts d hd), hl⟩ hne
  have c2 := compile_filters (V := V) X plus a (ts := us) ⟨fun d hd => toOp d (hus d hd), by rw [hat]; exact hl⟩ (by rw [hat]; exact hne)
  rw [ecf_reading (mkFilter X) F ts us hts hus hne (fun b hb => closedGroup_lit (hl b hb).1 (hl b hb).2) hm hat hfirst hmid] at c2
  unfold findAll
  rw [c1, c2]

/-! ## Examples -/

/-- Non-vacuity of C125_superfluous_violated. -/
example : written '[' ']' [.ch '|', .atom ['i', ':', '0'], .ch ' ', .ch '&', .ch '|', .atom ['i', ':', '1'], .ch '&'] = "|[i:0] &|[i:1]&".toList ∧
    (operands ([.ch '|', .atom ['i', ':', '0'], .ch ' ', .ch '&', .ch '|', .atom ['i', ':', '1'], .ch '&'] : List (Tok (List Char)))).map reading =
      [(0, some .or), (0, some .and), (0, some .and)] ∧
    findAll demoExt demoEnv "*|[i:0] ^|~[i:1]&".toList [] = findAll demoExt demoEnv "*[i:0] ^ ~[i:1]".toList [] ∧
    findAll demoExt demoEnv "*|[i:0] ^|~[i:1]&".toList [] = ⟨[[2]], none⟩ ∧
    findAll demoExt demoEnv "*([i:0]".toList [] = .raise .valueError := by
  refine ⟨by decide, by decide, by decide +kernel, by decide +kernel, by decide +kernel⟩

/-- Non-vacuity of C117_operator_violated: `*[i:0] | {*}` finds nothing although the first child satisfies `[i:0]`. -/
example : FilterToks [.atom ['i', ':', '0']] ∧ Braced ['*'] ∧ (findAll demoExt demoEnv ['*'] []).exc = none ∧
    findAll demoExt demoEnv "*[i:0] | {*}".toList [] = ⟨[], none⟩ ∧
    findAll demoExt demoEnv "*[i:0] | ~{*}".toList [] = ⟨[[0]], none⟩ ∧
    findAll demoExt demoEnv "*[i:0]".toList [] = ⟨[[0]], none⟩ := by
  refine ⟨⟨by simp, ?_⟩, .plain _ _ (by decide) (by decide) (by decide) .nil, by decide +kernel, by decide +kernel, by decide +kernel, by decide +kernel⟩
  intro b hb
  have e : b = ['i', ':', '0'] := by simpa [atoms] using hb
  rw [e]
  exact ⟨.plain _ _ (by decide) (.plain _ _ (by decide) (.plain _ _ (by decide) .nil)), by decide⟩

/-- Non-vacuity of C125_gap_partial: `[i:0] ~[i:1]` has the shape, and both outcomes occur. -/
example : NoOperator [.atom ['i', ':', '0'], .ch ' ', .ch '~', .atom ['i', ':', '1']] ∧
    findAll demoExt demoEnv "*[i:0] ~[i:1]".toList [] = .raise .typeError ∧
    findAll demoExt demoEnv "*[i:0] [i:1]".toList [] = .raise .valueError ∧
    findAll demoExt demoEnv "*[i:0] ~[i:1]".toList [0] = ⟨[], none⟩ := by
  refine ⟨⟨[], _, [' ', '~'], _, [], rfl, by simp⟩, by decide +kernel, by decide +kernel, by decide +kernel⟩

end Pawpaw.Props
