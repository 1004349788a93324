import Verif.Props.QueryValue
/-!
# C67: compiling a query text succeeds or raises `ValueError`
-/
set_option linter.unusedSectionVars false
namespace Pawpaw.Props
open Pawpaw Pawpaw.Query Pawpaw.Util Pawpaw.Ecf QuerySpec UtilSpec TreeSpec PyStr
variable {V : Type} [DecidableEq V]

/-- No exception but `ValueError`. -/
def VE {τ : Type} (r : Except PyErr τ) : Prop := ∀ e, r = .error e → e = .valueError

theorem VE.ok {τ : Type} (x : τ) : VE (.ok x : Except PyErr τ) := by intro e h; cases h
theorem VE.err {τ : Type} : VE (.error .valueError : Except PyErr τ) := by intro e h; cases h; rfl

theorem VE.ite {τ : Type} {c : Prop} [Decidable c] {a b : Except PyErr τ} (ha : VE a) (hb : VE b) :
    VE (if c then a else b) := by
  split
  · exact ha
  · exact hb

theorem parens_VE {E : Type} : ∀ (n : Nat) (fs : List (Filter E)) (os : List (List Char)), VE (parens n fs os)
  | 0, _, _ => .ok _
  | n + 1, fs, os => by
    unfold parens
    split
    · exact .ok _
    · simp only
      split
      · exact .err
      · split
        · exact .err
        · split
          · exact parens_VE n _ _
          · exact parens_VE n _ _

theorem combined_VE {E : Type} (fs : List (Filter E)) (os : List (List Char)) : VE (combined fs os) := by
  unfold combined
  split
  · exact .err
  split
  · exact .err
  split
  · exact .err
  split
  · exact .err
  · exact parens_VE _ _ _

theorem collect_VE {E : Type} (mk : List Char → Except PyErr (Filter E)) (txt : List Char) (h : ∀ g, VE (mk g)) :
    ∀ (gs : List (Nat × Nat)) (first : Bool) (last : Nat), VE (collect mk txt first last gs) := by
  intro gs
  induction gs with
  | nil => intro first last; exact .ok _
  | cons g gs ih =>
    intro first last
    obtain ⟨a, b⟩ := g
    simp only [collect]
    split
    · exact .err
    · have h1 := h ((txt.take b).drop a)
      cases hm : mk ((txt.take b).drop a) with
      | error e => intro e' he; cases he; exact h1 e hm
      | ok f =>
        simp only
        have h2 := ih false b
        cases hc : collect mk txt false b gs with
        | error e => intro e' he; cases he; exact h2 e hc
        | ok r => exact .ok _

theorem ecf_VE {E : Type} (o c : Char) (mk : List Char → Except PyErr (Filter E)) (txt : List Char)
    (h : ∀ g, VE (mk g)) : VE (ecf o c mk txt) := by
  unfold ecf
  split
  · exact .err
  · have h1 := collect_VE mk txt h (groups o c 0 false 0 txt) true 0
    cases hc : collect mk txt true 0 (groups o c 0 false 0 txt) with
    | error e => intro e' he; cases he; exact h1 e hc
    | ok r =>
      simp only
      have h2 := combined_VE r.1 r.2
      cases hd : combined r.1 r.2 with
      | error e => intro e' he; cases he; exact h2 e hd
      | ok r => exact .ok _

theorem descapeLoop_VE : ∀ (s : List Char) (esc : Bool) (rv : List Char), VE (descapeLoop esc rv s)
  | [], esc, rv => by unfold descapeLoop; split; exact .err; exact .ok _
  | c :: s, esc, rv => by
    unfold descapeLoop
    split
    · exact descapeLoop_VE s _ _
    · exact descapeLoop_VE s _ _

theorem descapeAll_VE (l : List (List Char)) (e : Option PyErr) (he : ∀ x, e = some x → x = .valueError) :
    VE (descapeAll l e) := by
  induction l with
  | nil =>
    cases e with
    | none => exact .ok _
    | some x => intro e' h; cases h; exact he x rfl
  | cons s l ih =>
    unfold descapeAll
    have h1 : VE (descape s) := descapeLoop_VE s false []
    cases hd : descape s with
    | error e => intro e' he; cases he; exact h1 e hd
    | ok d =>
      simp only
      cases hd : descapeAll l e with
      | error e => intro e' he; cases he; exact ih e hd
      | ok d => exact .ok _

theorem findUnescapedLoop_VE {α : Type} [DecidableEq α] (cs : List α) (esc : α) (off : Int) :
    ∀ (s : List α) (b : Bool) (i : Int) (e : PyErr),
    (findUnescapedLoop cs esc off b i s).exc = some e → e = .valueError := by
  intro s
  induction s with
  | nil =>
    intro b i e h
    unfold findUnescapedLoop at h
    split at h
    · cases h; rfl
    · cases h
  | cons c s ih =>
    intro b i e h
    unfold findUnescapedLoop at h
    split at h
    · exact ih _ _ e h
    split at h
    · exact ih _ _ e h
    split at h
    · exact ih _ _ e h
    · exact ih _ _ e h

theorem listed_VE (value : List Char) : VE (listed value) := by
  unfold listed
  apply descapeAll_VE
  intro x hx
  unfold chunks Run.map at hx
  simp only [splitUnescaped] at hx
  have hv := FIto.ofStr_valid value none none none
  have hgen : ∀ (is : List Int) (cur : Int) (e : Option PyErr), (∀ x, e = some x → x = .valueError) →
      ∀ x, (splitUnescapedLoop (FIto.ofStr value none none) cur is e).exc = some x → x = .valueError := by
    intro is
    induction is with
    | nil =>
      intro cur e he x hx
      cases e with
      | none =>
        unfold splitUnescapedLoop at hx
        split at hx
        · rename_i err herr
          exfalso
          obtain ⟨y, hy, _⟩ := C14_slice _ hv (some cur) none
          rw [herr] at hy
          cases hy
        · cases hx
      | some y => cases hx; exact he _ rfl
    | cons i is ih =>
      intro cur e he x hx
      unfold splitUnescapedLoop at hx
      split at hx
      · rename_i err herr
        exfalso
        obtain ⟨y, hy, _⟩ := C14_slice _ hv (some cur) (some i)
        rw [herr] at hy
        cases hy
      · exact ih _ _ he x hx
  refine hgen _ _ _ ?_ x hx
  intro x hx
  unfold findUnescaped at hx
  obtain ⟨w, h1, _, _⟩ := window_chars hv none none
  rw [h1] at hx
  simp only at hx
  split at hx
  · cases hx; rfl
  · exact findUnescapedLoop_VE _ _ _ _ _ _ x hx

theorem pyInt_VE (s : List Char) : VE (pyInt s) := by
  unfold pyInt
  split <;> split <;> first | exact .ok _ | exact .err

theorem parseRange_VE (s : List Char) : VE (parseRange s) := by
  unfold parseRange
  split
  · rename_i a _
    have h1 := pyInt_VE a
    cases hp : pyInt a with
    | error e => intro e' he; cases he; exact h1 e hp
    | ok i => exact .ok _
  · rename_i a b _
    have h1 := pyInt_VE a
    cases hp : pyInt a with
    | error e => intro e' he; cases he; exact h1 e hp
    | ok i =>
      simp only
      split
      · exact .ok _
      split
      · exact .ok _
      · exact .err
  · exact .err

theorem parseRanges_VE (l : List (List Char)) : VE (parseRanges l) := by
  induction l with
  | nil => exact .ok _
  | cons c l ih =>
    unfold parseRanges
    have h1 := parseRange_VE c
    cases hp : parseRange c with
    | error e => intro e' he; cases he; exact h1 e hp
    | ok i =>
      simp only
      cases hq : parseRanges l with
      | error e => intro e' he; cases he; exact ih e hq
      | ok i => exact .ok _

theorem filterFunc_VE (X : Ext) (neg : Bool) (key value : List Char) :
    VE (filterFunc X neg key value : Except PyErr (Filter (Ctx V))) := by
  unfold filterFunc
  extract_lets k
  refine .ite (.ok _) (.ite (.ok _) (.ite (.ok _) (.ite (.ok _) (.ite (.ok _) (.ite (.ok _) (.ite (.ok _)
    (.ite ?_ (.ite ?_ (.ite ?_ .err)))))))))
  · have h1 := parseRanges_VE (PyStr.split value [','] (-1))
    cases hp : parseRanges (PyStr.split value [','] (-1)) with
    | error e => intro e' he; cases he; exact h1 e hp
    | ok i => exact .ok _
  · have h1 := listed_VE value
    cases hp : listed value with
    | error e => intro e' he; cases he; exact h1 e hp
    | ok ks => exact .ok _
  · have h1 := listed_VE value
    cases hp : listed value with
    | error e => intro e' he; cases he; exact h1 e hp
    | ok ks => exact .ok _

theorem mkFilter_VE (X : Ext) (g : List Char) : VE (mkFilter X g : Except PyErr (Filter (Ctx V))) := by
  unfold mkFilter
  split
  · exact .err
  · exact filterFunc_VE _ _ _ _

theorem parseAxis_VE (p : List Char) : VE (parseAxis p) := by
  unfold parseAxis
  simp only
  split
  · exact .err
  · exact .ok _

theorem parsePhrase_VE (X : Ext) (sub : List Char → Except PyErr (Filter (Ctx V))) (h : ∀ s, VE (sub s))
    (p : List Char) : VE (parsePhrase X sub p) := by
  unfold parsePhrase
  have h1 := parseAxis_VE p
  cases ha : parseAxis p with
  | error e => intro e' he; cases he; exact h1 e ha
  | ok an =>
    obtain ⟨a, n⟩ := an
    simp -zeta only
    have hv := FIto.ofStr_valid p none none none
    obtain ⟨w, hw, _, _⟩ := window_chars hv (some (n : Int)) none
    have h2 : VE (findUnescaped (FIto.ofStr p none none) ['{'] '\\' (some (n : Int)) none).next := by
      intro e he
      unfold Run.next at he
      split at he
      · cases he
      · rename_i e' _ hx
        cases he
        unfold findUnescaped at hx
        rw [hw] at hx
        simp only at hx
        split at hx
        · cases hx; rfl
        · exact findUnescapedLoop_VE _ _ _ _ _ _ _ hx
      · cases he
    cases hc : (findUnescaped (FIto.ofStr p none none) ['{'] '\\' (some (n : Int)) none).next with
    | error e => intro e' he; cases he; exact h2 e hc
    | ok c =>
      simp -zeta only
      extract_lets curl subText curl' filtText
      have h3 : VE (if subText = [] then .ok tautology
          else ecf '{' '}' (fun g => sub ((g.drop 1).dropLast)) (strip (p.drop curl'))) := by
        by_cases hh : subText = []
        · rw [if_pos hh]; exact .ok _
        · rw [if_neg hh]; exact ecf_VE _ _ _ _ (fun g => h _)
      revert h3
      cases (if subText = [] then .ok tautology
          else ecf '{' '}' (fun g => sub ((g.drop 1).dropLast)) (strip (p.drop curl'))) with
      | error e => intro h3 e' he; cases he; exact h3 e rfl
      | ok sq =>
        intro _
        simp only
        have h4 : VE (if filtText = [] then .ok tautology
            else ecf '[' ']' (mkFilter X) filtText : Except PyErr (Filter (Ctx V))) := by
          by_cases hh : filtText = []
          · rw [if_pos hh]; exact .ok _
          · rw [if_neg hh]; exact ecf_VE _ _ _ _ (fun g => mkFilter_VE X g)
        revert h4
        cases (if filtText = [] then .ok tautology
            else ecf '[' ']' (mkFilter X) filtText : Except PyErr (Filter (Ctx V))) with
        | error e => intro h4 e' he; cases he; exact h4 e rfl
        | ok f => intro _; exact .ok _

theorem parsePhrases_VE (X : Ext) (sub : List Char → Except PyErr (Filter (Ctx V))) (h : ∀ s, VE (sub s))
    (e : Option PyErr) (he : ∀ x, e = some x → x = .valueError) : ∀ ps : List (List Char),
    VE (parsePhrases X sub ps e) := by
  intro ps
  induction ps with
  | nil =>
    cases e with
    | none => exact .ok _
    | some x => intro e' h; cases h; exact he x rfl
  | cons p ps ih =>
    unfold parsePhrases
    have h1 := parsePhrase_VE X sub h p
    cases hp : parsePhrase X sub p with
    | error e => intro e' he; cases he; exact h1 e hp
    | ok ph =>
      simp only
      cases hq : parsePhrases X sub ps e with
      | error e => intro e' he; cases he; exact ih e hq
      | ok phs => exact .ok _

theorem splitPhrases_VE (path : List Char) (hne : path ≠ []) :
    ∀ x, (splitPhrases path).exc = some x → x = .valueError := by
  intro x hx
  by_cases h : Escaped '\\' path path.length
  · rw [(C38_split_phrases path hne).2 h] at hx; cases hx; rfl
  · rw [(C38_split_phrases path hne).1 h] at hx; cases hx

theorem parsePhrases_VE' (X : Ext) (n : Nat) (sub : List Char → Except PyErr (Filter (Ctx V)))
    (h : ∀ s, s.length < n → VE (sub s)) (e : Option PyErr) (he : ∀ x, e = some x → x = .valueError)
    (ps : List (List Char)) (hp : ∀ p ∈ ps, p.length ≤ n) : VE (parsePhrases X sub ps e) := by
  rw [parsePhrases_congr X sub (fun s => if s.length < n then sub s else .error .valueError) n
    (fun s hs => by rw [if_pos hs]) ps e hp]
  refine parsePhrases_VE X _ ?_ e he ps
  intro s
  split
  · exact h s (by assumption)
  · exact .err

/-- C67: a query text either compiles or is refused with `ValueError`; no other exception and no endless
recursion. -/
theorem C67_compile_raises_value_error (X : Ext) (path : List Char) :
    (∃ phs : List (Phrase V), compile X path = .ok phs) ∨
    (compile X path : Except PyErr (List (Phrase V))) = .error .valueError := by
  have key : ∀ (n : Nat) (path : List Char), path.length < n →
      VE (compile X path : Except PyErr (List (Phrase V))) := by
    intro n
    induction n with
    | zero => intro path h; omega
    | succ n ih =>
      intro path h
      rw [compile_eq]
      split
      · exact .err
      · rename_i hc
        have hne : path ≠ [] := fun hh => hc (Or.inl hh)
        apply parsePhrases_VE' X path.length _ _ _ (splitPhrases_VE path hne) _ (splitPhrases_length path)
        intro s hs
        have := ih s (by omega)
        unfold subFunc
        cases hcs : (compile X s : Except PyErr (List (Phrase V))) with
        | error e => intro e' he; cases he; exact this e hcs
        | ok phs => exact .ok _
  have h := key _ path (Nat.lt_succ_self _)
  cases hc : (compile X path : Except PyErr (List (Phrase V))) with
  | ok phs => exact Or.inl ⟨phs, rfl⟩
  | error e => right; rw [h e hc]

/-- Non-vacuity: both cases occur. -/
example : (∃ phs : List (Phrase Nat), compile demoExt ['*', '{', '.', '.', '}'] = .ok phs) ∧
    (compile demoExt ['*', '{', '.', '.'] : Except PyErr (List (Phrase Nat))) = .error .valueError :=
  ⟨⟨_, rfl⟩, rfl⟩

end Pawpaw.Props
