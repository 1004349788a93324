import Verif.Lemmas.Query
/-!
# C33, C39, C40, C66: queries as texts
-/
set_option linter.unusedSectionVars false
namespace Pawpaw.Props
open Pawpaw Pawpaw.Query Pawpaw.Util Pawpaw.Ecf QuerySpec UtilSpec TreeSpec PyStr
variable {V : Type} [DecidableEq V]

/-! ## Parsing one phrase -/

theorem ofStr_text (s : List Char) : (FIto.ofStr s none none).text = s := by
  rw [C01_ito_text_is_slice, slice_none_left, slice_none_right]
  have := slice_nat s 0 s.length
  simpa using this

theorem findUnescaped_drop (p : List Char) (n : Nat) (hn : n ≤ p.length) :
    findUnescaped (FIto.ofStr p none none) ['{'] '\\' (some (n : Int)) none =
      findUnescapedLoop ['{'] '\\' 0 false n (p.drop n) := by
  have hv := FIto.ofStr_valid p none none none
  obtain ⟨w, h1, h2, h3⟩ := window_chars hv (some (n : Int)) none
  rw [ofStr_text] at h2 h3
  have hst : (FIto.ofStr p none none).start = 0 := rfl
  have hb : windowBase p.length (some (n : Int)) = n := by
    unfold windowBase
    simp [PyStr.adjStart]
    omega
  rw [hst, hb] at h2
  unfold findUnescaped
  rw [h1]
  simp only [h3, slice_nat_none, h2, hst]
  simp

theorem strip_solid (c d : Char) (s : List Char) (hc : isSpace c = false) (hd : isSpace d = false) :
    strip (c :: (s ++ [d])) = c :: (s ++ [d]) := by
  unfold strip PyStr.stripBy PyStr.lstripBy PyStr.rstripBy
  rw [List.dropWhile_cons_of_neg (by simp [hc])]
  have : (c :: (s ++ [d])).reverse = d :: (c :: s).reverse := by simp
  rw [this, List.dropWhile_cons_of_neg (by simp [hd])]
  simp

theorem strip_nil : strip [] = [] := rfl

theorem func_single {E : Type} (f : Filter E) : func [f] [[], []] = f := by
  funext x
  unfold func evalAll evalAll evalOne
  cases hf : f x with
  | error e => rfl
  | ok b => rfl

theorem combined_single {E : Type} (f : Filter E) : combined [f] [[], []] = .ok ([f], [[], []]) := rfl

theorem ecf_single {E : Type} (mk : List Char → Except PyErr (Filter E)) {b : List Char} (hb : Lit b)
    (hl : b.getLast? ≠ some '\\') :
    ecf '[' ']' mk ('[' :: (b ++ [']'])) = mk ('[' :: (b ++ [']'])) := by
  have c1 : countUnescaped '[' false ('[' :: (b ++ [']'])) = 1 := by
    rw [countUnescaped, show (decide ('[' = '\\') && !false) = false from by decide,
      countUnescaped_lit hb _ (Or.inl rfl)]
    rfl
  have c2 : countUnescaped ']' false ('[' :: (b ++ [']'])) = 1 := by
    rw [countUnescaped, show (decide ('[' = '\\') && !false) = false from by decide,
      countUnescaped_lit hb _ (Or.inr rfl)]
    rfl
  have g : groups '[' ']' 0 false 0 ('[' :: (b ++ [']'])) = [(0, b.length + 2)] := by
    rw [groups]
    simp only [Bool.not_false, Bool.true_and, decide_true, if_true]
    rw [balancedLen_lit hb false [] (fun _ => rfl) hl]
    simp only
    have := groups_skip '[' ']' (b ++ [']']) false (0 + 1)
    simp only [List.length_append, List.length_cons, List.length_nil] at this
    rw [this]
    simp; omega
  have hlen : ('[' :: (b ++ [']'])).length = b.length + 2 := by simp
  unfold ecf
  rw [c1, c2, if_neg (by simp), g]
  unfold collect
  simp only [Bool.not_true, Bool.false_and, Bool.false_eq_true, if_false, List.drop_zero, List.take_zero]
  rw [← hlen, List.take_length]
  cases hm : mk ('[' :: (b ++ [']'])) with
  | error e => rfl
  | ok f =>
    simp only [collect, Bool.false_eq_true, if_false, List.drop_length, List.drop_nil, strip_nil]
    rw [combined_single]
    simp only
    rw [func_single]

theorem parsePhrase_bracket (X : Ext) (sub : List Char → Except PyErr (Filter (Ctx V))) (plus : Bool) (a : Axis)
    {b : List Char} (hb : Lit b) (hl : b.getLast? ≠ some '\\') :
    parsePhrase X sub (axisText plus a ++ '[' :: (b ++ [']'])) =
      match (mkFilter X ('[' :: (b ++ [']'])) : Except PyErr (Filter (Ctx V))) with
      | .error e => .error e
      | .ok f => .ok ⟨a, f, tautology⟩ := by
  have hax := parseAxis_text plus a ('[' :: (b ++ [']'])) (by
    intro c hc
    simp only [List.mem_cons, List.not_mem_nil, or_false] at hc
    rcases hc with hc | hc | hc | hc | hc <;> rw [hc] <;> simp)
  generalize axisText plus a = ax at hax ⊢
  unfold parsePhrase
  rw [hax]
  simp only
  rw [findUnescaped_drop _ _ (by simp), List.drop_left, findUnescapedLoop]
  simp only [Bool.false_eq_true, if_false, show ('[' : Char) ≠ '\\' from by decide,
    show ('[' : Char) ∉ ['{'] from by decide]
  rw [findUnescapedLoop_lit hb]
  have hd : ∀ i : Int, (findUnescapedLoop ['{'] '\\' 0 false i [']']).next = .ok none := by
    intro i; rfl
  rw [hd]
  simp only [List.drop_length, strip_nil, if_true, List.take_length, List.drop_left]
  rw [strip_solid _ _ _ (by decide) (by decide), if_neg (by simp), ecf_single _ hb hl]
  cases (mkFilter X ('[' :: (b ++ [']'])) : Except PyErr (Filter (Ctx V))) with
  | error e => rfl
  | ok f => rfl

theorem parsePhrase_axis (X : Ext) (sub : List Char → Except PyErr (Filter (Ctx V))) (plus : Bool) (a : Axis) :
    parsePhrase X sub (axisText plus a) = .ok ⟨a, tautology, tautology⟩ := by
  have hax := parseAxis_text plus a [] (by simp)
  rw [List.append_nil] at hax
  generalize axisText plus a = ax at hax ⊢
  unfold parsePhrase
  rw [hax]
  simp only
  rw [findUnescaped_drop _ _ (by simp), List.drop_length, findUnescapedLoop]
  simp only [Bool.false_eq_true, if_false]
  have hd : (Run.done : Run Int).next = .ok none := rfl
  rw [hd]
  simp only [List.drop_length, strip_nil, if_true, List.take_length]

/-! ## Single-phrase queries -/

theorem axisText_plain (plus : Bool) (a : Axis) : Lit (axisText plus a) ∧ ∃ c t, axisText plus a = c :: t ∧
    (32 ≤ c.toNat ∧ c.toNat < 127) := by
  obtain ⟨k, rev, os⟩ := a
  constructor
  · apply lit_of_plain
    intro c hc
    have : c ∈ ['+', '-', '.', '*', '<', '>', '!'] := by
      unfold axisText at hc
      rw [List.mem_append, List.mem_append] at hc
      rcases hc with (hc | hc) | hc
      · simp only at hc
        split at hc
        · simp at hc; simp [hc]
        · split at hc
          · simp at hc; simp [hc]
          · cases hc
      · cases k <;> simp [keyText] at hc <;> simp [hc] <;> rcases hc with hc | hc <;> simp [hc]
      · cases os <;> simp [orSelfText] at hc <;> simp [hc]
    simp only [List.mem_cons, List.not_mem_nil, or_false] at this
    rcases this with h | h | h | h | h | h | h <;> rw [h] <;> decide
  · cases rev with
    | true => exact ⟨'-', _, rfl, by decide⟩
    | false =>
      cases plus with
      | true => exact ⟨'+', _, rfl, by decide⟩
      | false => cases k <;> exact ⟨_, _, rfl, by decide⟩

theorem splitPhrases_lit {p : List Char} (h : Lit p) (hne : p ≠ []) : splitPhrases p = ⟨[p], none⟩ := by
  rw [splitPhrases_goPhr p hne]
  have := goPhr_lit h 0 [] []
  rw [List.append_nil] at this
  rw [this]
  rfl

theorem splitPhrases_bracket {ax b : List Char} (h : Lit ax) (hb : Lit b) :
    splitPhrases (ax ++ '[' :: (b ++ [']'])) = ⟨[ax ++ '[' :: (b ++ [']'])], none⟩ := by
  rw [splitPhrases_goPhr _ (by simp), goPhr_lit h, goPhr]
  simp only [Bool.false_eq_true, if_false, show ('[' : Char) ≠ '\\' from by decide,
    show ('[' : Char) ≠ '{' from by decide, show ('[' : Char) ≠ '}' from by decide,
    show ('[' : Char) ≠ '/' from by decide, false_and]
  rw [goPhr_lit hb, goPhr]
  simp only [Bool.false_eq_true, if_false, show (']' : Char) ≠ '\\' from by decide,
    show (']' : Char) ≠ '{' from by decide, show (']' : Char) ≠ '}' from by decide,
    show (']' : Char) ≠ '/' from by decide, false_and]
  simp [goPhr, Run.yield, Run.done]

theorem compile_bracket (X : Ext) (plus : Bool) (a : Axis) {b : List Char} (hb : Lit b)
    (hl : b.getLast? ≠ some '\\') :
    (compile X (axisText plus a ++ '[' :: (b ++ [']'])) : Except PyErr (List (Phrase V))) =
      match (mkFilter X ('[' :: (b ++ [']'])) : Except PyErr (Filter (Ctx V))) with
      | .error e => .error e
      | .ok f => .ok [⟨a, f, tautology⟩] := by
  obtain ⟨h1, c, t, h2, h3⟩ := axisText_plain plus a
  have hp : (axisText plus a ++ '[' :: (b ++ [']'])).any X.isPrintable = true := by
    rw [h2]
    have : X.isPrintable c = true := by
      unfold Ext.isPrintable
      rw [if_pos (by omega)]
      exact decide_eq_true h3
    simp [this]
  unfold compile parse
  rw [if_neg (by simp [hp]), splitPhrases_bracket h1 hb]
  simp only [parsePhrases]
  rw [parsePhrase_bracket X _ plus a hb hl]
  cases (mkFilter X ('[' :: (b ++ [']'])) : Except PyErr (Filter (Ctx V))) with
  | error e => rfl
  | ok f => rfl

theorem compile_axis (X : Ext) (plus : Bool) (a : Axis) :
    (compile X (axisText plus a) : Except PyErr (List (Phrase V))) = .ok [⟨a, tautology, tautology⟩] := by
  obtain ⟨h1, c, t, h2, h3⟩ := axisText_plain plus a
  have hp : (axisText plus a).any X.isPrintable = true := by
    rw [h2]
    have : X.isPrintable c = true := by
      unfold Ext.isPrintable
      rw [if_pos (by omega)]
      exact decide_eq_true h3
    simp [this]
  have hne : axisText plus a ≠ [] := by rw [h2]; simp
  unfold compile parse
  rw [if_neg (by simp [hp, hne]), splitPhrases_lit h1 hne]
  simp only [parsePhrases]
  rw [parsePhrase_axis X _ plus a]

end Pawpaw.Props
