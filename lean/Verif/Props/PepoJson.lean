import Verif.Model.Pepo
import Verif.Spec.Pepo
/-!
# C64: JSON dumps
-/
set_option linter.unusedSectionVars false
set_option linter.unusedSimpArgs false
namespace Pawpaw.Props
open Pawpaw Pawpaw.Pepo PepoSpec TreeSpec

/-! ## Strings -/

theorem hexVal_digit (n : Nat) (h : n < 16) : hexVal (hexDigit n) = some n := by
  have : ∀ n : Fin 16, hexVal (hexDigit n) = some n.1 := by decide
  exact this ⟨n, h⟩

theorem strBody_esc (s : List Char) : StrBody (s.flatMap jsonEsc) s := by
  induction s with
  | nil => exact .nil
  | cons c s ih =>
    rw [List.flatMap_cons]
    unfold jsonEsc
    by_cases h1 : c = '\\'
    · subst h1; exact .esc (by decide) ih
    rw [if_neg h1]
    by_cases h2 : c = '"'
    · subst h2; exact .esc (by decide) ih
    rw [if_neg h2]
    by_cases h3 : c = '\x08'
    · subst h3; exact .esc (by decide) ih
    rw [if_neg h3]
    by_cases h4 : c = '\x0c'
    · subst h4; exact .esc (by decide) ih
    rw [if_neg h4]
    by_cases h5 : c = '\n'
    · subst h5; exact .esc (by decide) ih
    rw [if_neg h5]
    by_cases h6 : c = '\r'
    · subst h6; exact .esc (by decide) ih
    rw [if_neg h6]
    by_cases h7 : c = '\t'
    · subst h7; exact .esc (by decide) ih
    rw [if_neg h7]
    by_cases h8 : c.toNat < 32
    · rw [if_pos h8]
      refine .uni (v1 := 0) (v2 := 0) (by decide) (by decide) (hexVal_digit _ (by omega))
        (hexVal_digit _ (by omega)) (by omega) ih
    · rw [if_neg h8]
      exact .lit h2 h1 (by omega) ih

/-! ## White space -/

theorem ws_nil : Ws [] := by intro c h; cases h
theorem ws_append {a b : List Char} (ha : Ws a) (hb : Ws b) : Ws (a ++ b) := by
  intro c h
  rcases List.mem_append.mp h with h | h
  · exact ha c h
  · exact hb c h
theorem ws_space : Ws [' '] := by intro c h; simp at h; exact .inl h
theorem ws_ind {c : Cfg} (h : Ws c.indent) (n : Nat) : Ws (c.ind n) := by
  induction n with
  | zero => exact ws_nil
  | succ n ih =>
    rw [Cfg.ind, List.replicate_succ, List.flatten_cons]
    exact ws_append h ih

theorem mem1 {w k key w1 w2 s v w3 t} (e : t = w ++ '"' :: (k ++ '"' :: (w1 ++ ':' :: (w2 ++ s ++ w3))))
    (h0 : Ws w) (h1 : StrBody k key) (h2 : Ws w1) (h3 : Ws w2) (h4 : Val s v) (h5 : Ws w3) :
    Members t [(key, v)] := by subst e; exact .one h0 h1 h2 h3 h4 h5

theorem memMore {w k key w1 w2 s v w3 t ms t'}
    (e : t' = w ++ '"' :: (k ++ '"' :: (w1 ++ ':' :: (w2 ++ s ++ w3 ++ ',' :: t))))
    (h0 : Ws w) (h1 : StrBody k key) (h2 : Ws w1) (h3 : Ws w2) (h4 : Val s v) (h5 : Ws w3) (h6 : Members t ms) :
    Members t' ((key, v) :: ms) := by subst e; exact .more h0 h1 h2 h3 h4 h5 h6

/-- A name without anything to escape. -/
theorem strBody_self (s : List Char) (h : s.flatMap jsonEsc = s) : StrBody s s := by
  have := strBody_esc s
  rwa [h] at this

/-! ## Well-formed output -/

theorem val_desc (d : Option String) :
    Val (jsonDesc d) (descJ d) := by
  cases d with
  | none => exact .null
  | some d => exact .str (strBody_esc _)

mutual
theorem jsonNode_val (c : Cfg) (hi : Ws c.indent) (hl : Ws c.lsep) (hc : c.children = true) (s : List Char) :
    ∀ (n : Node) (level : Nat), ∃ t, jsonNode c s level n = c.ind level ++ t ∧ Val t (nodeJ (subText s) n)
  | .mk sp d v ks, level => by
    have hK : ∃ t w3, (if ks = [] then [']'] ++ c.lsep
        else c.lsep ++ jsonKids c s (level + 2) ks ++ (c.ind (level + 1) ++ [']'] ++ c.lsep)) = t ++ ']' :: w3 ∧
        Ws w3 ∧ Val ('[' :: (t ++ [']'])) (.arr (nodesJ (subText s) ks)) := by
      by_cases hz : ks = []
      · subst hz
        exact ⟨[], c.lsep, by simp, hl, by rw [nodesJ]; exact .arrNil ws_nil⟩
      · rw [if_neg hz]
        refine ⟨c.lsep ++ jsonKids c s (level + 2) ks ++ c.ind (level + 1), c.lsep, by simp, hl, .arr ?_⟩
        exact jsonKids_val c hi hl hc s ks hz (level + 2) c.lsep (c.ind (level + 1)) hl (ws_ind hi _)
    obtain ⟨tk, wk, ek, hwk, hvk⟩ := hK
    have h_children := mem1 rfl (w := c.lsep ++ c.ind (level + 1)) (k := "children".toList) (w1 := []) (w2 := [' '])
      (w3 := wk ++ c.ind level) (ws_append hl (ws_ind hi _)) (strBody_self _ (by decide)) ws_nil ws_space hvk
      (ws_append hwk (ws_ind hi _))
    have h_substr := memMore rfl (w := c.lsep ++ c.ind (level + 1)) (k := "substr".toList) (w1 := []) (w2 := [' '])
      (w3 := []) (ws_append hl (ws_ind hi _)) (strBody_self _ (by decide)) ws_nil ws_space (.str (strBody_esc (subText s sp))) ws_nil h_children
    have h_desc := memMore rfl (w := c.lsep ++ c.ind (level + 1)) (k := "desc".toList) (w1 := []) (w2 := [' '])
      (w3 := []) (ws_append hl (ws_ind hi _)) (strBody_self _ (by decide)) ws_nil ws_space (val_desc d) ws_nil h_substr
    have h_stop := memMore rfl (w := c.lsep ++ c.ind (level + 1)) (k := "stop".toList) (w1 := []) (w2 := [' '])
      (w3 := []) (ws_append hl (ws_ind hi _)) (strBody_self _ (by decide)) ws_nil ws_space (.num sp.stop) ws_nil h_desc
    have h_start := memMore rfl (w := c.lsep ++ c.ind (level + 1)) (k := "start".toList) (w1 := []) (w2 := [' '])
      (w3 := []) (ws_append hl (ws_ind hi _)) (strBody_self _ (by decide)) ws_nil ws_space (.num sp.start) ws_nil h_stop
    refine ⟨_, ?_, by rw [nodeJ]; exact .obj h_start⟩
    rw [jsonNode.eq_def]
    dsimp only
    rw [hc, if_pos rfl, ek]
    simp [intText, jsonStr]
theorem jsonKids_val (c : Cfg) (hi : Ws c.indent) (hl : Ws c.lsep) (hc : c.children = true) (s : List Char) :
    ∀ (ks : List Node), ks ≠ [] → ∀ (level : Nat) (w w' : List Char), Ws w → Ws w' →
    Elems (w ++ jsonKids c s level ks ++ w') (nodesJ (subText s) ks)
  | [], h, _, _, _, _, _ => absurd rfl h
  | [k], _, level, w, w', hw, hw' => by
    obtain ⟨t, e, hv⟩ := jsonNode_val c hi hl hc s k level
    rw [jsonKids, nodesJ, nodesJ, e, if_pos rfl, jsonKids]
    have := Elems.one (ws_append hw (ws_ind hi level)) hv (ws_append hl hw')
    simpa using this
  | k :: k' :: ks, _, level, w, w', hw, hw' => by
    obtain ⟨t, e, hv⟩ := jsonNode_val c hi hl hc s k level
    rw [jsonKids, nodesJ, e, if_neg (by simp)]
    have := Elems.more (ws_append hw (ws_ind hi level)) hv ws_nil
      (jsonKids_val c hi hl hc s (k' :: ks) (by simp) level c.lsep w' hl hw')
    simpa using this
end

theorem jsonTop_val (c : Cfg) (hi : Ws c.indent) (hl : Ws c.lsep) (hc : c.children = true) (s : List Char) :
    ∀ (ks : List Node), ks ≠ [] → ∀ (w' : List Char), Ws w' →
    Elems (jsonTop c s false ks ++ w') (nodesJ (subText s) ks)
  | [], h, _, _ => absurd rfl h
  | [k], _, w', hw' => by
    obtain ⟨t, e, hv⟩ := jsonNode_val c hi hl hc s k 2
    rw [jsonTop, nodesJ, nodesJ, e, jsonTop]
    have := Elems.one (ws_append hl (ws_ind hi 2)) hv hw'
    simpa using this
  | k :: k' :: ks, _, w', hw' => by
    obtain ⟨t, e, hv⟩ := jsonNode_val c hi hl hc s k 2
    have ih := jsonTop_val c hi hl hc s (k' :: ks) (by simp) w' hw'
    rw [jsonTop, nodesJ, e]
    have e2 : jsonTop c s true (k' :: ks) = ',' :: jsonTop c s false (k' :: ks) := by simp [jsonTop]
    rw [e2]
    have := Elems.more (ws_append hl (ws_ind hi 2)) hv ws_nil ih
    simpa using this

/-- C64: with `children=True` (and an indent and line separator made of white space), the JSON dump is a JSON text
that denotes exactly the forest given: one object per node, nested as the tree, children in order. -/
theorem C64_json_partial (c : Cfg) (hi : Ws c.indent) (hl : Ws c.lsep) (hc : c.children = true) (s : List Char)
    (itos : List Node) :
    JsonText (jsonDump c s itos) (.obj [("itos".toList, .arr (nodesJ (subText s) itos))]) := by
  have hA : Val ('[' :: ((jsonTop c s false itos ++ (c.lsep ++ c.indent)) ++ [']']))
      (.arr (nodesJ (subText s) itos)) := by
    by_cases hz : itos = []
    · subst hz
      rw [jsonTop, nodesJ]
      exact .arrNil (ws_append ws_nil (ws_append hl hi))
    · exact .arr (jsonTop_val c hi hl hc s itos hz _ (ws_append hl hi))
  refine ⟨[], _, c.lsep, ?_, ws_nil, .obj (mem1 rfl (w := c.lsep ++ c.indent) (k := "itos".toList) (w1 := [])
    (w2 := [' ']) (w3 := c.lsep) (ws_append hl hi) (strBody_self _ (by decide)) ws_nil ws_space hA hl), hl⟩
  simp [jsonDump]

/-! ## `children=False` -/

/-- Where a reader of JSON stands: outside strings (was the last token a comma?), in a string, after a backslash,
or beyond repair. -/
inductive Scan where
  | out (comma : Bool)
  | str
  | esc
  | bad
deriving DecidableEq

/-- One character. A closing brace right after a comma is an error. -/
def Scan.step : Scan → Char → Scan
  | .out b, c => if c = '"' then .str else if c = ',' then .out true
      else if c = ' ' ∨ c = '\t' ∨ c = '\n' ∨ c = '\r' then .out b
      else if c = '}' then (if b then .bad else .out false) else .out false
  | .str, c => if c = '"' then .out false else if c = '\\' then .esc else .str
  | .esc, _ => .str
  | .bad, _ => .bad

/-- A whole text. -/
def Scan.run (q : Scan) (t : List Char) : Scan := t.foldl Scan.step q

theorem run_append (q : Scan) (a b : List Char) : q.run (a ++ b) = (q.run a).run b := by
  simp [Scan.run]
theorem run_cons (q : Scan) (a : Char) (b : List Char) : q.run (a :: b) = (q.step a).run b := rfl
theorem run_nil (q : Scan) : q.run [] = q := rfl

theorem run_ws (b : Bool) : ∀ {w : List Char}, Ws w → (Scan.out b).run w = .out b
  | [], _ => rfl
  | c :: w, h => by
    have hc := h c (by simp)
    have hs : (Scan.out b).step c = .out b := by
      rcases hc with rfl | rfl | rfl | rfl <;> rfl
    rw [run_cons, hs, run_ws b (fun x hx => h x (by simp [hx]))]

theorem run_body {r s : List Char} (h : StrBody r s) : Scan.str.run r = .str := by
  induction h with
  | nil => rfl
  | lit h1 h2 _ _ ih =>
    rw [run_cons]
    simp only [Scan.step, h1, h2, if_false]
    exact ih
  | esc _ _ ih => rw [run_cons, run_cons]; exact ih
  | @uni h1 h2 h3 h4 v1 v2 v3 v4 c r s e1 e2 e3 e4 _ _ ih =>
    have key : ∀ (h : Char) (v : Nat), hexVal h = some v → Scan.str.step h = .str := by
      intro h v e
      have n1 : h ≠ '"' := by rintro rfl; exact absurd e (by simp [show hexVal '"' = none from by decide])
      have n2 : h ≠ '\\' := by rintro rfl; exact absurd e (by simp [show hexVal '\\' = none from by decide])
      simp [Scan.step, n1, n2]
    simp only [run_cons, key _ _ e1, key _ _ e2, key _ _ e3, key _ _ e4,
      show Scan.str.step '\\' = .esc from rfl, show Scan.esc.step 'u' = .str from rfl]
    exact ih

theorem intText_chars (n : Int) : intText n ≠ [] ∧ ∀ c ∈ intText n, c.isDigit = true ∨ c = '-' := by
  unfold intText
  cases n with
  | ofNat m =>
    have : (toString (Int.ofNat m)).toList = Nat.toDigits 10 m := by
      show (Nat.repr m).toList = _
      exact Nat.toList_repr
    rw [this]
    exact ⟨Nat.toDigits_ne_nil, fun c hc => .inl (Nat.isDigit_of_mem_toDigits (by decide) (by decide) hc)⟩
  | negSucc m =>
    have : (toString (Int.negSucc m)).toList = '-' :: Nat.toDigits 10 (m + 1) := by
      show ("-" ++ Nat.repr (m + 1)).toList = _
      rw [String.toList_append, Nat.toList_repr]
      rfl
    rw [this]
    refine ⟨by simp, fun c hc => ?_⟩
    rcases List.mem_cons.mp hc with h | h
    · exact .inr h
    · exact .inl (Nat.isDigit_of_mem_toDigits (by decide) (by decide) h)

theorem digit_ne_of {c d : Char} (h : c.isDigit = true ∨ c = '-') (hd : d.isDigit = false ∧ d ≠ '-') : c ≠ d := by
  rintro rfl
  rcases h with h | h
  · rw [hd.1] at h; exact absurd h (by decide)
  · exact hd.2 h

theorem run_int (n : Int) (b : Bool) : (Scan.out b).run (intText n) = .out false := by
  have ⟨hne, hch⟩ := intText_chars n
  generalize intText n = t at *
  have step : ∀ (b : Bool) (c : Char), (c.isDigit = true ∨ c = '-') → (Scan.out b).step c = .out false := by
    intro b c h
    simp [Scan.step, digit_ne_of h (d := '"') (by decide), digit_ne_of h (d := ',') (by decide),
      digit_ne_of h (d := ' ') (by decide), digit_ne_of h (d := '\t') (by decide),
      digit_ne_of h (d := '\n') (by decide), digit_ne_of h (d := '\r') (by decide),
      digit_ne_of h (d := '}') (by decide)]
  have go : ∀ (t : List Char), (∀ c ∈ t, c.isDigit = true ∨ c = '-') → (Scan.out false).run t = .out false := by
    intro t
    induction t with
    | nil => intro _; rfl
    | cons c t ih =>
      intro h
      rw [run_cons, step _ _ (h c (by simp))]
      exact ih (fun x hx => h x (by simp [hx]))
  cases t with
  | nil => exact absurd rfl hne
  | cons c t =>
    rw [run_cons, step _ _ (hch c (by simp))]
    exact go t (fun x hx => hch x (by simp [hx]))

mutual
theorem run_val : ∀ {t : List Char} {v : J}, Val t v → ∀ b, (Scan.out b).run t = .out false
  | _, _, .null, b => by cases b <;> rfl
  | _, _, .num n, b => run_int n b
  | _, _, .str h, b => by
    rw [run_cons, show (Scan.out b).step '"' = .str from rfl, run_append, run_body h]; rfl
  | _, _, .arrNil h, b => by
    rw [run_cons, show (Scan.out b).step '[' = .out false from rfl, run_append, run_ws _ h]; rfl
  | _, _, .arr h, b => by
    rw [run_cons, show (Scan.out b).step '[' = .out false from rfl, run_append, run_elems h]; rfl
  | _, _, .objNil h, b => by
    rw [run_cons, show (Scan.out b).step '{' = .out false from rfl, run_append, run_ws _ h]; rfl
  | _, _, .obj h, b => by
    rw [run_cons, show (Scan.out b).step '{' = .out false from rfl, run_append, run_members h]; rfl
theorem run_elems : ∀ {t : List Char} {vs : List J}, Elems t vs → ∀ b, (Scan.out b).run t = .out false
  | _, _, .one h1 h2 h3, b => by
    rw [run_append, run_append, run_ws _ h1, run_val h2, run_ws _ h3]
  | _, _, .more h1 h2 h3 h4, b => by
    rw [run_append, run_append, run_append, run_ws _ h1, run_val h2, run_ws _ h3, run_cons]
    exact run_elems h4 _
theorem run_members : ∀ {t : List Char} {ms : List (List Char × J)}, Members t ms →
    ∀ b, (Scan.out b).run t = .out false
  | _, _, .one h1 h2 h3 h4 h5 h6, b => by
    rw [run_append, run_ws _ h1, run_cons, show (Scan.out b).step '"' = .str from rfl, run_append, run_body h2,
      run_cons, show Scan.str.step '"' = .out false from rfl, run_append, run_ws _ h3, run_cons,
      show (Scan.out false).step ':' = .out false from rfl, run_append, run_append, run_ws _ h4, run_val h5,
      run_ws _ h6]
  | _, _, .more h1 h2 h3 h4 h5 h6 h7, b => by
    rw [run_append, run_ws _ h1, run_cons, show (Scan.out b).step '"' = .str from rfl, run_append, run_body h2,
      run_cons, show Scan.str.step '"' = .out false from rfl, run_append, run_ws _ h3, run_cons,
      show (Scan.out false).step ':' = .out false from rfl, run_append, run_append, run_append, run_ws _ h4,
      run_val h5, run_ws _ h6, run_cons]
    exact run_members h7 _
end

theorem run_jsonText {t : List Char} {v : J} (h : JsonText t v) : (Scan.out false).run t = .out false := by
  obtain ⟨w, s, w', rfl, h1, h2, h3⟩ := h
  rw [run_append, run_append, run_ws _ h1, run_val h2, run_ws _ h3]

theorem run_bad (t : List Char) : Scan.bad.run t = .bad := by
  induction t with
  | nil => rfl
  | cons c t ih => rw [run_cons]; exact ih

theorem jsonNode_bad (c : Cfg) (hi : Ws c.indent) (hl : Ws c.lsep) (hc : c.children = false) (s : List Char)
    (n : Node) (level : Nat) : (Scan.out false).run (jsonNode c s level n) = .bad := by
  cases n with
  | mk sp d v ks =>
    have hI := fun b k => run_ws b (ws_ind hi (c := c) k)
    have hL := fun b => run_ws b hl
    have hV := fun b => run_val (val_desc d) b
    have hS := fun b => run_val (show Val (jsonStr (subText s sp)) _ from .str (strBody_esc _)) b
    simp only [jsonNode, hc, Bool.false_eq_true, if_false, run_append, hI, hL, hV, hS, run_int,
      show (Scan.out false).run ['{'] = .out false from rfl, hL, hI,
      show (Scan.out false).run "\"start\": ".toList = .out false from rfl, run_int,
      show (Scan.out false).run [','] = .out true from rfl,
      show (Scan.out true).run "\"stop\": ".toList = .out false from rfl,
      show (Scan.out true).run "\"desc\": ".toList = .out false from rfl, hV,
      show (Scan.out true).run "\"substr\": ".toList = .out false from rfl, hS, run_nil]
    rfl

/-- C64: with `children=False` the JSON dump of at least one Ito is not JSON: it has a comma before a closing
brace. -/
theorem C64_json_violated (c : Cfg) (hi : Ws c.indent) (hl : Ws c.lsep) (hc : c.children = false) (s : List Char)
    (itos : List Node) (hn : itos ≠ []) : ¬ ∃ v, JsonText (jsonDump c s itos) v := by
  rintro ⟨v, h⟩
  have := run_jsonText h
  cases itos with
  | nil => exact hn rfl
  | cons k ks =>
    have hI := fun b => run_ws b hi
    have hL := fun b => run_ws b hl
    simp only [jsonDump, jsonTop, Bool.false_eq_true, if_false, run_append,
      show (Scan.out false).run ['{'] = .out false from rfl, hI, hL,
      show (Scan.out false).run "\"itos\": [".toList = .out false from rfl, run_nil,
      jsonNode_bad c hi hl hc s, run_bad] at this
    cases this

/-- With no Ito given, `children=False` is harmless. -/
theorem C64_json_empty (c : Cfg) (hi : Ws c.indent) (hl : Ws c.lsep) (s : List Char) :
    JsonText (jsonDump c s []) (.obj [("itos".toList, .arr [])]) := by
  have := C64_json_partial ⟨c.indent, c.lsep, true⟩ hi hl rfl s []
  simpa [nodesJ, jsonDump, jsonTop] using this

/-! ## Non-vacuity -/

example : JsonText (jsonDump ⟨"  ".toList, ['\n'], true⟩ "a\"\x01b".toList
    [.mk ⟨0, 4⟩ (some "x\\y") none [.mk ⟨1, 2⟩ none none []], .mk ⟨2, 3⟩ none none []])
    (.obj [("itos".toList, .arr [
      .obj [("start".toList, .num 0), ("stop".toList, .num 4), ("desc".toList, .str "x\\y".toList),
        ("substr".toList, .str "a\"\x01b".toList), ("children".toList, .arr [
          .obj [("start".toList, .num 1), ("stop".toList, .num 2), ("desc".toList, .null),
            ("substr".toList, .str ['"']), ("children".toList, .arr [])]])],
      .obj [("start".toList, .num 2), ("stop".toList, .num 3), ("desc".toList, .null),
        ("substr".toList, .str ['\x01']), ("children".toList, .arr [])]])]) :=
  C64_json_partial _ (by unfold Ws; decide) (by unfold Ws; decide) rfl _ _

example : ¬ ∃ v, JsonText (jsonDump ⟨"  ".toList, ['\n'], false⟩ "ab".toList [.mk ⟨0, 2⟩ none none []]) v :=
  C64_json_violated _ (by unfold Ws; decide) (by unfold Ws; decide) rfl _ _ (by simp)

end Pawpaw.Props
