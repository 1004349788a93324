import Verif.Props.Patterns
import Verif.Props.NlpNumber
import Verif.Model.NumberRe
import Verif.Lemmas.ReRead
/-!
# C116: the pattern of `nlp.Number`, for all settings
-/
namespace Pawpaw
namespace Props
open ReSyntax Regex NlpNumber

/-- `\d` -/
def synD : Syn := .cls false [.digit]
/-- `(?P<sign>[-+])` -/
def synSign : Syn := .grp (.named ['s', 'i', 'g', 'n']) (.cls false [.one '-', .one '+'])
/-- The exponent. -/
def synExp : Syn :=
  .grp (.named ['e', 'x', 'p', 'o', 'n', 'e', 'n', 't']) (.alt
    (.seq (.cls false [.one 'E', .one 'e']) (.seq (.rep 0 (some 1) true synSign) (.rep 1 none true synD)))
    (.seq (.rep 0 (some 1) true (.chr ' ')) (.seq (.cls false [.one 'X', .one 'x', .one '\u2715'])
      (.seq (.rep 0 (some 1) true (.chr ' ')) (.seq (.chr '1') (.seq (.chr '0') (.seq (.chr '^')
        (.seq (.rep 0 (some 1) true (.chr ' ')) (.seq (.rep 0 (some 1) true synSign) (.rep 1 none true synD))))))))))
/-- The separator and three digits. -/
def synGroup (sep : List Char) : Syn := seqOf (sep.map Syn.chr ++ [.rep 3 (some 3) true synD])
/-- Digits in groups. -/
def synGrouped (sep : List Char) : Syn := .seq (.rep 1 (some 3) true synD) (.rep 1 none true (synGroup sep))
/-- The integer. -/
def synInt (sep : List Char) (o : Bool) : Syn :=
  .grp (.named ['i', 'n', 't', 'e', 'g', 'e', 'r']) (if o then .alt (synGrouped sep) (.rep 1 none true synD) else synGrouped sep)
/-- The decimals. -/
def synDec (point : List Char) : Syn :=
  .grp (.named ['d', 'e', 'c', 'i', 'm', 'a', 'l']) (seqOf (point.map Syn.chr ++ [.rep 1 none true synD]))
/-- The number. -/
def synNum (point sep : List Char) (o : Bool) : Syn :=
  .grp (.named ['n', 'u', 'm', 'b', 'e', 'r']) (.seq (.rep 0 (some 1) true synSign)
    (.seq (.alt (.seq (synInt sep o) (.rep 0 (some 1) true (synDec point))) (synDec point)) (.rep 0 (some 1) true synExp)))

theorem adds_d3 : Adds false (cl! "\\d{3}") [.rep 3 (some 3) true synD] := fun _ _ _ => ⟨true, rfl⟩
theorem adds_d13 : Adds false (cl! "\\d{1,3}") [.rep 1 (some 3) true synD] := fun _ _ _ => ⟨true, rfl⟩
theorem adds_dplus : Adds false (cl! "\\d+") [.rep 1 none true synD] := fun _ _ _ => ⟨true, rfl⟩
theorem adds_sign : Adds false (cl! "(?P<sign>[-+])?") [.rep 0 (some 1) true synSign] := fun _ _ _ => ⟨true, rfl⟩
theorem adds_ee : Adds false (cl! "[Ee]") [.cls false [.one 'E', .one 'e']] := fun _ _ _ => ⟨false, rfl⟩
theorem adds_x10 : Adds false (cl! " ?[Xx\\u2715] ?10\\^ ?")
    [.rep 0 (some 1) true (.chr ' '), .cls false [.one 'X', .one 'x', .one '\u2715'], .rep 0 (some 1) true (.chr ' '), .chr '1',
      .chr '0', .chr '^', .rep 0 (some 1) true (.chr ' ')] := by
  have h1 : Adds false (cl! " ?") [.rep 0 (some 1) true (.chr ' ')] := fun _ _ _ => ⟨true, rfl⟩
  have h2 : Adds false (cl! "[Xx\\u2715]") [.cls false [.one 'X', .one 'x', .one '\u2715']] := fun _ _ _ => ⟨false, rfl⟩
  have h3 : Adds false (cl! "10\\^") [.chr '1', .chr '0', .chr '^'] := fun _ _ _ => ⟨false, rfl⟩
  exact h1.append (h2.append (h1.append (h3.append h1)))

theorem text_exp : sciExpPat = (cl! "(?P<") ++ (cl! "exponent") ++ ['>'] ++ (((cl! "[Ee]") ++ ((cl! "(?P<sign>[-+])?") ++
    (cl! "\\d+"))) ++ '|' :: ((cl! " ?[Xx\\u2715] ?10\\^ ?") ++ ((cl! "(?P<sign>[-+])?") ++ (cl! "\\d+")))) ++ [')'] := by
  decide +kernel

theorem adds_exp : Adds false (sciExpPat ++ ['?']) [.rep 0 (some 1) true synExp] := by
  rw [text_exp]
  exact (opens_named (v := false) (cl! "exponent") (by decide)).rep
    ((adds_ee.append (adds_sign.append adds_dplus)).or (adds_x10.append (adds_sign.append adds_dplus)).body) quant_opt

theorem lit_int : "(?P<integer>\\d{1,3}(?:".toList = (cl! "(?P<") ++ ((cl! "integer") ++ (['>'] ++ ((cl! "\\d{1,3}") ++ (cl! "(?:")))) := by
  decide +kernel
theorem lit_d3 : "\\d{3})+".toList = (cl! "\\d{3}") ++ ([')'] ++ ['+']) := by decide +kernel
theorem lit_or : "|\\d+".toList = ['|'] ++ (cl! "\\d+") := by decide +kernel
theorem lit_close : ")".toList = [')'] := by decide +kernel
theorem lit_dec : "(?P<decimal>".toList = (cl! "(?P<") ++ ((cl! "decimal") ++ ['>']) := by decide +kernel
theorem lit_dclose : "\\d+)".toList = (cl! "\\d+") ++ [')'] := by decide +kernel
theorem lit_num : "(?P<number>".toList ++ signPat ++ "?(?:".toList =
    (cl! "(?P<") ++ ((cl! "number") ++ (['>'] ++ ((cl! "(?P<sign>[-+])?") ++ (cl! "(?:")))) := by decide +kernel
theorem lit_qor : "?|".toList = ['?'] ++ ['|'] := by decide +kernel
theorem lit_qclose : "?)".toList = ['?'] ++ [')'] := by decide +kernel

/-- The integer pattern. -/
theorem text_int (E : NlpNumber.Env) (x : NlpNumber.Obj) : integerPat E x = (cl! "(?P<") ++ (cl! "integer") ++ ['>'] ++
    (((cl! "\\d{1,3}") ++ ((cl! "(?:") ++ (E.escape x.thousandsSep ++ (cl! "\\d{3}")) ++ [')'] ++ ['+'])) ++
      (if x.optional then ['|'] ++ (cl! "\\d+") else [])) ++ [')'] := by
  have key : ∀ (A e B C D a1 a2 a3 a4 a5 b1 b2 b3 c d : List Char), A = a1 ++ (a2 ++ (a3 ++ (a4 ++ a5))) → B = b1 ++ (b2 ++ b3) →
      C = c → D = d → A ++ e ++ B ++ C ++ D = a1 ++ a2 ++ a3 ++ ((a4 ++ (a5 ++ (e ++ b1) ++ b2 ++ b3)) ++ c) ++ d := by
    rintro _ _ _ _ _ _ _ _ _ _ _ _ _ _ _ rfl rfl rfl rfl
    simp only [List.append_assoc]
  exact key _ _ _ _ _ _ _ _ _ _ _ _ _ _ _ lit_int lit_d3 (by rw [lit_or]) lit_close

theorem adds_int {E : NlpNumber.Env} (hE : Escapes E.escape) (x : NlpNumber.Obj) :
    Adds false (integerPat E x) [synInt x.thousandsSep x.optional] := by
  have h1 := opens_plain.rep ((hE.adds x.thousandsSep).append adds_d3).body (v := false) quant_plus
  have h2 := adds_d13.append h1
  have ho := opens_named (v := false) (cl! "integer") (by decide)
  rw [text_int]
  cases hx : x.optional with
  | false =>
    have := ho.adds h2.body
    rw [if_neg Bool.false_ne_true, List.append_nil]
    exact this
  | true => exact ho.adds (h2.or adds_dplus.body)

/-- The decimal pattern. -/
theorem run_dec {E : NlpNumber.Env} (hE : Escapes E.escape) (x : NlpNumber.Obj) :
    Body false (E.escape x.decimalPoint ++ (cl! "\\d+")) [seqOf (x.decimalPoint.map Syn.chr ++ [.rep 1 none true synD])] :=
  ((hE.adds x.decimalPoint).append adds_dplus).body

theorem text_dec (E : NlpNumber.Env) (x : NlpNumber.Obj) : decPat E x = (cl! "(?P<") ++ (cl! "decimal") ++ ['>'] ++
    (E.escape x.decimalPoint ++ (cl! "\\d+")) ++ [')'] := by
  have key : ∀ (A e B a1 a2 a3 b1 b2 : List Char), A = a1 ++ (a2 ++ a3) → B = b1 ++ b2 →
      A ++ e ++ B = a1 ++ a2 ++ a3 ++ (e ++ b1) ++ b2 := by
    rintro _ _ _ _ _ _ _ _ rfl rfl
    simp only [List.append_assoc]
  exact key _ _ _ _ _ _ _ _ lit_dec lit_dclose

theorem adds_dec {E : NlpNumber.Env} (hE : Escapes E.escape) (x : NlpNumber.Obj) : Adds false (decPat E x) [synDec x.decimalPoint] := by
  rw [text_dec]
  exact (opens_named (v := false) (cl! "decimal") (by decide)).adds (run_dec hE x)

theorem adds_dec_opt {E : NlpNumber.Env} (hE : Escapes E.escape) (x : NlpNumber.Obj) :
    Adds false (decPat E x ++ ['?']) [.rep 0 (some 1) true (synDec x.decimalPoint)] := by
  rw [text_dec]
  exact (opens_named (v := false) (cl! "decimal") (by decide)).rep (run_dec hE x) quant_opt

theorem patternFor_eq (E : NlpNumber.Env) (x : NlpNumber.Obj) : patternFor E x.decimalPoint x.thousandsSep x.optional =
    "(?P<number>".toList ++ signPat ++ "?(?:".toList ++ integerPat E x ++ decPat E x ++ "?|".toList ++ decPat E x ++ ")".toList ++
      sciExpPat ++ "?)".toList := by
  unfold integerPat decPat patternFor
  rfl

theorem text_number (E : NlpNumber.Env) (x : NlpNumber.Obj) : patternFor E x.decimalPoint x.thousandsSep x.optional =
    (cl! "(?P<") ++ (cl! "number") ++ ['>'] ++ ((cl! "(?P<sign>[-+])?") ++ ((cl! "(?:") ++ (integerPat E x ++ (decPat E x ++ ['?']) ++
      '|' :: decPat E x) ++ [')'] ++ (sciExpPat ++ ['?']))) ++ [')'] := by
  have key : ∀ (A s B i d C D e F a1 a2 a3 a4 a5 c1 c2 d1 f1 f2 : List Char), A ++ s ++ B = a1 ++ (a2 ++ (a3 ++ (a4 ++ a5))) →
      C = c1 ++ c2 → D = d1 → F = f1 ++ f2 → A ++ s ++ B ++ i ++ d ++ C ++ d ++ D ++ e ++ F =
        a1 ++ a2 ++ a3 ++ (a4 ++ (a5 ++ (i ++ (d ++ c1) ++ (c2 ++ d)) ++ d1 ++ (e ++ f1))) ++ f2 := by
    rintro A s B _ _ _ _ _ _ _ _ _ _ _ _ _ _ _ _ h rfl rfl rfl
    rw [h]
    simp only [List.append_assoc]
  rw [patternFor_eq]
  exact key "(?P<number>".toList signPat "?(?:".toList (integerPat E x) (decPat E x) "?|".toList ")".toList sciExpPat "?)".toList
    (cl! "(?P<") (cl! "number") ['>'] (cl! "(?P<sign>[-+])?") (cl! "(?:") ['?'] ['|'] [')'] ['?'] [')'] lit_num lit_qor lit_close lit_qclose

/-- The whole pattern. -/
theorem read_number {E : NlpNumber.Env} (hE : Escapes E.escape) (x : NlpNumber.Obj) :
    ReSyntax.read false (patternFor E x.decimalPoint x.thousandsSep x.optional) =
      some (synNum x.decimalPoint x.thousandsSep x.optional) := by
  have h1 := ((adds_int hE x).append (adds_dec_opt hE x)).or (adds_dec hE x).body
  have h2 := opens_plain.adds (v := false) h1
  have h3 := (adds_sign.append (h2.append adds_exp)).body
  have h4 := ((opens_named (v := false) (cl! "number") (by decide)).adds h3).body.read
  rw [text_number]
  exact h4

theorem same_group (P : ReSyntax.Env) (hf : P.fold = none) (s : List Char) (x : Syn) (hx : ∀ n a, x ≠ .grp (.named n) a) :
    Same (denote P [] (seqOf (s.map Syn.chr ++ [x]))) (.seq (lit s) (denote P [] x)) := by
  have h := denote_seqOf_append P [] (s.map Syn.chr) [x] (by
    intro y hy zs _
    obtain ⟨c, _, rfl⟩ := List.mem_map.1 hy
    rfl)
  rw [denote_chars P hf] at h
  exact h

theorem refers_dec (n point : List Char) : (synDec point).refers n = false := by
  rw [synDec, Syn.refers, refers_seqOf]
  simp [Syn.refers, synD]

theorem seq_opt_dec (P : ReSyntax.Env) (a : Syn) (point : List Char) :
    Same (denote P [] (.seq a (.rep 0 (some 1) true (synDec point)))) (.seq (denote P [] a) (opt (denote P [] (synDec point)))) := by
  have h : a.referred (.rep 0 (some 1) true (synDec point)) = none := by
    unfold Syn.referred
    split
    · rw [Syn.refers, refers_dec]; rfl
    · rfl
  rw [denote]
  simp only [h]
  exact Same.refl _

/-- The environment. -/
def numEnv (dg sp wd : Char → Bool) (ls : List Char → Re) (tx : List Char) (lo : Nat) (da : Bool) : ReSyntax.Env :=
  ⟨dg, sp, wd, ls, tx, lo, da, none⟩

section
variable (dg sp wd : Char → Bool) (ls : List Char → Re) (tx : List Char) (lo : Nat) (da : Bool) (sep point : List Char) (o : Bool)

theorem num_dec : Same (denote (numEnv dg sp wd ls tx lo da) [] (synDec point)) (NumberRe.decG ⟨dg, sep, point, o⟩) :=
  (same_group (numEnv dg sp wd ls tx lo da) rfl point (.rep 1 none true synD) (by simp)).grp
theorem num_group : Same (denote (numEnv dg sp wd ls tx lo da) [] (synGroup sep)) (NumberRe.group3 ⟨dg, sep, point, o⟩) :=
  same_group (numEnv dg sp wd ls tx lo da) rfl sep (.rep 3 (some 3) true synD) (by simp)
theorem num_grouped : Same (denote (numEnv dg sp wd ls tx lo da) [] (synGrouped sep)) (NumberRe.grouped ⟨dg, sep, point, o⟩) := by
  have hg := num_group dg sp wd ls tx lo da sep point o
  exact (Same.refl (NumberRe.d13 ⟨dg, sep, point, o⟩)).seq (hg.seq hg.star)
theorem num_int : Same (denote (numEnv dg sp wd ls tx lo da) [] (synInt sep o)) (NumberRe.intG ⟨dg, sep, point, o⟩) := by
  have hgs := num_grouped dg sp wd ls tx lo da sep point o
  cases o
  · exact hgs.grp
  · exact (hgs.alt (Same.refl (plus (.chr dg)))).grp
theorem num_sign : Same (denote (numEnv dg sp wd ls tx lo da) [] synSign) NumberRe.signG := Same.refl _
theorem num_exp : Same (denote (numEnv dg sp wd ls tx lo da) [] synExp) (NumberRe.expG ⟨dg, sep, point, o⟩) :=
  same_of_flat rfl
theorem num_alt : Same (denote (numEnv dg sp wd ls tx lo da) [] (.alt (.seq (synInt sep o) (.rep 0 (some 1) true (synDec point))) (synDec point)))
      (.alt (.seq (NumberRe.intG ⟨dg, sep, point, o⟩) (opt (NumberRe.decG ⟨dg, sep, point, o⟩))) (NumberRe.decG ⟨dg, sep, point, o⟩)) := by
  have hd := num_dec dg sp wd ls tx lo da sep point o
  rw [denote]
  exact ((seq_opt_dec _ _ _).trans ((num_int dg sp wd ls tx lo da sep point o).seq (hd.alt (Same.refl .eps)))).alt hd
theorem num_all : Same (denote (numEnv dg sp wd ls tx lo da) [] (synNum point sep o)) (NumberRe.numRe ⟨dg, sep, point, o⟩) := by
  have h : denote (numEnv dg sp wd ls tx lo da) [] (synNum point sep o) = .grp "number"
    (.seq (opt (denote (numEnv dg sp wd ls tx lo da) [] synSign)) (.seq (denote (numEnv dg sp wd ls tx lo da) []
      (.alt (.seq (synInt sep o) (.rep 0 (some 1) true (synDec point))) (synDec point)))
        (opt (denote (numEnv dg sp wd ls tx lo da) [] synExp)))) := by
    rw [synNum, denote, denote]
    simp only [Syn.referred]
    rw [denote]
    rw [denote, denote]
    rfl
  rw [h]
  exact (((num_sign dg sp wd ls tx lo da).alt (Same.refl .eps)).seq ((num_alt dg sp wd ls tx lo da sep point o).seq
    ((num_exp dg sp wd ls tx lo da sep point o).alt (Same.refl .eps)))).grp
end

/-- **C116.** The pattern which `Number` assembles from its settings, for every decimal point and separator: it is the
expression that the theorems about numbers are about. -/
theorem C116_number (E : NlpNumber.Env) (hE : Escapes E.escape) (P : ReSyntax.Env) (hf : P.fold = none)
    (point sep : List Char) (o : Bool) :
    Denotes P false (patternFor E point sep o) (NumberRe.numRe ⟨P.digit, sep, point, o⟩) := by
  obtain ⟨dg, sp, wd, ls, tx, lo, da, fo⟩ := P
  dsimp only at hf; subst hf
  exact denotes_of (read_number hE ⟨point, sep, o, none, none, none, none⟩) (num_all dg sp wd ls tx lo da sep point o)

/-- … and for an object: whatever was given to the constructor and assigned afterwards, its pattern is the one of
the settings it was constructed with. -/
theorem C116_number_object (E : NlpNumber.Env) (hE : Escapes E.escape) (P : ReSyntax.Env) (hf : P.fold = none)
    (kwargs : List Assign) (x : NlpNumber.Obj) (hx : init E kwargs = .ok x) (ss : List Assign) :
    ∃ p, (history E x ss).re = some p ∧
      Denotes P false p (NumberRe.numRe ⟨P.digit, x.thousandsSep, x.decimalPoint, x.optional⟩) := by
  refine ⟨patternFor E x.decimalPoint x.thousandsSep x.optional, ?_, C116_number E hE P hf _ _ _⟩
  rw [(C81_frozen E x ss).1]
  unfold init at hx
  dsimp only at hx
  split at hx
  · cases hx
  · rename_i y _ _
    simp only [buildNumPatRe] at hx
    injection hx with hx
    subst hx
    rfl

/-- Escaping that does what is assumed: `\` before everything that is no letter and no digit. -/
def escapeAll (s : List Char) : List Char := s.flatMap fun c => if alnum c then [c] else ['\\', c]

theorem escapes_all : Escapes escapeAll := by
  refine ⟨rfl, fun c cs => ?_⟩
  cases h : alnum c with
  | true =>
    refine .inl ⟨by simp [escapeAll, h], fun hm => ?_⟩
    revert h
    have : ∀ d ∈ (cl! "\\()[|.^$*+?{]}-#&~"), alnum d = false := by decide
    rw [this c hm]; simp
  | false => exact .inr ⟨by simp [escapeAll, h], rfl⟩

example (P : ReSyntax.Env) (hf : P.fold = none) :
    Denotes P false ("(?P<number>(?P<sign>[-+])?(?:(?P<integer>\\d{1,3}(?:\\,\\d{3})+|\\d+)(?P<decimal>\\.\\d+)?|".toList ++
      "(?P<decimal>\\.\\d+))(?P<exponent>[Ee](?P<sign>[-+])?\\d+| ?[Xx\\u2715] ?10\\^ ?(?P<sign>[-+])?\\d+)?)".toList)
      (NumberRe.numRe ⟨P.digit, [','], ['.'], true⟩) := by
  have h := C116_number ⟨escapeAll, fun _ => false, ['.'], [',']⟩ escapes_all P hf ['.'] [','] true
  have e : patternFor ⟨escapeAll, fun _ => false, ['.'], [',']⟩ ['.'] [','] true =
    "(?P<number>(?P<sign>[-+])?(?:(?P<integer>\\d{1,3}(?:\\,\\d{3})+|\\d+)(?P<decimal>\\.\\d+)?|".toList ++
      "(?P<decimal>\\.\\d+))(?P<exponent>[Ee](?P<sign>[-+])?\\d+| ?[Xx\\u2715] ?10\\^ ?(?P<sign>[-+])?\\d+)?)".toList := by
    decide +kernel
  exact e ▸ h

end Props
end Pawpaw
