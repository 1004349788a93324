import Verif.Model.Repr
import Verif.Spec.Repr
import Verif.Props.Format
/-!
# C126: `repr` of an Ito
-/
namespace Pawpaw.Props
open Pawpaw Pawpaw.Format Pawpaw.ReprIto ReprSpec

/-! ### Python's `repr` of a text can be read back -/

def reprHexVal (c : Char) : Nat := "0123456789abcdef".toList.idxOf c
def reprVal (l : List Char) : Nat := l.foldl (fun a c => a * 16 + reprHexVal c) 0

theorem reprHexVal_hexDigit : ∀ d, d < 16 → reprHexVal (hexDigit d) = d := by decide

theorem reprHex_length : ∀ w n, (hex w n).length = w
  | 0, _ => rfl
  | w + 1, n => by simp [hex, reprHex_length w]

theorem reprVal_hex : ∀ w n, n < 16 ^ w → reprVal (hex w n) = n
  | 0, n, h => by
    have : n = 0 := by simpa using h
    subst this; rfl
  | w + 1, n, h => by
    have h1 : n / 16 < 16 ^ w := by
      rw [Nat.pow_succ] at h
      omega
    have ih := reprVal_hex w (n / 16) h1
    unfold reprVal at ih ⊢
    rw [hex, List.foldl_append, ih]
    simp only [List.foldl_cons, List.foldl_nil, reprHexVal_hexDigit _ (Nat.mod_lt _ (by omega : 16 > 0))]
    omega

/-- Reads one character back. -/
def reprUnesc (l : List Char) : Option (Char × List Char) :=
  match l with
  | [] => none
  | c :: r =>
    if c = '\\' then
      match r with
      | [] => none
      | d :: r =>
        if d = 'x' then some (Char.ofNat (reprVal (r.take 2)), r.drop 2)
        else if d = 'u' then some (Char.ofNat (reprVal (r.take 4)), r.drop 4)
        else if d = 'U' then some (Char.ofNat (reprVal (r.take 8)), r.drop 8)
        else if d = 't' then some ('\t', r)
        else if d = 'n' then some ('\n', r)
        else if d = 'r' then some ('\r', r)
        else some (d, r)
    else some (c, r)

theorem reprHex_take (w n : Nat) (r : List Char) : (hex w n ++ r).take w = hex w n := by
  rw [List.take_append_of_le_length (by rw [reprHex_length]; exact Nat.le_refl _),
    List.take_of_length_le (by rw [reprHex_length]; exact Nat.le_refl _)]

theorem reprHex_drop (w n : Nat) (r : List Char) : (hex w n ++ r).drop w = r := by
  rw [List.drop_append_of_le_length (by rw [reprHex_length]; exact Nat.le_refl _),
    List.drop_of_length_le (by rw [reprHex_length]; exact Nat.le_refl _), List.nil_append]

theorem reprChar_lt (c : Char) : c.toNat < 16 ^ 8 := by
  have := c.val.toNat_lt
  show c.val.toNat < _
  omega

theorem reprUnesc_esc (pr : Char → Bool) {q : Char} (hq : q = '\'' ∨ q = '"') (c : Char) (r : List Char) :
    reprUnesc (esc pr q c ++ r) = some (c, r) := by
  unfold esc
  split
  · rename_i h
    have : c = '\'' ∨ c = '"' ∨ c = '\\' := by
      rcases h with rfl | rfl
      · rcases hq with rfl | rfl <;> simp
      · simp
    rcases this with rfl | rfl | rfl <;> rfl
  split
  · rename_i h; subst h; rfl
  split
  · rename_i h; subst h; rfl
  split
  · rename_i h; subst h; rfl
  split
  · rename_i h
    simp only [List.cons_append, reprUnesc, if_true, reprHex_take, reprHex_drop]
    rw [reprVal_hex _ _ (by omega), Char.ofNat_toNat]
  split
  · rename_i h _ _ _ _ _
    have : c ≠ '\\' := fun h' => h (Or.inr h')
    simp [reprUnesc, this]
  split
  · simp only [List.cons_append, reprUnesc, if_true, reprHex_take, reprHex_drop]
    rw [reprVal_hex _ _ (by omega), Char.ofNat_toNat]
  split
  · simp only [List.cons_append, reprUnesc, if_true, reprHex_take, reprHex_drop]
    rw [reprVal_hex _ _ (by omega), Char.ofNat_toNat]
    rfl
  · simp only [List.cons_append, reprUnesc, if_true, reprHex_take, reprHex_drop]
    rw [reprVal_hex _ _ (reprChar_lt c), Char.ofNat_toNat]
    rfl

theorem reprEsc_head (pr : Char → Bool) {q : Char} (hq : q = '\'' ∨ q = '"') (c : Char) :
    ∃ d t, esc pr q c = d :: t ∧ d ≠ q := by
  have hb : '\\' ≠ q := by rcases hq with rfl | rfl <;> decide
  by_cases h : c = q ∨ c = '\\'
  · exact ⟨'\\', [c], by simp [esc, h], hb⟩
  · have hc : c ≠ q := fun h' => h (Or.inl h')
    unfold esc
    rw [if_neg h]
    repeat' split
    all_goals exact ⟨_, _, rfl, by assumption⟩

theorem reprBody_inj (pr : Char → Bool) {q : Char} (hq : q = '\'' ∨ q = '"') :
    ∀ (s s' r r' : List Char), s.flatMap (esc pr q) ++ q :: r = s'.flatMap (esc pr q) ++ q :: r' →
      s = s' ∧ r = r'
  | [], [], r, r', h => by simpa using h
  | [], c :: s', r, r', h => by
    obtain ⟨d, t, h1, h2⟩ := reprEsc_head pr hq c
    simp only [List.flatMap_nil, List.nil_append, List.flatMap_cons, h1, List.cons_append,
      List.cons.injEq] at h
    exact absurd h.1.symm h2
  | c :: s, [], r, r', h => by
    obtain ⟨d, t, h1, h2⟩ := reprEsc_head pr hq c
    simp only [List.flatMap_nil, List.nil_append, List.flatMap_cons, h1, List.cons_append,
      List.cons.injEq] at h
    exact absurd h.1 h2
  | c :: s, c' :: s', r, r', h => by
    simp only [List.flatMap_cons, List.append_assoc] at h
    have := congrArg reprUnesc h
    rw [reprUnesc_esc pr hq, reprUnesc_esc pr hq] at this
    simp only [Option.some.injEq, Prod.mk.injEq] at this
    obtain ⟨rfl, this⟩ := this
    obtain ⟨rfl, rfl⟩ := reprBody_inj pr hq s s' r r' this
    exact ⟨rfl, rfl⟩

theorem reprQuote_or (s : List Char) : quote s = '\'' ∨ quote s = '"' := by
  unfold quote; split <;> simp

/-- What follows a `repr` cannot be taken for a part of it. -/
theorem pyRepr_inj (pr : Char → Bool) {s s' r r' : List Char}
    (h : pyRepr pr s ++ r = pyRepr pr s' ++ r') : s = s' ∧ r = r' := by
  simp only [pyRepr, List.cons_append, List.append_assoc, List.cons.injEq, List.nil_append] at h
  obtain ⟨h1, h2⟩ := h
  rw [← h1] at h2
  exact reprBody_inj pr (reprQuote_or s) s s' r r' h2

/-! ### The text of `repr(ito)` -/

theorem reprIntros : intros fspec = [5, 17, 33] := by decide +kernel

theorem reprMatches : reMatches fspec (intros fspec) =
    [⟨5, 10, .int .span 10⟩, ⟨17, 24, .str .desc (some ⟨none, 'r', none⟩) none⟩,
     ⟨33, 42, .str .substr (some ⟨none, 'r', none⟩) none⟩] := by
  decide +kernel

theorem reprConvert (env : FmtEnv) (t : List Char) : convert env t (some ⟨none, 'r', none⟩) = env.repr t := by
  simp only [convert]
  rw [if_neg (by decide), slice_from _ (by omega)]
  rfl

/-- **C126**, the text: `repr(ito)` is the name of the class and, in parentheses, the span, the `repr` of
the descriptor (of the empty text if there is none) and the `repr` of `str(ito)`. -/
theorem C126_text_partial (env : FmtEnv) (cls : List Char) (x : FIto Char)
    (henv : ∀ i, env.fmtInt i [] = .ok (toString i : String).toList) :
    reprIto env cls x = .ok (cls ++ "(span=(".toList ++ (toString x.start : String).toList ++ ", ".toList ++
      (toString x.stop : String).toList ++ "), desc=".toList ++ env.repr (x.desc.getD "").toList ++
      ", substr=".toList ++ env.repr x.text ++ ")".toList) := by
  have key : format env x fspec = .ok (fspec.take 0 ++ spliced fspec
      (fun m => match m.found with
        | .str .desc _ _ => env.repr (x.desc.getD "").toList
        | .str _ _ _ => env.repr x.text
        | _ => "(".toList ++ (toString x.start : String).toList ++ ", ".toList ++
            (toString x.stop : String).toList ++ ")".toList) 0 (reMatches fspec (intros fspec))) := by
    unfold format
    rw [if_neg (by decide)]
    simp only [idxs_eq]
    apply substituteAll_spliced
    · omega
    · rw [reprMatches]
      refine ⟨by decide, by decide, by decide, by decide, by decide, by decide, by decide, by decide,
        by decide, trivial⟩
    · rw [reprMatches]
      intro m hm
      simp only [List.mem_cons, List.not_mem_nil, or_false] at hm
      rcases hm with rfl | rfl | rfl
      · have e : PyStr.slice fspec (some (((10 : Nat) : Int) + 1)) (some ((10 : Nat) : Int)) = [] := by
          decide +kernel
        simp only [render, e, henv]
      · simp only [render, strText, reprConvert, abbreviate]
      · simp only [render, strText, reprConvert, abbreviate]
  unfold reprIto
  rw [key, reprMatches]
  have e1 : (fspec.take 5).drop 0 = "span=".toList := by decide +kernel
  have e2 : (fspec.take 17).drop 10 = ", desc=".toList := by decide +kernel
  have e3 : (fspec.take 33).drop 24 = ", substr=".toList := by decide +kernel
  have e4 : fspec.drop 42 = [] := by decide +kernel
  simp only [spliced, e1, e2, e3, e4]
  simp

theorem reprInt_digits {i : Int} (h : 0 ≤ i) : (toString i : String).toList = (toString i.toNat : String).toList := by
  obtain ⟨n, rfl⟩ := Int.eq_ofNat_of_zero_le h
  rfl

theorem reprDigits_inj {a b : Nat} {c c' : Char} {r r' : List Char} (hc : Query.isDigit c = false)
    (hc' : Query.isDigit c' = false)
    (h : (toString a : String).toList ++ c :: r = (toString b : String).toList ++ c' :: r') :
    a = b ∧ c :: r = c' :: r' := by
  have h1 := digits?_append_eq (W := c :: r) (Or.inr (toString_digits a)) (by
    rintro d ⟨rfl⟩; exact hc)
  have h2 := digits?_append_eq (W := c' :: r') (Or.inr (toString_digits b)) (by
    rintro d ⟨rfl⟩; exact hc')
  rw [if_neg (digits_ne_nil a)] at h1
  rw [if_neg (digits_ne_nil b), ← h, h1] at h2
  simp only [Prod.mk.injEq, Option.some.injEq] at h2
  refine ⟨?_, h2.2⟩
  rw [← digitsVal_digits a, ← digitsVal_digits b, h2.1]

/-- **C126**, what it tells: two Itos of the same class with the same `repr` have the same span, the same
text, and the same descriptor, but for a missing one and an empty one. -/
theorem C126_tells_partial (env : FmtEnv) (pr : Char → Bool) (cls : List Char) (x y : FIto Char)
    (henv : ∀ i, env.fmtInt i [] = .ok (toString i : String).toList) (hr : env.repr = pyRepr pr)
    (hx : x.Valid) (hy : y.Valid) (h : reprIto env cls x = reprIto env cls y) :
    x.start = y.start ∧ x.stop = y.stop ∧ x.text = y.text ∧ x.desc.getD "" = y.desc.getD "" := by
  rw [C126_text_partial env cls x henv, C126_text_partial env cls y henv, hr] at h
  have hx0 : 0 ≤ x.start ∧ 0 ≤ x.stop := by
    unfold FIto.Valid at hx; unfold FIto.start FIto.stop; omega
  have hy0 : 0 ≤ y.start ∧ 0 ≤ y.stop := by
    unfold FIto.Valid at hy; unfold FIto.start FIto.stop; omega
  rw [reprInt_digits hx0.1, reprInt_digits hx0.2, reprInt_digits hy0.1, reprInt_digits hy0.2] at h
  simp only [Except.ok.injEq, List.append_assoc, List.append_cancel_left_eq] at h
  have h1 := reprDigits_inj (c := ',') (c' := ',') (by decide) (by decide) h
  have h1' := List.append_cancel_left (as := ", ".toList) h1.2
  have h2 := reprDigits_inj (c := ')') (c' := ')') (by decide) (by decide) h1'
  have h2' := List.append_cancel_left (as := "), desc=".toList) h2.2
  have h3 := pyRepr_inj pr h2'
  have h3' := List.append_cancel_left (as := ", substr=".toList) h3.2
  have h4 := pyRepr_inj pr h3'
  refine ⟨by omega, by omega, h4.1, ?_⟩
  rw [← String.ofList_toList (s := x.desc.getD ""), h3.1, String.ofList_toList]

/-- **C126 violated.** No descriptor and an empty descriptor look the same, although `==` tells the Itos
apart. -/
theorem C126_violated (env : FmtEnv) (cls : List Char)
    (henv : ∀ i, env.fmtInt i [] = .ok (toString i : String).toList) :
    ∃ x y : FIto Char, x.Valid ∧ y.Valid ∧ reprIto env cls x = reprIto env cls y ∧
      x.string = y.string ∧ x.desc ≠ y.desc := by
  refine ⟨⟨['a'], ⟨0, 1⟩, none⟩, ⟨['a'], ⟨0, 1⟩, some ""⟩, ?_, ?_, ?_, rfl, by decide⟩
  · unfold FIto.Valid; decide
  · unfold FIto.Valid; decide
  rw [C126_text_partial env cls _ henv, C126_text_partial env cls _ henv]
  rfl

/-! ### Examples -/

def reprExEnv : FmtEnv :=
  { fmtInt := fun i f => if f = [] then .ok (toString i : String).toList else .error .valueError
    ascii := pyRepr (fun _ => false)
    repr := pyRepr (fun _ => true)
    value := fun x => .ok x.text }

-- the hypotheses of the theorems are met, and the model computes what Python does
example : (∀ i, reprExEnv.fmtInt i [] = .ok (toString i : String).toList) ∧
    reprExEnv.repr = pyRepr (fun _ => true) := ⟨fun _ => rfl, rfl⟩
example : (reprIto reprExEnv "Ito".toList ⟨"ab it's\n%substr".toList, ⟨3, 15⟩, some "a%\\"⟩).map String.ofList =
    .ok "Ito(span=(3, 15), desc='a%\\\\', substr=\"it's\\n%substr\")" := by decide +kernel
example : pyRepr (fun _ => false) "'\"\t\x01é中😀".toList = "'\\'\"\\t\\x01\\xe9\\u4e2d\\U0001f600'".toList := by
  decide +kernel

end Pawpaw.Props
