import Verif.Props.ParsersLines
import Verif.Spec.Parsers
/-!
# The pattern of format directives
-/
namespace Pawpaw.Props
open Pawpaw Pawpaw.Regex RegexSpec ReSyntax Patterns Format
open Pawpaw.Query (isDigit)

/-- `(?P<n>a)?` -/
def optG (n : String) (a : Re) : Re := .alt (.grp n a) .eps

/-- `_pat_format_int` without the directive. -/
def specRe : Re :=
  .alt (.seq (.chr (· == ':')) (.seq (.alt (.seq (optG "fill" (.chr fun _ => true)) (.grp "align" (.chr isAlign))) .eps)
    (.seq (optG "sign" (.chr fun c => c = '+' || c = '-')) (.seq (optG "hash" (.chr fun c => c = '#'))
      (.seq (optG "zero" (.chr fun c => c = '0')) (.seq (optG "width" (plus (.chr isDigit)))
        (.seq (optG "grouping_option" (.chr fun c => c = '_' || c = ',')) (optG "type" (.chr isType))))))))) .eps

/-- The conversion. -/
def convRe : Re :=
  .alt (.seq (.chr (· == '!')) (.seq (optG "lslice" (plus (.chr isDigit))) (.seq (.grp "conv" (.chr fun c => c = 'a' || c = 'r'))
    (optG "rslice" (plus (.chr isDigit)))))) .eps

/-- The width. -/
def widthRe : Re :=
  .alt (.seq (.chr (· == ':')) (.seq (optG "abbr_pos" (.chr isPos)) (.seq (.grp "width" (plus (.chr isDigit)))
    (optG "abbr" (plus (.chr fun _ => true)))))) .eps

/-- The directives. -/
def intDirRe : Re := .alt (lit IntDir.span.name) (.alt (lit IntDir.start.name) (lit IntDir.stop.name))
/-- The directives. -/
def strDirRe : Re :=
  .alt (lit StrDir.desc.name) (.alt (lit StrDir.string.name) (.alt (lit StrDir.substr.name) (lit StrDir.value.name)))

theorem intNames : IntDir.span.name = (cl! "span") ∧ IntDir.start.name = (cl! "start") ∧ IntDir.stop.name = (cl! "stop") := by
  decide +kernel
theorem strNames : StrDir.desc.name = (cl! "desc") ∧ StrDir.string.name = (cl! "string") ∧ StrDir.substr.name = (cl! "substr") ∧
    StrDir.value.name = (cl! "value") := by decide +kernel
theorem intName_ne (d : IntDir) : d.name ≠ [] := by cases d <;> decide +kernel
theorem strName_ne (d : StrDir) : d.name ≠ [] := by cases d <;> decide +kernel

/-- The whole pattern. -/
def formatRe : Re :=
  .seq (.chr (· == '%')) (.alt (.grp "zws" (.chr (· == ' '))) (.alt (.seq (.grp "dir" intDirRe) specRe)
    (.seq (.grp "dir" strDirRe) (.seq convRe widthRe))))

theorem isType_eq : isType = fun c => c = 'b' || c = 'c' || c = 'd' || c = 'e' || c = 'E' || c = 'f' || c = 'F' || c = 'g' || c = 'G' ||
    c = 'n' || c = 'o' || c = 's' || c = 'x' || c = 'X' || c = '%' := by
  funext c
  unfold isType
  simp [Bool.or_assoc]

theorem denotes_format (E : ReSyntax.Env) (h : E.fold = none) (hd : E.dotall = true) (hg : E.digit = isDigit) :
    Denotes E false Patterns.format formatRe := by
  obtain ⟨dg, sp, wd, ls, tx, lo, da, fo⟩ := E
  dsimp only at h hd hg; subst h hd hg
  refine denotes_of read_format (same_of_flat ?_)
  simp only [formatRe, specRe, isType_eq, intDirRe, strDirRe, intNames.1, intNames.2.1, intNames.2.2, strNames.1, strNames.2.1,
    strNames.2.2.1, strNames.2.2.2]
  rfl

theorem lit_out (t : List Char) (ht : t ≠ []) (i : Nat) (l : List Char) (c : List (String × Nat × Nat)) :
    out (lit t) ⟨i, l, c⟩ = match lit? t l with | some l' => [⟨i + t.length, l', c⟩] | none => [] := by
  induction t generalizing i l with
  | nil => exact absurd rfl ht
  | cons x t ih =>
    cases l with
    | nil =>
      rw [show lit? (x :: t) [] = none from rfl]
      cases t with
      | nil => exact out_chr_empty _ _ _
      | cons y t => exact seq_none (out_chr_empty _ _ _)
    | cons y l =>
      cases t with
      | nil =>
        rw [lit, out_chr_cons]
        by_cases hx : x = y
        · subst hx; simp [lit?]
        · have : ¬ y = x := fun e => hx e.symm
          simp [lit?, hx, this]
      | cons z t =>
        rw [show lit (x :: z :: t) = .seq (.chr (· == x)) (lit (z :: t)) from rfl, out, out_chr_cons]
        by_cases hx : x = y
        · subst hx
          rw [if_pos (by simp), List.flatMap_cons, List.flatMap_nil, List.append_nil, ih (by simp)]
          have : lit? (x :: z :: t) (x :: l) = lit? (z :: t) l := by simp [lit?, List.isPrefixOf]
          rw [this]
          cases lit? (z :: t) l with
          | none => rfl
          | some l' => simp; omega
        · have hyx : ¬ y = x := fun e => hx e.symm
          rw [if_neg (by simpa using hyx)]
          simp [lit?, hx]

theorem lit_best {t l l' : List Char} (ht : t ≠ []) (h : lit? t l = some l') (i : Nat) (c : List (String × Nat × Nat)) :
    best (lit t) ⟨i, l, c⟩ = some ⟨i + t.length, l', c⟩ := by
  unfold best; rw [lit_out t ht, h]; rfl

theorem lit_none {t l : List Char} (ht : t ≠ []) (h : lit? t l = none) (i : Nat) (c : List (String × Nat × Nat)) :
    out (lit t) ⟨i, l, c⟩ = [] := by
  rw [lit_out t ht, h]

theorem lit?_eq {t l l' : List Char} (h : lit? t l = some l') : l = t ++ l' := by
  unfold lit? at h
  split at h
  · rename_i hp
    obtain ⟨s, rfl⟩ := List.isPrefixOf_iff_prefix.1 hp
    rw [List.drop_left] at h
    rw [Option.some.inj h]
  · cases h

theorem int_none {l : List Char} (h : intDir? l = none) (i : Nat) (c : List (String × Nat × Nat)) : out intDirRe ⟨i, l, c⟩ = [] := by
  unfold intDir? at h
  simp only [List.findSome?_cons, List.findSome?_nil] at h
  cases h1 : lit? IntDir.span.name l with
  | some _ => rw [h1] at h; cases h
  | none =>
    cases h2 : lit? IntDir.start.name l with
    | some _ => rw [h1, h2] at h; cases h
    | none =>
      cases h3 : lit? IntDir.stop.name l with
      | some _ => rw [h1, h2, h3] at h; cases h
      | none => exact alt_none (lit_none (intName_ne _) h1 i c) (alt_none (lit_none (intName_ne _) h2 i c) (lit_none (intName_ne _) h3 i c))

theorem int_some {l l' : List Char} {d : IntDir} (h : intDir? l = some (d, l')) (i : Nat) (c : List (String × Nat × Nat)) :
    best intDirRe ⟨i, l, c⟩ = some ⟨i + d.name.length, l', c⟩ ∧ l = d.name ++ l' := by
  unfold intDir? at h
  simp only [List.findSome?_cons, List.findSome?_nil] at h
  cases h1 : lit? IntDir.span.name l with
  | some l1 =>
    rw [h1] at h
    obtain ⟨rfl, rfl⟩ := Prod.mk.inj (Option.some.inj h)
    exact ⟨best_altl (lit_best (intName_ne _) h1 i c), lit?_eq h1⟩
  | none =>
    unfold intDirRe
    rw [best_alt_right (lit_none (intName_ne _) h1 i c)]
    cases h2 : lit? IntDir.start.name l with
    | some _ =>
      rw [h1, h2] at h
      obtain ⟨rfl, rfl⟩ := Prod.mk.inj (Option.some.inj h)
      exact ⟨best_altl (lit_best (intName_ne _) h2 i c), lit?_eq h2⟩
    | none =>
      rw [best_alt_right (lit_none (intName_ne _) h2 i c)]
      cases h3 : lit? IntDir.stop.name l with
      | some _ =>
        rw [h1, h2, h3] at h
        obtain ⟨rfl, rfl⟩ := Prod.mk.inj (Option.some.inj h)
        exact ⟨lit_best (intName_ne _) h3 i c, lit?_eq h3⟩
      | none => rw [h1, h2, h3] at h; cases h

theorem str_none {l : List Char} (h : strDir? l = none) (i : Nat) (c : List (String × Nat × Nat)) : out strDirRe ⟨i, l, c⟩ = [] := by
  unfold strDir? at h
  simp only [List.findSome?_cons, List.findSome?_nil] at h
  cases h1 : lit? StrDir.desc.name l with
  | some _ => rw [h1] at h; cases h
  | none =>
    cases h2 : lit? StrDir.string.name l with
    | some _ => rw [h1, h2] at h; cases h
    | none =>
      cases h3 : lit? StrDir.substr.name l with
      | some _ => rw [h1, h2, h3] at h; cases h
      | none =>
        cases h4 : lit? StrDir.value.name l with
        | some _ => rw [h1, h2, h3, h4] at h; cases h
        | none => exact alt_none (lit_none (strName_ne _) h1 i c) (alt_none (lit_none (strName_ne _) h2 i c) (alt_none (lit_none (strName_ne _) h3 i c)
            (lit_none (strName_ne _) h4 i c)))

theorem str_some {l l' : List Char} {d : StrDir} (h : strDir? l = some (d, l')) (i : Nat) (c : List (String × Nat × Nat)) :
    best strDirRe ⟨i, l, c⟩ = some ⟨i + d.name.length, l', c⟩ ∧ l = d.name ++ l' := by
  unfold strDir? at h
  simp only [List.findSome?_cons, List.findSome?_nil] at h
  cases h1 : lit? StrDir.desc.name l with
  | some l1 =>
    rw [h1] at h
    obtain ⟨rfl, rfl⟩ := Prod.mk.inj (Option.some.inj h)
    exact ⟨best_altl (lit_best (strName_ne _) h1 i c), lit?_eq h1⟩
  | none =>
    unfold strDirRe
    rw [best_alt_right (lit_none (strName_ne _) h1 i c)]
    cases h2 : lit? StrDir.string.name l with
    | some _ =>
      rw [h1, h2] at h
      obtain ⟨rfl, rfl⟩ := Prod.mk.inj (Option.some.inj h)
      exact ⟨best_altl (lit_best (strName_ne _) h2 i c), lit?_eq h2⟩
    | none =>
      rw [best_alt_right (lit_none (strName_ne _) h2 i c)]
      cases h3 : lit? StrDir.substr.name l with
      | some _ =>
        rw [h1, h2, h3] at h
        obtain ⟨rfl, rfl⟩ := Prod.mk.inj (Option.some.inj h)
        exact ⟨best_altl (lit_best (strName_ne _) h3 i c), lit?_eq h3⟩
      | none =>
        rw [best_alt_right (lit_none (strName_ne _) h3 i c)]
        cases h4 : lit? StrDir.value.name l with
        | some _ =>
          rw [h1, h2, h3, h4] at h
          obtain ⟨rfl, rfl⟩ := Prod.mk.inj (Option.some.inj h)
          exact ⟨lit_best (strName_ne _) h4 i c, lit?_eq h4⟩
        | none => rw [h1, h2, h3, h4] at h; cases h

/-- `a` always matches, `f` says what it leaves, and the groups it captures are among `names`. -/
def Goes (a : Re) (f : List Char → List Char) (names : List String) : Prop :=
  ∀ i l c, ∃ e, best a ⟨i, l, c⟩ = some ⟨i + (l.length - (f l).length), f l, c ++ e⟩ ∧ (f l).length ≤ l.length ∧ ∀ x ∈ e, x.1 ∈ names

theorem Goes.seq {a b : Re} {f g : List Char → List Char} {m n : List String} (ha : Goes a f m) (hb : Goes b g n) :
    Goes (.seq a b) (fun l => g (f l)) (m ++ n) := by
  intro i l c
  obtain ⟨e, h1, h2, h3⟩ := ha i l c
  obtain ⟨e', g1, g2, g3⟩ := hb (i + (l.length - (f l).length)) (f l) (c ++ e)
  refine ⟨e ++ e', ?_, Nat.le_trans g2 h2, ?_⟩
  · dsimp only
    rw [best_seq h1 g1, List.append_assoc]
    congr 2
    omega
  · intro x hx
    rcases List.mem_append.1 hx with hx | hx
    · exact List.mem_append_left _ (h3 x hx)
    · exact List.mem_append_right _ (g3 x hx)

theorem goes_one (n : String) (p : Char → Bool) : Goes (optG n (.chr p)) (skipOpt p) [n] := by
  intro i l c
  cases l with
  | nil => exact ⟨[], by rw [optG, best_opt_skip (grp_none (out_chr_empty _ _ _))]; simp [skipOpt], by simp [skipOpt], by simp⟩
  | cons x l =>
    by_cases h : p x = true
    · refine ⟨[(n, i, i + 1)], ?_, by simp [skipOpt, h], by simp⟩
      rw [optG, best_altl (best_group (best_chr h i l c))]
      simp [skipOpt, h]
    · refine ⟨[], ?_, by simp [skipOpt, h], by simp⟩
      rw [optG, best_opt_skip (grp_none (by rw [out_chr_cons, if_neg h]))]
      simp [skipOpt, h]

theorem best_optRun (n : String) (p : Char → Bool) (i : Nat) (l : List Char) (c : List (String × Nat × Nat)) :
    best (optG n (plus (.chr p))) ⟨i, l, c⟩ = some ⟨i + runOf p l, l.dropWhile p, c ++ (if runOf p l = 0 then [] else [(n, i, i + runOf p l)])⟩ := by
  unfold optG plus
  by_cases h : runOf p l = 0
  · rw [best_opt_skip (grp_none (plus_none h i c)), if_pos h, h, ← drop_runOf, h]
    simp
  · rw [best_altl (best_group (best_plus h i c)), if_neg h, drop_runOf]

theorem goes_run (n : String) (p : Char → Bool) : Goes (optG n (plus (.chr p))) (List.dropWhile p) [n] := by
  intro i l c
  have hlen : l.length = runOf p l + (l.dropWhile p).length := by
    conv => lhs; rw [← List.takeWhile_append_dropWhile (p := p) (l := l)]
    rw [List.length_append]; rfl
  refine ⟨if runOf p l = 0 then [] else [(n, i, i + runOf p l)], ?_, by omega, ?_⟩
  · rw [best_optRun]
    congr 2
    omega
  · intro x hx
    split at hx
    · cases hx
    · rw [List.mem_singleton.1 hx]; simp

theorem goes_align : Goes (.alt (.seq (optG "fill" (.chr fun _ => true)) (.grp "align" (.chr isAlign))) .eps) skipAlign ["fill", "align"] := by
  intro i l c
  match l with
  | [] =>
    refine ⟨[], ?_, by simp [skipAlign], by simp⟩
    rw [best_opt_skip]
    · simp [skipAlign]
    · rw [out, optG, out, grp_none (out_chr_empty _ _ _), List.nil_append]
      simp only [out, List.flatMap_cons, List.flatMap_nil, List.append_nil, List.map_nil]
  | [x] =>
    by_cases h : isAlign x = true
    · refine ⟨[("align", i, i + 1)], ?_, by simp [skipAlign, h], by simp⟩
      unfold best
      simp [out, optG, skipAlign, h]
    · refine ⟨[], ?_, by simp [skipAlign, h], by simp⟩
      unfold best
      simp [out, optG, skipAlign, h]
  | x :: y :: r =>
    by_cases hy : isAlign y = true
    · refine ⟨[("fill", i, i + 1), ("align", i + 1, i + 2)], ?_, by simp [skipAlign, hy]; omega, by simp⟩
      unfold best
      simp [out, optG, skipAlign, hy]
      omega
    · by_cases hx : isAlign x = true
      · refine ⟨[("align", i, i + 1)], ?_, by simp [skipAlign, hx, hy], by simp⟩
        unfold best
        simp [out, optG, skipAlign, hx, hy]
      · refine ⟨[], ?_, by simp [skipAlign, hx, hy], by simp⟩
        unfold best
        simp [out, optG, skipAlign, hx, hy]

theorem goes_spec : ∃ names, Goes specRe skipSpec names ∧ "dir" ∉ names ∧ "zws" ∉ names := by
  have h := goes_align.seq ((goes_one "sign" (fun c => c = '+' || c = '-')).seq ((goes_one "hash" (fun c => c = '#')).seq
    ((goes_one "zero" (fun c => c = '0')).seq ((goes_run "width" isDigit).seq
      ((goes_one "grouping_option" (fun c => c = '_' || c = ',')).seq (goes_one "type" isType))))))
  refine ⟨["fill", "align"] ++ (["sign"] ++ (["hash"] ++ (["zero"] ++ (["width"] ++ (["grouping_option"] ++ ["type"]))))), ?_, by decide,
    by decide⟩
  intro i l c
  cases l with
  | nil => exact ⟨[], by rw [specRe, best_opt_skip (seq_none (out_chr_empty _ _ _))]; simp [skipSpec], by simp [skipSpec], by simp⟩
  | cons x l =>
    by_cases hx : x = ':'
    · subst hx
      obtain ⟨e, h1, h2, h3⟩ := h (i + 1) l c
      refine ⟨e, ?_, ?_, h3⟩
      · rw [specRe, best_altl (best_seq (best_chr (by decide) i l c) h1)]
        rw [skipSpec]
        dsimp only at h2 ⊢
        simp only [Option.some.injEq, St.mk.injEq, and_true, List.length_cons]
        omega
      · rw [skipSpec]; exact Nat.le_succ_of_le h2
    · have e : skipSpec (x :: l) = x :: l := by
        unfold skipSpec
        split
        · rename_i e; exact absurd (List.cons.inj e).1 hx
        · rfl
      refine ⟨[], ?_, by rw [e]; omega, by simp⟩
      rw [e, specRe, best_opt_skip (seq_none (by rw [out_chr_cons, if_neg (by simpa using hx)]))]
      simp

/-! ### Looking up groups -/

/-- The span of a group among captures. -/
def look (e : List (String × Nat × Nat)) (n : String) : Option (Nat × Nat) := (e.reverse.find? (fun c => c.1 == n)).map (·.2)

/-- Its text, `l` being the text from `i` on. -/
def lookT (e : List (String × Nat × Nat)) (n : String) (i : Nat) (l : List Char) : Option (List Char) :=
  (look e n).map fun s => (l.drop (s.1 - i)).take (s.2 - s.1)

theorem look_append (a b : List (String × Nat × Nat)) (n : String) : look (a ++ b) n = (look b n).or (look a n) := by
  unfold look
  rw [List.reverse_append, List.find?_append]
  cases b.reverse.find? (fun c => c.1 == n) <;> rfl

theorem look_absent {e : List (String × Nat × Nat)} {n : String} (h : ∀ x ∈ e, x.1 ≠ n) : look e n = none := by
  unfold look
  rw [List.find?_eq_none.2]
  · rfl
  · intro x hx
    simpa using h x (List.mem_reverse.1 hx)

theorem look_mem {e : List (String × Nat × Nat)} {n : String} {s : Nat × Nat} (h : look e n = some s) : (n, s) ∈ e := by
  unfold look at h
  cases hf : e.reverse.find? (fun c => c.1 == n) with
  | none => rw [hf] at h; cases h
  | some x =>
    rw [hf] at h
    have h1 := List.find?_some hf
    have h2 := List.mem_of_find?_eq_some hf
    obtain rfl : x.2 = s := Option.some.inj h
    obtain rfl : x.1 = n := eq_of_beq h1
    exact List.mem_reverse.1 h2

theorem lookT_shift {e : List (String × Nat × Nat)} {start : Nat} {pre l : List Char}
    (h : ∀ x ∈ e, start + pre.length ≤ x.2.1) (n : String) :
    lookT e n start (pre ++ l) = lookT e n (start + pre.length) l := by
  unfold lookT
  cases hs : look e n with
  | none => rfl
  | some s =>
    have := h _ (look_mem hs)
    dsimp only at this
    simp only [Option.map_some]
    rw [show s.1 - start = pre.length + (s.1 - (start + pre.length)) by omega, List.drop_append]
    rw [List.drop_eq_nil_of_le (by omega), List.nil_append, Nat.add_sub_cancel_left]

theorem digits?_eq (r : List Char) : digits? r = (if runOf isDigit r = 0 then none else some (r.take (runOf isDigit r)), r.dropWhile isDigit) := by
  unfold digits?
  dsimp only
  rw [take_runOf]
  congr 1
  by_cases h : r.takeWhile isDigit = []
  · rw [if_pos h, if_pos (by unfold runOf; rw [h]; rfl)]
  · rw [if_neg h, if_neg (by unfold runOf; exact fun e => h (List.length_eq_zero_iff.1 e))]

theorem run_len (p : Char → Bool) (l : List Char) : l.length = runOf p l + (l.dropWhile p).length := by
  conv => lhs; rw [← List.takeWhile_append_dropWhile (p := p) (l := l)]
  rw [List.length_append]; rfl

/-- What captures say about a conversion. -/
def SaysConv (e : List (String × Nat × Nat)) (i : Nat) (l : List Char) : Option Conv → Prop
  | none => lookT e "conv" i l = none
  | some c => lookT e "conv" i l = some [c.conv] ∧ lookT e "lslice" i l = c.lslice ∧ lookT e "rslice" i l = c.rslice

theorem conv_fail {r : List Char} (h : ∀ x, (r.dropWhile isDigit).head? = some x → ¬ (x = 'a' ∨ x = 'r')) (i : Nat)
    (c : List (String × Nat × Nat)) :
    out (.seq (optG "lslice" (plus (.chr isDigit))) (.seq (.grp "conv" (.chr fun c => c = 'a' || c = 'r'))
      (optG "rslice" (plus (.chr isDigit))))) ⟨i, r, c⟩ = [] := by
  rw [out]
  show outk (optG "lslice" (plus (.chr isDigit))) _ _ = []
  refine outk_nil (by simp [optG, plus, Free]) ?_
  intro u w c' hu hl
  refine seq_none (grp_none (chr_none (fun x hx => ?_) _ _))
  dsimp only at hu
  have hall : ∀ y ∈ u, isDigit y = true := by
    rcases hl with hl | hl
    · exact ((lang_plus_chr isDigit u).1 hl).2
    · have hl : u = [] := hl
      subst hl; intro y hy; cases hy
  cases w with
  | nil => cases hx
  | cons z w =>
    obtain rfl := Option.some.inj hx
    by_cases hz : isDigit z = true
    · have h1 : z ≠ 'a' := by rintro rfl; exact absurd hz (by decide)
      have h2 : z ≠ 'r' := by rintro rfl; exact absurd hz (by decide)
      simp [h1, h2]
    · have hd : r.dropWhile isDigit = z :: w := by
        rw [hu]
        clear hl hu
        induction u with
        | nil => rw [List.nil_append, List.dropWhile_cons, if_neg hz]
        | cons y u ih =>
          rw [List.cons_append, List.dropWhile_cons, if_pos (hall y (by simp))]
          exact ih (fun q hq => hall q (List.mem_cons_of_mem _ hq))
      have := h z (by rw [hd]; rfl)
      simp only [not_or] at this
      simp [this.1, this.2]

theorem conv_best (i : Nat) (l : List Char) (c : List (String × Nat × Nat)) : ∃ e,
    best convRe ⟨i, l, c⟩ = some ⟨i + (l.length - (matchConv l).2.length), (matchConv l).2, c ++ e⟩ ∧
    (∃ pre, l = pre ++ (matchConv l).2) ∧
    (∀ x ∈ e, x.1 ∈ ["lslice", "conv", "rslice"] ∧ i ≤ x.2.1) ∧ SaysConv e i l (matchConv l).1 := by
  have skip : out (.seq (.chr (· == '!')) (.seq (optG "lslice" (plus (.chr isDigit))) (.seq (.grp "conv" (.chr fun c => c = 'a' || c = 'r'))
      (optG "rslice" (plus (.chr isDigit)))))) ⟨i, l, c⟩ = [] → matchConv l = (none, l) → ∃ e,
      best convRe ⟨i, l, c⟩ = some ⟨i + (l.length - (matchConv l).2.length), (matchConv l).2, c ++ e⟩ ∧
      (∃ pre, l = pre ++ (matchConv l).2) ∧
      (∀ x ∈ e, x.1 ∈ ["lslice", "conv", "rslice"] ∧ i ≤ x.2.1) ∧ SaysConv e i l (matchConv l).1 := by
    intro h1 h2
    rw [h2]
    exact ⟨[], by rw [convRe, best_opt_skip h1]; simp, ⟨[], rfl⟩, by simp, rfl⟩
  cases l with
  | nil => exact skip (seq_none (out_chr_empty _ _ _)) rfl
  | cons x r =>
    by_cases hx : x = '!'
    · subst hx
      have hstep : out (.seq (.chr (· == '!')) (.seq (optG "lslice" (plus (.chr isDigit))) (.seq (.grp "conv" (.chr fun c => c = 'a' || c = 'r'))
          (optG "rslice" (plus (.chr isDigit)))))) ⟨i, '!' :: r, c⟩ = out (.seq (optG "lslice" (plus (.chr isDigit)))
            (.seq (.grp "conv" (.chr fun c => c = 'a' || c = 'r')) (optG "rslice" (plus (.chr isDigit))))) ⟨i + 1, r, c⟩ := by
        rw [out, out_chr_cons, if_pos (by decide), List.flatMap_cons, List.flatMap_nil, List.append_nil]
      cases hd : r.dropWhile isDigit with
      | nil =>
        refine skip ?_ ?_
        · rw [hstep]; exact conv_fail (by rw [hd]; simp) _ _
        · rw [matchConv, digits?_eq]; dsimp only; rw [hd]
      | cons q r' =>
        by_cases hq : q = 'a' ∨ q = 'r'
        · have hm : matchConv ('!' :: r) = (some ⟨(digits? r).1, q, (digits? r').1⟩, (digits? r').2) := by
            rw [matchConv]
            have : (digits? r).2 = q :: r' := by rw [digits?_eq]; exact hd
            rw [this]
            dsimp only
            rw [if_pos hq]
          rw [hm]
          have hlen := run_len isDigit r
          have hlen' := run_len isDigit r'
          rw [hd] at hlen
          rw [digits?_eq, digits?_eq]
          dsimp only
          refine ⟨(if runOf isDigit r = 0 then [] else [("lslice", i + 1, i + 1 + runOf isDigit r)]) ++
            [("conv", i + 1 + runOf isDigit r, i + 1 + runOf isDigit r + 1)] ++
            (if runOf isDigit r' = 0 then [] else [("rslice", i + 1 + runOf isDigit r + 1, i + 1 + runOf isDigit r + 1 + runOf isDigit r')]),
            ?_, ?_, ?_, ?_⟩
          · have b1 := best_optRun "lslice" isDigit (i + 1) r c
            rw [hd] at b1
            have b2 := best_seq (best_chr (p := (· == '!')) (c := '!') (by decide) i r c) (best_seq b1 (best_seq (best_group (n := "conv") (best_chr (p := fun c => c = 'a' || c = 'r')
              (by simpa using hq) _ _ _)) (best_optRun "rslice" isDigit _ _ _)))
            rw [convRe, best_altl b2]
            simp only [Option.some.injEq, St.mk.injEq, List.append_assoc, List.length_cons, and_true]
            simp only [List.length_cons] at hlen
            omega
          · refine ⟨'!' :: (r.takeWhile isDigit ++ q :: r'.takeWhile isDigit), ?_⟩
            have h1 : r = r.takeWhile isDigit ++ (q :: (r'.takeWhile isDigit ++ r'.dropWhile isDigit)) := by
              rw [List.takeWhile_append_dropWhile, ← hd, List.takeWhile_append_dropWhile]
            simp only [List.cons_append, List.append_assoc]
            rw [← h1]
          · intro y hy
            simp only [List.mem_append, List.mem_singleton] at hy
            rcases hy with (hy | rfl) | hy
            · split at hy
              · cases hy
              · rw [List.mem_singleton.1 hy]; exact ⟨by simp, by dsimp only; omega⟩
            · exact ⟨by simp, by dsimp only; omega⟩
            · split at hy
              · cases hy
              · rw [List.mem_singleton.1 hy]; exact ⟨by simp, by dsimp only; omega⟩
          · have hdr : r.drop (runOf isDigit r) = q :: r' := by rw [drop_runOf, hd]
            have hdr1 : r.drop (runOf isDigit r + 1) = r' := by rw [← List.drop_drop, hdr]; rfl
            have ab : ∀ (k : Prop) [Decidable k] (m n : String) (s : Nat × Nat), m ≠ n → look (if k then [] else [(m, s)]) n = none := by
              intro k _ m n s hmn
              refine look_absent ?_
              intro y hy
              split at hy
              · cases hy
              · rw [List.mem_singleton.1 hy]; exact hmn
            refine ⟨?_, ?_, ?_⟩
            · unfold lookT
              rw [look_append, look_append, ab _ _ _ _ (by decide)]
              have : look [("conv", i + 1 + runOf isDigit r, i + 1 + runOf isDigit r + 1)] "conv" =
                some (i + 1 + runOf isDigit r, i + 1 + runOf isDigit r + 1) := rfl
              rw [this]
              simp only [Option.none_or, Option.some_or, Option.map_some, Option.some.injEq]
              rw [show i + 1 + runOf isDigit r - i = runOf isDigit r + 1 by omega, List.drop_succ_cons, hdr,
                show i + 1 + runOf isDigit r + 1 - (i + 1 + runOf isDigit r) = 1 by omega]
              rfl
            · unfold lookT
              rw [look_append, look_append, ab _ _ _ _ (by decide), show look [("conv", i + 1 + runOf isDigit r, i + 1 + runOf isDigit r + 1)] "lslice" = none from rfl]
              by_cases h0 : runOf isDigit r = 0
              · rw [if_pos h0, if_pos h0]; rfl
              · rw [if_neg h0, if_neg h0]
                show some ((('!' :: r).drop (i + 1 - i)).take (i + 1 + runOf isDigit r - (i + 1))) = _
                rw [show i + 1 - i = 1 by omega, Nat.add_sub_cancel_left]
                rfl
            · unfold lookT
              rw [look_append, look_append]
              by_cases h0 : runOf isDigit r' = 0
              · rw [if_pos h0, if_pos h0, ab _ _ _ _ (by decide)]; rfl
              · rw [if_neg h0, if_neg h0]
                show some ((('!' :: r).drop (i + 1 + runOf isDigit r + 1 - i)).take (i + 1 + runOf isDigit r + 1 + runOf isDigit r' - (i + 1 + runOf isDigit r + 1))) = _
                rw [show i + 1 + runOf isDigit r + 1 - i = (runOf isDigit r + 1) + 1 by omega, List.drop_succ_cons, hdr1, Nat.add_sub_cancel_left]
        · refine skip ?_ ?_
          · rw [hstep]; exact conv_fail (by rw [hd]; intro x hx; obtain rfl := Option.some.inj hx; exact hq) _ _
          · rw [matchConv]
            have : (digits? r).2 = q :: r' := by rw [digits?_eq]; exact hd
            rw [this]
            dsimp only
            rw [if_neg hq]
    · refine skip (seq_none (by rw [out_chr_cons, if_neg (by simpa using hx)])) ?_
      unfold matchConv
      split
      · rename_i e; exact absurd (List.cons.inj e).1 hx
      · rfl

/-- What captures say about a width. -/
def SaysWidth (e : List (String × Nat × Nat)) (i : Nat) (l : List Char) : Option Width → Prop
  | none => lookT e "width" i l = none
  | some w => lookT e "width" i l = some w.width ∧ lookT e "abbr_pos" i l = w.pos.map (fun p => [p]) ∧ lookT e "abbr" i l = w.abbr

/-- The width without its position. -/
def abbrRe : Re := .seq (.grp "width" (plus (.chr isDigit))) (optG "abbr" (plus (.chr fun _ => true)))

theorem abbr_none {pos : Option Char} {l : List Char} (h : matchAbbr pos l = none) (i : Nat) (c : List (String × Nat × Nat)) :
    out abbrRe ⟨i, l, c⟩ = [] := by
  unfold matchAbbr at h
  rw [digits?_eq] at h
  by_cases h0 : runOf isDigit l = 0
  · exact seq_none (grp_none (plus_none h0 i c))
  · rw [if_neg h0] at h; cases h

theorem runOf_any (l : List Char) : runOf (fun _ => true) l = l.length ∧ l.dropWhile (fun _ => true) = [] := by
  unfold runOf
  induction l with
  | nil => exact ⟨rfl, rfl⟩
  | cons x l ih => simpa using ih

theorem abbr_best {pos : Option Char} {l : List Char} {w : Width} (h : matchAbbr pos l = some w) (i : Nat) (c : List (String × Nat × Nat)) :
    ∃ e, best abbrRe ⟨i, l, c⟩ = some ⟨i + l.length, [], c ++ e⟩ ∧ (∀ x ∈ e, x.1 ∈ ["width", "abbr"] ∧ i ≤ x.2.1) ∧
      lookT e "width" i l = some w.width ∧ lookT e "abbr" i l = w.abbr ∧ w.pos = pos := by
  unfold matchAbbr at h
  rw [digits?_eq] at h
  by_cases h0 : runOf isDigit l = 0
  · rw [if_pos h0] at h; cases h
  · rw [if_neg h0] at h
    obtain rfl := Option.some.inj h
    have hlen := run_len isDigit l
    have b1 := best_group (n := "width") (best_plus h0 i c)
    have b2 := best_optRun "abbr" (fun _ => true) (i + runOf isDigit l) (l.drop (runOf isDigit l)) (c ++ [("width", i, i + runOf isDigit l)])
    rw [(runOf_any _).1, (runOf_any _).2] at b2
    refine ⟨[("width", i, i + runOf isDigit l)] ++ (if (l.drop (runOf isDigit l)).length = 0 then [] else
      [("abbr", i + runOf isDigit l, i + runOf isDigit l + (l.drop (runOf isDigit l)).length)]), ?_, ?_, ?_, ?_, rfl⟩
    · unfold plus at b2
      unfold abbrRe plus
      rw [best_seq b1 b2, List.append_assoc]
      simp only [Option.some.injEq, St.mk.injEq, and_true, List.length_drop]
      omega
    · intro y hy
      simp only [List.mem_append, List.mem_singleton] at hy
      rcases hy with rfl | hy
      · exact ⟨by simp, Nat.le_refl _⟩
      · split at hy
        · cases hy
        · rw [List.mem_singleton.1 hy]; exact ⟨by simp, by dsimp only; omega⟩
    · unfold lookT
      rw [look_append, look_absent (n := "width")]
      · show some ((l.drop (i - i)).take (i + runOf isDigit l - i)) = _
        rw [Nat.sub_self, Nat.add_sub_cancel_left]
        rfl
      · intro y hy
        split at hy
        · cases hy
        · rw [List.mem_singleton.1 hy]; dsimp only; decide
    · unfold lookT
      rw [look_append]
      dsimp only
      rw [← drop_runOf]
      by_cases h1 : (l.drop (runOf isDigit l)).length = 0
      · rw [if_pos h1, if_pos (List.length_eq_zero_iff.1 h1)]; rfl
      · rw [if_neg h1, if_neg (fun e => h1 (by rw [e]; rfl))]
        show some ((l.drop (i + runOf isDigit l - i)).take (i + runOf isDigit l + (l.drop (runOf isDigit l)).length - (i + runOf isDigit l))) = _
        rw [Nat.add_sub_cancel_left, Nat.add_sub_cancel_left, List.take_length]

theorem isPos_digit {x : Char} (h : isPos x = true) : isDigit x = false := by
  unfold isPos at h
  simp only [Bool.or_eq_true, decide_eq_true_eq] at h
  rcases h with (rfl | rfl) | rfl <;> decide

theorem width_best (i : Nat) (l : List Char) (c : List (String × Nat × Nat)) : ∃ e,
    best widthRe ⟨i, l, c⟩ = some ⟨i + (l.length - (matchWidth l).2.length), (matchWidth l).2, c ++ e⟩ ∧
    (matchWidth l).2.length ≤ l.length ∧
    (∀ x ∈ e, x.1 ∈ ["abbr_pos", "width", "abbr"] ∧ i ≤ x.2.1) ∧ SaysWidth e i l (matchWidth l).1 := by
  have hw : widthRe = .alt (.seq (.chr (· == ':')) (.seq (optG "abbr_pos" (.chr isPos)) abbrRe)) .eps := rfl
  have skip : out (.seq (.chr (· == ':')) (.seq (optG "abbr_pos" (.chr isPos)) abbrRe)) ⟨i, l, c⟩ = [] → matchWidth l = (none, l) → ∃ e,
      best widthRe ⟨i, l, c⟩ = some ⟨i + (l.length - (matchWidth l).2.length), (matchWidth l).2, c ++ e⟩ ∧
      (matchWidth l).2.length ≤ l.length ∧
      (∀ x ∈ e, x.1 ∈ ["abbr_pos", "width", "abbr"] ∧ i ≤ x.2.1) ∧ SaysWidth e i l (matchWidth l).1 := by
    intro h1 h2
    rw [h2]
    exact ⟨[], by rw [hw, best_opt_skip h1]; simp, Nat.le_refl _, by simp, rfl⟩
  cases l with
  | nil => exact skip (seq_none (out_chr_empty _ _ _)) rfl
  | cons x r =>
    by_cases hx : x = ':'
    · subst hx
      have hstep : out (.seq (.chr (· == ':')) (.seq (optG "abbr_pos" (.chr isPos)) abbrRe)) ⟨i, ':' :: r, c⟩ =
          out (.seq (optG "abbr_pos" (.chr isPos)) abbrRe) ⟨i + 1, r, c⟩ := by
        rw [out, out_chr_cons, if_pos (by decide), List.flatMap_cons, List.flatMap_nil, List.append_nil]
      cases hm : matchPos r with
      | none =>
        refine skip ?_ (by rw [matchWidth, hm])
        rw [hstep]
        cases r with
        | nil =>
          rw [out, optG, out, grp_none (out_chr_empty _ _ _), List.nil_append]
          show (out abbrRe _ ++ []) = []
          rw [List.append_nil]
          exact seq_none (grp_none (plus_none rfl _ _))
        | cons p r =>
          rw [matchPos] at hm
          by_cases hp : isPos p = true
          · rw [if_pos hp] at hm
            rw [out, optG, out, show ∀ st, out (.grp "abbr_pos" (.chr isPos)) st = _ from fun _ => by rw [out], out_chr_cons, if_pos hp, out]
            show (out abbrRe _ ++ (out abbrRe _ ++ [])) = []
            rw [abbr_none hm, List.append_nil, List.nil_append]
            refine seq_none (grp_none (plus_none (runOf_stop ?_) _ _))
            intro q hq
            obtain rfl := Option.some.inj hq
            exact isPos_digit hp
          · rw [if_neg hp] at hm
            rw [out, optG, out, grp_none (by rw [out_chr_cons, if_neg hp]), List.nil_append]
            show (out abbrRe _ ++ []) = []
            rw [abbr_none hm, List.append_nil]
      | some w =>
        have hmw : matchWidth (':' :: r) = (some w, []) := by rw [matchWidth, hm]
        rw [hmw]
        cases r with
        | nil => cases hm
        | cons p r =>
          rw [matchPos] at hm
          by_cases hp : isPos p = true
          · rw [if_pos hp] at hm
            obtain ⟨e, h1, h2, h3, h4, h5⟩ := abbr_best hm (i + 1 + 1) (c ++ [("abbr_pos", i + 1, i + 1 + 1)])
            refine ⟨[("abbr_pos", i + 1, i + 1 + 1)] ++ e, ?_, Nat.zero_le _, ?_, ?_⟩
            · have b := best_seq (best_chr (p := (· == ':')) (c := ':') (by decide) i (p :: r) c)
                (best_seq (best_altl (b := .eps) (best_group (n := "abbr_pos") (best_chr hp (i + 1) r c))) h1)
              rw [hw, optG, best_altl b]
              simp only [Option.some.injEq, St.mk.injEq, List.append_assoc, List.length_cons, List.length_nil, and_true]
              omega
            · intro y hy
              rcases List.mem_append.1 hy with hy | hy
              · rw [List.mem_singleton.1 hy]; exact ⟨by simp, by dsimp only; omega⟩
              · exact ⟨List.mem_cons_of_mem _ (h2 y hy).1, by have := (h2 y hy).2; omega⟩
            · have sh : ∀ n, lookT e n i (':' :: p :: r) = lookT e n (i + 1 + 1) r := fun n =>
                lookT_shift (pre := [':', p]) (l := r) (fun y hy => (h2 y hy).2) n
              have ne : ∀ n, "abbr_pos" ≠ n → lookT ([("abbr_pos", i + 1, i + 1 + 1)] ++ e) n i (':' :: p :: r) = lookT e n (i + 1 + 1) r := by
                intro n hn
                rw [← sh]
                unfold lookT
                rw [look_append, look_absent (e := [("abbr_pos", i + 1, i + 1 + 1)]) (by intro y hy; rw [List.mem_singleton.1 hy]; exact hn), Option.or_none]
              refine ⟨by rw [ne _ (by decide), h3], ?_, by rw [ne _ (by decide), h4]⟩
              rw [h5]
              unfold lookT
              rw [look_append, look_absent (e := e) (by
                intro y hy he
                have := (h2 y hy).1
                rw [he] at this
                exact absurd this (by decide)), Option.none_or]
              show some (((':' :: p :: r).drop (i + 1 - i)).take (i + 1 + 1 - (i + 1))) = _
              rw [show i + 1 - i = 1 by omega, show i + 1 + 1 - (i + 1) = 1 by omega]
              rfl
          · rw [if_neg hp] at hm
            obtain ⟨e, h1, h2, h3, h4, h5⟩ := abbr_best hm (i + 1) c
            refine ⟨e, ?_, Nat.zero_le _, ?_, ?_⟩
            · have b := best_seq (best_chr (p := (· == ':')) (c := ':') (by decide) i (p :: r) c)
                (best_seq (best_opt_skip (a := .grp "abbr_pos" (.chr isPos)) (grp_none (by rw [out_chr_cons, if_neg hp]))) h1)
              rw [hw, optG, best_altl b]
              simp only [Option.some.injEq, St.mk.injEq, List.length_cons, List.length_nil, and_true]
              omega
            · intro y hy
              exact ⟨List.mem_cons_of_mem _ (h2 y hy).1, by have := (h2 y hy).2; omega⟩
            · have sh : ∀ n, lookT e n i (':' :: p :: r) = lookT e n (i + 1) (p :: r) := fun n =>
                lookT_shift (pre := [':']) (l := p :: r) (fun y hy => (h2 y hy).2) n
              refine ⟨by rw [sh, h3], ?_, by rw [sh, h4]⟩
              rw [h5]
              unfold lookT
              rw [look_absent (e := e) (by
                intro y hy he
                have := (h2 y hy).1
                rw [he] at this
                exact absurd this (by decide))]
              rfl
    · refine skip (seq_none (by rw [out_chr_cons, if_neg (by simpa using hx)])) ?_
      unfold matchWidth
      split
      · rename_i e; exact absurd (List.cons.inj e).1 hx
      · rfl

theorem group_eq (m : Regex.Found) (n : String) (w : List Char) (i : Nat) : group m n w i = lookT m.caps n i w := rfl

/-- **C118 (format directives).** The directive that the hand-written matcher finds in `format_spec[start:stop]`
is the one the pattern text of the source matches there: the same end, and the same groups. -/
theorem C118_format (E : ReSyntax.Env) (hf : E.fold = none) (hd : E.dotall = true) (hg : E.digit = isDigit) :
    ∃ r, compile E false Patterns.format = some r ∧ ∀ start w,
      (reMatch start w = none ∧ matchAt r start w = none) ∨
      ∃ fm m, reMatch start w = some fm ∧ matchAt r start w = some m ∧ fm.start = start ∧ m.start = start ∧ fm.stop = m.stop ∧
        Describes m w start fm.found := by
  obtain ⟨r, hr, hsame⟩ := denotes_format E hf hd hg
  refine ⟨r, hr, ?_⟩
  intro start w
  have hm : matchAt r start w = (best formatRe ⟨start, w, []⟩).map fun st => ⟨start, st.pos, st.caps⟩ := by
    unfold matchAt best; rw [hsame]
  rw [hm]
  cases w with
  | nil => exact .inl ⟨rfl, by unfold best; rw [formatRe, seq_none (out_chr_empty _ _ _)]; rfl⟩
  | cons x w =>
    by_cases hx : x = '%'
    · subst hx
      have hgo : ∀ {st : St}, best (.alt (.grp "zws" (.chr (· == ' '))) (.alt (.seq (.grp "dir" intDirRe) specRe)
          (.seq (.grp "dir" strDirRe) (.seq convRe widthRe)))) ⟨start + 1, w, []⟩ = some st → best formatRe ⟨start, '%' :: w, []⟩ = some st :=
        fun h => best_seq (best_chr (p := (· == '%')) (c := '%') (by decide) start w []) h
      by_cases hz : ∃ w', w = ' ' :: w'
      · obtain ⟨w', rfl⟩ := hz
        right
        refine ⟨⟨start, start + 2, .zws⟩, ⟨start, start + 1 + 1, [("zws", start + 1, start + 1 + 1)]⟩, rfl, ?_, rfl, rfl, rfl, ?_⟩
        · rw [hgo (best_altl (best_group (n := "zws") (best_chr (p := (· == ' ')) (c := ' ') (by decide) (start + 1) w' [])))]
          rfl
        · show group _ _ _ _ ≠ none
          rw [group_eq]
          unfold lookT
          rw [show look [("zws", start + 1, start + 1 + 1)] "zws" = some (start + 1, start + 1 + 1) from rfl]
          exact Option.some_ne_none _
      · have hno : out (.grp "zws" (.chr (· == ' '))) ⟨start + 1, w, []⟩ = [] := by
          refine grp_none (chr_none ?_ _ _)
          intro c hc
          cases w with
          | nil => cases hc
          | cons y w =>
            obtain rfl := Option.some.inj hc
            have : y ≠ ' ' := fun e => hz ⟨w, by rw [e]⟩
            simpa using this
        have hrm : reMatch start ('%' :: w) = match intDir? w with
            | some (d, r') => some ⟨start, start + (('%' :: w).length - (skipSpec r').length), .int d (start + 1 + d.name.length)⟩
            | none => match strDir? w with
              | some (d, r') => some ⟨start, start + (('%' :: w).length - (matchWidth (matchConv r').2).2.length),
                  .str d (matchConv r').1 (matchWidth (matchConv r').2).1⟩
              | none => none := by
          unfold reMatch
          split
          · rename_i w' e
            exact absurd ⟨w', (List.cons.inj e).2⟩ hz
          · rename_i w' _ e
            obtain rfl := (List.cons.inj e).2
            rfl
          · rename_i e; exact absurd rfl (e w)
        rw [hrm]
        cases hi : intDir? w with
        | some q =>
          obtain ⟨d, r'⟩ := q
          right
          obtain ⟨hb, hw⟩ := int_some hi (start + 1) []
          obtain ⟨names, hs, hs1, hs2⟩ := goes_spec
          obtain ⟨e, h1, h2, h3⟩ := hs (start + 1 + d.name.length) r' ([] ++ [("dir", start + 1, start + 1 + d.name.length)])
          have b := hgo (by rw [best_alt_right hno, best_altl (best_seq (best_group (n := "dir") hb) h1)])
          refine ⟨_, _, rfl, by rw [b]; rfl, rfl, rfl, ?_, ?_⟩
          · dsimp only
            have := congrArg List.length hw
            simp only [List.length_cons, List.length_append] at this ⊢
            omega
          · have hdir : look ([] ++ [("dir", start + 1, start + 1 + d.name.length)] ++ e) "dir" = some (start + 1, start + 1 + d.name.length) := by
              rw [look_append, look_absent (e := e) (by
                intro y hy he
                exact hs1 (he ▸ h3 y hy))]
              rfl
            refine ⟨?_, ?_, ?_⟩
            · rw [group_eq]
              unfold lookT
              rw [look_append, look_absent (e := e) (by
                intro y hy he
                exact hs2 (he ▸ h3 y hy))]
              rfl
            · rw [group_eq]
              unfold lookT
              rw [hdir]
              show some ((('%' :: w).drop (start + 1 - start)).take (start + 1 + d.name.length - (start + 1))) = _
              rw [show start + 1 - start = 1 by omega, Nat.add_sub_cancel_left, hw]
              show some ((d.name ++ r').take d.name.length) = _
              rw [List.take_left]
            · show (look _ "dir").map _ = _
              rw [hdir]; rfl
        | none =>
          have hno2 : out (.seq (.grp "dir" intDirRe) specRe) ⟨start + 1, w, []⟩ = [] := seq_none (grp_none (int_none hi _ _))
          cases hs : strDir? w with
          | none =>
            left
            refine ⟨rfl, ?_⟩
            unfold best
            rw [formatRe, out, out_chr_cons, if_pos (by decide), List.flatMap_cons, List.flatMap_nil, List.append_nil,
              alt_none hno (alt_none hno2 (seq_none (grp_none (str_none hs _ _))))]
            rfl
          | some q =>
            obtain ⟨d, r'⟩ := q
            right
            obtain ⟨hb, hw⟩ := str_some hs (start + 1) []
            obtain ⟨e1, c1, ⟨pre, hpre⟩, c3, c4⟩ := conv_best (start + 1 + d.name.length) r' ([] ++ [("dir", start + 1, start + 1 + d.name.length)])
            obtain ⟨e2, w1, w2, w3, w4⟩ := width_best (start + 1 + d.name.length + (r'.length - (matchConv r').2.length)) (matchConv r').2
              ([] ++ [("dir", start + 1, start + 1 + d.name.length)] ++ e1)
            have b := hgo (by rw [best_alt_right hno, best_alt_right hno2, best_seq (best_group (n := "dir") hb) (best_seq c1 w1)])
            have hlp : r'.length - (matchConv r').2.length = pre.length := by
              have := congrArg List.length hpre
              rw [List.length_append] at this
              omega
            have hlw := congrArg List.length hw
            have hlr := congrArg List.length hpre
            simp only [List.length_append] at hlw hlr
            have n1 : ∀ n, n ∉ ["lslice", "conv", "rslice"] → look e1 n = none := fun n hn =>
              look_absent (fun y hy he => hn (he ▸ (c3 y hy).1))
            have n2 : ∀ n, n ∉ ["abbr_pos", "width", "abbr"] → look e2 n = none := fun n hn =>
              look_absent (fun y hy he => hn (he ▸ (w3 y hy).1))
            have hdir : look ([] ++ [("dir", start + 1, start + 1 + d.name.length)] ++ e1 ++ e2) "dir" = some (start + 1, start + 1 + d.name.length) := by
              rw [look_append, look_append, n2 _ (by decide), n1 _ (by decide)]
              rfl
            have t1 : ∀ n, n ∉ ["abbr_pos", "width", "abbr"] → n ≠ "dir" →
                lookT ([] ++ [("dir", start + 1, start + 1 + d.name.length)] ++ e1 ++ e2) n start ('%' :: w) =
                lookT e1 n (start + 1 + d.name.length) r' := by
              intro n hn hd
              have h := lookT_shift (pre := '%' :: d.name) (l := r') (start := start) (e := e1) (by
                intro y hy
                have := (c3 y hy).2
                simp only [List.length_cons]
                omega) n
              rw [show '%' :: d.name ++ r' = '%' :: w by rw [hw]; rfl, List.length_cons, show start + (d.name.length + 1) = start + 1 + d.name.length by omega] at h
              rw [← h]
              unfold lookT
              rw [look_append, look_append, n2 n hn, look_absent (e := [] ++ [_]) (by
                intro y hy he
                rw [List.nil_append] at hy
                rw [List.mem_singleton.1 hy] at he
                exact hd he.symm), Option.none_or, Option.or_none]
            have t2 : ∀ n, n ∉ ["lslice", "conv", "rslice"] → n ≠ "dir" →
                lookT ([] ++ [("dir", start + 1, start + 1 + d.name.length)] ++ e1 ++ e2) n start ('%' :: w) =
                lookT e2 n (start + 1 + d.name.length + (r'.length - (matchConv r').2.length)) (matchConv r').2 := by
              intro n hn hd
              have h := lookT_shift (pre := '%' :: d.name ++ pre) (l := (matchConv r').2) (start := start) (e := e2) (by
                intro y hy
                have := (w3 y hy).2
                simp only [List.length_cons, List.length_append]
                omega) n
              rw [show '%' :: d.name ++ pre ++ (matchConv r').2 = '%' :: w by rw [List.append_assoc, ← hpre, hw]; rfl, List.length_append, List.length_cons,
                show start + (d.name.length + 1 + pre.length) = start + 1 + d.name.length + (r'.length - (matchConv r').2.length) by omega] at h
              rw [← h]
              unfold lookT
              rw [look_append, look_append, n1 n hn, look_absent (e := [] ++ [_]) (by
                intro y hy he
                rw [List.nil_append] at hy
                rw [List.mem_singleton.1 hy] at he
                exact hd he.symm), Option.or_none, Option.or_none]
            refine ⟨_, _, rfl, by rw [b]; rfl, rfl, rfl, ?_, ?_⟩
            · dsimp only
              simp only [List.length_cons]
              omega
            · refine ⟨?_, ?_, ?_, ?_⟩
              · rw [group_eq]
                dsimp only
                rw [t1 _ (by decide) (by decide)]
                unfold lookT
                rw [n1 _ (by decide)]; rfl
              · rw [group_eq]
                unfold lookT
                rw [hdir]
                show some ((('%' :: w).drop (start + 1 - start)).take (start + 1 + d.name.length - (start + 1))) = _
                rw [show start + 1 - start = 1 by omega, Nat.add_sub_cancel_left, hw]
                show some ((d.name ++ r').take d.name.length) = _
                rw [List.take_left]
              · cases hc : (matchConv r').1 with
                | none =>
                  rw [hc] at c4
                  show group _ _ _ _ = none
                  rw [group_eq]; dsimp only; rw [t1 _ (by decide) (by decide)]; exact c4
                | some cv =>
                  rw [hc] at c4
                  obtain ⟨k1, k2, k3⟩ := c4
                  refine ⟨?_, ?_, ?_⟩
                  · rw [group_eq]; dsimp only; rw [t1 _ (by decide) (by decide)]; exact k1
                  · rw [group_eq]; dsimp only; rw [t1 _ (by decide) (by decide)]; exact k2
                  · rw [group_eq]; dsimp only; rw [t1 _ (by decide) (by decide)]; exact k3
              · cases hc : (matchWidth (matchConv r').2).1 with
                | none =>
                  rw [hc] at w4
                  show group _ _ _ _ = none
                  rw [group_eq]; dsimp only; rw [t2 _ (by decide) (by decide)]; exact w4
                | some cv =>
                  rw [hc] at w4
                  obtain ⟨k1, k2, k3⟩ := w4
                  refine ⟨?_, ?_, ?_⟩
                  · rw [group_eq]; dsimp only; rw [t2 _ (by decide) (by decide)]; exact k1
                  · rw [group_eq]; dsimp only; rw [t2 _ (by decide) (by decide)]; exact k2
                  · rw [group_eq]; dsimp only; rw [t2 _ (by decide) (by decide)]; exact k3
    · left
      constructor
      · unfold reMatch
        split
        · rename_i e; exact absurd (List.cons.inj e).1 hx
        · rename_i e; exact absurd (List.cons.inj e).1 hx
        · rfl
      · unfold best
        rw [formatRe, seq_none (by rw [out_chr_cons, if_neg (by simpa using hx)])]
        rfl

/-- A directive with all its parts, and one of the other kind. -/
example : (reMatch 0 "%substr!1r2:^8…".toList, reMatch 5 "%start:<+08dx".toList, reMatch 0 "%foo".toList) =
    (some ⟨0, 15, .str .substr (some ⟨some ['1'], 'r', some ['2']⟩) (some ⟨some '^', ['8'], some ['…']⟩)⟩,
     some ⟨5, 17, .int .start 11⟩, none) := by decide +kernel
example : ∃ E : ReSyntax.Env, E.fold = none ∧ E.dotall = true ∧ E.digit = isDigit :=
  ⟨{ digit := isDigit, space := (· == ' '), word := Char.isAlphanum, dotall := true }, rfl, rfl, rfl⟩

end Pawpaw.Props
