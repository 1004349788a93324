import Verif.Props.ParsersFilter
/-!
# The patterns of line ends and of element names
-/
namespace Pawpaw.Props
open Pawpaw Pawpaw.Regex RegexSpec ReSyntax Patterns

theorem finditer_congr {r R : Re} (h : ∀ st, out r st = out R st) (i : Nat) (l : List Char) : finditer r i l = finditer R i l := by
  unfold finditer
  generalize 2 * l.length + 2 = n
  generalize false = adv
  induction n generalizing adv i l with
  | zero => rfl
  | succ n ih => rw [finditerAux_succ, finditerAux_succ, h]; simp only [ih]

/-! ### Line ends -/

/-- One of the characters. -/
def oneOfRe : List Char → Re
  | [] => .chr fun _ => false
  | [c] => .chr (· == c)
  | c :: cs => .alt (.chr (· == c)) (oneOfRe cs)

theorem oneOf_none {cs : List Char} {l : List Char} (h : ∀ c, l.head? = some c → c ∉ cs) (i : Nat) (k : List (String × Nat × Nat)) :
    out (oneOfRe cs) ⟨i, l, k⟩ = [] := by
  have one : ∀ d, (∀ c, l.head? = some c → c ≠ d) → out (.chr (· == d)) ⟨i, l, k⟩ = [] := by
    intro d hd
    exact chr_none (fun c hc => by simpa using hd c hc) i k
  induction cs with
  | nil => exact chr_none (fun _ _ => rfl) i k
  | cons d cs ih =>
    have h1 := one d (fun c hc e => h c hc (by simp [e]))
    cases cs with
    | nil => exact h1
    | cons e cs => exact alt_none h1 (ih (fun c hc hm => h c hc (List.mem_cons_of_mem _ hm)))

theorem oneOf_best {cs : List Char} {c : Char} (h : c ∈ cs) (i : Nat) (l : List Char) (k : List (String × Nat × Nat)) :
    best (oneOfRe cs) ⟨i, c :: l, k⟩ = some ⟨i + 1, l, k⟩ := by
  induction cs with
  | nil => cases h
  | cons d cs ih =>
    by_cases hd : c = d
    · subst hd
      cases cs with
      | nil => exact best_chr (by simp) i l k
      | cons e cs => exact best_altl (best_chr (by simp) i l k)
    · have hm : c ∈ cs := by
        rcases List.mem_cons.1 h with h | h
        · exact absurd h hd
        · exact h
      cases cs with
      | nil => cases hm
      | cons e cs =>
        rw [show oneOfRe (d :: e :: cs) = .alt (.chr (· == d)) (oneOfRe (e :: cs)) from rfl, best_alt_right (chr_none (fun x hx => by obtain rfl := Option.some.inj hx; simpa using hd) i k)]
        exact ih hm

/-- The single-character alternatives, in their order. -/
def breakChars : List Char :=
  ['\r', '\n', '\u000B', '\u000B', '\u000C', '\u000C', '\u001C', '\u001D', '\u001E', '\u0085', '\u2028', '\u2029']

theorem breakChars_iff (c : Char) : FIto.isLineBreak c = true ↔ c ∈ breakChars := by
  simp only [FIto.isLineBreak, breakChars, Bool.or_eq_true, beq_iff_eq, List.mem_cons, List.not_mem_nil, or_false]
  grind

/-- The whole pattern. -/
def linesRe : Re := .alt (.seq (.chr (· == '\r')) (.chr (· == '\n'))) (oneOfRe breakChars)

theorem denotes_lines (E : ReSyntax.Env) (h : E.fold = none) : Denotes E false splitlines linesRe := by
  obtain ⟨dg, sp, wd, ls, tx, lo, da, fo⟩ := E
  dsimp only at h; subst h
  exact denotes_of read_splitlines (same_of_flat rfl)

theorem linesRe_free : Free linesRe := by simp [linesRe, breakChars, oneOfRe, Free]

/-- `str_splitlines` splits at exactly the places the pattern of the source finds, from left to right. -/
theorem C118_lines (E : ReSyntax.Env) (hf : E.fold = none) : ∃ r, compile E false splitlines = some r ∧ ∀ (text : List Char) (i : Nat),
    (finditer r i text).map (fun f => (⟨f.start, f.stop⟩ : Span)) = FIto.lineBreaks i text := by
  obtain ⟨r, h1, h2⟩ := best_of_denotes (denotes_lines E hf)
  refine ⟨r, h1, fun text i => ?_⟩
  rw [finditer_congr h2]
  clear h1 h2
  generalize hn : text.length = n
  induction n using Nat.strongRecOn generalizing text i with
  | ind n ih =>
    have crnone : ∀ (l : List Char) (i : Nat), (∀ t, l ≠ '\r' :: '\n' :: t) → out (.seq (.chr (· == '\r')) (.chr (· == '\n'))) ⟨i, l, []⟩ = [] := by
      intro l i hl
      cases l with
      | nil => exact seq_none (out_chr_empty _ _ _)
      | cons x l =>
        rw [out, out_chr_cons]
        split
        · rename_i hx
          rw [List.flatMap_cons, List.flatMap_nil, List.append_nil]
          refine chr_none (fun d hd => ?_) _ _
          cases e : d == '\n' with
          | false => rfl
          | true =>
            cases l with
            | nil => cases hd
            | cons y l =>
              obtain rfl := Option.some.inj hd
              rw [eq_of_beq hx, eq_of_beq e] at hl
              exact absurd rfl (hl l)
        · rfl
    unfold FIto.lineBreaks
    split
    · rw [finditer_nil]
      · rfl
      · exact alt_none (crnone [] _ (by simp)) (oneOf_none (by simp) _ _)
    · rename_i t
      rw [finditer_hit linesRe_free i _ ⟨i + 1 + 1, t, []⟩ (best_altl (best_seq (best_chr (by decide) _ _ _) (best_chr (by decide) _ _ _)))
        (by dsimp only; omega), List.map_cons, ih t.length (by subst hn; simp; omega) t _ rfl]
      dsimp only
      congr 2
    · rename_i c t hct
      have hno : ∀ t', c :: t ≠ '\r' :: '\n' :: t' := by
        intro t' e
        obtain ⟨rfl, rfl⟩ := List.cons.inj e
        exact hct t' rfl rfl
      split
      · rename_i hc
        rw [finditer_hit linesRe_free i _ ⟨i + 1, t, []⟩ ?_ (by dsimp only; omega), List.map_cons, ih t.length (by subst hn; simp) t _ rfl]
        · rfl
        · show best linesRe _ = _
          rw [linesRe, best_alt_right (crnone _ _ hno)]
          exact oneOf_best ((breakChars_iff c).1 hc) _ _ _
      · rename_i hc
        rw [finditer_skip linesRe i c t, ih t.length (by subst hn; simp) t _ rfl]
        · rfl
        · refine alt_none (crnone _ _ hno) (oneOf_none (fun d hd hm => ?_) _ _)
          obtain rfl := Option.some.inj hd
          exact hc ((breakChars_iff c).2 hm)

/-! ### Element names -/

/-- The group `namespace`. -/
def nsRe : Re := .grp "namespace" (.seq (.chr (· == '{')) (.seq (.seq (.chr fun _ => true) (.star false (.chr fun _ => true))) (.chr (· == '}'))))

/-- The group `name`. -/
def nameRe : Re := .grp "name" (.seq (.chr fun _ => true) (.star true (.chr fun _ => true)))

/-- The whole pattern. -/
def etRe : Re := .seq (.alt nsRe .eps) nameRe

theorem denotes_et (E : ReSyntax.Env) (h : E.fold = none) (hd : E.dotall = true) : Denotes E false etName etRe := by
  obtain ⟨dg, sp, wd, ls, tx, lo, da, fo⟩ := E
  dsimp only at h hd; subst h hd
  exact denotes_of read_etName (same_of_flat rfl)

theorem etRe_free : Free etRe := by simp [etRe, nsRe, nameRe, Free]

theorem runOf_all (l : List Char) : runOf (fun _ => true) l = l.length := by
  induction l with
  | nil => rfl
  | cons x l ih => rw [runOf_cons rfl, ih]; rfl

theorem name_best {l : List Char} (h : l ≠ []) (i : Nat) (c : List (String × Nat × Nat)) :
    best nameRe ⟨i, l, c⟩ = some ⟨i + l.length, [], c ++ [("name", i, i + l.length)]⟩ := by
  have := best_plus (p := fun _ => true) (l := l) (by rw [runOf_all]; exact fun e => h (List.length_eq_zero_iff.1 e)) i c
  rw [nameRe, best_group this, runOf_all, List.drop_length]

theorem name_none (i : Nat) (c : List (String × Nat × Nat)) : out nameRe ⟨i, [], c⟩ = [] := grp_none (seq_none (out_chr_empty _ _ _))

/-- The test in `etCut`. -/
def nsCutAt (s : List Char) (i : Nat) : Bool := decide (2 ≤ i) && decide (s[i]? = some '}') && decide (i + 1 < s.length)

theorem cutAt_iff (s : List Char) (i : Nat) : nsCutAt s i = true ↔ 2 ≤ i ∧ s[i]? = some '}' ∧ i + 1 < s.length := by
  simp [nsCutAt, and_assoc]

theorem brace_name (i : Nat) (l : List Char) (c : List (String × Nat × Nat)) (s : Nat) :
    outk (.chr (· == '}')) (fun st' => out nameRe { st' with caps := st'.caps ++ [("namespace", s, st'.pos)] }) ⟨i, l, c⟩ = [] ↔
      ¬ ∃ y z, l = '}' :: y :: z := by
  cases l with
  | nil => rw [outk_chr_nil]; simp
  | cons x l =>
    rw [outk_chr]
    by_cases hx : x = '}'
    · subst hx
      rw [if_pos (by decide)]
      cases l with
      | nil => dsimp only; rw [name_none]; simp
      | cons y z =>
        constructor
        · intro e
          have := name_best (l := y :: z) (by simp) (i + 1) (c ++ [("namespace", s, i + 1)])
          unfold best at this
          dsimp only at e
          rw [e] at this
          cases this
        · intro h; exact absurd ⟨y, z, rfl⟩ h
    · rw [if_neg (by simpa using hx)]
      constructor
      · rintro _ ⟨y, z, e⟩; exact hx (List.cons.inj e).1
      · intro _; rfl

/-- The name of an element: the pattern of the source finds exactly one match in a text that is not empty, which is all of it; the
group `namespace` takes what `EtName` takes it to, and `name` the rest. -/
theorem C118_et_name (E : ReSyntax.Env) (hf : E.fold = none) (hd : E.dotall = true) : ∃ r, compile E false etName = some r ∧
    finditer r 0 [] = [] ∧ ∀ (s : List Char), s ≠ [] → ∃ m, finditer r 0 s = [m] ∧ m.start = 0 ∧ m.stop = s.length ∧
      match Xml.etCut s with
      | none => groupSpan m "namespace" = none ∧ groupSpan m "name" = some (0, s.length)
      | some n => groupSpan m "namespace" = some (0, n) ∧ groupSpan m "name" = some (n, s.length) := by
  obtain ⟨r, h1, h2⟩ := best_of_denotes (denotes_et E hf hd)
  have hns : ∀ i c, out nsRe ⟨i, [], c⟩ = [] := fun i c => grp_none (seq_none (out_chr_empty _ _ _))
  have hnil : ∀ i c, out etRe ⟨i, [], c⟩ = [] := by
    intro i c
    rw [etRe, out, List.flatMap_eq_nil_iff]
    intro st hst
    rw [out, hns, List.nil_append] at hst
    have : st = ⟨i, [], c⟩ := by simpa [out] using hst
    subst this
    exact name_none _ _
  refine ⟨r, h1, by rw [finditer_congr h2, finditer_nil]; exact hnil 0 [], fun s hs => ?_⟩
  have fin : ∀ caps, best etRe ⟨0, s, []⟩ = some ⟨s.length, [], caps⟩ → finditer r 0 s = [⟨0, s.length, caps⟩] := by
    intro caps hb
    rw [finditer_congr h2, finditer_hit etRe_free 0 s _ hb (by have := List.length_pos_iff.2 hs; exact this), finditer_nil]
    exact hnil _ _
  -- what comes of the group `namespace`
  have hK : best etRe ⟨0, s, []⟩ = ((outk nsRe (out nameRe) ⟨0, s, []⟩) ++ out nameRe ⟨0, s, []⟩).head? := by
    unfold best
    rw [etRe, out]
    show (outk (.alt nsRe .eps) (out nameRe) ⟨0, s, []⟩).head? = _
    rw [outk_alt, outk_eps]
  have hnone : outk nsRe (out nameRe) ⟨0, s, []⟩ = [] → ∃ m, finditer r 0 s = [m] ∧ m.start = 0 ∧ m.stop = s.length ∧
      groupSpan m "namespace" = none ∧ groupSpan m "name" = some (0, s.length) := by
    intro e
    rw [e, List.nil_append] at hK
    have := hK.trans (name_best hs 0 [])
    rw [Nat.zero_add] at this
    exact ⟨_, fin _ this, rfl, rfl, rfl, rfl⟩
  unfold Xml.etCut
  cases s with
  | nil => exact absurd rfl hs
  | cons x s1 =>
    by_cases hx : x = '{'
    · subst hx
      rw [if_pos (by simp)]
      have hstart : outk nsRe (out nameRe) ⟨0, '{' :: s1, []⟩ = outk (.seq (.chr fun _ => true) (.star false (.chr fun _ => true)))
          (outk (.chr (· == '}')) (fun st' => out nameRe { st' with caps := st'.caps ++ [("namespace", 0, st'.pos)] })) ⟨1, s1, []⟩ := by
        rw [nsRe, outk_grp, outk_seq, outk_chr, if_pos (by decide), outk_seq]
      cases hc : (List.range ('{' :: s1).length).find? (nsCutAt ('{' :: s1)) with
      | none =>
        have hc' : (List.range ('{' :: s1).length).find? (fun i => decide (2 ≤ i) && decide (('{' :: s1)[i]? = some '}') &&
          decide (i + 1 < ('{' :: s1).length)) = none := hc
        rw [hc']
        refine hnone ?_
        rw [hstart, outk_seq]
        cases s1 with
        | nil => rw [outk_chr_nil]
        | cons y s2 =>
          rw [outk_chr, if_pos rfl]
          refine outk_nil (by simp [Free]) ?_
          intro u w c hu _
          rw [brace_name]
          rintro ⟨y', z', rfl⟩
          dsimp only at hu
          rw [List.find?_eq_none] at hc
          refine hc (2 + u.length) ?_ ?_
          · rw [List.mem_range, List.length_cons, List.length_cons, hu, List.length_append, List.length_cons, List.length_cons]; omega
          · rw [cutAt_iff]
            refine ⟨by omega, ?_, ?_⟩
            · rw [show 2 + u.length = u.length + 1 + 1 by omega, List.getElem?_cons_succ, List.getElem?_cons_succ, hu]
              simp
            · rw [List.length_cons, List.length_cons, hu, List.length_append, List.length_cons, List.length_cons]; omega
      | some n =>
        have hc' : (List.range ('{' :: s1).length).find? (fun i => decide (2 ≤ i) && decide (('{' :: s1)[i]? = some '}') &&
          decide (i + 1 < ('{' :: s1).length)) = some n := hc
        rw [hc']
        rw [List.find?_range_eq_some] at hc
        obtain ⟨hn, _, hbefore⟩ := hc
        obtain ⟨g1, g2, g3⟩ := (cutAt_iff _ _).1 hn
        cases s1 with
        | nil => simp at g3
        | cons y s2 =>
          obtain ⟨m, rfl⟩ : ∃ m, n = m + 1 + 1 := ⟨n - 2, by omega⟩
          rw [List.getElem?_cons_succ, List.getElem?_cons_succ] at g2
          simp only [List.length_cons] at g3
          have hm : m < s2.length := by omega
          have hs2 : s2 = s2.take m ++ '}' :: s2.drop (m + 1) := by
            conv => lhs; rw [← List.take_append_drop m s2, List.drop_eq_getElem_cons hm]
            rw [List.getElem?_eq_getElem hm] at g2
            rw [Option.some.inj g2]
          have hul : (s2.take m).length = m := by rw [List.length_take]; omega
          generalize s2.take m = u at hs2 hul
          have hzl : (s2.drop (m + 1)).length + m + 1 = s2.length := by rw [List.length_drop]; omega
          generalize s2.drop (m + 1) = z at hs2 hzl
          have hz : z ≠ [] := by rintro rfl; simp at hzl; omega
          have hk : outk (.chr (· == '}')) (fun st' => out nameRe { st' with caps := st'.caps ++ [("namespace", 0, st'.pos)] })
              ⟨2 + m, '}' :: z, []⟩ = out nameRe ⟨2 + m + 1, z, [] ++ [("namespace", 0, 2 + m + 1)]⟩ := by
            rw [outk_chr, if_pos (by decide)]
          have hb := name_best hz (2 + m + 1) ([] ++ [("namespace", 0, 2 + m + 1)])
          have hrun := lazy_run (outk (.chr (· == '}')) (fun st' => out nameRe { st' with caps := st'.caps ++ [("namespace", 0, st'.pos)] }))
            u 2 ('}' :: z) [] (by
              intro a b hab hne
              rw [brace_name]
              rintro ⟨y', z', e⟩
              have hbz : ∃ b', b = '}' :: b' := by
                cases b with
                | nil => exact absurd rfl hne
                | cons q b' => exact ⟨b', by rw [List.cons_append] at e; rw [(List.cons.inj e).1]⟩
              obtain ⟨b', rfl⟩ := hbz
              have hlen : a.length + (b'.length + 1) = m := by rw [← hul, hab]; simp
              have := hbefore (a.length + 1 + 1) (by omega)
              rw [Bool.not_eq_true'] at this
              have hyes : nsCutAt ('{' :: y :: s2) (a.length + 1 + 1) = true := by
                rw [cutAt_iff]
                refine ⟨by omega, ?_, ?_⟩
                · rw [List.getElem?_cons_succ, List.getElem?_cons_succ, hs2, hab]
                  simp
                · simp only [List.length_cons]; omega
              rw [this] at hyes
              cases hyes)
            (by rw [hul, hk]; intro e; unfold best at hb; rw [e] at hb; cases hb)
          rw [hul, hk] at hrun
          have hall : best etRe ⟨0, '{' :: y :: s2, []⟩ = some ⟨('{' :: y :: s2).length, [],
              [] ++ [("namespace", 0, m + 3)] ++ [("name", m + 3, ('{' :: y :: s2).length)]⟩ := by
            rw [hK, hstart, outk_seq, outk_chr, if_pos rfl, List.head?_append, hs2]
            erw [hrun]
            unfold best at hb
            rw [hb]
            simp only [Option.some_or, Option.some.injEq, St.mk.injEq, List.length_cons, List.length_append, List.nil_append, List.cons_append,
              List.cons.injEq, Prod.mk.injEq, true_and, and_true]
            omega
          exact ⟨_, fin _ hall, rfl, rfl, rfl, rfl⟩
    · rw [if_neg (by simpa using hx)]
      refine hnone ?_
      rw [nsRe, outk_grp, outk_seq, outk_chr, if_neg (by simpa using hx)]

/-- Line breaks of three kinds, and names with and without a namespace. -/
example : FIto.lineBreaks 3 "a\r\nb\rc\n".toList = [⟨4, 6⟩, ⟨7, 8⟩, ⟨9, 10⟩] := by decide +kernel
example : (Xml.etCut "{u}tag".toList, Xml.etCut "tag".toList, Xml.etCut "{}".toList) = (some 3, none, none) := by decide +kernel

end Pawpaw.Props
