import Verif.Props.PatternsSet
/-!
# C116: the pattern of a table, for all styles
-/
namespace Pawpaw
namespace Props
open ReSyntax Regex Patterns

/-- The name of the group referred to. -/
def nIndent : List Char := ['i', 'n', 'd', 'e', 'n', 't']

/-- Items that refer to nothing but the indentation, and are not the indentation. -/
def Good (x : Syn) : Prop := (∀ n, x.refers n = true → n = nIndent) ∧ ∀ a, x ≠ .grp (.named nIndent) a

/-- **Specification.** The text `p` of a style is a sequence of items (no `|` outside of parentheses) without
back references, and stands for `r`. -/
def Piece (E : Env) (p : List Char) (r : Re) : Prop :=
  ∃ xs, Adds false p xs ∧ (∀ x ∈ xs, (∀ n, x.refers n = false) ∧ ∀ a, x ≠ .grp (.named nIndent) a) ∧
    ∀ bs, Same (denote E bs (seqOf xs)) r

/-- The same for an optional one. -/
def PieceO (E : Env) : Option (List Char) → Option Re → Prop
  | none, none => True
  | some p, some r => Piece E p r
  | _, _ => False

/-- **Specification.** A style of texts, and the style of expressions it stands for. -/
structure StyleOf (E : Env) (T : TextStyle) (S : Table.Style) : Prop where
  equi : T.equi = S.equi
  pre : PieceO E T.preCaption S.preCaption
  start : Piece E T.tableStart S.tableStart
  header : PieceO E T.headerRowEnd S.headerRowEnd
  row : Piece E T.rowSep S.rowSep
  stop : PieceO E T.tableEnd S.tableEnd
  post : PieceO E T.postCaption S.postCaption

theorem good_seqOf {xs : List Syn} (h : ∀ x ∈ xs, Good x) (n : List Char) (hr : (seqOf xs).refers n = true) : n = nIndent := by
  rw [refers_seqOf, List.any_eq_true] at hr
  obtain ⟨x, hx, hn⟩ := hr
  exact (h x hx).1 n hn

theorem referred_good {x : Syn} {zs : List Syn} (hx : Good x) (h : ∀ z ∈ zs, Good z) : x.referred (seqOf zs) = none := by
  unfold Syn.referred
  split
  · rename_i n a
    by_cases hr : (seqOf zs).refers n = true
    · have := good_seqOf h n hr
      subst this
      exact absurd rfl (hx.2 a)
    · rw [if_neg hr]
  · rfl

theorem same_append (E : Env) (bs : List (List Char × List Char)) {xs ys : List Syn} (hx : ∀ x ∈ xs, Good x)
    (hy : ∀ y ∈ ys, Good y) :
    Same (denote E bs (seqOf (xs ++ ys))) (.seq (denote E bs (seqOf xs)) (denote E bs (seqOf ys))) :=
  denote_seqOf_append E bs xs ys fun x h zs hz => referred_good (hx x h) fun z h' => by
    rcases hz z h' with h' | h'
    · exact hx z h'
    · exact hy z h'

theorem good_append {xs ys : List Syn} (hx : ∀ x ∈ xs, Good x) (hy : ∀ y ∈ ys, Good y) : ∀ z ∈ xs ++ ys, Good z := by
  intro z hz
  rcases List.mem_append.1 hz with h | h
  · exact hx z h
  · exact hy z h

theorem good_one {x : Syn} (h : Good x) : ∀ z ∈ [x], Good z := by
  intro z hz; rw [List.mem_singleton.1 hz]; exact h

/-- The items of `\n{pat_indent}`. -/
def brX (equi : Bool) : List Syn := .chr '\n' :: if equi then [.back nIndent] else []
theorem good_br (equi : Bool) : ∀ x ∈ brX equi, Good x := by
  intro x hx
  cases equi
  · rw [brX] at hx
    simp only [Bool.false_eq_true, if_false, List.mem_cons, List.not_mem_nil, or_false] at hx
    subst hx; exact ⟨fun n h => absurd h (by simp [Syn.refers]), fun a => by simp⟩
  · rw [brX] at hx
    simp only [if_true, List.mem_cons, List.not_mem_nil, or_false] at hx
    rcases hx with rfl | rfl
    · exact ⟨fun n h => absurd h (by simp [Syn.refers]), fun a => by simp⟩
    · exact ⟨fun n h => by simpa [Syn.refers, eq_comm] using h, fun a => by simp⟩

theorem good_rep {lo : Nat} {hi : Option Nat} {g : Bool} {xs : List Syn} (h : ∀ x ∈ xs, Good x) : Good (.rep lo hi g (seqOf xs)) :=
  ⟨fun n hn => good_seqOf h n (by simpa [Syn.refers] using hn), fun a => by simp⟩

theorem good_grp {k : Kind} {xs : List Syn} (h : ∀ x ∈ xs, Good x) (hk : k ≠ .named nIndent) : Good (.grp k (seqOf xs)) :=
  ⟨fun n hn => good_seqOf h n (by simpa [Syn.refers] using hn), fun a => by simp [hk]⟩

theorem good_of_closed {xs : List Syn} (h : ∀ x ∈ xs, (∀ n, x.refers n = false) ∧ ∀ a, x ≠ .grp (.named nIndent) a) :
    ∀ x ∈ xs, Good x := fun x hx => ⟨fun n hn => absurd hn (by rw [(h x hx).1 n]; exact Bool.false_ne_true), (h x hx).2⟩

/-! ### Parts of the pattern -/

/-- The text of the indentation, where it is referred to. -/
def Bound (equi : Bool) (bs : List (List Char × List Char)) (ind : List Char) : Prop :=
  if equi then bs.find? (fun b => b.1 == nIndent) = some (nIndent, ind) else ind = []

/-- A part of the pattern: the text, and the expression for every indentation; if `m`, the indentation is referred to. -/
def Part (E : Env) (equi m : Bool) (t : List Char) (r : List Char → Re) : Prop :=
  ∃ xs, Adds false t xs ∧ (∀ x ∈ xs, Good x) ∧ (m = true → equi = true → ∃ x ∈ xs, x.refers nIndent = true) ∧
    ∀ bs ind, Bound equi bs ind → Same (denote E bs (seqOf xs)) (r ind)

section
variable {E : Env} {equi : Bool}

theorem Part.nil : Part E equi false [] fun _ => .eps :=
  ⟨[], Adds.nil, by simp, by simp, fun _ _ _ => Same.refl _⟩

theorem Part.append {m m' : Bool} {t u : List Char} {r s : List Char → Re} (h : Part E equi m t r) (h' : Part E equi m' u s) :
    Part E equi (m || m') (t ++ u) fun ind => .seq (r ind) (s ind) := by
  obtain ⟨xs, h1, h2, h3, h4⟩ := h
  obtain ⟨ys, g1, g2, g3, g4⟩ := h'
  refine ⟨xs ++ ys, h1.append g1, good_append h2 g2, ?_, fun bs ind hb => ?_⟩
  · intro hm he
    rcases Bool.or_eq_true _ _ ▸ hm with hm | hm
    · obtain ⟨x, hx, hr⟩ := h3 hm he; exact ⟨x, List.mem_append_left _ hx, hr⟩
    · obtain ⟨x, hx, hr⟩ := g3 hm he; exact ⟨x, List.mem_append_right _ hx, hr⟩
  · exact (same_append E bs h2 g2).trans ((h4 bs ind hb).seq (g4 bs ind hb))

theorem Part.of_piece {t : List Char} {r : Re} (h : Piece E t r) : Part E equi false t fun _ => r := by
  obtain ⟨xs, h1, h2, h3⟩ := h
  exact ⟨xs, h1, good_of_closed h2, by simp, fun bs _ _ => h3 bs⟩

theorem seqOf_refers {xs : List Syn} (h : ∃ x ∈ xs, x.refers nIndent = true) : (seqOf xs).refers nIndent = true := by
  rw [refers_seqOf, List.any_eq_true]; exact h

theorem Part.grp {m : Bool} {t : List Char} {r : List Char → Re} (h : Part E equi m t r) (c : Char) (name : List Char)
    (hn : '>' ∉ name) (h1 : c ≠ '=') (h2 : c ≠ '!') (hi : c :: name ≠ nIndent) :
    Part E equi m ((cl! "(?<") ++ (c :: name) ++ ['>'] ++ t ++ [')']) fun ind => .grp (String.ofList (c :: name)) (r ind) := by
  obtain ⟨xs, g1, g2, g3, g4⟩ := h
  refine ⟨[.grp (.named (c :: name)) (seqOf xs)], (opens_name (v := false) c name hn h1 h2).adds g1.body,
    good_one (good_grp g2 (by simp [hi])), fun hm he => ⟨_, List.mem_singleton_self _, ?_⟩, fun bs ind hb => ?_⟩
  · rw [Syn.refers]; exact seqOf_refers (g3 hm he)
  · simp only [seqOf, denote]; exact (g4 bs ind hb).grp

theorem Part.opt {m : Bool} {t : List Char} {r : List Char → Re} (h : Part E equi m t r) :
    Part E equi m ((cl! "(?:") ++ t ++ [')'] ++ ['?']) fun ind => Regex.opt (r ind) := by
  obtain ⟨xs, g1, g2, g3, g4⟩ := h
  refine ⟨[.rep 0 (some 1) true (seqOf xs)], opens_plain.rep (v := false) g1.body quant_opt,
    good_one (good_rep g2), fun hm he => ⟨_, List.mem_singleton_self _, ?_⟩, fun bs ind hb => ?_⟩
  · rw [Syn.refers]; exact seqOf_refers (g3 hm he)
  · simp only [seqOf, denote]; exact (g4 bs ind hb).alt (Same.refl .eps)

theorem Part.plus {m : Bool} {t : List Char} {r : List Char → Re} (h : Part E equi m t r) :
    Part E equi m ((cl! "(?:") ++ t ++ [')'] ++ ['+']) fun ind => Regex.plus (r ind) := by
  obtain ⟨xs, g1, g2, g3, g4⟩ := h
  refine ⟨[.rep 1 none true (seqOf xs)], opens_plain.rep (v := false) g1.body quant_plus,
    good_one (good_rep g2), fun hm he => ⟨_, List.mem_singleton_self _, ?_⟩, fun bs ind hb => ?_⟩
  · rw [Syn.refers]; exact seqOf_refers (g3 hm he)
  · simp only [seqOf, denote]; exact (g4 bs ind hb).seq (g4 bs ind hb).star

theorem Part.star {m : Bool} {t : List Char} {r : List Char → Re} (h : Part E equi m t r) :
    Part E equi m ((cl! "(?:") ++ t ++ [')'] ++ ['*']) fun ind => Regex.many (r ind) := by
  obtain ⟨xs, g1, g2, g3, g4⟩ := h
  refine ⟨[.rep 0 none true (seqOf xs)], opens_plain.rep (v := false) g1.body quant_star,
    good_one (good_rep g2), fun hm he => ⟨_, List.mem_singleton_self _, ?_⟩, fun bs ind hb => ?_⟩
  · rw [Syn.refers]; exact seqOf_refers (g3 hm he)
  · simp only [seqOf, denote]; exact (g4 bs ind hb).star

theorem Part.same {m : Bool} {t : List Char} {r s : List Char → Re} (h : Part E equi m t r) (hs : ∀ ind, Same (r ind) (s ind)) :
    Part E equi m t s := by
  obtain ⟨xs, g1, g2, g3, g4⟩ := h
  exact ⟨xs, g1, g2, g3, fun bs ind hb => (g4 bs ind hb).trans (hs ind)⟩

theorem Part.weaken {m : Bool} {t : List Char} {r : List Char → Re} (h : Part E equi m t r) : Part E equi false t r := by
  obtain ⟨xs, g1, g2, _, g4⟩ := h
  exact ⟨xs, g1, g2, by simp, g4⟩
end

/-! ### Reading -/

theorem lit_nl : "\\n".toList = (cl! "\\n") := by decide +kernel
theorem lit_ind : "(?P=indent)".toList = (cl! "(?P=indent)") := by decide +kernel
theorem lit_lt : "(?<".toList = (cl! "(?<") := by decide +kernel
theorem lit_anynl : ">.+?)\\n".toList = ['>'] ++ ((cl! ".+?") ++ ([')'] ++ (cl! "\\n"))) := by decide +kernel
theorem lit_pre : "(?:(?<pre_caption>".toList = (cl! "(?:") ++ ((cl! "(?<") ++ ((cl! "pre_caption") ++ ['>'])) := by decide +kernel
theorem lit_prenl : ")\\n".toList = [')'] ++ (cl! "\\n") := by decide +kernel
theorem lit_cq : ")?".toList = [')'] ++ ['?'] := by decide +kernel
theorem lit_cp : ")+".toList = [')'] ++ ['+'] := by decide +kernel
theorem lit_cs : ")*".toList = [')'] ++ ['*'] := by decide +kernel
theorem lit_header : "header_row".toList = (cl! "header_row") := by decide +kernel
theorem lit_row : "row".toList = (cl! "row") := by decide +kernel
theorem lit_post : "(?<post_caption>".toList = (cl! "(?<") ++ ((cl! "post_caption") ++ ['>']) := by decide +kernel
theorem lit_postend : ")(?=\\n|$)".toList = [')'] ++ (cl! "(?=\\n|$)") := by decide +kernel
theorem lit_table : "(?<table>".toList = (cl! "(?<") ++ ((cl! "table") ++ ['>']) := by decide +kernel
theorem lit_end : ")(?=$|\\n)".toList = [')'] ++ (cl! "(?=$|\\n)") := by decide +kernel
theorem lit_equi : "(?P<indent>[ \\t]*)".toList = (cl! "(?P<indent>[ \\t]*)") := by decide +kernel
theorem lit_behind : "(?<=^|\\n)".toList = (cl! "(?<=^|\\n)") := by decide +kernel

theorem adds_nl : Adds false (cl! "\\n") [.chr '\n'] := fun _ _ _ => ⟨false, rfl⟩
theorem adds_ind : Adds false (cl! "(?P=indent)") [.back nIndent] := fun _ _ _ => ⟨false, rfl⟩
theorem adds_any1 : Adds false (cl! ".+?") [.rep 1 none false .any] := fun _ _ _ => ⟨false, rfl⟩

section
variable {E : Env} (hf : E.fold = none) (hd : E.dotall = true) (T : TextStyle)
include hf

theorem part_br : Part E T.equi true ((cl! "\\n") ++ Patterns.indent T) Table.br := by
  refine ⟨brX T.equi, ?_, good_br _, ?_, ?_⟩
  · unfold Patterns.indent
    rw [lit_ind]
    cases T.equi
    · exact adds_nl.append Adds.nil
    · exact adds_nl.append adds_ind
  · intro _ he
    rw [he]
    exact ⟨.back nIndent, by simp [brX], by simp [Syn.refers]⟩
  · intro bs ind hb
    generalize T.equi = q at hb ⊢
    cases q
    · simp only [Bound, Bool.false_eq_true, if_false] at hb
      subst hb
      simp only [brX, Bool.false_eq_true, if_false, seqOf, denote, literal, hf, Table.br, lit]
      exact (Same.seq_eps _).symm
    · simp only [Bound, if_true] at hb
      simp only [brX, if_true, seqOf, denote, Syn.referred, literal, hf, hb, Table.br]
      exact Same.refl _

omit hf in
include hd in
theorem part_any : Part E T.equi false (cl! ".+?") fun _ => Table.some1 := by
  refine ⟨[.rep 1 none false .any], adds_any1, good_one ⟨fun n hn => absurd hn (by simp [Syn.refers]), fun a => by simp⟩,
    by simp, fun bs ind _ => ?_⟩
  simp only [seqOf, denote, hd, repeated, times, Table.some1, Bool.true_or]
  exact Same.refl _

include hd in
theorem part_cell (c : Char) (name stop : List Char) (h : '>' ∉ name) (h1 : c ≠ '=') (h2 : c ≠ '!') (hi : c :: name ≠ nIndent)
    {r : Re} (hs : Piece E stop r) :
    Part E T.equi true (Patterns.cell T (c :: name) stop) fun ind => Table.cell ind (String.ofList (c :: name)) r := by
  have hg := (part_any hd T).grp c name h h1 h2 hi
  have ht := (part_br hf T).append (hg.append ((part_br hf T).append (Part.of_piece hs)))
  have e : Patterns.cell T (c :: name) stop = ((cl! "\\n") ++ Patterns.indent T) ++
      (((cl! "(?<") ++ (c :: name) ++ ['>'] ++ (cl! ".+?") ++ [')']) ++ (((cl! "\\n") ++ Patterns.indent T) ++ stop)) := by
    have key : ∀ (A i B n C s b1 b2 b3 b4 : List Char), A = b4 → B = b1 → C = ['>'] ++ (b2 ++ (b3 ++ b4)) →
        A ++ i ++ B ++ n ++ C ++ i ++ s = (b4 ++ i) ++ ((b1 ++ n ++ ['>'] ++ b2 ++ b3) ++ ((b4 ++ i) ++ s)) := by
      rintro _ _ _ _ _ _ _ _ _ _ rfl rfl rfl
      simp only [List.append_assoc]
    exact key _ _ _ _ _ _ _ _ _ _ lit_nl lit_lt lit_anynl
  rw [e]
  exact ht

theorem part_ahead (t : List Char) (a b : Syn) (ha : ∀ n, a.refers n = false) (hb : ∀ n, b.refers n = false) (hc : a.captures = false)
    (hc' : b.captures = false) (ht : Adds false t [.grp .ahead (.alt a b)]) (ra rb : Re)
    (hr : ∀ bs, denote E bs a = ra ∧ denote E bs b = rb) : Part E T.equi false t fun _ => NlpRe.ahead (.alt ra rb) := by
  refine ⟨_, ht, good_one ⟨fun n hn => ?_, fun a => by simp⟩, by simp, fun bs ind _ => ?_⟩
  · simp [Syn.refers, ha, hb] at hn
  · simp only [seqOf, denote, Syn.captures, hc, hc', Bool.or_self, Bool.false_eq_true, if_false, hr]
    exact Same.refl _

theorem part_lineEnd : Part E T.equi false (cl! "(?=$|\\n)") fun _ => Table.lineEnd :=
  part_ahead hf T _ .eos (.chr '\n') (fun _ => rfl) (fun _ => rfl) rfl rfl (fun _ _ _ => ⟨false, rfl⟩) _ _
    fun bs => ⟨by rw [denote], by rw [denote, literal, hf]⟩

theorem part_postEnd : Part E T.equi false (cl! "(?=\\n|$)") fun _ => NlpRe.ahead (.alt (.chr (· == '\n')) .eos) :=
  part_ahead hf T _ (.chr '\n') .eos (fun _ => rfl) (fun _ => rfl) rfl rfl (fun _ _ _ => ⟨false, rfl⟩) _ _
    fun bs => ⟨by rw [denote, literal, hf], by rw [denote]⟩
end


section
variable {E : Env} (hf : E.fold = none) (hd : E.dotall = true) {T : TextStyle} {S : Table.Style} (h : StyleOf E T S)
include hf h

/-- The caption before the table. -/
def tPre (T : TextStyle) : List Char :=
  match T.preCaption with
  | none => []
  | some p => "(?:(?<pre_caption>".toList ++ p ++ ")\\n".toList ++ Patterns.indent T ++ ")?".toList
/-- The header row. -/
def tHeader (T : TextStyle) : List Char :=
  match T.headerRowEnd with
  | none => []
  | some p => "(?:".toList ++ Patterns.cell T "header_row".toList p ++ ")?".toList
/-- The rows. -/
def tRows (T : TextStyle) : List Char :=
  match T.tableEnd with
  | none => "(?:".toList ++ Patterns.cell T "row".toList T.rowSep ++ ")+".toList
  | some e => "(?:".toList ++ Patterns.cell T "row".toList T.rowSep ++ ")*".toList ++ Patterns.cell T "row".toList e
/-- The caption after the table. -/
def tPost (T : TextStyle) : List Char :=
  match T.postCaption with
  | none => []
  | some p => "\\n".toList ++ Patterns.indent T ++ "(?<post_caption>".toList ++ p ++ ")(?=\\n|$)".toList

theorem part_pre : Part E T.equi false (tPre T) (Table.preRe S) := by
  have hp := h.pre
  unfold tPre Table.preRe
  generalize T.preCaption = tp at hp ⊢
  generalize S.preCaption = sp at hp ⊢
  match tp, sp, hp with
  | none, none, _ => exact Part.nil
  | some p, some r, hp =>
    have hg := (Part.of_piece (equi := T.equi) (show Piece E p r from hp)).grp 'p' (cl! "re_caption") (by decide) (by decide) (by decide) (by decide)
    have ht := (hg.append (part_br hf T)).opt
    have e : "(?:(?<pre_caption>".toList ++ p ++ ")\\n".toList ++ Patterns.indent T ++ ")?".toList =
        (cl! "(?:") ++ (((cl! "(?<") ++ (cl! "pre_caption") ++ ['>'] ++ p ++ [')']) ++ ((cl! "\\n") ++ Patterns.indent T)) ++ [')'] ++ ['?'] := by
      have key : ∀ (A p B i C a1 a2 a3 a4 b1 b2 c1 c2 : List Char), A = a1 ++ (a2 ++ (a3 ++ a4)) → B = b1 ++ b2 → C = c1 ++ c2 →
          A ++ p ++ B ++ i ++ C = a1 ++ ((a2 ++ a3 ++ a4 ++ p ++ b1) ++ (b2 ++ i)) ++ c1 ++ c2 := by
        rintro _ _ _ _ _ _ _ _ _ _ _ _ _ rfl rfl rfl
        simp only [List.append_assoc]
      exact key _ _ _ _ _ _ _ _ _ _ _ _ _ lit_pre lit_prenl lit_cq
    dsimp only
    rw [e]
    exact ht.weaken

include hd

theorem part_header : Part E T.equi false (tHeader T) (Table.headerRe S) := by
  have hp := h.header
  unfold tHeader Table.headerRe
  generalize T.headerRowEnd = tp at hp ⊢
  generalize S.headerRowEnd = sp at hp ⊢
  match tp, sp, hp with
  | none, none, _ => exact Part.nil
  | some p, some r, hp =>
    have ht := (part_cell hf hd T 'h' (cl! "eader_row") p (by decide) (by decide) (by decide) (by decide) (show Piece E p r from hp)).opt
    dsimp only
    rw [lit_header, lit_plain, lit_cq, ← List.append_assoc]
    exact ht.weaken

theorem part_rows : Part E T.equi true (tRows T) (Table.rowsRe S) := by
  have hp := h.stop
  have hr := part_cell hf hd T 'r' (cl! "ow") T.rowSep (by decide) (by decide) (by decide) (by decide) h.row
  unfold tRows Table.rowsRe
  generalize T.tableEnd = tp at hp ⊢
  generalize S.tableEnd = sp at hp ⊢
  match tp, sp, hp with
  | none, none, _ =>
    dsimp only
    rw [lit_row, lit_plain, lit_cp, ← List.append_assoc]
    exact hr.plus
  | some p, some r, hp =>
    have hl := part_cell hf hd T 'r' (cl! "ow") p (by decide) (by decide) (by decide) (by decide) (show Piece E p r from hp)
    dsimp only
    rw [lit_row, lit_plain, lit_cs, ← List.append_assoc]
    exact hr.star.append hl

omit hd in
theorem part_post : Part E T.equi false (tPost T) (Table.postRe S) := by
  have hp := h.post
  unfold tPost Table.postRe
  generalize T.postCaption = tp at hp ⊢
  generalize S.postCaption = sp at hp ⊢
  match tp, sp, hp with
  | none, none, _ => exact Part.nil
  | some p, some r, hp =>
    have hg := (Part.of_piece (equi := T.equi) (show Piece E p r from hp)).grp 'p' (cl! "ost_caption") (by decide) (by decide) (by decide) (by decide)
    have ht := (part_br hf T).append (hg.append (part_postEnd hf T))
    have e : "\\n".toList ++ Patterns.indent T ++ "(?<post_caption>".toList ++ p ++ ")(?=\\n|$)".toList =
        ((cl! "\\n") ++ Patterns.indent T) ++ (((cl! "(?<") ++ (cl! "post_caption") ++ ['>'] ++ p ++ [')']) ++ (cl! "(?=\\n|$)")) := by
      have key : ∀ (A i B p C a b1 b2 b3 c1 c2 : List Char), A = a → B = b1 ++ (b2 ++ b3) → C = c1 ++ c2 →
          A ++ i ++ B ++ p ++ C = (a ++ i) ++ ((b1 ++ b2 ++ b3 ++ p ++ c1) ++ c2) := by
        rintro _ _ _ _ _ _ _ _ _ _ _ rfl rfl rfl
        simp only [List.append_assoc]
      exact key _ _ _ _ _ _ _ _ _ _ _ lit_nl lit_post lit_postend
    dsimp only
    rw [e]
    exact ht.weaken

/-- From `(?<table>` on. -/
theorem part_body : Part E T.equi true ("(?<table>".toList ++ tPre T ++ T.tableStart ++ tHeader T ++ tRows T ++ tPost T ++ ")(?=$|\\n)".toList)
    (Table.bodyRe S) := by
  have hg := ((part_pre hf h).append ((Part.of_piece h.start).append ((part_header hf hd h).append ((part_rows hf hd h).append
    (part_post hf h))))).grp 't' (cl! "able") (by decide) (by decide) (by decide) (by decide)
  have ht := hg.append (part_lineEnd hf T)
  have e : "(?<table>".toList ++ tPre T ++ T.tableStart ++ tHeader T ++ tRows T ++ tPost T ++ ")(?=$|\\n)".toList =
      ((cl! "(?<") ++ (cl! "table") ++ ['>'] ++ (tPre T ++ (T.tableStart ++ (tHeader T ++ (tRows T ++ tPost T)))) ++ [')']) ++ (cl! "(?=$|\\n)") := by
    have key : ∀ (A u1 u2 u3 u4 u5 B a1 a2 a3 b1 b2 : List Char), A = a1 ++ (a2 ++ a3) → B = b1 ++ b2 →
        A ++ u1 ++ u2 ++ u3 ++ u4 ++ u5 ++ B = (a1 ++ a2 ++ a3 ++ (u1 ++ (u2 ++ (u3 ++ (u4 ++ u5)))) ++ b1) ++ b2 := by
      rintro _ _ _ _ _ _ _ _ _ _ _ _ rfl rfl
      simp only [List.append_assoc]
    exact key _ _ _ _ _ _ _ _ _ _ _ _ lit_table lit_end
  rw [e]
  exact ht
end

theorem adds_equi : Adds false (cl! "(?P<indent>[ \\t]*)") [.grp (.named nIndent) (.rep 0 none true (.cls false [.one ' ', .one '\t']))] :=
  fun _ _ _ => ⟨false, rfl⟩
theorem adds_behind : Adds false (cl! "(?<=^|\\n)") [.grp .behind (.alt .bos (.chr '\n'))] := fun _ _ _ => ⟨false, rfl⟩

theorem buildTable_eq (T : TextStyle) : buildTable T = (if T.equi then "(?P<indent>[ \\t]*)".toList else "(?<=^|\\n)".toList) ++
    ("(?<table>".toList ++ tPre T ++ T.tableStart ++ tHeader T ++ tRows T ++ tPost T ++ ")(?=$|\\n)".toList) := by
  have key : ∀ (a b c d e f g i : List Char), a ++ b ++ c ++ d ++ e ++ f ++ g ++ i = a ++ (b ++ c ++ d ++ e ++ f ++ g ++ i) := by
    intros; simp only [List.append_assoc]
  exact key _ _ _ _ _ _ _ _

/-- **C116.** The pattern text that `StyledTable` assembles, for every style whose texts stand for expressions, is the
expression of tables of that style: in particular it refers to the indentation, if that is to be the same in all lines, and
the lookbehind is lost then. -/
theorem C116_table (E : Env) (hf : E.fold = none) (hd : E.dotall = true) (T : TextStyle) (S : Table.Style) (h : StyleOf E T S) :
    Denotes E false (buildTable T) (Table.buildRe S E.text E.lo) := by
  obtain ⟨xs, h1, h2, h3, h4⟩ := part_body hf hd h
  rw [buildTable_eq]
  unfold Table.buildRe
  rw [← h.equi]
  cases he : T.equi with
  | true =>
    rw [if_pos rfl, if_pos rfl, lit_equi]
    refine denotes_of (adds_equi.append h1).body.read ?_
    obtain ⟨x, hx, hr⟩ := h3 rfl he
    have hs : (seqOf xs).refers nIndent = true := seqOf_refers ⟨x, hx, hr⟩
    have hxs : xs ≠ [] := by rintro rfl; cases hx
    obtain ⟨y, ys, rfl⟩ := List.exists_cons_of_ne_nil hxs
    have e : altOf [seqOf ([.grp (.named nIndent) (.rep 0 none true (.cls false [.one ' ', .one '\t']))] ++ (y :: ys))] =
      .seq (.grp (.named nIndent) (.rep 0 none true (.cls false [.one ' ', .one '\t']))) (seqOf (y :: ys)) := rfl
    rw [e, denote]
    simp only [Syn.referred, hs, if_true]
    refine Same.dep ?_ fun t => h4 _ t ?_
    · simp only [denote, Bool.false_eq_true, if_false, repeated, times]
      refine Same.of_eq ?_
      have : inClass E [.one ' ', .one '\t'] = fun c => c == ' ' || c == '\t' := by
        funext c; simp [inClass, hf, anyOf, Item.has]
      rw [this]; rfl
    · rw [Bound, he, if_pos rfl]; simp
  | false =>
    rw [if_neg Bool.false_ne_true, if_neg Bool.false_ne_true, lit_behind]
    refine denotes_of (adds_behind.append h1).body.read ?_
    have hg : Good (.grp .behind (.alt .bos (.chr '\n'))) := ⟨fun n hn => absurd hn (by simp [Syn.refers]), fun a => by simp⟩
    refine (same_append E [] (good_one hg) h2).trans (Same.seq ?_ (h4 [] [] (by rw [Bound, he]; rfl)))
    simp only [seqOf, denote, literal, hf]
    exact Same.refl _

theorem piece_dashes (E : Env) (hf : E.fold = none) : Piece E "-{2,}".toList Table.dashes := by
  have e : "-{2,}".toList = (cl! "-{2,}") := by decide +kernel
  rw [e]
  refine ⟨[.rep 2 none true (.chr '-')], fun _ _ _ => ⟨true, rfl⟩, ?_, fun bs => ?_⟩
  · intro x hx; rw [List.mem_singleton.1 hx]; exact ⟨fun n => rfl, fun a => by simp⟩
  · simp only [seqOf, denote, literal, hf]; exact Same.refl _

theorem piece_ruler (E : Env) (hf : E.fold = none) : Piece E "(?:-{2,}(?:\\+-+)+)".toList Table.ruler := by
  have e : "(?:-{2,}(?:\\+-+)+)".toList = (cl! "(?:-{2,}(?:\\+-+)+)") := by decide +kernel
  rw [e]
  refine ⟨[.seq (.rep 2 none true (.chr '-')) (.rep 1 none true (.seq (.chr '+') (.rep 1 none true (.chr '-'))))],
    fun _ _ _ => ⟨false, rfl⟩, ?_, fun bs => ?_⟩
  · intro x hx; rw [List.mem_singleton.1 hx]; exact ⟨fun n => rfl, fun a => by simp⟩
  · simp only [seqOf, denote, literal, hf, Syn.referred]; exact Same.refl _

theorem piece_bars (E : Env) (hf : E.fold = none) : Piece E "\\|(?:-+\\|)+".toList Table.type2.rowSep := by
  have e : "\\|(?:-+\\|)+".toList = (cl! "\\|(?:-+\\|)+") := by decide +kernel
  rw [e]
  refine ⟨[.chr '|', .rep 1 none true (.seq (.rep 1 none true (.chr '-')) (.chr '|'))], fun _ _ _ => ⟨true, rfl⟩, ?_, fun bs => ?_⟩
  · intro x hx
    simp only [List.mem_cons, List.not_mem_nil, or_false] at hx
    rcases hx with rfl | rfl <;> exact ⟨fun n => rfl, fun a => by simp⟩
  · simp only [seqOf, denote, literal, hf, Syn.referred]; exact Same.refl _

/-- The two styles that the library comes with. -/
theorem C116_type1 (E : Env) (hf : E.fold = none) (hd : E.dotall = true) :
    Denotes E false (buildTable Patterns.type1) (Table.buildRe Table.type1 E.text E.lo) :=
  C116_table E hf hd _ _ ⟨rfl, trivial, piece_ruler E hf, trivial, piece_ruler E hf, trivial, trivial⟩

theorem C116_type2 (E : Env) (hf : E.fold = none) (hd : E.dotall = true) :
    Denotes E false (buildTable Patterns.type2) (Table.buildRe Table.type2 E.text E.lo) :=
  C116_table E hf hd _ _ ⟨rfl, trivial, piece_dashes E hf, trivial, piece_bars E hf, piece_dashes E hf, trivial⟩

end Props
end Pawpaw
