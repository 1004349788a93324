import Verif.Props.TableFound
/-!
# C96, C97: the styles of the library, and texts on which they go wrong
-/
set_option linter.unusedSectionVars false
set_option linter.unusedSimpArgs false
namespace Pawpaw.Props
open Pawpaw Pawpaw.Regex Pawpaw.Match Pawpaw.Xml Pawpaw.Table RegexSpec TreeSpec TableSpec

/-- The styles which the library defines are of the kind the theorems speak of. -/
theorem plain_type1 : PlainStyle type1 :=
  ⟨by simp [type1], ⟨by repeat constructor, by repeat constructor⟩, by simp [type1], ⟨by repeat constructor, by repeat constructor⟩,
    by simp [type1], by simp [type1]⟩

theorem plain_type2 : PlainStyle type2 :=
  ⟨by simp [type2], by repeat constructor, by simp [type2], by repeat constructor,
    by intro p hp; simp only [type2, Option.some.injEq] at hp; subst hp; repeat constructor, by simp [type2]⟩

/-- An Ito over a whole text. -/
def allOf (s : String) : FIto Char := ⟨s.toList, ⟨0, s.toList.length⟩, none⟩

/-- A tree of a table: its span and the spans of its rows. -/
def rowTree (s : Span) (rows : List Span) : Node := .mk s (some "table") none (rows.map fun r => .leaf r (some "row"))

theorem lang_of_out {r : Re} (hr : Plain r) {u : List Char} (h : (⟨u.length, [], []⟩ : St) ∈ out r ⟨0, u, []⟩) : Lang r u := by
  obtain ⟨v, h1, h2, _⟩ := plain_out hr h
  have := h1.1
  simp at this
  rwa [this]

/-! ### C96 -/

-- `tests/table/test_table.py`: a table, its rows
example : getItor type1 (fun _ => 0) (allOf "--+--\n A | B\n--+--\n C | D\n--+--\nfoo") =
    .ok [rowTree ⟨0, 31⟩ [⟨6, 12⟩, ⟨19, 25⟩]] := by decide +kernel

/-- **C96 fails here.** Two tables with a line between them come out as one, and that line as a row of it. -/
theorem C96_merge_violated : getItor type1 (fun _ => 0) (allOf "--+--\n A | B\n--+--\nfoo\n--+--\n C | D\n--+--\n") =
    .ok [rowTree ⟨0, 41⟩ [⟨6, 12⟩, ⟨19, 22⟩, ⟨29, 35⟩]] := by decide +kernel

-- the hypotheses of `C96_complete` and `C96_one_table_violated`
example : Fits type1 ⟨none, "--+--".toList, none, [("A".toList, "--+--".toList)], none⟩ :=
  ⟨by simp, lang_of_out plain_type1.start (by decide +kernel), by simp, by simp,
    ⟨by simp, by intro r hr; simp only [List.mem_singleton] at hr; subst hr; exact lang_of_out plain_type1.sep (by decide +kernel)⟩, rfl⟩

example : type1.equi = false ∧ type1.postCaption = none ∧ type1.tableEnd = none := ⟨rfl, rfl, rfl⟩

/-- A style with captions. -/
def capStyle : Style :=
  { preCaption := some (.seq (.chr (· == 'T')) (many (.chr (· != '\n')))), tableStart := dashes, headerRowEnd := some dashes, rowSep := dashes,
    postCaption := some (.seq (.chr (· == 'N')) (many (.chr (· != '\n')))), equi := false }

theorem plain_cap : PlainStyle capStyle :=
  ⟨by intro p hp; simp only [capStyle, Option.some.injEq] at hp; subst hp; repeat constructor, by repeat constructor,
    by intro p hp; simp only [capStyle, Option.some.injEq] at hp; subst hp; repeat constructor, by repeat constructor,
    by simp [capStyle], by intro p hp; simp only [capStyle, Option.some.injEq] at hp; subst hp; repeat constructor⟩

-- all parts of a table
example : getItor capStyle (fun _ => 0) (allOf "T1\n--\nh\n--\na\n--\nb\n--\nN1\n") =
    .ok [.mk ⟨0, 23⟩ (some "table") none [.leaf ⟨0, 2⟩ (some "pre_caption"), .leaf ⟨6, 7⟩ (some "header_row"), .leaf ⟨11, 12⟩ (some "row"),
        .leaf ⟨16, 17⟩ (some "row"), .leaf ⟨21, 23⟩ (some "post_caption")]] := by
  decide +kernel

/-- **C96 fails here.** With captions, too: the captions between two tables are a row. -/
theorem C96_captions_violated : getItor capStyle (fun _ => 0) (allOf "T1\n--\na\n--\nN1\n\nT2\n--\nc\n--\nN2") =
    .ok [.mk ⟨0, 28⟩ (some "table") none [.leaf ⟨0, 2⟩ (some "pre_caption"), .leaf ⟨6, 7⟩ (some "header_row"),
        .leaf ⟨11, 17⟩ (some "row"), .leaf ⟨21, 22⟩ (some "row"), .leaf ⟨26, 28⟩ (some "post_caption")]] := by
  decide +kernel

/-! ### C97 -/

-- a table in an indented block
example : getItor type2 (fun _ => 0) (allOf "foo\n\n-----\n| A |\n|-|-|\n| B |\n-----\n") =
    .ok [rowTree ⟨5, 34⟩ [⟨11, 16⟩, ⟨23, 28⟩]] := by decide +kernel

example : getItor type2 (fun _ => 0) (allOf "foo bar\n  -----\n  | A |\n  -----\nbar") = .ok [rowTree ⟨10, 31⟩ [⟨18, 23⟩]] := by decide +kernel

/-- **C97 fails here.** A table is said to start in the middle of a line. -/
theorem C97_midline_violated : getItor type2 (fun _ => 0) (allOf "foo -----\n| A |\n-----") = .ok [rowTree ⟨4, 21⟩ [⟨10, 15⟩]] := by
  decide +kernel

/-- **C97 fails here.** A blank line and a line with another indentation are in one block with lines without indentation, and in a
row of a table. -/
theorem C97_blank_line_violated :
    chunks (fun _ => 0) (allOf "-----\n| A |\n\n   x\n-----") = .ok [.leaf ⟨0, 23⟩ (some "chunk")] ∧
    getItor type2 (fun _ => 0) (allOf "-----\n| A |\n\n   x\n-----") = .ok [rowTree ⟨0, 23⟩ [⟨6, 17⟩]] := by
  constructor <;> decide +kernel

-- two tables in a block; the second has one row, as `C97_one_table_violated` says, and the first is followed by a line with its indentation
example : tables type2 (fun _ => 0) (allOf "--\nAA\n--\n--\nB\n--") = .ok [rowTree ⟨0, 8⟩ [⟨3, 5⟩], rowTree ⟨9, 16⟩ [⟨12, 13⟩]] ∧
    nl [] <+: ("--\nAA\n--\n--\nB\n--".toList).drop 8 := by
  refine ⟨by decide +kernel, ⟨"--\nB\n--".toList, by decide⟩⟩

/-- **C97 fails here.** Two tables in a block come out as one. -/
theorem C97_merge_violated :
    getItor type2 (fun _ => 0) (allOf "--\nAA\n|-|\nBB\n--\nCC\n--\nDD\n|-|\nEE\n--") =
      .ok [rowTree ⟨0, 34⟩ [⟨3, 5⟩, ⟨10, 24⟩, ⟨29, 31⟩]] := by
  decide +kernel

/-- The table that stands in the text of the next theorem. -/
def lostTable : Parts := ⟨none, "-----".toList, none, [("| A |".toList, "-----".toList)], none⟩

theorem fits_lost : Fits type2 lostTable :=
  ⟨by simp [lostTable], lang_of_out plain_type2.start (by decide +kernel), by simp [lostTable], by simp [lostTable],
    ⟨[], "| A |".toList, "-----".toList, rfl, by simp, lang_of_out (plain_type2.stop _ rfl) (by decide +kernel)⟩, rfl⟩

/-- **C97 fails here.** A table with an indentation, after a blank line and a line without indentation, is not found at all: its first
line is taken into the block before it. -/
theorem C97_lost_violated :
    (∃ before after, "foo\n\n  -----\n  | A |\n  -----\n".toList = before ++ "  ".toList ++ textOf (lostTable.pieces "  ".toList) ++ after ∧
      AtLineStart before ∧ AtLineEnd after ∧ Fits type2 lostTable) ∧
    getItor type2 (fun _ => 0) (allOf "foo\n\n  -----\n  | A |\n  -----\n") = .ok [] ∧
    chunks (fun _ => 0) (allOf "foo\n\n  -----\n  | A |\n  -----\n") = .ok [.leaf ⟨0, 13⟩ (some "chunk"), .leaf ⟨13, 29⟩ (some "chunk")] := by
  refine ⟨⟨"foo\n\n".toList, "\n".toList, by decide +kernel, Or.inr ⟨"foo\n".toList, by decide⟩, Or.inr ⟨[], by decide⟩, fits_lost⟩, ?_, ?_⟩ <;>
    decide +kernel

-- the hypotheses of `C97_found_partial` and of `C97_lines_partial`
example : NoBlankLine "foo bar\n  -----\n  | A |\n  -----".toList ∧
    (∀ l ∈ ["  -----".toList, "  | A |".toList, "  -----".toList], IsLine "  ".toList l ∧ '\n' ∉ l) ∧
    "foo bar\n  -----\n  | A |\n  -----".toList = "foo bar\n".toList ++ "  ".toList ++ textOf (lostTable.pieces "  ".toList) ++ [] ∧
    "  ".toList ++ textOf (lostTable.pieces "  ".toList) ++ ['\n'] = joined ["  -----".toList, "  | A |".toList, "  -----".toList] := by
  refine ⟨?_, ?_, by decide +kernel, by decide +kernel⟩
  · intro a b c h ha
    -- a line break is at 7, 15 or 23, and a line starts at 0, 8, 16 or 24
    have hlen := congrArg List.length h
    have hget := congrArg (fun l => l[a.length + b.length]?) h
    simp only [List.append_assoc] at hget
    rw [← List.append_assoc, List.getElem?_append_right (by simp), List.length_append, Nat.sub_self] at hget
    have hb : ∀ k, k < b.length → b[k]? = "foo bar\n  -----\n  | A |\n  -----".toList[a.length + k]? := by
      intro k hk
      rw [h, List.append_assoc, List.getElem?_append_right (by omega), List.getElem?_append_left (by omega), Nat.add_sub_cancel_left]
    have hst : a.length = 0 ∨ "foo bar\n  -----\n  | A |\n  -----".toList[a.length - 1]? = some '\n' := by
      rcases ha with rfl | ⟨w, rfl⟩
      · exact Or.inl rfl
      · right
        rw [h]
        simp
    simp only [List.length_append, List.length_cons] at hlen
    have hL : "foo bar\n  -----\n  | A |\n  -----".toList.length = 31 := by decide
    have h1 : ∀ n, n < 31 → "foo bar\n  -----\n  | A |\n  -----".toList[n]? = some '\n' → n = 7 ∨ n = 15 ∨ n = 23 := by decide +kernel
    have n1 := h1 _ (by omega) hget
    have n2 : a.length = 0 ∨ a.length = 8 ∨ a.length = 16 ∨ a.length = 24 := by
      rcases hst with h0 | h0
      · exact Or.inl h0
      · have := h1 (a.length - 1) (by omega) h0
        omega
    have : ∀ k d, k < b.length → "foo bar\n  -----\n  | A |\n  -----".toList[a.length + k]? = some d → d ≠ ' ' → d ≠ '\t' →
        ∃ d ∈ b, d ≠ ' ' ∧ d ≠ '\t' := by
      intro k d hk hd h1 h2
      rw [← hb k hk] at hd
      exact ⟨d, List.mem_of_getElem? hd, h1, h2⟩
    rcases n2 with n2 | n2 | n2 | n2 <;> rw [n2] at this n1 hb
    · exact this 0 'f' (by omega) (by decide) (by decide) (by decide)
    · exact this 2 '-' (by omega) (by decide) (by decide) (by decide)
    · exact this 2 '|' (by omega) (by decide) (by decide) (by decide)
    · omega
  · intro l hl
    simp only [List.mem_cons, List.not_mem_nil, or_false] at hl
    rcases hl with rfl | rfl | rfl
    · exact ⟨⟨'-', "----".toList, by decide, by decide, by decide, by decide, by decide⟩, by decide⟩
    · exact ⟨⟨'|', " A |".toList, by decide, by decide, by decide, by decide, by decide⟩, by decide⟩
    · exact ⟨⟨'-', "----".toList, by decide, by decide, by decide, by decide, by decide⟩, by decide⟩

end Pawpaw.Props
