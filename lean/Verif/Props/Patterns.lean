import Verif.Lemmas.ReadTexts
import Verif.Lemmas.ReSame
/-!
# C116: the pattern texts of the library are the expressions the other theorems are about
-/
namespace Pawpaw
namespace Props
open ReSyntax Regex Patterns

/-- `is_canonical`'s pattern. -/
theorem C116_canonical (E : Env) (h : E.fold = none) : Denotes E false canonical Version.canonicalRe := by
  obtain ⟨dg, sp, wd, ls, tx, lo, da, fo⟩ := E
  dsimp only at h; subst h
  exact denotes_of read_canonical (same_of_flat rfl)

/-- `parse_re`, flags VERBOSE and IGNORECASE. -/
theorem C116_parse (F : Version.Fold) (dg wd : Char → Bool) :
    Denotes { digit := dg, space := Query.reSpace, word := wd, fold := some (F.letter, fun _ => F.alnum) } true parse
      (Version.parseRe F) :=
  denotes_of read_parse (same_of_flat rfl)

theorem C116_xmlns (E : Env) (h : E.fold = none) (hd : E.dotall = true) : Denotes E false xmlns XmlHelper.xmlnsRe := by
  obtain ⟨dg, sp, wd, ls, tx, lo, da, fo⟩ := E
  dsimp only at h hd; subst h hd
  exact denotes_of read_xmlns (same_of_flat rfl)

theorem nsC_eq : Xml.nsC = fun c => !(c == ' ' || c == ':') := by
  funext c; simp [Xml.nsC, bne]
theorem nmC_eq : Xml.nmC = fun c => !(c == ' ' || c == '/' || c == '>' || c == '=') := by
  funext c; simp [Xml.nmC, bne]

/-- The tag of an element. -/
theorem C116_xml_tag (E : Env) (h : E.fold = none) : Denotes E false xmlExtractTag Xml.tagRe := by
  obtain ⟨dg, sp, wd, ls, tx, lo, da, fo⟩ := E
  dsimp only at h; subst h
  refine denotes_of read_xmlExtractTag (same_of_flat ?_)
  simp only [Xml.tagRe, Xml.tagG, nsC_eq, nmC_eq]
  rfl

/-- The attributes of an element. -/
theorem C116_xml_attribute (E : Env) (h : E.fold = none) : Denotes E false xmlAttribute Xml.attrRe := by
  obtain ⟨dg, sp, wd, ls, tx, lo, da, fo⟩ := E
  dsimp only at h; subst h
  refine denotes_of read_xmlAttribute (same_of_flat ?_)
  simp only [Xml.attrRe, Xml.tagG, nsC_eq, nmC_eq]
  rfl

/-- Processing instructions and comments, flag DOTALL. -/
theorem C116_xml_text (E : Env) (h : E.fold = none) (hd : E.dotall = true) : Denotes E false xmlText Xml.textRe := by
  obtain ⟨dg, sp, wd, ls, tx, lo, da, fo⟩ := E
  dsimp only at h hd; subst h hd
  exact denotes_of read_xmlText (same_of_flat rfl)

/-- The chunks of `StyledTable`. -/
theorem C116_chunk (E : Env) (h : E.fold = none) : Denotes E false chunk (Table.chunkRe E.text E.lo) := by
  obtain ⟨dg, sp, wd, ls, tx, lo, da, fo⟩ := E
  dsimp only at h; subst h
  exact denotes_of read_chunk (same_of_flat rfl)

/-- The classes and lists of `nlp.py`. -/
def nlpEnv (K : NlpRe.Classes) (seps text : List Char) (lo : Nat) : Env :=
  { digit := K.digit, space := K.space, word := K.word, lists := lists seps, text := text, lo := lo }

theorem C116_word (K : NlpRe.Classes) (seps text : List Char) (lo : Nat) :
    Denotes (nlpEnv K seps text lo) false word (NlpRe.wordRe K) :=
  denotes_of read_word (same_of_flat rfl)

theorem C116_char (K : NlpRe.Classes) (seps text : List Char) (lo : Nat) :
    Denotes (nlpEnv K seps text lo) false char (NlpRe.charRe K) :=
  denotes_of read_char (same_of_flat rfl)

theorem upper_eq : NlpRe.upper = .chr fun c => decide (65 ≤ c.toNat) && decide (c.toNat ≤ 90) := by
  simp only [NlpRe.upper]
  congr 1; funext c
  rw [Bool.eq_iff_iff, Bool.and_eq_true, decide_eq_true_eq, decide_eq_true_eq, decide_eq_true_eq]
  exact Iff.rfl
theorem lower_eq : NlpRe.lower = .chr fun c => decide (97 ≤ c.toNat) && decide (c.toNat ≤ 122) := by
  simp only [NlpRe.lower]
  congr 1; funext c
  rw [Bool.eq_iff_iff, Bool.and_eq_true, decide_eq_true_eq, decide_eq_true_eq, decide_eq_true_eq]
  exact Iff.rfl
theorem marks_eq : NlpRe.oneOf ['!', '?'] = .chr fun c => c == '!' || c == '?' := by
  simp only [NlpRe.oneOf]
  congr 1; funext c
  simp [Bool.decide_or]; rfl

/-- Alternatives of which only one may hold are a class, as far as it matters whether there is a match. -/
theorem ahead_alt (a : Re) (p q : Char → Bool) :
    NlpRe.ahead (.seq a (.chr fun c => p c || q c)) = NlpRe.ahead (.seq a (.alt (.chr p) (.chr q))) := by
  simp only [NlpRe.ahead]
  congr 1; funext i rest
  congr 1
  rw [Bool.eq_iff_iff]
  simp only [out, List.isEmpty_iff, List.flatMap_eq_nil_iff, List.append_eq_nil_iff]
  refine forall_congr' fun st => forall_congr' fun _ => ?_
  cases st.rest with
  | nil => simp
  | cons c cs => cases p c <;> cases q c <;> simp

theorem exGov_eq (text : List Char) (lo : Nat) : NlpRe.exGov text lo =
    NlpRe.notBehind text lo (.seq (.chr (· == 'U')) (.seq (.chr (· == '.')) (.seq (.chr (· == 'S')) (.seq (.chr (· == '.'))
      (NlpRe.ahead (.seq NlpRe.ws (lit "Government".toList))))))) := by
  have : Same (.seq (lit "U.S.".toList) (NlpRe.ahead (.seq NlpRe.ws (lit "Government".toList))))
    (.seq (.chr (· == 'U')) (.seq (.chr (· == '.')) (.seq (.chr (· == 'S')) (.seq (.chr (· == '.'))
      (NlpRe.ahead (.seq NlpRe.ws (lit "Government".toList))))))) := same_of_flat rfl
  simp only [NlpRe.exGov, NlpRe.notBehind, NlpRe.endsHere, this.eq]

theorem C116_sentence (K : NlpRe.Classes) (seps text : List Char) (lo : Nat) :
    Denotes (nlpEnv K seps text lo) false sentence (NlpRe.sentRe K text lo) := by
  refine denotes_of read_sentence (same_of_flat ?_)
  simp only [NlpRe.sentRe, NlpRe.ruleCatch, NlpRe.exName, exGov_eq, NlpRe.terminator, marks_eq, upper_eq, lower_eq, ← ahead_alt]
  rfl

/-- The texts are not degenerate: `1.0` is found by the expression that the text of `canonical` is read as, and `1.` is not. -/
example : (let r := compile { digit := Char.isDigit, space := (· == ' '), word := Char.isAlphanum } false canonical
    ((r.map fun r => (out r ⟨0, "1.0".toList, []⟩).isEmpty), (r.map fun r => (out r ⟨0, "1.".toList, []⟩).isEmpty))) = (some false, some true) := by
  decide +kernel
/-- Environments with and without the flag DOTALL exist. -/
example : ∃ E : Env, E.fold = none ∧ E.dotall = true := ⟨{ digit := Char.isDigit, space := (· == ' '), word := Char.isAlphanum, dotall := true }, rfl, rfl⟩

end Props
end Pawpaw
