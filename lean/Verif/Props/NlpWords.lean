import Verif.Props.NlpCover
/-!
# C94: the words and the document of `SimpleNlp`
-/
set_option linter.unusedSectionVars false
set_option linter.unusedSimpArgs false
namespace Pawpaw.Props
open Pawpaw Pawpaw.Regex Pawpaw.NumberRe Pawpaw.NlpRe RegexSpec NumberSpec NlpSpec NlpTextSpec TreeSpec SpanSpec ArborSpec
open Pawpaw.Nlp Pawpaw.Heap Pawpaw.Pipeline HeapSpec

variable {K : Classes} {F : Fmt} {seps : List Char} {n : Nat} {seen : Nat → Nat}

/-! ### The language of words -/

/-- What may be between two word characters. -/
def Joint (K : Classes) (j : List Char) : Prop :=
  j = [] ∨ (∃ q ∈ quotes1, j = [q]) ∨ ∃ sp, j = '-' :: sp ∧ ∀ x ∈ sp, K.space x = true

def jointRe (K : Classes) : Re := opt (.alt (oneOf quotes1) (.seq (.chr (· == '-')) (many (.chr K.space))))

theorem lang_joint (u : List Char) : Lang (jointRe K) u ↔ Joint K u := by
  unfold jointRe Joint
  rw [lang_opt]
  show ((∃ c, decide (c ∈ quotes1) = true ∧ u = [c]) ∨ ∃ v w, u = v ++ w ∧ (∃ c, (c == '-') = true ∧ v = [c]) ∧
    Lang (many (.chr K.space)) w) ∨ u = [] ↔ _
  simp only [lang_many_chr]
  constructor
  · rintro ((⟨c, hc, rfl⟩ | ⟨_, w, rfl, ⟨c, hc, rfl⟩, hw⟩) | rfl)
    · exact Or.inr (Or.inl ⟨c, of_decide_eq_true hc, rfl⟩)
    · rw [eq_of_beq hc]
      exact Or.inr (Or.inr ⟨w, rfl, hw⟩)
    · exact Or.inl rfl
  · rintro (rfl | ⟨q, hq, rfl⟩ | ⟨sp, rfl, h⟩)
    · exact Or.inr rfl
    · exact Or.inl (Or.inl ⟨q, by simpa using hq, rfl⟩)
    · exact Or.inl (Or.inr ⟨['-'], sp, rfl, ⟨'-', rfl, rfl⟩, h⟩)

/-- One more word character. -/
def stepRe (K : Classes) : Re := .seq (jointRe K) (.chr K.word)

theorem lang_step (u : List Char) : Lang (stepRe K) u ↔ ∃ j c, u = j ++ [c] ∧ Joint K j ∧ K.word c = true := by
  show (∃ v w, u = v ++ w ∧ Lang (jointRe K) v ∧ ∃ c, K.word c = true ∧ w = [c]) ↔ _
  simp only [lang_joint]
  constructor
  · rintro ⟨v, _, rfl, h, c, hc, rfl⟩; exact ⟨v, c, rfl, h, hc⟩
  · rintro ⟨j, c, rfl, h, hc⟩; exact ⟨j, [c], rfl, h, c, hc, rfl⟩

theorem many_snoc {L : List Char → Prop} {u v : List Char} (h : Many L u) (hv : L v) : Many L (u ++ v) := by
  induction h with
  | nil => simpa using Many.cons hv .nil
  | cons h1 _ ih => rw [List.append_assoc]; exact .cons h1 ih

theorem lang_wordRe (u : List Char) : Lang (wordRe K) u ↔ IsWord K u := by
  show (∃ v w, u = v ++ w ∧ (∃ c, K.word c = true ∧ v = [c]) ∧ Many (Lang (stepRe K)) w) ↔ _
  constructor
  · rintro ⟨_, w, rfl, ⟨c, hc, rfl⟩, hw⟩
    have key : ∀ w, Many (Lang (stepRe K)) w → ∀ v, IsWord K v → IsWord K (v ++ w) := by
      intro w hw
      induction hw with
      | nil => intro v hv; simpa using hv
      | cons h1 _ ih =>
        intro v hv
        obtain ⟨j, d, rfl, hj, hd⟩ := (lang_step _).1 h1
        have := ih _ (.more hv hj hd)
        simpa using this
    exact key w hw [c] (.one hc)
  · intro h
    induction h with
    | one hc => exact ⟨[_], [], rfl, ⟨_, hc, rfl⟩, .nil⟩
    | @more v j d _ hj hd ih =>
      obtain ⟨x, w, rfl, hx, hw⟩ := ih
      refine ⟨x, w ++ (j ++ [d]), by simp, hx, many_snoc hw ((lang_step _).2 ⟨j, d, rfl, hj, hd⟩)⟩

/-! ### The first way of matching is the longest -/

theorem spaces_then_word (hU : Unicode K seps) : ∀ (m : Nat) (st : St),
    ((iter true (out (.chr K.space)) m st).flatMap (out (.chr K.word))).length ≤ 1
  | 0, st => by
    rw [iter, List.flatMap_singleton]
    exact det_chr _ st
  | m + 1, st => by
    rw [iter]
    simp only [if_true]
    rw [List.flatMap_append, List.flatMap_singleton]
    cases hr : st.rest with
    | nil =>
      have : out (.chr K.space) st = [] := by rw [out, hr]
      rw [this]
      simpa using det_chr _ st
    | cons c cs =>
      by_cases hc : K.space c = true
      · have e1 : out (.chr K.space) st = [⟨st.pos + 1, cs, st.caps⟩] := by rw [out, hr]; simp [hc]
        have e2 : out (.chr K.word) st = [] := by rw [out, hr]; simp [hU.space c hc]
        rw [e1, e2, List.flatMap_singleton, if_pos (Nat.lt_succ_self _), List.append_nil]
        exact spaces_then_word hU m _
      · have e1 : out (.chr K.space) st = [] := by rw [out, hr]; simp [hc]
        rw [e1]
        simpa using det_chr _ st

theorem det_step (hU : Unicode K seps) : Det (stepRe K) := by
  intro st
  unfold stepRe jointRe opt
  rw [out, out, List.flatMap_append]
  have heps : out .eps st = [st] := by rw [out]
  have halt : out (.alt (oneOf quotes1) (.seq (.chr (· == '-')) (many (.chr K.space)))) st =
      out (oneOf quotes1) st ++ out (.seq (.chr (· == '-')) (many (.chr K.space))) st :=
    out.eq_4 st _ _
  rw [heps, List.flatMap_singleton, halt, List.flatMap_append]
  cases hr : st.rest with
  | nil =>
    have e1 : out (oneOf quotes1) st = [] := by unfold oneOf; rw [out, hr]
    have e2 : out (.seq (.chr (· == '-')) (many (.chr K.space))) st = [] := by rw [out, out, hr]; rfl
    rw [e1, e2]
    simpa using det_chr _ st
  | cons c cs =>
    by_cases hw : K.word c = true
    · have hq : c ∉ '-' :: quotes1 := fun h => by have := (hU.joints c h).1; rw [hw] at this; cases this
      simp at hq
      have e1 : out (oneOf quotes1) st = [] := by unfold oneOf; rw [out, hr]; simp [hq]
      have e2 : out (.seq (.chr (· == '-')) (many (.chr K.space))) st = [] := by rw [out, out, hr]; simp [hq]
      rw [e1, e2]
      simpa using det_chr _ st
    · have e3 : out (.chr K.word) st = [] := by rw [out, hr]; simp [hw]
      rw [e3, List.append_nil]
      by_cases hq : c ∈ quotes1
      · have hd : ¬ c = '-' := by rintro rfl; revert hq; decide
        have e1 : out (oneOf quotes1) st = [⟨st.pos + 1, cs, st.caps⟩] := by unfold oneOf; rw [out, hr]; simp [hq]
        have e2 : out (.seq (.chr (· == '-')) (many (.chr K.space))) st = [] := by rw [out, out, hr]; simp [hd]
        rw [e1, e2]
        simpa using det_chr _ _
      · have e1 : out (oneOf quotes1) st = [] := by unfold oneOf; rw [out, hr]; simp [hq]
        rw [e1]
        simp only [List.flatMap_nil, List.nil_append]
        by_cases hd : c = '-'
        · have e2 : out (.seq (.chr (· == '-')) (many (.chr K.space))) st =
              iter true (out (.chr K.space)) cs.length ⟨st.pos + 1, cs, st.caps⟩ := by
            rw [out, out, hr]; simp [hd]; rw [many, out]
          rw [e2]
          exact spaces_then_word hU _ _
        · have e2 : out (.seq (.chr (· == '-')) (many (.chr K.space))) st = [] := by rw [out, out, hr]; simp [hd]
          rw [e2]
          simp

theorem best_word (hU : Unicode K seps) : Best (wordRe K) :=
  best_grp (best_chr_seq (b := many (stepRe K)) ⟨⟨⟨trivial, trivial, trivial⟩, trivial⟩, trivial⟩ (best_star (det_step hU)))

/-! ### The nodes of the document -/

theorem mem_preorderAll {e : Span × Option String} : ∀ {ks : List Node}, e ∈ preorderAll ks ↔ ∃ k ∈ ks, e ∈ preorder k
  | [] => by simp [preorderAll]
  | k :: ks => by
    rw [preorderAll, List.mem_append, mem_preorderAll]
    simp

theorem mem_preorder_mk {e : Span × Option String} {s : Span} {d : Option String} {v : Option Nat} {ks : List Node} :
    e ∈ preorder (.mk s d v ks) ↔ e = (s, d) ∨ ∃ k ∈ ks, e ∈ preorder k := by
  rw [preorder, List.mem_cons, mem_preorderAll]

/-- The nodes of the document are: the document, paragraphs, sentences, and what is in the tokens. -/
theorem mem_document {p : Patterns} {s : String} {nums : Span → List Node} {e : Span × Option String} :
    e ∈ preorder (document p s nums) ↔ e = (⟨0, s.length⟩, some "Document") ∨
      (∃ q ∈ chunks ⟨0, s.length⟩ (p.para s ⟨0, s.length⟩), e = (q, some "paragraph")) ∨
      (∃ c, IsSentence p s c ∧ (e = (c, some "sentence") ∨ ∃ t ∈ tokens p s c.start c.stop (nums c), e ∈ preorder t)) := by
  unfold document
  rw [mem_preorder_mk]
  constructor
  · rintro (h | ⟨k, hk, h⟩)
    · exact Or.inl h
    · obtain ⟨q, hq, rfl⟩ := List.mem_map.1 hk
      unfold paragraph at h
      rw [mem_preorder_mk] at h
      rcases h with h | ⟨k, hk, h⟩
      · exact Or.inr (Or.inl ⟨q, hq, h⟩)
      · obtain ⟨c, hc, rfl⟩ := List.mem_map.1 hk
        unfold sentence at h
        rw [mem_preorder_mk] at h
        exact Or.inr (Or.inr ⟨c, ⟨q, hq, hc⟩, h⟩)
  · rintro (h | ⟨q, hq, h⟩ | ⟨c, ⟨q, hq, hc⟩, h⟩)
    · exact Or.inl h
    · refine Or.inr ⟨_, List.mem_map_of_mem hq, ?_⟩
      unfold paragraph
      rw [mem_preorder_mk]
      exact Or.inl h
    · refine Or.inr ⟨_, List.mem_map_of_mem hq, ?_⟩
      unfold paragraph
      rw [mem_preorder_mk]
      refine Or.inr ⟨_, List.mem_map_of_mem hc, ?_⟩
      unfold sentence
      rw [mem_preorder_mk]
      exact h

theorem mem_tokens {p : Patterns} {s : String} {t : Node} : ∀ {ns : List Node} {a b : Int}, t ∈ tokens p s a b ns →
    t ∈ ns ∨ ∃ sp, t ∈ words p s sp
  | [], _, _, h => Or.inr ⟨_, h⟩
  | m :: ms, a, b, h => by
    rw [tokens] at h
    rcases List.mem_append.1 h with h | h
    · exact Or.inr ⟨_, h⟩
    · rcases List.mem_cons.1 h with h | h
      · exact Or.inl (by simp [h])
      · exact (mem_tokens h).imp (fun h => by simp [h]) id

/-- Where a node is. -/
def At (e : Span × Option String) (k : Nat) : Prop := e.1.start ≤ k ∧ (k : Int) < e.1.stop

/-- **C94**: `SimpleNlp().from_text` succeeds on every text and gives a document tree in which every character but
separators and white space is in a sentence, every word character is in a word or a number, every word is a word and
every number a number. -/
theorem C94_from_text (K : Classes) (F : Fmt) (seps : List Char) (n : Nat) (seen : Nat → Nat) (hU : Unicode K seps)
    {h : Heap} (hok : OK h) (hac : Acyclic h) (s : String) (m : Nat) (hm : 4 ≤ m) :
    ∃ h' doc, fromText (patterns K F seps n seen) false m h s = (h', .ok h.next) ∧ Made s h h' [h.next] [doc] ∧
      (∀ k c, s.toList[k]? = some c → Ink seps c → ∃ e ∈ preorder doc, e.2 = some "sentence" ∧ At e k) ∧
      (∀ k c, s.toList[k]? = some c → K.word c = true →
        ∃ e ∈ preorder doc, (e.2 = some "word" ∨ e.2 = some "number") ∧ At e k) ∧
      (∀ e ∈ preorder doc, e.2 = some "word" → IsWord K (part s e.1)) ∧
      (∀ e ∈ preorder doc, e.2 = some "number" → IsNumber F (part s e.1)) := by
  have law := patterns_lawful K F seps n seen
  obtain ⟨h', nums, e1, e2, e3⟩ := C76_from_text law hok hac s m hm
  -- what is in the numbers
  have hnum : ∀ c, IsSentence (patterns K F seps n seen) s c → ∀ t ∈ nums c, ∃ f ∈ finds (numRe F) s c, t.span = whole f ∧
      t.desc = some "number" ∧ ∀ e ∈ preorder t, e = (whole f, some "number") ∨ e.2 ∈ [some "sign", some "integer", some "decimal", some "exponent"] := by
    intro c hc t ht
    obtain ⟨mm, hmm, T⟩ := pairs_mem (e2 c hc) t ht
    obtain ⟨f, hf, rfl⟩ := List.mem_map.1 hmm
    refine ⟨f, hf, T.span, T.desc, fun e he => ?_⟩
    rcases List.mem_cons.1 (T.perm.mem_iff.1 he) with h | h
    · exact Or.inl h
    · obtain ⟨g, hg, h⟩ := List.mem_flatMap.1 h
      obtain ⟨x, _, rfl⟩ := List.mem_map.1 h
      obtain ⟨name, hname, rfl⟩ := List.mem_map.1 hg
      right
      simp only [List.mem_cons, List.not_mem_nil, or_false] at hname ⊢
      rcases hname with rfl | rfl | rfl | rfl <;> simp
  have hins : ∀ c, IsSentence (patterns K F seps n seen) s c → 0 ≤ c.start ∧ c.start ≤ c.stop ∧ c.stop ≤ s.length := by
    rintro c ⟨q, hq, hc⟩
    have a := chunks_inside (sp := ⟨0, s.length⟩) (law.para s 0 s.length (Int.le_refl _) (by omega) (Int.le_refl _)) hq
    have b := chunks_inside (law.sent s q.start q.stop a.1 a.2.1 a.2.2) hc
    dsimp only at a
    omega
  have head : ∀ t : Node, (t.span, t.desc) ∈ preorder t := by
    rintro ⟨sp, d, v, ks⟩
    rw [preorder]
    exact List.mem_cons_self ..
  refine ⟨h', _, e1, e3, ?_, ?_, ?_, ?_⟩
  · intro k c hc hi
    obtain ⟨sp, hsp, h1, h2⟩ := ink_in_sentence (K := K) (F := F) (n := n) (seen := seen) hc hi
    exact ⟨(sp, some "sentence"), mem_document.2 (Or.inr (Or.inr ⟨sp, hsp, Or.inl rfl⟩)), rfl, h1, h2⟩
  · intro k c hc hw
    have hi : Ink seps c := by
      refine ⟨fun h => ?_, fun h => ?_, fun h => ?_⟩
      · have := hU.seps c h; rw [hw] at this; cases this
      · have := hU.blanks c (by simp [h]); rw [hw] at this; cases this
      · have := hU.blanks c (by simp [h]); rw [hw] at this; cases this
    obtain ⟨sp, hsp, h1, h2⟩ := ink_in_sentence (K := K) (F := F) (n := n) (seen := seen) hc hi
    have hb := hins sp hsp
    have ho : OrderedIn sp.start sp.stop ((nums sp).map Node.span) := by
      rw [pairs_spans (e2 sp hsp)]
      exact law.num s sp.start sp.stop hb.1 hb.2.1 hb.2.2
    obtain ⟨t, ht, h3, h4, h5⟩ := token_cover (F := F) (seps := seps) (n := n) (seen := seen) hc hw _ _ _ ho hb.1 h1 h2
    refine ⟨(t.span, t.desc), mem_document.2 (Or.inr (Or.inr ⟨sp, hsp, Or.inr ⟨t, ht, head t⟩⟩)), ?_, h4, h5⟩
    rcases h3 with h3 | h3
    · obtain ⟨_, _, _, h, _⟩ := hnum sp hsp t h3
      exact Or.inr h
    · exact Or.inl h3
  · intro e he hd
    rcases mem_document.1 he with rfl | ⟨q, _, rfl⟩ | ⟨c, hc, rfl | ⟨t, ht, h⟩⟩
    · simp at hd
    · simp at hd
    · simp at hd
    · rcases mem_tokens ht with ht | ⟨sp, ht⟩
      · obtain ⟨f, _, _, _, h'⟩ := hnum c hc t ht
        rcases h' e h with rfl | h'
        · simp at hd
        · rw [hd] at h'; simp at h'
      · obtain ⟨w, hw, rfl⟩ := List.mem_map.1 ht
        obtain ⟨f, hf, rfl⟩ := List.mem_map.1 hw
        have : e = (whole f, some "word") := by simpa [preorder, preorderAll] using h
        rw [this]
        exact (lang_wordRe _).1 (found_text hf (free_word K))
  · intro e he hd
    rcases mem_document.1 he with rfl | ⟨q, _, rfl⟩ | ⟨c, hc, rfl | ⟨t, ht, h⟩⟩
    · simp at hd
    · simp at hd
    · simp at hd
    · rcases mem_tokens ht with ht | ⟨sp, ht⟩
      · obtain ⟨f, hf, _, _, h'⟩ := hnum c hc t ht
        rcases h' e h with rfl | h'
        · exact (lang_numRe _).1 (found_text hf free_numRe)
        · rw [hd] at h'; simp at h'
      · obtain ⟨w, hw, rfl⟩ := List.mem_map.1 ht
        have : e = (w, some "word") := by simpa [preorder, preorderAll] using h
        rw [this] at hd
        simp at hd

/-- **C94**: a word is the longest word that starts where it does, in the part searched (that between two numbers). -/
theorem C94_longest (K : Classes) (F : Fmt) (seps : List Char) (n : Nat) (seen : Nat → Nat) (hU : Unicode K seps) (s : String)
    (sp w : Span) (hw : w ∈ (patterns K F seps n seen).word s sp) (v x : List Char) (hv : IsWord K v)
    (ht : part s ⟨w.start, sp.stop⟩ = v ++ x) : w.start + v.length ≤ w.stop := by
  obtain ⟨f, hf, rfl⟩ := List.mem_map.1 hw
  obtain ⟨pre, suf, st, e1, e2, e3, e4, _, e6⟩ := finditer_at hf
  have hsuf : suf = v ++ x := by
    rw [← ht]
    unfold part whole
    unfold part at e1
    dsimp only
    rw [Int.toNat_natCast, e2, ← List.drop_drop, e1, List.drop_left' rfl]
  subst hsuf
  obtain ⟨c, hc⟩ := out_complete (wordRe K) ⟨f.start, v ++ x, []⟩ v x rfl ((lang_wordRe v).2 hv)
  have := best_found (best_word hU) e3 e6 hc
  simp only at this
  unfold whole
  dsimp only
  omega

/-! ### The hypotheses are met -/

/-- ASCII letters, digits and underscore; the usual white space. -/
def ascii : Classes where
  word c := decide (('a' ≤ c ∧ c ≤ 'z') ∨ ('A' ≤ c ∧ c ≤ 'Z') ∨ ('0' ≤ c ∧ c ≤ '9') ∨ c = '_')
  digit c := decide ('0' ≤ c ∧ c ≤ '9')
  space c := decide (c = ' ' ∨ c = '\n' ∨ c = '\t')

example : Unicode ascii eols where
  seps := by decide
  blanks := by decide
  joints := by decide
  space := by
    intro c hc
    simp only [ascii, decide_eq_true_eq] at hc
    rcases hc with rfl | rfl | rfl <;> decide

def demo : Patterns := patterns ascii enFmt eols 2 (fun _ => 0)

example : demo.para "Hi.\n \nIt's a well-\nknown 5." ⟨0, 29⟩ = [⟨3, 6⟩] := by decide +kernel
example : demo.word "It's a well-\nknown 5." ⟨0, 22⟩ = [⟨0, 4⟩, ⟨5, 6⟩, ⟨7, 18⟩, ⟨19, 20⟩] := by decide +kernel
example : demo.sent "Hi Mr. Foo. It is. 5 or so? Yes." ⟨0, 32⟩ = [⟨11, 12⟩, ⟨18, 19⟩, ⟨27, 28⟩, ⟨32, 32⟩] := by decide +kernel

end Pawpaw.Props
