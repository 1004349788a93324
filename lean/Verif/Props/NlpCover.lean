import Verif.Props.NlpPatterns
import Verif.Spec.NlpText
/-!
# C94: what `SimpleNlp` finds in a text
-/
set_option linter.unusedSectionVars false
set_option linter.unusedSimpArgs false
namespace Pawpaw.Props
open Pawpaw Pawpaw.Regex Pawpaw.NumberRe Pawpaw.NlpRe RegexSpec NumberSpec NlpSpec NlpTextSpec TreeSpec SpanSpec ArborSpec
open Pawpaw.Nlp Pawpaw.Heap Pawpaw.Pipeline

/-! ### Characters consumed by matches -/

theorem part_get {s : String} {sp : Span} {j : Nat} {c : Char} (h : (part s sp)[j]? = some c) :
    s.toList[sp.start.toNat + j]? = some c := by
  unfold part at h
  rw [List.getElem?_drop, List.getElem?_take] at h
  split at h
  · exact h
  · cases h

/-- The text of a match. -/
theorem found_part {r : Re} {s : String} {sp : Span} {f : Found} (hf : f ∈ finds r s sp) :
    ∃ pre u w st, part s sp = pre ++ u ++ w ∧ f.start = sp.start.toNat + pre.length ∧ f.stop = f.start + u.length ∧
      st ∈ out r ⟨f.start, u ++ w, []⟩ ∧ st.rest = w := by
  obtain ⟨pre, suf, st, e1, e2, e3, e4, _⟩ := finditer_at hf
  obtain ⟨u, h1, h2⟩ := out_reads _ _ st e3
  simp only at h1 h2
  exact ⟨pre, u, st.rest, st, by rw [e1, h1, List.append_assoc], e2, by omega, by rw [← h1]; exact e3, rfl⟩

theorem finds_only {P : Char → Prop} {r : Re} (hr : Only P r) {s : String} {sp : Span} {f : Found} (hf : f ∈ finds r s sp)
    {k : Nat} {c : Char} (h1 : f.start ≤ k) (h2 : k < f.stop) (hc : s.toList[k]? = some c) : P c := by
  obtain ⟨pre, u, w, st, e1, e2, e3, e4, e5⟩ := found_part hf
  obtain ⟨v, ⟨k1, k2⟩, k3⟩ := out_only r hr _ st e4
  simp only at k1 k2
  rw [e5] at k1
  have huv : u = v := List.append_cancel_right k1
  subst huv
  have hk : k - f.start < u.length := by omega
  have : (part s sp)[pre.length + (k - f.start)]? = some u[k - f.start] := by
    rw [e1, List.append_assoc, List.getElem?_append_right (by omega), Nat.add_sub_cancel_left,
      List.getElem?_append_left hk, List.getElem?_eq_getElem hk]
  have := part_get this
  rw [show sp.start.toNat + (pre.length + (k - f.start)) = k by omega, hc] at this
  cases this
  exact k3 _ (List.getElem_mem hk)

theorem found_text {r : Re} {s : String} {sp : Span} {f : Found} (hf : f ∈ finds r s sp) (hr : Free r) :
    Lang r (part s (whole f)) := by
  obtain ⟨pre, u, w, st, e1, e2, e3, e4, e5⟩ := found_part hf
  obtain ⟨v, ⟨k1, k2⟩, k3⟩ := out_sound r hr _ st e4
  simp only at k1 k2
  rw [e5] at k1
  have huv : u = v := List.append_cancel_right k1
  subst huv
  have hlen := congrArg List.length e1
  unfold part at e1 hlen
  rw [List.length_append, List.length_append, List.length_drop, List.length_take] at hlen
  have : part s (whole f) = u := by
    unfold part whole
    simp only [Int.toNat_natCast]
    by_cases hu : u = []
    · subst hu
      rw [List.drop_take, e3]
      simp
    · have hu := List.length_pos_iff.2 hu
      rw [show s.toList.take f.stop = (s.toList.take sp.stop.toNat).take f.stop by
        rw [List.take_take, Nat.min_eq_left (by omega)], List.drop_take, e2, ← List.drop_drop, e1, List.append_assoc,
        List.drop_left' rfl, e3, e2, Nat.add_sub_cancel_left, List.take_left' rfl]
  rw [this]
  exact k3

/-- Where the pattern can match inside the searched part, a match starts there or covers that place. -/
theorem finds_covers {r : Re} {s : String} {a b : Int} (h0 : 0 ≤ a) (k : Nat) (h1 : a ≤ k) (h2 : (k : Int) < b) (c : Char)
    (hc : s.toList[k]? = some c) (h : ∀ w, out r ⟨k, c :: w, []⟩ ≠ []) :
    ∃ f ∈ finds r s ⟨a, b⟩, f.start = k ∨ (f.start < k ∧ k < f.stop) := by
  have hk : k < s.toList.length := by
    rcases Nat.lt_or_ge k s.toList.length with h | h
    · exact h
    · rw [List.getElem?_eq_none h] at hc; cases hc
  have hsplit : part s ⟨a, b⟩ = (s.toList.drop a.toNat).take (k - a.toNat) ++
      (c :: (s.toList.drop (k + 1)).take (b.toNat - (k + 1))) := by
    unfold part
    dsimp only
    rw [List.drop_take, show b.toNat - a.toNat = (k - a.toNat) + (b.toNat - k) by omega, List.take_add]
    congr 1
    rw [List.drop_drop, show a.toNat + (k - a.toNat) = k by omega, List.drop_eq_getElem_cons hk,
      show b.toNat - k = b.toNat - (k + 1) + 1 by omega, List.take_succ_cons]
    congr 1
    rw [List.getElem?_eq_getElem hk] at hc
    exact Option.some.inj hc
  have hl : ((s.toList.drop a.toNat).take (k - a.toNat)).length = k - a.toNat := by
    rw [List.length_take, List.length_drop]; omega
  have hkk : a.toNat + ((s.toList.drop a.toNat).take (k - a.toNat)).length = k := by omega
  obtain ⟨f, hf, hf'⟩ := finditer_covers (r := r) (i := a.toNat)
    (suf := c :: (s.toList.drop (k + 1)).take (b.toNat - (k + 1))) (by rw [hkk]; exact h _)
  rw [← hsplit] at hf
  rw [hkk] at hf'
  exact ⟨f, hf, hf'⟩

/-! ### Chunks -/

theorem between_cover : ∀ (seps : List Span) (a b k : Int), OrderedIn a b seps → a ≤ k → k < b →
    (∀ m ∈ seps, ¬ (m.start ≤ k ∧ k < m.stop)) → ∃ c ∈ between a b seps, c.start ≤ k ∧ k < c.stop
  | [], a, b, k, _, h1, h2, _ => ⟨⟨a, b⟩, by simp [between], h1, h2⟩
  | m :: ms, a, b, k, ho, h1, h2, hn => by
    by_cases hk : k < m.start
    · exact ⟨⟨a, m.start⟩, by simp [between], h1, hk⟩
    · have := hn m (by simp)
      have := ho.2.1
      obtain ⟨c, hc, h⟩ := between_cover ms m.stop b k ho.2.2 (by omega) h2 (fun x hx => hn x (by simp [hx]))
      exact ⟨c, by simp [between, hc], h⟩

theorem chunks_cover {sp : Span} {seps : List Span} {k : Int} (ho : OrderedIn sp.start sp.stop seps) (h1 : sp.start ≤ k)
    (h2 : k < sp.stop) (hn : ∀ m ∈ seps, ¬ (m.start ≤ k ∧ k < m.stop)) : ∃ c ∈ chunks sp seps, c.start ≤ k ∧ k < c.stop := by
  unfold chunks
  split
  · exact ⟨sp, by simp, h1, h2⟩
  · obtain ⟨c, hc, h⟩ := between_cover seps _ _ k ho h1 h2 hn
    refine ⟨c, ?_, h⟩
    unfold nonEmpty
    rw [List.mem_filter]
    exact ⟨hc, by simp; omega⟩

/-! ### The separators are white space -/

theorem only_atLeast {P : Char → Prop} {a : Re} (h : Only P a) : ∀ n, Only P (atLeast n a)
  | 0 => h
  | n + 1 => ⟨h, only_atLeast h n⟩

theorem only_oneOf {P : Char → Prop} {l : List Char} (h : ∀ c ∈ l, P c) : Only P (oneOf l) :=
  fun c hc => h c (of_decide_eq_true hc)

theorem only_para (seps : List Char) (n : Nat) : Only (fun c => c ∈ seps ∨ c ∈ blanks) (paraRe seps n) :=
  only_atLeast (a := .seq (many (oneOf blanks)) (oneOf seps))
    ⟨only_oneOf (l := blanks) fun _ => Or.inr, only_oneOf fun _ => Or.inl⟩ n

theorem only_ws : Only (fun c => c = '\n' ∨ c ∈ blanks) ws := by
  refine ⟨⟨?_, ?_⟩, only_oneOf ?_⟩
  · intro c hc
    rw [eq_of_beq hc]
    exact Or.inr (by simp [blanks])
  · intro c hc
    rw [eq_of_beq hc]
    exact Or.inl rfl
  · intro c hc
    exact List.mem_cons.1 hc

theorem only_sent (K : Classes) (text : List Char) (lo : Nat) : Only (fun c => c = '\n' ∨ c ∈ blanks) (sentRe K text lo) :=
  ⟨trivial, ⟨only_ws, trivial⟩, only_atLeast only_ws 2, ⟨only_ws, trivial⟩, trivial, trivial, trivial, trivial, only_ws, trivial⟩

/-! ### Sentences -/

variable {K : Classes} {F : Fmt} {seps : List Char} {n : Nat} {seen : Nat → Nat}

theorem get_lt {s : String} {k : Nat} {c : Char} (h : s.toList[k]? = some c) : k < s.length := by
  rcases Nat.lt_or_ge k s.toList.length with h' | h'
  · rwa [String.length_toList] at h'
  · rw [List.getElem?_eq_none h'] at h; cases h

/-- Every character that is not white space is in a sentence. -/
theorem ink_in_sentence {s : String} {k : Nat} {c : Char} (hc : s.toList[k]? = some c) (hi : Ink seps c) :
    ∃ sp, IsSentence (patterns K F seps n seen) s sp ∧ sp.start ≤ k ∧ (k : Int) < sp.stop := by
  have law := patterns_lawful K F seps n seen
  have hk := get_lt hc
  have ho := law.para s 0 s.length (Int.le_refl _) (by omega) (Int.le_refl _)
  obtain ⟨q, hq, q1, q2⟩ := chunks_cover (sp := ⟨0, s.length⟩) (k := k) ho (by dsimp only; omega) (by dsimp only; omega) (by
    intro m hm
    obtain ⟨f, hf, rfl⟩ := List.mem_map.1 hm
    rintro ⟨h1, h2⟩
    unfold whole at h1 h2
    dsimp only at h1 h2
    rcases finds_only (only_para seps n) hf (by omega) (by omega) hc with h | h
    · exact hi.1 h
    · exact hi.2.1 h)
  have hb := chunks_inside (sp := ⟨0, s.length⟩) ho hq
  dsimp only at hb
  have ho2 := law.sent s q.start q.stop hb.1 hb.2.1 hb.2.2
  obtain ⟨c', hc', r1, r2⟩ := chunks_cover (sp := q) (k := k) ho2 q1 q2 (by
    intro m hm
    obtain ⟨f, hf, rfl⟩ := List.mem_map.1 hm
    rintro ⟨h1, h2⟩
    unfold whole at h1 h2
    dsimp only at h1 h2
    rcases finds_only (only_sent K _ _) hf (by omega) (by omega) hc with h | h
    · exact hi.2.2 h
    · exact hi.2.1 h)
  exact ⟨c', ⟨q, hq, hc'⟩, r1, r2⟩

/-! ### Words -/

theorem word_matches {c : Char} (hc : K.word c = true) (k : Nat) (w : List Char) : out (wordRe K) ⟨k, c :: w, []⟩ ≠ [] := by
  obtain ⟨d, hd⟩ := out_complete (wordRe K) ⟨k, c :: w, []⟩ [c] w rfl ⟨[c], [], rfl, ⟨c, hc, rfl⟩, .nil⟩
  exact List.ne_nil_of_mem hd

theorem word_in_words {s : String} {a b : Int} (h0 : 0 ≤ a) {k : Nat} (h1 : a ≤ k) (h2 : (k : Int) < b) {c : Char}
    (hc : s.toList[k]? = some c) (hw : K.word c = true) :
    ∃ w ∈ words (patterns K F seps n seen) s ⟨a, b⟩, w.start ≤ k ∧ (k : Int) < w.stop := by
  obtain ⟨f, hf, h⟩ := finds_covers (r := wordRe K) h0 k h1 h2 c hc (word_matches hw k)
  have hne := (patterns_lawful K F seps n seen).wordNE s ⟨a, b⟩ (whole f) (List.mem_map_of_mem hf)
  unfold whole at hne
  dsimp only at hne
  refine ⟨.mk (whole f) (some "word") none [], List.mem_map_of_mem (List.mem_map_of_mem hf), ?_⟩
  show (f.start : Int) ≤ k ∧ (k : Int) < f.stop
  omega

theorem token_cover {s : String} {k : Nat} {c : Char} (hc : s.toList[k]? = some c) (hw : K.word c = true) :
    ∀ (ns : List Node) (a b : Int), OrderedIn a b (ns.map Node.span) → 0 ≤ a → a ≤ k → (k : Int) < b →
    ∃ t ∈ tokens (patterns K F seps n seen) s a b ns, (t ∈ ns ∨ t.desc = some "word") ∧ t.start ≤ k ∧ (k : Int) < t.stop
  | [], a, b, _, h0, h1, h2 => by
    obtain ⟨w, hw', h⟩ := word_in_words (F := F) (seps := seps) (n := n) (seen := seen) h0 h1 h2 hc hw
    refine ⟨w, hw', Or.inr ?_, h⟩
    obtain ⟨_, _, rfl⟩ := List.mem_map.1 hw'
    rfl
  | m :: ms, a, b, ho, h0, h1, h2 => by
    by_cases k1 : (k : Int) < m.start
    · obtain ⟨w, hw', h⟩ := word_in_words (F := F) (seps := seps) (n := n) (seen := seen) h0 h1 k1 hc hw
      refine ⟨w, by rw [tokens]; simp [hw'], Or.inr ?_, h⟩
      obtain ⟨_, _, rfl⟩ := List.mem_map.1 hw'
      rfl
    · by_cases k2 : (k : Int) < m.stop
      · exact ⟨m, by rw [tokens]; simp, Or.inl (by simp), by omega, k2⟩
      · have e1 : a ≤ m.start := ho.1
        have e2 : m.start ≤ m.stop := ho.2.1
        obtain ⟨t, ht, h3, h4⟩ := token_cover hc hw ms m.stop b ho.2.2 (by omega) (by omega) h2
        exact ⟨t, by rw [tokens]; simp [ht], h3.imp (fun h => by simp [h]) id, h4⟩

end Pawpaw.Props
