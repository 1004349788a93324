import Verif.Spec.XmlFeed
import Verif.Model.XmlFeed
import Verif.Props.Xml
import Verif.Props.XmlTree
import Verif.Props.XmlDoc
/-!
# C122: a document read from a file is a document read from a string
-/
set_option linter.unusedSectionVars false
namespace Pawpaw.Props
open Pawpaw Xml XmlSpec

/-- An event with its position as a number of Python. -/
def posInt (x : Bool × Nat) : Bool × Int := (x.1, x.2)

mutual
theorem build_events : ∀ (e : XElem) (p : Nat) (a : Int) (ks : List Elem) (st : List (Int × List Elem)) (rest : List (Bool × Int)),
    build ((a, ks) :: st) ((eventsAt p e).map posInt ++ rest) = build ((a, elemAt p e :: ks) :: st) rest
  | .empty tag, p, a, ks, st, rest => by
    rw [eventsAt, elemAt]
    simp only [List.map_cons, List.map_nil, List.cons_append, List.nil_append, posInt, build, List.reverse_nil]
  | .node o t k c, p, a, ks, st, rest => by
    rw [eventsAt, elemAt]
    simp only [List.map_cons, List.map_append, List.cons_append, List.append_assoc, List.map_nil, List.nil_append]
    rw [show posInt (true, p) = (true, (p : Int)) from rfl, build, build_eventsK k]
    simp only [posInt, build, List.append_nil, List.reverse_reverse]
theorem build_eventsK : ∀ (k : XKids) (p : Nat) (a : Int) (ks : List Elem) (st : List (Int × List Elem)) (rest : List (Bool × Int)),
    build ((a, ks) :: st) ((eventsK p k).map posInt ++ rest) = build ((a, (elemsAt p k).reverse ++ ks) :: st) rest
  | .nil, p, a, ks, st, rest => by rw [eventsK, elemsAt]; rfl
  | .cons e t k, p, a, ks, st, rest => by
    rw [eventsK, elemsAt, List.map_append, List.append_assoc, build_events e, build_eventsK k]
    simp
end

theorem build_root (e : XElem) (p : Nat) : build [] ((eventsAt p e).map posInt) = some (elemAt p e) := by
  cases e with
  | empty tag => rw [eventsAt, elemAt]; rfl
  | node o t k c =>
    rw [eventsAt, elemAt]
    simp only [List.map_cons, List.map_append, List.map_nil]
    rw [show posInt (true, p) = (true, (p : Int)) from rfl, build, build_eventsK k]
    simp only [posInt, build, List.append_nil, List.reverse_reverse]

/-- The position is one of the document, not in the middle of a line break. -/
def Fair (T : List Char) (q : Nat) : Prop := q ≤ T.length ∧ ¬ MidBreak T q

theorem fair_at {T a b s : List Char} {c : Char} (hT : T = a ++ (c :: s) ++ b) (hc : c ≠ '\n') : Fair T a.length := by
  subst hT
  refine ⟨by simp, ?_⟩
  rintro ⟨_, _, h⟩
  simp at h
  exact hc h

theorem fair_after {T a b s : List Char} {c : Char} (hT : T = a ++ (s ++ [c]) ++ b) (hc : c ≠ '\r') :
    Fair T (a.length + (s ++ [c]).length) := by
  subst hT
  refine ⟨by simp, ?_⟩
  rintro ⟨_, h, _⟩
  have e : a.length + (s ++ [c]).length - 1 = (a ++ s).length := by simp [← Nat.add_assoc]
  rw [e, show a ++ (s ++ [c]) ++ b = (a ++ s) ++ (c :: b) by simp] at h
  simp at h
  exact hc h

/-- Positions from `lo` to `hi`, in order. -/
def Rising (lo hi : Nat) (qs : List Nat) : Prop := qs.Pairwise (· ≤ ·) ∧ ∀ q ∈ qs, lo ≤ q ∧ q ≤ hi

theorem Rising.append {lo mid mid' hi : Nat} {a b : List Nat} (ha : Rising lo mid a) (hb : Rising mid' hi b) (h : mid ≤ mid')
    (h1 : lo ≤ mid') (h2 : mid ≤ hi) : Rising lo hi (a ++ b) := by
  refine ⟨List.pairwise_append.2 ⟨ha.1, hb.1, fun x hx y hy => ?_⟩, fun q hq => ?_⟩
  · have := (ha.2 x hx).2; have := (hb.2 y hy).1; omega
  · rcases List.mem_append.1 hq with hq | hq
    · have := ha.2 q hq; omega
    · have := hb.2 q hq; omega

mutual
theorem events_ok : ∀ (e : XElem) (T a b : List Char), T = a ++ render e ++ b → Plain e →
    Rising a.length (a.length + (render e).length) ((eventsAt a.length e).map Prod.snd) ∧
    ∀ x ∈ eventsAt a.length e, Fair T x.2
  | .empty tag, T, a, b, hT, h => by
    rw [eventsAt, render]
    rw [render] at hT
    obtain ⟨s, _, hs⟩ := h
    refine ⟨⟨by simp, by simp⟩, ?_⟩
    intro x hx
    rcases List.mem_cons.1 hx with rfl | hx
    · exact fair_at (c := '<') (s := s ++ ['/', '>']) (b := b) (by rw [hT, hs]; rfl) (by decide)
    · obtain rfl := List.mem_singleton.1 hx
      have e : tag = ('<' :: s ++ ['/']) ++ ['>'] := by rw [hs]; simp
      have := fair_after (T := T) (a := a) (b := b) (s := '<' :: s ++ ['/']) (c := '>') (by rw [hT, e]) (by decide)
      rwa [← e] at this
  | .node o t k c, T, a, b, hT, h => by
    obtain ⟨⟨so, _, ho⟩, ⟨sc, _, hc⟩, _, hk⟩ := h
    rw [eventsAt]
    have hT' : T = (a ++ o ++ t) ++ renderK k ++ (c ++ b) := by rw [hT, render]; simp
    obtain ⟨r1, f1⟩ := eventsK_ok k T (a ++ o ++ t) (c ++ b) hT' hk
    simp only [List.length_append] at r1 f1
    have hlen : (render (.node o t k c)).length = o.length + t.length + (renderK k).length + c.length := by
      rw [render]; simp; omega
    constructor
    · rw [List.map_cons, List.map_append, List.map_cons, List.map_nil]
      have r2 : Rising (a.length + o.length + t.length + (renderK k).length) (a.length + (render (.node o t k c)).length)
          [a.length + o.length + t.length + (renderK k).length] := by
        refine ⟨by simp, fun q hq => ?_⟩
        rw [List.mem_singleton.1 hq]; omega
      have r3 := Rising.append r1 r2 (Nat.le_refl _) (by omega) (by omega)
      refine ⟨List.pairwise_cons.2 ⟨fun q hq => ?_, r3.1⟩, fun q hq => ?_⟩
      · have := (r3.2 q hq).1; omega
      · rcases List.mem_cons.1 hq with rfl | hq
        · omega
        · have := r3.2 q hq; omega
    · intro x hx
      rcases List.mem_cons.1 hx with rfl | hx
      · exact fair_at (c := '<') (s := so ++ ['>'] ++ t ++ renderK k ++ c) (b := b)
          (by rw [hT, render, ho]; simp) (by decide)
      · rcases List.mem_append.1 hx with hx | hx
        · exact f1 x hx
        · obtain rfl := List.mem_singleton.1 hx
          have := fair_at (T := T) (a := a ++ o ++ t ++ renderK k) (c := '<') (s := sc ++ ['>']) (b := b)
            (by rw [hT', hc]; simp) (by decide)
          simpa [Nat.add_assoc] using this
theorem eventsK_ok : ∀ (k : XKids) (T a b : List Char), T = a ++ renderK k ++ b → PlainK k →
    Rising a.length (a.length + (renderK k).length) ((eventsK a.length k).map Prod.snd) ∧
    ∀ x ∈ eventsK a.length k, Fair T x.2
  | .nil, T, a, b, hT, h => by
    rw [eventsK]
    exact ⟨⟨by simp, by simp⟩, by simp⟩
  | .cons e t k, T, a, b, hT, h => by
    rw [eventsK]
    obtain ⟨r1, f1⟩ := events_ok e T a (t ++ renderK k ++ b) (by rw [hT, renderK]; simp) h.1
    obtain ⟨r2, f2⟩ := eventsK_ok k T (a ++ render e ++ t) b (by rw [hT, renderK]; simp) h.2
    simp only [List.length_append] at r2 f2
    have hlen : (renderK (.cons e t k)).length = (render e).length + t.length + (renderK k).length := by
      rw [renderK]; simp; omega
    constructor
    · rw [List.map_append]
      have r2' : Rising (a.length + (render e).length + t.length) (a.length + (renderK (.cons e t k)).length)
          ((eventsK (a.length + (render e).length + t.length) k).map Prod.snd) :=
        ⟨r2.1, fun q hq => by have := r2.2 q hq; omega⟩
      exact Rising.append r1 r2' (by omega) (by omega) (by omega)
    · intro x hx
      rcases List.mem_append.1 hx with hx | hx
      · exact f1 x hx
      · exact f2 x hx
end

section
variable {β : Type} [DecidableEq β] {enc : Char → List β} {dec : List β → Option (List Char)}

/-- What expat reports on events of a document. -/
def reportsOn (enc : Char → List β) (T : List Char) (evs : List (Bool × Nat)) : List (Bool × Report) :=
  evs.map fun x => (x.1, reportAt enc T x.2)

theorem feeds_whole (hdec : ∀ s, dec (s.flatMap enc) = some s) (e : XElem) (before after : List Char) (h : Plain e) :
    feeds enc dec [⟨before ++ render e ++ after, reportsOn enc (before ++ render e ++ after) (eventsAt before.length e)⟩] =
      .ok ((eventsAt before.length e).map posInt) := by
  obtain ⟨r, f⟩ := events_ok e _ before after rfl h
  have ho := C62_offsets hdec (before ++ render e ++ after) ((eventsAt before.length e).map Prod.snd) r.1 (by
    intro p hp
    obtain ⟨x, hx, rfl⟩ := List.mem_map.1 hp
    exact f x hx)
  have hz : ∀ l : List (Bool × Nat), (l.map Prod.fst).zip ((l.map Prod.snd).map fun p : Nat => (p : Int)) = l.map posInt := by
    intro l
    induction l with
    | nil => rfl
    | cons x l ih => simp only [List.map_cons, List.zip_cons_cons, ih]; rfl
  unfold feeds reportsOn
  simp only [List.map_map]
  rw [List.map_map] at ho
  rw [show (Prod.snd ∘ fun x : Bool × Nat => (x.1, reportAt enc (before ++ render e ++ after) x.2)) =
    (reportAt enc (before ++ render e ++ after)) ∘ Prod.snd from rfl, ho]
  simp only [feeds]
  rw [show (Prod.fst ∘ fun x : Bool × Nat => (x.1, reportAt enc (before ++ render e ++ after) x.2)) = Prod.fst from rfl,
    hz, List.append_nil]

/-- **C122, from a string (partial as C71 is).** The whole way from the text fed to the tree: for every codec that writes each
character by itself and reads back what it wrote, and every document whose root element has no `>` in tags or a false self-closing end
and on whose start tags the parser does not raise, feeding the document at once and closing the parser gives the Itos of the root
element, nested and placed as they are written, over the document. -/
theorem C122_string_partial (hdec : ∀ s, dec (s.flatMap enc) = some s) (ws : Char → Bool) (ign : Bool) (e : XElem)
    (before after : List Char) (h : Plain e) (hq : Quiet (before ++ render e ++ after) before.length e) :
    ∃ n, parsed enc dec ws ign [⟨before ++ render e ++ after,
        reportsOn enc (before ++ render e ++ after) (eventsAt before.length e)⟩] = .ok (some (before ++ render e ++ after, n)) ∧
      outline n = itoAt (fun t => !(ign && t.all ws)) before.length e := by
  obtain ⟨n, h1, h2⟩ := C71_tree_partial ws ign e before after h hq
  refine ⟨n, ?_, h2⟩
  unfold parsed
  rw [feeds_whole hdec e before after h]
  simp only [build_root, List.getLast?_singleton]
  rw [h1]

theorem reads_short {n : Nat} {t : List Char} (h0 : t ≠ []) (h : t.length ≤ n) : reads n t.length t = [t] := by
  cases t with
  | nil => exact absurd rfl h0
  | cons c t =>
    rw [List.length_cons, reads, List.take_of_length_le h, List.drop_of_length_le h]
    · cases t.length <;> rfl
    · simp

/-- **C122 (partial).** A document no longer than what is read at a time (65536 characters) gives the same from a file as from a
string. Missing: longer documents (`C122_long_violated`). -/
theorem C122_file_partial (ws : Char → Bool) (ign : Bool) {n : Nat} {t : List Char} (h0 : t ≠ []) (h : t.length ≤ n)
    {evs : List (Bool × Report)} {groups : List (List (Bool × Report))} (hg : groups.flatten = evs)
    (hl : groups.length = (reads n t.length t).length) :
    parsed enc dec ws ign (filePieces n t groups) = parsed enc dec ws ign [⟨t, evs⟩] := by
  unfold filePieces
  rw [reads_short h0 h] at hl ⊢
  match groups, hl with
  | [g], _ =>
    have : g = evs := by simpa using hg
    rw [this]; rfl

/-- Pieces of no text before the document make no difference. -/
theorem C122_empty_pieces (ws : Char → Bool) (ign : Bool) (ps : List Piece) (h0 : ps ≠ []) (k : Nat) :
    parsed enc dec ws ign (List.replicate k ⟨[], []⟩ ++ ps) = parsed enc dec ws ign ps := by
  induction k with
  | zero => rfl
  | succ k ih =>
    rw [← ih, List.replicate_succ, List.cons_append]
    unfold parsed
    have hne : List.replicate k (⟨[], []⟩ : Piece) ++ ps ≠ [] := by simp [h0]
    have h1 : feeds enc dec ((⟨[], []⟩ : Piece) :: (List.replicate k ⟨[], []⟩ ++ ps)) =
        feeds enc dec (List.replicate k ⟨[], []⟩ ++ ps) := by
      rw [feeds]
      simp only [List.map_nil, charOffsets]
      cases feeds enc dec (List.replicate k ⟨[], []⟩ ++ ps) <;> rfl
    have h2 : ((⟨[], []⟩ : Piece) :: (List.replicate k ⟨[], []⟩ ++ ps)).getLast? =
        (List.replicate k (⟨[], []⟩ : Piece) ++ ps).getLast? := by
      cases hh : List.replicate k (⟨[], []⟩ : Piece) ++ ps with
      | nil => exact absurd hh hne
      | cons x xs => rw [List.getLast?_cons_cons]
    rw [h1, h2]
end

/-- **C122, from a string, exactly (partial as C85 is).** Feeding a document at once gives the whole tree: tags, names, attributes,
values, texts, comments and processing instructions of the root element, each where it is written. -/
theorem C122_document_partial {β : Type} [DecidableEq β] {enc : Char → List β} {dec : List β → Option (List Char)}
    (hdec : ∀ s, dec (s.flatMap enc) = some s) (ws : Char → Bool) (ign : Bool) (e : DElem) (before after : List Char) (h : e.OK) :
    parsed enc dec ws ign [⟨before ++ e.chars ++ after, reportsOn enc (before ++ e.chars ++ after) (eventsAt before.length e.plain)⟩] =
      .ok (some (before ++ e.chars ++ after, e.at (fun t => !(ign && t.all ws)) before.length)) := by
  have h1 := C85_tree_partial ws ign e before after h
  unfold parsed
  have hf := feeds_whole (enc := enc) (dec := dec) hdec e.plain before after (plain_of e h)
  rw [show (before ++ e.chars ++ after) = before ++ render e.plain ++ after from rfl] at h1 ⊢
  rw [hf]
  simp only [build_root, List.getLast?_singleton]
  rw [h1]

/-! ### A document longer than one read -/

theorem lcPos_line (s : List Char) (h : ∀ c ∈ s, c ≠ '\n' ∧ c ≠ '\r') : lcPos s = (1, s.length, false) := by
  revert h
  refine snoc_induction (P := fun s => (∀ c ∈ s, c ≠ '\n' ∧ c ≠ '\r') → lcPos s = (1, s.length, false)) (fun _ => rfl) ?_ s
  intro t c ih h
  rw [lcPos_snoc, ih fun d hd => h d (by simp [hd])]
  have := h c (by simp)
  simp [lcStep, this.1, this.2]

/-- `<a>xx…x</a>`, with `n` letters. -/
def longDoc (n : Nat) : DElem :=
  .node ⟨⟨none, ['a']⟩, [], []⟩ [.data (List.replicate n 'x')] .nil ⟨⟨none, ['a']⟩, []⟩

theorem longDoc_ok (n : Nat) : (longDoc n).OK := by
  have ha : IsName ['a'] := ⟨by simp, by decide⟩
  refine ⟨⟨⟨?_, ha⟩, ?_, ?_, ?_⟩, ?_, ⟨⟨?_, ha⟩, ?_, ?_⟩, ?_, trivial⟩
  · intro p hp; cases hp
  · intro a h; cases h
  · simp [IsWs]
  · simp [attrsChars]
  · intro s hs
    obtain rfl := List.mem_singleton.1 hs
    show '<' ∉ List.replicate n 'x'
    intro hm
    exact absurd (List.eq_of_mem_replicate hm) (by decide)
  · intro p hp; cases hp
  · simp [IsWs]
  · simp
  · intro _
    have hs : segsChars [.data (List.replicate n 'x')] = List.replicate n 'x' := by simp [segsChars, Seg.chars]
    have hn : ∀ c : Char, c ≠ 'x' → ∀ l : List Char, ¬ l ++ [c] <:+ List.replicate n 'x' := by
      rintro c hc l ⟨t, ht⟩
      have : c ∈ List.replicate n 'x' := by rw [← ht]; simp
      exact hc (List.eq_of_mem_replicate this)
    rw [hs]
    exact ⟨hn '>' (by decide) ['/'], hn '>' (by decide) ['?']⟩

theorem longDoc_chars (n : Nat) : (longDoc n).chars = ['<', 'a', '>'] ++ List.replicate n 'x' ++ ['<', '/', 'a', '>'] := by
  have hs : segsChars [.data (List.replicate n 'x')] = List.replicate n 'x' := by simp [segsChars, Seg.chars]
  unfold DElem.chars longDoc
  rw [DElem.plain, render, DKids.plain, renderK, hs]
  simp [STag.chars, ETag.chars, attrsChars, QName.chars]

theorem longDoc_events (n : Nat) : eventsAt 0 (longDoc n).plain = [(true, 0), (false, n + 3)] := by
  have hs : segsChars [.data (List.replicate n 'x')] = List.replicate n 'x' := by simp [segsChars, Seg.chars]
  unfold longDoc
  rw [DElem.plain, eventsAt, DKids.plain, eventsK, renderK, hs]
  simp [STag.chars, attrsChars, QName.chars]
  omega

theorem longDoc_reads {n : Nat} (hn : 4 ≤ n + 3) : reads (n + 3) (longDoc n).chars.length (longDoc n).chars =
    [['<', 'a', '>'] ++ List.replicate n 'x', ['<', '/', 'a', '>']] := by
  rw [longDoc_chars]
  have hl : (['<', 'a', '>'] ++ List.replicate n 'x').length = n + 3 := by simp
  have hl2 : (['<', 'a', '>'] ++ List.replicate n 'x' ++ ['<', '/', 'a', '>']).length = (n + 4) + 2 + 1 := by simp
  rw [hl2, reads, List.take_left' hl, List.drop_left' hl, reads, List.take_of_length_le (by simpa using hn),
    List.drop_of_length_le (by simpa using hn)]
  · rfl
  · simp
  · simp

/-- **C122 (violated).** However much is read at a time, there is a document (one element of one line of letters) that is parsed from a
string, and whose parsing from a file, expat reporting each tag once it has been read, raises `ValueError`. -/
theorem C122_long_violated (n : Nat) (hn : 4 ≤ n) (ws : Char → Bool) (ign : Bool) :
    ∃ (e : DElem) (a b : Bool × Nat), e.OK ∧ eventsAt 0 e.plain = [a, b] ∧ a.2 < n ∧ n ≤ b.2 ∧
      (reads n e.chars.length e.chars).length = 2 ∧
      (∃ r, parsed String.utf8EncodeChar utf8Dec ws ign [⟨e.chars, reportsOn String.utf8EncodeChar e.chars [a, b]⟩] = .ok (some r)) ∧
      parsed String.utf8EncodeChar utf8Dec ws ign
        (filePieces n e.chars [reportsOn String.utf8EncodeChar e.chars [a], reportsOn String.utf8EncodeChar e.chars [b]]) =
        .error .valueError := by
  obtain ⟨m, rfl⟩ : ∃ m, n = m + 3 := ⟨n - 3, by omega⟩
  refine ⟨longDoc m, (true, 0), (false, m + 3), longDoc_ok m, longDoc_events m, by omega, by omega,
    by rw [longDoc_reads hn]; rfl, ?_, ?_⟩
  · have := C122_document_partial (enc := String.utf8EncodeChar) (dec := utf8Dec) utf8_ok ws ign (longDoc m) [] [] (longDoc_ok m)
    rw [List.append_nil, List.nil_append, List.length_nil, longDoc_events] at this
    exact ⟨_, this⟩
  · unfold filePieces
    rw [longDoc_reads hn]
    have h0 : reportAt String.utf8EncodeChar (longDoc m).chars 0 = ⟨1, 0, 0⟩ := rfl
    have h1 : reportAt String.utf8EncodeChar (longDoc m).chars (m + 3) = ⟨1, (m + 3 : Nat), (m + 3 : Nat)⟩ := by
      unfold reportAt
      have hl : (['<', 'a', '>'] ++ List.replicate m 'x').length = m + 3 := by simp
      rw [longDoc_chars, List.take_left' hl, lcPos_line]
      · have hb : ((['<', 'a', '>'] ++ List.replicate m 'x').flatMap String.utf8EncodeChar).length = m + 3 := by
          rw [List.flatMap_append, List.length_append]
          have : ((List.replicate m 'x').flatMap String.utf8EncodeChar).length = m := by
            have hx : ∀ k : Nat, ((List.replicate k 'x').flatMap String.utf8EncodeChar).length = k := by
              intro k
              induction k with
              | zero => rfl
              | succ k ih =>
                rw [List.replicate_succ, List.flatMap_cons, List.length_append, ih,
                  show (String.utf8EncodeChar 'x').length = 1 from by decide]
                omega
            exact hx m
          rw [this]
          have : (['<', 'a', '>'].flatMap String.utf8EncodeChar).length = 3 := by decide
          omega
        rw [hb, hl]
        rfl
      · intro c hc
        rcases List.mem_append.1 hc with hc | hc
        · simp only [List.mem_cons, List.not_mem_nil, or_false] at hc
          rcases hc with rfl | rfl | rfl <;> decide
        · rw [List.eq_of_mem_replicate hc]; decide
    have hd0 : utf8Dec [] = some [] := utf8_ok []
    have hd1 : utf8Dec [60, 47, 97, 62] = some ['<', '/', 'a', '>'] := utf8_ok ['<', '/', 'a', '>']
    have hs : PyStr.slice (['<', '/', 'a', '>'].flatMap String.utf8EncodeChar) (some 0) (some ((m + 3 : Nat) : Int)) =
        [60, 47, 97, 62] := by
      have := PyStr.slice_nat (['<', '/', 'a', '>'].flatMap String.utf8EncodeChar) 0 (m + 3)
      rw [show (0 : Int) = ((0 : Nat) : Int) from rfl, this, List.take_of_length_le (by
        show 4 ≤ m + 3
        omega)]
      rfl
    have hc0 : charOffsets String.utf8EncodeChar utf8Dec (['<', 'a', '>'] ++ List.replicate m 'x') {} [⟨1, 0, 0⟩] = .ok [0] :=
      C62_utf8 (['<', 'a', '>'] ++ List.replicate m 'x') [0] (by simp) (by
        intro p hp
        obtain rfl := List.mem_singleton.1 hp
        exact ⟨by omega, fun h => absurd h.1 (by omega)⟩)
    have hc1 : ∃ st, charOffset String.utf8EncodeChar utf8Dec ['<', '/', 'a', '>'] {} ⟨1, (m + 3 : Nat), (m + 3 : Nat)⟩ =
        .ok (4, st) := by
      unfold charOffset
      rw [if_pos (show (0 : Int) < 1 by decide)]
      dsimp only
      rw [hs, hd1]
      dsimp only
      exact ⟨_, by congr 2; show (0 : Int) + 4 - ((m + 3 : Nat) : Int) + ((m + 3 : Nat) : Int) = 4; omega⟩
    obtain ⟨st, hc1⟩ := hc1
    have hc2 : charOffsets String.utf8EncodeChar utf8Dec ['<', '/', 'a', '>'] {} [⟨1, (m + 3 : Nat), (m + 3 : Nat)⟩] = .ok [4] := by
      rw [charOffsets, hc1]; rfl
    have hf : feeds String.utf8EncodeChar utf8Dec
        [⟨['<', 'a', '>'] ++ List.replicate m 'x', [(true, ⟨1, 0, 0⟩)]⟩,
          ⟨['<', '/', 'a', '>'], [(false, ⟨1, (m + 3 : Nat), (m + 3 : Nat)⟩)]⟩] = .ok [(true, 0), (false, 4)] := by
      simp only [feeds, List.map_cons, List.map_nil, hc0, hc2]
      rfl
    have hx : extract ws ign ['<', '/', 'a', '>'] (.mk 0 4 []) = .error .valueError := by rfl
    unfold reportsOn
    simp only [List.map_cons, List.map_nil, h0, h1, List.zip_cons_cons, List.zip_nil_right]
    unfold parsed
    rw [hf]
    simp only [build, List.reverse_nil, List.getLast?_cons_cons, List.getLast?_singleton, hx]

/-! Non-vacuity. -/

example : Plain exElem ∧ Quiet (render exElem) 0 exElem := ⟨by
  refine ⟨⟨['a'], by decide, rfl⟩, ⟨['/', 'a'], by decide, rfl⟩, (fun h => by cases h), ?_, ?_, trivial⟩
  · exact ⟨['b'], by decide, rfl⟩
  · exact ⟨⟨['c'], by decide, rfl⟩, ⟨['/', 'c'], by decide, rfl⟩, fun _ => ⟨by decide, by decide⟩, trivial⟩,
  ⟨⟨_, rfl⟩, ⟨_, rfl⟩, ⟨⟨_, rfl⟩, trivial⟩, trivial⟩⟩
example : exDoc.OK ∧ eventsAt 0 exDoc.plain = [(true, 0), (true, 31), (false, 35), (false, 44)] := ⟨exDoc_ok, by decide +kernel⟩
example : exDoc.chars ≠ [] ∧ exDoc.chars.length ≤ 65536 ∧ (reads 65536 exDoc.chars.length exDoc.chars).length = 1 := by
  rw [exDoc_chars]
  refine ⟨by decide, by decide, by decide⟩

end Pawpaw.Props
