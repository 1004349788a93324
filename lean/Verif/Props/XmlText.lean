import Verif.Props.XmlKids
/-!
# C85: the Itos within texts as written
-/
set_option linter.unusedSectionVars false
set_option linter.unusedSimpArgs false
namespace Pawpaw.Props
open Pawpaw Pawpaw.Xml Pawpaw.Regex XmlSpec TreeSpec RegexSpec

theorem outk_lit (k : St → List St) : ∀ (cs : List Char) (i : Nat) (w : List Char) (c : List (String × Nat × Nat)),
    outk (lit cs) k ⟨i, cs ++ w, c⟩ = k ⟨i + cs.length, w, c⟩
  | [], i, w, c => by rw [lit, outk_eps]; rfl
  | [x], i, w, c => by
    rw [lit]
    show outk (.chr (· == x)) k ⟨i, x :: w, c⟩ = _
    rw [outk_chr, if_pos (by simp)]
    rfl
  | x :: y :: cs, i, w, c => by
    have h : lit (x :: y :: cs) = .seq (.chr (· == x)) (lit (y :: cs)) := rfl
    rw [h, outk_seq, List.cons_append, outk_chr, if_pos (by simp), outk_lit k (y :: cs)]
    congr 2
    simp only [List.length_cons]
    omega

theorem lit_free : ∀ cs : List Char, Free (lit cs)
  | [] => trivial
  | [_] => trivial
  | _ :: y :: cs => ⟨trivial, lit_free (y :: cs)⟩

theorem outk_lit_fail (k : St → List St) {cs w : List Char} (h : ¬ cs <+: w) (i : Nat) (c : List (String × Nat × Nat)) :
    outk (lit cs) k ⟨i, w, c⟩ = [] := by
  refine outk_nil (lit_free cs) ?_
  intro u w' c' hu hl
  rw [lang_lit] at hl
  exact absurd ⟨w', by rw [← hl]; exact hu.symm⟩ h

/-- What starts neither a processing instruction nor a comment. -/
theorem text_fail {w : List Char} (h1 : ¬ ['<', '?'] <+: w) (h2 : ¬ ['<', '!', '-', '-'] <+: w) (i : Nat) :
    out textRe ⟨i, w, []⟩ = [] := by
  rw [← outk_pure]
  unfold textRe piG commentG
  rw [outk_alt, outk_grp, outk_seq, outk_lit_fail _ h1, outk_grp, outk_seq, outk_lit_fail _ h2]
  rfl

theorem not_lt_fail {w : List Char} (h : ∀ x ∈ w.head?, x ≠ '<') (i : Nat) : out textRe ⟨i, w, []⟩ = [] := by
  refine text_fail ?_ ?_ i
  · rintro ⟨t, rfl⟩; exact h '<' rfl rfl
  · rintro ⟨t, rfl⟩; exact h '<' rfl rfl

/-- Between markers: the first place where the closing marker is. -/
theorem lazy_to {s z : List Char} {y : Char} (hs : ¬ (z ++ [y]) <:+: s ++ z) (k : St → List St)
    (i : Nat) (r : List Char) (c : List (String × Nat × Nat))
    (hk : k ⟨i + s.length + (z ++ [y]).length, r, c ++ [("value", i, i + s.length)]⟩ ≠ []) :
    (outk (.grp "value" lazyAny) (outk (lit (z ++ [y])) k) ⟨i, s ++ (z ++ [y] ++ r), c⟩).head? =
      (k ⟨i + s.length + (z ++ [y]).length, r, c ++ [("value", i, i + s.length)]⟩).head? := by
  rw [outk_grp]
  unfold lazyAny
  have := lazy_run (fun st' => outk (lit (z ++ [y])) k { st' with caps := st'.caps ++ [("value", i, st'.pos)] }) s i
    (z ++ [y] ++ r) c ?_ ?_
  · rw [this]
    dsimp only
    rw [outk_lit]
  · intro a b hab hb
    dsimp only
    refine outk_lit_fail k ?_ _ _
    intro hp
    apply hs
    have h1 : (z ++ [y]) <+: (b ++ z) ++ ([y] ++ r) := by
      have e : (b ++ z) ++ ([y] ++ r) = b ++ (z ++ [y] ++ r) := by simp
      rw [e]; exact hp
    have h2 : (z ++ [y]) <+: b ++ z := by
      refine List.prefix_of_prefix_length_le h1 (List.prefix_append _ _) ?_
      have := List.length_pos_iff.mpr hb
      simp
      omega
    obtain ⟨t, ht⟩ := h2
    exact ⟨a, t, by rw [hab, List.append_assoc a, ht, List.append_assoc]⟩
  · dsimp only
    rw [outk_lit]
    exact hk

theorem pi_hit {s : List Char} (hs : Seg.OK (.pi s)) (i : Nat) (r : List Char) :
    (out textRe ⟨i, (Seg.pi s).chars ++ r, []⟩).head? = some ⟨i + (Seg.pi s).chars.length, r,
      [("value", i + 2, i + (Seg.pi s).chars.length - 2), ("pi", i, i + (Seg.pi s).chars.length)]⟩ := by
  have hl : (Seg.pi s).chars.length = s.length + 4 := by simp [Seg.chars]
  have hc : (Seg.pi s).chars ++ r = ['<', '?'] ++ (s ++ ((['?'] ++ ['>']) ++ r)) := by simp [Seg.chars]
  have hk : ∀ (P : St → List St), outk piG P ⟨i, ['<', '?'] ++ (s ++ ((['?'] ++ ['>']) ++ r)), []⟩ =
      outk (.grp "value" lazyAny) (outk (lit (['?'] ++ ['>']))
        (fun st' => P { st' with caps := st'.caps ++ [("pi", i, st'.pos)] })) ⟨i + 2, s ++ ((['?'] ++ ['>']) ++ r), []⟩ := by
    intro P
    unfold piG
    rw [outk_grp, outk_seq, outk_lit, outk_seq]
    rfl
  rw [← outk_pure]
  unfold textRe
  rw [hc, outk_alt, hk, List.head?_append, lazy_to (y := '>') (z := ['?']) hs _ _ _ _ (by simp)]
  simp only [List.length_append, List.length_cons, List.length_nil, List.head?_cons, Option.some_or, hl,
    List.nil_append, List.singleton_append]
  simp only [Option.some.injEq, St.mk.injEq, List.cons.injEq, Prod.mk.injEq, true_and, and_true, List.append_eq,
    List.nil_append, List.cons_append]
  omega

theorem comment_hit {s : List Char} (hs : Seg.OK (.comment s)) (i : Nat) (r : List Char) :
    (out textRe ⟨i, (Seg.comment s).chars ++ r, []⟩).head? = some ⟨i + (Seg.comment s).chars.length, r,
      [("value", i + 4, i + (Seg.comment s).chars.length - 3), ("comment", i, i + (Seg.comment s).chars.length)]⟩ := by
  have hl : (Seg.comment s).chars.length = s.length + 7 := by simp [Seg.chars]
  have hc : (Seg.comment s).chars ++ r = ['<', '!', '-', '-'] ++ (s ++ ((['-', '-'] ++ ['>']) ++ r)) := by simp [Seg.chars]
  have hk : ∀ (P : St → List St), outk commentG P ⟨i, ['<', '!', '-', '-'] ++ (s ++ ((['-', '-'] ++ ['>']) ++ r)), []⟩ =
      outk (.grp "value" lazyAny) (outk (lit (['-', '-'] ++ ['>']))
        (fun st' => P { st' with caps := st'.caps ++ [("comment", i, st'.pos)] }))
        ⟨i + 4, s ++ ((['-', '-'] ++ ['>']) ++ r), []⟩ := by
    intro P
    unfold commentG
    rw [outk_grp, outk_seq, outk_lit, outk_seq]
    rfl
  have h0 : ∀ (P : St → List St), outk piG P ⟨i, ['<', '!', '-', '-'] ++ (s ++ ((['-', '-'] ++ ['>']) ++ r)), []⟩ = [] := by
    intro P
    unfold piG
    rw [outk_grp, outk_seq, outk_lit_fail]
    rintro ⟨t, ht⟩
    simp at ht
  rw [← outk_pure]
  unfold textRe
  rw [hc, outk_alt, h0, hk, List.nil_append, lazy_to (y := '>') (z := ['-', '-']) hs _ _ _ _ (by simp)]
  simp only [List.length_append, List.length_cons, List.length_nil, List.head?_cons, hl,
    List.nil_append, List.singleton_append]
  simp only [Option.some.injEq, St.mk.injEq, List.cons.injEq, Prod.mk.injEq, true_and, and_true, List.append_eq,
    List.nil_append, List.cons_append]
  omega

theorem cdata_skip {s : List Char} (hs : Seg.OK (.cdata s)) (i : Nat) (r : List Char) :
    finditer textRe i ((Seg.cdata s).chars ++ r) = finditer textRe (i + (Seg.cdata s).chars.length) r := by
  have hl : (Seg.cdata s).chars.length = 9 + s.length + 3 := by simp [Seg.chars]; omega
  have hc : (Seg.cdata s).chars ++ r = ['<', '!', '[', 'C', 'D', 'A', 'T', 'A', '['] ++ (s ++ ([']', ']', '>'] ++ r)) := by
    simp [Seg.chars]
  rw [hc, finditer_skips textRe ['<', '!', '[', 'C', 'D', 'A', 'T', 'A', '['] i _ ?_,
    finditer_skips textRe s _ _ ?_, finditer_skips textRe [']', ']', '>'] _ r ?_, hl]
  · simp only [List.length_cons, List.length_nil]
    congr 1
    omega
  · intro a b j hab hb
    refine not_lt_fail ?_ j
    intro x hx hlt
    cases b with
    | nil => exact hb rfl
    | cons y b =>
      have : x = y := by simpa using hx.symm
      have hm : y ∈ [']', ']', '>'] := by rw [hab]; simp
      rw [← this, hlt] at hm
      simp at hm
  · intro a b j hab hb
    refine text_fail ?_ ?_ j
    · intro hp
      apply hs.1
      have h1 : ['<', '?'] <+: b := by
        rcases b with _ | ⟨b1, _ | ⟨b2, b⟩⟩
        · exact absurd rfl hb
        · obtain ⟨t, ht⟩ := hp; simp at ht
        · obtain ⟨t, ht⟩ := hp
          simp at ht
          exact ⟨b, by rw [← ht.1, ← ht.2.1]; rfl⟩
      obtain ⟨t, ht⟩ := h1
      exact ⟨a, t, by rw [hab, ← ht, List.append_assoc]⟩
    · intro hp
      apply hs.2
      have h1 : ['<', '!', '-', '-'] <+: b := by
        rcases b with _ | ⟨b1, _ | ⟨b2, _ | ⟨b3, _ | ⟨b4, b⟩⟩⟩⟩
        · exact absurd rfl hb
        · obtain ⟨t, ht⟩ := hp; simp at ht
        · obtain ⟨t, ht⟩ := hp; simp at ht
        · obtain ⟨t, ht⟩ := hp; simp at ht
        · obtain ⟨t, ht⟩ := hp
          simp at ht
          exact ⟨b, by rw [← ht.1, ← ht.2.1, ← ht.2.2.1, ← ht.2.2.2.1]; rfl⟩
      obtain ⟨t, ht⟩ := h1
      exact ⟨a, t, by rw [hab, ← ht, List.append_assoc]⟩
  · intro a b j hab hb
    cases a with
    | nil =>
      have : b = ['<', '!', '[', 'C', 'D', 'A', 'T', 'A', '['] := by simpa using hab.symm
      subst this
      refine text_fail ?_ ?_ j
      · rintro ⟨t, ht⟩; simp at ht
      · rintro ⟨t, ht⟩; simp at ht
    | cons x a =>
      refine not_lt_fail ?_ j
      intro z hz hlt
      cases b with
      | nil => exact hb rfl
      | cons y b =>
        have h1 : z = y := by simpa using hz.symm
        have h2 := (List.cons.inj hab).2
        have hm : y ∈ ['!', '[', 'C', 'D', 'A', 'T', 'A', '['] := by rw [h2]; simp
        rw [← h1, hlt] at hm
        simp at hm

theorem data_skip {s : List Char} (hs : Seg.OK (.data s)) (i : Nat) (r : List Char) :
    finditer textRe i ((Seg.data s).chars ++ r) = finditer textRe (i + (Seg.data s).chars.length) r := by
  refine finditer_skips textRe s i r ?_
  intro a b j hab hb
  refine not_lt_fail ?_ j
  intro x hx hlt
  cases b with
  | nil => exact hb rfl
  | cons y b =>
    have : x = y := by simpa using hx.symm
    apply hs
    rw [hab, ← hlt, this]
    simp

/-- What the pattern finds in a text written from `i`. -/
def segFounds (i : Nat) : List Seg → List Found
  | [] => []
  | s :: ss =>
    (match s with
      | .pi _ => [⟨i, i + s.chars.length, [("value", i + 2, i + s.chars.length - 2), ("pi", i, i + s.chars.length)]⟩]
      | .comment _ => [⟨i, i + s.chars.length, [("value", i + 4, i + s.chars.length - 3), ("comment", i, i + s.chars.length)]⟩]
      | _ => []) ++ segFounds (i + s.chars.length) ss

theorem segs_found : ∀ (ss : List Seg) (i : Nat), (∀ s ∈ ss, s.OK) → finditer textRe i (segsChars ss) = segFounds i ss
  | [], i, _ => finditer_nil textRe _ (text_fail (by simp) (by simp) i)
  | s :: ss, i, h => by
    have hs := h s (by simp)
    have ih := segs_found ss (i + s.chars.length) (fun x hx => h x (List.mem_cons_of_mem _ hx))
    rw [segsChars]
    cases s with
    | data s => rw [data_skip hs, ih]; rfl
    | cdata s => rw [cdata_skip hs, ih]; rfl
    | pi s =>
      have hl : (Seg.pi s).chars.length = s.length + 4 := by simp [Seg.chars]
      rw [finditer_hit textRe_free i _ _ (pi_hit hs i _) (by dsimp only; omega)]
      dsimp only
      rw [ih]
      rfl
    | comment s =>
      have hl : (Seg.comment s).chars.length = s.length + 7 := by simp [Seg.chars]
      rw [finditer_hit textRe_free i _ _ (comment_hit hs i _) (by dsimp only; omega)]
      dsimp only
      rw [ih]
      rfl

theorem segs_nodes {len : Nat} : ∀ (ss : List Seg) (i : Nat), i + (segsChars ss).length ≤ len →
    (segFounds i ss).map (fun f => Match.fromMatch len (spansOf textKeys f)) = (segsAt i ss).map (fun n => .ok [n])
  | [], _, _ => rfl
  | s :: ss, i, hl => by
    rw [segsChars, List.length_append] at hl
    have ih := segs_nodes (len := len) ss (i + s.chars.length) (by omega)
    unfold segFounds segsAt
    rw [List.map_append, List.map_append, ih]
    congr 1
    cases s with
    | data s => rfl
    | cdata s => rfl
    | pi s =>
      have h4 : (Seg.pi s).chars.length = s.length + 4 := by simp [Seg.chars]
      dsimp only
      rw [List.map_cons, fromMatch_pi (by omega) (by omega)]
      rfl
    | comment s =>
      have h7 : (Seg.comment s).chars.length = s.length + 7 := by simp [Seg.chars]
      dsimp only
      rw [List.map_cons, fromMatch_comment (by omega) (by omega)]
      rfl

theorem segs_tiles : ∀ (ss : List Seg) (i : Nat), XTiles (i : Nat) (i + (segsChars ss).length : Nat) (segsAt i ss)
  | [], _ => XTiles.nil _ _
  | s :: ss, i => by
    have ih := segs_tiles ss (i + s.chars.length)
    rw [segsChars, List.length_append]
    unfold segsAt
    revert ih
    rw [← Nat.add_assoc]
    intro ih
    refine XTiles.append ?_ ih (Int.le_refl _) (by omega) (by omega)
    cases s with
    | data s => exact XTiles.nil _ _
    | cdata s => exact XTiles.nil _ _
    | pi s =>
      have h4 : (Seg.pi s).chars.length = s.length + 4 := by simp [Seg.chars]
      exact XTiles.single (Int.le_refl _)
        (by show ((i : Nat) : Int) < ((i + (Seg.pi s).chars.length : Nat) : Int); omega) (Int.le_refl _)
    | comment s =>
      have h7 : (Seg.comment s).chars.length = s.length + 7 := by simp [Seg.chars]
      exact XTiles.single (Int.le_refl _)
        (by show ((i : Nat) : Int) < ((i + (Seg.comment s).chars.length : Nat) : Int); omega) (Int.le_refl _)

/-- **C85, texts.** Within a text as written are the Itos of its processing instructions and comments, each with
its value, and nothing else. -/
theorem C85_text_partial {ss : List Seg} (h : ∀ s ∈ ss, s.OK) (before after : List Char) :
    textKids ⟨before ++ segsChars ss ++ after, ⟨(before.length : Nat), (before.length + (segsChars ss).length : Nat)⟩,
      some "text"⟩ = .ok (segsAt before.length ss) := by
  generalize hT : before ++ segsChars ss ++ after = T
  have hlen : T.length = before.length + (segsChars ss).length + after.length := by rw [← hT]; simp; omega
  unfold textKids
  rw [extractRe_known hT.symm (segs_found ss before.length h) (segs_nodes ss _ (by omega))]
  dsimp only
  rw [addAll_tiles (l := []) (segs_tiles ss before.length)]
  rfl

end Pawpaw.Props
