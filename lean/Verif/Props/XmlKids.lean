import Verif.Props.XmlAttrs
/-!
# C85: the Itos within start tags and end tags as written
-/
set_option linter.unusedSectionVars false
set_option linter.unusedSimpArgs false
namespace Pawpaw.Props
open Pawpaw Pawpaw.Xml Pawpaw.Regex XmlSpec TreeSpec RegexSpec

theorem fromReLoop_ones {len : Nat} : ∀ (ms : List (List (Option String × List Span))) (ns rv : List Node),
    ms.map (Match.fromMatch len) = ns.map (fun n => .ok [n]) → Match.fromReLoop len none rv ms = .ok (rv ++ ns)
  | [], [], rv, _ => by rw [Match.fromReLoop, List.append_nil]
  | [], n :: ns, rv, h => by simp at h
  | m :: ms, [], rv, h => by simp at h
  | m :: ms, n :: ns, rv, h => by
    rw [List.map_cons, List.map_cons, List.cons.injEq] at h
    rw [Match.fromReLoop, h.1]
    dsimp only
    rw [fromReLoop_ones ms ns (rv ++ [n]) h.2]
    simp

/-- Where the pattern's matches are known and each makes one Ito. -/
theorem extractRe_known {re : Re} {keys : List String} {T A S B : List Char} (hT : T = A ++ S ++ B) {d : Option String}
    {fs : List Found} {ns : List Node} (hf : finditer re A.length S = fs)
    (h : fs.map (fun f => Match.fromMatch T.length (spansOf keys f)) = ns.map (fun n => .ok [n])) :
    extractRe re keys ⟨T, ⟨(A.length : Nat), (A.length + S.length : Nat)⟩, d⟩ = .ok ns := by
  unfold extractRe Match.fromRe
  have htext : (⟨T, ⟨(A.length : Nat), (A.length + S.length : Nat)⟩, d⟩ : FIto Char).text = S := by
    rw [FIto.text_eq (a := A.length) (b := A.length + S.length) rfl rfl]
    dsimp only
    rw [hT, List.append_assoc, List.drop_take]
    simp
  have hst : (⟨T, ⟨(A.length : Nat), (A.length + S.length : Nat)⟩, d⟩ : FIto Char).start.toNat = A.length := rfl
  rw [htext, hst, hf, fromReLoop_ones (fs.map (spansOf keys)) ns [] (by rw [List.map_map]; exact h)]
  rfl

/-! ### Attributes -/

theorem attr_len {a : Attr} (_ha : a.OK) : a.chars.length = a.sep.length + a.name.chars.length + a.val.length + 3 := by
  simp [Attr.chars, Attr.body]; omega

theorem attr_at_span {a : Attr} (p : Nat) : (a.at p).span = ⟨(p + a.sep.length : Nat), (p + a.chars.length : Nat)⟩ := rfl
theorem attr_at_start {a : Attr} (p : Nat) : (a.at p).start = (p + a.sep.length : Nat) := rfl
theorem attr_at_stop {a : Attr} (p : Nat) : (a.at p).stop = (p + a.chars.length : Nat) := rfl

theorem attrs_nodes {len : Nat} : ∀ (as : List Attr) (i : Nat), (∀ a ∈ as, a.OK) → i + (attrsChars as).length ≤ len →
    (attrFounds i as).map (fun f => Match.fromMatch len (spansOf attrKeys f)) = (attrsAt i as).map (fun n => .ok [n])
  | [], _, _, _ => rfl
  | a :: as, i, h, hl => by
    have ha := h a (by simp)
    have e := attr_len ha
    have hv := List.length_pos_iff.mpr ha.val
    rw [attrsChars, List.length_append] at hl
    rw [attrFounds, attrsAt, List.map_cons, List.map_cons,
      attrs_nodes as (i + a.chars.length) (fun b hb => h b (List.mem_cons_of_mem _ hb)) (by omega),
      fromMatch_attr (qname_fits ha.name _) (by omega) (by omega)]
    rfl

theorem attrs_tiles : ∀ (as : List Attr) (i : Nat), (∀ a ∈ as, a.OK) →
    XTiles (i : Nat) (i + (attrsChars as).length : Nat) (attrsAt i as)
  | [], _, _ => XTiles.nil _ _
  | a :: as, i, h => by
    have ha := h a (by simp)
    have e := attr_len ha
    have ih := attrs_tiles as (i + a.chars.length) (fun b hb => h b (List.mem_cons_of_mem _ hb))
    have t1 : XTiles (i : Nat) (i + a.chars.length : Nat) [a.at i] :=
      XTiles.single (by rw [attr_at_start]; omega) (by rw [attr_at_start, attr_at_stop]; omega)
        (by rw [attr_at_stop]; omega)
    have := t1.append ih (Int.le_refl _) (by omega) (by omega)
    rw [attrsChars, List.length_append]
    rw [Nat.add_assoc] at this
    exact this

theorem foldl_min_ge : ∀ (ns : List Node) (x : Int), (∀ n ∈ ns, x ≤ n.start) →
    ns.foldl (fun a m => min a m.start) x = x
  | [], _, _ => rfl
  | n :: ns, x, h => by
    have h0 := h n (by simp)
    rw [List.foldl_cons, show min x n.start = x by omega]
    exact foldl_min_ge ns x (fun m hm => h m (List.mem_cons_of_mem _ hm))

theorem foldl_max_last : ∀ (as : List Attr) (i : Nat), (∀ a ∈ as, a.OK) →
    (attrsAt i as).foldl (fun a m => max a m.stop) (i : Int) = ((i + (attrsChars as).length : Nat) : Int)
  | [], _, _ => rfl
  | a :: as, i, h => by
    have e := attr_len (h a (by simp))
    have ih := foldl_max_last as (i + a.chars.length) (fun b hb => h b (List.mem_cons_of_mem _ hb))
    rw [attrsAt, List.foldl_cons, attr_at_stop,
      show max (i : Int) ((i + a.chars.length : Nat) : Int) = ((i + a.chars.length : Nat) : Int) by omega, ih, attrsChars,
      List.length_append, Nat.add_assoc]

theorem joinSpan_attrs {a : Attr} {as : List Attr} (i : Nat) (h : ∀ b ∈ a :: as, b.OK) :
    joinSpan (a.at i) (attrsAt (i + a.chars.length) as) =
      ⟨(i + a.sep.length : Nat), (i + (attrsChars (a :: as)).length : Nat)⟩ := by
  unfold joinSpan
  have e := attr_len (h a (by simp))
  have t := attrs_tiles as (i + a.chars.length) (fun b hb => h b (List.mem_cons_of_mem _ hb))
  rw [foldl_min_ge _ _ (fun n hn => by
    have := (t.inside n hn).1
    rw [attr_at_start]
    omega), attr_at_start, attr_at_stop, foldl_max_last as _ (fun b hb => h b (List.mem_cons_of_mem _ hb)), attrsChars,
    List.length_append, Nat.add_assoc]

/-! ### Start tags -/

theorem stag_after {t : STag} (ht : t.OK) {e : List Char} (he : e = ['>'] ∨ e = ['/', '>']) :
    AfterName (attrsChars t.attrs ++ t.trail ++ e) := by
  have hf := ht.first
  cases hc : attrsChars t.attrs ++ t.trail with
  | nil => exact Or.inr (by simpa using he)
  | cons x xs =>
    rw [hc] at hf
    exact Or.inl ⟨xs ++ e, by rw [hf x rfl]; rfl⟩

theorem attrs_not_lt : ∀ (as : List Attr), (∀ a ∈ as, a.OK) → '<' ∉ attrsChars as
  | [], _ => by simp [attrsChars]
  | a :: as, h => by
    have ha := h a (by simp)
    have h1 := ws_not ha.sep '<' (by decide)
    have h2 := qname_not ha.name '<' rfl (by decide)
    have h3 := ha.lt
    have h4 := attrs_not_lt as (fun b hb => h b (List.mem_cons_of_mem _ hb))
    simp [attrsChars, Attr.chars, Attr.body, h1, h2, h3, h4]

theorem attrs_not_gt : ∀ (as : List Attr), (∀ a ∈ as, a.OK) → '>' ∉ attrsChars as
  | [], _ => by simp [attrsChars]
  | a :: as, h => by
    have ha := h a (by simp)
    have h1 := ws_not ha.sep '>' (by decide)
    have h2 := qname_not ha.name '>' rfl (by decide)
    have h3 := ha.gt
    have h4 := attrs_not_gt as (fun b hb => h b (List.mem_cons_of_mem _ hb))
    simp [attrsChars, Attr.chars, Attr.body, h1, h2, h3, h4]

theorem qname_at_span (q : QName) (p : Nat) : (q.at p).span = ⟨(p : Nat), (p + q.chars.length : Nat)⟩ := rfl
theorem qname_at_start (q : QName) (p : Nat) : (q.at p).start = (p : Nat) := rfl
theorem qname_at_stop (q : QName) (p : Nat) : (q.at p).stop = (p + q.chars.length : Nat) := rfl

theorem stag_len (t : STag) (e : List Char) :
    (t.chars e).length = 1 + t.name.chars.length + (attrsChars t.attrs).length + t.trail.length + e.length := by
  simp [STag.chars]; omega

/-- **C85, start tags.** Within a start tag (or an empty-element tag) as written, wherever it is in the document, are
the Ito of its name and, if it has attributes, one Ito for all of them, with each attribute's name and value where
they are written. -/
theorem C85_start_tag_partial {t : STag} (ht : t.OK) {e : List Char} (he : e = ['>'] ∨ e = ['/', '>']) (before after : List Char) :
    startKids ⟨before ++ t.chars e ++ after, ⟨(before.length : Nat), (before.length + (t.chars e).length : Nat)⟩,
      some "start_tag"⟩ = .ok (t.kids before.length) := by
  generalize hT : before ++ t.chars e ++ after = T
  have hlen : T.length = before.length + (t.chars e).length + after.length := by rw [← hT]; simp; omega
  have hsl := stag_len t e
  have hel : 1 ≤ e.length := by rcases he with rfl | rfl <;> simp
  have hqf := qname_fits ht.name (before.length + 1)
  have hql := hqf.lt
  -- the name
  have h1 : finditer tagRe before.length (t.chars e) = [⟨before.length, before.length + 1 + t.name.chars.length,
      nameCaps (before.length + 1) (t.name.pre.map List.length) (before.length + 1 + t.name.chars.length)⟩] := by
    have := tag_open ht.name (stag_after ht he) (by
      have h1 := attrs_not_lt t.attrs ht.attrs
      have h2 := ws_not ht.trail '<' (by decide)
      rcases he with rfl | rfl <;> simp [h1, h2]) before.length
    rw [← this]
    congr 1
    simp [STag.chars]
  have e1 : extractRe tagRe tagKeys ⟨T, ⟨(before.length : Nat), (before.length + (t.chars e).length : Nat)⟩,
      some "start_tag"⟩ = .ok [t.name.at (before.length + 1)] := by
    refine extractRe_known hT.symm h1 ?_
    rw [List.map_cons, List.map_cons, fromMatch_tag hqf (by omega)]
    rfl
  -- the attributes
  have e2 : extractRe attrRe attrKeys ⟨T, ⟨(before.length : Nat), (before.length + (t.chars e).length : Nat)⟩,
      some "start_tag"⟩ = .ok (attrsAt (before.length + 1 + t.name.chars.length) t.attrs) :=
    extractRe_known hT.symm (stag_attrs ht he before.length)
      (attrs_nodes t.attrs _ ht.attrs (by omega))
  have tn : XTiles (before.length : Nat) (before.length + 1 + t.name.chars.length : Nat) [t.name.at (before.length + 1)] :=
    XTiles.single (by rw [qname_at_start]; omega) (by rw [qname_at_start, qname_at_stop]; omega)
      (by rw [qname_at_stop]; omega)
  unfold startKids
  rw [e1]
  dsimp only
  rw [addAll_tiles (l := []) (tn.weaken (Int.le_refl _) (by dsimp only; omega)), e2]
  dsimp only
  rw [List.nil_append]
  unfold STag.kids
  cases hattrs : t.attrs with
  | nil => rfl
  | cons a as =>
    have hok : ∀ b ∈ a :: as, b.OK := by rw [← hattrs]; exact ht.attrs
    have hal := attr_len (hok a (by simp))
    rw [hattrs] at hsl
    have hac : (attrsChars (a :: as)).length = a.chars.length + (attrsChars as).length := by
      rw [attrsChars, List.length_append]
    rw [attrsAt]
    dsimp only
    have hj := joinSpan_attrs (before.length + 1 + t.name.chars.length) hok
    rw [hj]
    have ta := attrs_tiles (a :: as) (before.length + 1 + t.name.chars.length) hok
    have ta' : XTiles ((before.length + 1 + t.name.chars.length + a.sep.length : Nat) : Int)
        ((before.length + 1 + t.name.chars.length + (attrsChars (a :: as)).length : Nat) : Int)
        ([] ++ a.at (before.length + 1 + t.name.chars.length) ::
          attrsAt (before.length + 1 + t.name.chars.length + a.chars.length) as) := by
      refine ⟨?_, ta.ordered⟩
      intro k hk
      have hin := ta.inside k hk
      rcases List.mem_cons.1 hk with rfl | hk
      · rw [attr_at_start] at hin ⊢
        omega
      · have := (attrs_tiles as (before.length + 1 + t.name.chars.length + a.chars.length)
          (fun b hb => hok b (List.mem_cons_of_mem _ hb))).inside k hk
        omega
    rw [addAll_tiles ta']
    dsimp only
    have := add_fits (p := ⟨(before.length : Nat), (before.length + (t.chars e).length : Nat)⟩)
      (l := [t.name.at (before.length + 1)]) (r := []) (x := .mk ⟨((before.length + 1 + t.name.chars.length + a.sep.length : Nat) : Int),
        ((before.length + 1 + t.name.chars.length + (attrsChars (a :: as)).length : Nat) : Int)⟩ (some "attributes") none
        ([] ++ a.at (before.length + 1 + t.name.chars.length) ::
          attrsAt (before.length + 1 + t.name.chars.length + a.chars.length) as)) (by
      refine tn.append (m' := ((before.length + 1 + t.name.chars.length : Nat) : Int)) ?_ (Int.le_refl _) (by omega)
        (by dsimp only; omega)
      refine XTiles.single ?_ ?_ ?_
      · rw [mk_start]; dsimp only; omega
      · rw [mk_start, mk_stop]; dsimp only; omega
      · rw [mk_stop]; dsimp only; omega)
    exact this

/-- **C85, end tags.** Within an end tag as written is the Ito of its name. -/
theorem C85_end_tag_partial {t : ETag} (ht : t.OK) (before after : List Char) :
    endKids ⟨before ++ t.chars ++ after, ⟨(before.length : Nat), (before.length + t.chars.length : Nat)⟩,
      some "end_tag"⟩ = .ok [t.name.at (before.length + 2)] := by
  generalize hT : before ++ t.chars ++ after = T
  have hlen : T.length = before.length + t.chars.length + after.length := by rw [← hT]; simp; omega
  have hsl : t.chars.length = 2 + t.name.chars.length + t.trail.length + 1 := by simp [ETag.chars]; omega
  have hqf := qname_fits ht.name (before.length + 2)
  have hql := hqf.lt
  have haf : AfterName (t.trail ++ ['>']) := by
    have hf := ht.first
    cases hc : t.trail with
    | nil => exact Or.inr (Or.inl rfl)
    | cons x xs =>
      rw [hc] at hf
      exact Or.inl ⟨xs ++ ['>'], by rw [hf x rfl]; rfl⟩
  have h1 : finditer tagRe before.length t.chars = [⟨before.length, before.length + 2 + t.name.chars.length,
      nameCaps (before.length + 2) (t.name.pre.map List.length) (before.length + 2 + t.name.chars.length)⟩] := by
    have := tag_close ht.name haf (by
      have h2 := ws_not ht.trail '<' (by decide)
      simp [h2]) before.length
    rw [← this]
    congr 1
    simp [ETag.chars]
  have e1 : extractRe tagRe tagKeys ⟨T, ⟨(before.length : Nat), (before.length + t.chars.length : Nat)⟩,
      some "end_tag"⟩ = .ok [t.name.at (before.length + 2)] := by
    refine extractRe_known hT.symm h1 ?_
    rw [List.map_cons, List.map_cons, fromMatch_tag hqf (by omega)]
    rfl
  unfold endKids
  rw [e1]
  dsimp only
  rw [addAll_tiles (l := []) (XTiles.single (by rw [qname_at_start]; dsimp only; omega)
    (by rw [qname_at_start, qname_at_stop]; omega) (by rw [qname_at_stop]; dsimp only; omega))]
  rfl

end Pawpaw.Props
