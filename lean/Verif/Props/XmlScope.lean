import Verif.Props.XmlNs
/-!
# C88–C91: prefix map, parent element, default namespace, texts
-/
set_option linter.unusedSectionVars false
set_option linter.unusedSimpArgs false
namespace Pawpaw.Props
open Pawpaw Pawpaw.Query Pawpaw.XmlHelper Pawpaw.Regex XmlSpec QuerySpec TreeSpec PyStr

/-! ### C88 -/

theorem str_text (d : Doc) (o : Option Path) : d.str o = (textOf d o).getD "None".toList := by cases o <;> rfl

/-- The fold of `get_prefix_map` in terms of texts. -/
theorem prefix_fold (d : Doc) (l : List (QN × Option Path)) : ∀ acc : List (List Char × List Char),
    (l.filter fun kv => kv.1.pre.isSome).foldl
      (fun acc kv => dictPut (fun a b => decide (a = b)) (d.str kv.1.loc) (d.str kv.2) acc) acc =
    ((l.map (entryText d)).filter fun t => t.1.isSome).foldl
      (fun acc t => dictPut (fun a b => decide (a = b)) (t.2.1.getD "None".toList) (t.2.2.getD "None".toList) acc) acc := by
  induction l with
  | nil => intro acc; rfl
  | cons kv l ih =>
    intro acc
    have hp : (entryText d kv).1.isSome = kv.1.pre.isSome := by
      show (textOf d kv.1.pre).isSome = _
      cases kv.1.pre <;> rfl
    rw [List.map_cons, List.filter_cons, List.filter_cons, hp]
    split
    · rw [List.foldl_cons, List.foldl_cons, ih, str_text, str_text]
      rfl
    · exact ih acc

theorem fold_put (as : List Attr) : ∀ acc : List (List Char × List Char),
    (as.map (·.name.loc)).Nodup → (∀ a ∈ as, ∀ kv ∈ acc, kv.1 ≠ a.name.loc) →
    (as.map attrEntry).foldl
      (fun acc t => dictPut (fun a b => decide (a = b)) (t.2.1.getD "None".toList) (t.2.2.getD "None".toList) acc) acc =
      acc ++ as.map (fun a => (a.name.loc, a.val)) := by
  induction as with
  | nil => intro acc _ _; simp
  | cons a as ih =>
    intro acc hn ha
    rw [List.map_cons, List.nodup_cons] at hn
    rw [List.map_cons, List.foldl_cons]
    show List.foldl _ (dictPut _ a.name.loc a.val acc) _ = _
    rw [dictPut_new _ _ _ _ (fun kv hkv => decide_eq_false (ha a (by simp) kv hkv)), ih _ hn.2, List.map_cons]
    · simp
    · intro b hb kv hkv
      rw [List.mem_append, List.mem_singleton] at hkv
      rcases hkv with hkv | rfl
      · exact ha b (by simp [hb]) kv hkv
      · intro e
        apply hn.1
        rw [List.mem_map]
        exact ⟨b, hb, e.symm⟩

/-- **C88 (partial).** `get_prefix_map` gives exactly the prefixes declared in the element's start tag with their
namespaces, in order, when no prefix is declared twice (which XML forbids) and no value of an attribute with a prefix
reads like the name of a declaration. Missing: such values (`C88_value_violated`), and what `DElem.OK` excludes. -/
theorem C88_prefix_map_partial (X : Ext) (keep : List Char → Bool) (d : Doc) (x : Path) (e : DElem)
    (h : ElemAt keep d x e) (hv : ∀ a ∈ e.tag.attrs, a.name.pre ≠ none → ¬ NsLike a.val)
    (hu : ((e.tag.attrs.filter fun a => decide a.IsPrefix).map (·.name.loc)).Nodup) :
    getPrefixMap X d x = .ok ((e.tag.attrs.filter fun a => decide a.IsPrefix).map fun a => (a.name.loc, a.val)) := by
  obtain ⟨l, h1, h2⟩ := C87_exact X keep d x e h
  obtain ⟨_, _, _, _, hok⟩ := h
  have htag := dElem_tag_ok hok
  unfold getPrefixMap
  rw [h1]
  simp only
  rw [prefix_fold, h2, List.filter_map, List.filter_filter]
  have : e.tag.attrs.filter (fun a => ((fun t : Option (List Char) × Option (List Char) × Option (List Char) => t.1.isSome) ∘ attrEntry) a &&
      decide (NsLike a.name.chars ∨ NsLike a.val)) = e.tag.attrs.filter fun a => decide a.IsPrefix := by
    apply List.filter_congr
    intro a ha
    rw [Bool.eq_iff_iff, Bool.and_eq_true, decide_eq_true_eq, decide_eq_true_eq, nsLike_name a (htag.attrs a ha).name]
    show a.name.pre.isSome = true ∧ _ ↔ _
    have hva := hv a ha
    unfold Attr.IsDefault Attr.IsPrefix
    cases hp : a.name.pre with
    | none => simp
    | some p =>
      have := hva (by simp [hp])
      simp [this]
  rw [this, fold_put _ [] hu (by simp)]
  rfl

/-! ### C89 and C90: elements within elements -/

/-- Nothing in this tree is an element. -/
def NoElem (n : Node) : Prop := ∀ y m, n.get? y = some m → m.desc ≠ some "element"

theorem noElem_mk {s : Span} {D : Option String} {v : Option Nat} {ks : List Node} (hD : D ≠ some "element")
    (hk : ∀ k ∈ ks, NoElem k) : NoElem (.mk s D v ks) := by
  intro y m h
  cases y with
  | nil => rw [Node.get?] at h; cases h; exact hD
  | cons i y =>
    rw [Node.get?] at h
    cases hi : ks[i]? with
    | none => rw [hi] at h; cases h
    | some k =>
      rw [hi] at h
      exact hk k (List.mem_of_getElem? hi) y m h

theorem noElem_leaf {s : Span} {D : Option String} (hD : D ≠ some "element") : NoElem (.leaf s D) :=
  noElem_mk hD (by simp)

theorem noElem_name (p : Nat) (pre : Option Nat) (q : Nat) : NoElem (nameAt p pre q) := by
  apply noElem_mk (by decide)
  cases pre with
  | none => intro k hk; simp at hk; subst hk; exact noElem_leaf (by decide)
  | some a =>
    intro k hk
    simp at hk
    rcases hk with rfl | rfl <;> exact noElem_leaf (by decide)

theorem noElem_attrs : ∀ (as : List Attr) (p : Nat), ∀ k ∈ attrsAt p as, NoElem k
  | [], _ => by simp [attrsAt]
  | a :: as, p => by
    rw [attrsAt]
    intro k hk
    rw [List.mem_cons] at hk
    rcases hk with rfl | hk
    · apply noElem_mk (by decide)
      intro k hk
      simp only [List.mem_cons, List.not_mem_nil, or_false] at hk
      rcases hk with rfl | rfl
      · exact noElem_name _ _ _
      · exact noElem_leaf (by decide)
    · exact noElem_attrs as _ k hk

theorem noElem_tag (t : STag) (p : Nat) : ∀ k ∈ t.kids p, NoElem k := by
  unfold STag.kids
  intro k hk
  rw [List.mem_cons] at hk
  rcases hk with rfl | hk
  · exact noElem_name _ _ _
  · cases ha : t.attrs with
    | nil => rw [ha] at hk; cases hk
    | cons a as =>
      rw [ha] at hk
      simp only [List.mem_singleton] at hk
      subst hk
      exact noElem_mk (by decide) (noElem_attrs _ _)

theorem noElem_segs : ∀ (ss : List Seg) (p : Nat), ∀ k ∈ segsAt p ss, NoElem k
  | [], _ => by simp [segsAt]
  | s :: ss, p => by
    intro k hk
    unfold segsAt at hk
    rw [List.mem_append] at hk
    rcases hk with hk | hk
    · cases s <;> simp only [List.mem_singleton, List.not_mem_nil] at hk <;> subst hk <;>
        exact noElem_mk (by decide) (fun k hk => by
          simp only [List.mem_singleton] at hk; subst hk; exact noElem_leaf (by decide))
    · exact noElem_segs ss _ k hk

theorem noElem_text (keep : List Char → Bool) (p : Nat) (ss : List Seg) : ∀ k ∈ dTextAt keep p ss, NoElem k := by
  unfold dTextAt
  split
  · intro k hk; simp only [List.mem_singleton] at hk; subst hk; exact noElem_mk (by decide) (noElem_segs ss p)
  · simp

/-- What the children of an element's Ito are. -/
theorem kids_elem (keep : List Char → Bool) : ∀ (ks : DKids) (b r : List Char), ks.OK → ∀ k ∈ ks.at keep b.length,
    NoElem k ∨ ∃ c ∈ ks.elems, ∃ b' r', k = c.at keep b'.length ∧ b ++ ks.chars ++ r = b' ++ c.chars ++ r' ∧ c.OK
  | .nil, _, _, _ => by simp [DKids.at]
  | .cons e ss ks, b, r, hok => by
    rw [DKids.at]
    simp only [DKids.OK] at hok
    have hch : (DKids.cons e ss ks).chars = e.chars ++ segsChars ss ++ ks.chars := by
      simp [DKids.chars, DKids.plain, renderK, DElem.chars]
    intro k hk
    simp only [List.mem_cons, List.mem_append] at hk
    rcases hk with rfl | hk | hk
    · right
      exact ⟨e, by simp [DKids.elems], b, segsChars ss ++ ks.chars ++ r, rfl, by rw [hch]; simp, hok.1⟩
    · exact Or.inl (noElem_text _ _ _ k hk)
    · have := kids_elem keep ks (b ++ e.chars ++ segsChars ss) r hok.2.2 k (by
        rw [show (b ++ e.chars ++ segsChars ss).length = b.length + e.chars.length + (segsChars ss).length by simp; omega]
        exact hk)
      rcases this with h | ⟨c, hc, b', r', h1, h2, h3⟩
      · exact Or.inl h
      · right
        refine ⟨c, by simp [DKids.elems, hc], b', r', h1, ?_, h3⟩
        rw [← h2, hch]; simp

theorem elem_kid (keep : List Char → Bool) (e : DElem) (b r : List Char) (hok : e.OK) : ∀ k ∈ (e.at keep b.length).kids,
    NoElem k ∨ ∃ c ∈ e.children, ∃ b' r', k = c.at keep b'.length ∧ b ++ e.chars ++ r = b' ++ c.chars ++ r' ∧ c.OK := by
  cases e with
  | empty t =>
    intro k hk
    have hk' : k = Node.mk ⟨b.length, (b.length + (t.chars ['/', '>']).length : Nat)⟩ (some "start_tag") none (t.kids b.length) :=
      List.mem_singleton.1 hk
    rw [hk']
    exact Or.inl (noElem_mk (by decide) (noElem_tag _ _))
  | node o ss ks c =>
    simp only [DElem.OK] at hok
    have hch : (DElem.node o ss ks c).chars = o.chars ['>'] ++ segsChars ss ++ ks.chars ++ c.chars := by
      simp [DElem.chars, DElem.plain, render, DKids.chars]
    intro k hk
    rw [DElem.at] at hk
    simp only [Node.kids, List.mem_cons, List.mem_append, List.not_mem_nil, or_false] at hk
    rcases hk with rfl | (hk | hk) | rfl
    · exact Or.inl (noElem_mk (by decide) (noElem_tag _ _))
    · exact Or.inl (noElem_text _ _ _ k hk)
    · have := kids_elem keep ks (b ++ o.chars ['>'] ++ segsChars ss) (c.chars ++ r) hok.2.2.2.2 k (by
        rw [show (b ++ o.chars ['>'] ++ segsChars ss).length = b.length + (o.chars ['>']).length + (segsChars ss).length by simp; omega]
        exact hk)
      rcases this with h | ⟨c', hc, b', r', h1, h2, h3⟩
      · exact Or.inl h
      · right
        refine ⟨c', hc, b', r', h1, ?_, h3⟩
        rw [← h2, hch]; simp
    · refine Or.inl (noElem_mk (by decide) ?_)
      intro k hk
      simp only [List.mem_singleton] at hk
      subst hk
      exact noElem_name _ _ _

theorem elemAt_desc {keep : List Char → Bool} {d : Doc} {x : Path} {e : DElem} (h : ElemAt keep d x e) :
    d.desc x = some "element" := by
  obtain ⟨_, _, h, _⟩ := h
  unfold Doc.desc
  rw [h]
  exact dElem_desc _ _ _

/-- Every Ito with the desc `element` below the Ito of an element is that of an element within. -/
theorem elem_cover (keep : List Char → Bool) (d : Doc) : ∀ (p x : Path) (e : DElem), ElemAt keep d x e →
    d.desc (x ++ p) = some "element" → p = [] ∨
      ∃ y i e' c, p = y ++ [i] ∧ ElemAt keep d (x ++ y) e' ∧ ElemAt keep d (x ++ p) c ∧ c ∈ e'.children
  | [], _, _, _, _ => Or.inl rfl
  | i :: p, x, e, h, hd => by
    right
    obtain ⟨b, r, h1, h2, hok⟩ := h
    have hg := get?_snoc h1 i
    cases hi : (e.at keep b.length).kids[i]? with
    | none =>
      exfalso
      rw [hi] at hg
      unfold Doc.desc at hd
      rw [show x ++ i :: p = x ++ [i] ++ p by simp, Node.get?_append, hg] at hd
      cases hd
    | some k =>
      rw [hi] at hg
      rcases elem_kid keep e b r hok k (List.mem_of_getElem? hi) with hn | ⟨c, hc, b', r', hk, hs, hcok⟩
      · exfalso
        unfold Doc.desc at hd
        rw [show x ++ i :: p = x ++ [i] ++ p by simp, Node.get?_append, hg] at hd
        cases hm : k.get? p with
        | none => simp [hm] at hd
        | some m => simp [hm] at hd; exact hn p m hm hd
      · have hc' : ElemAt keep d (x ++ [i]) c := ⟨b', r', by rw [hg, hk], by rw [h2, hs], hcok⟩
        rcases elem_cover keep d p (x ++ [i]) c hc' (by rw [← hd]; simp) with rfl | ⟨y, j, e', c', q1, q2, q3, q4⟩
        · exact ⟨[], i, e, c, rfl, by simpa using ⟨b, r, h1, h2, hok⟩, hc', hc⟩
        · refine ⟨i :: y, j, e', c', by rw [q1]; rfl, ?_, ?_, q4⟩
          · simpa using q2
          · simpa using q3

theorem self_within (e : DElem) : e ∈ e.within := by cases e <;> simp [DElem.within]

theorem kids_within : ∀ (ks : DKids) (c : DElem), c ∈ ks.elems → ∀ x ∈ c.within, x ∈ ks.within
  | .nil, c, h => by simp [DKids.elems] at h
  | .cons e _ ks, c, h => by
    intro x hx
    rw [DKids.elems, List.mem_cons] at h
    rw [DKids.within, List.mem_append]
    rcases h with rfl | h
    · exact Or.inl hx
    · exact Or.inr (kids_within ks c h x hx)

theorem child_within (e c : DElem) (h : c ∈ e.children) : ∀ x ∈ c.within, x ∈ e.within := by
  cases e with
  | empty t => simp [DElem.children] at h
  | node o ss ks cl =>
    intro x hx
    rw [DElem.within]
    exact List.mem_cons_of_mem _ (kids_within ks c h x hx)

/-- Every Ito with the desc `element` below the Ito of an element is that of one of the elements within it. -/
theorem within_cover (keep : List Char → Bool) (d : Doc) : ∀ (p x : Path) (e : DElem), ElemAt keep d x e →
    d.desc (x ++ p) = some "element" → ∃ c ∈ e.within, ElemAt keep d (x ++ p) c
  | [], x, e, h, _ => ⟨e, self_within e, by simpa using h⟩
  | i :: p, x, e, h, hd => by
    obtain ⟨b, r, h1, h2, hok⟩ := h
    have hg := get?_snoc h1 i
    cases hi : (e.at keep b.length).kids[i]? with
    | none =>
      exfalso
      rw [hi] at hg
      unfold Doc.desc at hd
      rw [show x ++ i :: p = x ++ [i] ++ p by simp, Node.get?_append, hg] at hd
      cases hd
    | some k =>
      rw [hi] at hg
      rcases elem_kid keep e b r hok k (List.mem_of_getElem? hi) with hn | ⟨c, hc, b', r', hk, hs, hcok⟩
      · exfalso
        unfold Doc.desc at hd
        rw [show x ++ i :: p = x ++ [i] ++ p by simp, Node.get?_append, hg] at hd
        cases hm : k.get? p with
        | none => simp [hm] at hd
        | some m => simp [hm] at hd; exact hn p m hm hd
      · have hc' : ElemAt keep d (x ++ [i]) c := ⟨b', r', by rw [hg, hk], by rw [h2, hs], hcok⟩
        obtain ⟨c', q1, q2⟩ := within_cover keep d p (x ++ [i]) c hc' (by rw [← hd]; simp)
        exact ⟨c', child_within e c hc c' q1, by simpa using q2⟩

/-- The Ito tree and text of a whole document. -/
def docOf (keep : List Char → Bool) (root : DElem) (before after : List Char) : Doc :=
  ⟨root.at keep before.length, before ++ root.chars ++ after⟩

theorem docOf_root (keep : List Char → Bool) (root : DElem) (before after : List Char) (h : root.OK) :
    ElemAt keep (docOf keep root before after) [] root := by
  refine ⟨before, after, ?_, rfl, h⟩
  show Node.get? _ [] = _
  rw [Node.get?]
  rfl

/-! ### Ancestors -/

theorem ancestors_snoc (y : Path) (i : Nat) : Query.ancestors (y ++ [i]) = y :: Query.ancestors y := by
  rw [Query.ancestors]
  split
  · rename_i h; simp [Query.parent] at h
  · rename_i q h
    simp [Query.parent] at h
    rw [← h]

theorem ancestors_nil : Query.ancestors [] = [] := by
  rw [Query.ancestors]
  split
  · rfl
  · rename_i q h; simp [Query.parent] at h

theorem path_snoc_induction {P : Path → Prop} (h0 : P []) (h1 : ∀ y i, P y → P (y ++ [i])) (x : Path) : P x := by
  have : ∀ r : List Nat, P r.reverse := by
    intro r
    induction r with
    | nil => exact h0
    | cons i r ih => rw [List.reverse_cons]; exact h1 _ i ih
  simpa using this x.reverse

/-- The first ancestor with a property is the nearest one. -/
theorem ancestors_find (P : Path → Bool) (x : Path) :
    (∃ y, (Query.ancestors x).find? P = some y ∧ y <+: x ∧ y.length < x.length ∧ P y = true ∧
      ∀ z, z <+: x → y.length < z.length → z.length < x.length → P z = false) ∨
    ((Query.ancestors x).find? P = none ∧ ∀ z, z <+: x → z.length < x.length → P z = false) := by
  induction x using path_snoc_induction with
  | h0 => exact Or.inr ⟨by rw [ancestors_nil]; rfl, fun z _ h => absurd h (by simp)⟩
  | h1 y i ih =>
    rw [ancestors_snoc, List.find?_cons]
    have hpre : ∀ z : Path, z <+: y ++ [i] → z.length < (y ++ [i]).length → z <+: y := by
      intro z hz hl
      rcases List.prefix_concat_iff.1 hz with h | h
      · exfalso; rw [h] at hl; simp at hl
      · exact h
    cases hP : P y with
    | true =>
      left
      refine ⟨y, rfl, List.prefix_append _ _, by simp, hP, ?_⟩
      intro z hz h1 h2
      simp at h2
      omega
    | false =>
      rcases ih with ⟨w, h1, h2, h3, h4, h5⟩ | ⟨h1, h2⟩
      · left
        refine ⟨w, h1, h2.trans (List.prefix_append _ _), by simp; omega, h4, ?_⟩
        intro z hz hl1 hl2
        have hz' := hpre z hz hl2
        by_cases he : z.length = y.length
        · rw [hz'.eq_of_length he]; exact hP
        · exact h5 z hz' hl1 (by have := hz'.length_le; omega)
      · right
        refine ⟨h1, ?_⟩
        intro z hz hl
        have hz' := hpre z hz hl
        by_cases he : z.length = y.length
        · rw [hz'.eq_of_length he]; exact hP
        · exact h2 z hz' (by have := hz'.length_le; omega)

/-! ### C90: parent -/

theorem hasDesc_iff (d : Doc) (D : String) (y : Path) : hasDesc d.tree D y = true ↔ d.desc y = some D := by
  unfold hasDesc Doc.desc
  exact decide_eq_true_iff

/-- **C90.** In any tree, the parent element of an element is its nearest ancestor that is an element. -/
theorem C90_nearest (X : Ext) (d : Doc) (x : Path) :
    (∃ y, getParentElement X d x = .ok (some y) ∧ y <+: x ∧ y.length < x.length ∧ d.desc y = some "element" ∧
      ∀ z, z <+: x → y.length < z.length → z.length < x.length → d.desc z ≠ some "element") ∨
    (getParentElement X d x = .ok none ∧ ∀ z, z <+: x → z.length < x.length → d.desc z ≠ some "element") := by
  have hf : getParentElement X d x = .ok ((Query.ancestors x).find? (hasDesc d.tree "element")) := find_parent X _ x
  have hneg : ∀ z, hasDesc d.tree "element" z = false → d.desc z ≠ some "element" := by
    intro z hz he
    rw [(hasDesc_iff d "element" z).2 he] at hz
    cases hz
  rcases ancestors_find (hasDesc d.tree "element") x with ⟨y, h1, h2, h3, h4, h5⟩ | ⟨h1, h2⟩
  · exact Or.inl ⟨y, by rw [hf, h1], h2, h3, (hasDesc_iff d _ _).1 h4, fun z a b c => hneg z (h5 z a b c)⟩
  · exact Or.inr ⟨by rw [hf, h1], fun z a b => hneg z (h2 z a b)⟩

/-- **C90.** In a parsed document, the parent element of the root is `None`; of any other element, it is the element
that directly contains it. -/
theorem C90_parent (X : Ext) (keep : List Char → Bool) (root : DElem) (before after : List Char) (h : root.OK) (x : Path)
    (hx : (docOf keep root before after).desc x = some "element") :
    (x = [] ∧ getParentElement X (docOf keep root before after) x = .ok none) ∨
    ∃ y i p c, x = y ++ [i] ∧ getParentElement X (docOf keep root before after) x = .ok (some y) ∧
      ElemAt keep (docOf keep root before after) y p ∧ ElemAt keep (docOf keep root before after) x c ∧ c ∈ p.children := by
  have hf : ∀ x, getParentElement X (docOf keep root before after) x =
    .ok ((Query.ancestors x).find? (hasDesc (docOf keep root before after).tree "element")) := fun x => find_parent X _ x
  have := elem_cover keep _ x [] root (docOf_root keep root before after h) (by simpa using hx)
  rcases this with rfl | ⟨y, i, p, c, h1, h2, h3, h4⟩
  · left
    refine ⟨rfl, ?_⟩
    rw [hf, ancestors_nil]
    rfl
  · right
    rw [List.nil_append] at h2 h3
    refine ⟨y, i, p, c, h1, ?_, h2, h3, h4⟩
    rw [hf, h1, ancestors_snoc, List.find?_cons, (hasDesc_iff _ _ _).2 (elemAt_desc h2)]

/-- **C90.** `reverse_find` gives the nearest element, counting from the given one upwards, that passes the test; `None`
when none does. -/
theorem C90_reverse_find (X : Ext) (d : Doc) (test : Path → Bool) (x : Path) :
    (∃ y, reverseFind X d (fun p => .ok (test p)) x = .ok (some y) ∧ y <+: x ∧ test y = true ∧
      (y = x ∨ d.desc y = some "element") ∧
      ∀ z, z <+: x → y.length < z.length → (z = x ∨ d.desc z = some "element") → test z = false) ∨
    (reverseFind X d (fun p => .ok (test p)) x = .ok none ∧
      ∀ z, z <+: x → (z = x ∨ d.desc z = some "element") → test z = false) := by
  have : ∀ (n : Nat) (x : Path), x.length < n →
      (∃ y, reverseLoop X d (fun p => .ok (test p)) n x = .ok (some y) ∧ y <+: x ∧ test y = true ∧
        (y = x ∨ d.desc y = some "element") ∧
        ∀ z, z <+: x → y.length < z.length → (z = x ∨ d.desc z = some "element") → test z = false) ∨
      (reverseLoop X d (fun p => .ok (test p)) n x = .ok none ∧
        ∀ z, z <+: x → (z = x ∨ d.desc z = some "element") → test z = false) := by
    intro n
    induction n with
    | zero => intro x h; omega
    | succ n ih =>
      intro x hx
      cases ht : test x with
      | true =>
        left
        refine ⟨x, by rw [reverseLoop, ht], List.prefix_refl x, ht, Or.inl rfl, ?_⟩
        intro z hz hl
        have := hz.length_le
        omega
      | false =>
        have hstep : reverseLoop X d (fun p => .ok (test p)) (n + 1) x = match getParentElement X d x with
            | .error e => .error e
            | .ok none => .ok none
            | .ok (some y) => reverseLoop X d (fun p => .ok (test p)) n y := by
          rw [reverseLoop, ht]
          rfl
        rcases C90_nearest X d x with ⟨w, g1, g2, g3, g4, g5⟩ | ⟨g1, g2⟩
        · rw [hstep, g1]
          simp only
          have hlow : ∀ z, z <+: x → w.length < z.length → (z = x ∨ d.desc z = some "element") → test z = false := by
            intro z hz hl hze
            by_cases he : z.length = x.length
            · rw [hz.eq_of_length he]; exact ht
            · rcases hze with hze | hze
              · rw [hze] at he; exact absurd rfl he
              · exact absurd hze (g5 z hz hl (by have := hz.length_le; omega))
          have hup : ∀ z, z <+: x → ¬ w.length < z.length → z <+: w := fun z hz hl =>
            List.prefix_of_prefix_length_le hz g2 (by omega)
          rcases ih w (by omega) with ⟨y, k1, k2, k3, k4, k5⟩ | ⟨k1, k2⟩
          · left
            refine ⟨y, k1, k2.trans g2, k3, ?_, ?_⟩
            · rcases k4 with rfl | k4
              · exact Or.inr g4
              · exact Or.inr k4
            · intro z hz hl hze
              by_cases hc : w.length < z.length
              · exact hlow z hz hc hze
              · refine k5 z (hup z hz hc) hl ?_
                rcases hze with rfl | hze
                · omega
                · exact Or.inr hze
          · right
            refine ⟨k1, ?_⟩
            intro z hz hze
            by_cases hc : w.length < z.length
            · exact hlow z hz hc hze
            · refine k2 z (hup z hz hc) ?_
              rcases hze with rfl | hze
              · omega
              · exact Or.inr hze
        · right
          rw [hstep, g1]
          refine ⟨rfl, ?_⟩
          intro z hz hze
          by_cases he : z.length = x.length
          · rw [hz.eq_of_length he]; exact ht
          · rcases hze with hze | hze
            · rw [hze] at he; exact absurd rfl he
            · exact absurd hze (g2 z hz (by have := hz.length_le; omega))
  exact this (x.length + 1) x (by omega)

/-! ### C89: default namespace -/

theorem find_entry (d : Doc) (l : List (QN × Option Path)) :
    textOf d ((l.find? fun kv => kv.1.pre.isNone).bind Prod.snd) =
      ((l.map (entryText d)).find? fun t => t.1.isNone).bind (·.2.2) := by
  induction l with
  | nil => rfl
  | cons kv l ih =>
    have hp : (entryText d kv).1.isNone = kv.1.pre.isNone := by
      show (textOf d kv.1.pre).isNone = _
      cases kv.1.pre <;> rfl
    rw [List.map_cons, List.find?_cons, List.find?_cons, hp]
    cases kv.1.pre.isNone with
    | true => rfl
    | false => exact ih

/-- The default namespace declared by an element itself. -/
theorem xmlns_default (X : Ext) (keep : List Char → Bool) (d : Doc) (x : Path) (e : DElem) (h : ElemAt keep d x e)
    (hv : ∀ a ∈ e.tag.attrs, a.name.pre = none → ¬ NsLike a.val) :
    ∃ l, getXmlns X d x = .ok l ∧ textOf d ((l.find? fun kv => kv.1.pre.isNone).bind Prod.snd) =
      (e.tag.attrs.find? fun a => decide a.IsDefault).map Attr.val := by
  obtain ⟨l, h1, h2⟩ := C87_exact X keep d x e h
  obtain ⟨_, _, _, _, hok⟩ := h
  have htag := dElem_tag_ok hok
  refine ⟨l, h1, ?_⟩
  rw [find_entry, h2]
  have hall := htag.attrs
  generalize e.tag.attrs = as at *
  clear h2
  induction as with
  | nil => rfl
  | cons a as ih =>
    have ih := ih (fun b hb => hv b (by simp [hb])) (fun b hb => hall b (by simp [hb]))
    have ha := nsLike_name a (hall a (by simp)).name
    have hva := hv a (by simp)
    rw [List.filter_cons, List.find?_cons]
    by_cases hd : a.IsDefault
    · rw [if_pos (decide_eq_true (Or.inl (ha.2 (Or.inl hd)))), decide_eq_true hd, List.map_cons, List.find?_cons]
      have : (attrEntry a).1.isNone = true := by show a.name.pre.isNone = true; rw [hd.1]; rfl
      rw [this]
      rfl
    · rw [decide_eq_false hd]
      simp only
      split
      · rename_i hn
        rw [List.map_cons, List.find?_cons]
        have : (attrEntry a).1.isNone = false := by
          show a.name.pre.isNone = false
          cases hp : a.name.pre with
          | some p => rfl
          | none =>
            exfalso
            rcases of_decide_eq_true hn with hn | hn
            · rcases ha.1 hn with hn | hn
              · exact hd hn
              · unfold Attr.IsPrefix at hn; rw [hp] at hn; cases hn
            · exact hva hp hn
        rw [this]
        exact ih
      · exact ih

/-- Nothing counts as a declaration of a default namespace: none is declared. -/
theorem xmlns_none (X : Ext) (keep : List Char → Bool) (d : Doc) (x : Path) (e : DElem) (h : ElemAt keep d x e)
    (l : List (QN × Option Path)) (hl : getXmlns X d x = .ok l)
    (hn : (l.find? fun kv => kv.1.pre.isNone).bind Prod.snd = none) : ∀ a ∈ e.tag.attrs, ¬ a.IsDefault := by
  intro a ha hd
  obtain ⟨l', h1, h2⟩ := C87_exact X keep d x e h
  rw [hl] at h1
  cases h1
  have hf := find_entry d l
  rw [hn, h2] at hf
  obtain ⟨_, _, _, _, hok⟩ := h
  have htag := dElem_tag_ok hok
  have hna := (nsLike_name a (htag.attrs a ha).name).2 (Or.inl hd)
  have hmem : attrEntry a ∈ (e.tag.attrs.filter fun a => decide (NsLike a.name.chars ∨ NsLike a.val)).map attrEntry :=
    List.mem_map.2 ⟨a, List.mem_filter.2 ⟨ha, decide_eq_true (Or.inl hna)⟩, rfl⟩
  cases hq : ((e.tag.attrs.filter fun a => decide (NsLike a.name.chars ∨ NsLike a.val)).map attrEntry).find? fun t => t.1.isNone with
  | none =>
    rw [List.find?_eq_none] at hq
    refine hq _ hmem ?_
    show a.name.pre.isNone = true
    rw [hd.1]
    rfl
  | some t =>
    rw [hq] at hf
    obtain ⟨b, _, rfl⟩ := List.mem_map.1 (List.mem_of_find?_eq_some hq)
    cases hf

/-- **C89 (partial).** The default namespace of an element of a parsed document is the one declared by the nearest
element, counting from the element itself upwards, that declares one; `None` if none does. Missing: attributes without
prefix whose value reads like the name of a declaration (`C89_value_violated`), and `xmlns=""`, which `DElem.OK` excludes
(`C89_undeclared_violated`). -/
theorem C89_default_namespace_partial (X : Ext) (keep : List Char → Bool) (root : DElem) (before after : List Char)
    (h : root.OK) (x : Path) (hx : (docOf keep root before after).desc x = some "element")
    (hv : ∀ e ∈ root.within, ∀ a ∈ e.tag.attrs, a.name.pre = none → ¬ NsLike a.val) :
    (∃ y e a, y <+: x ∧ ElemAt keep (docOf keep root before after) y e ∧
      e.tag.attrs.find? (fun a => decide a.IsDefault) = some a ∧
      getDefaultNamespace X (docOf keep root before after) x = .ok (some ('{' :: a.val ++ ['}'])) ∧
      ∀ z e', z <+: x → y.length < z.length → ElemAt keep (docOf keep root before after) z e' →
        ∀ a ∈ e'.tag.attrs, ¬ a.IsDefault) ∨
    (getDefaultNamespace X (docOf keep root before after) x = .ok none ∧
      ∀ z e', z <+: x → ElemAt keep (docOf keep root before after) z e' → ∀ a ∈ e'.tag.attrs, ¬ a.IsDefault) := by
  generalize hd : docOf keep root before after = d at *
  have hcov : ∀ y, d.desc y = some "element" → ∃ e ∈ root.within, ElemAt keep d y e := by
    intro y hy
    rw [← hd] at hy ⊢
    obtain ⟨c, h1, h2⟩ := within_cover keep _ y [] root (docOf_root keep root before after h) (by simpa using hy)
    exact ⟨c, h1, by simpa using h2⟩
  have : ∀ (n : Nat) (x : Path), x.length < n → d.desc x = some "element" →
      (∃ y e a, y <+: x ∧ ElemAt keep d y e ∧ e.tag.attrs.find? (fun a => decide a.IsDefault) = some a ∧
        defaultLoop X d n x = .ok (some ('{' :: a.val ++ ['}'])) ∧
        ∀ z e', z <+: x → y.length < z.length → ElemAt keep d z e' → ∀ a ∈ e'.tag.attrs, ¬ a.IsDefault) ∨
      (defaultLoop X d n x = .ok none ∧
        ∀ z e', z <+: x → ElemAt keep d z e' → ∀ a ∈ e'.tag.attrs, ¬ a.IsDefault) := by
    intro n
    induction n with
    | zero => intro x h; omega
    | succ n ih =>
      intro x hx hxd
      obtain ⟨e, hew, he⟩ := hcov x hxd
      obtain ⟨l, hl1, hl2⟩ := xmlns_default X keep d x e he (hv e hew)
      have hstep : defaultLoop X d (n + 1) x = match ((l.find? fun kv => kv.1.pre.isNone).bind Prod.snd) with
          | some v => .ok (some ('{' :: d.text v ++ ['}']))
          | none => match getParentElement X d x with
            | .error e => .error e
            | .ok none => .ok none
            | .ok (some y) => defaultLoop X d n y := by
        rw [defaultLoop, hl1]
        rfl
      cases hf : (l.find? fun kv => kv.1.pre.isNone).bind Prod.snd with
      | some v =>
        left
        rw [hf] at hl2 hstep
        cases ha : e.tag.attrs.find? (fun a => decide a.IsDefault) with
        | none => rw [ha] at hl2; cases hl2
        | some a =>
          rw [ha] at hl2
          have hl2' : d.text v = a.val := Option.some.inj hl2
          refine ⟨x, e, a, List.prefix_refl x, he, ha, by rw [hstep, ← hl2'], ?_⟩
          intro z e' hz hlt
          have := hz.length_le
          omega
      | none =>
        rw [hf] at hl2 hstep
        have hno : ∀ e', ElemAt keep d x e' → ∀ a ∈ e'.tag.attrs, ¬ a.IsDefault :=
          fun e' he' => xmlns_none X keep d x e' he' l hl1 hf
        have hxz : ∀ (w : Path), (∀ z, z <+: x → w.length < z.length → z.length < x.length → d.desc z ≠ some "element") →
            ∀ z e', z <+: x → w.length < z.length → ElemAt keep d z e' → ∀ a ∈ e'.tag.attrs, ¬ a.IsDefault := by
          intro w g5 z e' hz hlt hze
          by_cases hlen : z.length = x.length
          · rw [hz.eq_of_length hlen] at hze; exact hno e' hze
          · exact absurd (elemAt_desc hze) (g5 z hz hlt (by have := hz.length_le; omega))
        rcases C90_nearest X d x with ⟨w, g1, g2, g3, g4, g5⟩ | ⟨g1, g2⟩
        · rw [hstep, g1]
          simp only
          rcases ih w (by omega) g4 with ⟨y, e', a, k1, k2, k3, k4, k5⟩ | ⟨k1, k2⟩
          · left
            refine ⟨y, e', a, k1.trans g2, k2, k3, k4, ?_⟩
            intro z e'' hz hlt hze
            by_cases hc : w.length < z.length
            · exact hxz w g5 z e'' hz hc hze
            · exact k5 z e'' (List.prefix_of_prefix_length_le hz g2 (by omega)) hlt hze
          · right
            refine ⟨k1, ?_⟩
            intro z e'' hz hze
            by_cases hc : w.length < z.length
            · exact hxz w g5 z e'' hz hc hze
            · exact k2 z e'' (List.prefix_of_prefix_length_le hz g2 (by omega)) hze
        · right
          rw [hstep, g1]
          refine ⟨rfl, ?_⟩
          intro z e' hz hze
          by_cases hlen : z.length = x.length
          · rw [hz.eq_of_length hlen] at hze; exact hno e' hze
          · exact absurd (elemAt_desc hze) (g2 z hz (by have := hz.length_le; omega))
  exact this (x.length + 1) x (by omega) hx

/-! ### C91: texts -/

theorem dText_txt (keep : List Char → Bool) (ss : List Seg) (b r : List Char) :
    (dTextAt keep b.length ss).map (txt (b ++ segsChars ss ++ r)) =
      [segsChars ss].filter fun s => decide (s ≠ []) && keep s := by
  unfold dTextAt
  rw [List.filter_cons, List.filter_nil]
  by_cases hc : segsChars ss ≠ [] ∧ keep (segsChars ss) = true
  · rw [if_pos hc, if_pos (by simp [hc.1, hc.2])]
    rw [List.map_cons, List.map_nil]
    congr 1
    exact txt_at b (segsChars ss) r _ _ rfl rfl _ rfl
  · rw [if_neg hc, if_neg (by
      intro h
      rw [Bool.and_eq_true, decide_eq_true_eq] at h
      exact hc h)]
    rfl

theorem filter_all {τ : Type} (P : τ → Bool) (l : List τ) (h : ∀ k ∈ l, P k = true) : l.filter P = l := by
  rw [List.filter_eq_self]; exact h
theorem filter_no {τ : Type} (P : τ → Bool) (l : List τ) (h : ∀ k ∈ l, P k = false) : l.filter P = [] := by
  rw [List.filter_eq_nil_iff]; intro k hk; simp [h k hk]

/-- Whether a node is a text. -/
def isText (n : Node) : Bool := decide (n.desc = some "text")

theorem kids_texts (keep : List Char → Bool) : ∀ (ks : DKids) (b r : List Char),
    ((ks.at keep b.length).filter isText).map (txt (b ++ ks.chars ++ r)) = ks.texts.filter fun s => decide (s ≠ []) && keep s
  | .nil, _, _ => rfl
  | .cons e ss ks, b, r => by
    have hch : (DKids.cons e ss ks).chars = e.chars ++ segsChars ss ++ ks.chars := by
      simp [DKids.chars, DKids.plain, renderK, DElem.chars]
    have ih := kids_texts keep ks (b ++ e.chars ++ segsChars ss) r
    have h1 := dText_txt keep ss (b ++ e.chars) (ks.chars ++ r)
    rw [DKids.at, List.filter_cons, if_neg (by
      unfold isText; rw [dElem_desc]; decide), List.filter_append,
      filter_all isText _ (fun k hk => decide_eq_true (dText_desc _ _ _ k hk)), List.map_append]
    rw [show b ++ (DKids.cons e ss ks).chars ++ r = b ++ e.chars ++ segsChars ss ++ (ks.chars ++ r) from by rw [hch]; simp]
    rw [← List.length_append, h1, ← List.length_append,
      show b ++ e.chars ++ segsChars ss ++ (ks.chars ++ r) = b ++ e.chars ++ segsChars ss ++ ks.chars ++ r from by simp, ih]
    rw [DKids.texts, show segsChars ss :: ks.texts = [segsChars ss] ++ ks.texts from rfl, List.filter_append]

/-- **C91.** `get_text_itos` gives exactly the texts directly within the element that the parser keeps, in order. -/
theorem C91_texts (X : Ext) (keep : List Char → Bool) (d : Doc) (x : Path) (e : DElem) (h : ElemAt keep d x e) :
    (getTextItos X d x).exc = none ∧
      (getTextItos X d x).out.map d.text = e.texts.filter fun s => decide (s ≠ []) && keep s := by
  have hf : getTextItos X d x = ⟨(Query.children d.tree x).filter (hasDesc d.tree "text"), none⟩ := findAll_text X _ x
  obtain ⟨b, r, h1, h2, _⟩ := h
  rw [hf]
  refine ⟨rfl, ?_⟩
  simp only
  rw [children_filter d.tree h1, List.map_map]
  have key : ((e.at keep b.length).kids.zipIdx.filter (fun ki => decide (ki.1.desc = some "text"))).map
      (d.text ∘ fun ki => x ++ [ki.2]) = ((e.at keep b.length).kids.filter isText).map (txt d.string) := by
    rw [show (e.at keep b.length).kids.filter isText =
        ((e.at keep b.length).kids.zipIdx.filter (fun ki => isText ki.1)).map Prod.fst from by
      conv => lhs; rw [← List.zipIdx_map_fst 0 (e.at keep b.length).kids]
      rw [List.filter_map]
      rfl]
    rw [List.map_map]
    apply List.map_congr_left
    rintro ⟨k, i⟩ hk
    have hm := List.mem_zipIdx_iff_getElem?.1 (List.mem_filter.1 hk).1
    show d.text (x ++ [i]) = txt d.string k
    unfold Doc.text
    rw [get?_snoc h1, hm]
    rfl
  rw [key, h2]
  cases e with
  | empty t => rfl
  | node o ss ks c =>
    have hch : (DElem.node o ss ks c).chars = o.chars ['>'] ++ segsChars ss ++ ks.chars ++ c.chars := by
      simp [DElem.chars, DElem.plain, render, DKids.chars]
    rw [DElem.at]
    show (List.filter isText (Node.mk _ (some "start_tag") none _ :: (_ ++ _ ++ [Node.mk _ (some "end_tag") none _]))).map _ = _
    rw [List.filter_cons, if_neg (c := isText _ = true) (fun h => by unfold isText at h; exact absurd (Option.some.inj (of_decide_eq_true h)) (show ¬ "start_tag" = "text" by decide)), List.filter_append, List.filter_append,
      filter_all isText _ (fun k hk => decide_eq_true (dText_desc _ _ _ k hk)),
      filter_no isText [_] (by intro k hk; rw [List.mem_singleton] at hk; rw [hk]; rfl), List.append_nil, List.map_append]
    have t1 := dText_txt keep ss (b ++ o.chars ['>']) (ks.chars ++ c.chars ++ r)
    have t2 := kids_texts keep ks (b ++ o.chars ['>'] ++ segsChars ss) (c.chars ++ r)
    rw [show b ++ (DElem.node o ss ks c).chars ++ r = b ++ o.chars ['>'] ++ segsChars ss ++ (ks.chars ++ c.chars ++ r) from by
      rw [hch]; simp]
    rw [← List.length_append, t1, ← List.length_append,
      show b ++ o.chars ['>'] ++ segsChars ss ++ (ks.chars ++ c.chars ++ r) =
        b ++ o.chars ['>'] ++ segsChars ss ++ ks.chars ++ (c.chars ++ r) from by simp, t2]
    rw [DElem.texts, show segsChars ss :: ks.texts = [segsChars ss] ++ ks.texts from rfl, List.filter_append]

end Pawpaw.Props
