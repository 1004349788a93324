import Verif.Props.XmlHelper
/-!
# C86: qualified names of start tags and attributes
-/
set_option linter.unusedSectionVars false
set_option linter.unusedSimpArgs false
namespace Pawpaw.Props
open Pawpaw Pawpaw.Query Pawpaw.XmlHelper Pawpaw.Regex XmlSpec QuerySpec TreeSpec PyStr

/-! ### Walks with the nodes that are met -/

mutual
/-- The descendants of a node in document order, with their paths. -/
def walkN (p : Path) : Node → List (Path × Node)
  | .mk _ _ _ ks => walkNK p 0 ks
/-- Those of its children from the one with index `i` on. -/
def walkNK (p : Path) (i : Nat) : List Node → List (Path × Node)
  | [] => []
  | k :: ks => (p ++ [i], k) :: (walkN (p ++ [i]) k ++ walkNK p (i + 1) ks)
end

mutual
theorem walkN_fst (l : Int) (p : Path) : ∀ n : Node, (n.walkLevels false l p).map Prod.snd = (walkN p n).map Prod.fst
  | .mk _ _ _ ks => by
    rw [Node.walkLevels, walkN]
    exact walkNK_fst l p 0 ks
theorem walkNK_fst (l : Int) (p : Path) (i : Nat) : ∀ ks : List Node,
    (Node.walkLevelsKids false l p i ks).map Prod.snd = (walkNK p i ks).map Prod.fst
  | [] => rfl
  | k :: ks => by
    rw [Node.walkLevelsKids, walkNK]
    simp only [Bool.false_eq_true, if_false, List.map_append, List.map_cons]
    rw [walkN_fst (l + 1) (p ++ [i]) k, walkNK_fst l p (i + 1) ks, List.cons_append]
end

mutual
theorem walkN_get (t : Node) : ∀ (n : Node) (p : Path), t.get? p = some n → ∀ qm ∈ walkN p n, t.get? qm.1 = some qm.2
  | .mk s d v ks, p, h => by
    rw [walkN]
    apply walkNK_get t ks p 0
    intro j
    rw [get?_snoc h]
    simp [Node.kids]
theorem walkNK_get (t : Node) : ∀ (ks : List Node) (p : Path) (i : Nat),
    (∀ j, t.get? (p ++ [i + j]) = ks[j]?) → ∀ qm ∈ walkNK p i ks, t.get? qm.1 = some qm.2
  | [], p, i, _ => by simp [walkNK]
  | k :: ks, p, i, h => by
    have h0 : t.get? (p ++ [i]) = some k := by simpa using h 0
    intro qm hq
    rw [walkNK, List.mem_cons, List.mem_append] at hq
    rcases hq with hq | hq | hq
    · subst hq; exact h0
    · exact walkN_get t k (p ++ [i]) h0 qm hq
    · refine walkNK_get t ks p (i + 1) ?_ qm hq
      intro j
      have := h (j + 1)
      rw [show i + 1 + j = i + (j + 1) by omega, this]
      simp
end

/-- Whether a node has this desc. -/
def isD (D : String) (qm : Path × Node) : Bool := decide (qm.2.desc = some D)

/-- The text of a node. -/
def txt (s : List Char) (n : Node) : List Char := (n.flat s).text

theorem find_walk (d : Doc) {x : Path} {n : Node} (h : d.tree.get? x = some n) (D : String) :
    (walkAt d.tree false x).find? (hasDesc d.tree D) = ((walkN x n).find? (isD D)).map Prod.fst := by
  unfold walkAt
  rw [h]
  simp only
  unfold Node.walk
  rw [walkN_fst]
  have hg := walkN_get d.tree n x h
  generalize walkN x n = l at hg
  induction l with
  | nil => rfl
  | cons qm l ih =>
    rw [List.map_cons, List.find?_cons, List.find?_cons, ih (fun q hq => hg q (by simp [hq]))]
    have : hasDesc d.tree D qm.1 = isD D qm := by
      unfold hasDesc isD
      rw [hg qm (by simp)]
      rfl
    rw [this]
    cases isD D qm <;> rfl

theorem text_walk (d : Doc) {x : Path} {n : Node} (h : d.tree.get? x = some n) (D : String) :
    textOf d (((walkN x n).find? (isD D)).map Prod.fst) = ((walkN x n).find? (isD D)).map (fun qm => txt d.string qm.2) := by
  cases hf : (walkN x n).find? (isD D) with
  | none => rfl
  | some qm =>
    have := walkN_get d.tree n x h qm (List.mem_of_find?_eq_some hf)
    simp only [Option.map_some, textOf, Doc.text, this]
    rfl

theorem qualified_eq (X : Ext) (d : Doc) {x : Path} {n : Node} (h : d.tree.get? x = some n)
    (hd : n.desc = some "start_tag" ∨ n.desc = some "attribute") :
    getQualifiedName X d x = .ok ⟨((walkN x n).find? (isD "namespace")).map Prod.fst,
      ((walkN x n).find? (isD "name")).map Prod.fst⟩ := by
  unfold getQualifiedName
  rw [if_neg (by
    unfold Doc.desc
    rw [h]
    rcases hd with hd | hd <;> simp [hd])]
  rw [find_namespace, find_name]
  show Except.ok (⟨(walkAt d.tree false x).find? (hasDesc d.tree "namespace"), (walkAt d.tree false x).find? (hasDesc d.tree "name")⟩ : QN) = _
  rw [find_walk d h, find_walk d h]

/-! ### Texts -/

theorem txt_at (b s a : List Char) (i j : Int) (hi : i = b.length) (hj : j = (b.length + s.length : Nat)) (n : Node)
    (hn : n.span = ⟨i, j⟩) : txt (b ++ s ++ a) n = s := by
  unfold txt
  rw [FIto.text_eq (x := n.flat (b ++ s ++ a)) (a := b.length) (b := b.length + s.length)]
  · show ((b ++ s ++ a).take (b.length + s.length)).drop b.length = s
    rw [← List.length_append, List.take_left, List.drop_left]
  · show n.span.start = _
    rw [hn, hi]
  · show n.span.stop = _
    rw [hn, hj]

/-- What is found in the Ito of a name. -/
theorem name_find (q : QName) (y : Path) (before after : List Char) :
    ((walkN y (q.at before.length)).find? (isD "namespace")).map (fun qm => txt (before ++ q.chars ++ after) qm.2) = q.pre ∧
    ((walkN y (q.at before.length)).find? (isD "name")).map (fun qm => txt (before ++ q.chars ++ after) qm.2) = some q.loc := by
  obtain ⟨pre, loc⟩ := q
  cases pre with
  | none =>
    have e : walkN y (QName.at ⟨none, loc⟩ before.length) =
        [(y ++ [0], .leaf ⟨before.length, (before.length + loc.length : Nat)⟩ (some "name"))] := rfl
    rw [e]
    refine ⟨rfl, ?_⟩
    show some (txt _ _) = some loc
    congr 1
    exact txt_at before loc after _ _ rfl rfl _ rfl
  | some p =>
    have e : walkN y (QName.at ⟨some p, loc⟩ before.length) =
        [(y ++ [0], .leaf ⟨before.length, (before.length + p.length : Nat)⟩ (some "namespace")),
         (y ++ [1], .leaf ⟨(before.length + p.length + 1 : Nat), (before.length + (p ++ ':' :: loc).length : Nat)⟩ (some "name"))] := rfl
    rw [e]
    constructor
    · show some (txt _ _) = some p
      congr 1
      have := txt_at before p (':' :: loc ++ after) _ _ rfl rfl (.leaf ⟨before.length, (before.length + p.length : Nat)⟩ (some "namespace")) rfl
      simpa [QName.chars] using this
    · show some (txt _ _) = some loc
      congr 1
      have := txt_at (before ++ p ++ [':']) loc after (before.length + p.length + 1 : Nat) (before.length + (p ++ ':' :: loc).length : Nat)
        (by simp; omega) (by simp; omega) (.leaf ⟨(before.length + p.length + 1 : Nat), (before.length + (p ++ ':' :: loc).length : Nat)⟩ (some "name")) rfl
      simpa [QName.chars] using this

theorem isD_name (q : QName) (p : Nat) (y : Path) (D : String) (h : D ≠ "tag") : isD D (y, q.at p) = false := by
  unfold isD
  apply decide_eq_false
  intro e
  exact h (Option.some.inj e).symm

theorem leaf_walk (y : Path) (s : Span) (D : Option String) : walkN y (.leaf s D) = [] := rfl

/-- What is found in the Ito of an attribute. -/
theorem attr_find (a : Attr) (y : Path) (before after : List Char) :
    ((walkN y (a.at before.length)).find? (isD "namespace")).map (fun qm => txt (before ++ a.chars ++ after) qm.2) = a.name.pre ∧
    ((walkN y (a.at before.length)).find? (isD "name")).map (fun qm => txt (before ++ a.chars ++ after) qm.2) = some a.name.loc := by
  have e : ∃ v : Span, walkN y (a.at before.length) = (y ++ [0], a.name.at (before ++ a.sep).length) ::
      (walkN (y ++ [0]) (a.name.at (before ++ a.sep).length) ++ [(y ++ [1], .leaf v (some "value"))]) := by
    refine ⟨⟨(before.length + a.sep.length + a.name.chars.length + 2 : Nat), (before.length + a.chars.length - 1 : Nat)⟩, ?_⟩
    rw [List.length_append]
    rfl
  obtain ⟨v, e⟩ := e
  have hs : before ++ a.chars ++ after = (before ++ a.sep) ++ a.name.chars ++ ('=' :: '"' :: a.val ++ ['"'] ++ after) := by
    simp [Attr.chars, Attr.body]
  obtain ⟨h1, h2⟩ := name_find a.name (y ++ [0]) (before ++ a.sep) ('=' :: '"' :: a.val ++ ['"'] ++ after)
  rw [← hs] at h1 h2
  rw [e]
  constructor
  · rw [List.find?_cons, isD_name _ _ _ _ (by decide)]
    simp only [List.find?_append, List.find?_cons, List.find?_nil]
    have : isD "namespace" (y ++ [1], Node.leaf v (some "value")) = false := by unfold isD; exact decide_eq_false (fun e => absurd (Option.some.inj e) (by decide))
    rw [this]
    simp only [Option.or_none]
    exact h1
  · rw [List.find?_cons, isD_name _ _ _ _ (by decide)]
    simp only [List.find?_append, List.find?_cons, List.find?_nil]
    have : isD "name" (y ++ [1], Node.leaf v (some "value")) = false := by unfold isD; exact decide_eq_false (fun e => absurd (Option.some.inj e) (by decide))
    rw [this]
    simp only [Option.or_none]
    exact h2

/-- **C86.** The qualified name of an attribute is its prefix and local part as written. -/
theorem C86_attribute (X : Ext) (d : Doc) (x : Path) (a : Attr) (h : AttrAt d x a) :
    ∃ qn, getQualifiedName X d x = .ok qn ∧ textOf d qn.pre = a.name.pre ∧ textOf d qn.loc = some a.name.loc := by
  obtain ⟨b, r, h1, h2⟩ := h
  refine ⟨_, qualified_eq X d h1 (Or.inr rfl), ?_, ?_⟩
  · rw [text_walk d h1, h2]; exact (attr_find a x b r).1
  · rw [text_walk d h1, h2]; exact (attr_find a x b r).2

/-- The first prefix met within the Itos of attributes. -/
theorem attrs_find (z : Path) : ∀ (as : List Attr) (i : Nat) (before after : List Char),
    ((walkNK z i (attrsAt before.length as)).find? (isD "namespace")).map (fun qm => txt (before ++ attrsChars as ++ after) qm.2) =
      firstPre (as.map Attr.name)
  | [], _, _, _ => rfl
  | a :: as, i, before, after => by
    have ih := attrs_find z as (i + 1) (before ++ a.chars) after
    have hs : before ++ attrsChars (a :: as) ++ after = before ++ a.chars ++ attrsChars as ++ after := by simp [attrsChars]
    have h1 := (attr_find a (z ++ [i]) before (attrsChars as ++ after)).1
    have hs2 : before ++ a.chars ++ (attrsChars as ++ after) = before ++ a.chars ++ attrsChars as ++ after := by simp
    rw [hs2] at h1
    rw [hs, attrsAt, walkNK, List.find?_cons, show isD "namespace" (z ++ [i], a.at before.length) = false from by
      unfold isD; apply decide_eq_false; intro e; exact absurd (Option.some.inj e) (by decide)]
    simp only [List.find?_append, List.map_cons, firstPre]
    rw [← List.length_append]
    cases hf : (walkN (z ++ [i]) (a.at before.length)).find? (isD "namespace") with
    | none =>
      rw [hf] at h1
      rw [← h1]
      simpa using ih
    | some qm =>
      rw [hf] at h1
      rw [← h1]
      rfl

/-- **C86, exactly.** What is given as the prefix of a start tag: its own if it has one, else the first one that occurs
among the names of its attributes. The local part is that of the start tag. -/
theorem C86_start_tag_exact (X : Ext) (d : Doc) (x : Path) (t : STag) (e : List Char) (h : STagAt d x t e) :
    ∃ qn, getQualifiedName X d x = .ok qn ∧ textOf d qn.pre = firstPre (t.name :: t.attrs.map Attr.name) ∧
      textOf d qn.loc = some t.name.loc := by
  obtain ⟨b, r, h2, h1⟩ := h
  refine ⟨_, qualified_eq X d h1 (Or.inl rfl), ?_⟩
  rw [text_walk d h1, text_walk d h1, h2]
  obtain ⟨n1, n2⟩ := name_find t.name (x ++ [0]) (b ++ ['<']) (attrsChars t.attrs ++ t.trail ++ e ++ r)
  have hs : b ++ t.chars e ++ r = b ++ ['<'] ++ t.name.chars ++ (attrsChars t.attrs ++ t.trail ++ e ++ r) := by
    simp [STag.chars]
  rw [← hs] at n1 n2
  rw [List.length_append] at n1 n2
  generalize hS : b ++ t.chars e ++ r = S at *
  have hattr : ((walkNK x 1 (match t.attrs with
      | [] => []
      | a :: as => [Node.mk ⟨(b.length + 1 + t.name.chars.length + a.sep.length : Nat),
          (b.length + 1 + t.name.chars.length + (attrsChars (a :: as)).length : Nat)⟩ (some "attributes") none
          (attrsAt (b.length + 1 + t.name.chars.length) (a :: as))])).find? (isD "namespace")).map (fun qm => txt S qm.2)
      = firstPre (t.attrs.map Attr.name) := by
    cases ha : t.attrs with
    | nil => rfl
    | cons a as =>
      have := attrs_find (x ++ [1]) (a :: as) 0 (b ++ ['<'] ++ t.name.chars) (t.trail ++ e ++ r)
      rw [show b ++ ['<'] ++ t.name.chars ++ attrsChars (a :: as) ++ (t.trail ++ e ++ r) = S from by
        rw [hs, ha]; simp] at this
      rw [show (b ++ ['<'] ++ t.name.chars).length = b.length + 1 + t.name.chars.length from by simp; omega] at this
      rw [← this]
      simp only [walkNK, walkN]
      rw [List.find?_cons, show isD "namespace" (x ++ [1], Node.mk _ (some "attributes") none (attrsAt (b.length + 1 + t.name.chars.length) (a :: as))) = false from by
        unfold isD; apply decide_eq_false; intro e; exact absurd (Option.some.inj e) (by decide)]
      simp
  constructor
  · rw [walkN, STag.kids, walkNK, List.find?_cons, isD_name _ _ _ _ (by decide)]
    simp only [List.find?_append, firstPre]
    cases hf : (walkN (x ++ [0]) (t.name.at (b.length + 1))).find? (isD "namespace") with
    | none =>
      simp only [List.length_singleton] at n1
      rw [hf] at n1
      rw [← n1]
      exact hattr
    | some qm =>
      simp only [List.length_singleton] at n1
      rw [hf] at n1
      rw [← n1]
      rfl
  · rw [walkN, STag.kids, walkNK, List.find?_cons, isD_name _ _ _ _ (by decide)]
    simp only [List.find?_append]
    simp only [List.length_singleton] at n2
    cases hf : (walkN (x ++ [0]) (t.name.at (b.length + 1))).find? (isD "name") with
    | none => rw [hf] at n2; cases n2
    | some qm =>
      rw [hf] at n2
      rw [← n2]
      rfl

theorem firstPre_none (l : List QName) (h : ∀ q ∈ l, q.pre = none) : firstPre l = none := by
  induction l with
  | nil => rfl
  | cons q l ih => rw [firstPre, h q (by simp)]; exact ih (fun q hq => h q (by simp [hq]))

/-- **C86 (partial).** The qualified name of a start tag is its prefix and local part as written, if it has a prefix or
none of its attributes has one. Missing: start tags without prefix but with prefixed attributes
(`C86_borrowed_violated`). -/
theorem C86_start_tag_partial (X : Ext) (d : Doc) (x : Path) (t : STag) (e : List Char) (h : STagAt d x t e)
    (hp : t.name.pre ≠ none ∨ ∀ a ∈ t.attrs, a.name.pre = none) :
    ∃ qn, getQualifiedName X d x = .ok qn ∧ textOf d qn.pre = t.name.pre ∧ textOf d qn.loc = some t.name.loc := by
  obtain ⟨qn, h1, h2, h3⟩ := C86_start_tag_exact X d x t e h
  refine ⟨qn, h1, ?_, h3⟩
  rw [h2, firstPre]
  cases hn : t.name.pre with
  | some p => rfl
  | none =>
    have := hp.resolve_left (fun h => h hn)
    exact firstPre_none _ (by simpa using this)

/-- **C86.** Any other Ito is refused. -/
theorem C86_other (X : Ext) (d : Doc) (x : Path) (h1 : d.desc x ≠ some "start_tag") (h2 : d.desc x ≠ some "attribute") :
    getQualifiedName X d x = .error .valueError := by
  unfold getQualifiedName
  rw [if_pos (by simp [h1, h2])]

end Pawpaw.Props
