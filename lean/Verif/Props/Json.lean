import Verif.Model.Json
import Verif.Spec.Json
import Verif.Props.Hier
import Verif.Props.QueryCompose
import Verif.Props.QueryAxis
/-!
# C44: JSON round trip
-/
set_option linter.unusedSectionVars false
namespace Pawpaw.Props
open TreeSpec Kids Query Json

theorem bare_span (n : Node) : (bare n).span = n.span := by cases n; rfl

mutual
theorem bare_spans : ∀ n : Node, (listing (bare n)).map Prod.fst = (listing n).map Prod.fst
  | .mk s d v ks => by simp [bare, listing, bareAll_spans ks]
theorem bareAll_spans : ∀ ks : List Node, (listingAll (bareAll ks)).map Prod.fst = (listingAll ks).map Prod.fst
  | [] => rfl
  | k :: ks => by simp [bareAll, listingAll, bare_spans k, bareAll_spans ks]
end

theorem bareAll_map (ks : List Node) : bareAll ks = ks.map bare := by
  induction ks with
  | nil => rfl
  | cons k ks ih => simp [bareAll, ih]

theorem bareAll_top (ks : List Node) : (bareAll ks).map Node.span = ks.map Node.span := by
  rw [bareAll_map, List.map_map]
  apply List.map_congr_left
  intro k _
  exact bare_span k

theorem bare_wf : ∀ n : Node, WF n → WF (bare n) := by
  intro n h
  induction h with
  | mk h0 h1 hk _ ih =>
    unfold bare
    refine .mk h0 h1 (by rw [bareAll_top]; exact hk) ?_
    rw [bareAll_map]
    intro k hm
    obtain ⟨k', hk', rfl⟩ := List.mem_map.mp hm
    exact ih k' hk'

/-- The children of a well-formed node, wide and of distinct spans, added hierarchically in order to an
empty store, are themselves again. -/
theorem hierAll_same (key : Key) {p : Span} (hp0 : 0 ≤ p.start) (hp1 : p.start ≤ p.stop) (ks : List Node)
    (hf : ForestOK p ks) (hw : AllWide (listingAll ks)) (hd : ((listingAll ks).map Prod.fst).Nodup) :
    hierAll key p [] ks = .ok ks := by
  have hnil : ForestOK p [] := ⟨kidsOK_nil p, by simp⟩
  have hlam : ∀ a ∈ listingAll ks, ∀ c ∈ listingAll ([] : List Node) ++ listingAll ks, Laminar c.1 a.1 := by
    have hwf : WF (.mk p none none ks) := .mk hp0 hp1 hf.1 hf.2
    intro a ha c hc
    have hc' : c ∈ listingAll ks := by simpa [listingAll] using hc
    exact listing_laminar hwf c (by simp [listing, hc']) a (by simp [listing, ha])
  obtain ⟨st, e⟩ := C28_add_hierarchical_all_succeeds key hp0 hp1 [] hnil ks hf.2
    (fun x hx => by
      have := hf.1.inside x.span (List.mem_map.mpr ⟨x, hx, rfl⟩)
      exact ⟨this.1, this.2.2⟩) hlam
  have hperm := C29_add_hierarchical_all_nodes key hp0 hp1 [] hnil ks hf.2 st e
  have hst := C28_add_hierarchical_all_wf key hp0 hp1 [] hnil ks hf.2 st e
  rw [e, forest_unique hf hst hw hd (by simpa [listingAll] using hperm.symm)]

theorem decodeItos_ok (len : Nat) (ks : List Node)
    (h : ∀ k ∈ ks, decodeIto len (itoDoc k) = .ok (bare k)) : decodeItos len (itoDocs ks) = .ok (bareAll ks) := by
  induction ks with
  | nil => rfl
  | cons k ks ih =>
    rw [itoDocs, decodeItos, h k (by simp), ih (fun k' hk' => h k' (by simp [hk']))]
    rfl

theorem decodeIto_ok (len : Nat) : ∀ n : Node, WF n → n.stop ≤ len → AllWide (listing n) → (spans n).Nodup →
    decodeIto len (itoDoc n) = .ok (bare n) := by
  intro n h
  induction h with
  | @mk s d v ks h0 h1 hk hwf ih =>
    intro hl hw hd
    have hks : ∀ k ∈ ks, decodeIto len (itoDoc k) = .ok (bare k) := by
      intro k hm
      have hin := hk.inside k.span (List.mem_map.mpr ⟨k, hm, rfl⟩)
      have hsub : (listing k).Sublist (listing (.mk s d v ks)) := by
        rw [listing]
        refine List.Sublist.cons _ ?_
        clear ih hwf hk hw hd hin hl
        induction ks with
        | nil => simp at hm
        | cons k' ks ih =>
          rw [listingAll]
          rcases List.mem_cons.mp hm with e | e
          · rw [e]; exact List.sublist_append_left ..
          · exact (ih e).trans (List.sublist_append_right ..)
      refine ih k hm ?_ (fun c hc => hw c (hsub.subset hc)) ((hsub.map Prod.fst).nodup hd)
      simp only [Node.stop, Node.span] at hl hin ⊢
      omega
    rw [itoDoc, decodeIto, decodeItos_ok len ks hks, fromIndices_span h0 h1 hl]
    have hbw : AllWide (listingAll (bareAll ks)) := by
      intro c hc
      have : c.1 ∈ (listingAll ks).map Prod.fst := by
        rw [← bareAll_spans]; exact List.mem_map.mpr ⟨c, hc, rfl⟩
      obtain ⟨c', hc', e⟩ := List.mem_map.mp this
      rw [← e]
      exact hw c' (by simp [listing, hc'])
    have hbd : ((listingAll (bareAll ks)).map Prod.fst).Nodup := by
      rw [bareAll_spans]
      simp only [spans, listing, List.map_cons, List.nodup_cons] at hd
      exact hd.2
    have hbf : ForestOK s (bareAll ks) := by
      refine ⟨by rw [bareAll_top]; exact hk, ?_⟩
      rw [bareAll_map]
      intro k hm
      obtain ⟨k', hk', rfl⟩ := List.mem_map.mp hm
      exact bare_wf k' (hwf k' hk')
    have e := hierAll_same none h0 h1 (bareAll ks) hbf hbw hbd
    dsimp only
    rw [show (⟨s.start, s.stop⟩ : Span) = s from rfl, e]
    rfl

variable {V : Type} [DecidableEq V]

mutual
theorem bare_isNode : ∀ (q : List Nat) (n : Node), ((bare n).get? q).isSome = (n.get? q).isSome
  | [], n => by simp [Node.get?]
  | i :: q, .mk s d v ks => by
    rw [Node.get?_cons, Node.get?_cons]
    simp only [bare, Node.kids, bareAll_map, List.getElem?_map]
    cases ks[i]? with
    | none => rfl
    | some k => simpa using bare_isNode q k
end

/-- `....` from any node but the root gives the root, from the root nothing. -/
theorem find_root (X : Ext) (env : Env V) (x : Path) :
    Query.find X env ['.', '.', '.', '.'] x = .ok (if x = [] then none else some []) := by
  unfold Query.find
  rw [show (['.', '.', '.', '.'] : List Char) = QuerySpec.axisText false ⟨.root, false, .no⟩ from rfl,
    C34_query_text]
  rcases List.eq_nil_or_concat x with rfl | ⟨q, i, rfl⟩
  · rfl
  · simp [Axis.findAll, Axis.loop, Axis.step, Query.parent, Axis.toEcs, climb_eq]
    rfl

/-- C44: a node other than the root, encoded with its whole tree and decoded, is the same node of the same
tree (value functions apart, which are not written) -- if no node of the tree has zero width and no two have the
same span.  With the string embedded, or given again to the decoder.  `len` of the string bounds the root.
Missing: the root itself and trees with equal spans or empty nodes, where it is false; see below. -/
theorem C44_round_trip_partial (X : Ext) (env : Env V) (hw : WF env.tree) (hl : env.tree.stop ≤ env.string.length)
    (hwide : ∀ s ∈ spans env.tree, s.start < s.stop) (hdist : (spans env.tree).Nodup)
    (x : Path) (hx : IsNode env.tree x) (hne : x ≠ []) (stringless : Bool) (given : Option (List Char))
    (hg : stringless = true → given = some env.string) :
    ∃ doc, encode X env stringless true x = .ok doc ∧
      decode X given doc = .ok (env.string, bare env.tree, some x) := by
  refine ⟨⟨if stringless then none else some env.string, pathText x, itoDoc env.tree⟩, ?_, ?_⟩
  · unfold encode
    simp [find_root, hne, Node.get?]
  · have hs : (if stringless then none else some env.string).or given = some env.string := by
      cases stringless
      · rfl
      · simp [hg]
    have hd := decodeIto_ok env.string.length env.tree hw hl
      (fun c hc => hwide c.1 (List.mem_map.mpr ⟨c, hc, rfl⟩)) hdist
    unfold decode
    rw [hs]
    simp only [hd]
    have hb : IsNode (bare env.tree) x := by unfold IsNode; rw [bare_isNode]; exact hx
    have hf := C33_path_finds X (⟨bare env.tree, env.string, fun _ => .error .nameError, none, none⟩ : Env Nat) x hb
    unfold Query.find
    rw [hf]
    rfl

mutual
theorem bare_eq : ∀ n : Node, (∀ c ∈ listing n, c.2.2 = none) → bare n = n
  | .mk s d v ks, h => by
    have hv : v = none := h (s, d, v) (by simp [listing])
    rw [bare, bareAll_eq ks (fun c hc => h c (by simp [listing, hc])), hv]
theorem bareAll_eq : ∀ ks : List Node, (∀ c ∈ listingAll ks, c.2.2 = none) → bareAll ks = ks
  | [], _ => rfl
  | k :: ks, h => by
    rw [bareAll, bare_eq k (fun c hc => h c (by simp [listingAll, hc])),
      bareAll_eq ks (fun c hc => h c (by simp [listingAll, hc]))]
end

/-- C44: so without value functions the decoded tree is equal to the original one. -/
theorem C44_round_trip_equal_partial (X : Ext) (env : Env V) (hw : WF env.tree)
    (hl : env.tree.stop ≤ env.string.length)
    (hwide : ∀ s ∈ spans env.tree, s.start < s.stop) (hdist : (spans env.tree).Nodup)
    (hv : ∀ c ∈ listing env.tree, c.2.2 = none)
    (x : Path) (hx : IsNode env.tree x) (hne : x ≠ []) (stringless : Bool) (given : Option (List Char))
    (hg : stringless = true → given = some env.string) :
    ∃ doc, encode X env stringless true x = .ok doc ∧
      decode X given doc = .ok (env.string, env.tree, some x) := by
  have := C44_round_trip_partial X env hw hl hwide hdist x hx hne stringless given hg
  rwa [bare_eq _ hv] at this

/-- C44: encoded without its tree, a node comes back as a childless Ito with its string, span and desc. -/
theorem C44_round_trip_alone (X : Ext) (env : Env V) (hw : WF env.tree) (hl : env.tree.stop ≤ env.string.length)
    (x : Path) (n : Node) (hx : env.tree.get? x = some n) (stringless : Bool) (given : Option (List Char))
    (hg : stringless = true → given = some env.string) :
    ∃ doc, encode X env stringless false x = .ok doc ∧
      decode X given doc = .ok (env.string, .mk n.span n.desc none [], some []) := by
  obtain ⟨s, d, v, ks⟩ := n
  refine ⟨⟨if stringless then none else some env.string, ['.'], .mk s d none⟩, ?_, ?_⟩
  · unfold encode
    simp [hx, itoDocFlat]
  · have hs : (if stringless then none else some env.string).or given = some env.string := by
      cases stringless
      · rfl
      · simp [hg]
    have hwf := get?_WF x _ _ hw hx
    have hin := get?_span_inside x _ _ hw hx
    have h0 : 0 ≤ s.start := hwf.start_nonneg
    have h1 : s.start ≤ s.stop := hwf.start_le
    have h2 : s.stop ≤ env.tree.stop := hin.2.2
    have hd : decodeIto env.string.length (.mk s d none) = .ok (.mk s d none []) := by
      rw [decodeIto, fromIndices_span h0 h1 (by omega)]
    unfold decode
    rw [hs]
    simp only [hd]
    have hf := C33_path_finds X (⟨.mk s d none [], env.string, fun _ => .error .nameError, none, none⟩ : Env Nat) []
      (by simp [IsNode, Node.get?])
    rw [pathText_nil] at hf
    unfold Query.find
    rw [hf]
    rfl

/-- C44 is false for every root: encoding it with `full_tree` (the default) raises `AttributeError`,
because the query `....` finds nothing from a root. -/
theorem C44_root_violated (X : Ext) (env : Env V) (stringless : Bool) :
    encode X env stringless true [] = .error .attributeError := by
  unfold encode
  simp [find_root]

/-- The string `ab` with Itos (0,1) and (1,2), the second with a child `x` of its own span. -/
def nestEnv : Env Nat :=
  ⟨.mk ⟨0, 2⟩ none none [.mk ⟨0, 1⟩ none none [], .mk ⟨1, 2⟩ (some "p") none [.mk ⟨1, 2⟩ (some "c") none []]],
    ['a', 'b'], fun _ => .ok 0, none, none⟩

/-- C44 is false for a node with a child of the same span: decoding swaps parent and child. -/
theorem C44_same_span_violated : WF nestEnv.tree ∧
    decodeIto 2 (itoDoc nestEnv.tree) = .ok (.mk ⟨0, 2⟩ none none
      [.mk ⟨0, 1⟩ none none [], .mk ⟨1, 2⟩ (some "c") none [.mk ⟨1, 2⟩ (some "p") none []]]) := by
  refine ⟨?_, by decide⟩
  have leaf : ∀ (a b : Int) d, 0 ≤ a → a ≤ b → WF (.mk ⟨a, b⟩ d none []) := fun a b d h0 h1 =>
    .mk h0 h1 ⟨by simp, by simp⟩ (by simp)
  refine .mk (by decide) (by decide) ⟨by decide, by decide⟩ ?_
  intro k hk
  simp only [List.mem_cons, List.not_mem_nil, or_false] at hk
  rcases hk with rfl | rfl
  · exact leaf 0 1 _ (by decide) (by decide)
  · refine .mk (by decide) (by decide) ⟨by decide, by decide⟩ ?_
    intro k hk
    simp only [List.mem_cons, List.not_mem_nil, or_false] at hk
    rw [hk]
    exact leaf 1 2 _ (by decide) (by decide)

/-- C44 is false for zero-width nodes: the empty Ito at (1,1) after (0,1) comes back as a child of (0,1). -/
theorem C44_zero_width_violated :
    decodeIto 2 (itoDoc (.mk ⟨0, 2⟩ none none [.mk ⟨0, 1⟩ none none [], .mk ⟨1, 1⟩ none none []])) =
      .ok (.mk ⟨0, 2⟩ none none [.mk ⟨0, 1⟩ none none [.mk ⟨1, 1⟩ none none []]]) := by decide

/-- A tree of four nodes on `abcdef`. -/
def jsonEnv : Env Nat :=
  ⟨.mk ⟨0, 6⟩ (some "r") none [.mk ⟨0, 3⟩ none none [.mk ⟨1, 2⟩ (some "x") none []], .mk ⟨3, 6⟩ none none []],
    ['a', 'b', 'c', 'd', 'e', 'f'], fun _ => .ok 0, none, none⟩

/-- Non-vacuity: `jsonEnv` and its node `[0, 0]` meet the hypotheses of the round trip. -/
example : WF jsonEnv.tree ∧ jsonEnv.tree.stop ≤ jsonEnv.string.length ∧
    (∀ s ∈ spans jsonEnv.tree, s.start < s.stop) ∧ (spans jsonEnv.tree).Nodup ∧
    IsNode jsonEnv.tree [0, 0] ∧ (∀ c ∈ listing jsonEnv.tree, c.2.2 = none) := by
  refine ⟨?_, by decide, by decide, by decide, by decide, by decide⟩
  refine .mk (by decide) (by decide) ⟨by decide, by decide⟩ ?_
  intro k hk
  simp only [List.mem_cons, List.not_mem_nil, or_false] at hk
  rcases hk with rfl | rfl
  · refine .mk (by decide) (by decide) ⟨by decide, by decide⟩ ?_
    intro k hk
    simp only [List.mem_cons, List.not_mem_nil, or_false] at hk
    rw [hk]
    exact .mk (by decide) (by decide) ⟨by simp, by simp⟩ (by simp)
  · exact .mk (by decide) (by decide) ⟨by simp, by simp⟩ (by simp)

end Pawpaw.Props
