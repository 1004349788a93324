import Verif.Model.Adopt
import Verif.Spec.Spans
import Verif.Props.Hier
/-!
# C22: `Ito.adopt`
-/
set_option linter.unusedSectionVars false
namespace Pawpaw.Props
open TreeSpec SpanSpec Kids Node

variable {α : Type} [DecidableEq α]

theorem adoptAll_eq (len : Nat) (p : Span) (store xs : List Node) (hx : ∀ x ∈ xs, WF x)
    (hl : ∀ x ∈ xs, x.stop ≤ len) : adoptAll len p store xs = hierAll none p store xs := by
  induction xs generalizing store with
  | nil => rfl
  | cons x xs ih =>
    unfold adoptAll hierAll
    rw [Node.clone_eq len x (hx x (by simp)) (hl x (by simp))]
    dsimp only
    cases hier none p store x with
    | error e => rfl
    | ok st => exact ih st (fun y hy => hx y (by simp [hy])) (fun y hy => hl y (by simp [hy]))

theorem setAdd_spec (cached : List Node) (x : Node) (hn : (cached.map key).Nodup) :
    ((setAdd cached x).map key).Nodup ∧ (∀ y ∈ setAdd cached x, y ∈ cached ∨ y = x) ∧
    (∀ y ∈ cached, y ∈ setAdd cached x) ∧ (∃ y ∈ setAdd cached x, y.key = x.key) ∧
    (x.key ∉ cached.map key → setAdd cached x = cached ++ [x]) := by
  unfold setAdd
  by_cases h : cached.any (fun y => decide (y.key = x.key)) = true
  · rw [if_pos h]
    rw [List.any_eq_true] at h
    obtain ⟨y, hy, he⟩ := h
    refine ⟨hn, fun y hy => Or.inl hy, fun y hy => hy, ⟨y, hy, by simpa using he⟩, ?_⟩
    intro hh
    exact absurd (List.mem_map.mpr ⟨y, hy, by simpa using he⟩) hh
  · rw [if_neg h]
    refine ⟨?_, by simp, by simp +contextual, ⟨x, by simp, rfl⟩, fun _ => rfl⟩
    simp only [List.map_append, List.map_cons, List.map_nil]
    rw [List.nodup_append]
    refine ⟨hn, by simp, ?_⟩
    intro a ha b hb hab
    obtain ⟨y, hy, rfl⟩ := List.mem_map.mp ha
    simp only [List.mem_singleton] at hb
    apply h
    rw [List.any_eq_true]
    exact ⟨y, hy, by simp [hab, hb]⟩

theorem adoptLoop_spec (s : List α) : ∀ (rest : List (List α × Node)) (a b : Int) (cached : List Node),
    (∀ y ∈ rest, y.1 = s) → (cached.map key).Nodup →
    ∃ a' b' cs, adoptLoop s a b cached rest = .ok (a', b', cs) ∧ a' ≤ a ∧ b ≤ b' ∧
      (∀ y ∈ rest, a' ≤ y.2.start ∧ y.2.stop ≤ b') ∧
      (a' = a ∨ ∃ y ∈ rest, y.2.start = a') ∧ (b' = b ∨ ∃ y ∈ rest, y.2.stop = b') ∧
      (cs.map key).Nodup ∧ (∀ y ∈ cs, y ∈ cached ∨ y ∈ rest.map Prod.snd) ∧
      (∀ y ∈ cached, y ∈ cs) ∧ (∀ y ∈ rest, ∃ z ∈ cs, z.key = y.2.key) ∧
      (((cached ++ rest.map Prod.snd).map key).Nodup → cs = cached ++ rest.map Prod.snd)
  | [], a, b, cached, _, hn =>
    ⟨a, b, cached, rfl, by omega, by omega, by simp, Or.inl rfl, Or.inl rfl, hn, by simp +contextual,
      by simp, by simp, by simp⟩
  | (t, x) :: rest, a, b, cached, hs, hn => by
    unfold adoptLoop
    have ht : t = s := hs (t, x) (by simp)
    rw [if_neg (by simp [ht])]
    obtain ⟨s1, s2, s3, s4, s5⟩ := setAdd_spec cached x hn
    obtain ⟨a', b', cs, e, h1, h2, h3, h4, h5, h6, h7, h8, h9, h10⟩ :=
      adoptLoop_spec s rest (min a x.start) (max b x.stop) (setAdd cached x)
        (fun y hy => hs y (by simp [hy])) s1
    refine ⟨a', b', cs, e, by clear h4 h5; omega, by clear h4 h5; omega, ?_, ?_, ?_, h6, ?_, fun y hy => h8 y (s3 y hy), ?_, ?_⟩
    · intro y hy
      rcases List.mem_cons.mp hy with rfl | h
      · dsimp only; clear h4 h5; omega
      · exact h3 y h
    · rcases h4 with h4 | ⟨y, hy, h4⟩
      · by_cases h : a ≤ x.start
        · left; clear h5; omega
        · right; exact ⟨(t, x), by simp, by dsimp only; clear h5; omega⟩
      · right; exact ⟨y, by simp [hy], h4⟩
    · rcases h5 with h5 | ⟨y, hy, h5⟩
      · by_cases h : x.stop ≤ b
        · left; clear h4; omega
        · right; exact ⟨(t, x), by simp, by dsimp only; clear h4; omega⟩
      · right; exact ⟨y, by simp [hy], h5⟩
    · intro y hy
      rcases h7 y hy with h | h
      · rcases s2 y h with h | h
        · exact Or.inl h
        · right; simp [h]
      · right
        rw [List.map_cons]
        exact List.mem_cons_of_mem _ h
    · intro y hy
      rcases List.mem_cons.mp hy with rfl | h
      · obtain ⟨z, hz, ez⟩ := s4
        exact ⟨z, h8 z hz, ez⟩
      · exact h9 y h
    · intro hd
      simp only [List.map_cons, List.map_append] at hd
      have hx : setAdd cached x = cached ++ [x] := by
        apply s5
        rw [List.nodup_append] at hd
        intro hm
        exact hd.2.2 _ hm _ (by simp) rfl
      rw [h10 (by rw [hx]; simpa using hd), hx]
      simp

/-- C22: `adopt` of no arguments, or of arguments on different strings, raises `ValueError`. -/
theorem C22_adopt_raises (order : List Node → List Node) (desc : Option String) :
    adopt order ([] : List (List α × Node)) desc = .error .valueError ∧
    ∀ (s : List α) (x : Node) (rest : List (List α × Node)), (∃ y ∈ rest, y.1 ≠ s) →
      adopt order ((s, x) :: rest) desc = .error .valueError := by
  refine ⟨rfl, fun s x rest h => ?_⟩
  have loop : ∀ (rest : List (List α × Node)) (a b : Int) (cs : List Node), (∃ y ∈ rest, y.1 ≠ s) →
      adoptLoop s a b cs rest = .error .valueError := by
    intro rest
    induction rest with
    | nil => intro a b cs h; simp at h
    | cons y ys ih =>
      intro a b cs h
      unfold adoptLoop
      by_cases hy : s ≠ y.1
      · rw [if_pos hy]
      · rw [if_neg hy]
        apply ih
        obtain ⟨z, hz, hne⟩ := h
        rcases List.mem_cons.mp hz with rfl | hz
        · exact absurd (fun h => hne h.symm) hy
        · exact ⟨z, hz, hne⟩
  unfold adopt
  dsimp only
  rw [loop rest _ _ _ h]

theorem adopt_unfold (order : List Node → List Node) (ho : ∀ l, (order l).Perm l) (s : List α) (x : Node)
    (rest : List (List α × Node)) (hw : ∀ y ∈ (s, x) :: rest, WF y.2 ∧ y.2.stop ≤ s.length)
    (hs : ∀ y ∈ rest, y.1 = s) (desc : Option String) :
    ∃ (p : Span) (ds : List Node), 0 ≤ p.start ∧ p.start ≤ p.stop ∧
      TightHull (((s, x) :: rest).map (fun y => y.2.span)) p ∧
      (∀ d ∈ ds, d ∈ ((s, x) :: rest).map Prod.snd) ∧
      (∀ y ∈ (s, x) :: rest, ∃ d ∈ ds, d.key = y.2.key) ∧ (ds.map key).Nodup ∧
      ((((((s, x) :: rest).map Prod.snd)).map key).Nodup → ds.Perm (((s, x) :: rest).map Prod.snd)) ∧
      adopt order ((s, x) :: rest) desc =
        match hierAll none p [] ds with
        | .error e => .error e
        | .ok ks => .ok (.mk p desc none ks) := by
  obtain ⟨a, b, cs, e, h1, h2, h3, h4, h5, h6, h7, h8, h9, h10⟩ :=
    adoptLoop_spec s rest x.start x.stop [x] hs (by simp)
  have hx := hw (s, x) (by simp)
  have hxa := hx.1.start_nonneg
  have hxb := hx.1.start_le
  have ha : 0 ≤ a := by
    rcases h4 with h4 | ⟨y, hy, h4⟩
    · simp only at hxa; clear h5; omega
    · have := (hw y (by simp [hy])).1.start_nonneg; clear h5; omega
  have hb : b ≤ s.length := by
    rcases h5 with h5 | ⟨y, hy, h5⟩
    · have := hx.2; simp only at this; clear h4; omega
    · have := (hw y (by simp [hy])).2; clear h4; omega
  have hab : a ≤ b := by simp only at hxa hxb; clear h4 h5; omega
  have hsp := fromIndices_span ha hab hb
  have hmem : ∀ d ∈ order cs, d ∈ ((s, x) :: rest).map Prod.snd := by
    intro d hd
    rcases h7 d ((ho cs).mem_iff.mp hd) with h | h
    · simp only [List.mem_singleton] at h; simp [h]
    · rw [List.map_cons]; exact List.mem_cons_of_mem _ h
  have hwd : ∀ d ∈ order cs, WF d ∧ d.stop ≤ s.length := by
    intro d hd
    obtain ⟨y, hy, rfl⟩ := List.mem_map.mp (hmem d hd)
    exact hw y hy
  refine ⟨⟨a, b⟩, order cs, ha, hab, ⟨?_, ?_, ?_⟩, hmem, ?_, ?_, ?_, ?_⟩
  · intro sp hsp
    obtain ⟨y, hy, rfl⟩ := List.mem_map.mp hsp
    rcases List.mem_cons.mp hy with rfl | h
    · exact ⟨h1, h2⟩
    · exact h3 y h
  · rcases h4 with h4 | ⟨y, hy, h4⟩
    · exact ⟨x.span, by simp, h4.symm⟩
    · exact ⟨y.2.span, List.mem_map.mpr ⟨y, by simp [hy], rfl⟩, h4⟩
  · rcases h5 with h5 | ⟨y, hy, h5⟩
    · exact ⟨x.span, by simp, h5.symm⟩
    · exact ⟨y.2.span, List.mem_map.mpr ⟨y, by simp [hy], rfl⟩, h5⟩
  · intro y hy
    rcases List.mem_cons.mp hy with rfl | h
    · exact ⟨x, (ho cs).mem_iff.mpr (h8 x (by simp)), rfl⟩
    · obtain ⟨z, hz, ez⟩ := h9 y h
      exact ⟨z, (ho cs).mem_iff.mpr hz, ez⟩
  · exact ((ho cs).map key).nodup_iff.mpr h6
  · intro hd
    have := h10 (by simpa using hd)
    rw [this]
    exact ho _
  · unfold adopt
    dsimp only
    rw [e]
    dsimp only
    rw [hsp, adoptAll_eq _ _ _ _ (fun d hd => (hwd d hd).1) (fun d hd => (hwd d hd).2)]
    cases hierAll none ⟨a, b⟩ [] (order cs) <;> rfl

/-- C22: `adopt`, over whatever order Python iterates its set in.  The arguments kept, `ds`, are one for
each distinct (span, desc, value_func); on return the result is well-formed, childless except for
exactly their nodes, and its span is the smallest containing the arguments.  It can only fail with
`ValueError`, and succeeds whenever no two nodes involved cross. -/
theorem C22_adopt (order : List Node → List Node) (ho : ∀ l, (order l).Perm l) (s : List α) (x : Node)
    (rest : List (List α × Node)) (hw : ∀ y ∈ (s, x) :: rest, WF y.2 ∧ y.2.stop ≤ s.length)
    (hs : ∀ y ∈ rest, y.1 = s) (desc : Option String) :
    ∃ ds : List Node, (∀ d ∈ ds, d ∈ ((s, x) :: rest).map Prod.snd) ∧
      (∀ y ∈ (s, x) :: rest, ∃ d ∈ ds, d.span = y.2.span ∧ d.desc = y.2.desc ∧ d.vf = y.2.vf) ∧
      ds.Pairwise (fun d d' => d.span ≠ d'.span ∨ d.desc ≠ d'.desc ∨ d.vf ≠ d'.vf) ∧
      ((∃ r, adopt order ((s, x) :: rest) desc = .ok r ∧ WF r ∧ r.desc = desc ∧
          TightHull (((s, x) :: rest).map (fun y => y.2.span)) r.span ∧
          (listingAll r.kids).Perm (listingAll ds)) ∨
        adopt order ((s, x) :: rest) desc = .error .valueError) ∧
      ((∀ a ∈ listingAll (((s, x) :: rest).map Prod.snd),
          ∀ b ∈ listingAll (((s, x) :: rest).map Prod.snd), Laminar a.1 b.1) →
        ∃ r, adopt order ((s, x) :: rest) desc = .ok r) := by
  obtain ⟨p, ds, hp0, hp1, ht, hm, hc, hn, _, e⟩ := adopt_unfold order ho s x rest hw hs desc
  have hwd : ∀ d ∈ ds, WF d := by
    intro d hd
    obtain ⟨y, hy, rfl⟩ := List.mem_map.mp (hm d hd)
    exact (hw y hy).1
  have h0 : ForestOK p [] := ⟨⟨by simp, by simp⟩, by simp⟩
  have herr : ∀ (xs store : List Node), ForestOK p store → (∀ x ∈ xs, WF x) →
      (∃ st, hierAll none p store xs = .ok st) ∨ hierAll none p store xs = .error .valueError := by
    intro xs
    induction xs with
    | nil => intro store _ _; exact Or.inl ⟨_, rfl⟩
    | cons x xs ih =>
      intro store hf hx
      unfold hierAll
      rcases (C28_add_hierarchical_succeeds none hp0 hp1 store hf x (hx x (by simp))).1 with ⟨st, e⟩ | e
      · rw [e]
        exact ih st (C28_add_hierarchical_wf none hp0 hp1 store hf x (hx x (by simp)) st e)
          (fun y hy => hx y (by simp [hy]))
      · rw [e]; exact Or.inr rfl
  refine ⟨ds, hm, ?_, ?_, ?_, ?_⟩
  · intro y hy
    obtain ⟨d, hd, e⟩ := hc y hy
    simp only [key, Prod.mk.injEq] at e
    exact ⟨d, hd, e.1, e.2.2, e.2.1⟩
  · have := List.pairwise_map.mp hn
    refine this.imp ?_
    intro a b hab
    simp only [key, ne_eq, Prod.mk.injEq] at hab
    by_cases h1 : a.span = b.span
    · by_cases h2 : a.desc = b.desc
      · exact Or.inr (Or.inr fun h3 => hab ⟨h1, h3, h2⟩)
      · exact Or.inr (Or.inl h2)
    · exact Or.inl h1
  · rcases herr ds [] h0 hwd with ⟨st, e'⟩ | e'
    · left
      rw [e'] at e
      refine ⟨_, e, ?_, rfl, ht, ?_⟩
      · have := C28_add_hierarchical_all_wf none hp0 hp1 [] h0 ds hwd st e'
        exact WF.mk hp0 hp1 this.1 this.2
      · simpa [listingAll, Node.kids] using C29_add_hierarchical_all_nodes none hp0 hp1 [] h0 ds hwd st e'
    · right; rw [e, e']
  · intro hl
    have hlm : ∀ a ∈ listingAll ds, a ∈ listingAll (((s, x) :: rest).map Prod.snd) := by
      intro a ha
      have : ∀ l : List Node, a ∈ listingAll l → ∃ n ∈ l, a ∈ listing n := by
        intro l
        induction l with
        | nil => intro h; simp [listingAll] at h
        | cons n l ih =>
          intro h
          rcases List.mem_append.mp (by simpa only [listingAll] using h) with h | h
          · exact ⟨n, by simp, h⟩
          · obtain ⟨m, hm, h⟩ := ih h
            exact ⟨m, by simp [hm], h⟩
      obtain ⟨n, hn, h⟩ := this ds ha
      exact listingAll_mem (hm n hn) h
    obtain ⟨st, e'⟩ := C28_add_hierarchical_all_succeeds none hp0 hp1 [] h0 ds hwd (by
      intro d hd
      obtain ⟨y, hy, rfl⟩ := List.mem_map.mp (hm d hd)
      exact ht.contains y.2.span (List.mem_map.mpr ⟨y, hy, rfl⟩)) (by
      intro a ha c hc
      exact hl c (hlm c (by simpa [listingAll] using hc)) a (hlm a ha))
    rw [e'] at e
    exact ⟨_, e⟩

/-- C22: for nodes of positive width with distinct spans that never cross, neither the order of the
arguments nor the iteration order of the set matters. -/
theorem C22_adopt_order (order order' : List Node → List Node) (ho : ∀ l, (order l).Perm l)
    (ho' : ∀ l, (order' l).Perm l) (s : List α) (xs ys : List Node) (hne : xs ≠ []) (hperm : xs.Perm ys)
    (hw : ∀ x ∈ xs, WF x ∧ x.stop ≤ s.length) (hwide : ∀ a ∈ listingAll xs, a.1.start < a.1.stop)
    (hd : ((listingAll xs).map Prod.fst).Nodup)
    (hl : ∀ a ∈ listingAll xs, ∀ b ∈ listingAll xs, Laminar a.1 b.1) (desc : Option String) :
    ∃ r, adopt order (xs.map (fun x => (s, x))) desc = .ok r ∧
      adopt order' (ys.map (fun x => (s, x))) desc = .ok r := by
  have main : ∀ (order : List Node → List Node), (∀ l, (order l).Perm l) → ∀ zs : List Node, zs.Perm xs →
      ∃ (p : Span) (ds : List Node), 0 ≤ p.start ∧ p.start ≤ p.stop ∧ TightHull (xs.map Node.span) p ∧
        ds.Perm xs ∧
        adopt order (zs.map (fun x => (s, x))) desc =
          match hierAll none p [] ds with
          | .error e => .error e
          | .ok ks => .ok (.mk p desc none ks) := by
    intro order ho zs hz
    cases zs with
    | nil => exact absurd hz.symm.eq_nil hne
    | cons z zs =>
      obtain ⟨p, ds, hp0, hp1, ht, hm, hc, hn, hp, e⟩ := adopt_unfold order ho s z
        (zs.map (fun x => (s, x))) (by
          intro y hy
          have hy' : y.2 ∈ z :: zs := by
            rcases List.mem_cons.mp hy with rfl | h
            · simp
            · obtain ⟨w, hw, rfl⟩ := List.mem_map.mp h
              simp [hw]
          exact hw y.2 (hz.mem_iff.mp hy')) (by
          intro y hy
          obtain ⟨w, hw, rfl⟩ := List.mem_map.mp hy
          rfl) desc
      have hsnd : ((s, z) :: zs.map (fun x => (s, x))).map Prod.snd = z :: zs := by
        simp [List.map_map, Function.comp_def]
      have hspan : ((s, z) :: zs.map (fun x => (s, x))).map (fun y => y.2.span) = (z :: zs).map Node.span := by
        simp [List.map_map, Function.comp_def]
      rw [hspan] at ht
      rw [hsnd] at hp
      refine ⟨p, ds, hp0, hp1, ⟨?_, ?_, ?_⟩, (hp ?_).trans hz, e⟩
      · intro sp hsp
        exact ht.contains sp ((hz.map Node.span).mem_iff.mpr hsp)
      · obtain ⟨sp, h1, h2⟩ := ht.startAttained
        exact ⟨sp, (hz.map Node.span).mem_iff.mp h1, h2⟩
      · obtain ⟨sp, h1, h2⟩ := ht.stopAttained
        exact ⟨sp, (hz.map Node.span).mem_iff.mp h1, h2⟩
      · have hspans : ∀ l : List Node, ((listingAll l).map Prod.fst).Nodup → (l.map key).Nodup := by
          intro l
          induction l with
          | nil => simp
          | cons n l ih =>
            intro h
            simp only [listingAll, List.map_append] at h
            rw [List.nodup_append] at h
            rw [List.map_cons, List.nodup_cons]
            refine ⟨?_, ih h.2.1⟩
            intro hm
            obtain ⟨m, hm, e⟩ := List.mem_map.mp hm
            simp only [key, Prod.mk.injEq] at e
            refine h.2.2 n.span (List.mem_map.mpr ⟨_, listing_self n, rfl⟩) m.span
              (List.mem_map.mpr ⟨_, listingAll_mem hm (listing_self m), rfl⟩) e.1.symm
        apply hspans
        exact ((listingAll_perm hz).map Prod.fst).nodup_iff.mpr hd
  obtain ⟨p, ds, hp0, hp1, ht, hp, e⟩ := main order ho xs (List.Perm.refl _)
  obtain ⟨p', ds', hp0', hp1', ht', hp', e'⟩ := main order' ho' ys hperm.symm
  have hpp : p = p' := by
    obtain ⟨a, ha, ea⟩ := ht.startAttained
    obtain ⟨b, hb, eb⟩ := ht.stopAttained
    obtain ⟨a', ha', ea'⟩ := ht'.startAttained
    obtain ⟨b', hb', eb'⟩ := ht'.stopAttained
    have := ht'.contains a ha
    have := ht'.contains b hb
    have := ht.contains a' ha'
    have := ht.contains b' hb'
    cases p; cases p'
    simp only at *
    simp only [Span.mk.injEq]
    omega
  subst hpp
  have h0 : ForestOK p [] := ⟨⟨by simp, by simp⟩, by simp⟩
  have hsub := (listingAll_perm hp)
  have hwd : ∀ d ∈ ds, WF d := fun d h => (hw d (hp.mem_iff.mp h)).1
  obtain ⟨st, e1, e2⟩ := C30_order_independent_trees none hp0 hp1 [] h0 ds ds' (hp.trans hp'.symm) hwd
    (fun d h => ht.contains d.span (List.mem_map.mpr ⟨d, hp.mem_iff.mp h, rfl⟩))
    (fun c hc => hwide c (hsub.mem_iff.mp (by simpa [listingAll] using hc)))
    ((hsub.map Prod.fst).nodup_iff.mpr hd)
    (fun a ha c hc => hl c (hsub.mem_iff.mp (by simpa [listingAll] using hc)) a (hsub.mem_iff.mp ha))
  rw [e1] at e
  rw [e2] at e'
  exact ⟨_, e, e'⟩

/-- Three arguments, one of them a duplicate and one with a child, iterated backwards. -/
example : adopt List.reverse [("abcdefgh".toList, .mk ⟨2, 7⟩ none none [.leaf ⟨5, 7⟩]),
      ("abcdefgh".toList, .leaf ⟨2, 4⟩ (some "x")), ("abcdefgh".toList, .leaf ⟨2, 4⟩ (some "x"))] (some "d") =
    .ok (.mk ⟨2, 7⟩ (some "d") none [.mk ⟨2, 7⟩ none none [.leaf ⟨2, 4⟩ (some "x"), .leaf ⟨5, 7⟩]]) := by
  decide

/-- The hypotheses of `C22_adopt_order` on a concrete case. -/
example : let xs := [Node.mk ⟨2, 7⟩ none none [.leaf ⟨5, 7⟩], .leaf ⟨2, 4⟩ (some "x"), .leaf ⟨0, 1⟩]
    (∀ a ∈ listingAll xs, a.1.start < a.1.stop) ∧ ((listingAll xs).map Prod.fst).Nodup ∧
    (∀ a ∈ listingAll xs, ∀ b ∈ listingAll xs, Laminar a.1 b.1) ∧
    adopt id (xs.map (fun x => ("abcdefgh".toList, x))) none =
      .ok (.mk ⟨0, 7⟩ none none [.leaf ⟨0, 1⟩, .mk ⟨2, 7⟩ none none [.leaf ⟨2, 4⟩ (some "x"), .leaf ⟨5, 7⟩]]) := by
  decide

end Pawpaw.Props
