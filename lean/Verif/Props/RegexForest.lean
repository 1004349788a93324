import Verif.Props.Match
import Verif.Lemmas.Regex
import Verif.Model.XmlTag
/-!
# C92: `from_re` on any pattern without lookahead
-/
set_option linter.unusedSectionVars false
set_option linter.unusedSimpArgs false
namespace Pawpaw.Props
open Pawpaw Pawpaw.Regex Pawpaw.Match Pawpaw.Xml RegexSpec TreeSpec

/-- Two captures do not cross. -/
def CapLam (a b : String × Nat × Nat) : Prop :=
  a.2.2 ≤ b.2.1 ∨ b.2.2 ≤ a.2.1 ∨ (a.2.1 ≤ b.2.1 ∧ b.2.2 ≤ a.2.2) ∨ (b.2.1 ≤ a.2.1 ∧ a.2.2 ≤ b.2.2)

/-- What happens between two states: captures between the two positions are added, none crossing another. -/
structure Caps (st st' : St) : Prop where
  le : st.pos ≤ st'.pos
  len : st'.pos + st'.rest.length = st.pos + st.rest.length
  new : ∃ new, st'.caps = st.caps ++ new ∧ (∀ c ∈ new, st.pos ≤ c.2.1 ∧ c.2.1 ≤ c.2.2 ∧ c.2.2 ≤ st'.pos) ∧ new.Pairwise CapLam

theorem Caps.refl (st : St) : Caps st st := ⟨Nat.le_refl _, rfl, [], by simp, by simp, by simp⟩

theorem Caps.trans {a b c : St} (h1 : Caps a b) (h2 : Caps b c) : Caps a c := by
  obtain ⟨l1, e1, n1, c1, i1, p1⟩ := h1
  obtain ⟨l2, e2, n2, c2, i2, p2⟩ := h2
  refine ⟨by omega, by omega, n1 ++ n2, by rw [c2, c1, List.append_assoc], ?_, ?_⟩
  · intro x hx
    rcases List.mem_append.1 hx with h | h
    · have := i1 x h; omega
    · have := i2 x h; omega
  · rw [List.pairwise_append]
    refine ⟨p1, p2, ?_⟩
    intro x hx y hy
    have := i1 x hx
    have := i2 y hy
    left
    omega

theorem iter_caps {g : Bool} {f : St → List St} (hf : ∀ st st', st' ∈ f st → Caps st st') :
    ∀ (n : Nat) (st st' : St), st' ∈ iter g f n st → Caps st st'
  | 0, st, st', h => by
    rw [iter, List.mem_singleton] at h
    subst h
    exact .refl _
  | n + 1, st, st', h => by
    have key : st' = st ∨ st' ∈ (f st).flatMap (fun st' => if st.pos < st'.pos then iter g f n st' else []) := by
      rw [iter] at h
      cases g
      · simpa using h
      · simp only [if_true, List.mem_append, List.mem_singleton] at h
        exact h.symm
    rcases key with rfl | h
    · exact .refl _
    · obtain ⟨s1, h1, h2⟩ := List.mem_flatMap.1 h
      split at h2
      · exact (hf st s1 h1).trans (iter_caps hf n s1 st' h2)
      · cases h2

theorem out_caps : ∀ (r : Re), NoLook r → ∀ (st st' : St), st' ∈ out r st → Caps st st'
  | .eps, _, st, st', h => by
    rw [out, List.mem_singleton] at h
    subst h
    exact .refl _
  | .chr p, _, st, st', h => by
    rw [out] at h
    split at h
    · cases h
    · rename_i c cs hr
      split at h
      · rw [List.mem_singleton] at h
        subst h
        refine ⟨Nat.le_succ _, ?_, [], by simp, by simp, by simp⟩
        rw [hr]; simp only [List.length_cons]; omega
      · cases h
  | .seq a b, hr, st, st', h => by
    rw [out] at h
    obtain ⟨s1, h1, h2⟩ := List.mem_flatMap.1 h
    exact (out_caps a hr.1 st s1 h1).trans (out_caps b hr.2 s1 st' h2)
  | .alt a b, hr, st, st', h => by
    rw [out] at h
    rcases List.mem_append.1 h with h | h
    · exact out_caps a hr.1 st st' h
    · exact out_caps b hr.2 st st' h
  | .star g a, hr, st, st', h => by
    rw [out] at h
    exact iter_caps (out_caps a hr) _ st st' h
  | .grp n a, hr, st, st', h => by
    rw [out] at h
    obtain ⟨s1, h1, rfl⟩ := List.mem_map.1 h
    obtain ⟨l1, e1, n1, c1, i1, p1⟩ := out_caps a hr st s1 h1
    refine ⟨l1, e1, n1 ++ [(n, st.pos, s1.pos)], by simp only [c1, List.append_assoc], ?_, ?_⟩
    · intro x hx
      rcases List.mem_append.1 hx with h | h
      · exact i1 x h
      · rw [List.mem_singleton] at h; subst h; exact ⟨Nat.le_refl _, l1, Nat.le_refl _⟩
    · rw [List.pairwise_append]
      refine ⟨p1, by simp, ?_⟩
      intro x hx y hy
      rw [List.mem_singleton] at hy
      subst hy
      have := i1 x hx
      right; right; right
      exact ⟨this.1, this.2.2⟩
  | .bos, _, st, st', h => by
    rw [out] at h
    split at h
    · rw [List.mem_singleton] at h; subst h; exact .refl _
    · cases h
  | .eos, _, st, st', h => by
    rw [out] at h
    split at h
    · rw [List.mem_singleton] at h; subst h; exact .refl _
    · cases h
  | .look _, hr, _, _, _ => hr.elim
  | .test _, _, st, st', h => by
    rw [out] at h
    split at h
    · rw [List.mem_singleton] at h; subst h; exact .refl _
    · cases h
  | .dep a f, hr, st, st', h => by
    rw [out] at h
    obtain ⟨s1, h1, h2⟩ := List.mem_flatMap.1 h
    exact (out_caps a hr.1 st s1 h1).trans (out_caps _ (hr.2 _) s1 st' h2)

/-- A match with its captures in order. -/
structure FoundOK (f : Found) : Prop where
  le : f.start ≤ f.stop
  inside : ∀ c ∈ f.caps, f.start ≤ c.2.1 ∧ c.2.1 ≤ c.2.2 ∧ c.2.2 ≤ f.stop
  lam : f.caps.Pairwise CapLam

theorem finditerAux_ok (r : Re) (hr : NoLook r) : ∀ (n : Nat) (adv : Bool) (i : Nat) (rest : List Char),
    (∀ f ∈ finditerAux r n adv i rest, FoundOK f ∧ i ≤ f.start ∧ f.stop ≤ i + rest.length) ∧
    (finditerAux r n adv i rest).Pairwise fun a b => a.stop ≤ b.start
  | 0, _, _, _ => by simp [finditerAux]
  | n + 1, adv, i, rest => by
    unfold finditerAux
    cases ho : (out r ⟨i, rest, []⟩).find? (fun st => !adv || decide (i < st.pos)) with
    | none =>
      simp only
      cases rest with
      | nil => simp
      | cons c cs =>
        obtain ⟨h1, h2⟩ := finditerAux_ok r hr n false (i + 1) cs
        refine ⟨fun f hf => ?_, h2⟩
        obtain ⟨g1, g2, g3⟩ := h1 f hf
        refine ⟨g1, by omega, ?_⟩
        rw [List.length_cons]; omega
    | some st =>
      simp only
      have hm : st ∈ out r ⟨i, rest, []⟩ := List.mem_of_find?_eq_some ho
      obtain ⟨l, e, new, c, ins, p⟩ := out_caps r hr _ _ hm
      dsimp only at l e
      simp only [List.nil_append] at c
      have hfo : FoundOK ⟨i, st.pos, st.caps⟩ := ⟨l, by rw [c]; exact ins, by rw [c]; exact p⟩
      obtain ⟨h1, h2⟩ := finditerAux_ok r hr n (decide (st.pos = i)) st.pos st.rest
      refine ⟨?_, ?_⟩
      · intro f hf
        rcases List.mem_cons.1 hf with rfl | hf
        · exact ⟨hfo, Nat.le_refl _, by dsimp only; omega⟩
        · obtain ⟨g1, g2, g3⟩ := h1 f hf
          exact ⟨g1, by omega, by omega⟩
      · rw [List.pairwise_cons]
        exact ⟨fun f hf => (h1 f hf).2.1, h2⟩

theorem finditer_ok {r : Re} (hr : NoLook r) {i : Nat} {rest : List Char} :
    (∀ f ∈ finditer r i rest, FoundOK f ∧ i ≤ f.start ∧ f.stop ≤ i + rest.length) ∧
    (finditer r i rest).Pairwise fun a b => a.stop ≤ b.start := finditerAux_ok r hr _ false i rest

theorem capLam_span {a b : String × Nat × Nat} (h : CapLam a b) :
    Laminar ⟨(a.2.1 : Int), (a.2.2 : Int)⟩ ⟨(b.2.1 : Int), (b.2.2 : Int)⟩ := by
  unfold CapLam at h
  unfold Laminar
  dsimp only
  omega

theorem pairwise_mem {τ : Type} {R : τ → τ → Prop} (hs : ∀ a b, R a b → R b a) {l : List τ} (h : l.Pairwise R)
    (hr : ∀ a ∈ l, R a a) : ∀ a ∈ l, ∀ b ∈ l, R a b := by
  induction h with
  | nil => simp
  | cons h1 _ ih =>
    rename_i x l _
    have ih := ih (fun a ha => hr a (by simp [ha]))
    intro a ha b hb
    rcases List.mem_cons.1 ha with ha | ha
    · rw [ha]
      rcases List.mem_cons.1 hb with hb | hb
      · rw [hb]; exact hr _ (by simp)
      · exact h1 b hb
    · rcases List.mem_cons.1 hb with hb | hb
      · rw [hb]; exact hs _ _ (h1 a ha)
      · exact ih a ha b hb

theorem pairwise_of_all {τ : Type} {R : τ → τ → Prop} {l : List τ} (h : ∀ a ∈ l, ∀ b ∈ l, R a b) : l.Pairwise R := by
  induction l with
  | nil => simp
  | cons x l ih =>
    rw [List.pairwise_cons]
    exact ⟨fun b hb => h x (by simp) b (by simp [hb]), ih fun a ha b hb => h a (by simp [ha]) b (by simp [hb])⟩

/-- The selected captures of a match, with their keys. -/
def captured (keys : List String) (f : Found) : List (Span × Option String) :=
  keys.flatMap fun g => (f.caps.filter fun c => c.1 == g).map fun c => (⟨(c.2.1 : Int), (c.2.2 : Int)⟩, some g)

theorem captured_eq (keys : List String) (f : Found) :
    ((spansOf keys f).flatMap fun g => g.2.map fun s => (s, g.1)) = captured keys f := by
  unfold spansOf captured
  rw [List.flatMap_map]
  simp only [List.map_map, Function.comp_def]

theorem spansOf_mem {keys : List String} {f : Found} {g : Option String × List Span} (hg : g ∈ spansOf keys f) {s : Span}
    (hs : s ∈ g.2) : ∃ c ∈ f.caps, s = ⟨(c.2.1 : Int), (c.2.2 : Int)⟩ := by
  unfold spansOf at hg
  obtain ⟨k, _, rfl⟩ := List.mem_map.1 hg
  obtain ⟨c, hc, rfl⟩ := List.mem_map.1 hs
  exact ⟨c, (List.mem_filter.1 hc).1, rfl⟩

/-- One match. -/
theorem fromMatch_found (len : Nat) (keys : List String) (f : Found) (h : FoundOK f) (hl : f.stop ≤ len) :
    ∃ forest, fromMatch len (spansOf keys f) = .ok forest ∧ (∀ n ∈ forest, WF n ∧ (f.start : Int) ≤ n.start ∧ n.stop ≤ f.stop) ∧
      (forest.map Node.span).Pairwise (fun a b => a.start ≤ b.start ∧ a.stop ≤ b.start) ∧
      (preorderAll forest).Perm (captured keys f) := by
  have hv : ∀ g ∈ spansOf keys f, ∀ s ∈ g.2, 0 ≤ s.start ∧ s.start ≤ s.stop ∧ s.stop ≤ len := by
    intro g hg s hs
    obtain ⟨c, hc, rfl⟩ := spansOf_mem hg hs
    have := h.inside c hc
    dsimp only
    omega
  have hlam : ((spansOf keys f).flatMap (·.2)).Pairwise Laminar := by
    apply pairwise_of_all
    intro a ha b hb
    obtain ⟨g, hg, ha⟩ := List.mem_flatMap.1 ha
    obtain ⟨g', hg', hb⟩ := List.mem_flatMap.1 hb
    obtain ⟨c, hc, rfl⟩ := spansOf_mem hg ha
    obtain ⟨c', hc', rfl⟩ := spansOf_mem hg' hb
    refine capLam_span (pairwise_mem (R := CapLam) ?_ h.lam ?_ c hc c' hc')
    · intro a b h; unfold CapLam at *; omega
    · intro a _; unfold CapLam; omega
  obtain ⟨F, h1, h2⟩ := C18_from_match_succeeds len (spansOf keys f) hv hlam
  rcases C18_from_match_listing len (spansOf keys f) hv with he | ⟨F', h1', h3, h4, _⟩
  · rw [h1] at he; cases he
  · rw [h1] at h1'
    cases h1'
    rw [captured_eq] at h4
    refine ⟨F, h1, ?_, h2.imp fun h => ⟨by omega, h.2⟩, h4⟩
    intro n hn
    refine ⟨h3 n hn, ?_⟩
    have hmem : (n.span, n.desc) ∈ captured keys f := by
      rw [← h4.mem_iff]
      have : ∀ l : List Node, n ∈ l → (n.span, n.desc) ∈ preorderAll l := by
        intro l
        induction l with
        | nil => simp
        | cons m l ih =>
          intro hm
          rw [preorderAll, List.mem_append]
          rcases List.mem_cons.1 hm with rfl | hm
          · left
            cases n
            rw [preorder]
            exact List.mem_cons_self
          · exact Or.inr (ih hm)
      exact this F hn
    obtain ⟨k, _, hk⟩ := List.mem_flatMap.1 hmem
    obtain ⟨c, hc, he⟩ := List.mem_map.1 hk
    have hc' := h.inside c (List.mem_filter.1 hc).1
    have hspan : n.span = ⟨(c.2.1 : Int), (c.2.2 : Int)⟩ := (congrArg Prod.fst he).symm
    have e1 : n.start = (c.2.1 : Int) := by
      show n.span.start = _
      rw [hspan]
    have e2 : n.stop = (c.2.2 : Int) := by
      show n.span.stop = _
      rw [hspan]
    rw [e1, e2]
    omega

theorem fromReLoop_found (len : Nat) (keys : List String) : ∀ (ms : List Found) (rv : List Node),
    (∀ f ∈ ms, FoundOK f ∧ f.stop ≤ len) → ms.Pairwise (fun a b => a.stop ≤ b.start) →
    ∃ forest, fromReLoop len none rv (ms.map (spansOf keys)) = .ok (rv ++ forest) ∧
      (∀ n ∈ forest, WF n ∧ ∃ f ∈ ms, (f.start : Int) ≤ n.start ∧ n.stop ≤ f.stop) ∧
      (forest.map Node.span).Pairwise (fun a b => a.start ≤ b.start ∧ a.stop ≤ b.start) ∧
      (preorderAll forest).Perm (ms.flatMap (captured keys))
  | [], rv, _, _ => ⟨[], by simp [fromReLoop], by simp, by simp, by simp [preorderAll]⟩
  | m :: ms, rv, h, hp => by
    obtain ⟨hm, hms⟩ := List.pairwise_cons.1 hp
    obtain ⟨F, f1, f2, f3, f4⟩ := fromMatch_found len keys m (h m (by simp)).1 (h m (by simp)).2
    obtain ⟨G, g1, g2, g3, g4⟩ := fromReLoop_found len keys ms (rv ++ F) (fun f hf => h f (by simp [hf])) hms
    refine ⟨F ++ G, ?_, ?_, ?_, ?_⟩
    · rw [List.map_cons, fromReLoop, f1]
      simp only
      rw [g1, List.append_assoc]
    · intro n hn
      rcases List.mem_append.1 hn with hn | hn
      · exact ⟨(f2 n hn).1, m, by simp, (f2 n hn).2⟩
      · obtain ⟨a, f, b, c⟩ := g2 n hn
        exact ⟨a, f, by simp [b], c⟩
    · rw [List.map_append, List.pairwise_append]
      refine ⟨f3, g3, ?_⟩
      intro a ha b hb
      obtain ⟨n, hn, rfl⟩ := List.mem_map.1 ha
      obtain ⟨n', hn', rfl⟩ := List.mem_map.1 hb
      obtain ⟨_, q1, q2⟩ := f2 n hn
      obtain ⟨_, f, hf, q3, q4⟩ := g2 n' hn'
      have := hm f hf
      have hw : n.start ≤ n.stop := (f2 n hn).1.start_le
      show n.start ≤ n'.start ∧ n.stop ≤ n'.start
      omega
    · rw [preorderAll_append, List.flatMap_cons]
      exact f4.append g4

/-- **C92 (partial).** Whatever the pattern, without lookahead, the Ito and the selected groups, `from_re` succeeds: it
gives well-formed trees within the Ito, in order and disjoint, which hold exactly the captures of the selected groups in
all matches.  Missing: lookahead, for which it is false (`C92_lookahead_raises`), and groups inside lookbehind. -/
theorem C92_from_re (r : Re) (hr : NoLook r) (keys : List String) (x : FIto Char)
    (hx : 0 ≤ x.start ∧ x.start ≤ x.stop ∧ x.stop ≤ x.string.length) :
    ∃ forest, extractRe r keys x = .ok forest ∧ (∀ n ∈ forest, WF n ∧ x.start ≤ n.start ∧ n.stop ≤ x.stop) ∧
      (forest.map Node.span).Pairwise (fun a b => a.start ≤ b.start ∧ a.stop ≤ b.start) ∧
      (preorderAll forest).Perm ((finditer r x.start.toNat x.text).flatMap (captured keys)) := by
  have hlen : (x.text.length : Int) = x.stop - x.start := by
    rw [FIto.text_length (x := x) (a := x.start.toNat) (b := x.stop.toNat) (by omega) (by omega) (by omega)]
    omega
  obtain ⟨h1, h2⟩ := finditer_ok hr (i := x.start.toNat) (rest := x.text)
  obtain ⟨F, f1, f2, f3, f4⟩ := fromReLoop_found x.string.length keys (finditer r x.start.toNat x.text) []
    (fun f hf => ⟨(h1 f hf).1, by have := (h1 f hf).2.2; omega⟩) h2
  refine ⟨F, ?_, ?_, f3, f4⟩
  · unfold extractRe fromRe
    rw [f1]
    rfl
  · intro n hn
    obtain ⟨a, f, hf, q1, q2⟩ := f2 n hn
    obtain ⟨_, b1, b2⟩ := h1 f hf
    exact ⟨a, by omega, by omega⟩

/-- `(?P<x>a(?=(?P<y>bc))b)c`, with group 0. -/
def lookRe : Re := .grp "0" (.seq (.grp "x" (.seq (.chr (· == 'a')) (.seq (.look (.grp "y" (lit ['b', 'c']))) (.chr (· == 'b')))))
  (.chr (· == 'c')))

/-- **C92 fails** for lookahead: `from_re(r'(?P<x>a(?=(?P<y>bc))b)c', 'abc')` raises `ValueError`. -/
theorem C92_lookahead_raises : extractRe lookRe ["0", "x", "y"] ⟨['a', 'b', 'c'], ⟨0, 3⟩, none⟩ = .error .valueError := by
  decide +kernel

/-- `(?P<w>(?P<c>.)+) ?` on `ab c`. -/
example : extractRe (.seq (.grp "w" (plus (.grp "c" (.chr (· != ' '))))) (opt (.chr (· == ' ')))) ["w", "c"]
    ⟨['a', 'b', ' ', 'c'], ⟨0, 4⟩, none⟩ =
    .ok [.mk ⟨0, 2⟩ (some "w") none [.leaf ⟨0, 1⟩ (some "c"), .leaf ⟨1, 2⟩ (some "c")],
      .mk ⟨3, 4⟩ (some "w") none [.leaf ⟨3, 4⟩ (some "c")]] := by decide +kernel
example := C92_from_re (.seq (.grp "w" (plus (.grp "c" (.chr (· != ' '))))) (opt (.chr (· == ' '))))
  (by simp [NoLook, plus, opt]) ["w", "c"] ⟨['a', 'b', ' ', 'c'], ⟨0, 4⟩, none⟩ (by decide)
/-- After an empty match a match at the same place that is not empty is found. -/
example : extractRe (.grp "x" (.alt .eps (.chr (· == 'a')))) ["x"] ⟨['a', 'b'], ⟨0, 2⟩, none⟩ =
    .ok [.leaf ⟨0, 0⟩ (some "x"), .leaf ⟨0, 1⟩ (some "x"), .leaf ⟨1, 1⟩ (some "x"), .leaf ⟨2, 2⟩ (some "x")] := by decide +kernel

end Pawpaw.Props
