import Verif.Props.Hier
import Verif.Props.CloneHeap
/-!
# C28, C29 in memory: `add_hierarchical` on objects

`Kids.hier` computes on value trees; here the trees carry, as their `vf` field, the identity of the object
they stand for, so the very same function describes which *objects* end up where.  `Heap.addHier` (the
model with parent pointers and stores) is shown to follow it.
-/
set_option linter.unusedSectionVars false
set_option linter.unusedSimpArgs false
namespace Pawpaw.Props
open TreeSpec HeapSpec Heap

mutual
/-- The identities in a tree. -/
def ids : Node → List Nat
  | .mk _ _ v ks => v.getD 0 :: idsAll ks
def idsAll : List Node → List Nat
  | [] => []
  | k :: ks => ids k ++ idsAll ks
end

mutual
/-- Object `x`, whose parent is `par`, and its descendants are exactly the objects of the tree. -/
def Is (h : Heap) (s : String) (par : Option Nat) (x : Nat) : Node → Prop
  | .mk sp _ v ks => h.parent x = par ∧ h.str x = s ∧ h.span x = sp ∧ v = some x ∧
      IsAll h s (some x) (h.kids x) ks
def IsAll (h : Heap) (s : String) (par : Option Nat) : List Nat → List Node → Prop
  | [], [] => True
  | x :: xs, k :: ks => Is h s par x k ∧ IsAll h s par xs ks
  | _, _ => False
end

/-- The `key` function of objects, on trees that carry identities. -/
def keyN (key : Option (Nat → Int)) : Kids.Key := key.map (fun f _ _ v => f (v.getD 0))

theorem idsAll_append (a b : List Node) : idsAll (a ++ b) = idsAll a ++ idsAll b := by
  induction a with
  | nil => rfl
  | cons k a ih => simp [idsAll, ih]

mutual
theorem ids_listing : ∀ t : Node, ids t = (listing t).map (fun c => c.2.2.getD 0)
  | .mk s d v ks => by simp [ids, listing, idsAll_listing ks]
theorem idsAll_listing : ∀ ts : List Node, idsAll ts = (listingAll ts).map (fun c => c.2.2.getD 0)
  | [] => rfl
  | k :: ks => by simp [idsAll, listingAll, ids_listing k, idsAll_listing ks]
end

theorem ids_mem_all {ts : List Node} {t : Node} (h : t ∈ ts) {y : Nat} (hy : y ∈ ids t) : y ∈ idsAll ts := by
  induction ts with
  | nil => simp at h
  | cons k ks ih =>
    simp only [idsAll, List.mem_append]
    rcases List.mem_cons.mp h with rfl | h
    · exact Or.inl hy
    · exact Or.inr (ih h)

theorem is_id {h : Heap} {s : String} {par : Option Nat} {x : Nat} {t : Node} (hi : Is h s par x t) :
    t.vf = some x := by
  cases t; rw [Is] at hi; exact hi.2.2.2.1

theorem is_mem {h : Heap} {s : String} {par : Option Nat} {x : Nat} {t : Node} (hi : Is h s par x t) :
    x ∈ ids t := by
  cases t; rw [Is] at hi; simp [ids, hi.2.2.2.1]

theorem is_span {h : Heap} {s : String} {par : Option Nat} {x : Nat} {t : Node} (hi : Is h s par x t) :
    t.span = h.span x := by
  cases t; rw [Is] at hi; exact hi.2.2.1.symm

theorem isAll_sub {h : Heap} {s : String} {par : Option Nat} : ∀ {xs : List Nat} {ts : List Node},
    IsAll h s par xs ts → ∀ x ∈ xs, x ∈ idsAll ts
  | [], [], _, x, hx => by simp at hx
  | [], _ :: _, hi, _, _ => by simp [IsAll] at hi
  | _ :: _, [], hi, _, _ => by simp [IsAll] at hi
  | y :: xs, t :: ts, hi, x, hx => by
    rw [IsAll] at hi
    simp only [idsAll, List.mem_append]
    rcases List.mem_cons.mp hx with rfl | hx
    · exact Or.inl (is_mem hi.1)
    · exact Or.inr (isAll_sub hi.2 x hx)

theorem isAll_spans {h : Heap} {s : String} {par : Option Nat} : ∀ {xs : List Nat} {ts : List Node},
    IsAll h s par xs ts → xs.map h.span = ts.map Node.span
  | [], [], _ => rfl
  | [], _ :: _, hi => by simp [IsAll] at hi
  | _ :: _, [], hi => by simp [IsAll] at hi
  | y :: xs, t :: ts, hi => by
    rw [IsAll] at hi
    rw [List.map_cons, List.map_cons, isAll_spans hi.2, is_span hi.1]

theorem isAll_append {h : Heap} {s : String} {par : Option Nat} : ∀ {xa xb : List Nat} {ta tb : List Node},
    IsAll h s par xa ta → IsAll h s par xb tb → IsAll h s par (xa ++ xb) (ta ++ tb)
  | [], _, [], _, _, hb => hb
  | [], _, _ :: _, _, ha, _ => by simp [IsAll] at ha
  | _ :: _, _, [], _, ha, _ => by simp [IsAll] at ha
  | x :: xa, _, t :: ta, _, ha, hb => by
    rw [IsAll] at ha
    rw [List.cons_append, List.cons_append, IsAll]
    exact ⟨ha.1, isAll_append ha.2 hb⟩

theorem isAll_split {h : Heap} {s : String} {par : Option Nat} : ∀ {ta tb : List Node} {xs : List Nat},
    IsAll h s par xs (ta ++ tb) → ∃ xa xb, xs = xa ++ xb ∧ xa.length = ta.length ∧ IsAll h s par xa ta ∧
      IsAll h s par xb tb
  | [], _, xs, hi => ⟨[], xs, rfl, rfl, by simp [IsAll], hi⟩
  | _ :: _, _, [], hi => by simp [IsAll] at hi
  | t :: ta, tb, x :: xs, hi => by
    rw [List.cons_append, IsAll] at hi
    obtain ⟨xa, xb, e, el, h1, h2⟩ := isAll_split (ta := ta) (tb := tb) hi.2
    exact ⟨x :: xa, xb, by rw [e]; rfl, by simp [el], by rw [IsAll]; exact ⟨hi.1, h1⟩, h2⟩

theorem isAll_cons {h : Heap} {s : String} {par : Option Nat} {t : Node} {ts : List Node} {xs : List Nat}
    (hi : IsAll h s par xs (t :: ts)) : ∃ y ys, xs = y :: ys ∧ Is h s par y t ∧ IsAll h s par ys ts := by
  cases xs with
  | nil => simp [IsAll] at hi
  | cons y ys => rw [IsAll] at hi; exact ⟨y, ys, rfl, hi.1, hi.2⟩

theorem isAll_nil {h : Heap} {s : String} {par : Option Nat} {xs : List Nat} (hi : IsAll h s par xs []) :
    xs = [] := by
  cases xs with
  | nil => rfl
  | cons y ys => simp [IsAll] at hi

theorem isAll_length {h : Heap} {s : String} {par : Option Nat} {xs : List Nat} {ts : List Node}
    (hi : IsAll h s par xs ts) : xs.length = ts.length := by
  have := congrArg List.length (isAll_spans hi)
  simpa using this

mutual
theorem is_frame {h h' : Heap} {s : String} (hd : SameData h h') : ∀ (t : Node) (x : Nat) (par : Option Nat),
    (∀ y ∈ ids t, h'.parent y = h.parent y ∧ h'.kids y = h.kids y) → Is h s par x t → Is h' s par x t
  | .mk sp d v ks, x, par, hf, hi => by
    have hx := is_mem hi
    rw [Is] at hi ⊢
    obtain ⟨h1, h2, h3, h4, h5⟩ := hi
    rw [(hf x hx).1, (hd.2 x).2.1, (hd.2 x).1, (hf x hx).2]
    exact ⟨h1, h2, h3, h4, isAll_frame hd ks _ _ (fun y hy => hf y (by simp [ids, hy])) h5⟩
theorem isAll_frame {h h' : Heap} {s : String} (hd : SameData h h') : ∀ (ts : List Node) (xs : List Nat)
    (par : Option Nat), (∀ y ∈ idsAll ts, h'.parent y = h.parent y ∧ h'.kids y = h.kids y) →
    IsAll h s par xs ts → IsAll h' s par xs ts
  | [], [], _, _, _ => by simp [IsAll]
  | [], _ :: _, _, _, hi => by simp [IsAll] at hi
  | _ :: _, [], _, _, hi => by simp [IsAll] at hi
  | t :: ts, x :: xs, par, hf, hi => by
    rw [IsAll] at hi ⊢
    exact ⟨is_frame hd t x par (fun y hy => hf y (by simp [idsAll, hy])) hi.1,
      isAll_frame hd ts xs par (fun y hy => hf y (by simp [idsAll, hy])) hi.2⟩
end

/-- The roots get a new parent. -/
theorem isAll_reparent {h h' : Heap} {s : String} (hd : SameData h h') {par par' : Option Nat} :
    ∀ (ts : List Node) (xs : List Nat), (idsAll ts).Nodup → (∀ y ∈ xs, h'.parent y = par') →
    (∀ y ∈ idsAll ts, h'.kids y = h.kids y ∧ (y ∉ xs → h'.parent y = h.parent y)) →
    IsAll h s par xs ts → IsAll h' s par' xs ts
  | [], [], _, _, _, _ => by simp [IsAll]
  | [], _ :: _, _, _, _, hi => by simp [IsAll] at hi
  | _ :: _, [], _, _, _, hi => by simp [IsAll] at hi
  | .mk sp d v ks :: ts, x :: xs, hn, hp, hf, hi => by
    have hi' := hi
    rw [IsAll] at hi'
    have hsub := isAll_sub hi'.2
    rw [idsAll, List.nodup_append] at hn
    rw [IsAll, Is] at hi ⊢
    obtain ⟨⟨h1, h2, h3, h4, h5⟩, h6⟩ := hi
    have hx : x ∈ ids (.mk sp d v ks) := is_mem hi'.1
    have hn1 := hn.1
    rw [ids, List.nodup_cons, h4] at hn1
    have hkid : ∀ y ∈ idsAll ks, y ≠ x ∧ y ∉ xs := by
      intro y hy
      refine ⟨?_, ?_⟩
      · rintro rfl; exact hn1.1 hy
      · intro hm; exact hn.2.2 y (by simp [ids, hy]) y (hsub y hm) rfl
    rw [hp x (by simp), (hd.2 x).2.1, (hd.2 x).1, (hf x (by simp [idsAll, hx])).1]
    refine ⟨⟨rfl, h2, h3, h4, isAll_frame hd ks _ _ (fun y hy => ?_) h5⟩,
      isAll_reparent hd ts xs hn.2.1 (fun y hy => hp y (by simp [hy])) (fun y hy => ?_) h6⟩
    · have := hkid y hy
      have hm := hf y (by simp [idsAll, ids, hy])
      exact ⟨hm.2 (by simp [this.1, this.2]), hm.1⟩
    · have hm := hf y (by simp [idsAll, hy])
      refine ⟨hm.1, fun hnx => hm.2 ?_⟩
      have : y ≠ x := by rintro rfl; exact hn.2.2 y hx y hy rfl
      simp [this, hnx]

/-- From some recursion limit on, the call leaves this memory and this outcome. -/
def RunsTo (key : Option (Nat → Int)) (h : Heap) (p x : Nat) (r : Res) : Prop :=
  ∃ N, ∀ n, N ≤ n → addHier key n h p x = r

/-- Below `p` are the objects of the forest `store`, and only those; they form a well-formed forest. -/
structure Site (h : Heap) (s : String) (p : Nat) (store : List Node) : Prop where
  str : h.str p = s
  kids : IsAll h s (some p) (h.kids p) store
  forest : ForestOK (h.span p) store
  fresh : p ∉ idsAll store
  nodup : (idsAll store).Nodup

/-- What a successful addition under `p` left: the forest `ks` below `p`, attributes as before, and parents
and children as before, but for the objects in `touched` (and the children of `p`). -/
structure After (h h' : Heap) (s : String) (p : Nat) (ks : List Node) (touched : List Nat) : Prop where
  data : SameData h h'
  kids : IsAll h' s (some p) (h'.kids p) ks
  frame : ∀ y, y ∉ touched → h'.parent y = h.parent y ∧ (y ≠ p → h'.kids y = h.kids y)

/-- The call follows the computation on trees. -/
def Sim (key : Option (Nat → Int)) (h : Heap) (s : String) (p x : Nat) (touched : List Nat) :
    Except PyErr (List Node) → Prop
  | .error e => ∃ h', RunsTo key h p x (h', .error e)
  | .ok ks => ∃ h', RunsTo key h p x (h', .ok ()) ∧ After h h' s p ks touched

theorem flatten_childless (key : Option (Nat → Int)) {h : Heap} {p x : Nat} (hk : h.kids x = []) (n : Nat) :
    flatten key (n + 1) h p x = (h, .ok ()) := by
  rw [flatten, if_pos hk]

theorem hierAt_mid (key : Kids.Key) (s : Span) (d : Option String) (v : Option Nat) (l r : List Node) (c : Node) :
    Kids.hierAt key s d v (l ++ c :: r) l.length =
      (Kids.hierNode key s d v c).map (fun ks => l ++ .mk c.span c.desc c.vf ks :: r) := by
  induction l with
  | nil =>
    rw [List.nil_append, List.length_nil, Kids.hierAt]
    cases Kids.hierNode key s d v c <;> rfl
  | cons a l ih =>
    rw [List.cons_append, List.length_cons, Kids.hierAt, ih]
    cases Kids.hierNode key s d v c <;> rfl

theorem setParentRaises_eq {h : Heap} {p x : Nat} (hs : h.str x = h.str p) (hne : x ≠ p) :
    h.setParentRaises x p = Kids.outside (h.span p) (h.span x) := by
  unfold setParentRaises
  simp [hs, hne]

/-- The descent into a child: the recursive call's effect, seen from the parent. -/
theorem sim_into {key : Option (Nat → Int)} {h : Heap} {s : String} {p x y : Nat} {xl xr : List Nat}
    {l r : List Node} {sp : Span} {d : Option String} {v : Option Nat} {cks : List Node}
    {res : Except PyErr (List Node)}
    (hsite : Site h s p (l ++ .mk sp d v cks :: r)) (hkids : h.kids p = xl ++ y :: xr)
    (hl : IsAll h s (some p) xl l) (hc : Is h s (some p) y (.mk sp d v cks)) (hr : IsAll h s (some p) xr r)
    (hxp : x ≠ p) (hx : x ∉ idsAll (l ++ .mk sp d v cks :: r))
    (hsim : Sim key h s y x (x :: idsAll cks) res)
    (hrun : ∀ n, addHier key (n + 2) h p x = addHier key (n + 1) h y x) :
    Sim key h s p x (x :: idsAll (l ++ .mk sp d v cks :: r)) (res.map (fun ks => l ++ .mk sp d v ks :: r)) := by
  have hnd := hsite.nodup
  rw [idsAll_append, idsAll, List.nodup_append, List.nodup_append] at hnd
  obtain ⟨nl, ⟨nc, nr, ncr⟩, nlc⟩ := hnd
  have hfresh := hsite.fresh
  rw [idsAll_append, idsAll] at hfresh hx ⊢
  simp only [List.mem_append, not_or] at hfresh hx
  have hyc := is_mem hc
  have hvy : v = some y := by rw [Is] at hc; exact hc.2.2.2.1
  have hrun' : ∀ r', RunsTo key h y x r' → RunsTo key h p x r' := by
    rintro r' ⟨N, hN⟩
    refine ⟨N + 2, fun n hn => ?_⟩
    obtain ⟨m, rfl⟩ : ∃ m, n = m + 2 := ⟨n - 2, by omega⟩
    rw [hrun m, hN _ (by omega)]
  cases res with
  | error e =>
    obtain ⟨h', hr'⟩ := hsim
    exact ⟨h', hrun' _ hr'⟩
  | ok ks =>
    obtain ⟨h', hr', ha⟩ := hsim
    have hyx : y ≠ x := by rintro rfl; exact hx.2.1 hyc
    have hpy : p ≠ y := by rintro rfl; exact hfresh.2.1 hyc
    have hyk : y ∉ idsAll cks := by
      rw [ids, List.nodup_cons, hvy] at nc; exact nc.1
    have hsub : ∀ z ∈ idsAll cks, z ∈ ids (.mk sp d v cks) := fun z hz => by simp [ids, hz]
    have hpt : p ∉ x :: idsAll cks := by
      rw [List.mem_cons, not_or]; exact ⟨fun e => hxp e.symm, fun hm => hfresh.2.1 (hsub p hm)⟩
    have hyt : y ∉ x :: idsAll cks := by
      rw [List.mem_cons, not_or]; exact ⟨hyx, hyk⟩
    refine ⟨h', hrun' _ hr', ha.data, ?_, ?_⟩
    · rw [(ha.frame p hpt).2 hpy, hkids]
      have side : ∀ ts : List Node, (∀ z ∈ idsAll ts, z ≠ x ∧ z ∉ ids (.mk sp d v cks)) →
          ∀ z ∈ idsAll ts, h'.parent z = h.parent z ∧ h'.kids z = h.kids z := by
        intro ts hts z hz
        obtain ⟨e1, e2⟩ := hts z hz
        have hz1 : z ≠ y := by rintro rfl; exact e2 hyc
        have := ha.frame z (by rw [List.mem_cons, not_or]; exact ⟨e1, fun hm => e2 (hsub z hm)⟩)
        exact ⟨this.1, this.2 hz1⟩
      refine isAll_append (isAll_frame ha.data l xl _ (side l ?_) hl) ?_
      · intro z hz
        exact ⟨by rintro rfl; exact hx.1 hz, fun hm => nlc z hz z (by simp [hm]) rfl⟩
      · rw [IsAll]
        refine ⟨?_, isAll_frame ha.data r xr _ (side r ?_) hr⟩
        · rw [Is] at hc ⊢
          rw [(ha.frame y hyt).1, (ha.data.2 y).2.1, (ha.data.2 y).1]
          exact ⟨hc.1, hc.2.1, hc.2.2.1, hc.2.2.2.1, ha.kids⟩
        · intro z hz
          exact ⟨by rintro rfl; exact hx.2.2 hz, fun hm => ncr z hm z hz rfl⟩
    · intro z hz
      rw [List.mem_cons, not_or, List.mem_append, List.mem_append, not_or, not_or] at hz
      have hz1 : z ≠ y := by rintro rfl; exact hz.2.2.1 hyc
      have := ha.frame z (by
        rw [List.mem_cons, not_or]; exact ⟨hz.1, fun hm => hz.2.2.1 (hsub z hm)⟩)
      exact ⟨this.1, fun _ => this.2 hz1⟩

/-- The children `m` of `p` are replaced by `x`, which becomes their parent (`m` may be empty). -/
theorem after_relink {h h' : Heap} {s : String} {p x : Nat} {xl xm xr : List Nat} {l m r : List Node}
    {d : Option String}
    (hsite : Site h s p (l ++ m ++ r))
    (hl : IsAll h s (some p) xl l) (hm : IsAll h s (some p) xm m) (hr : IsAll h s (some p) xr r)
    (hxs : h.str x = s) (hxk : h.kids x = []) (hxp : x ≠ p) (hx : x ∉ idsAll (l ++ m ++ r))
    (hd : SameData h h')
    (hpar : ∀ y, h'.parent y = if y = x then some p else if y ∈ xm then some x else h.parent y)
    (hkid : ∀ y, h'.kids y = if y = p then xl ++ x :: xr else if y = x then xm else h.kids y) :
    After h h' s p (l ++ .mk (h.span x) d (some x) m :: r) (x :: idsAll (l ++ m ++ r)) := by
  have hnd := hsite.nodup
  rw [List.append_assoc, idsAll_append, idsAll_append, List.nodup_append, List.nodup_append] at hnd
  obtain ⟨nl, ⟨nm, nr, nmr⟩, nlm⟩ := hnd
  have hfresh := hsite.fresh
  rw [List.append_assoc, idsAll_append, idsAll_append] at hfresh hx ⊢
  simp only [List.mem_append, not_or] at hfresh hx
  have hsub := isAll_sub hm
  have side : ∀ ts : List Node, (∀ z ∈ idsAll ts, z ≠ x ∧ z ≠ p ∧ z ∉ idsAll m) →
      ∀ z ∈ idsAll ts, h'.parent z = h.parent z ∧ h'.kids z = h.kids z := by
    intro ts hts z hz
    obtain ⟨e1, e2, e3⟩ := hts z hz
    rw [hpar, hkid, if_neg e1, if_neg (fun hm => e3 (hsub z hm)), if_neg e2, if_neg e1]
    exact ⟨rfl, rfl⟩
  refine ⟨hd, ?_, ?_⟩
  · rw [hkid p, if_pos rfl]
    refine isAll_append (isAll_frame hd l xl _ (side l ?_) hl) ?_
    · intro z hz
      refine ⟨by rintro rfl; exact hx.1 hz, by rintro rfl; exact hfresh.1 hz, fun hm => ?_⟩
      exact nlm z hz z (by simp [hm]) rfl
    · rw [IsAll, Is]
      refine ⟨⟨by rw [hpar, if_pos rfl], by rw [(hd.2 x).2.1, hxs], (hd.2 x).1, rfl, ?_⟩,
        isAll_frame hd r xr _ (side r ?_) hr⟩
      · rw [hkid x, if_neg hxp, if_pos rfl]
        refine isAll_reparent hd m xm nm (fun y hy => ?_) (fun y hy => ?_) hm
        · rw [hpar, if_neg (by rintro rfl; exact hx.2.1 (hsub y hy)), if_pos hy]
        · have e1 : y ≠ x := by rintro rfl; exact hx.2.1 hy
          have e2 : y ≠ p := by rintro rfl; exact hfresh.2.1 hy
          refine ⟨by rw [hkid, if_neg e2, if_neg e1], fun hn => ?_⟩
          rw [hpar, if_neg e1, if_neg hn]
      · intro z hz
        refine ⟨by rintro rfl; exact hx.2.2 hz, by rintro rfl; exact hfresh.2.2 hz, fun hm => ?_⟩
        exact nmr z hm z hz rfl
  · intro z hz
    rw [List.mem_cons, not_or, List.mem_append, List.mem_append, not_or, not_or] at hz
    refine ⟨?_, fun hzp => ?_⟩
    · rw [hpar, if_neg hz.1, if_neg (fun hm => hz.2.2.1 (hsub z hm))]
    · rw [hkid, if_neg hzp, if_neg hz.1]

theorem delSlice_mid {h : Heap} {p : Nat} {xl xm xr : List Nat} (hk : h.kids p = xl ++ xm ++ xr) :
    h.delSlice p (some (xl.length : Int)) (some ((xl ++ xm).length : Int)) =
      ((h.unparent xm).setKids p (xl ++ xr), .ok ()) := by
  have e : Span.fromIndices (h.kids p).length (some (xl.length : Int)) (some ((xl ++ xm).length : Int)) =
      ⟨xl.length, (xl ++ xm).length⟩ := by
    rw [hk]
    exact fromIndices_span (by omega) (by rw [List.length_append]; omega)
      (by rw [List.length_append (bs := xr)]; omega)
  unfold delSlice
  rw [e]
  dsimp only
  rw [Int.toNat_natCast, Int.toNat_natCast]
  have e1 : ((h.kids p).drop xl.length).take ((xl ++ xm).length - xl.length) = xm := by
    rw [hk, List.append_assoc, List.drop_left, List.length_append, Nat.add_sub_cancel_left, List.take_left]
  rw [e1, kids_unparent, hk, List.drop_left, List.append_assoc, List.take_left]

theorem sameData_obj {h h' : Heap} (hn : h'.next = h.next) (P : Nat → Option Nat) (K : Nat → List Nat)
    (ho : ∀ y, h'.obj y = { h.obj y with parent := P y, kids := K y }) : SameData h h' := by
  refine ⟨hn, fun y => ?_⟩
  unfold Heap.span Heap.str
  rw [ho y]
  exact ⟨rfl, rfl, rfl, rfl⟩

/-- What `absorb` does, `x` being childless and wide enough for the children it takes over. -/
theorem absorb_run {h : Heap} {p x : Nat} {xl xm xr : List Nat} (hk : h.kids p = xl ++ xm ++ xr)
    (hxk : h.kids x = []) (hxp : x ≠ p) (hs : h.str x = h.str p)
    (hm : KidsOK (h.span x) (xm.map h.span)) (hy : ∀ y ∈ xm, h.str y = h.str x ∧ y ≠ x) :
    (Kids.outside (h.span p) (h.span x) = true →
      ∃ h', absorb h p x xl.length (xl ++ xm).length = (h', .error .valueError)) ∧
    (Kids.outside (h.span p) (h.span x) = false →
      ∃ h', absorb h p x xl.length (xl ++ xm).length = (h', .ok ()) ∧ SameData h h' ∧
        (∀ y, h'.parent y = if y = x then some p else if y ∈ xm then some x else h.parent y) ∧
        (∀ y, h'.kids y = if y = p then xl ++ x :: xr else if y = x then xm else h.kids y)) := by
  have e1 : ((h.kids p).drop xl.length).take ((xl ++ xm).length - xl.length) = xm := by
    rw [hk, List.append_assoc, List.drop_left, List.length_append, Nat.add_sub_cancel_left, List.take_left]
  unfold absorb
  rw [e1, delSlice_mid hk]
  dsimp only
  generalize hg : (h.unparent xm).setKids p (xl ++ xr) = h1
  have hd1 : SameData h h1 := by
    rw [← hg]; exact (sameData_unparent h xm).trans (sameData_setKids _ _ _)
  have k1 : ∀ y, h1.kids y = if y = p then xl ++ xr else h.kids y := by
    intro y; rw [← hg, kids_setKids, kids_unparent]
  have p1 : ∀ y, h1.parent y = if y ∈ xm then none else h.parent y := by
    intro y; rw [← hg, parent_setKids, parent_unparent]
  have sp1 : h1.span = h.span := funext fun y => (hd1.2 y).1
  have kx : h1.kids x = [] := by rw [k1, if_neg hxp, hxk]
  obtain ⟨h2, a1, a2, a3⟩ := add_after (p := x) xm h1 (by rw [kx, List.nil_append, sp1]; exact hm) (by
    intro y hym
    refine ⟨by rw [p1, if_pos hym], by rw [(hd1.2 y).2.1, (hd1.2 x).2.1]; exact (hy y hym).1, (hy y hym).2⟩)
  rw [a1]
  dsimp only
  have hd2 : SameData h1 h2 := sameData_obj a2 _ _ a3
  have k2 : ∀ y, h2.kids y = if y = p then xl ++ xr else if y = x then xm else h.kids y := by
    intro y
    unfold Heap.kids
    rw [a3 y]
    dsimp only
    by_cases e : y = x
    · subst e; rw [if_pos rfl, if_neg hxp, if_pos rfl, kx, List.nil_append]
    · rw [if_neg e, if_neg e]; exact k1 y
  have p2 : ∀ y, h2.parent y = if y ∈ xm then some x else h.parent y := by
    intro y
    unfold Heap.parent
    rw [a3 y]
    dsimp only
    by_cases e : y ∈ xm
    · rw [if_pos e, if_pos e]
    · rw [if_neg e, if_neg e]
      have := p1 y
      rw [if_neg e] at this
      exact this
  have hd : SameData h h2 := hd1.trans hd2
  have e3 : (h2.kids p).insertIdx xl.length x = xl ++ x :: xr := by
    rw [k2, if_pos rfl, insertIdx_append]
  rw [e3]
  have hd3 : SameData h (h2.setKids p (xl ++ x :: xr)) := hd.trans (sameData_setKids _ _ _)
  have hraise : (h2.setKids p (xl ++ x :: xr)).setParentRaises x p = Kids.outside (h.span p) (h.span x) := by
    rw [setParentRaises_eq (by rw [(hd3.2 x).2.1, (hd3.2 p).2.1]; exact hs) hxp, (hd3.2 x).1, (hd3.2 p).1]
  rw [hraise]
  constructor
  · intro ho
    rw [if_pos ho]
    exact ⟨_, rfl⟩
  · intro ho
    rw [if_neg (by simp [ho])]
    refine ⟨_, rfl, hd3.trans (sameData_setParent _ _ _), fun y => ?_, fun y => ?_⟩
    · rw [parent_setParent, parent_setKids, p2]
    · rw [kids_setParent, kids_setKids, k2]
      by_cases e : y = p
      · rw [if_pos e, if_pos e]
      · rw [if_neg e, if_neg e, if_neg e]

theorem absorbInto_eq {p s : Span} {l m r : List Node} {d : Option String} {v : Option Nat}
    (hk : KidsOK s (m.map Node.span)) :
    Kids.absorbInto p (l ++ m ++ r) l.length (l ++ m).length s d v =
      if Kids.outside p s then .error .valueError else .ok (l ++ .mk s d v m :: r) := by
  unfold Kids.absorbInto
  have e1 : ((l ++ m ++ r).drop l.length).take ((l ++ m).length - l.length) = m := by
    rw [List.append_assoc, List.drop_left, List.length_append, Nat.add_sub_cancel_left, List.take_left]
  have e2 : (l ++ m ++ r).take l.length = l := by rw [List.append_assoc, List.take_left]
  rw [e1, Kids.addAll_ordered [] m (by simpa using hk), List.drop_left, e2]
  rfl

/-- Sliding `x` between `p` and some of its children. -/
theorem sim_absorb {key : Option (Nat → Int)} {h : Heap} {s : String} {p x : Nat} {l m r : List Node}
    {d : Option String} (hsite : Site h s p (l ++ m ++ r)) (hxs : h.str x = s) (hxk : h.kids x = [])
    (hxp : x ≠ p) (hx : x ∉ idsAll (l ++ m ++ r)) (hm : KidsOK (h.span x) (m.map Node.span))
    (hrun : ∀ n, addHier key (n + 2) h p x = absorb h p x l.length (l ++ m).length) :
    Sim key h s p x (x :: idsAll (l ++ m ++ r))
      (Kids.absorbInto (h.span p) (l ++ m ++ r) l.length (l ++ m).length (h.span x) d (some x)) := by
  obtain ⟨xlm, xr, hk1, hlen, hilm, hir⟩ := isAll_split hsite.kids
  obtain ⟨xl, xm, rfl, hlen', hil, him⟩ := isAll_split hilm
  have hlm : xm.length = m.length := isAll_length him
  have hlen2 : (xl ++ xm).length = (l ++ m).length := by simp [hlen', hlm]
  rw [absorbInto_eq hm]
  have hy : ∀ y ∈ xm, h.str y = h.str x ∧ y ≠ x := by
    intro y hym
    have hmem := isAll_sub him y hym
    refine ⟨?_, ?_⟩
    · have : ∀ (ts : List Node) (xs : List Nat), IsAll h s (some p) xs ts → ∀ y ∈ xs, h.str y = s := by
        intro ts
        induction ts with
        | nil => intro xs hi y hy; rw [isAll_nil hi] at hy; simp at hy
        | cons t ts ih =>
          intro xs hi y hy
          obtain ⟨z, zs, rfl, hz, hzs⟩ := isAll_cons hi
          rcases List.mem_cons.mp hy with rfl | hy
          · cases t; rw [Is] at hz; exact hz.2.1
          · exact ih zs hzs y hy
      rw [this m xm him y hym, hxs]
    · rintro rfl
      rw [idsAll_append, idsAll_append] at hx
      exact hx (by simp [hmem])
  obtain ⟨c1, c2⟩ := absorb_run (x := x) hk1 hxk hxp (by rw [hxs, hsite.str]) (by
    rw [isAll_spans him]; exact hm) hy
  rw [hlen', hlen2] at c1 c2
  cases ho : Kids.outside (h.span p) (h.span x) with
  | true =>
    rw [if_pos rfl]
    obtain ⟨h', e⟩ := c1 ho
    refine ⟨h', 2, fun n hn => ?_⟩
    obtain ⟨k, rfl⟩ : ∃ k, n = k + 2 := ⟨n - 2, by omega⟩
    rw [hrun, e]
  | false =>
    rw [if_neg (by simp)]
    obtain ⟨h', e, hd, hp', hk'⟩ := c2 ho
    refine ⟨h', ⟨2, fun n hn => ?_⟩, after_relink hsite hil him hir hxs hxk hxp hx hd hp' hk'⟩
    obtain ⟨k, rfl⟩ : ∃ k, n = k + 2 := ⟨n - 2, by omega⟩
    rw [hrun, e]

/-- A node that sits in a forest is the root of its own forest. -/
theorem site_kid {h : Heap} {s : String} {p y : Nat} {l r : List Node} {sp : Span} {d : Option String}
    {v : Option Nat} {cks : List Node} (hsite : Site h s p (l ++ .mk sp d v cks :: r))
    (hc : Is h s (some p) y (.mk sp d v cks)) : Site h s y cks := by
  have hnd := hsite.nodup
  rw [idsAll_append, idsAll, List.nodup_append, List.nodup_append] at hnd
  have hnc := hnd.2.1.1
  have hwf := hsite.forest.2 (.mk sp d v cks) (by simp)
  rw [Is] at hc
  obtain ⟨h1, h2, h3, h4, h5⟩ := hc
  rw [ids, List.nodup_cons, h4] at hnc
  refine ⟨h2, h5, ?_, hnc.1, hnc.2⟩
  rw [h3]
  cases hwf with
  | mk a b c e => exact ⟨c, e⟩

/-- `key is None or key(ito) >= key(tmp)` -/
def goesUnder (key : Option (Nat → Int)) (x y : Nat) : Bool :=
  match key with | none => true | some f => decide (f x ≥ f y)

theorem addHier_placed (key : Option (Nat → Int)) {h : Heap} {p x : Nat} (hpx : h.parent x = none)
    (hxk : h.kids x = []) (hk : h.kids p ≠ []) (n : Nat) :
    addHier key (n + 2) h p x =
      match Kids.place (h.kidSpans p) (h.span x) with
        | .overlap => (h, .error .valueError)
        | .into i =>
          match (h.kids p)[i]? with
          | none => (h, .error .indexError)
          | some tmp => addHier key (n + 1) h tmp x
        | .insert i =>
          let h := h.setKids p ((h.kids p).insertIdx i x)
          if h.setParentRaises x p then (h, .error .valueError)
          else (h.setParent x (some p), .ok ())
        | .same i =>
          match (h.kids p)[i]? with
          | none => (h, .error .indexError)
          | some tmp =>
            if goesUnder key x tmp then addHier key (n + 1) h tmp x
            else absorb h p x i (i + 1)
        | .absorb i j => absorb h p x i j := by
  rw [addHier, if_neg (by simp [hpx]), if_neg hk, flatten_childless key hxk]
  rfl

/-- `add_hierarchical` of a childless object. -/
theorem sim_childless (key : Option (Nat → Int)) {h : Heap} {s : String} {x : Nat} {d : Option String}
    (hpx : h.parent x = none) (hxs : h.str x = s) (hxk : h.kids x = [])
    (hsp : (h.span x).start ≤ (h.span x).stop) :
    ∀ (t : Node) (p : Nat), t.span = h.span p → Site h s p t.kids → x ≠ p → x ∉ idsAll t.kids →
    Sim key h s p x (x :: idsAll t.kids) (Kids.hierNode (keyN key) (h.span x) d (some x) t)
  | .mk sp pd pv store, p, hspan, hsite, hxp, hx => by
    simp only [Node.span, Node.kids] at hspan hsite hx ⊢
    subst hspan
    unfold Kids.hierNode
    have hraise := setParentRaises_eq (h := h) (p := p) (x := x) (by rw [hxs, hsite.str]) hxp
    by_cases hst : store = []
    · subst hst
      have hk : h.kids p = [] := isAll_nil hsite.kids
      rw [if_pos rfl]
      have hrun : ∀ n, addHier key (n + 1) h p x =
          if Kids.outside (h.span p) (h.span x) then (h, .error .valueError)
          else ((h.setParent x (some p)).setKids p [x], .ok ()) := by
        intro n
        rw [addHier, if_neg (by simp [hpx]), if_pos hk, hraise]
        split
        · rfl
        · simp [hk]
      cases ho : Kids.outside (h.span p) (h.span x) with
      | true =>
        rw [if_pos rfl]
        refine ⟨h, 1, fun n hn => ?_⟩
        obtain ⟨k, rfl⟩ : ∃ k, n = k + 1 := ⟨n - 1, by omega⟩
        rw [hrun, ho, if_pos rfl]
      | false =>
        rw [if_neg (by simp)]
        refine ⟨(h.setParent x (some p)).setKids p [x], ⟨1, fun n hn => ?_⟩, ?_⟩
        · obtain ⟨k, rfl⟩ : ∃ k, n = k + 1 := ⟨n - 1, by omega⟩
          rw [hrun, ho, if_neg (by simp)]
        · refine after_relink (l := []) (m := []) (r := []) (xl := []) (xm := []) (xr := []) hsite
            (by simp [IsAll]) (by simp [IsAll]) (by simp [IsAll]) hxs hxk hxp hx
            ((sameData_setParent _ _ _).trans (sameData_setKids _ _ _)) (fun y => ?_) (fun y => ?_)
          · rw [parent_setKids, parent_setParent]; simp
          · rw [kids_setKids, kids_setParent]
            by_cases e : y = p
            · rw [if_pos e, if_pos e]; rfl
            · rw [if_neg e, if_neg e]
              by_cases e2 : y = x
              · rw [if_pos e2, e2, hxk]
              · rw [if_neg e2]
    · rw [if_neg hst]
      have hkne : h.kids p ≠ [] := by
        intro e
        have := isAll_length hsite.kids
        rw [e] at this
        exact hst (List.length_eq_zero_iff.mp this.symm)
      have hks : h.kidSpans p = store.map Node.span := isAll_spans hsite.kids
      have hrun := addHier_placed key hpx hxk hkne
      rw [hks] at hrun
      have hpl := Kids.place_spec hsite.forest.1 hsp
      generalize Kids.place (store.map Node.span) (h.span x) = pl at hpl hrun
      -- the two ways down
      have descend : ∀ (l r : List Node) (c : Node), store = l ++ c :: r →
          (∀ y, (h.kids p)[l.length]? = some y → c.vf = some y →
            ∀ n, addHier key (n + 2) h p x = addHier key (n + 1) h y x) →
          Sim key h s p x (x :: idsAll store) (Kids.hierAt (keyN key) (h.span x) d (some x) store l.length) := by
        intro l r c e hgo
        cases c with
        | mk sp' cd cv cks =>
        have hsz : sizeOf (Node.mk sp' cd cv cks) < sizeOf store := by
          rw [e]; exact List.sizeOf_lt_of_mem (by simp)
        rw [e] at hsite hx ⊢
        rw [hierAt_mid]
        obtain ⟨xl, xcr, hk1, hlen, hil, hicr⟩ := isAll_split hsite.kids
        obtain ⟨y, xr, rfl, hc, hir⟩ := isAll_cons hicr
        have hy : (h.kids p)[l.length]? = some y := by rw [hk1, ← hlen, getElem?_mid]
        have hgo' := hgo y hy (is_id hc)
        have hsc := site_kid hsite hc
        have hxc : x ∉ idsAll cks := by
          rw [idsAll_append, idsAll, ids] at hx
          intro hm; exact hx (by simp [hm])
        have hxy : x ≠ y := by
          rintro rfl
          have := is_mem hc
          rw [idsAll_append, idsAll] at hx
          exact hx (by simp [this])
        have hih := sim_childless key hpx hxs hxk hsp (d := d) (.mk sp' cd cv cks) y (is_span hc) hsc hxy hxc
        exact sim_into hsite hk1 hil hc hir hxp hx hih hgo'
      cases pl with
      | overlap =>
        dsimp only at hrun ⊢
        refine ⟨h, 2, fun n hn => ?_⟩
        obtain ⟨k, rfl⟩ : ∃ k, n = k + 2 := ⟨n - 2, by omega⟩
        exact hrun k
      | into i =>
        obtain ⟨l, c, r, e, rfl, h1, h2, _⟩ := hpl
        obtain ⟨l', r', e0, e1, e2⟩ := List.map_eq_append_iff.mp e
        obtain ⟨c', r'', rfl, rfl, rfl⟩ := List.map_eq_cons_iff.mp e2
        subst e1
        dsimp only at hrun ⊢
        rw [List.length_map] at hrun ⊢
        refine descend l' r'' c' e0 (fun y hy _ n => ?_)
        rw [hrun, hy]
      | insert i =>
        obtain ⟨l, r, e, rfl, h1, h2⟩ := hpl
        obtain ⟨l', r', e0, rfl, rfl⟩ := List.map_eq_append_iff.mp e
        subst e0
        dsimp only at hrun ⊢
        rw [List.length_map] at hrun ⊢
        obtain ⟨xl, xr, hk1, hlen, hil, hir⟩ := isAll_split hsite.kids
        have e1 : (h.kids p).insertIdx l'.length x = xl ++ x :: xr := by
          rw [hk1, ← hlen, insertIdx_append]
        rw [e1] at hrun
        have hd3 : SameData h (h.setKids p (xl ++ x :: xr)) := sameData_setKids _ _ _
        have hraise' : (h.setKids p (xl ++ x :: xr)).setParentRaises x p =
            Kids.outside (h.span p) (h.span x) := by
          rw [setParentRaises_eq (by rw [(hd3.2 x).2.1, (hd3.2 p).2.1, hxs, hsite.str]) hxp, (hd3.2 x).1,
            (hd3.2 p).1]
        rw [hraise'] at hrun
        rw [insertIdx_append]
        cases ho : Kids.outside (h.span p) (h.span x) with
        | true =>
          rw [if_pos rfl]
          refine ⟨h.setKids p (xl ++ x :: xr), 2, fun n hn => ?_⟩
          obtain ⟨k, rfl⟩ : ∃ k, n = k + 2 := ⟨n - 2, by omega⟩
          rw [hrun, ho, if_pos rfl]
        | false =>
          rw [if_neg (by simp)]
          refine ⟨(h.setKids p (xl ++ x :: xr)).setParent x (some p), ⟨2, fun n hn => ?_⟩, ?_⟩
          · obtain ⟨k, rfl⟩ : ∃ k, n = k + 2 := ⟨n - 2, by omega⟩
            rw [hrun, ho, if_neg (by simp)]
          · have := after_relink (l := l') (m := []) (r := r') (xl := xl) (xm := []) (xr := xr) (d := d)
              (h' := (h.setKids p (xl ++ x :: xr)).setParent x (some p))
              (by rw [List.append_nil]; exact hsite) hil (by simp [IsAll]) hir hxs hxk hxp
              (by rw [List.append_nil]; exact hx) (hd3.trans (sameData_setParent _ _ _)) (fun y => ?_) (fun y => ?_)
            · rw [List.append_nil] at this; exact this
            · rw [parent_setParent, parent_setKids]; simp
            · rw [kids_setParent, kids_setKids]
              by_cases e : y = p
              · rw [if_pos e, if_pos e]
              · rw [if_neg e, if_neg e]
                by_cases e2 : y = x
                · rw [if_pos e2, e2, hxk]
                · rw [if_neg e2]
      | same i =>
        obtain ⟨l, r, e, rfl⟩ := hpl
        obtain ⟨l', r', e0, e1, e2⟩ := List.map_eq_append_iff.mp e
        obtain ⟨c', r'', rfl, e3, rfl⟩ := List.map_eq_cons_iff.mp e2
        subst e1
        dsimp only at hrun ⊢
        rw [List.length_map] at hrun ⊢
        have hget : store[l'.length]? = some c' := by rw [e0, getElem?_mid]
        obtain ⟨xl, xcr, hk1, hlen, hil, hicr⟩ := isAll_split (ta := l') (tb := c' :: r'')
          (by rw [← e0]; exact hsite.kids)
        obtain ⟨y, xr, rfl, hc, hir⟩ := isAll_cons hicr
        have hy : (h.kids p)[l'.length]? = some y := by rw [hk1, ← hlen, getElem?_mid]
        rw [hget]
        rw [hy] at hrun
        dsimp only at hrun ⊢
        have hgu : Kids.Key.goesUnder (keyN key) (h.span x) d (some x) c' =
            goesUnder key x y := by
          have hv := is_id hc
          cases key with
          | none => rfl
          | some f => simp [Kids.Key.goesUnder, keyN, hv, goesUnder]
        rw [hgu]
        cases hb : goesUnder key x y with
        | true =>
          rw [if_pos rfl]
          refine descend l' r'' c' e0 (fun y' hy' _ n => ?_)
          rw [hy] at hy'
          cases hy'
          rw [hrun, hb, if_pos rfl]
        | false =>
          rw [if_neg (by simp)]
          simp only [hb, Bool.false_eq_true, if_false] at hrun
          have e4 : store = l' ++ [c'] ++ r'' := by rw [e0]; simp
          have hlen4 : l'.length + 1 = (l' ++ [c']).length := by simp
          rw [e4] at hsite hx ⊢
          rw [hlen4] at hrun ⊢
          refine sim_absorb hsite hxs hxk hxp hx ?_ hrun
          have hw := hsite.forest.1.inside c'.span (by simp)
          refine ⟨?_, by simp⟩
          intro k hk
          simp only [List.map_cons, List.map_nil, List.mem_singleton] at hk
          subst hk
          rw [e3]
          omega
      | absorb i j =>
        obtain ⟨l, m, r, e, rfl, rfl, _, _, _, h4, _⟩ := hpl
        obtain ⟨lm', r', e0, e1, rfl⟩ := List.map_eq_append_iff.mp e
        obtain ⟨l', m', rfl, rfl, rfl⟩ := List.map_eq_append_iff.mp e1
        subst e0
        dsimp only at hrun ⊢
        have hlen4 : (List.map Node.span l' ++ List.map Node.span m').length = (l' ++ m').length := by simp
        rw [List.length_map, hlen4] at hrun ⊢
        refine sim_absorb hsite hxs hxk hxp hx ?_ hrun
        have hk := hsite.forest.1
        rw [List.map_append, List.map_append] at hk
        refine kidsOK_weaken (p := h.span p) ⟨fun c hc => hk.inside c (by simp [hc]), ?_⟩ h4
        have := hk.ordered
        rw [List.append_assoc, List.pairwise_append, List.pairwise_append] at this
        exact this.2.1.1
termination_by t => sizeOf t
decreasing_by
  simp only [Node.mk.sizeOf_spec] at *
  omega

/-! ## An argument with children -/

theorem addHier_flat (key : Option (Nat → Int)) {h h1 : Heap} {p x n : Nat} (hpx : h.parent x = none)
    (hpx1 : h1.parent x = none) (hk : h.kids p ≠ []) (hk1 : h1.kids p ≠ [])
    (hf : flatten key n h p x = (h1, .ok ())) (hf1 : flatten key n h1 p x = (h1, .ok ())) :
    addHier key (n + 1) h p x = addHier key (n + 1) h1 p x := by
  rw [addHier, if_neg (by simp [hpx]), if_neg hk, hf]
  rw [addHier, if_neg (by simp [hpx1]), if_neg hk1, hf1]

theorem pop_last {h : Heap} {x c : Nat} {l : List Nat} (hk : h.kids x = l ++ [c]) :
    h.pop x (-1) = ((h.setParent c none).setKids x l, .ok c) := by
  have hi : listIdx (h.kids x).length (-1) = some l.length := by
    rw [hk]
    unfold listIdx
    simp only [List.length_append, List.length_cons, List.length_nil]
    rw [if_pos (by omega), if_pos (by omega)]
    simp only [Option.some.injEq]
    omega
  have hg : (h.kids x)[l.length]? = some c := by rw [hk, getElem?_mid]
  have hd : h.delInt x (-1) = ((h.setParent c none).setKids x l, .ok ()) := by
    unfold delInt
    rw [hi]
    dsimp only
    rw [hg]
    simp only [Option.toList_some, unparent, kids_setParent, hk]
    rw [List.eraseIdx_append_of_length_le (by omega), Nat.sub_self]
    simp
  unfold pop
  rw [hi]
  dsimp only
  rw [hg]
  dsimp only
  rw [hd]

/-- From some recursion limit on, the loop over the argument's children leaves this. -/
def RunsFlat (key : Option (Nat → Int)) (h : Heap) (p x : Nat) (r : Res) : Prop :=
  ∃ N, ∀ n, N ≤ n → flatten key n h p x = r

/-- The loop, with the children `ks` of `x` done and the children `a` still to do. -/
def SimFlat (key : Option (Nat → Int)) (h : Heap) (s : String) (p x : Nat) (a ks store : List Node) :
    Except PyErr (List Node) → Prop
  | .error e => ∃ h', RunsFlat key h p x (h', .error e)
  | .ok store' => ∃ h', (∀ r, RunsFlat key h' p x r → RunsFlat key h p x r) ∧ SameData h h' ∧
      IsAll h' s (some p) (h'.kids p) store' ∧ IsAll h' s (some x) (h'.kids x) a ∧
      ∀ y, y ∉ idsAll ks → y ∉ idsAll store → h'.parent y = h.parent y ∧ (y ≠ p → y ≠ x → h'.kids y = h.kids y)

theorem ids_perm {a b c : List Node} (h : (listingAll a).Perm (listingAll b ++ listingAll c)) :
    (idsAll a).Perm (idsAll b ++ idsAll c) := by
  rw [idsAll_listing, idsAll_listing, idsAll_listing, ← List.map_append]
  exact h.map _

theorem nodup_of_disjoint {l m : List Nat} (hl : l.Nodup) (hm : m.Nodup) (h : ∀ y ∈ l, y ∉ m) : (l ++ m).Nodup := by
  rw [List.nodup_append]
  exact ⟨hl, hm, fun a ha b hb e => h a ha (e ▸ hb)⟩

mutual
theorem sim_any (key : Option (Nat → Int)) {s : String} {p : Nat} {P : Span} (hp0 : 0 ≤ P.start)
    (hp1 : P.start ≤ P.stop) : ∀ (tx : Node) (h : Heap) (x : Nat) (store : List Node), h.span p = P →
    Is h s none x tx → WF tx → Site h s p store → p ∉ ids tx → (ids tx).Nodup →
    (∀ y ∈ ids tx, y ∉ idsAll store) →
    Sim key h s p x (ids tx ++ idsAll store) (Kids.hier (keyN key) P store tx)
  | .mk sp d v ks, h, x, store, hP, hi, hw, hsite, hpx, hnx, hdis => by
    have hi' := hi
    rw [Is] at hi'
    obtain ⟨i1, i2, i3, rfl, i5⟩ := hi'
    have hxm : x ∈ ids (.mk sp d (some x) ks) := by simp [ids]
    have hxp : x ≠ p := by rintro rfl; exact hpx hxm
    have hnx' := hnx
    rw [ids, List.nodup_cons] at hnx'
    simp only [Option.getD_some] at hnx'
    have hwk : 0 ≤ sp.start ∧ sp.start ≤ sp.stop ∧ ∀ k ∈ ks, WF k := by
      cases hw with
      | mk a b c e => exact ⟨a, b, e⟩
    unfold Kids.hier
    by_cases hst : store = []
    · subst hst
      have hk : h.kids p = [] := isAll_nil hsite.kids
      rw [if_pos rfl]
      have hrun : ∀ n, addHier key (n + 1) h p x =
          if Kids.outside P sp then (h, .error .valueError)
          else ((h.setParent x (some p)).setKids p [x], .ok ()) := by
        intro n
        rw [addHier, if_neg (by simp [i1]), if_pos hk, setParentRaises_eq (by rw [i2, hsite.str]) hxp, hP, i3]
        split
        · rfl
        · simp [hk]
      cases ho : Kids.outside P sp with
      | true =>
        rw [if_pos rfl]
        refine ⟨h, 1, fun n hn => ?_⟩
        obtain ⟨k, rfl⟩ : ∃ k, n = k + 1 := ⟨n - 1, by omega⟩
        rw [hrun, ho, if_pos rfl]
      | false =>
        rw [if_neg (by simp)]
        have hd : SameData h ((h.setParent x (some p)).setKids p [x]) :=
          (sameData_setParent _ _ _).trans (sameData_setKids _ _ _)
        refine ⟨(h.setParent x (some p)).setKids p [x], ⟨1, fun n hn => ?_⟩, hd, ?_, ?_⟩
        · obtain ⟨k, rfl⟩ : ∃ k, n = k + 1 := ⟨n - 1, by omega⟩
          rw [hrun, ho, if_neg (by simp)]
        · rw [kids_setKids, if_pos rfl]
          refine isAll_reparent hd (par := none) [.mk sp d (some x) ks] [x] ?_ ?_ ?_ (by rw [IsAll]; exact ⟨hi, by simp [IsAll]⟩)
          · simp only [idsAll, List.append_nil]; exact hnx
          · intro y hy
            rw [List.mem_singleton] at hy
            rw [parent_setKids, parent_setParent, if_pos hy]
          · intro y hy
            simp only [idsAll, List.append_nil] at hy
            refine ⟨?_, fun hn => ?_⟩
            · rw [kids_setKids, kids_setParent, if_neg (by rintro rfl; exact hpx hy)]
            · rw [List.mem_singleton] at hn
              rw [parent_setKids, parent_setParent, if_neg hn]
        · intro y hy
          rw [List.mem_append, not_or] at hy
          have hyx : y ≠ x := by rintro rfl; exact hy.1 hxm
          refine ⟨by rw [parent_setKids, parent_setParent, if_neg hyx], fun hyp => ?_⟩
          rw [kids_setKids, kids_setParent, if_neg hyp]
    · rw [if_neg hst]
      have hkne : h.kids p ≠ [] := by
        intro e
        have := isAll_length hsite.kids
        rw [e] at this
        exact hst (List.length_eq_zero_iff.mp this.symm)
      have hxs : x ∉ idsAll store := hdis x hxm
      have hfl := simFlat key hp0 hp1 ks h x [] store hP (by simpa using i5) hwk.2.2 hsite hst
        (by rw [List.nil_append]; exact hnx'.2) (by rw [List.nil_append]; exact hnx'.1) hxs hxp
        (by rw [List.nil_append]; intro hm; exact hpx (by simp [ids, hm]))
        (by rw [List.nil_append]; intro y hy; exact hdis y (by simp [ids, hy])) i2
      rcases hierRev_spec (keyN key) hp0 hp1 ks store hwk.2.2 (hP ▸ hsite.forest) hst with
        ⟨e, _⟩ | ⟨st', e, hf', hperm, hne'⟩
      · rw [e] at hfl ⊢
        obtain ⟨h', N, hN⟩ := hfl
        refine ⟨h', N + 1, fun n hn => ?_⟩
        obtain ⟨k, rfl⟩ : ∃ k, n = k + 1 := ⟨n - 1, by omega⟩
        rw [addHier, if_neg (by simp [i1]), if_neg hkne, hN k (by omega)]
      · rw [e] at hfl ⊢
        dsimp only
        obtain ⟨h1, hruns, hd1, hkp, hkx, hfr⟩ := hfl
        have hidp := ids_perm hperm
        have hmem : ∀ y, y ∈ idsAll st' ↔ y ∈ idsAll store ∨ y ∈ idsAll ks := by
          intro y; rw [hidp.mem_iff, List.mem_append]
        have kx : h1.kids x = [] := isAll_nil hkx
        have px : h1.parent x = none := by
          rw [(hfr x hnx'.1 hxs).1, i1]
        have hkne1 : h1.kids p ≠ [] := by
          intro e'
          have := isAll_length hkp
          rw [e'] at this
          exact hne' (List.length_eq_zero_iff.mp this.symm)
        obtain ⟨N, hN⟩ := hruns (h1, .ok ()) ⟨1, fun n hn => by
          obtain ⟨k, rfl⟩ : ∃ k, n = k + 1 := ⟨n - 1, by omega⟩
          exact flatten_childless key kx k⟩
        have hpks : p ∉ idsAll ks := by intro hm; exact hpx (by simp [ids, hm])
        have hsite1 : Site h1 s p st' := by
          refine ⟨by rw [(hd1.2 p).2.1]; exact hsite.str, hkp, ?_, ?_, ?_⟩
          · rw [(hd1.2 p).1, hP]; exact hf'
          · rw [hmem, not_or]; exact ⟨hsite.fresh, hpks⟩
          · refine hidp.nodup_iff.mpr (nodup_of_disjoint hsite.nodup hnx'.2 ?_)
            intro y hy hy'
            exact hdis y (by simp [ids, hy']) hy
        have hxst : x ∉ idsAll st' := by
          rw [hmem, not_or]; exact ⟨hxs, hnx'.1⟩
        have hsp1 : h1.span x = sp := by rw [(hd1.2 x).1, i3]
        have hA := sim_childless key (d := d) px (by rw [(hd1.2 x).2.1]; exact i2) kx
          (by rw [hsp1]; exact hwk.2.1) (.mk P none none st') p (by rw [(hd1.2 p).1, hP]; rfl) hsite1 hxp hxst
        rw [hsp1] at hA
        have hrun' : ∀ r, RunsTo key h1 p x r → RunsTo key h p x r := by
          rintro r ⟨M, hM⟩
          refine ⟨N + M + 2, fun n hn => ?_⟩
          obtain ⟨k, rfl⟩ : ∃ k, n = k + 2 := ⟨n - 2, by omega⟩
          rw [addHier_flat key i1 px hkne hkne1 (hN (k + 1) (by omega)) (flatten_childless key kx k),
            hM _ (by omega)]
        unfold Kids.hier1
        generalize Kids.hierNode (keyN key) sp d (some x) (.mk P none none st') = res at hA
        cases res with
        | error e =>
          obtain ⟨h', hr⟩ := hA
          exact ⟨h', hrun' _ hr⟩
        | ok ks' =>
          obtain ⟨h', hr, ha⟩ := hA
          refine ⟨h', hrun' _ hr, hd1.trans ha.data, ha.kids, ?_⟩
          intro y hy
          simp only [Node.kids] at ha
          rw [List.mem_append, not_or, ids, List.mem_cons, not_or] at hy
          simp only [Option.getD_some] at hy
          have f1 := ha.frame y (by
            rw [List.mem_cons, not_or, hmem, not_or]; exact ⟨hy.1.1, hy.2, hy.1.2⟩)
          have f2 := hfr y hy.1.2 hy.2
          exact ⟨f1.1.trans f2.1, fun hyp => (f1.2 hyp).trans (f2.2 hyp hy.1.1)⟩
theorem simFlat (key : Option (Nat → Int)) {s : String} {p : Nat} {P : Span} (hp0 : 0 ≤ P.start)
    (hp1 : P.start ≤ P.stop) : ∀ (ks : List Node) (h : Heap) (x : Nat) (a store : List Node), h.span p = P →
    IsAll h s (some x) (h.kids x) (a ++ ks) → (∀ k ∈ ks, WF k) → Site h s p store → store ≠ [] →
    (idsAll (a ++ ks)).Nodup → x ∉ idsAll (a ++ ks) → x ∉ idsAll store → x ≠ p → p ∉ idsAll (a ++ ks) →
    (∀ y ∈ idsAll (a ++ ks), y ∉ idsAll store) → h.str x = s →
    SimFlat key h s p x a ks store (Kids.hierRev (keyN key) P store ks)
  | [], h, x, a, store, hP, hi, hw, hsite, hst, hn, hx, hxs, hxp, hpa, hdis, hsx => by
    rw [Kids.hierRev]
    rw [List.append_nil] at hi
    exact ⟨h, fun r hr => hr, .refl h, hsite.kids, hi, fun y _ _ => ⟨rfl, fun _ _ => rfl⟩⟩
  | k :: ks, h, x, a, store, hP, hi, hw, hsite, hst, hn, hx, hxs, hxp, hpa, hdis, hsx => by
    have eapp : a ++ k :: ks = a ++ [k] ++ ks := by simp
    rw [eapp] at hi hn hx hpa hdis
    have hfl := simFlat key hp0 hp1 ks h x (a ++ [k]) store hP hi (fun c hc => hw c (by simp [hc])) hsite hst
      hn hx hxs hxp hpa hdis hsx
    rw [Kids.hierRev]
    rcases hierRev_spec (keyN key) hp0 hp1 ks store (fun c hc => hw c (by simp [hc])) (hP ▸ hsite.forest) hst with
      ⟨e, _⟩ | ⟨st1, e, hf1, hperm, hne1⟩
    · rw [e] at hfl ⊢
      exact hfl
    · rw [e] at hfl ⊢
      dsimp only
      obtain ⟨h1, hruns1, hd1, hkp1, hkx1, hfr1⟩ := hfl
      have hidp := ids_perm hperm
      have hmem : ∀ y, y ∈ idsAll st1 ↔ y ∈ idsAll store ∨ y ∈ idsAll ks := by
        intro y; rw [hidp.mem_iff, List.mem_append]
      -- what is where
      rw [idsAll_append, idsAll_append, idsAll, idsAll, List.append_nil] at hn hx hpa hdis
      rw [List.nodup_append, List.nodup_append] at hn
      obtain ⟨⟨na, nk, nak⟩, nks, nkks⟩ := hn
      simp only [List.mem_append, not_or] at hx hpa
      have hdis' : ∀ y, y ∈ idsAll a ∨ y ∈ ids k ∨ y ∈ idsAll ks → y ∉ idsAll store := by
        intro y hy
        refine hdis y ?_
        simp only [List.mem_append]
        rcases hy with hy | hy | hy
        · exact Or.inl (Or.inl hy)
        · exact Or.inl (Or.inr hy)
        · exact Or.inr hy
      -- the last child is popped
      obtain ⟨xa, xk, hka, _, hia, hik⟩ := isAll_split hkx1
      obtain ⟨c, xr, rfl, hc, hnil⟩ := isAll_cons hik
      have := isAll_nil hnil
      subst this
      have hpop := pop_last hka
      have hcm := is_mem hc
      have hcx : c ≠ x := by rintro rfl; exact hx.1.2 hcm
      have hcp : c ≠ p := by rintro rfl; exact hpa.1.2 hcm
      generalize hg : (h1.setParent c none).setKids x xa = h2 at hpop
      have hd2 : SameData h1 h2 := by
        rw [← hg]; exact (sameData_setParent _ _ _).trans (sameData_setKids _ _ _)
      have k2 : ∀ y, y ≠ x → h2.kids y = h1.kids y := by
        intro y hy; rw [← hg, kids_setKids, if_neg hy, kids_setParent]
      have p2 : ∀ y, y ≠ c → h2.parent y = h1.parent y := by
        intro y hy; rw [← hg, parent_setKids, parent_setParent, if_neg hy]
      have kx2 : h2.kids x = xa := by rw [← hg, kids_setKids, if_pos rfl]
      have hck : c ∉ idsAll st1 := by
        rw [hmem, not_or]
        exact ⟨hdis' c (Or.inr (Or.inl hcm)), fun hm => nkks c (by simp [hcm]) c hm rfl⟩
      have hxst1 : x ∉ idsAll st1 := by rw [hmem, not_or]; exact ⟨hxs, hx.2⟩
      have hkids2 : IsAll h2 s (some p) (h2.kids p) st1 := by
        rw [k2 p (fun e => hxp e.symm)]
        refine isAll_frame hd2 st1 _ _ (fun y hy => ?_) hkp1
        exact ⟨p2 y (by rintro rfl; exact hck hy), k2 y (by rintro rfl; exact hxst1 hy)⟩
      have hsite2 : Site h2 s p st1 := by
        refine ⟨by rw [(hd2.2 p).2.1, (hd1.2 p).2.1]; exact hsite.str, hkids2, ?_, ?_, ?_⟩
        · rw [(hd2.2 p).1, (hd1.2 p).1, hP]; exact hf1
        · rw [hmem, not_or]; exact ⟨hsite.fresh, hpa.2⟩
        · refine hidp.nodup_iff.mpr (nodup_of_disjoint hsite.nodup nks ?_)
          intro y hy hy'
          exact hdis' y (Or.inr (Or.inr hy')) hy
      have hc2 : Is h2 s none c k := by
        have := isAll_reparent (s := s) hd2 (par := some x) (par' := none) [k] [c]
          (by simpa [idsAll] using nk) (by
            intro y hy
            rw [List.mem_singleton] at hy
            rw [← hg, parent_setKids, parent_setParent, if_pos hy]) (by
            intro y hy
            simp only [idsAll, List.append_nil] at hy
            refine ⟨k2 y (by rintro rfl; exact hx.1.2 hy), fun hn => ?_⟩
            rw [List.mem_singleton] at hn
            exact p2 y hn) hik
        rw [IsAll] at this
        exact this.1
      have hS := sim_any key hp0 hp1 k h2 c st1 (by rw [(hd2.2 p).1, (hd1.2 p).1, hP]) hc2 (hw k (by simp)) hsite2
        hpa.1.2 nk (by
          intro y hy
          rw [hmem, not_or]
          exact ⟨hdis' y (Or.inr (Or.inl hy)), fun hm => nkks y (by simp [hy]) y hm rfl⟩)
      have hkx1' : h1.kids x ≠ [] := by rw [hka]; simp
      have hstep : ∀ n, flatten key (n + 1) h1 p x =
          (match addHier key n h2 p c with
            | (h, .error e) => (h, .error e)
            | (h, .ok ()) => flatten key n h p x) := by
        intro n
        rw [flatten, if_neg hkx1', hpop]
        rfl
      generalize Kids.hier (keyN key) P st1 k = res at hS
      cases res with
      | error e =>
        obtain ⟨h', N, hN⟩ := hS
        obtain ⟨M, hM⟩ := hruns1 (h', .error e) ⟨N + 1, fun n hn => by
          obtain ⟨j, rfl⟩ : ∃ j, n = j + 1 := ⟨n - 1, by omega⟩
          rw [hstep, hN j (by omega)]⟩
        exact ⟨h', M, hM⟩
      | ok st2 =>
        obtain ⟨h3, ⟨N, hN⟩, ha⟩ := hS
        have hxa : ∀ y, y ∈ idsAll a → y ∉ ids k ++ idsAll st1 := by
          intro y hy
          rw [List.mem_append, not_or, hmem, not_or]
          refine ⟨fun hm => nak y hy y hm rfl, hdis' y (Or.inl hy), fun hm => nkks y (by simp [hy]) y hm rfl⟩
        have hxt : x ∉ ids k ++ idsAll st1 := by
          rw [List.mem_append, not_or]; exact ⟨hx.1.2, hxst1⟩
        refine ⟨h3, ?_, (hd1.trans hd2).trans ha.data, ha.kids, ?_, ?_⟩
        · rintro r ⟨M, hM⟩
          refine hruns1 r ⟨N + M + 1, fun n hn => ?_⟩
          obtain ⟨j, rfl⟩ : ∃ j, n = j + 1 := ⟨n - 1, by omega⟩
          rw [hstep, hN j (by omega)]
          exact hM j (by omega)
        · rw [(ha.frame x hxt).2 hxp, kx2]
          refine isAll_frame (hd2.trans ha.data) a xa _ (fun y hy => ?_) hia
          have hyc : y ≠ c := by rintro rfl; exact nak y hy y hcm rfl
          have hyx : y ≠ x := by rintro rfl; exact hx.1.1 hy
          have hyp : y ≠ p := by rintro rfl; exact hpa.1.1 hy
          have f := ha.frame y (hxa y hy)
          exact ⟨f.1.trans (p2 y hyc), (f.2 hyp).trans (k2 y hyx)⟩
        · intro y hy hys
          rw [idsAll, List.mem_append, not_or] at hy
          have hyc : y ≠ c := by rintro rfl; exact hy.1 hcm
          have f := ha.frame y (by
            rw [List.mem_append, not_or, hmem, not_or]; exact ⟨hy.1, hys, hy.2⟩)
          have f1 := hfr1 y hy.2 hys
          exact ⟨(f.1.trans (p2 y hyc)).trans f1.1, fun hyp hyx =>
            ((f.2 hyp).trans (k2 y hyx)).trans (f1.2 hyp hyx)⟩
end

end Pawpaw.Props
