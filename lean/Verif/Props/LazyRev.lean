import Verif.Props.Lazy
/-!
# C106: reverse walks
-/
set_option linter.unusedSectionVars false
namespace Pawpaw.Props
open Pawpaw Heap HeapSpec LazySpec

theorem belowAll_append (l : Int) : ∀ ss ts : List Skel, belowAll l (ss ++ ts) = belowAll l ss ++ belowAll l ts
  | [], ts => rfl
  | s :: ss, ts => by rw [List.cons_append, belowAll, belowAll, belowAll_append l ss ts]; simp

/-- The item that a call gives when it has ended, if it is of the skeleton. -/
def pend (s : Skel) (x : Nat) : List RFrame → List (Int × Nat)
  | [] => []
  | g :: _ => if x ∈ names s then [(g.lvl, x)] else []

/-- What a reverse walk has still to give of the skeleton. -/
inductive RTodo (s : Skel) (above : List Nat) (n : Nat) : List RFrame → List (Int × Nat) → Prop
  | nil : RTodo s above n [] []
  | fixed {x : Nat} {k : Option Nat} {l : Int} {ss : List Skel} {fs : List RFrame} {rest : List (Int × Nat)} :
      SubSkel (.mk x (some ss)) s → (∀ j, k = some j → j ≤ ss.length) → x ∉ above → x < n → RTodo s above n fs rest →
      RTodo s above n (⟨x, k, l⟩ :: fs) ((belowAll l (ss.take (k.getD ss.length))).reverse ++ (pend s x fs ++ rest))
  | loose {x : Nat} {k : Option Nat} {l : Int} {fs : List RFrame} {rest : List (Int × Nat)} :
      ¬ Fixed s x → x ∉ above → x < n → RTodo s above n fs rest →
      RTodo s above n (⟨x, k, l⟩ :: fs) (pend s x fs ++ rest)

theorem RTodo.mono {s : Skel} {above : List Nat} {n m : Nat} (hnm : n ≤ m) {fs : List RFrame} {rest : List (Int × Nat)}
    (h : RTodo s above n fs rest) : RTodo s above m fs rest := by
  induction h with
  | nil => exact .nil
  | fixed h1 h2 h3 h4 _ ih => exact .fixed h1 h2 h3 (by omega) ih
  | loose h1 h2 h3 _ ih => exact .loose h1 h2 (by omega) ih

theorem revNext_cons (h : Heap) (n : Nat) (f : RFrame) (fs : List RFrame) :
    revNext h (n + 1) (f :: fs) =
      match f.left.getD (h.kids f.node).length with
      | 0 => some (revPop f.node fs)
      | k + 1 =>
        match (h.kids f.node)[k]? with
        | none => some (.raised .indexError)
        | some c => revNext h n (⟨c, none, f.lvl + 1⟩ :: ⟨f.node, some k, f.lvl⟩ :: fs) := by
  rfl

theorem pend_pop {s : Skel} {x : Nat} {above : List Nat} {n : Nat} {fs : List RFrame} {rest : List (Int × Nat)}
    (ht : RTodo s above n fs rest) {r : RevOut}
    (hr : some (revPop x fs) = some r) :
    (r = .ended → pend s x fs ++ rest = []) ∧
    ∀ y fs', r = .item y fs' → ∃ rest', RTodo s above n fs' rest' ∧
      ((y.2 ∈ names s ∧ pend s x fs ++ rest = y :: rest') ∨ (y.2 ∉ names s ∧ pend s x fs ++ rest = rest')) := by
  cases fs with
  | nil =>
    cases ht
    rw [revPop] at hr
    cases hr
    exact ⟨fun _ => rfl, fun y fs' h => by cases h⟩
  | cons g gs =>
    rw [revPop] at hr
    cases hr
    refine ⟨fun h => (by cases h), ?_⟩
    rintro y fs' h
    cases h
    refine ⟨rest, ht, ?_⟩
    rw [pend]
    by_cases hx : x ∈ names s
    · left; rw [if_pos hx]; exact ⟨hx, rfl⟩
    · right; rw [if_neg hx]; exact ⟨hx, rfl⟩

theorem revNext_todo {h : Heap} {s : Skel} {above : List Nat} (hok : OK h) (hn : s.id < h.next)
    (hnd : (s.id :: names s).Nodup) (hst : Stays h s) (hab : Above h s.id above) :
    ∀ (n : Nat) {fs : List RFrame} {rest : List (Int × Nat)}, RTodo s above h.next fs rest →
      ∀ r, revNext h n fs = some r →
      (r = .ended → rest = []) ∧
      ∀ y fs', r = .item y fs' →
        ∃ rest', RTodo s above h.next fs' rest' ∧
          ((y.2 ∈ names s ∧ rest = y :: rest') ∨ (y.2 ∉ names s ∧ rest = rest'))
  | 0, fs, rest, ht, r, hr => by cases hr
  | n + 1, fs, rest, ht, r, hr => by
    cases ht with
    | nil =>
      rw [revNext] at hr
      cases hr
      exact ⟨fun _ => rfl, fun y fs' h => by cases h⟩
    | @fixed x k l ss fs rest h1 h2 h3 h4 h5 =>
      have hs := h1.stays hst
      rw [Stays] at hs
      rw [revNext_cons] at hr
      dsimp only at hr
      rw [hs.1, List.length_map] at hr
      have hle : k.getD ss.length ≤ ss.length := by
        cases k with
        | none => exact Nat.le_refl _
        | some j => exact h2 j rfl
      generalize hj : k.getD ss.length = j at hr hle ⊢
      cases j with
      | zero =>
        dsimp only at hr
        rw [List.take_zero, belowAll, List.reverse_nil, List.nil_append]
        exact pend_pop h5 hr
      | succ j =>
        dsimp only at hr
        have hjl : j < ss.length := by omega
        rw [List.getElem?_map, List.getElem?_eq_getElem hjl] at hr
        dsimp only [Option.map_some] at hr
        have hmem : ss[j] ∈ ss := List.getElem_mem hjl
        have hsub : SubSkel ss[j] s := SubSkel.trans (.kid hmem (.refl _)) h1
        have hkid : ss[j].id ∈ h.kids x := by rw [hs.1]; exact List.mem_map_of_mem hmem
        obtain ⟨k1, k2, -⟩ := hok.kidParent x h4 _ hkid
        have hname : ss[j].id ∈ names s := by
          rcases h1.name with e | e
          · rw [← e, names_some]; exact (namesAll_mem hmem).1
          · rcases hsub.name with e' | e'
            · exfalso
              rw [e'] at k2
              exact h3 (above_parent hab (Or.inl rfl) k2)
            · exact e'
        have hna : ss[j].id ∉ above := fun hz => h3 (above_parent hab (Or.inr hz) k2)
        have tl : RTodo s above h.next (⟨x, some j, l⟩ :: fs)
            ((belowAll l (ss.take j)).reverse ++ (pend s x fs ++ rest)) :=
          RTodo.fixed (k := some j) h1 (fun i hi => by cases hi; omega) h3 h4 h5
        refine revNext_todo hok hn hnd hst hab n ?_ r hr
        have htake : ss.take (j + 1) = ss.take j ++ [ss[j]] := by rw [List.take_succ_eq_append_getElem hjl]
        rw [htake, belowAll_append, belowAll, belowAll, List.append_nil]
        generalize hu : ss[j] = u at hsub hkid k1 k2 hna hname ⊢
        cases u with
        | mk c ks =>
          cases ks with
          | none =>
            have := RTodo.loose (k := none) (l := l + 1) (fun hf => by
              obtain ⟨ts, hts⟩ := hf
              cases sub_unique s hnd hts hsub rfl) hna k1 tl
            have e : pend s (Skel.mk c none).id (⟨x, some j, l⟩ :: fs) = [(l, c)] := by
              rw [pend]; rw [if_pos hname]; rfl
            rw [e] at this
            rw [below]
            simpa [Skel.id] using this
          | some ts =>
            have := RTodo.fixed (k := none) (l := l + 1) hsub (fun i hi => by cases hi) hna k1 tl
            have e : pend s c (⟨x, some j, l⟩ :: fs) = [(l, c)] := by
              rw [pend]; rw [if_pos (show c ∈ names s from hname)]
            rw [e, Option.getD_none, List.take_length] at this
            rw [below]
            simpa [Skel.id] using this
    | @loose x k l fs rest h1 h2 h3 h4 =>
      rw [revNext_cons] at hr
      dsimp only at hr
      generalize hj : k.getD (h.kids x).length = j at hr
      cases j with
      | zero =>
        dsimp only at hr
        exact pend_pop h4 hr
      | succ j =>
        dsimp only at hr
        cases hg : (h.kids x)[j]? with
        | none =>
          rw [hg] at hr
          cases hr
          exact ⟨fun h => by (cases h), fun y fs' h => by cases h⟩
        | some c =>
          rw [hg] at hr
          dsimp only at hr
          have hkid : c ∈ h.kids x := List.mem_of_getElem? hg
          obtain ⟨k1, k2, -⟩ := hok.kidParent x h3 _ hkid
          have hna : c ∉ above := fun hz => h2 (above_parent hab (Or.inr hz) k2)
          have hnn : c ∉ names s := by
            intro hc
            obtain ⟨z, ss, u, g1, g2, g3⟩ := names_parent s hc
            have gs := g1.stays hst
            rw [Stays] at gs
            have := (hok.kidParent z (sub_lt hok g1 hst hn) c (by rw [gs.1, ← g3]; exact List.mem_map_of_mem g2)).2.1
            rw [k2] at this
            cases this
            exact h1 ⟨ss, g1⟩
          have tl : RTodo s above h.next (⟨x, some j, l⟩ :: fs) (pend s x fs ++ rest) := .loose h1 h2 h3 h4
          refine revNext_todo hok hn hnd hst hab n ?_ r hr
          have := RTodo.loose (k := none) (l := l + 1) (fun hf => by
            obtain ⟨ts, hts⟩ := hf
            rcases hts.name with e | e
            · have : c = s.id := by rw [← e]; rfl
              rw [this] at k2
              exact h2 (above_parent hab (Or.inl rfl) k2)
            · exact hnn e) hna k1 tl
          have e : pend s c (⟨x, some j, l⟩ :: fs) = [] := by rw [pend]; rw [if_neg hnn]
          rw [e, List.nil_append] at this
          exact this

theorem revRun_todo {s : Skel} {above : List Nat} (hnd : (s.id :: names s).Nodup) (m : Nat) :
    ∀ {hs : List Heap} {fs : List RFrame} {rest : List (Int × Nat)} {n : Nat},
      RTodo s above n fs rest → (∀ h ∈ hs, n ≤ h.next) → Grows hs → s.id < n →
      (∀ h ∈ hs, OK h ∧ Stays h s ∧ Above h s.id above) → ∀ ys r, revRun m hs fs = some (ys, r) →
      (ys.filter (fun y => decide (y.2 ∈ names s)) <+: rest) ∧
      (r = .ended → ys.filter (fun y => decide (y.2 ∈ names s)) = rest)
  | [], fs, rest, n, ht, hn, hg, hx, hh, ys, r, hr => by
    rw [revRun] at hr
    cases hr
    exact ⟨List.nil_prefix, fun h => by cases h⟩
  | h :: hs, fs, rest, n, ht, hn, hg, hx, hh, ys, r, hr => by
    obtain ⟨hok, hst, hab⟩ := hh h (by simp)
    have hnh := hn h (by simp)
    have key := revNext_todo hok (Nat.lt_of_lt_of_le hx hnh) hnd hst hab m (ht.mono hnh)
    unfold Grows at hg
    rw [List.pairwise_cons] at hg
    rw [revRun] at hr
    cases hw : revNext h m fs with
    | none => rw [hw] at hr; cases hr
    | some o =>
      rw [hw] at hr
      obtain ⟨k1, k2⟩ := key o hw
      cases o with
      | ended =>
        cases hr
        rw [k1 rfl]
        exact ⟨List.nil_prefix, fun _ => rfl⟩
      | raised e =>
        cases hr
        exact ⟨List.nil_prefix, fun h => by cases h⟩
      | item y fs' =>
        dsimp only at hr
        obtain ⟨rest', t', e⟩ := k2 y fs' rfl
        cases hq : revRun m hs fs' with
        | none => rw [hq] at hr; cases hr
        | some q =>
          obtain ⟨zs, r'⟩ := q
          rw [hq] at hr
          cases hr
          have ih := revRun_todo hnd m (hs := hs) t' (fun h' hh' => hg.1 h' hh') hg.2 (Nat.lt_of_lt_of_le hx hnh)
            (fun h' hh' => hh h' (by simp [hh'])) zs r hq
          rcases e with ⟨e1, rfl⟩ | ⟨e1, rfl⟩
          · rw [List.filter_cons_of_pos (by simpa using e1)]
            exact ⟨(List.prefix_cons_inj y).2 ih.1, fun hd => by rw [ih.2 hd]⟩
          · rw [List.filter_cons_of_neg (by simpa using e1)]
            exact ih

/-- C106: the same of reverse walks: the objects of the part of the tree that stays as it is are given in reverse order,
and all of them if the walk ends without an exception. -/
theorem C106_reverse (s : Skel) (above : List Nat) (lvl : Int) (hs : List Heap)
    (hnd : (s.id :: (below 0 s).map (·.2)).Nodup) (hg : Grows hs)
    (hh : ∀ h ∈ hs, OK h ∧ s.id < h.next ∧ Stays h s ∧ Above h s.id above) (m : Nat) (ys : List (Int × Nat)) (r : RevEnd)
    (hr : revRun m hs [⟨s.id, none, lvl⟩] = some (ys, r)) :
    ys.filter (fun y => decide (y.2 ∈ (below 0 s).map (·.2))) <+: (below lvl s).reverse ∧
    (r = .ended → ys.filter (fun y => decide (y.2 ∈ (below 0 s).map (·.2))) = (below lvl s).reverse) := by
  cases hs with
  | nil =>
    rw [revRun] at hr
    cases hr
    exact ⟨List.nil_prefix, fun h => by cases h⟩
  | cons h hs =>
    have h0 := hh h (by simp)
    have hna : s.id ∉ above := above_not_self h0.2.2.2
    have ht : RTodo s above h.next [⟨s.id, none, lvl⟩] (below lvl s).reverse := by
      cases hs' : s with
      | mk x ks =>
        rw [hs'] at hna h0
        cases ks with
        | none =>
          rw [below]
          refine RTodo.loose (rest := []) ?_ hna h0.2.1 .nil
          rintro ⟨ts, hts⟩
          cases hts
        | some ss =>
          rw [below]
          have := RTodo.fixed (k := none) (l := lvl) (SubSkel.refl (.mk x (some ss))) (fun i hi => by cases hi) hna h0.2.1
            (RTodo.nil (s := .mk x (some ss)) (above := above) (n := h.next))
          rw [Option.getD_none, List.take_length, pend, List.append_nil, List.append_nil] at this
          exact this
    refine revRun_todo hnd m ht ?_ hg h0.2.1 (fun h' hh' => ?_) ys r hr
    · intro h' hh'
      rcases List.mem_cons.1 hh' with rfl | hh'
      · exact Nat.le_refl _
      · unfold Grows at hg
        exact (List.pairwise_cons.1 hg).1 h' hh'
    · obtain ⟨a, -, b, c⟩ := hh h' hh'
      exact ⟨a, b, c⟩

/-- Without changes: 4, 3, 2, 1. -/
example : (revRun 5 [empty.runAll exLazyOps, empty.runAll exLazyOps, empty.runAll exLazyOps, empty.runAll exLazyOps,
    empty.runAll exLazyOps] [⟨0, none, 0⟩]).map (·.1) = some [(0, 4), (1, 3), (1, 2), (0, 1)] := by decide +kernel

/-- C106: a reverse walk raises `IndexError` when the list it is in has become shorter than it was: here the program
clears the children of 1 when the walk has given one of them. -/
theorem C106_reverse_raises : (revRun 5 [empty.runAll exLazyOps, empty.runAll exLazyOps,
    empty.runAll (exLazyOps ++ [.clear 1])] [⟨0, none, 0⟩]).map (·.2) = some (.raised .indexError) := by
  have e : revRun 5 [empty.runAll exLazyOps, empty.runAll exLazyOps,
    empty.runAll (exLazyOps ++ [.clear 1])] [⟨0, none, 0⟩] = some ([(0, 4), (1, 3)], .raised .indexError) := by rfl
  rw [e]; rfl

end Pawpaw.Props
