import Verif.Spec.Lazy
import Verif.Model.Lazy
import Verif.Props.Heap
import Verif.Props.SetExact
/-!
# C106–C108: walking, looping and assigning while the tree changes
-/
set_option linter.unusedSectionVars false
namespace Pawpaw.Props
open Pawpaw Heap HeapSpec LazySpec

/-! ### Skeletons -/

/-- `t` is a part of `s`. -/
inductive SubSkel : Skel → Skel → Prop
  | refl (s : Skel) : SubSkel s s
  | kid {t u : Skel} {x : Nat} {ss : List Skel} : u ∈ ss → SubSkel t u → SubSkel t (.mk x (some ss))

theorem staysAll_mem {h : Heap} : ∀ {ss : List Skel}, StaysAll h ss → ∀ s ∈ ss, Stays h s
  | [], _, s, hs => by cases hs
  | t :: ss, ha, s, hs => by
    rw [StaysAll] at ha
    rcases List.mem_cons.1 hs with rfl | hs
    · exact ha.1
    · exact staysAll_mem ha.2 s hs

theorem SubSkel.stays {h : Heap} {t s : Skel} (hs : SubSkel t s) (hst : Stays h s) : Stays h t := by
  induction hs with
  | refl => exact hst
  | kid hu _ ih =>
    rw [Stays] at hst
    exact ih (staysAll_mem hst.2 _ hu)

theorem SubSkel.trans {t u s : Skel} (h1 : SubSkel t u) (h2 : SubSkel u s) : SubSkel t s := by
  induction h2 with
  | refl => exact h1
  | kid hu _ ih => exact .kid hu ih

/-- The names of all objects of a skeleton but the top. -/
def names (s : Skel) : List Nat := (below 0 s).map (·.2)
def namesAll (ss : List Skel) : List Nat := (belowAll 0 ss).map (·.2)

mutual
theorem below_names (l : Int) : ∀ s : Skel, (below l s).map (·.2) = names s
  | .mk _ none => rfl
  | .mk _ (some ss) => by
    rw [below, names, below]
    exact belowAll_names l ss
theorem belowAll_names (l : Int) : ∀ ss : List Skel, (belowAll l ss).map (·.2) = namesAll ss
  | [] => rfl
  | s :: ss => by
    rw [belowAll, namesAll, belowAll, List.map_cons, List.map_cons, List.map_append, List.map_append, below_names (l + 1) s,
      belowAll_names l ss, below_names (0 + 1) s]
    rfl
end

theorem names_some (x : Nat) (ss : List Skel) : names (.mk x (some ss)) = namesAll ss := rfl
theorem names_none (x : Nat) : names (.mk x none) = [] := rfl
theorem namesAll_cons (s : Skel) (ss : List Skel) : namesAll (s :: ss) = s.id :: (names s ++ namesAll ss) := by
  rw [namesAll, belowAll, List.map_cons, List.map_append, below_names, belowAll_names]

theorem namesAll_mem {ss : List Skel} {s : Skel} (h : s ∈ ss) : s.id ∈ namesAll ss ∧ ∀ c ∈ names s, c ∈ namesAll ss := by
  induction ss with
  | nil => cases h
  | cons t ss ih =>
    rw [namesAll_cons]
    rcases List.mem_cons.1 h with rfl | h
    · exact ⟨by simp, fun c hc => by simp [hc]⟩
    · exact ⟨by simp [(ih h).1], fun c hc => by simp [(ih h).2 c hc]⟩

/-- A part that is not the whole has its name among the names. -/
theorem SubSkel.name {t s : Skel} (h : SubSkel t s) : t = s ∨ t.id ∈ names s := by
  induction h with
  | refl => exact Or.inl rfl
  | kid hu _ ih =>
    right
    rw [names_some]
    rcases ih with rfl | ih
    · exact (namesAll_mem hu).1
    · exact (namesAll_mem hu).2 _ ih

mutual
/-- Every name is that of a child of an object whose children are given. -/
theorem names_parent : ∀ (s : Skel) {c : Nat}, c ∈ names s →
    ∃ x ss u, SubSkel (.mk x (some ss)) s ∧ u ∈ ss ∧ u.id = c
  | .mk _ none, c, h => by rw [names_none] at h; cases h
  | .mk x (some ss), c, h => by
    rw [names_some] at h
    rcases namesAll_parent ss h with ⟨u, hu, e⟩ | ⟨u, hu, y, ts, v, h1, h2, h3⟩
    · exact ⟨x, ss, u, .refl _, hu, e⟩
    · exact ⟨y, ts, v, .kid hu h1, h2, h3⟩
theorem namesAll_parent : ∀ (ss : List Skel) {c : Nat}, c ∈ namesAll ss →
    (∃ u ∈ ss, u.id = c) ∨ ∃ u ∈ ss, ∃ x ts v, SubSkel (.mk x (some ts)) u ∧ v ∈ ts ∧ v.id = c
  | [], c, h => by cases h
  | s :: ss, c, h => by
    rw [namesAll_cons, List.mem_cons, List.mem_append] at h
    rcases h with rfl | h | h
    · exact Or.inl ⟨s, by simp, rfl⟩
    · obtain ⟨x, ts, v, h1, h2, h3⟩ := names_parent s h
      exact Or.inr ⟨s, by simp, x, ts, v, h1, h2, h3⟩
    · rcases namesAll_parent ss h with ⟨u, hu, e⟩ | ⟨u, hu, r⟩
      · exact Or.inl ⟨u, by simp [hu], e⟩
      · exact Or.inr ⟨u, by simp [hu], r⟩
end

mutual
/-- When the names are different, a name belongs to one part only. -/
theorem sub_unique : ∀ (s : Skel), (s.id :: names s).Nodup → ∀ {t u : Skel}, SubSkel t s → SubSkel u s → t.id = u.id → t = u
  | .mk x none, _, t, u, ht, hu, _ => by cases ht; cases hu; rfl
  | .mk x (some ss), hn, t, u, ht, hu, e => by
    rw [names_some, List.nodup_cons] at hn
    have out : ∀ {v w : Skel}, w ∈ ss → SubSkel v w → v.id ∈ namesAll ss := by
      intro v w hw hv
      rcases hv.name with rfl | hv
      · exact (namesAll_mem hw).1
      · exact (namesAll_mem hw).2 _ hv
    cases ht with
    | refl =>
      cases hu with
      | refl => rfl
      | kid hw hu => exact absurd (by have := out hw hu; rw [← e] at this; exact this) hn.1
    | kid hv ht =>
      cases hu with
      | refl => exact absurd (by have := out hv ht; rw [e] at this; exact this) hn.1
      | kid hw hu => exact subAll_unique ss hn.2 hv hw ht hu e
theorem subAll_unique : ∀ (ss : List Skel), (namesAll ss).Nodup → ∀ {v w t u : Skel}, v ∈ ss → w ∈ ss →
    SubSkel t v → SubSkel u w → t.id = u.id → t = u
  | [], _, v, w, t, u, hv, _, _, _, _ => by cases hv
  | s :: ss, hn, v, w, t, u, hv, hw, ht, hu, e => by
    rw [namesAll_cons, ← List.cons_append, List.nodup_append] at hn
    obtain ⟨n1, n2, n3⟩ := hn
    have inl : ∀ {v : Skel}, SubSkel v s → v.id ∈ s.id :: names s := by
      intro v hv
      rcases hv.name with rfl | hv
      · simp
      · simp [hv]
    have inr : ∀ {v w : Skel}, w ∈ ss → SubSkel v w → v.id ∈ namesAll ss := by
      intro v w hw hv
      rcases hv.name with rfl | hv
      · exact (namesAll_mem hw).1
      · exact (namesAll_mem hw).2 _ hv
    rcases List.mem_cons.1 hv with ev | hv
    · rw [ev] at ht
      rcases List.mem_cons.1 hw with ew | hw
      · rw [ew] at hu
        exact sub_unique s n1 ht hu e
      · exact absurd e (n3 _ (inl ht) _ (inr hw hu))
    · rcases List.mem_cons.1 hw with ew | hw
      · rw [ew] at hu
        exact absurd e.symm (n3 _ (inl hu) _ (inr hv ht))
      · exact subAll_unique ss n2 hv hw ht hu e
end

/-! ### Ancestors -/

theorem above_unique {h : Heap} : ∀ {x : Nat} {as bs : List Nat}, Above h x as → Above h x bs → as = bs
  | x, [], [], _, _ => rfl
  | x, [], b :: bs, h1, h2 => by have := (show h.parent x = none from h1).symm.trans h2.1; cases this
  | x, a :: as, [], h1, h2 => by have := (show h.parent x = none from h2).symm.trans h1.1; cases this
  | x, a :: as, b :: bs, h1, h2 => by
    rw [Above] at h1 h2
    have e := h1.1.symm.trans h2.1
    cases e
    rw [above_unique h1.2 h2.2]

theorem above_suffix {h : Heap} : ∀ {x : Nat} {as : List Nat} {z : Nat}, Above h x as → z ∈ as →
    ∃ bs, Above h z bs ∧ bs.length < as.length ∧ ∀ b ∈ bs, b ∈ as
  | x, [], z, _, hz => by cases hz
  | x, a :: as, z, ha, hz => by
    rw [Above] at ha
    rcases List.mem_cons.1 hz with rfl | hz
    · exact ⟨as, ha.2, by simp, fun b hb => by simp [hb]⟩
    · obtain ⟨bs, h1, h2, h3⟩ := above_suffix ha.2 hz
      exact ⟨bs, h1, by rw [List.length_cons]; omega, fun b hb => by simp [h3 b hb]⟩

theorem above_not_self {h : Heap} {x : Nat} {as : List Nat} (ha : Above h x as) : x ∉ as := by
  intro hx
  obtain ⟨bs, h1, h2, -⟩ := above_suffix ha hx
  rw [above_unique ha h1] at h2
  omega

/-- The parent of the start or of an ancestor is an ancestor. -/
theorem above_parent {h : Heap} {x z p : Nat} {as : List Nat} (ha : Above h x as) (hz : z = x ∨ z ∈ as)
    (hp : h.parent z = some p) : p ∈ as := by
  rcases hz with rfl | hz
  · cases as with
    | nil => rw [Above] at ha; rw [ha] at hp; cases hp
    | cons a as => rw [Above] at ha; rw [ha.1] at hp; cases hp; simp
  · obtain ⟨bs, h1, -, h3⟩ := above_suffix ha hz
    cases bs with
    | nil => rw [Above] at h1; rw [h1] at hp; cases hp
    | cons b bs => rw [Above] at h1; rw [h1.1] at hp; cases hp; exact h3 _ (by simp)

/-! ### The walk -/

/-- The children of `x` are given in `s`. -/
def Fixed (s : Skel) (x : Nat) : Prop := ∃ ss, SubSkel (.mk x (some ss)) s

/-- What a walk has still to give of the skeleton. -/
inductive Todo (s : Skel) (above : List Nat) (n : Nat) : List Frame → List (Int × Nat) → Prop
  | nil : Todo s above n [] []
  | fixed {x i : Nat} {l : Int} {ss : List Skel} {fs : List Frame} {rest : List (Int × Nat)} :
      SubSkel (.mk x (some ss)) s → x ∉ above → x < n → Todo s above n fs rest →
      Todo s above n (⟨x, i, l⟩ :: fs) (belowAll l (ss.drop i) ++ rest)
  | loose {x i : Nat} {l : Int} {fs : List Frame} {rest : List (Int × Nat)} :
      ¬ Fixed s x → x ∉ above → x < n → Todo s above n fs rest → Todo s above n (⟨x, i, l⟩ :: fs) rest

theorem Todo.mono {s : Skel} {above : List Nat} {n m : Nat} (hnm : n ≤ m) {fs : List Frame} {rest : List (Int × Nat)}
    (h : Todo s above n fs rest) : Todo s above m fs rest := by
  induction h with
  | nil => exact .nil
  | fixed h1 h2 h3 _ ih => exact .fixed h1 h2 (by omega) ih
  | loose h1 h2 h3 _ ih => exact .loose h1 h2 (by omega) ih

theorem sub_lt {h : Heap} (hok : OK h) {t s : Skel} (hs : SubSkel t s) (hst : Stays h s) (hn : s.id < h.next) :
    t.id < h.next := by
  induction hs with
  | refl => exact hn
  | @kid u x ss hu _ ih =>
    rw [Stays] at hst
    refine ih (staysAll_mem hst.2 _ hu) ?_
    exact (hok.kidParent x hn u.id (by rw [hst.1]; exact List.mem_map_of_mem hu)).1

theorem walkNext_todo {h : Heap} {s : Skel} {above : List Nat} (hok : OK h) (hn : s.id < h.next)
    (hnd : (s.id :: names s).Nodup) (hst : Stays h s) (hab : Above h s.id above) :
    ∀ {fs : List Frame} {rest : List (Int × Nat)}, Todo s above h.next fs rest →
      (walkNext h fs = none → rest = []) ∧
      ∀ y fs', walkNext h fs = some (y, fs') →
        ∃ rest', Todo s above h.next fs' rest' ∧
          ((y.2 ∈ names s ∧ rest = y :: rest') ∨ (y.2 ∉ names s ∧ rest = rest')) := by
  intro fs rest ht
  induction ht with
  | nil => exact ⟨fun _ => rfl, fun y fs' hy => by cases hy⟩
  | @fixed x i l ss fs rest h1 h2 h3 h4 ih =>
    have hs := h1.stays hst
    rw [Stays] at hs
    rw [walkNext]
    dsimp only
    rw [hs.1, List.getElem?_map]
    by_cases hi : i < ss.length
    · rw [List.getElem?_eq_getElem hi]
      dsimp only [Option.map_some]
      refine ⟨(by intro h; cases h), ?_⟩
      rintro y fs' hy
      rw [Option.some.injEq, Prod.mk.injEq] at hy
      obtain ⟨rfl, rfl⟩ := hy
      have hd : ss.drop i = ss[i] :: ss.drop (i + 1) := (List.drop_eq_getElem_cons hi)
      have hmem : ss[i] ∈ ss := List.getElem_mem hi
      have hsub : SubSkel ss[i] s := SubSkel.trans (.kid hmem (.refl _)) h1
      have hkid : ss[i].id ∈ h.kids x := by rw [hs.1]; exact List.mem_map_of_mem hmem
      obtain ⟨k1, k2, -⟩ := hok.kidParent x h3 _ hkid
      have hname : ss[i].id ∈ names s := by
        rcases h1.name with e | e
        · rw [← e, names_some]; exact (namesAll_mem hmem).1
        · rcases hsub.name with e' | e'
          · exfalso
            rw [e'] at k2
            exact h2 (above_parent hab (Or.inl rfl) k2)
          · exact e'
      have hna : ss[i].id ∉ above := fun hz => h2 (above_parent hab (Or.inr hz) k2)
      refine ⟨below (l + 1) ss[i] ++ (belowAll l (ss.drop (i + 1)) ++ rest), ?_, Or.inl ⟨hname, ?_⟩⟩
      · have tl : Todo s above h.next (⟨x, i + 1, l⟩ :: fs) (belowAll l (ss.drop (i + 1)) ++ rest) := .fixed h1 h2 h3 h4
        generalize hu : ss[i] = u at hsub hkid k1 k2 hna ⊢
        cases u with
        | mk c ks =>
          cases ks with
          | none =>
            rw [below, List.nil_append]
            refine .loose ?_ hna k1 tl
            rintro ⟨ts, hts⟩
            cases sub_unique s hnd hts hsub rfl
          | some ts =>
            rw [below]
            exact Todo.fixed (i := 0) hsub hna k1 tl
      · rw [hd, belowAll]
        simp
    · rw [List.getElem?_eq_none (by omega), List.drop_eq_nil_of_le (by omega)]
      dsimp only [Option.map_none]
      rw [belowAll, List.nil_append]
      exact ih
  | @loose x i l fs rest h1 h2 h3 h4 ih =>
    rw [walkNext]
    dsimp only
    cases hg : (h.kids x)[i]? with
    | none => exact ih
    | some c =>
      refine ⟨(by intro h; cases h), ?_⟩
      rintro y fs' hy
      dsimp only at hy
      rw [Option.some.injEq, Prod.mk.injEq] at hy
      obtain ⟨rfl, rfl⟩ := hy
      have hkid : c ∈ h.kids x := List.mem_of_getElem? hg
      obtain ⟨k1, k2, -⟩ := hok.kidParent x h3 _ hkid
      have hna : c ∉ above := fun hz => h2 (above_parent hab (Or.inr hz) k2)
      have hnn : c ∉ names s := by
        intro hc
        obtain ⟨z, ss, u, g1, g2, g3⟩ := names_parent s hc
        have gs := g1.stays hst
        rw [Stays] at gs
        have := (hok.kidParent z (sub_lt hok g1 hst hn) c (by rw [gs.1, ← g3]; exact List.mem_map_of_mem g2)).2.1
        rw [k2] at this
        cases this
        exact h1 ⟨ss, g1⟩
      refine ⟨rest, ?_, Or.inr ⟨hnn, rfl⟩⟩
      refine .loose ?_ hna k1 (.loose h1 h2 h3 h4)
      rintro ⟨ts, hts⟩
      rcases hts.name with e | e
      · have : c = s.id := by rw [← e]; rfl
        rw [this] at k2
        exact h2 (above_parent hab (Or.inl rfl) k2)
      · exact hnn e

theorem walkRun_todo {s : Skel} {above : List Nat} (hnd : (s.id :: names s).Nodup) :
    ∀ {hs : List Heap} {fs : List Frame} {rest : List (Int × Nat)} {n : Nat},
      Todo s above n fs rest → (∀ h ∈ hs, n ≤ h.next) → Grows hs → s.id < n →
      (∀ h ∈ hs, OK h ∧ Stays h s ∧ Above h s.id above) →
      ((walkRun hs fs).1.filter (fun y => decide (y.2 ∈ names s)) <+: rest) ∧
      ((walkRun hs fs).2 = none → (walkRun hs fs).1.filter (fun y => decide (y.2 ∈ names s)) = rest)
  | [], fs, rest, n, ht, hn, hg, hx, hh => by
    rw [walkRun]
    exact ⟨List.nil_prefix, fun h => by cases h⟩
  | h :: hs, fs, rest, n, ht, hn, hg, hx, hh => by
    obtain ⟨hok, hst, hab⟩ := hh h (by simp)
    have hnh := hn h (by simp)
    obtain ⟨k1, k2⟩ := walkNext_todo hok (Nat.lt_of_lt_of_le hx hnh) hnd hst hab (ht.mono hnh)
    unfold Grows at hg
    rw [List.pairwise_cons] at hg
    rw [walkRun]
    cases hw : walkNext h fs with
    | none =>
      rw [k1 hw]
      exact ⟨List.nil_prefix, fun _ => rfl⟩
    | some r =>
      obtain ⟨y, fs'⟩ := r
      obtain ⟨rest', t', e⟩ := k2 y fs' hw
      have ih := walkRun_todo hnd (hs := hs) t' (fun h' hh' => hg.1 h' hh') hg.2 (Nat.lt_of_lt_of_le hx hnh)
        (fun h' hh' => hh h' (by simp [hh']))
      dsimp only
      rcases e with ⟨e1, rfl⟩ | ⟨e1, rfl⟩
      · rw [List.filter_cons_of_pos (by simpa using e1)]
        exact ⟨(List.prefix_cons_inj y).2 ih.1, fun hd => by rw [ih.2 hd]⟩
      · rw [List.filter_cons_of_neg (by simpa using e1)]
        exact ih

/-- C106: whatever a program does to the tree between the items of a walk: the part of the tree that stays as it is all
the time is walked right.  The walk gives its objects once each, each before its children and in order, with their levels;
if the walk ends, it has given them all. -/
theorem C106_walk (s : Skel) (above : List Nat) (lvl : Int) (hs : List Heap)
    (hnd : (s.id :: (below 0 s).map (·.2)).Nodup) (hg : Grows hs)
    (hh : ∀ h ∈ hs, OK h ∧ s.id < h.next ∧ Stays h s ∧ Above h s.id above) :
    ((walkRun hs (walkStart s.id lvl)).1.filter (fun y => decide (y.2 ∈ (below 0 s).map (·.2)))) <+: below lvl s ∧
    ((walkRun hs (walkStart s.id lvl)).2 = none →
      (walkRun hs (walkStart s.id lvl)).1.filter (fun y => decide (y.2 ∈ (below 0 s).map (·.2))) = below lvl s) := by
  cases hs with
  | nil =>
    rw [walkRun]
    exact ⟨List.nil_prefix, fun h => by cases h⟩
  | cons h hs =>
    have h0 := hh h (by simp)
    have hna : s.id ∉ above := above_not_self h0.2.2.2
    have ht : Todo s above h.next (walkStart s.id lvl) (below lvl s) := by
      unfold walkStart
      cases hs' : s with
      | mk x ks =>
        rw [hs'] at hna h0
        cases ks with
        | none =>
          rw [below]
          refine .loose ?_ hna h0.2.1 .nil
          rintro ⟨ts, hts⟩
          cases hts
        | some ss =>
          rw [below]
          have := Todo.fixed (i := 0) (l := lvl) (SubSkel.refl (.mk x (some ss))) hna h0.2.1
            (Todo.nil (s := .mk x (some ss)) (above := above) (n := h.next))
          rw [List.append_nil] at this
          exact this
    refine walkRun_todo hnd ht ?_ hg h0.2.1 (fun h' hh' => ?_)
    · intro h' hh'
      rcases List.mem_cons.1 hh' with rfl | hh'
      · exact Nat.le_refl _
      · unfold Grows at hg
        exact (List.pairwise_cons.1 hg).1 h' hh'
    · obtain ⟨a, -, b, c⟩ := hh h' hh'
      exact ⟨a, b, c⟩

/-- The frames of a walk are the start and objects given before, a level below each other. -/
def FramesFrom (x : Nat) (lvl : Int) (ys : List (Int × Nat)) (fs : List Frame) : Prop :=
  ∀ f ∈ fs, (f.node = x ∧ f.lvl = lvl) ∨ (f.lvl - 1, f.node) ∈ ys

theorem walkNext_from {h : Heap} {x : Nat} {lvl : Int} {ys : List (Int × Nat)} : ∀ {fs : List Frame},
    FramesFrom x lvl ys fs → ∀ y fs', walkNext h fs = some (y, fs') →
      (∃ p, y.2 ∈ h.kids p ∧ ((p = x ∧ y.1 = lvl) ∨ (y.1 - 1, p) ∈ ys)) ∧ FramesFrom x lvl (ys ++ [y]) fs'
  | [], _, y, fs', hy => by cases hy
  | f :: fs, hf, y, fs', hy => by
    rw [walkNext] at hy
    cases hg : (h.kids f.node)[f.idx]? with
    | none =>
      rw [hg] at hy
      exact walkNext_from (fun g hgm => hf g (by simp [hgm])) y fs' hy
    | some c =>
      rw [hg] at hy
      dsimp only at hy
      rw [Option.some.injEq, Prod.mk.injEq] at hy
      obtain ⟨rfl, rfl⟩ := hy
      have h0 := hf f (by simp)
      refine ⟨⟨f.node, List.mem_of_getElem? hg, h0⟩, ?_⟩
      intro g hgm
      rcases List.mem_cons.1 hgm with rfl | hgm
      · right
        dsimp only
        rw [show f.lvl + 1 - 1 = f.lvl by omega]
        simp
      · rcases List.mem_cons.1 hgm with rfl | hgm
        · rcases h0 with h0 | h0
          · exact Or.inl h0
          · right; rw [List.mem_append]; exact Or.inl h0
        · rcases hf g (by simp [hgm]) with h1 | h1
          · exact Or.inl h1
          · right; rw [List.mem_append]; exact Or.inl h1

theorem walkRun_from {x : Nat} {lvl : Int} : ∀ {hs : List Heap} {ys : List (Int × Nat)} {fs : List Frame},
    FramesFrom x lvl ys fs → ∀ (k : Nat) (y : Int × Nat), (walkRun hs fs).1[k]? = some y →
      ∃ h p, hs[k]? = some h ∧ y.2 ∈ h.kids p ∧
        ((p = x ∧ y.1 = lvl) ∨ (y.1 - 1, p) ∈ ys ++ (walkRun hs fs).1.take k)
  | [], ys, fs, _, k, y, hy => by rw [walkRun] at hy; simp at hy
  | h :: hs, ys, fs, hf, k, y, hy => by
    rw [walkRun] at hy ⊢
    cases hw : walkNext h fs with
    | none => rw [hw] at hy; simp at hy
    | some r =>
      obtain ⟨z, fs'⟩ := r
      rw [hw] at hy
      dsimp only at hy ⊢
      obtain ⟨⟨p, h1, h2⟩, h3⟩ := walkNext_from hf z fs' hw
      cases k with
      | zero =>
        rw [List.getElem?_cons_zero, Option.some.injEq] at hy
        subst hy
        exact ⟨h, p, rfl, h1, by simpa using h2⟩
      | succ k =>
        rw [List.getElem?_cons_succ] at hy
        obtain ⟨h', p', e1, e2, e3⟩ := walkRun_from h3 k y hy
        refine ⟨h', p', by simpa using e1, e2, ?_⟩
        simpa using e3

/-- C106: whatever a program does to the tree between the items: every item is, when it is given, a child of the start
or of an object that was given before, one level up. -/
theorem C106_items (x : Nat) (lvl : Int) (hs : List Heap) (k : Nat) (y : Int × Nat)
    (hy : (walkRun hs (walkStart x lvl)).1[k]? = some y) :
    ∃ h p, hs[k]? = some h ∧ y.2 ∈ h.kids p ∧
      ((p = x ∧ y.1 = lvl) ∨ (y.1 - 1, p) ∈ (walkRun hs (walkStart x lvl)).1.take k) := by
  have hf : FramesFrom x lvl [] (walkStart x lvl) := by
    intro f hf
    unfold walkStart at hf
    rw [List.mem_singleton] at hf
    subst hf
    exact Or.inl ⟨rfl, rfl⟩
  simpa using walkRun_from hf k y hy


/-! ### When nothing changes -/

/-- In memory `h`, the walk `w` gives `ys` and goes on as `w'`. -/
def Gives (h : Heap) (w : List Frame) (ys : List (Int × Nat)) (w' : List Frame) : Prop :=
  ∀ n, walkRun (List.replicate (ys.length + (n + 1)) h) w =
    (ys ++ (walkRun (List.replicate (n + 1) h) w').1, (walkRun (List.replicate (n + 1) h) w').2)

theorem Gives.trans {h : Heap} {w w' w'' : List Frame} {ys zs : List (Int × Nat)} (h1 : Gives h w ys w')
    (h2 : Gives h w' zs w'') : Gives h w (ys ++ zs) w'' := by
  intro n
  have e : (ys ++ zs).length + (n + 1) = ys.length + ((zs.length + n) + 1) := by rw [List.length_append]; omega
  rw [e, h1 (zs.length + n), show zs.length + n + 1 = zs.length + (n + 1) by omega, h2 n, List.append_assoc]

theorem gives_done {h : Heap} {x i : Nat} {l : Int} {fs : List Frame} (hk : (h.kids x)[i]? = none) :
    Gives h (⟨x, i, l⟩ :: fs) [] fs := by
  intro n
  rw [List.length_nil, Nat.zero_add, List.replicate_succ, walkRun, walkRun, walkNext]
  dsimp only
  rw [hk]
  rfl

theorem gives_one {h : Heap} {x i c : Nat} {l : Int} {fs : List Frame} (hk : (h.kids x)[i]? = some c) :
    Gives h (⟨x, i, l⟩ :: fs) [(l, c)] (⟨c, 0, l + 1⟩ :: ⟨x, i + 1, l⟩ :: fs) := by
  intro n
  rw [List.length_singleton, show 1 + (n + 1) = (n + 1) + 1 by omega, List.replicate_succ (n := n + 1), walkRun, walkNext]
  dsimp only
  rw [hk]
  rfl

theorem objAt_append (h : Heap) : ∀ (p q : List Nat) (x : Nat), objAt h x (p ++ q) = (objAt h x p).bind (fun y => objAt h y q)
  | [], q, x => rfl
  | i :: p, q, x => by
    rw [List.cons_append, objAt, objAt]
    cases (h.kids x)[i]? with
    | none => rfl
    | some c => exact objAt_append h p q c

/-- The items are the objects at these levels and paths below `x`. -/
def ItemsAt (h : Heap) (x : Nat) (es : List (Int × List Nat)) (ys : List (Int × Nat)) : Prop :=
  ys.map (fun y => (y.1, some y.2)) = es.map (fun e => (e.1, objAt h x e.2))

mutual
theorem gives_node {h : Heap} {x0 : Nat} : ∀ (t : Node) (x : Nat) (l : Int) (p : List Nat) (fs : List Frame),
    Looks h x t → objAt h x0 p = some x →
    ∃ ys, ItemsAt h x0 (t.walkLevels false l p) ys ∧ Gives h (⟨x, 0, l⟩ :: fs) ys fs
  | .mk s d v ks, x, l, p, fs, hl, hp => by
    rw [Looks] at hl
    rw [Node.walkLevels]
    exact gives_kids ks x l p 0 fs (by simpa using hl.2.2.2) hp
theorem gives_kids {h : Heap} {x0 : Nat} : ∀ (ks : List Node) (x : Nat) (l : Int) (p : List Nat) (i : Nat) (fs : List Frame),
    LooksAll h ((h.kids x).drop i) ks → objAt h x0 p = some x →
    ∃ ys, ItemsAt h x0 (Node.walkLevelsKids false l p i ks) ys ∧ Gives h (⟨x, i, l⟩ :: fs) ys fs
  | [], x, l, p, i, fs, hl, hp => by
    rw [Node.walkLevelsKids]
    refine ⟨[], rfl, gives_done ?_⟩
    cases hd : (h.kids x).drop i with
    | nil => exact List.getElem?_eq_none (List.drop_eq_nil_iff.1 hd)
    | cons c cs => rw [hd] at hl; simp [LooksAll] at hl
  | k :: ks, x, l, p, i, fs, hl, hp => by
    cases hd : (h.kids x).drop i with
    | nil => rw [hd] at hl; simp [LooksAll] at hl
    | cons c cs =>
      rw [hd, LooksAll] at hl
      have hi : i < (h.kids x).length := by
        rcases Nat.lt_or_ge i (h.kids x).length with hi | hi
        · exact hi
        · rw [List.drop_eq_nil_of_le hi] at hd; cases hd
      rw [List.drop_eq_getElem_cons hi, List.cons.injEq] at hd
      have hk : (h.kids x)[i]? = some c := by rw [List.getElem?_eq_getElem hi, hd.1]
      have hp' : objAt h x0 (p ++ [i]) = some c := by
        rw [objAt_append, hp]
        simp only [Option.bind_some, objAt, hk]
      obtain ⟨y2, i2, e2⟩ := gives_node k c (l + 1) (p ++ [i]) (⟨x, i + 1, l⟩ :: fs) hl.1 hp'
      obtain ⟨y3, i3, e3⟩ := gives_kids ks x l p (i + 1) fs (by rw [hd.2]; exact hl.2) hp
      refine ⟨[(l, c)] ++ y2 ++ y3, ?_, ((gives_one (l := l) (fs := fs) hk).trans e2).trans e3⟩
      rw [Node.walkLevelsKids]
      unfold ItemsAt at i2 i3 ⊢
      simp only [Bool.false_eq_true, if_false, List.map_append, List.map_cons, List.map_nil, i2, i3, hp']
      rfl
end

/-- C106: when the tree is not changed, a walk gives what `walk_descendants_levels` gives for the tree as a value (C28),
and then ends. -/
theorem C106_quiet {h : Heap} {x : Nat} {t : Node} (hl : Looks h x t) (lvl : Int) (n : Nat)
    (hn : (t.walkLevels false lvl []).length < n) :
    (walkRun (List.replicate n h) (walkStart x lvl)).2 = none ∧
    (walkRun (List.replicate n h) (walkStart x lvl)).1.map (fun y => (y.1, some y.2)) =
      (t.walkLevels false lvl []).map (fun e => (e.1, objAt h x e.2)) := by
  obtain ⟨ys, i1, e1⟩ := gives_node (x0 := x) t x lvl [] [] hl rfl
  have hlen : ys.length = (t.walkLevels false lvl []).length := by
    have := congrArg List.length i1
    simpa using this
  have := e1 (n - ys.length - 1)
  rw [show ys.length + (n - ys.length - 1 + 1) = n by omega] at this
  unfold walkStart
  rw [this, List.replicate_succ, walkRun, walkNext]
  refine ⟨rfl, ?_⟩
  dsimp only
  rw [List.append_nil]
  exact i1

/-! ### Loops over the children -/

theorem cons_split {c : Nat} : ∀ {l l' r r' : List Nat}, c ∉ l → c ∉ l' → l ++ c :: r = l' ++ c :: r' → l = l' ∧ r = r'
  | [], [], r, r', _, _, e => by simpa using e
  | [], b :: l', r, r', _, h2, e => by
    rw [List.nil_append, List.cons_append, List.cons.injEq] at e
    exact absurd (by rw [e.1]; simp) h2
  | a :: l, [], r, r', h1, _, e => by
    rw [List.nil_append, List.cons_append, List.cons.injEq] at e
    exact absurd (by rw [e.1]; simp) h1
  | a :: l, b :: l', r, r', h1, h2, e => by
    rw [List.cons_append, List.cons_append, List.cons.injEq] at e
    rw [List.mem_cons, not_or] at h1 h2
    obtain ⟨e1, e2⟩ := cons_split h1.2 h2.2 e.2
    exact ⟨by rw [e.1, e1], e2⟩

theorem forKids_remove {p : Nat} : ∀ (n : Nat) (l r : List Nat) (h : Heap), OK h → p < h.next → h.kids p = l ++ r →
    r.length < n →
    ∃ h', forKids (fun h c => h.remove p c) p n l.length h = some (h', .ok ()) ∧ OK h' ∧ h'.next = h.next ∧
      h'.kids p = l ++ odds r ∧ ∀ q, q ≠ p → h'.kids q = h.kids q
  | 0, l, r, h, _, _, _, hn => by omega
  | n + 1, l, [], h, hok, hp, hk, hn => by
    rw [forKids, hk, List.append_nil, List.getElem?_eq_none (Nat.le_refl _)]
    exact ⟨h, rfl, hok, rfl, by rw [hk]; rfl, fun _ _ => rfl⟩
  | n + 1, l, c :: r, h, hok, hp, hk, hn => by
    have hc : c ∈ h.kids p := by rw [hk]; simp
    have hcn := (hok.kidParent p hp c hc).1
    have hnd := kidsOK_nodup (hok.kids p hp)
    rw [forKids, hk, List.getElem?_append_right (Nat.le_refl _), Nat.sub_self, List.getElem?_cons_zero]
    dsimp only
    rcases remove_spec hok hp hcn with ⟨h1, -⟩ | ⟨l', r', e1, e2, e3⟩
    · exact absurd hc h1
    · rw [hk] at e1 hnd
      obtain ⟨rfl, rfl⟩ : l = l' ∧ r = r' := by
        have n1 : c ∉ l := fun hm => by
          rw [List.nodup_append] at hnd
          exact hnd.2.2 c hm c (by simp) rfl
        have n2 : c ∉ l' := fun hm => by
          rw [e1, List.nodup_append] at hnd
          exact hnd.2.2 c hm c (by simp) rfl
        exact cons_split n1 n2 e1
      rw [e2]
      dsimp only
      have hkk : ((h.setParent c none).setKids p (l ++ r)).kids p = l ++ r := by rw [kids_setKids, if_pos rfl]
      have hoth : ∀ q, q ≠ p → ((h.setParent c none).setKids p (l ++ r)).kids q = h.kids q := by
        intro q hq; rw [kids_setKids, if_neg hq, kids_setParent]
      cases r with
      | nil =>
        cases n with
        | zero => simp at hn
        | succ n =>
          rw [forKids, hkk, List.getElem?_eq_none (by simp)]
          exact ⟨_, rfl, e3, rfl, by rw [hkk]; rfl, hoth⟩
      | cons d r =>
        obtain ⟨h', f1, f2, f3, f4, f5⟩ := forKids_remove n (l ++ [d]) r _ e3 hp (by rw [hkk]; simp)
          (by simp at hn ⊢; omega)
        rw [List.length_append, List.length_singleton] at f1
        refine ⟨h', f1, f2, f3, ?_, fun q hq => (f5 q hq).trans (hoth q hq)⟩
        rw [f4, List.append_assoc]
        rfl

/-- C107 (violated): `for c in p.children: p.children.remove(c)` ends without an exception and leaves the second, fourth,
… of the children, in every consistent memory. -/
theorem C107_for_remove_violated {h : Heap} (hok : OK h) {p : Nat} (hp : p < h.next) :
    ∃ h', forKids (fun h c => h.remove p c) p ((h.kids p).length + 1) 0 h = some (h', .ok ()) ∧ OK h' ∧
      h'.kids p = odds (h.kids p) ∧ ∀ q, q ≠ p → h'.kids q = h.kids q := by
  obtain ⟨h', f1, f2, -, f4, f5⟩ := forKids_remove ((h.kids p).length + 1) [] (h.kids p) h hok hp rfl (by omega)
  exact ⟨h', f1, f2, f4, f5⟩

theorem forKidsRev_remove {p : Nat} : ∀ (n : Nat) (h : Heap), OK h → p < h.next → (h.kids p).length = n →
    ∃ h', forKidsRev (fun h c => h.remove p c) p n h = (h', .ok ()) ∧ OK h' ∧ h'.kids p = [] ∧
      ∀ q, q ≠ p → h'.kids q = h.kids q
  | 0, h, hok, hp, hn => ⟨h, rfl, hok, List.eq_nil_of_length_eq_zero hn, fun _ _ => rfl⟩
  | n + 1, h, hok, hp, hn => by
    have hi : n < (h.kids p).length := by omega
    have hc : (h.kids p)[n] ∈ h.kids p := List.getElem_mem hi
    have hcn := (hok.kidParent p hp _ hc).1
    rw [forKidsRev, List.getElem?_eq_getElem hi]
    dsimp only
    rcases remove_spec hok hp hcn with ⟨h1, -⟩ | ⟨l, r, e1, e2, e3⟩
    · exact absurd hc h1
    · rw [e2]
      dsimp only
      have hkk : ((h.setParent (h.kids p)[n] none).setKids p (l ++ r)).kids p = l ++ r := by rw [kids_setKids, if_pos rfl]
      obtain ⟨h', f1, f2, f3, f4⟩ := forKidsRev_remove n _ e3 hp (by
        rw [hkk]
        have := congrArg List.length e1
        rw [List.length_append, List.length_cons] at this
        rw [List.length_append]
        omega)
      refine ⟨h', f1, f2, f3, fun q hq => (f4 q hq).trans ?_⟩
      rw [kids_setKids, if_neg hq, kids_setParent]

/-- C107: `for c in reversed(p.children): p.children.remove(c)` removes all children and nothing else. -/
theorem C107_reversed_remove {h : Heap} (hok : OK h) {p : Nat} (hp : p < h.next) :
    ∃ h', forKidsRev (fun h c => h.remove p c) p (h.kids p).length h = (h', .ok ()) ∧ OK h' ∧ h'.kids p = [] ∧
      ∀ q, q ≠ p → h'.kids q = h.kids q := forKidsRev_remove _ h hok hp rfl

theorem forCopy_remove {p : Nat} : ∀ (cs : List Nat) (h : Heap), OK h → p < h.next → cs.Nodup → (∀ c ∈ cs, c ∈ h.kids p) →
    ∃ h', forCopy (fun h c => h.remove p c) cs h = (h', .ok ()) ∧ OK h' ∧
      (∀ c, c ∈ h'.kids p ↔ c ∈ h.kids p ∧ c ∉ cs) ∧ ∀ q, q ≠ p → h'.kids q = h.kids q
  | [], h, hok, hp, _, _ => ⟨h, rfl, hok, by simp, fun _ _ => rfl⟩
  | c :: cs, h, hok, hp, hnd, hsub => by
    have hc := hsub c (by simp)
    have hcn := (hok.kidParent p hp c hc).1
    rw [List.nodup_cons] at hnd
    rw [forCopy]
    rcases remove_spec hok hp hcn with ⟨h1, -⟩ | ⟨l, r, e1, e2, e3⟩
    · exact absurd hc h1
    · rw [e2]
      dsimp only
      have hn := kidsOK_nodup (hok.kids p hp)
      rw [e1, List.nodup_append, List.nodup_cons] at hn
      have hkk : ((h.setParent c none).setKids p (l ++ r)).kids p = l ++ r := by rw [kids_setKids, if_pos rfl]
      have hm : ∀ d, d ∈ l ++ r ↔ d ∈ h.kids p ∧ d ≠ c := by
        intro d
        rw [e1]
        simp only [List.mem_append, List.mem_cons]
        constructor
        · rintro (hd | hd)
          · exact ⟨Or.inl hd, fun e => hn.2.2 d hd c (by simp) e⟩
          · exact ⟨Or.inr (Or.inr hd), fun e => hn.2.1.1 (e ▸ hd)⟩
        · rintro ⟨hd | hd | hd, hne⟩
          · exact Or.inl hd
          · exact absurd hd hne
          · exact Or.inr hd
      obtain ⟨h', f1, f2, f3, f4⟩ := forCopy_remove cs _ e3 hp hnd.2 (fun d hd => by
        rw [hkk, hm]
        exact ⟨hsub d (by simp [hd]), fun e => hnd.1 (e ▸ hd)⟩)
      refine ⟨h', f1, f2, fun d => ?_, fun q hq => (f4 q hq).trans ?_⟩
      · rw [f3, hkk, hm, List.mem_cons, not_or]
        constructor
        · rintro ⟨⟨a, b⟩, e⟩; exact ⟨a, b, e⟩
        · rintro ⟨a, b, e⟩; exact ⟨⟨a, b⟩, e⟩
      · rw [kids_setKids, if_neg hq, kids_setParent]

/-- C107: `for c in [*p.children]: p.children.remove(c)` removes all children and nothing else. -/
theorem C107_copy_remove {h : Heap} (hok : OK h) {p : Nat} (hp : p < h.next) :
    ∃ h', forCopy (fun h c => h.remove p c) (h.kids p) h = (h', .ok ()) ∧ OK h' ∧ h'.kids p = [] ∧
      ∀ q, q ≠ p → h'.kids q = h.kids q := by
  obtain ⟨h', f1, f2, f3, f4⟩ := forCopy_remove (h.kids p) h hok hp (kidsOK_nodup (hok.kids p hp)) (fun _ hc => hc)
  refine ⟨h', f1, f2, ?_, f4⟩
  cases hk : h'.kids p with
  | nil => rfl
  | cons c cs =>
    have := (f3 c).1 (by rw [hk]; simp)
    exact absurd this.1 this.2

/-! ### Assigning from an iterator -/

/-- C108 (violated): `p.children[:] = (c for c in p.children if pred(c))`, and so `p.children[:] = p.children`, removes
all children, whatever the predicate, in every consistent memory. -/
theorem C108_own_children_violated {h : Heap} (hok : OK h) {p : Nat} (hp : p < h.next) (pred : Nat → Bool) (n : Nat) :
    ∃ h', setLazy (n + 1) h p none none p pred = some (h', .ok ()) ∧ OK h' ∧ h'.kids p = [] ∧
      (∀ c ∈ h.kids p, h'.parent c = none) ∧ ∀ q, q ≠ p → h'.kids q = h.kids q := by
  obtain ⟨l, m, r, e1, e2, e3, e4, e5⟩ := delSlice_spec hok hp none none
  have hsp : Span.fromIndices (h.kids p).length none none = ⟨0, (h.kids p).length⟩ := by
    unfold Span.fromIndices Span.clampIndex
    simp
  rw [hsp] at e2 e3
  have hl : l = [] := List.eq_nil_of_length_eq_zero (by simpa using e2)
  have hr : r = [] := by
    have := congrArg List.length e1
    rw [List.length_append (as := l ++ m)] at this
    refine List.eq_nil_of_length_eq_zero ?_
    rw [e3] at this
    simp only [Int.toNat_natCast] at this
    omega
  subst hl hr
  rw [List.nil_append, List.append_nil] at e1
  have hkk : ((h.unparent m).setKids p ([] ++ [])).kids p = [] := by rw [kids_setKids, if_pos rfl]; rfl
  unfold setLazy
  rw [e4]
  dsimp only
  rw [setLazyLoop, hkk]
  refine ⟨_, rfl, e5, hkk, ?_, ?_⟩
  · intro c hc
    rw [parent_setKids, parent_unparent, if_pos (e1 ▸ hc)]
  · intro q hq
    rw [kids_setKids, if_neg hq, kids_unparent]

/-- C108: with a list made beforehand, `p.children[a:b] = [c for c in p.children[a:b] if pred(c)]`, the children that
satisfy the predicate stay, in their places, and the others of the slice are removed; nothing else changes. -/
theorem C108_list {h : Heap} (hok : OK h) {p : Nat} (hp : p < h.next) (a b : Option Int) (pred : Nat → Bool) :
    ∃ l m r h', h.kids p = l ++ m ++ r ∧ m = PyStr.slice (h.kids p) a b ∧
      h.setSlice p a b (m.filter pred) = (h', .ok ()) ∧ OK h' ∧ h'.kids p = l ++ m.filter pred ++ r ∧
      ∀ q, q ≠ p → h'.kids q = h.kids q := by
  have hsub : (PyStr.slice (h.kids p) a b).filter pred ⊆ h.kids p := by
    intro c hc
    have := (List.mem_filter.1 hc).1
    rw [← C01_ito_text_is_slice (h.kids p) a b none] at this
    unfold FIto.text FIto.ofStr at this
    dsimp only at this
    obtain ⟨b1, b2, b3⟩ := C01_from_indices_bounds (h.kids p).length a b
    have e : ∃ x y : Nat, FIto.start (⟨h.kids p, Span.fromIndices (h.kids p).length a b, none⟩ : FIto Nat) = x ∧
        FIto.stop (⟨h.kids p, Span.fromIndices (h.kids p).length a b, none⟩ : FIto Nat) = y :=
      ⟨_, _, (Int.toNat_of_nonneg b1).symm, (Int.toNat_of_nonneg (Int.le_trans b1 b2)).symm⟩
    obtain ⟨x, y, ex, ey⟩ := e
    rw [ex, ey, PyStr.slice_nat] at this
    exact List.mem_of_mem_take (List.mem_of_mem_drop this)
  obtain ⟨l, m, r, ys, zs, e1, e2, e3, e4, e5, e6, e7⟩ := C26_set_slice_exact hok hp
    (xs := (PyStr.slice (h.kids p) a b).filter pred) (fun x hx => (hok.kidParent p hp x (hsub hx)).1) a b
  rw [← e2] at e3 e4 e6 e7
  have hk := hok.kids p hp
  have hz : zs = [] := by
    rcases e6 with e6 | ⟨z, zs', rfl, hf, -⟩
    · exact e6.1
    · exfalso
      apply hf
      have hsl : (l ++ ys ++ z :: (zs' ++ r)).Sublist (h.kids p) := by
        rw [e1, List.append_assoc, List.append_assoc]
        refine List.Sublist.append (List.Sublist.refl l) ?_
        rw [show ys ++ z :: (zs' ++ r) = (ys ++ z :: zs') ++ r by simp, ← e3]
        exact List.Sublist.append List.filter_sublist (List.Sublist.refl r)
      have hk' := kidsOK_sublist hk (hsl.map h.span)
      have hzm : z ∈ h.kids p := hsl.subset (by simp)
      obtain ⟨z1, z2, z3⟩ := hok.kidParent p hp z hzm
      have zi := hk.inside (h.span z) (List.mem_map_of_mem hzm)
      have ho := hk'.ordered
      rw [List.map_append, List.map_cons, List.pairwise_append, List.pairwise_cons] at ho
      refine ⟨z3, (hok.parentKid z z1 p z2).2.2, ⟨zi.1, zi.2.2⟩, fun c hc => ?_, fun c hc => ?_⟩
      · exact (ho.2.2 (h.span c) (List.mem_map_of_mem (List.mem_of_getLast? hc)) (h.span z) (by simp)).2
      · exact (ho.2.1.1 (h.span c) (List.mem_map_of_mem (by simp [List.mem_of_head? hc]))).2
  subst hz
  rw [List.append_nil] at e3
  have hret : (h.setSlice p a b (m.filter pred)).2 = .ok () := by
    rcases e6 with e6 | ⟨z, zs', e, -⟩
    · exact e6.2
    · cases e
  refine ⟨l, m, r, (h.setSlice p a b (m.filter pred)).1, e1, e2, by rw [← hret], ?_, ?_, ?_⟩
  · rw [e7]
    have hsl : (l ++ ys ++ r).Sublist (h.kids p) := by
      rw [e1, ← e3]
      exact List.Sublist.append (List.Sublist.append (List.Sublist.refl l) List.filter_sublist) (List.Sublist.refl r)
    exact ⟨fun y hy => Or.inr (by rw [← e3] at hy; exact (List.mem_filter.1 hy).1), kidsOK_sublist hk (hsl.map h.span)⟩
  · rw [e4.kids, if_pos rfl, e3]
  · intro q hq
    rw [e4.kids, if_neg hq]

/-- Inserting into `p` leaves the other lists of children. -/
theorem insertAt_kids_other {h : Heap} {p q x i : Nat} (hq : q ≠ p) : (h.insertAt p x i).1.kids q = h.kids q := by
  unfold insertAt
  split
  · rfl
  · split
    · rfl
    · dsimp only
      rw [kids_setKids, if_neg hq, kids_setParent]

theorem setLazyLoop_other (pred : Nat → Bool) {q p : Nat} (hq : q ≠ p) : ∀ (cs : List Nat) (n start i : Nat) (h : Heap),
    (h.kids q).drop i = cs → cs.length < n → setLazyLoop pred q p n start i h = some (h.setSliceLoop p start (cs.filter pred))
  | cs, 0, _, _, _, _, hn => by omega
  | [], n + 1, start, i, h, hc, _ => by
    have : (h.kids q)[i]? = none := by rw [List.getElem?_eq_none_iff]; exact List.drop_eq_nil_iff.mp hc
    rw [setLazyLoop, this]
    rfl
  | c :: cs, n + 1, start, i, h, hc, hn => by
    have h1 : (h.kids q)[i]? = some c := by
      have := List.getElem?_drop (xs := h.kids q) (i := i) (j := 0)
      rw [hc] at this; simpa using this.symm
    have h2 : (h.kids q).drop (i + 1) = cs := by
      rw [← List.drop_drop, hc]; rfl
    have hl : cs.length < n := by simp only [List.length_cons] at hn; omega
    rw [setLazyLoop, h1]
    dsimp only
    by_cases hp : pred c = true
    · rw [if_pos hp, List.filter_cons_of_pos hp, setSliceLoop]
      have hk := insertAt_kids_other (h := h) (x := c) (i := start) hq
      cases hr : h.insertAt p c start with
      | mk h' r =>
        rw [hr] at hk
        cases r with
        | error e => rfl
        | ok u =>
          dsimp only
          exact setLazyLoop_other pred hq cs n (start + 1) (i + 1) h' (by rw [hk]; exact h2) hl
    · rw [if_neg hp, List.filter_cons_of_neg hp]
      exact setLazyLoop_other pred hq cs n start (i + 1) h h2 hl

/-- C108: from the children of another object, an iterator does what a list made beforehand does, in every memory:
`p.children[a:b] = (c for c in q.children if pred(c))` is `p.children[a:b] = [c for c in q.children if pred(c)]`. -/
theorem C108_other_children (h : Heap) {p q : Nat} (hq : q ≠ p) (a b : Option Int) (pred : Nat → Bool) (n : Nat)
    (hn : (h.kids q).length < n) :
    setLazy n h p a b q pred = some (h.setSlice p a b ((h.kids q).filter pred)) := by
  have hk : (h.delSlice p a b).1.kids q = h.kids q := by
    unfold delSlice
    dsimp only
    rw [kids_setKids, if_neg hq, kids_unparent]
  have hpp : ∃ h', h.delSlice p a b = (h', .ok ()) := ⟨_, rfl⟩
  obtain ⟨h', e⟩ := hpp
  unfold setLazy setSlice
  rw [e] at hk ⊢
  dsimp only at hk ⊢
  rw [setLazyLoop_other pred hq (h.kids q) n _ 0 h' (by rw [hk]; rfl) hn]

/-! ### Examples -/

/-- A root with two children, the first of which has two. -/
def exLazyOps : List Op := [.new "abcdef" none none none, .new "abcdef" (some 0) (some 4) none,
  .new "abcdef" (some 0) (some 2) none, .new "abcdef" (some 2) (some 3) none, .new "abcdef" (some 4) (some 6) none,
  .add 0 [1, 4], .add 1 [2, 3]]

theorem exLazy_legal : Legal empty (exLazyOps ++ [.remove 1 2]) := by
  unfold exLazyOps
  simp only [List.cons_append, List.nil_append, Legal]
  decide

/-- The walk gives 1; then the program removes 2 from it; the walk goes on with 3 and 4 and ends. -/
example : walkRun [empty.runAll exLazyOps, empty.runAll (exLazyOps ++ [.remove 1 2]),
      empty.runAll (exLazyOps ++ [.remove 1 2]), empty.runAll (exLazyOps ++ [.remove 1 2])] (walkStart 0 0) =
    ([(0, 1), (1, 3), (0, 4)], none) := by decide +kernel

/-- The hypotheses of `C106_walk` for this: the children of 0 stay, those of 1 may change. -/
example : let s : Skel := .mk 0 (some [.mk 1 none, .mk 4 none])
    (s.id :: (below 0 s).map (·.2)).Nodup ∧ below 0 s = [(0, 1), (0, 4)] ∧
    ∀ h ∈ [empty.runAll exLazyOps, empty.runAll (exLazyOps ++ [.remove 1 2])],
      OK h ∧ s.id < h.next ∧ Stays h s ∧ Above h s.id [] := by
  refine ⟨by decide, rfl, ?_⟩
  intro h hh
  rw [List.mem_cons, List.mem_singleton] at hh
  rcases hh with rfl | rfl
  · exact ⟨C24_children_invariant exLazyOps (by unfold exLazyOps; simp only [Legal]; decide), by decide +kernel,
      by simp only [Stays, StaysAll, and_true]; decide +kernel, by simp only [Above, Skel.id]; decide +kernel⟩
  · exact ⟨C24_children_invariant _ exLazy_legal, by decide +kernel,
      by simp only [Stays, StaysAll, and_true]; decide +kernel, by simp only [Above, Skel.id]; decide +kernel⟩

/-- Of two children the loop removes the first only. -/
example : ((empty.runAll exLazyOps).kids 0 = [1, 4]) ∧ odds [1, 4] = [4] ∧
    (forKids (fun h c => h.remove 0 c) 0 3 0 (empty.runAll exLazyOps)).map (fun r => r.1.kids 0) = some [4] := by
  decide +kernel

/-- Keeping the second child: by a list, and (losing it) by a generator. -/
example : ((empty.runAll exLazyOps).setSlice 0 none none ([1, 4].filter (· == 4))).1.kids 0 = [4] ∧
    (setLazy 9 (empty.runAll exLazyOps) 0 none none 0 (· == 4)).map (fun r => r.1.kids 0) = some [] := by decide +kernel

/-- The second grandchild becomes the only child; it stays in the list of its former parent. -/
example : (setLazy 9 (empty.runAll exLazyOps) 0 none none 1 (· == 3)).map (fun r => (r.1.kids 0, r.1.kids 1, r.1.parent 3)) =
    some ([3], [2, 3], some 0) := by decide +kernel

end Pawpaw.Props
