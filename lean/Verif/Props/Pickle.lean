import Verif.Model.Pickle
import Verif.Spec.Heap
import Verif.Spec.Json
import Verif.Props.Heap
/-!
# C45: pickle round trip
-/
set_option linter.unusedSectionVars false
namespace Pawpaw.Props
open TreeSpec HeapSpec Heap

/-! ## What is saved -/

mutual
/-- The document is a picture of the tree, with everything on the string `s`. -/
def DocOf (s : String) : PDoc → Node → Prop
  | .mk s' sp d ks, .mk sp' d' _ ks' => s' = s ∧ sp = sp' ∧ d = d' ∧ DocsOf s ks ks'
def DocsOf (s : String) : List PDoc → List Node → Prop
  | [], [] => True
  | d :: ds, k :: ks => DocOf s d k ∧ DocsOf s ds ks
  | _, _ => False
end

/-- In a consistent acyclic heap, objects deeper in the tree have more ancestors, so the tree below any
object is finite. -/
theorem exists_tree {h : Heap} (hok : OK h) (hac : Acyclic h) (x : Nat) (hx : x < h.next) :
    ∃ t, Looks h x t := by
  classical
  let cnt : Nat → Nat := fun x => ((List.range h.next).filter (fun a => decide (Anc h a x))).length
  have hle : ∀ x, cnt x ≤ h.next := fun x => by
    have := List.length_filter_le (fun a => decide (Anc h a x)) (List.range h.next)
    simpa using this
  have hlt : ∀ p < h.next, ∀ c ∈ h.kids p, cnt p < cnt c := by
    intro p hp c hc
    have hpar := (hok.kidParent p hp c hc).2.1
    have hsub : ∀ a, Anc h a p → Anc h a c := fun a ha => .step hpar ha
    have hself : Anc h p c := .parent hpar
    have hnot := hac p hp
    show (List.filter _ (List.range h.next)).length < (List.filter _ (List.range h.next)).length
    have gen : ∀ l : List Nat, p ∈ l → (l.filter (fun a => decide (Anc h a p))).length <
        (l.filter (fun a => decide (Anc h a c))).length := by
      have gen0 : ∀ l : List Nat, (l.filter (fun a => decide (Anc h a p))).length ≤
          (l.filter (fun a => decide (Anc h a c))).length := by
        intro l
        induction l with
        | nil => simp
        | cons a l ih =>
          by_cases h1 : Anc h a p
          · simp [h1, hsub a h1]; exact ih
          · by_cases h2 : Anc h a c <;> simp [h1, h2] <;> omega
      intro l hl
      induction l with
      | nil => simp at hl
      | cons a l ih =>
        by_cases e : a = p
        · subst e
          have := gen0 l
          simp [hnot, hself]; omega
        · have hl' : p ∈ l := by
            rcases List.mem_cons.mp hl with e' | e'
            · exact absurd e'.symm e
            · exact e'
          have := ih hl'
          by_cases h1 : Anc h a p
          · simp [h1, hsub a h1]; exact this
          · by_cases h2 : Anc h a c <;> simp [h1, h2] <;> omega
    exact gen _ (by simpa using hp)
  induction hn : h.next - cnt x using Nat.strongRecOn generalizing x with
  | _ n ih =>
    have hall : ∀ cs : List Nat, (∀ c ∈ cs, c ∈ h.kids x) → ∃ ts, LooksAll h cs ts := by
      intro cs
      induction cs with
      | nil => intro _; exact ⟨[], by simp [LooksAll]⟩
      | cons c cs ihc =>
        intro hcs
        have hc := hcs c (by simp)
        have hcn := (hok.kidParent x hx c hc).1
        have h1 := hlt x hx c hc
        have h2 := hle c
        obtain ⟨t, ht⟩ := ih (h.next - cnt c) (by omega) c hcn rfl
        obtain ⟨ts, hts⟩ := ihc (fun d hd => hcs d (by simp [hd]))
        exact ⟨t :: ts, by rw [LooksAll]; exact ⟨ht, hts⟩⟩
    obtain ⟨ts, hts⟩ := hall (h.kids x) (fun _ h => h)
    exact ⟨.mk (h.span x) (h.obj x).desc (h.obj x).vf ts, by rw [Looks]; exact ⟨rfl, rfl, rfl, hts⟩⟩

mutual
/-- How much fuel saving a tree takes. -/
def need : Node → Nat
  | .mk _ _ _ ks => needAll ks + 1
def needAll : List Node → Nat
  | [] => 0
  | k :: ks => max (need k) (needAll ks) + 1
end

mutual
theorem pickle_doc {h : Heap} (hok : OK h) (s : String) : ∀ (t : Node) (x : Nat), x < h.next → h.str x = s →
    Looks h x t → ∀ n, need t ≤ n → ∃ d, pickle n h x = .ok d ∧ DocOf s d t
  | .mk sp d v ks, x, hx, hs, hl, n, hn => by
    rw [Looks] at hl
    rw [need] at hn
    obtain ⟨n, rfl⟩ : ∃ m, n = m + 1 := ⟨n - 1, by omega⟩
    obtain ⟨ds, e, hd⟩ := pickle_docs hok s ks (h.kids x)
      (fun c hc => (hok.kidParent x hx c hc).1) (fun c hc => by rw [(hok.kidParent x hx c hc).2.2, hs])
      hl.2.2.2 n (by omega)
    refine ⟨_, by rw [pickle, e], ?_⟩
    rw [DocOf]
    exact ⟨hs, hl.1, hl.2.1, hd⟩
theorem pickle_docs {h : Heap} (hok : OK h) (s : String) : ∀ (ts : List Node) (xs : List Nat),
    (∀ x ∈ xs, x < h.next) → (∀ x ∈ xs, h.str x = s) → LooksAll h xs ts → ∀ n, needAll ts ≤ n →
    ∃ ds, pickleAll n h xs = .ok ds ∧ DocsOf s ds ts
  | [], xs, _, _, hl, n, _ => by
    cases xs with
    | nil => exact ⟨[], by cases n <;> simp [pickleAll], by simp [DocsOf]⟩
    | cons x xs => simp [LooksAll] at hl
  | t :: ts, xs, hx, hs, hl, n, hn => by
    cases xs with
    | nil => simp [LooksAll] at hl
    | cons x xs =>
      rw [LooksAll] at hl
      rw [needAll] at hn
      obtain ⟨n, rfl⟩ : ∃ m, n = m + 1 := ⟨n - 1, by omega⟩
      obtain ⟨d, e, hd⟩ := pickle_doc hok s t x (hx x (by simp)) (hs x (by simp)) hl.1 n (by omega)
      obtain ⟨ds, e', hds⟩ := pickle_docs hok s ts xs (fun y hy => hx y (by simp [hy]))
        (fun y hy => hs y (by simp [hy])) hl.2 n (by omega)
      refine ⟨d :: ds, by rw [pickleAll, e]; simp only; rw [e'], ?_⟩
      rw [DocsOf]
      exact ⟨hd, hds⟩
end

/-- The value tree an object of a consistent heap looks like is well-formed and lies in the string. -/
theorem looks_wf {h : Heap} (hok : OK h) : ∀ (t : Node) (x : Nat), x < h.next → Looks h x t →
    WF t ∧ t.stop ≤ (h.str x).length := by
  have main : ∀ n (t : Node), need t ≤ n → ∀ x, x < h.next → Looks h x t → WF t ∧ t.stop ≤ (h.str x).length := by
    intro n
    induction n with
    | zero => intro t ht; cases t; simp [need] at ht
    | succ n ih =>
      intro t ht x hx hl
      obtain ⟨s, d, v, ks⟩ := t
      rw [Looks] at hl
      rw [need] at ht
      obtain ⟨rfl, rfl, rfl, hl⟩ := hl
      have hsp := hok.span x hx
      have hall : ∀ (ks : List Node) (xs : List Nat), needAll ks ≤ n → (∀ c ∈ xs, c < h.next) →
          LooksAll h xs ks → ks.map Node.span = xs.map h.span ∧ ∀ k ∈ ks, WF k := by
        intro ks
        induction ks with
        | nil => intro xs _ _ hl; cases xs with
          | nil => simp
          | cons x xs => simp [LooksAll] at hl
        | cons k ks ihk =>
          intro xs hn hxs hl
          cases xs with
          | nil => simp [LooksAll] at hl
          | cons x xs =>
            rw [LooksAll] at hl
            rw [needAll] at hn
            obtain ⟨h1, h2⟩ := ihk xs (by omega) (fun c hc => hxs c (by simp [hc])) hl.2
            have h3 := ih k (by omega) x (hxs x (by simp)) hl.1
            have h4 : k.span = h.span x := by
              obtain ⟨s, d, v, ks⟩ := k
              have := hl.1
              rw [Looks] at this
              exact this.1.symm
            refine ⟨by simp [h1, h4], ?_⟩
            intro k' hk'
            rcases List.mem_cons.mp hk' with rfl | e
            · exact h3.1
            · exact h2 k' e
      obtain ⟨h1, h2⟩ := hall ks (h.kids x) (by omega) (fun c hc => (hok.kidParent x hx c hc).1) hl
      exact ⟨.mk hsp.1 hsp.2.1 (by rw [h1]; exact hok.kids x hx) h2, hsp.2.2⟩
  exact fun t x hx hl => main (need t) t (Nat.le_refl _) x hx hl

/-! ## What is loaded -/

/-- The objects from `lo` on (new ones), with the parentless ones `ids`, form consistent trees; the
objects before `lo` are those of `h`. -/
structure Built (s : String) (h h' : Heap) (ids : List Nat) (ts : List Node) : Prop where
  next : h.next ≤ h'.next
  old : ∀ i < h.next, h'.obj i = h.obj i
  tops : ∀ i ∈ ids, h.next ≤ i ∧ i < h'.next ∧ h'.parent i = none
  par : ∀ i, h.next ≤ i → i < h'.next → i ∉ ids →
    ∃ p, h.next ≤ p ∧ p < i ∧ h'.parent i = some p ∧ i ∈ h'.kids p
  kid : ∀ p, h.next ≤ p → p < h'.next → ∀ c ∈ h'.kids p, p < c ∧ c < h'.next ∧ h'.parent c = some p
  str : ∀ p, h.next ≤ p → p < h'.next → h'.str p = s
  span : ∀ p, h.next ≤ p → p < h'.next → 0 ≤ (h'.span p).start ∧ (h'.span p).start ≤ (h'.span p).stop ∧
    (h'.span p).stop ≤ s.length
  kids : ∀ p, h.next ≤ p → p < h'.next → KidsOK (h'.span p) ((h'.kids p).map h'.span)
  looks : LooksAll h' ids ts

mutual
theorem looks_frame {h h' : Heap} (C : Nat → Prop) (hC : ∀ p, C p → ∀ c ∈ h.kids p, C c)
    (hs : ∀ p, C p → h'.span p = h.span p ∧ (h'.obj p).desc = (h.obj p).desc ∧ (h'.obj p).vf = (h.obj p).vf ∧
      h'.kids p = h.kids p) : ∀ (t : Node) (x : Nat), C x → Looks h x t → Looks h' x t
  | .mk s d v ks, x, hx, hl => by
    rw [Looks] at hl ⊢
    obtain ⟨a, b, c, e⟩ := hs x hx
    rw [a, b, c, e]
    exact ⟨hl.1, hl.2.1, hl.2.2.1, looksAll_frame C hC hs ks (h.kids x) (hC x hx) hl.2.2.2⟩
theorem looksAll_frame {h h' : Heap} (C : Nat → Prop) (hC : ∀ p, C p → ∀ c ∈ h.kids p, C c)
    (hs : ∀ p, C p → h'.span p = h.span p ∧ (h'.obj p).desc = (h.obj p).desc ∧ (h'.obj p).vf = (h.obj p).vf ∧
      h'.kids p = h.kids p) : ∀ (ts : List Node) (xs : List Nat), (∀ x ∈ xs, C x) → LooksAll h xs ts →
      LooksAll h' xs ts
  | [], [], _, _ => by simp [LooksAll]
  | [], x :: xs, _, hl => by simp [LooksAll] at hl
  | _ :: _, [], _, hl => by simp [LooksAll] at hl
  | t :: ts, x :: xs, hx, hl => by
    rw [LooksAll] at hl ⊢
    exact ⟨looks_frame C hC hs t x (hx x (by simp)) hl.1,
      looksAll_frame C hC hs ts xs (fun y hy => hx y (by simp [hy])) hl.2⟩
end

theorem reparent_obj (h : Heap) (x : Nat) (cs : List Nat) (y : Nat) :
    (h.reparent x cs).obj y = { h.obj y with parent := if y ∈ cs then some x else (h.obj y).parent } := by
  induction cs generalizing h with
  | nil => simp [reparent]
  | cons c cs ih =>
    rw [reparent, ih]
    by_cases e : y = c
    · subst e; simp [setParent, upd]
    · simp [setParent, upd, e]

@[simp] theorem reparent_next (h : Heap) (x : Nat) (cs : List Nat) : (h.reparent x cs).next = h.next := by
  induction cs generalizing h with
  | nil => rfl
  | cons c cs ih => rw [reparent, ih]; rfl

@[simp] theorem setState_next (h : Heap) (x : Nat) (s sp d ks) : (h.setState x s sp d ks).next = h.next := by
  simp [setState]

theorem setState_obj (h : Heap) (x : Nat) (s sp d ks) (y : Nat) : (h.setState x s sp d ks).obj y =
    if y = x then ⟨s, sp, d, none, if x ∈ ks then some x else none, ks⟩
    else { h.obj y with parent := if y ∈ ks then some x else (h.obj y).parent } := by
  rw [setState, reparent_obj]
  by_cases e : y = x
  · subst e; simp [upd]
  · simp [upd, e]

theorem looksAll_spans {h : Heap} : ∀ (ts : List Node) (xs : List Nat), LooksAll h xs ts →
    ts.map Node.span = xs.map h.span
  | [], [], _ => rfl
  | [], x :: xs, hl => by simp [LooksAll] at hl
  | _ :: _, [], hl => by simp [LooksAll] at hl
  | .mk s d v ks :: ts, x :: xs, hl => by
    rw [LooksAll, Looks] at hl
    simp [looksAll_spans ts xs hl.2, hl.1.1, Node.span]

theorem bareAll_top' (ks : List Node) : (bareAll ks).map Node.span = ks.map Node.span := by
  induction ks with
  | nil => rfl
  | cons k ks ih =>
    obtain ⟨s, d, v, l⟩ := k
    simp [bareAll, bare, Node.span] at ih ⊢
    exact ih

theorem built_cons {s : String} {h h1 h2 : Heap} {x : Nat} {xs : List Nat} {t : Node} {ts : List Node}
    (a : Built s h h1 [x] [t]) (b : Built s h1 h2 xs ts) : Built s h h2 (x :: xs) (t :: ts) := by
  have an := a.next
  have bn := b.next
  have hold : ∀ i, i < h1.next → h2.obj i = h1.obj i := b.old
  have hpar : ∀ i, i < h1.next → h2.parent i = h1.parent i := fun i hi => by unfold Heap.parent; rw [hold i hi]
  have hkid : ∀ i, i < h1.next → h2.kids i = h1.kids i := fun i hi => by unfold Heap.kids; rw [hold i hi]
  have hspan : ∀ i, i < h1.next → h2.span i = h1.span i := fun i hi => by unfold Heap.span; rw [hold i hi]
  have hstr : ∀ i, i < h1.next → h2.str i = h1.str i := fun i hi => by unfold Heap.str; rw [hold i hi]
  have hx := a.tops x (by simp)
  constructor
  · omega
  · intro i hi; rw [hold i (by omega), a.old i hi]
  · intro i hi
    rcases List.mem_cons.mp hi with rfl | hi
    · exact ⟨hx.1, by omega, by rw [hpar _ hx.2.1]; exact hx.2.2⟩
    · have := b.tops i hi
      exact ⟨by omega, this.2.1, this.2.2⟩
  · intro i h0 h1' hn
    by_cases hi : i < h1.next
    · obtain ⟨p, p1, p2, p3, p4⟩ := a.par i h0 hi (fun hm => hn (by simpa using Or.inl (List.mem_singleton.mp hm)))
      exact ⟨p, p1, p2, by rw [hpar i hi]; exact p3, by rw [hkid p (by omega)]; exact p4⟩
    · obtain ⟨p, p1, p2, p3, p4⟩ := b.par i (by omega) h1' (fun hm => hn (by simp [hm]))
      exact ⟨p, by omega, p2, p3, p4⟩
  · intro p h0 h1' c hc
    by_cases hp : p < h1.next
    · rw [hkid p hp] at hc
      obtain ⟨c1, c2, c3⟩ := a.kid p h0 hp c hc
      exact ⟨c1, by omega, by rw [hpar c c2]; exact c3⟩
    · exact b.kid p (by omega) h1' c hc
  · intro p h0 h1'
    by_cases hp : p < h1.next
    · rw [hstr p hp]; exact a.str p h0 hp
    · exact b.str p (by omega) h1'
  · intro p h0 h1'
    by_cases hp : p < h1.next
    · rw [hspan p hp]; exact a.span p h0 hp
    · exact b.span p (by omega) h1'
  · intro p h0 h1'
    by_cases hp : p < h1.next
    · rw [hspan p hp, hkid p hp, show (h1.kids p).map h2.span = (h1.kids p).map h1.span from
        List.map_congr_left (fun c hc => hspan c (a.kid p h0 hp c hc).2.1)]
      exact a.kids p h0 hp
    · exact b.kids p (by omega) h1'
  · have hl := a.looks
    rw [LooksAll] at hl
    rw [LooksAll]
    refine ⟨looks_frame (fun i => h.next ≤ i ∧ i < h1.next) ?_ ?_ _ x ⟨hx.1, hx.2.1⟩ hl.1, b.looks⟩
    · intro p hp c hc
      have := a.kid p hp.1 hp.2 c hc
      exact ⟨by omega, this.2.1⟩
    · intro p hp
      rw [hold p hp.2]
      exact ⟨hspan p hp.2, rfl, rfl, hkid p hp.2⟩

/-- A new object over new children. -/
theorem built_over {s : String} {h h0 h1 h2 : Heap} {xs : List Nat} {ts : List Node} {sp : Span} {d : Option String}
    {v : Option Nat} (hn : h0.next = h.next + 1) (hold0 : ∀ i < h.next, h0.obj i = h.obj i)
    (a : Built s h0 h1 xs ts) (hs : 0 ≤ sp.start ∧ sp.start ≤ sp.stop ∧ sp.stop ≤ s.length)
    (hk : KidsOK sp (ts.map Node.span))
    (hobj : ∀ y, h2.obj y = if y = h.next then ⟨s, sp, d, v, none, xs⟩
      else { h1.obj y with parent := if y ∈ xs then some h.next else (h1.obj y).parent })
    (hnext : h2.next = h1.next) :
    Built s h h2 [h.next] [.mk sp d v ts] := by
  have an := a.next
  rw [hn] at an
  have hkid : ∀ i, i ≠ h.next → h2.kids i = h1.kids i := fun i hi => by
    unfold Heap.kids; rw [hobj, if_neg hi]
  have hkid0 : h2.kids h.next = xs := by unfold Heap.kids; rw [hobj, if_pos rfl]
  have hspan : ∀ i, i ≠ h.next → h2.span i = h1.span i := fun i hi => by
    unfold Heap.span; rw [hobj, if_neg hi]
  have hspan0 : h2.span h.next = sp := by unfold Heap.span; rw [hobj, if_pos rfl]
  have hpar : ∀ i, i ≠ h.next → h2.parent i = if i ∈ xs then some h.next else h1.parent i := fun i hi => by
    unfold Heap.parent; rw [hobj, if_neg hi]
  have hpar0 : h2.parent h.next = none := by unfold Heap.parent; rw [hobj, if_pos rfl]
  have hstr : ∀ i, i ≠ h.next → h2.str i = h1.str i := fun i hi => by
    unfold Heap.str; rw [hobj, if_neg hi]
  have hstr0 : h2.str h.next = s := by unfold Heap.str; rw [hobj, if_pos rfl]
  have hlook : LooksAll h2 xs ts := by
    refine looksAll_frame (fun i => h.next + 1 ≤ i ∧ i < h1.next) ?_ ?_ _ xs ?_ a.looks
    · intro p hp c hc
      have := a.kid p (by omega) hp.2 c hc
      exact ⟨by omega, this.2.1⟩
    · intro p hp
      have : p ≠ h.next := by omega
      refine ⟨hspan p this, ?_, ?_, hkid p this⟩ <;> rw [hobj, if_neg this]
    · intro x hx
      have := a.tops x hx
      exact ⟨by omega, this.2.1⟩
  constructor
  · omega
  · intro i hi
    have hi' : i ∉ xs := fun hm => by have := (a.tops _ hm).1; omega
    have e := a.old i (by omega)
    rw [hobj, if_neg (by omega), if_neg hi', e, hold0 i hi]
  · intro i hi
    rw [List.mem_singleton.mp hi]
    exact ⟨Nat.le_refl _, by omega, hpar0⟩
  · intro i h0 h1' hni
    have hne : i ≠ h.next := fun e => hni (by simp [e])
    rw [hnext] at h1'
    rw [hpar i hne]
    by_cases hm : i ∈ xs
    · rw [if_pos hm]
      exact ⟨h.next, Nat.le_refl _, by omega, rfl, by rw [hkid0]; exact hm⟩
    · rw [if_neg hm]
      obtain ⟨p, p1, p2, p3, p4⟩ := a.par i (by omega) h1' hm
      exact ⟨p, by omega, p2, p3, by rw [hkid p (by omega)]; exact p4⟩
  · intro p h0 h1' c hc
    rw [hnext] at h1' ⊢
    by_cases e : p = h.next
    · subst e
      rw [hkid0] at hc
      have := a.tops c hc
      rw [hpar c (by omega), if_pos hc]
      exact ⟨by omega, this.2.1, rfl⟩
    · rw [hkid p e] at hc
      obtain ⟨c1, c2, c3⟩ := a.kid p (by omega) h1' c hc
      have hcx : c ∉ xs := fun hm => by rw [(a.tops c hm).2.2] at c3; cases c3
      rw [hpar c (by omega), if_neg hcx]
      exact ⟨c1, c2, c3⟩
  · intro p h0 h1'
    rw [hnext] at h1'
    by_cases e : p = h.next
    · rw [e]; exact hstr0
    · rw [hstr p e]; exact a.str p (by omega) h1'
  · intro p h0 h1'
    rw [hnext] at h1'
    by_cases e : p = h.next
    · rw [e, hspan0]; exact hs
    · rw [hspan p e]; exact a.span p (by omega) h1'
  · intro p h0 h1'
    rw [hnext] at h1'
    by_cases e : p = h.next
    · rw [e, hspan0, hkid0, ← looksAll_spans _ _ hlook]
      exact hk
    · rw [hspan p e, hkid p e, show (h1.kids p).map h2.span = (h1.kids p).map h1.span from
        List.map_congr_left (fun c hc => hspan c (by
          have := a.kid p (by omega) h1' c hc
          omega))]
      exact a.kids p (by omega) h1'
  · rw [LooksAll, Looks]
    refine ⟨⟨hspan0, by rw [hobj, if_pos rfl], by rw [hobj, if_pos rfl], by rw [hkid0]; exact hlook⟩, ?_⟩
    simp [LooksAll]


theorem built_node {s : String} {h h1 : Heap} {xs : List Nat} {ts : List Node} {sp : Span} {d : Option String}
    (a : Built s h.blank h1 xs ts) (hs : 0 ≤ sp.start ∧ sp.start ≤ sp.stop ∧ sp.stop ≤ s.length)
    (hk : KidsOK sp (ts.map Node.span)) :
    Built s h (h1.setState h.next s sp d xs) [h.next] [.mk sp d none ts] := by
  have hnot : h.next ∉ xs := fun hm => by
    have := (a.tops _ hm).1
    have hn : h.blank.next = h.next + 1 := rfl
    omega
  refine built_over rfl (fun i hi => ?_) a hs hk (fun y => ?_) (by simp)
  · simp [blank, show i ≠ h.next by omega]
  · rw [setState_obj, if_neg hnot]

mutual
theorem unpickle_built (s : String) : ∀ (t : Node) (d : PDoc) (h : Heap), WF t → t.stop ≤ s.length → DocOf s d t →
    Built s h (h.unpickle d).1 [(h.unpickle d).2] [bare t]
  | .mk sp dd v ks, .mk s' sp' d' ds, h, hw, hl, hd => by
    rw [DocOf] at hd
    obtain ⟨rfl, rfl, rfl, hd⟩ := hd
    have hb := unpickleAll_built s' ks ds h.blank (fun k hk => hw.kid hk)
      (fun k hk => by have := (hw.kid_inside hk).2; omega) hd
    rw [unpickle, bare]
    exact built_node hb ⟨hw.start_nonneg, hw.start_le, hl⟩ (by rw [bareAll_top']; exact hw.kidsOK)
theorem unpickleAll_built (s : String) : ∀ (ts : List Node) (ds : List PDoc) (h : Heap), (∀ t ∈ ts, WF t) →
    (∀ t ∈ ts, t.stop ≤ s.length) → DocsOf s ds ts → Built s h (h.unpickleAll ds).1 (h.unpickleAll ds).2 (bareAll ts)
  | [], [], h, _, _, _ => by
    rw [unpickleAll, bareAll]
    show Built s h h [] []
    exact ⟨Nat.le_refl _, fun _ _ => rfl, by simp, by intro i a b; omega, by intro i a b; omega,
      by intro i a b; omega, by intro i a b; omega, by intro i a b; omega, by simp [LooksAll]⟩
  | [], _ :: _, _, _, _, hd => by simp [DocsOf] at hd
  | _ :: _, [], _, _, _, hd => by simp [DocsOf] at hd
  | t :: ts, d :: ds, h, hw, hl, hd => by
    rw [DocsOf] at hd
    rw [unpickleAll, bareAll]
    exact built_cons (unpickle_built s t d h (hw t (by simp)) (hl t (by simp)) hd.1)
      (unpickleAll_built s ts ds _ (fun k hk => hw k (by simp [hk])) (fun k hk => hl k (by simp [hk])) hd.2)
end

/-- New trees beside a consistent acyclic memory: consistent and acyclic, with nothing old below the new ones. -/
theorem Built.consistent {s : String} {h h' : Heap} {y : Nat} {t : Node} (b : Built s h h' [y] [t]) (hok : OK h)
    (hac : Acyclic h) : OK h' ∧ Acyclic h' ∧ ∀ i < h'.next, Anc h' y i → h.next ≤ i := by
  have hy := b.tops y (by simp)
  have hpar : ∀ i, i < h.next → h'.parent i = h.parent i := fun i hi => by unfold Heap.parent; rw [b.old i hi]
  have hkid : ∀ i, i < h.next → h'.kids i = h.kids i := fun i hi => by unfold Heap.kids; rw [b.old i hi]
  have hspan : ∀ i, i < h.next → h'.span i = h.span i := fun i hi => by unfold Heap.span; rw [b.old i hi]
  have hstr : ∀ i, i < h.next → h'.str i = h.str i := fun i hi => by unfold Heap.str; rw [b.old i hi]
  -- ancestors of old objects are as before; those of new ones are new and smaller
  have hold : ∀ a i, Anc h' a i → i < h.next → Anc h a i ∧ a < h.next := by
    intro a i ha
    induction ha with
    | parent hp =>
      intro hi
      rw [hpar _ hi] at hp
      exact ⟨.parent hp, (hok.parentKid _ hi _ hp).1⟩
    | step hp _ ih =>
      intro hi
      rw [hpar _ hi] at hp
      obtain ⟨h1, h2⟩ := ih (hok.parentKid _ hi _ hp).1
      exact ⟨.step hp h1, h2⟩
  have hnewpar : ∀ i p, h.next ≤ i → i < h'.next → h'.parent i = some p → h.next ≤ p ∧ p < i ∧ i ∈ h'.kids p := by
    intro i p h0 h1 hp
    have hi : i ∉ [y] := fun hm => by
      rw [List.mem_singleton.mp hm] at hp
      rw [hy.2.2] at hp; cases hp
    obtain ⟨q, q1, q2, q3, q4⟩ := b.par i h0 h1 hi
    rw [hp] at q3
    cases q3
    exact ⟨q1, q2, q4⟩
  have hnew : ∀ a i, Anc h' a i → h.next ≤ i → i < h'.next → a < i := by
    intro a i ha
    induction ha with
    | parent hp =>
      intro h0 h1
      exact (hnewpar _ _ h0 h1 hp).2.1
    | step hp _ ih =>
      intro h0 h1
      have := hnewpar _ _ h0 h1 hp
      have := ih this.1 (by omega)
      omega
  refine ⟨?_, ?_, ?_⟩
  · constructor
    · intro i hi
      by_cases hi' : i < h.next
      · rw [hspan i hi', hstr i hi']; exact hok.span i hi'
      · rw [b.str i (by omega) hi]; exact b.span i (by omega) hi
    · intro p hp
      by_cases hp' : p < h.next
      · rw [hspan p hp', hkid p hp', show (h.kids p).map h'.span = (h.kids p).map h.span from
          List.map_congr_left (fun c hc => hspan c (hok.kidParent p hp' c hc).1)]
        exact hok.kids p hp'
      · exact b.kids p (by omega) hp
    · intro p hp c hc
      by_cases hp' : p < h.next
      · rw [hkid p hp'] at hc
        obtain ⟨c1, c2, c3⟩ := hok.kidParent p hp' c hc
        have := b.next
        rw [hpar c c1, hstr c c1, hstr p hp']
        exact ⟨by omega, c2, c3⟩
      · obtain ⟨c1, c2, c3⟩ := b.kid p (by omega) hp c hc
        rw [b.str p (by omega) hp, b.str c (by omega) c2]
        exact ⟨c2, c3, rfl⟩
    · intro i hi p hp
      by_cases hi' : i < h.next
      · rw [hpar i hi'] at hp
        obtain ⟨p1, p2, p3⟩ := hok.parentKid i hi' p hp
        have := b.next
        exact ⟨by omega, by rw [hkid p p1]; exact p2, p3⟩
      · obtain ⟨p1, p2, p3⟩ := hnewpar i p (by omega) hi hp
        exact ⟨by omega, p3, by omega⟩
  · intro i hi ha
    by_cases hi' : i < h.next
    · exact hac i hi' (hold i i ha hi').1
    · have := hnew i i ha (by omega) hi
      omega
  · intro i hi ha
    by_cases hi' : i < h.next
    · have := (hold y i ha hi').2
      omega
    · omega

/-- C45: pickling any object `x` of a consistent acyclic memory works given enough stack, and unpickling
the result gives a new parentless object whose tree looks like that of `x` (value functions apart, which
are not saved), on the same string; memory stays consistent and acyclic, no existing object changes, and all the
objects of the copy are new. -/
theorem C45_pickle_round_trip {h : Heap} (hok : OK h) (hac : Acyclic h) {x : Nat} (hx : x < h.next) :
    ∃ t, Looks h x t ∧ ∃ n, ∀ m, n ≤ m → ∃ d, h.pickle m x = .ok d ∧
      Looks (h.unpickle d).1 (h.unpickle d).2 (bare t) ∧
      (h.unpickle d).1.parent (h.unpickle d).2 = none ∧
      (h.unpickle d).1.str (h.unpickle d).2 = h.str x ∧
      OK (h.unpickle d).1 ∧ Acyclic (h.unpickle d).1 ∧
      (∀ i < h.next, (h.unpickle d).1.obj i = h.obj i) ∧
      h.next ≤ (h.unpickle d).2 ∧ (∀ y < (h.unpickle d).1.next, Anc (h.unpickle d).1 (h.unpickle d).2 y → h.next ≤ y) := by
  obtain ⟨t, ht⟩ := exists_tree hok hac x hx
  obtain ⟨hw, hl⟩ := looks_wf hok t x hx ht
  refine ⟨t, ht, need t, fun m hm => ?_⟩
  obtain ⟨d, e, hd⟩ := pickle_doc hok (h.str x) t x hx rfl ht m hm
  refine ⟨d, e, ?_⟩
  have b := unpickle_built (h.str x) t d h hw hl hd
  generalize h.unpickle d = r at b
  obtain ⟨h', y⟩ := r
  have hy := b.tops y (by simp)
  have hlk := b.looks
  rw [LooksAll] at hlk
  obtain ⟨c1, c2, c3⟩ := b.consistent hok hac
  exact ⟨hlk.1, hy.2.2, b.str y hy.1 hy.2.1, c1, c2, b.old, hy.1, c3⟩

/-- C45 is false of value functions: they are not saved, so an Ito with one is not equal to its copy.  For
every object with a value function: the copy has none. -/
theorem C45_value_func_violated (h : Heap) (n x : Nat) (d : PDoc) (v : Nat) (hv : (h.obj x).vf = some v)
    (_hd : h.pickle n x = .ok d) :
    ((h.unpickle d).1.obj (h.unpickle d).2).vf = none ∧
      ((h.unpickle d).1.obj (h.unpickle d).2).vf ≠ (h.obj x).vf := by
  obtain ⟨s, sp, dd, ks⟩ := d
  have : ((h.unpickle (.mk s sp dd ks)).1.obj (h.unpickle (.mk s sp dd ks)).2).vf = none := by
    rw [unpickle]
    simp only [setState_obj, if_true]
  exact ⟨this, by rw [this, hv]; simp⟩

/-- Non-vacuity: a parent with a child, made by the API. -/
example : ∃ h x, OK h ∧ Acyclic h ∧ x < h.next ∧ h.kids x = [1] := by
  let ops : List Op := [.new "ab" none none (some "p"), .new "ab" (some 0) (some 1) none, .add 0 [1]]
  have hl : Legal empty ops := by refine ⟨by simp [Op.ids], by simp [Op.ids], by decide, trivial⟩
  refine ⟨empty.runAll ops, 0, ?_, ?_, by decide, by decide⟩
  · exact C24_children_invariant ops hl
  · exact C25_acyclic_partial ops hl ⟨trivial, trivial, fun x hx => by
      rw [List.mem_singleton.mp hx]; exact Or.inr (by decide), trivial⟩

end Pawpaw.Props
