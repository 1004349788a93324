import Verif.Spec.Query
import Verif.Lemmas.Tree
/-!
# Lemmas about axes
-/
set_option linter.unusedSectionVars false
namespace Pawpaw.Query
open TreeSpec QuerySpec

theorem parent_nil : parent [] = none := rfl
theorem parent_snoc (r : Path) (i : Nat) : parent (r ++ [i]) = some r := by simp [parent]

theorem path_cases (p : Path) : p = [] ∨ ∃ r i, p = r ++ [i] := by
  rcases List.eq_nil_or_concat p with h | ⟨r, i, h⟩
  · exact Or.inl h
  · exact Or.inr ⟨r, i, by simpa using h⟩

theorem ancestors_nil : ancestors [] = [] := by unfold ancestors; rfl
theorem ancestors_snoc (r : Path) (i : Nat) : ancestors (r ++ [i]) = r :: ancestors r := by
  rw [ancestors.eq_def]
  split
  · rename_i h; rw [parent_snoc] at h; cases h
  · rename_i q h; rw [parent_snoc] at h; cases h; rfl

theorem climb_nil : climb [] = [] := by unfold climb; rfl
theorem climb_snoc (r : Path) (i : Nat) : climb (r ++ [i]) = climb r := by
  rw [climb.eq_def]
  split
  · rename_i h; rw [parent_snoc] at h; cases h
  · rename_i q h; rw [parent_snoc] at h; cases h; rfl

theorem snoc_induction {P : Path → Prop} (h0 : P []) (h1 : ∀ r i, P r → P (r ++ [i])) (p : Path) : P p := by
  have : ∀ n, ∀ p : Path, p.length = n → P p := by
    intro n
    induction n with
    | zero => intro p hp; rw [List.eq_nil_of_length_eq_zero hp]; exact h0
    | succ n ih =>
      intro p hp
      rcases path_cases p with rfl | ⟨r, i, rfl⟩
      · simp at hp
      · exact h1 r i (ih r (by simpa using hp))
  exact this _ p rfl

theorem climb_eq (p : Path) : climb p = [] :=
  snoc_induction (P := fun p => climb p = []) climb_nil (fun r i h => by rw [climb_snoc, h]) p

theorem desc_snoc {q r : Path} {i : Nat} : Desc q (r ++ [i]) ↔ q = r ∨ Desc q r := by
  constructor
  · rintro ⟨j, s, h⟩
    rcases path_cases s with rfl | ⟨s', k, rfl⟩
    · left
      exact ((List.append_inj' h (by simp)).1).symm
    · right
      refine ⟨j, s', ?_⟩
      have : r ++ [i] = (q ++ j :: s') ++ [k] := by rw [h]; simp
      exact (List.append_inj' this (by simp)).1
  · rintro (rfl | ⟨j, s, rfl⟩)
    · exact ⟨i, [], rfl⟩
    · exact ⟨j, s ++ [i], by simp⟩

theorem desc_docLt {p q : Path} (h : Desc p q) : DocLt p q := by
  obtain ⟨i, r, rfl⟩ := h
  have : DocLt (p ++ []) (p ++ i :: r) := (docLt_append p [] (i :: r)).mpr trivial
  simpa using this

theorem ancestors_mem (p q : Path) : q ∈ ancestors p ↔ Desc q p := by
  refine snoc_induction (P := fun p => q ∈ ancestors p ↔ Desc q p) ?_ ?_ p
  · rw [ancestors_nil]
    constructor
    · intro h; simp at h
    · rintro ⟨i, r, h⟩; simp at h
  · intro r i ih
    rw [ancestors_snoc, List.mem_cons, ih, desc_snoc]

theorem ancestors_sorted (p : Path) : (ancestors p).Pairwise (fun x y => DocLt y x) := by
  refine snoc_induction (P := fun p => (ancestors p).Pairwise (fun x y => DocLt y x)) ?_ ?_ p
  · rw [ancestors_nil]; exact List.Pairwise.nil
  · intro r i ih
    rw [ancestors_snoc, List.pairwise_cons]
    exact ⟨fun q hq => desc_docLt ((ancestors_mem r q).mp hq), ih⟩

theorem enumFrom_eq (e : Nat) (ns : List Path) : enumFrom e ns = (List.range' e ns.length).zip ns := by
  induction ns generalizing e with
  | nil => rfl
  | cons n ns ih => simp [enumFrom, ih, List.range'_succ]

theorem numbered_eq (ns : List Path) : numbered ns = enumFrom 0 ns := by
  rw [enumFrom_eq, numbered, List.range_eq_range']

theorem enumFrom_append (e : Nat) (a b : List Path) :
    enumFrom e (a ++ b) = enumFrom e a ++ enumFrom (e + a.length) b := by
  induction a generalizing e with
  | nil => rfl
  | cons x a ih => simp only [List.cons_append, enumFrom, ih, List.length_cons]; congr 3; omega

/-- `to_ecs` adds the self option as documented. -/
theorem toEcs_eq (a : Axis) (p : Path) (ns : List Path) (h : p ∉ ns) :
    a.toEcs ns (some p) = numbered (addSelf a p ns) := by
  rw [numbered_eq]
  unfold Axis.toEcs addSelf
  rcases a with ⟨key, rev, orSelf⟩
  cases orSelf <;> cases rev <;> cases ns <;>
    simp_all [enumFrom, enumFrom_append, Ne.symm, eq_comm] <;> omega

theorem kidsAt_eq {t n : Node} {p : Path} (h : t.get? p = some n) : kidsAt t p = n.kids := by
  simp [kidsAt, h]

theorem isNode_iff {t : Node} {p : Path} : IsNode t p ↔ ∃ n, t.get? p = some n := by
  unfold IsNode; rw [Option.isSome_iff_exists]

theorem get?_snoc {t n : Node} {p : Path} (h : t.get? p = some n) (i : Nat) :
    t.get? (p ++ [i]) = n.kids[i]? := by
  rw [Node.get?_append, h]
  simp only [Option.bind_some]
  rw [Node.get?_cons]
  cases n.kids[i]? <;> rfl

theorem isNode_snoc {t n : Node} {p : Path} (h : t.get? p = some n) (i : Nat) :
    IsNode t (p ++ [i]) ↔ i < n.kids.length := by
  rw [isNode_iff, get?_snoc h]
  constructor
  · rintro ⟨m, hm⟩; exact (List.getElem?_eq_some_iff.mp hm).1
  · intro hi; exact ⟨n.kids[i], List.getElem?_eq_getElem hi⟩

theorem isNode_parent {t : Node} {p : Path} {q : Path} (h : IsNode t (p ++ q)) : IsNode t p := by
  obtain ⟨n, hn⟩ := isNode_iff.mp h
  rw [Node.get?_append] at hn
  cases hp : t.get? p with
  | none => rw [hp] at hn; cases hn
  | some m => exact isNode_iff.mpr ⟨m, hp⟩

theorem isNode_nil (t : Node) : IsNode t [] := by rw [isNode_iff]; exact ⟨t, by simp [Node.get?]⟩

theorem mem_children {t n : Node} {p : Path} (h : t.get? p = some n) (q : Path) :
    q ∈ children t p ↔ IsNode t q ∧ ∃ i, q = p ++ [i] := by
  unfold children
  rw [kidsAt_eq h, List.mem_map]
  constructor
  · rintro ⟨i, hi, rfl⟩
    exact ⟨(isNode_snoc h i).mpr (by simpa using hi), i, rfl⟩
  · rintro ⟨hn, i, rfl⟩
    exact ⟨i, by simpa using (isNode_snoc h i).mp hn, rfl⟩

theorem docLt_snoc (p : Path) (i j : Nat) : DocLt (p ++ [i]) (p ++ [j]) ↔ i < j := by
  rw [docLt_append]
  simp [DocLt]

theorem children_sorted (t : Node) (p : Path) : (children t p).Pairwise DocLt := by
  unfold children
  rw [List.pairwise_map]
  have := List.pairwise_lt_range (n := (kidsAt t p).length)
  exact this.imp (fun h => (docLt_snoc p _ _).mpr h)

theorem mem_walkAt {t n : Node} {p : Path} (h : t.get? p = some n) (rev : Bool) (q : Path) :
    q ∈ walkAt t rev p ↔ IsNode t q ∧ Desc p q := by
  have hw : q ∈ n.walk rev p ↔ ∃ i r, q = p ++ i :: r ∧ IsNode n (i :: r) := by
    unfold Node.walk
    simp only [List.mem_map, Prod.exists, exists_and_right, exists_eq_right]
    constructor
    · rintro ⟨l, h⟩
      obtain ⟨i, r, h1, h2, _⟩ := (Node.walkLevels_mem rev 0 p (l, q) n).mp h
      exact ⟨i, r, h1, h2⟩
    · rintro ⟨i, r, h1, h2⟩
      exact ⟨0 + r.length, (Node.walkLevels_mem rev 0 p (_, q) n).mpr ⟨i, r, h1, h2, rfl⟩⟩
  unfold walkAt
  rw [h]
  simp only
  rw [hw]
  constructor
  · rintro ⟨i, r, rfl, hn⟩
    refine ⟨?_, i, r, rfl⟩
    obtain ⟨m, hm⟩ := isNode_iff.mp hn
    exact isNode_iff.mpr ⟨m, by rw [Node.get?_append, h]; exact hm⟩
  · rintro ⟨hn, i, r, rfl⟩
    refine ⟨i, r, rfl, ?_⟩
    obtain ⟨m, hm⟩ := isNode_iff.mp hn
    rw [Node.get?_append, h] at hm
    exact isNode_iff.mpr ⟨m, hm⟩

theorem walkAt_sorted (t : Node) (p : Path) : (walkAt t false p).Pairwise DocLt := by
  unfold walkAt
  cases t.get? p with
  | none => exact List.Pairwise.nil
  | some n =>
    simp only [Node.walk]
    rw [List.pairwise_map]
    exact Node.walkLevels_sorted 0 p n

theorem walkAt_rev (t : Node) (p : Path) : walkAt t true p = (walkAt t false p).reverse := by
  unfold walkAt
  cases t.get? p with
  | none => rfl
  | some n => simp only [Node.walk]; rw [Node.walkLevels_rev, List.map_reverse]

theorem isLeaf_iff {t : Node} {q : Path} (h : IsNode t q) : isLeaf t q = true ↔ ∀ i, ¬ IsNode t (q ++ [i]) := by
  obtain ⟨n, hn⟩ := isNode_iff.mp h
  unfold isLeaf
  rw [kidsAt_eq hn, decide_eq_true_eq]
  constructor
  · intro h0 i hi
    have := (isNode_snoc hn i).mp hi
    omega
  · intro hi
    have := hi 0
    rw [isNode_snoc hn] at this
    omega

theorem get?_WF : ∀ (q : List Nat) (n m : Node), WF n → n.get? q = some m → WF m
  | [], n, m, h, e => by simp only [Node.get?, Option.some.injEq] at e; exact e ▸ h
  | i :: q, n, m, h, e => by
    rw [Node.get?_cons] at e
    cases hk : n.kids[i]? with
    | none => rw [hk] at e; cases e
    | some k => rw [hk] at e; exact get?_WF q k m (h.kid (List.mem_of_getElem? hk)) e

/-- `p.children.index(i)` finds the very child, because siblings start at different positions. -/
theorem childIndex_eq {t : Node} (hw : WF t) {r : Path} {i : Nat} (h : IsNode t (r ++ [i])) :
    childIndex t r (r ++ [i]) = .ok i := by
  obtain ⟨n, hn⟩ := isNode_iff.mp (isNode_parent h)
  have hi := (isNode_snoc hn i).mp h
  have hwn := get?_WF r t n hw hn
  unfold childIndex
  have : (children t r).findIdx? (fun c => decide (keyAt t c = keyAt t (r ++ [i]))) = some i := by
    rw [List.findIdx?_eq_some_iff_getElem]
    have hlen : (children t r).length = n.kids.length := by simp [children, kidsAt_eq hn]
    refine ⟨by omega, by simp [children], ?_⟩
    intro j hj
    simp only [children, List.getElem_map, List.getElem_range, decide_eq_true_eq]
    intro e
    have hj' : j < n.kids.length := by omega
    simp only [keyAt, get?_snoc hn, List.getElem?_eq_getElem hi, List.getElem?_eq_getElem hj',
      Option.map_some, Option.some.injEq, Node.key, Prod.mk.injEq] at e
    have ho := hwn.kidsOK.ordered
    rw [List.pairwise_iff_getElem] at ho
    have := ho j i (by simpa using hj') (by simpa using hi) hj
    simp only [List.getElem_map, e.1] at this
    omega
  rw [this]

end Pawpaw.Query
