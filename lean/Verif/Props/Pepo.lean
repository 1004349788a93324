import Verif.Model.Pepo
import Verif.Spec.Pepo
import Verif.Props.Tree
/-!
# C64: dumps
-/
set_option linter.unusedSectionVars false
set_option linter.unusedSimpArgs false
namespace Pawpaw.Props
open Pawpaw Pawpaw.Pepo PepoSpec TreeSpec

theorem flatMap_congr_mem {α β : Type} {f g : α → List β} : ∀ {l : List α}, (∀ x ∈ l, f x = g x) →
    l.flatMap f = l.flatMap g
  | [], _ => rfl
  | a :: l, h => by
    rw [List.flatMap_cons, List.flatMap_cons, h a (by simp), flatMap_congr_mem (fun x hx => h x (by simp [hx]))]

/-! ## Compact -/

mutual
theorem compact_lines (c : Cfg) (hc : c.children = true) (num : Nat → List Char) (fmt : Node → List Char)
    (root : Node) (lvl : Int) : ∀ (n : Node) (q : List Nat) (i : Nat), root.get? (q ++ [i]) = some n →
    compact c num fmt q.length (i + 1) n =
      compactLine c.indent c.lsep num fmt root (q ++ [i]) ++
        (Node.walkLevels false lvl (q ++ [i]) n).flatMap (fun e => compactLine c.indent c.lsep num fmt root e.2)
  | .mk s d v ks, q, i, h => by
    have hk : ∀ j, root.get? ((q ++ [i]) ++ [0 + j]) = ks[j]? := by
      intro j
      rw [Node.get?_append, h]
      simp only [Option.bind_some, Nat.zero_add, Node.get?_cons, Node.kids]
      cases ks[j]? <;> simp [Node.get?]
    have := compactKids_lines c hc num fmt root lvl ks (q ++ [i]) 0 hk
    simp only [List.length_append, List.length_singleton, Nat.zero_add] at this
    rw [compact, Node.walkLevels, hc, if_pos rfl, this]
    simp [compactLine, h, Cfg.ind, copies]
theorem compactKids_lines (c : Cfg) (hc : c.children = true) (num : Nat → List Char) (fmt : Node → List Char)
    (root : Node) (lvl : Int) : ∀ (ks : List Node) (q : List Nat) (i : Nat),
    (∀ j, root.get? (q ++ [i + j]) = ks[j]?) →
    compactKids c num fmt q.length (i + 1) ks =
      (Node.walkLevelsKids false lvl q i ks).flatMap (fun e => compactLine c.indent c.lsep num fmt root e.2)
  | [], q, i, h => by simp [compactKids, Node.walkLevelsKids]
  | k :: ks, q, i, h => by
    have h0 := h 0
    simp only [Nat.add_zero, List.getElem?_cons_zero] at h0
    rw [compactKids, Node.walkLevelsKids]
    have h1 := compactKids_lines c hc num fmt root lvl ks q (i + 1) (fun j => by
      have := h (j + 1)
      simpa [Nat.add_comm, Nat.add_left_comm, Nat.add_assoc] using this)
    rw [h1, compact_lines c hc num fmt root (lvl + 1) k q i h0]
    simp
end

theorem forest_get (itos : List Node) (j : Nat) : (forest itos).get? [j] = itos[j]? := by
  rw [forest, Node.get?]
  cases itos[j]? <;> simp [Node.get?]

theorem compactKids_flat (c : Cfg) (hc : c.children = false) (num : Nat → List Char) (fmt : Node → List Char)
    (root : Node) : ∀ (ks : List Node) (i : Nat), (∀ j, root.get? [i + j] = ks[j]?) →
    compactKids c num fmt 0 (i + 1) ks =
      (List.range' i ks.length).flatMap (fun j => compactLine c.indent c.lsep num fmt root [j])
  | [], i, _ => by simp [compactKids]
  | .mk s d v ks' :: ks, i, h => by
    have h0 := h 0
    simp only [Nat.add_zero, List.getElem?_cons_zero] at h0
    rw [compactKids, compact, hc, compactKids_flat c hc num fmt root ks (i + 1) (fun j => by
      have := h (j + 1)
      simpa [Nat.add_comm, Nat.add_left_comm, Nat.add_assoc] using this)]
    simp [List.range'_succ, compactLine, h0, Cfg.ind, copies]

/-- C64: the compact dump is one line per node of the forest, in document order, indented by depth and numbered
among its siblings. -/
theorem C64_compact (c : Cfg) (hc : c.children = true) (num : Nat → List Char) (fmt : Node → List Char)
    (itos : List Node) :
    ∃ ps : List (List Nat), ps.Pairwise DocLt ∧
      (∀ p, p ∈ ps ↔ p ≠ [] ∧ IsNode (forest itos) p) ∧
      compactDump c num fmt itos = ps.flatMap (compactLine c.indent c.lsep num fmt (forest itos)) := by
  refine ⟨(forest itos).walk false [], (C32_walk_descendants _ []).2.1, fun p => ?_, ?_⟩
  · rw [(C32_walk_descendants (forest itos) []).1]
    constructor
    · rintro ⟨i, r, rfl, h⟩
      exact ⟨by simp, h⟩
    · rintro ⟨h0, h⟩
      cases p with
      | nil => exact absurd rfl h0
      | cons i r => exact ⟨i, r, rfl, h⟩
  · have := compactKids_lines c hc num fmt (forest itos) 0 itos [] 0 (fun j => by
      simpa using forest_get itos j)
    rw [compactDump, Node.walk, forest, Node.walkLevels, List.flatMap_map]
    exact this

/-- C64: with `children=False`, the compact dump is one line per Ito given. -/
theorem C64_compact_no_children (c : Cfg) (hc : c.children = false) (num : Nat → List Char)
    (fmt : Node → List Char) (itos : List Node) :
    compactDump c num fmt itos =
      (List.range itos.length).flatMap (fun j => compactLine c.indent c.lsep num fmt (forest itos) [j]) := by
  rw [List.range_eq_range']
  exact compactKids_flat c hc num fmt (forest itos) itos 0 (fun j => by
    simpa using forest_get itos j)

/-! ## Tree -/

theorem nextSib_snoc (q : List Nat) (i : Nat) : nextSib (q ++ [i]) = q ++ [i + 1] := by
  simp [nextSib]

/-- The columns left of the children of the node at `q`. -/
def columns (indent : List Char) (root : Node) (q : List Nat) : List Char :=
  (List.range q.length).flatMap (fun d => column indent root (q.take (d + 1)))

theorem columns_snoc (indent : List Char) (root : Node) (q : List Nat) (i : Nat) :
    columns indent root (q ++ [i]) = columns indent root q ++ column indent root (q ++ [i]) := by
  unfold columns
  rw [List.length_append, List.length_singleton, List.range_succ, List.flatMap_append]
  congr 1
  · apply flatMap_congr_mem
    intro d hd
    rw [List.mem_range] at hd
    rw [List.take_append_of_le_length (by omega)]
  · rw [List.flatMap_singleton, List.take_of_length_le (by simp)]

theorem treeLine_snoc (indent lsep : List Char) (fmt : Node → List Char) (root n : Node) (q : List Nat) (i : Nat)
    (h : root.get? (q ++ [i]) = some n) :
    treeLine indent lsep fmt root (q ++ [i]) = columns indent root q ++
      (if lastSib root (q ++ [i]) then '└' else '├') :: (List.replicate indent.length '─' ++ fmt n ++ lsep) := by
  unfold treeLine columns
  rw [h]
  dsimp only
  congr 1
  rw [List.length_append, List.length_singleton, Nat.add_sub_cancel]
  apply flatMap_congr_mem
  intro d hd
  rw [List.mem_range] at hd
  rw [List.take_append_of_le_length (by omega)]

mutual
theorem treeNode_lines (c : Cfg) (fmt : Node → List Char) (root : Node) (lvl : Int) :
    ∀ (n : Node) (q : List Nat), root.get? q = some n →
    treeNode c fmt (columns c.indent root q) n =
      (Node.walkLevels false lvl q n).flatMap (fun e => treeLine c.indent c.lsep fmt root e.2)
  | .mk s d v ks, q, h => by
    rw [treeNode, Node.walkLevels]
    refine treeKids_lines c fmt root lvl ks q 0 (fun j => ?_)
    rw [Node.get?_append, h]
    simp only [Option.bind_some, Nat.zero_add, Node.get?_cons, Node.kids]
    cases ks[j]? <;> simp [Node.get?]
theorem treeKids_lines (c : Cfg) (fmt : Node → List Char) (root : Node) (lvl : Int) :
    ∀ (ks : List Node) (q : List Nat) (i : Nat), (∀ j, root.get? (q ++ [i + j]) = ks[j]?) →
    treeKids c fmt (columns c.indent root q) ks =
      (Node.walkLevelsKids false lvl q i ks).flatMap (fun e => treeLine c.indent c.lsep fmt root e.2)
  | [], q, i, h => by simp [treeKids, Node.walkLevelsKids]
  | k :: ks, q, i, h => by
    have h0 := h 0
    simp only [Nat.add_zero, List.getElem?_cons_zero] at h0
    have h1 := h 1
    have hn := treeNode_lines c fmt root (lvl + 1) k (q ++ [i]) h0
    rw [columns_snoc, column] at hn
    have hks := treeKids_lines c fmt root lvl ks q (i + 1) (fun j => by
      have := h (j + 1)
      simpa [Nat.add_comm, Nat.add_left_comm, Nat.add_assoc] using this)
    have hl : lastSib root (q ++ [i]) = decide (ks = []) := by
      unfold lastSib
      rw [nextSib_snoc, h1]
      cases ks <;> simp
    rw [treeKids, Node.walkLevelsKids]
    by_cases hz : ks = []
    · rw [if_pos hz]
      subst hz
      simp only [decide_true] at hl
      simp only [hl, if_true] at hn
      simp only [Bool.false_eq_true, if_false, Node.walkLevelsKids, List.append_nil, List.flatMap_cons]
      rw [treeLine_snoc _ _ _ _ k _ _ h0, hl, ← hn]
      simp [elbow, horz]
    · rw [if_neg hz]
      simp only [hz, decide_false] at hl
      simp only [hl, Bool.false_eq_true, if_false] at hn
      simp only [Bool.false_eq_true, if_false, List.flatMap_append, List.flatMap_cons]
      rw [treeLine_snoc _ _ _ _ k _ _ h0, hl, ← hn, ← hks]
      simp [tee, horz, vert]
end

/-- C64: the tree dump is, for each Ito given, its own line and then one line per descendant in document order, each
drawn below its ancestors. (`children` has no effect.) -/
theorem C64_tree (c : Cfg) (fmt : Node → List Char) (itos : List Node) :
    ∃ ps : Node → List (List Nat),
      (∀ t, (ps t).Pairwise DocLt ∧ ∀ p, p ∈ ps t ↔ p ≠ [] ∧ IsNode t p) ∧
      treeDump c fmt itos = itos.flatMap (fun t => fmt t ++ c.lsep ++
        (ps t).flatMap (treeLine c.indent c.lsep fmt t)) := by
  refine ⟨fun t => t.walk false [], fun t => ⟨(C32_walk_descendants _ []).2.1, fun p => ?_⟩, ?_⟩
  · rw [(C32_walk_descendants t []).1]
    constructor
    · rintro ⟨i, r, rfl, h⟩
      exact ⟨by simp, h⟩
    · rintro ⟨h0, h⟩
      cases p with
      | nil => exact absurd rfl h0
      | cons i r => exact ⟨i, r, rfl, h⟩
  · rw [treeDump]
    apply flatMap_congr_mem
    intro t _
    have := treeNode_lines c fmt t 0 t [] (by cases t <;> rfl)
    rw [show columns c.indent t [] = [] from rfl] at this
    show _ = fmt t ++ c.lsep ++ (t.walk false []).flatMap _
    rw [this, Node.walk, List.flatMap_map]

example : String.ofList (treeDump ⟨"  ".toList, ['\n'], true⟩ (fun n => (n.desc.getD "-").toList) [exTree]) =
    "a\n├──b\n│  └──-\n├──-\n└──c\n" := by decide

example : String.ofList (compactDump ⟨"  ".toList, ['\n'], true⟩ (fun n => (Nat.repr n).toList)
    (fun n => (n.desc.getD "-").toList) [exTree]) = "1: a\n  1: b\n    1: -\n  2: -\n  3: c\n" := by decide

end Pawpaw.Props
