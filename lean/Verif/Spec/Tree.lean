import Verif.Model.Tree
/-!
# Specification vocabulary for trees

Only the data types `Span`, `Node` and the addressing `Node.get?` (the descendant at a path of child
indices) are taken from the model.
-/
namespace TreeSpec
open Pawpaw

/-- Children of a node with span `p`: each inside `p`, strictly ordered by start, not overlapping. -/
structure KidsOK (p : Span) (ks : List Span) : Prop where
  inside : ∀ c ∈ ks, p.start ≤ c.start ∧ c.start ≤ c.stop ∧ c.stop ≤ p.stop
  ordered : ks.Pairwise (fun a b => a.start < b.start ∧ a.stop ≤ b.start)

/-- A well-formed tree: every node's span is an interval of non-negative positions and its children
are in order, disjoint and inside it. -/
inductive WF : Node → Prop
  | mk {s : Span} {d : Option String} {v : Option Nat} {ks : List Node}
      (h0 : 0 ≤ s.start) (h1 : s.start ≤ s.stop) (hk : KidsOK s (ks.map Node.span))
      (h : ∀ k ∈ ks, WF k) : WF (.mk s d v ks)

/-- Document order of two nodes given by their paths: an ancestor comes before its descendants, and
otherwise the earlier sibling decides. -/
def DocLt : List Nat → List Nat → Prop
  | [], _ :: _ => True
  | a :: p, b :: q => a < b ∨ (a = b ∧ DocLt p q)
  | _, [] => False

instance decDocLt : ∀ p q, Decidable (DocLt p q)
  | [], _ :: _ => isTrue trivial
  | a :: p, b :: q =>
    have := decDocLt p q
    inferInstanceAs (Decidable (a < b ∨ (a = b ∧ DocLt p q)))
  | [], [] => isFalse (fun h => h)
  | _ :: _, [] => isFalse (fun h => h)

/-- `p` is the path of a node of the tree. -/
def IsNode (t : Node) (p : List Nat) : Prop := (t.get? p).isSome = true

instance (t : Node) (p : List Nat) : Decidable (IsNode t p) := inferInstanceAs (Decidable (_ = true))

/-- `q` is a proper descendant of `p` (its path properly extends `p`). -/
def Desc (p q : List Nat) : Prop := ∃ i r, q = p ++ i :: r

mutual
/-- Pre-order listing of a tree: (span, desc) of the node, then of its children in order. -/
def preorder : Node → List (Span × Option String)
  | .mk s d _ ks => (s, d) :: preorderAll ks
/-- Pre-order listing of a forest. -/
def preorderAll : List Node → List (Span × Option String)
  | [] => []
  | k :: ks => preorder k ++ preorderAll ks
end

mutual
/-- The attributes (span, desc, value_func) of a node and all its descendants, in document order. -/
def listing : Node → List (Span × Option String × Option Nat)
  | .mk s d v ks => (s, d, v) :: listingAll ks
/-- The attributes of all nodes of a forest. -/
def listingAll : List Node → List (Span × Option String × Option Nat)
  | [] => []
  | k :: ks => listing k ++ listingAll ks
end

/-- `s` lies inside `p`. -/
def Inside (p s : Span) : Prop := p.start ≤ s.start ∧ s.stop ≤ p.stop

instance (a b : Span) : Decidable (Inside a b) := inferInstanceAs (Decidable (_ ∧ _))

/-- A well-formed list of children of a node of span `p`. -/
def ForestOK (p : Span) (ks : List Node) : Prop := KidsOK p (ks.map Node.span) ∧ ∀ k ∈ ks, WF k

/-- Two spans are nested or disjoint (they do not cross). -/
def Laminar (a b : Span) : Prop :=
  a.stop ≤ b.start ∨ b.stop ≤ a.start ∨ (a.start ≤ b.start ∧ b.stop ≤ a.stop) ∨
    (b.start ≤ a.start ∧ a.stop ≤ b.stop)

instance (a b : Span) : Decidable (Laminar a b) := inferInstanceAs (Decidable (_ ∨ _))

end TreeSpec
