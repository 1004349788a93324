import Verif.Lemmas.Tree
/-!
# Non-empty children side by side
-/
set_option linter.unusedSectionVars false
namespace Pawpaw.Props
open Pawpaw TreeSpec

/-- Non-empty nodes in order within `[lo, hi]`. -/
structure XTiles (lo hi : Int) (ks : List Node) : Prop where
  inside : ∀ k ∈ ks, lo ≤ k.start ∧ k.start < k.stop ∧ k.stop ≤ hi
  ordered : ks.Pairwise (fun a b => a.stop ≤ b.start)

theorem XTiles.sublist {lo hi : Int} {a b : List Node} (h : XTiles lo hi b) (s : a.Sublist b) : XTiles lo hi a :=
  ⟨fun k hk => h.inside k (s.subset hk), h.ordered.sublist s⟩

theorem XTiles.weaken {lo hi lo' hi' : Int} {a : List Node} (h : XTiles lo hi a) (h1 : lo' ≤ lo) (h2 : hi ≤ hi') :
    XTiles lo' hi' a :=
  ⟨fun k hk => by have := h.inside k hk; omega, h.ordered⟩

theorem XTiles.append {lo m m' hi : Int} {a b : List Node} (h : XTiles lo m a) (g : XTiles m' hi b) (hm : m ≤ m')
    (h1 : lo ≤ m) (h2 : m' ≤ hi) : XTiles lo hi (a ++ b) := by
  refine ⟨?_, ?_⟩
  · intro k hk
    rcases List.mem_append.1 hk with hk | hk
    · have := h.inside k hk; omega
    · have := g.inside k hk; omega
  · rw [List.pairwise_append]
    refine ⟨h.ordered, g.ordered, ?_⟩
    intro x hx y hy
    have := h.inside x hx
    have := g.inside y hy
    omega

theorem XTiles.single {lo hi : Int} {k : Node} (h1 : lo ≤ k.start) (h2 : k.start < k.stop) (h3 : k.stop ≤ hi) :
    XTiles lo hi [k] := ⟨by simp [h1, h2, h3], by simp⟩

theorem XTiles.nil (lo hi : Int) : XTiles lo hi [] := ⟨by simp, by simp⟩

theorem XTiles.kidsOK {p : Span} {ks : List Node} (h : XTiles p.start p.stop ks) : KidsOK p (ks.map Node.span) := by
  refine ⟨?_, ?_⟩
  · intro c hc
    obtain ⟨k, hk, rfl⟩ := List.mem_map.1 hc
    have := h.inside k hk
    unfold Node.start Node.stop at this
    omega
  · rw [List.pairwise_map]
    refine h.ordered.imp_of_mem ?_
    intro a b ha hb hab
    have g1 := h.inside a ha
    have g2 := h.inside b hb
    unfold Node.start Node.stop at *
    omega

/-- Adding a node where it fits. -/
theorem add_fits {p : Span} {l r : List Node} {x : Node} (h : XTiles p.start p.stop (l ++ x :: r)) :
    Kids.add p (l ++ r) x = .ok (l ++ x :: r) := by
  have hx := h.inside x (by simp)
  have ho := h.ordered
  rw [List.pairwise_append, List.pairwise_cons] at ho
  have := Kids.add_absent (p := p) (l := l) (r := r) (x := x)
    ((h.sublist (by simp)).kidsOK) (by omega)
    (fun a ha => by have := ho.2.2 a ha x (by simp); have := h.inside a (by simp [ha]); omega)
    (fun b hb => by have := ho.2.1.1 b hb; omega)
  rcases this with ⟨_, e⟩ | ⟨n, _⟩
  · exact e
  · exact absurd h.kidsOK n

/-- Adding several, in order. -/
theorem addAll_tiles {p : Span} : ∀ {r l : List Node}, XTiles p.start p.stop (l ++ r) →
    Kids.addAll p l r = .ok (l ++ r)
  | [], l, _ => by rw [Kids.addAll, List.append_nil]
  | x :: r, l, h => by
    have h1 := add_fits (p := p) (l := l) (r := []) (x := x) (h.sublist (by simp))
    rw [List.append_nil] at h1
    rw [Kids.addAll, h1]
    dsimp only
    rw [addAll_tiles (l := l ++ [x]) (by simpa using h)]
    simp

end Pawpaw.Props
