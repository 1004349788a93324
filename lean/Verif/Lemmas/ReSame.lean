import Verif.Spec.Patterns
/-!
# Expressions that match in the same ways

`Same` is a congruence, sequences may be regrouped.
-/
namespace Pawpaw
namespace ReSyntax
open Regex

namespace Same
theorem refl (r : Re) : Same r r := fun _ => rfl
theorem symm {r r' : Re} (h : Same r r') : Same r' r := fun st => (h st).symm
theorem trans {r r' r'' : Re} (h : Same r r') (h' : Same r' r'') : Same r r'' := fun st => (h st).trans (h' st)
theorem eq {r r' : Re} (h : Same r r') : out r = out r' := funext h
theorem of_eq {r r' : Re} (h : r = r') : Same r r' := h ▸ refl r

theorem seq {a a' b b' : Re} (ha : Same a a') (hb : Same b b') : Same (.seq a b) (.seq a' b') := by
  intro st; simp only [out, ha st, hb.eq]
theorem alt {a a' b b' : Re} (ha : Same a a') (hb : Same b b') : Same (.alt a b) (.alt a' b') := by
  intro st; simp only [out, ha st, hb st]
theorem star {g : Bool} {a a' : Re} (ha : Same a a') : Same (.star g a) (.star g a') := by
  intro st; simp only [out, ha.eq]
theorem grp {n : String} {a a' : Re} (ha : Same a a') : Same (.grp n a) (.grp n a') := by
  intro st; simp only [out, ha st]
theorem look {a a' : Re} (ha : Same a a') : Same (.look a) (.look a') := by
  intro st; simp only [out, ha st]
theorem dep {a a' : Re} {f f' : List Char → Re} (ha : Same a a') (hf : ∀ t, Same (f t) (f' t)) :
    Same (.dep a f) (.dep a' f') := by
  intro st; simp only [out, ha st]; congr 1; funext st'; exact hf _ st'
theorem chr {p q : Char → Bool} (h : ∀ c, p c = q c) : Same (.chr p) (.chr q) := of_eq (by rw [funext h])
theorem test {p q : Nat → List Char → Bool} (h : ∀ i l, p i l = q i l) : Same (.test p) (.test q) :=
  of_eq (by rw [show p = q from funext fun i => funext fun l => h i l])
theorem ahead {a a' : Re} (ha : Same a a') : Same (NlpRe.ahead a) (NlpRe.ahead a') :=
  test fun i l => by rw [ha]
theorem behind {text : List Char} {lo : Nat} {a a' : Re} (ha : Same a a') :
    Same (NlpRe.behind text lo a) (NlpRe.behind text lo a') := test fun i l => by simp only [NlpRe.endsHere, ha.eq]
theorem notBehind {text : List Char} {lo : Nat} {a a' : Re} (ha : Same a a') :
    Same (NlpRe.notBehind text lo a) (NlpRe.notBehind text lo a') := test fun i l => by simp only [NlpRe.endsHere, ha.eq]

theorem assoc (a b c : Re) : Same (.seq (.seq a b) c) (.seq a (.seq b c)) := by
  intro st
  simp only [out]
  rw [List.flatMap_assoc]
theorem eps_seq (a : Re) : Same (.seq .eps a) a := by intro st; simp [out]
theorem seq_eps (a : Re) : Same (.seq a .eps) a := by
  intro st
  have : out .eps = fun st => [st] := by funext st; simp [out]
  simp [out, this]
end Same

/-- One sequence after another. -/
def app : Re → Re → Re
  | .eps, r => r
  | .seq a b, r => app a (app b r)
  | a, .eps => a
  | a, r => .seq a r

/-- Sequences regrouped to the right, without empty parts. -/
def flat : Re → Re
  | .seq a b => app (flat a) (flat b)
  | .alt a b => .alt (flat a) (flat b)
  | .star g a => .star g (flat a)
  | .grp n a => .grp n (flat a)
  | .look a => .look (flat a)
  | .dep a f => .dep (flat a) (fun t => flat (f t))
  | r => r

theorem same_app (a r : Re) : Same (app a r) (.seq a r) := by
  induction a generalizing r with
  | eps => exact (Same.eps_seq r).symm
  | seq a b iha ihb => exact (iha _).trans (((Same.refl a).seq (ihb r)).trans (Same.assoc a b r).symm)
  | _ =>
    cases r
    case eps => exact (Same.seq_eps _).symm
    all_goals exact Same.refl _

theorem same_flat (r : Re) : Same (flat r) r := by
  induction r with
  | seq a b iha ihb => exact (same_app _ _).trans (iha.seq ihb)
  | alt a b iha ihb => exact iha.alt ihb
  | star g a ih => exact ih.star
  | grp n a ih => exact ih.grp
  | look a ih => exact ih.look
  | dep a f iha ihf => exact iha.dep ihf
  | _ => exact Same.refl _

theorem same_of_flat {r r' : Re} (h : flat r = flat r') : Same r r' :=
  (same_flat r).symm.trans (h ▸ same_flat r')

theorem denotes_of {E : Env} {v : Bool} {text : List Char} {s : Syn} {r : Re} (hr : read v text = some s)
    (hs : Same (denote E [] s) r) : Denotes E v text r := ⟨_, by rw [compile, hr]; rfl, hs⟩

end ReSyntax
end Pawpaw
