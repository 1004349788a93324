import Verif.Model.XmlFind
import Verif.Spec.XmlFind
import Verif.Props.Xml
/-!
# C123: elements are found by local name, whatever their namespace
-/
namespace Pawpaw.Props
open Pawpaw XmlFind XmlFindSpec

mutual
/-- The object ElementTree has for an element. -/
def elOf : NElem → El
  | .mk i n l ks => .mk i (tagText n l) (elsOf ks)
/-- The same for children. -/
def elsOf : List NElem → List El
  | [] => []
  | k :: ks => elOf k :: elsOf ks
end

mutual
theorem iter_elOf : ∀ e : NElem, (elOf e).iter = elOf e :: e.under.map elOf
  | .mk i n l ks => by
    rw [elOf, El.iter, NElem.under, iterK_elsOf ks]
theorem iterK_elsOf : ∀ ks : List NElem, iterK (elsOf ks) = (underK ks).map elOf
  | [] => by rw [elsOf, iterK, underK]; rfl
  | k :: ks => by
    rw [elsOf, iterK, underK, iter_elOf k, iterK_elsOf ks]
    simp
end

mutual
/-- `under` lists what is below. -/
theorem mem_below : ∀ (e x : NElem), x ∈ e.under ↔ Below x e
  | .mk i n l ks, x => by
    rw [NElem.under, mem_underK ks x]
    constructor
    · rintro (h | ⟨k, hk, h⟩)
      · exact .child h
      · exact .deeper hk h
    · intro h
      cases h with
      | child h => exact .inl h
      | deeper hk h => exact .inr ⟨_, hk, h⟩
theorem mem_underK : ∀ (ks : List NElem) (x : NElem), x ∈ underK ks ↔ x ∈ ks ∨ ∃ k ∈ ks, Below x k
  | [], x => by simp [underK]
  | k :: ks, x => by
    rw [underK, List.cons_append, List.mem_cons, List.mem_append, mem_below k x, mem_underK ks x]
    simp only [List.mem_cons, exists_eq_or_imp]
    constructor
    · rintro (h | h | h | h)
      · exact .inl (.inl h)
      · exact .inr (.inl h)
      · exact .inl (.inr h)
      · exact .inr (.inr h)
    · rintro ((h | h) | h | h)
      · exact .inl h
      · exact .inr (.inr (.inl h))
      · exact .inr (.inl h)
      · exact .inr (.inr (.inr h))
end

theorem elOf_id (e : NElem) : (elOf e).id = e.id := by cases e; rw [elOf]; rfl
theorem elOf_tag (e : NElem) : (elOf e).tag = tagText e.ns e.loc := by cases e; rw [elOf]; rfl

/-- A name as ElementTree makes them: no `}` in either part (expat refuses a namespace with the character it separates the parts
with). -/
def NameOK (e : NElem) : Prop := '}' ∉ e.loc ∧ ∀ n, e.ns = some n → '}' ∉ n

theorem local_of {e : NElem} (h : NameOK e) : Xml.getLocalName (tagText e.ns e.loc) = e.loc := by
  obtain ⟨hl, hn⟩ := h
  cases hns : e.ns with
  | none => exact (C61_plain _ hl).2
  | some n => exact (C61_tag n e.loc (hn n hns)).2

/-- The elements found are those below with the local name, in any namespace or none, each once, in document order: never the element
itself. -/
theorem C123_find_all (e : NElem) (hid : ∀ x, Below x e → x.id ≠ e.id) (hok : ∀ x, Below x e → NameOK x) (name : List Char) :
    findAll (elOf e) name = (e.under.filter fun x => decide (x.loc = name)).map elOf ∧
    ∀ x, x ∈ e.under.filter (fun x => decide (x.loc = name)) ↔ Below x e ∧ x.loc = name := by
  refine ⟨?_, fun x => by rw [List.mem_filter, mem_below, decide_eq_true_eq]⟩
  have h1 : findallBelow (elOf e) = e.under.map elOf := by
    unfold findallBelow
    rw [iter_elOf, List.filter_cons_of_neg (by simp)]
    apply List.filter_eq_self.2
    intro y hy
    obtain ⟨x, hx, rfl⟩ := List.mem_map.1 hy
    rw [elOf_id, elOf_id]
    exact decide_eq_true (hid x ((mem_below e x).1 hx))
  unfold findAll
  rw [h1, List.filter_map]
  congr 1
  apply List.filter_congr
  intro x hx
  show decide (name = Xml.getLocalName (elOf x).tag) = _
  rw [elOf_tag, local_of (hok x ((mem_below e x).1 hx))]
  exact decide_eq_decide.2 eq_comm

/-- The one found is the first of them; none if there is none. -/
theorem C123_find (e : NElem) (hid : ∀ x, Below x e → x.id ≠ e.id) (hok : ∀ x, Below x e → NameOK x) (name : List Char) :
    (∀ y, find (elOf e) name = some y ↔ ∃ before x after, e.under = before ++ x :: after ∧ (∀ b ∈ before, b.loc ≠ name) ∧
      x.loc = name ∧ y = elOf x) ∧
    (find (elOf e) name = none ↔ ∀ x, Below x e → x.loc ≠ name) := by
  have h := (C123_find_all e hid hok name).1
  have hf : find (elOf e) name = (e.under.find? fun x => decide (x.loc = name)).map elOf := by
    unfold find
    rw [h, List.head?_map, List.head?_filter]
  rw [hf]
  constructor
  · intro y
    rw [Option.map_eq_some_iff]
    constructor
    · rintro ⟨x, hx, rfl⟩
      obtain ⟨hp, as, bs, hb, hn⟩ := List.find?_eq_some_iff_append.1 hx
      exact ⟨as, x, bs, hb, fun b hm => by simpa using hn b hm, by simpa using hp, rfl⟩
    · rintro ⟨as, x, bs, hb, hn, hx, rfl⟩
      exact ⟨x, List.find?_eq_some_iff_append.2 ⟨by simpa using hx, as, bs, hb, fun b hm => by simpa using hn b hm⟩, rfl⟩
  · rw [Option.map_eq_none_iff, List.find?_eq_none]
    constructor
    · intro h x hx
      simpa using h x ((mem_below e x).2 hx)
    · intro h x hx
      simpa using h x ((mem_below e x).1 hx)

/-! Non-vacuity: `<a><p:b xmlns:p="u"><a/></p:b><b/></a>`. -/

/-- The element. -/
def demoElem : NElem := .mk 0 none ['a'] [.mk 1 (some ['u']) ['b'] [.mk 2 none ['a'] []], .mk 3 none ['b'] []]

theorem demoElem_below (x : NElem) (h : Below x demoElem) :
    x = .mk 1 (some ['u']) ['b'] [.mk 2 none ['a'] []] ∨ x = .mk 2 none ['a'] [] ∨ x = .mk 3 none ['b'] [] := by
  have := (mem_below _ _).2 h
  simpa [demoElem, NElem.under, underK] using this

example : (∀ x, Below x demoElem → x.id ≠ demoElem.id) ∧ (∀ x, Below x demoElem → NameOK x) ∧
    (findAll (elOf demoElem) ['b']).map El.id = [1, 3] ∧ (find (elOf demoElem) ['a']).map El.id = some 2 := by
  refine ⟨fun x h => ?_, fun x h => ?_, by decide, by decide⟩
  · rcases demoElem_below x h with rfl | rfl | rfl <;> decide
  · rcases demoElem_below x h with rfl | rfl | rfl
    · exact ⟨by decide, fun n hn => by cases hn; decide⟩
    · exact ⟨by decide, fun n hn => by cases hn⟩
    · exact ⟨by decide, fun n hn => by cases hn⟩

end Pawpaw.Props
