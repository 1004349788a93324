import Verif.Model.Ontology
/-!
# C59, C63, C70: ontologies
-/
set_option linter.unusedSectionVars false
namespace Pawpaw.Props
open Pawpaw Pawpaw.Ontology
variable {κ τ : Type} [DecidableEq κ]

/-! ### Specification: looking up a path -/

/-- The value of a key. -/
def lookup {ν : Type} (k : κ) : List (κ × ν) → Option ν
  | [] => none
  | (k', v) :: d => if k' = k then some v else lookup k d

/-- The discoveries at a path of keys. -/
def discAt : Disc κ τ → List κ → Option (Disc κ τ)
  | d, [] => some d
  | d, k :: p => (lookup k d.kids).bind (fun d' => discAt d' p)

/-- The ontology at a path of keys. -/
def ontoAt : Onto κ τ → List κ → Option (Onto κ τ)
  | o, [] => some o
  | o, k :: p => (lookup k o.kids).bind (fun o' => ontoAt o' p)

/-- At every level the keys are different, as they are in a dict. -/
inductive DiscOK : Disc κ τ → Prop
  | mk {is : List τ} {ks : List (κ × Disc κ τ)} (h : (ks.map Prod.fst).Nodup) (h' : ∀ e ∈ ks, DiscOK e.2) :
      DiscOK (.mk is ks)

/-- At every level the keys are different, as they are in a dict. -/
inductive OntoOK : Onto κ τ → Prop
  | mk {rs : List (τ → List τ)} {ks : List (κ × Onto κ τ)} (h : (ks.map Prod.fst).Nodup)
      (h' : ∀ e ∈ ks, OntoOK e.2) : OntoOK (.mk rs ks)

/-! ### Dicts -/

theorem dictSet_new {κ' ν : Type} [DecidableEq κ'] (k : κ') (v : ν) (d : List (κ' × ν))
    (h : k ∉ d.map Prod.fst) : dictSet k v d = d ++ [(k, v)] := by
  induction d with
  | nil => rfl
  | cons e d ih =>
    obtain ⟨k', v'⟩ := e
    simp only [List.map_cons, List.mem_cons, not_or] at h
    rw [dictSet, if_neg (fun e => h.1 e.symm), ih h.2]
    rfl

theorem dictUpdate_new {κ' ν : Type} [DecidableEq κ'] (e d : List (κ' × ν))
    (hn : (e.map Prod.fst).Nodup) (hd : ∀ k ∈ e.map Prod.fst, k ∉ d.map Prod.fst) :
    dictUpdate d e = d ++ e := by
  unfold dictUpdate
  induction e generalizing d with
  | nil => simp
  | cons kv e ih =>
    rw [List.map_cons, List.nodup_cons] at hn
    rw [List.foldl_cons, dictSet_new _ _ _ (hd kv.1 (by simp)), ih _ hn.2]
    · simp
    · intro k hk
      rw [List.map_append, List.mem_append]
      rintro (h | h)
      · exact hd k (by simp only [List.map_cons, List.mem_cons]; exact Or.inr hk) h
      · simp only [List.map_cons, List.map_nil, List.mem_singleton] at h
        subst h
        exact hn.1 hk

theorem lookup_iff {ν : Type} {d : List (κ × ν)} (hn : (d.map Prod.fst).Nodup) (k : κ) (v : ν) :
    lookup k d = some v ↔ (k, v) ∈ d := by
  induction d with
  | nil => simp [lookup]
  | cons e d ih =>
    obtain ⟨k', v'⟩ := e
    rw [List.map_cons, List.nodup_cons] at hn
    rw [lookup]
    by_cases he : k' = k
    · subst he
      rw [if_pos rfl]
      constructor
      · intro h; rw [Option.some.injEq] at h; rw [h]; exact List.mem_cons_self
      · intro h
        rcases List.mem_cons.1 h with h | h
        · rw [Prod.mk.injEq] at h; rw [h.2]
        · exact absurd (List.mem_map.2 ⟨_, h, rfl⟩) hn.1
    · rw [if_neg he, ih hn.2]
      constructor
      · exact List.mem_cons_of_mem _
      · intro h
        rcases List.mem_cons.1 h with h | h
        · rw [Prod.mk.injEq] at h; exact absurd h.1.symm he
        · exact h

/-! ### C59: `flatten` and `walk` -/

mutual
/-- All entries, without the effects of the dict. -/
def entries (f : Bool) (path : List κ) : Disc κ τ → List (List κ × List τ)
  | .mk is ks => (if is.length = 0 ∧ f then [] else [(path, is)]) ++ entriesKids f path ks
/-- All entries below. -/
def entriesKids (f : Bool) (path : List κ) : List (κ × Disc κ τ) → List (List κ × List τ)
  | [] => []
  | (k, d) :: ks => entries f (path ++ [k]) d ++ entriesKids f path ks
end

mutual
theorem mem_entries (f : Bool) : ∀ (d : Disc κ τ) (path p : List κ) (is : List τ), DiscOK d →
    ((p, is) ∈ entries f path d ↔
      ∃ q d', p = path ++ q ∧ discAt d q = some d' ∧ d'.itos = is ∧ (f = true → is ≠ []))
  | .mk js ks, path, p, is, hd => by
    have hn : (ks.map Prod.fst).Nodup := by cases hd; assumption
    have hk : ∀ e ∈ ks, DiscOK e.2 := by cases hd; assumption
    rw [entries, List.mem_append, mem_entriesKids f ks path p is hk]
    constructor
    · rintro (h | ⟨k, d, q, d', h1, h2, h3, h4, h5⟩)
      · refine ⟨[], .mk js ks, ?_⟩
        by_cases he : js.length = 0 ∧ f = true
        · rw [if_pos he] at h; simp at h
        · rw [if_neg he, List.mem_singleton, Prod.mk.injEq] at h
          obtain ⟨rfl, rfl⟩ := h
          refine ⟨by simp, rfl, rfl, ?_⟩
          intro hf hz
          exact he ⟨by rw [hz]; rfl, hf⟩
      · refine ⟨k :: q, d', h2, ?_, h4, h5⟩
        rw [discAt, show (Disc.mk js ks).kids = ks from rfl, (lookup_iff hn k d).2 h1]
        exact h3
    · rintro ⟨q, d', h1, h2, h3, h4⟩
      cases q with
      | nil =>
        left
        simp only [discAt, Option.some.injEq] at h2
        subst h2
        simp only [Disc.itos] at h3
        subst h3
        rw [if_neg, List.mem_singleton, Prod.mk.injEq]
        · exact ⟨by simpa using h1, rfl⟩
        · rintro ⟨hz, hf⟩
          exact h4 hf (List.length_eq_zero_iff.1 hz)
      | cons k q =>
        right
        rw [discAt, show (Disc.mk js ks).kids = ks from rfl] at h2
        cases hl : lookup k ks with
        | none => rw [hl] at h2; simp at h2
        | some d =>
          rw [hl] at h2
          exact ⟨k, d, q, d', (lookup_iff hn k d).1 hl, h1, h2, h3, h4⟩
theorem mem_entriesKids (f : Bool) : ∀ (ks : List (κ × Disc κ τ)) (path p : List κ) (is : List τ),
    (∀ e ∈ ks, DiscOK e.2) →
    ((p, is) ∈ entriesKids f path ks ↔
      ∃ k d q d', (k, d) ∈ ks ∧ p = path ++ k :: q ∧ discAt d q = some d' ∧ d'.itos = is ∧
        (f = true → is ≠ []))
  | [], path, p, is, _ => by simp [entriesKids]
  | (k, d) :: ks, path, p, is, hk => by
    rw [entriesKids, List.mem_append, mem_entries f d (path ++ [k]) p is (hk (k, d) List.mem_cons_self),
      mem_entriesKids f ks path p is (fun e he => hk e (List.mem_cons_of_mem _ he))]
    constructor
    · rintro (⟨q, d', h1, h2⟩ | ⟨k', d1, q, d', h1, h2⟩)
      · exact ⟨k, d, q, d', List.mem_cons_self, by rw [h1]; simp, h2⟩
      · exact ⟨k', d1, q, d', List.mem_cons_of_mem _ h1, h2⟩
    · rintro ⟨k', d1, q, d', h1, h2, h3⟩
      rcases List.mem_cons.1 h1 with h1 | h1
      · rw [Prod.mk.injEq] at h1
        obtain ⟨rfl, rfl⟩ := h1
        left
        exact ⟨q, d', by rw [h2]; simp, h3⟩
      · right
        exact ⟨k', d1, q, d', h1, h2, h3⟩
end

theorem key_entries {f : Bool} {d : Disc κ τ} {path p : List κ} (hd : DiscOK d)
    (h : p ∈ (entries f path d).map Prod.fst) : ∃ q, p = path ++ q := by
  obtain ⟨⟨p', is⟩, h1, rfl⟩ := List.mem_map.1 h
  obtain ⟨q, d', h2, _⟩ := (mem_entries f d path p' is hd).1 h1
  exact ⟨q, h2⟩

theorem key_entriesKids {f : Bool} {ks : List (κ × Disc κ τ)} {path p : List κ}
    (hk : ∀ e ∈ ks, DiscOK e.2) (h : p ∈ (entriesKids f path ks).map Prod.fst) :
    ∃ k ∈ ks.map Prod.fst, ∃ q, p = path ++ k :: q := by
  obtain ⟨⟨p', is⟩, h1, rfl⟩ := List.mem_map.1 h
  obtain ⟨k, d, q, d', h2, h3, _⟩ := (mem_entriesKids f ks path p' is hk).1 h1
  exact ⟨k, List.mem_map.2 ⟨_, h2, rfl⟩, q, h3⟩

mutual
theorem nodup_entries (f : Bool) : ∀ (d : Disc κ τ) (path : List κ), DiscOK d →
    ((entries f path d).map Prod.fst).Nodup
  | .mk js ks, path, hd => by
    have hn : (ks.map Prod.fst).Nodup := by cases hd; assumption
    have hk : ∀ e ∈ ks, DiscOK e.2 := by cases hd; assumption
    rw [entries, List.map_append, List.nodup_append]
    refine ⟨by split <;> simp, nodup_entriesKids f ks path hn hk, ?_⟩
    intro a ha b hb he
    subst he
    obtain ⟨k, _, q, hq⟩ := key_entriesKids hk hb
    split at ha
    · simp at ha
    · simp only [List.map_cons, List.map_nil, List.mem_singleton] at ha
      rw [ha] at hq
      have := congrArg List.length hq
      simp at this
theorem nodup_entriesKids (f : Bool) : ∀ (ks : List (κ × Disc κ τ)) (path : List κ),
    (ks.map Prod.fst).Nodup → (∀ e ∈ ks, DiscOK e.2) → ((entriesKids f path ks).map Prod.fst).Nodup
  | [], path, _, _ => by simp [entriesKids]
  | (k, d) :: ks, path, hn, hk => by
    rw [List.map_cons, List.nodup_cons] at hn
    rw [entriesKids, List.map_append, List.nodup_append]
    refine ⟨nodup_entries f d _ (hk (k, d) List.mem_cons_self),
      nodup_entriesKids f ks path hn.2 (fun e he => hk e (List.mem_cons_of_mem _ he)), ?_⟩
    intro a ha b hb he
    subst he
    obtain ⟨q, hq⟩ := key_entries (hk (k, d) List.mem_cons_self) ha
    obtain ⟨k', hk', q', hq'⟩ := key_entriesKids (fun e he => hk e (List.mem_cons_of_mem _ he)) hb
    rw [hq] at hq'
    rw [List.append_assoc, List.append_cancel_left_eq, List.singleton_append, List.cons.injEq] at hq'
    rw [← hq'.1] at hk'
    exact hn.1 hk'
end

mutual
theorem flattenAt_eq (f : Bool) : ∀ (d : Disc κ τ) (path : List κ), DiscOK d →
    d.flattenAt f path = entries f path d
  | .mk js ks, path, hd => by
    have hn : (ks.map Prod.fst).Nodup := by cases hd; assumption
    have hk : ∀ e ∈ ks, DiscOK e.2 := by cases hd; assumption
    rw [Disc.flattenAt, entries, flattenKids_eq f ks path _ hn hk]
    intro p hp hq
    obtain ⟨k, _, q, h⟩ := key_entriesKids hk hq
    split at hp
    · simp at hp
    · simp only [List.map_cons, List.map_nil, List.mem_singleton] at hp
      rw [hp] at h
      have := congrArg List.length h
      simp at this
theorem flattenKids_eq (f : Bool) : ∀ (ks : List (κ × Disc κ τ)) (path : List κ)
    (rv : List (List κ × List τ)), (ks.map Prod.fst).Nodup → (∀ e ∈ ks, DiscOK e.2) →
    (∀ p ∈ rv.map Prod.fst, p ∉ (entriesKids f path ks).map Prod.fst) →
    Disc.flattenKids f path rv ks = rv ++ entriesKids f path ks
  | [], path, rv, _, _, _ => by simp [Disc.flattenKids, entriesKids]
  | (k, d) :: ks, path, rv, hn, hk, hr => by
    have hn' := hn
    have hall := nodup_entriesKids f ((k, d) :: ks) path hn hk
    rw [List.map_cons, List.nodup_cons] at hn
    have hd := hk (k, d) List.mem_cons_self
    rw [entriesKids] at hr hall
    rw [Disc.flattenKids, flattenAt_eq f d _ hd, dictUpdate_new _ _ (nodup_entries f d _ hd),
      flattenKids_eq f ks path _ hn.2 (fun e he => hk e (List.mem_cons_of_mem _ he)), entriesKids,
      List.append_assoc]
    · intro p hp hq
      rw [List.map_append, List.nodup_append] at hall
      rw [List.map_append, List.mem_append] at hp
      rcases hp with hp | hp
      · exact hr p hp (by rw [List.map_append, List.mem_append]; exact Or.inr hq)
      · exact hall.2.2 p hp p hq rfl
    · intro p hp hq
      exact hr p hq (by rw [List.map_append, List.mem_append]; exact Or.inl hp)
end

/-- **C59.** `flatten` maps every path at which there are discoveries, exactly once, to the Itos found
there; paths without Itos are left out or not, as asked. -/
theorem C59_flatten (d : Disc κ τ) (hd : DiscOK d) (filterEmpties : Bool) :
    ((d.flatten filterEmpties).map Prod.fst).Nodup ∧
    ∀ p is, (p, is) ∈ d.flatten filterEmpties ↔
      (∃ d', discAt d p = some d' ∧ d'.itos = is) ∧ (filterEmpties = true → is ≠ []) := by
  unfold Disc.flatten
  rw [flattenAt_eq _ d [] hd]
  refine ⟨nodup_entries _ d [] hd, ?_⟩
  intro p is
  rw [mem_entries _ d [] p is hd]
  constructor
  · rintro ⟨q, d', h1, h2, h3, h4⟩
    rw [List.nil_append] at h1
    subst h1
    exact ⟨⟨d', h2, h3⟩, h4⟩
  · rintro ⟨⟨d', h2, h3⟩, h4⟩
    exact ⟨p, d', rfl, h2, h3, h4⟩

mutual
theorem walk_entries (f : Bool) : ∀ (d : Disc κ τ) (path : List κ),
    d.walk = (entries f path d).flatMap Prod.snd
  | .mk js ks, path => by
    rw [Disc.walk, entries, List.flatMap_append, walkKids_entries f ks path]
    congr 1
    by_cases he : js.length = 0 ∧ f = true
    · rw [if_pos he, List.length_eq_zero_iff.1 he.1]; rfl
    · rw [if_neg he]; simp
theorem walkKids_entries (f : Bool) : ∀ (ks : List (κ × Disc κ τ)) (path : List κ),
    Disc.walkKids ks = (entriesKids f path ks).flatMap Prod.snd
  | [], _ => rfl
  | (k, d) :: ks, path => by
    rw [Disc.walkKids, entriesKids, List.flatMap_append, ← walk_entries f d (path ++ [k]),
      ← walkKids_entries f ks path]
end

/-- **C59.** `walk` yields exactly the Itos of `flatten`, entry by entry: with `C59_flatten`, the Itos of
every path once. -/
theorem C59_walk (d : Disc κ τ) (hd : DiscOK d) (filterEmpties : Bool) :
    d.walk = (d.flatten filterEmpties).flatMap Prod.snd := by
  unfold Disc.flatten
  rw [flattenAt_eq _ d [] hd]
  exact walk_entries _ d []

/-! ### C59: `discover` -/

theorem discoverKids_eq (itos : List τ) : ∀ (ks : List (κ × Onto κ τ)) (rv : List (κ × Disc κ τ)),
    (ks.map Prod.fst).Nodup → (∀ k ∈ rv.map Prod.fst, k ∉ ks.map Prod.fst) →
    Onto.discoverKids itos rv ks = rv ++ ks.map (fun e => (e.1, e.2.discover itos))
  | [], rv, _, _ => by simp [Onto.discoverKids]
  | (k, o) :: ks, rv, hn, hr => by
    rw [List.map_cons, List.nodup_cons] at hn
    rw [Onto.discoverKids, dictSet_new, discoverKids_eq itos ks _ hn.2]
    · simp
    · intro k' hk'
      rw [List.map_append, List.mem_append] at hk'
      rcases hk' with h | h
      · exact fun h' => hr k' h (List.mem_cons_of_mem _ h')
      · simp only [List.map_cons, List.map_nil, List.mem_singleton] at h
        rw [h]; exact hn.1
    · intro h
      exact hr k h List.mem_cons_self

theorem lookup_map {ν ν' : Type} (g : ν → ν') (k : κ) (d : List (κ × ν)) :
    lookup k (d.map (fun e => (e.1, g e.2))) = (lookup k d).map g := by
  induction d with
  | nil => rfl
  | cons e d ih =>
    obtain ⟨k', v⟩ := e
    rw [List.map_cons, lookup, lookup]
    by_cases h : k' = k
    · rw [if_pos h, if_pos h]; rfl
    · rw [if_neg h, if_neg h, ih]

theorem discover_kids (itos : List τ) (o : Onto κ τ) (h : OntoOK o) :
    (o.discover itos).kids = o.kids.map (fun e => (e.1, e.2.discover itos)) := by
  cases h with
  | mk hn hk =>
    rw [Onto.discover]
    show Onto.discoverKids itos [] _ = _
    rw [discoverKids_eq itos _ _ hn (by simp)]
    rfl

theorem OntoOK.kid {o o' : Onto κ τ} {k : κ} (h : OntoOK o) (hl : lookup k o.kids = some o') : OntoOK o' := by
  cases h with
  | mk hn hk => exact hk (k, o') ((lookup_iff hn k o').1 hl)

/-- **C59.** For every ontology and Itos, `discover` gives discoveries at exactly the paths of the
ontology; at each path the Itos are those of the rules there: for every rule, in order, for every given
Ito, in order, what the rule gives on it. -/
theorem C59_discover (itos : List τ) : ∀ (p : List κ) (o : Onto κ τ), OntoOK o →
    (discAt (o.discover itos) p).map Disc.itos =
      (ontoAt o p).map (fun o' => o'.rules.flatMap (fun rule => itos.flatMap rule))
  | [], .mk rs ks, _ => by
    simp only [discAt, ontoAt, Option.map_some]
    rw [Onto.discover]; rfl
  | k :: p, o, h => by
    rw [discAt, ontoAt, discover_kids itos o h, lookup_map]
    cases hl : lookup k o.kids with
    | none => rfl
    | some o' =>
      simp only [Option.map_some, Option.bind_some]
      exact C59_discover itos p o' (h.kid hl)

mutual
/-- **C59.** What `discover` gives has different keys at every level. -/
theorem C59_discover_ok (itos : List τ) : ∀ (o : Onto κ τ), OntoOK o → DiscOK (o.discover itos)
  | .mk rs ks, h => by
    have hn : (ks.map Prod.fst).Nodup := by cases h; assumption
    have hk : ∀ e ∈ ks, OntoOK e.2 := by cases h; assumption
    rw [Onto.discover, discoverKids_eq itos ks [] hn (by simp), List.nil_append]
    refine .mk ?_ ?_
    · rw [List.map_map]; exact hn
    · intro e he
      obtain ⟨e', he', rfl⟩ := List.mem_map.1 he
      exact discoverKids_ok itos ks hk e' he'
theorem discoverKids_ok (itos : List τ) : ∀ (ks : List (κ × Onto κ τ)), (∀ e ∈ ks, OntoOK e.2) →
    ∀ e ∈ ks, DiscOK (e.2.discover itos)
  | [], _ => by simp
  | (k, o) :: ks, hk => by
    intro e he
    rcases List.mem_cons.1 he with rfl | he
    · exact C59_discover_ok itos o (hk _ List.mem_cons_self)
    · exact discoverKids_ok itos ks (fun e he => hk e (List.mem_cons_of_mem _ he)) e he
end

section Examples
private def exOnto : Onto Nat Nat :=
  .mk [fun x => [x, x + 1]] [(1, .mk [] [(2, .mk [fun x => [10 * x], fun x => [100 * x]] [])]), (3, .mk [] [])]
example : (exOnto.discover [5, 6]).flatten = [([], [5, 6, 6, 7]), ([1, 2], [50, 60, 500, 600])] ∧
    (exOnto.discover [5, 6]).flatten false =
      [([], [5, 6, 6, 7]), ([1], []), ([1, 2], [50, 60, 500, 600]), ([3], [])] := by decide
example : OntoOK exOnto := by
  refine .mk (by decide) ?_
  intro e he
  simp only [List.mem_cons, List.not_mem_nil, or_false] at he
  rcases he with rfl | rfl
  · refine .mk (by decide) ?_
    intro e he
    rw [List.mem_singleton] at he
    subst he
    exact .mk (by decide) (by simp)
  · exact .mk (by decide) (by simp)
end Examples

/-! ### C70: subscripting an ontology by a path -/

/-- **C70.** For every ontology and sequence of keys: `ontology[(k1, …, kn)]` is the ontology reached by the
keys one after the other, and `KeyError` if there is none (or no key). -/
theorem C70_path : ∀ (p : List κ) (o : Onto κ τ),
    o.getPath p = match ontoAt o p with
      | some o' => if p = [] then .error .keyError else .ok o'
      | none => .error .keyError
  | [], o => rfl
  | [k], o => by
    rw [Onto.getPath, Onto.getAtom, ontoAt]
    have : (o.kids.find? (fun e => e.1 = k)).map Prod.snd = lookup k o.kids := by
      induction o.kids with
      | nil => rfl
      | cons e d ih =>
        obtain ⟨k', v⟩ := e
        rw [lookup, List.find?_cons]
        by_cases h : k' = k
        · simp [h]
        · rw [if_neg h, ← ih]; simp [h]
    rw [← this]
    cases o.kids.find? (fun e => e.1 = k) <;> simp [ontoAt]
  | k :: k' :: p, o => by
    rw [Onto.getPath, Onto.getAtom, ontoAt]
    have : (o.kids.find? (fun e => e.1 = k)).map Prod.snd = lookup k o.kids := by
      induction o.kids with
      | nil => rfl
      | cons e d ih =>
        obtain ⟨k', v⟩ := e
        rw [lookup, List.find?_cons]
        by_cases h : k' = k
        · simp [h]
        · rw [if_neg h, ← ih]; simp [h]
    rw [← this]
    cases o.kids.find? (fun e => e.1 = k) with
    | none => rfl
    | some e =>
      simp only [Option.map_some, Option.bind_some]
      rw [C70_path (k' :: p) e.2]
      cases ontoAt e.2 (k' :: p) <;> simp

example : (match exOnto.getPath [1, 2] with | .ok o => o.rules.length | .error _ => 99) = 2 ∧
    (match exOnto.getPath [1, 5] with | .ok _ => false | .error e => decide (e = .keyError)) = true := by decide

/-! ### C63: the ontology query's operators -/

/-- Levels of the grammar. -/
inductive Lvl where
  | atom | factor | product | sum

/-- Expressions as token sequences with their postfix form, `!` and quantifiers binding tighter than `&`,
and `&` tighter than `|` and `^`; binary operators group to the left. -/
inductive Parses {τ : Type} : Lvl → List (Token τ) → List (Out τ) → Prop
  | entity (a : τ) : Parses .atom [.entity a] [.entity a]
  | paren {cs r} : Parses .sum cs r → Parses .atom [.query cs] r
  | plain {ts r} : Parses .atom ts r → Parses .factor ts r
  | neg {ts r} : Parses .atom ts r → Parses .factor (.op .not :: ts) (r ++ [.op .not])
  | quant {ts r} : Parses .atom ts r → Parses .factor (ts ++ [.op .quantifier]) (r ++ [.op .quantifier])
  | prod1 {ts r} : Parses .factor ts r → Parses .product ts r
  | and {ts r ts' r'} : Parses .product ts r → Parses .factor ts' r' →
      Parses .product (ts ++ .op .and :: ts') (r ++ r' ++ [.op .and])
  | sum1 {ts r} : Parses .product ts r → Parses .sum ts r
  | or {o ts r ts' r'} : o = .or ∨ o = .xor → Parses .sum ts r → Parses .product ts' r' →
      Parses .sum (ts ++ .op o :: ts') (r ++ r' ++ [.op o])

/-- The same grammar, with a restriction: what follows a `|` or `^` is one factor, or `a & f` with an
entity or a parenthesised `a` and a factor `f`. -/
inductive Safe {τ : Type} : Lvl → List (Token τ) → List (Out τ) → Prop
  | entity (a : τ) : Safe .atom [.entity a] [.entity a]
  | paren {cs r} : Safe .sum cs r → Safe .atom [.query cs] r
  | plain {ts r} : Safe .atom ts r → Safe .factor ts r
  | neg {ts r} : Safe .atom ts r → Safe .factor (.op .not :: ts) (r ++ [.op .not])
  | quant {ts r} : Safe .atom ts r → Safe .factor (ts ++ [.op .quantifier]) (r ++ [.op .quantifier])
  | prod1 {ts r} : Safe .factor ts r → Safe .product ts r
  | and {ts r ts' r'} : Safe .product ts r → Safe .factor ts' r' →
      Safe .product (ts ++ .op .and :: ts') (r ++ r' ++ [.op .and])
  | sum1 {ts r} : Safe .product ts r → Safe .sum ts r
  | or1 {o ts r ts' r'} : o = .or ∨ o = .xor → Safe .sum ts r → Safe .factor ts' r' →
      Safe .sum (ts ++ .op o :: ts') (r ++ r' ++ [.op o])
  | or2 {o ts r ta ra tf rf} : o = .or ∨ o = .xor → Safe .sum ts r → Safe .atom ta ra → Safe .factor tf rf →
      Safe .sum (ts ++ .op o :: (ta ++ .op .and :: tf)) (r ++ (ra ++ rf ++ [.op .and]) ++ [.op o])

theorem Safe.parses {τ : Type} {l : Lvl} {ts : List (Token τ)} {r : List (Out τ)} (h : Safe l ts r) :
    Parses l ts r := by
  induction h with
  | entity a => exact .entity a
  | paren _ ih => exact .paren ih
  | plain _ ih => exact .plain ih
  | neg _ ih => exact .neg ih
  | quant _ ih => exact .quant ih
  | prod1 _ ih => exact .prod1 ih
  | and _ _ i1 i2 => exact .and i1 i2
  | sum1 _ ih => exact .sum1 ih
  | or1 ho _ _ i1 i2 => exact .or ho i1 (.prod1 i2)
  | or2 ho _ _ _ i1 i2 i3 => exact .or ho i1 (.and (.prod1 (.plain i2)) i3)

/-- When the top's precedence is at least the token's, everything is popped. -/
theorem popLoop_all (k p : Nat) (h : k ≤ p) (st : List Op) : popLoop k (some p) st = (st, []) := by
  induction st with
  | nil => rfl
  | cons o st ih => rw [popLoop]; simp only [if_pos h, ih]

theorem popLoop_none (k : Nat) (st : List Op) (h : ∀ p, topPrec st = some p → p < k) :
    popLoop k (topPrec st) st = ([], st) := by
  cases st with
  | nil => rfl
  | cons o st =>
    have := h o.prec rfl
    rw [topPrec, popLoop]
    simp only
    rw [if_neg (by omega)]

/-- What holds of the algorithm at each level: an atom goes to the output; a factor leaves at most one
operator on the stack; a product or sum, from an empty stack, leaves the last operators of its postfix
form on the stack. -/
def Does {τ : Type} : Lvl → List (Token τ) → List (Out τ) → Prop
  | .atom, ts, r => ∀ q st rest, shuntingLoop q st (ts ++ rest) = shuntingLoop (q ++ r) st rest
  | .factor, ts, r => ∀ q st rest, (∀ p, topPrec st = some p → p < 2) →
      ∃ r1 st1, shuntingLoop q st (ts ++ rest) = shuntingLoop (q ++ r1) (st1 ++ st) rest ∧
        r = r1 ++ st1.map .op ∧ ∀ o ∈ st1, 2 ≤ o.prec
  | .product, ts, r => ∀ q rest,
      ∃ r1 st1, shuntingLoop q [] (ts ++ rest) = shuntingLoop (q ++ r1) st1 rest ∧
        r = r1 ++ st1.map .op ∧ ∀ o ∈ st1, 1 ≤ o.prec
  | .sum, ts, r => ∀ q rest,
      ∃ r1 st1, shuntingLoop q [] (ts ++ rest) = shuntingLoop (q ++ r1) st1 rest ∧
        r = r1 ++ st1.map .op

theorem loop_op {τ : Type} (q : List (Out τ)) (st : List Op) (o : Op) (ts : List (Token τ)) :
    shuntingLoop q st (.op o :: ts) =
      shuntingLoop (q ++ (popLoop o.prec (topPrec st) st).1.map .op)
        (o :: (popLoop o.prec (topPrec st) st).2) ts := by
  rw [shuntingLoop]

/-- An operator which binds no tighter than everything on the stack flushes it. -/
theorem loop_flush {τ : Type} (q : List (Out τ)) (st : List Op) (o : Op) (ts : List (Token τ))
    (h : ∀ o' ∈ st, o.prec ≤ o'.prec) :
    shuntingLoop q st (.op o :: ts) = shuntingLoop (q ++ st.map .op) [o] ts := by
  rw [loop_op]
  cases st with
  | nil => rfl
  | cons o' st =>
    rw [topPrec, popLoop_all _ _ (h o' List.mem_cons_self)]

theorem loop_push {τ : Type} (q : List (Out τ)) (st : List Op) (o : Op) (ts : List (Token τ))
    (h : ∀ p, topPrec st = some p → p < o.prec) :
    shuntingLoop q st (.op o :: ts) = shuntingLoop q (o :: st) ts := by
  rw [loop_op, popLoop_none _ _ h]
  simp

theorem Safe.does {τ : Type} {l : Lvl} {ts : List (Token τ)} {r : List (Out τ)} (h : Safe l ts r) :
    Does l ts r := by
  induction h with
  | entity a =>
    intro q st rest
    rw [List.singleton_append, shuntingLoop]
  | paren _ ih =>
    intro q st rest
    rw [List.singleton_append, shuntingLoop, shuntingYard]
    obtain ⟨r1, st1, h1, h2⟩ := ih [] []
    rw [List.append_nil, List.nil_append] at h1
    rw [h1, shuntingLoop, ← h2]
  | plain _ ih =>
    intro q st rest _
    exact ⟨_, [], ih q st rest, by simp, by simp⟩
  | neg _ ih =>
    intro q st rest h
    refine ⟨_, [.not], ?_, rfl, by simp [Op.prec]⟩
    rw [List.cons_append, loop_push _ _ _ _ h, ih]
    rfl
  | quant _ ih =>
    intro q st rest h
    refine ⟨_, [.quantifier], ?_, rfl, by simp [Op.prec]⟩
    rw [List.append_assoc, ih, List.singleton_append, loop_push _ _ _ _ h]
    rfl
  | prod1 _ ih =>
    intro q rest
    obtain ⟨r1, st1, h1, h2, h3⟩ := ih q [] rest (by simp [topPrec])
    rw [List.append_nil] at h1
    exact ⟨r1, st1, h1, h2, fun o ho => by have := h3 o ho; omega⟩
  | @and ts r ts' r' _ _ i1 i2 =>
    intro q rest
    obtain ⟨r1, st1, h1, h2, h3⟩ := i1 q (.op .and :: (ts' ++ rest))
    rw [List.append_assoc, List.cons_append, h1,
      loop_flush _ _ Op.and _ (fun o ho => h3 o ho), List.append_assoc, ← h2]
    obtain ⟨r1', st1', g1, g2, g3⟩ := i2 (q ++ r) [.and] rest (by
      intro p hp; simp only [topPrec, Option.some.injEq] at hp; subst hp; decide)
    refine ⟨r ++ r1', st1' ++ [.and], ?_, ?_, ?_⟩
    · rw [g1, List.append_assoc]
    · rw [g2]; simp
    · intro o ho
      rcases List.mem_append.1 ho with ho | ho
      · have := g3 o ho; omega
      · rw [List.mem_singleton] at ho; subst ho; decide
  | sum1 _ ih =>
    intro q rest
    obtain ⟨r1, st1, h1, h2, _⟩ := ih q rest
    exact ⟨r1, st1, h1, h2⟩
  | @or1 o ts r ts' r' ho _ _ i1 i2 =>
    intro q rest
    have ho0 : o.prec = 0 := by rcases ho with rfl | rfl <;> rfl
    obtain ⟨r1, st1, h1, h2⟩ := i1 q (.op o :: (ts' ++ rest))
    rw [List.append_assoc, List.cons_append, h1,
      loop_flush _ _ _ _ (fun o' _ => by rw [ho0]; exact Nat.zero_le _), List.append_assoc, ← h2]
    obtain ⟨r1', st1', g1, g2, _⟩ := i2 (q ++ r) [o] rest (by
      intro p hp; simp only [topPrec, Option.some.injEq] at hp; omega)
    refine ⟨r ++ r1', st1' ++ [o], ?_, ?_⟩
    · rw [g1, List.append_assoc]
    · rw [g2]; simp
  | @or2 o ts r ta ra tf rf ho _ _ _ i1 i2 i3 =>
    intro q rest
    have ho0 : o.prec = 0 := by rcases ho with rfl | rfl <;> rfl
    obtain ⟨r1, st1, h1, h2⟩ := i1 q (.op o :: (ta ++ .op .and :: tf ++ rest))
    rw [List.append_assoc, List.cons_append, h1,
      loop_flush _ _ _ _ (fun o' _ => by rw [ho0]; exact Nat.zero_le _), List.append_assoc, ← h2]
    rw [List.append_assoc, i2, List.cons_append, loop_push _ _ _ _ (by
      intro p hp; simp only [topPrec, Option.some.injEq] at hp; rw [← hp, ho0]; decide)]
    obtain ⟨r1', st1', g1, g2, _⟩ := i3 (q ++ r ++ ra) [.and, o] rest (by
      intro p hp; simp only [topPrec, Option.some.injEq] at hp; subst hp; decide)
    refine ⟨r ++ ra ++ r1', st1' ++ [.and, o], ?_, ?_⟩
    · rw [g1]; simp
    · rw [g2]; simp

/-- **C63 (partial).** The shunting-yard gives the postfix form that precedence asks for, for expressions
of any length and depth of parentheses in which what follows a `|` or `^` is a factor or `a & f`.
Missing: the others, for which it is false in general (`C63_violated`). -/
theorem C63_precedence_partial {τ : Type} {ts : List (Token τ)} {r : List (Out τ)} (h : Safe .sum ts r) :
    Parses .sum ts r ∧ shuntingYard ts = r := by
  refine ⟨h.parses, ?_⟩
  obtain ⟨r1, st1, h1, h2⟩ := h.does [] []
  rw [List.append_nil, List.nil_append] at h1
  rw [shuntingYard, h1, shuntingLoop, h2]

/-- **C63 fails**: `a | b & c & d` is read as `(a | b & c) & d`, and `a | !b & c` as `(a | !b) & c`. -/
theorem C63_violated (a b c d : Nat) :
    (let ts := [.entity a, .op .or, .entity b, .op .and, .entity c, .op .and, .entity d]
     Parses .sum ts [.entity a, .entity b, .entity c, .op .and, .entity d, .op .and, .op .or] ∧
     shuntingYard ts = [.entity a, .entity b, .entity c, .op .and, .op .or, .entity d, .op .and]) ∧
    (let ts := [.entity a, .op .or, .op .not, .entity b, .op .and, .entity c]
     Parses .sum ts [.entity a, .entity b, .op .not, .entity c, .op .and, .op .or] ∧
     shuntingYard ts = [.entity a, .entity b, .op .not, .op .or, .entity c, .op .and]) := by
  have atom : ∀ x : Nat, Parses .product [.entity x] [.entity x] := fun x => .prod1 (.plain (.entity x))
  refine ⟨⟨?_, ?_⟩, ?_, ?_⟩
  · exact .or (ts' := [.entity b, .op .and, .entity c, .op .and, .entity d]) (Or.inl rfl) (.sum1 (atom a))
      (.and (.and (atom b) (.plain (.entity c))) (.plain (.entity d)))
  · simp [shuntingYard, shuntingLoop, popLoop, topPrec, Op.prec]
  · exact .or (ts' := [.op .not, .entity b, .op .and, .entity c]) (Or.inl rfl) (.sum1 (atom a))
      (.and (.prod1 (.neg (.entity b))) (.plain (.entity c)))
  · simp [shuntingYard, shuntingLoop, popLoop, topPrec, Op.prec]

/-- `!a & b & c | (d ^ e) & f* ^ g` -/
example : Safe .sum ([.op .not, .entity 1, .op .and, .entity 2, .op .and, .entity 3, .op .or,
    .query [.entity 4, .op .xor, .entity 5], .op .and, .entity 6, .op .quantifier, .op .xor, .entity 7] :
      List (Token Nat))
    [.entity 1, .op .not, .entity 2, .op .and, .entity 3, .op .and, .entity 4, .entity 5, .op .xor,
      .entity 6, .op .quantifier, .op .and, .op .or, .entity 7, .op .xor] :=
  .or1 (ts := [.op .not, .entity 1, .op .and, .entity 2, .op .and, .entity 3, .op .or,
      .query [.entity 4, .op .xor, .entity 5], .op .and, .entity 6, .op .quantifier])
    (r := [.entity 1, .op .not, .entity 2, .op .and, .entity 3, .op .and, .entity 4, .entity 5, .op .xor,
      .entity 6, .op .quantifier, .op .and, .op .or]) (Or.inr rfl)
    (.or2 (ts := [.op .not, .entity 1, .op .and, .entity 2, .op .and, .entity 3])
      (r := [.entity 1, .op .not, .entity 2, .op .and, .entity 3, .op .and])
      (ra := [.entity 4, .entity 5, .op .xor]) (rf := [.entity 6, .op .quantifier]) (Or.inl rfl)
      (.sum1 (.and (.and (.prod1 (.neg (.entity 1))) (.plain (.entity 2))) (.plain (.entity 3))))
      (.paren (.or1 (ts := [.entity 4]) (r := [.entity 4]) (Or.inr rfl)
        (.sum1 (.prod1 (.plain (.entity 4)))) (.plain (.entity 5))))
      (.quant (.entity 6)))
    (.plain (.entity 7))

end Pawpaw.Props
