import Verif.Spec.OntoQuery
import Verif.Model.OntoQuery
import Verif.Props.QueryText
import Verif.Props.Ontology
/-!
# C121: entities of ontology queries
-/
namespace Pawpaw.Props
open Pawpaw PyStr UtilSpec Util OntoQuery OntoQuerySpec

/-- `escape` puts a backslash before each special character and changes nothing else. -/
theorem C121_escape (s : List Char) : OntoQuery.escape s = writtenText s := by
  unfold OntoQuery.escape writtenText
  have hf : OntoQuery.mustEscape.filter (fun e => decide (e ≠ '\\')) = [']', '.'] := by decide
  rw [hf]
  simp only [List.foldl_cons, List.foldl_nil]
  induction s with
  | nil => rfl
  | cons d s ih =>
    simp only [replaceChar_cons, replaceChar_append, List.flatMap_cons, ih]
    congr 1
    unfold written
    by_cases h1 : d = '\\'
    · subst h1; decide
    by_cases h2 : d = ']'
    · subst h2; decide
    by_cases h3 : d = '.'
    · subst h3; decide
    simp [Query.replaceChar, Special, h1, h2, h3]

theorem descapeLoop_written (s rest rv : List Char) :
    OntoQuery.descapeLoop false rv (writtenText s ++ rest) = OntoQuery.descapeLoop false (rv ++ s) rest := by
  unfold writtenText
  induction s generalizing rv with
  | nil => simp
  | cons d s ih =>
    rw [List.flatMap_cons, List.append_assoc]
    have : OntoQuery.descapeLoop false rv (written d ++ (s.flatMap written ++ rest)) =
        OntoQuery.descapeLoop false (rv ++ [d]) (s.flatMap written ++ rest) := by
      unfold written
      split
      · simp [OntoQuery.descapeLoop]
      · rename_i h
        have : d ≠ '\\' := fun hd => h (Or.inl hd)
        simp [OntoQuery.descapeLoop, this]
    rw [this, ih]
    simp

theorem descapeLoop_means : ∀ (v rv : List Char), (∀ s, Means v s → OntoQuery.descapeLoop false rv v = .ok (rv ++ s)) ∧
    ((¬ ∃ s, Means v s) → OntoQuery.descapeLoop false rv v = .error .valueError)
  | [], rv => ⟨fun s hs => by cases hs; simp [OntoQuery.descapeLoop], fun h => absurd ⟨[], Means.nil⟩ h⟩
  | c :: v, rv => by
    by_cases hc : c = '\\'
    · subst hc
      cases v with
      | nil =>
        refine ⟨fun s hs => ?_, fun _ => by simp [OntoQuery.descapeLoop]⟩
        cases hs with
        | plain hc _ => exact absurd rfl hc
      | cons d v =>
        have ih := descapeLoop_means v (rv ++ [d])
        have e : OntoQuery.descapeLoop false rv ('\\' :: d :: v) = OntoQuery.descapeLoop false (rv ++ [d]) v := by
          simp [OntoQuery.descapeLoop]
        rw [e]
        refine ⟨fun s hs => ?_, fun h => ih.2 fun ⟨s, hs⟩ => h ⟨d :: s, .esc hs⟩⟩
        cases hs with
        | plain hc _ => exact absurd rfl hc
        | esc hs => rw [ih.1 _ hs, List.append_assoc]; rfl
    · have ih := descapeLoop_means v (rv ++ [c])
      have e : OntoQuery.descapeLoop false rv (c :: v) = OntoQuery.descapeLoop false (rv ++ [c]) v := by
        simp [OntoQuery.descapeLoop, hc]
      rw [e]
      refine ⟨fun s hs => ?_, fun h => ih.2 fun ⟨s, hs⟩ => h ⟨c :: s, .plain hc hs⟩⟩
      cases hs with
      | plain _ hs => rw [ih.1 _ hs, List.append_assoc]; rfl
      | esc => exact absurd rfl hc

/-- What `descape` gives for every text: what the text means, and `ValueError` if it means nothing, that is, if its last backslash
escapes nothing. -/
theorem C121_descape (v : List Char) : (∀ s, OntoQuery.descape v = .ok s ↔ Means v s) ∧
    ((¬ ∃ s, Means v s) ↔ OntoQuery.descape v = .error .valueError) := by
  have h := descapeLoop_means v []
  unfold OntoQuery.descape
  refine ⟨fun s => ⟨fun e => ?_, fun hs => by rw [h.1 s hs]; rfl⟩, ⟨h.2, ?_⟩⟩
  · by_cases hm : ∃ s, Means v s
    · obtain ⟨t, ht⟩ := hm
      rw [h.1 t ht] at e
      obtain rfl : t = s := by simpa using e
      exact ht
    · rw [h.2 hm] at e; cases e
  · rintro e ⟨s, hs⟩
    rw [h.1 s hs] at e; cases e

example : Means ['\\', 'a', '.'] ['a', '.'] := .esc (.plain (by decide) .nil)
example : ¬ ∃ s, Means ['a', '\\'] s := by
  rintro ⟨s, h⟩
  cases h with
  | plain _ h => cases h with
    | plain h _ => exact h rfl

/-- `descape(escape(s)) = s` for every text. -/
theorem C121_descape_escape (s : List Char) : OntoQuery.descape (OntoQuery.escape s) = .ok s := by
  rw [C121_escape]
  have := descapeLoop_written s [] []
  simp only [List.append_nil, List.nil_append] at this
  unfold OntoQuery.descape
  rw [this]
  rfl

/-! ### Splitting at dots -/

theorem split_text (x : FIto Char) (hx : x.Valid) (c : Char) (h : ¬ Escaped '\\' x.text x.text.length) :
    (splitUnescaped x c '\\' none none).exc = none ∧
    (splitUnescaped x c '\\' none none).out.map FIto.text = goSplit c '\\' false [] x.text := by
  have hw : PyStr.slice x.text none none = x.text := by
    rw [slice_none_left, slice_none_right]
    have := slice_nat x.text 0 x.text.length
    simpa using this
  have hsp := (C42_split_unescaped x hx c '\\' none none).1
  simp only [hw] at hsp
  obtain ⟨h1, _, h3⟩ := hsp h
  refine ⟨h3, ?_⟩
  rw [h1]
  have hbase : (min (x.text.length : Int) (adjStart x.text.length none)).toNat = 0 := by
    simp only [adjStart]; omega
  rw [hbase]
  have hid : (fun k : Nat => 0 + k) = id := by funext k; simp
  rw [hid, List.map_id]
  have hg := cutAt_goSplit c '\\' x.text [] []
  simp only [List.append_nil, List.nil_append, List.length_nil, ← List.range_eq_range'] at hg
  unfold positions
  rw [hg]
  have h0 : decide (Escaped '\\' x.text 0) = false := by
    apply decide_eq_false; simp [Escaped, runBefore]
  rw [h0]

theorem goSplit_written (s rest acc : List Char) :
    goSplit '.' '\\' false acc (writtenText s ++ rest) = goSplit '.' '\\' false (acc ++ writtenText s) rest := by
  unfold writtenText
  induction s generalizing acc with
  | nil => simp
  | cons d s ih =>
    rw [List.flatMap_cons, List.append_assoc]
    have : goSplit '.' '\\' false acc (written d ++ (s.flatMap written ++ rest)) =
        goSplit '.' '\\' false (acc ++ written d) (s.flatMap written ++ rest) := by
      unfold written
      split
      · simp [goSplit]
      · rename_i h
        have h1 : d ≠ '\\' := fun hd => h (Or.inl hd)
        have h2 : d ≠ '.' := fun hd => h (Or.inr (Or.inr hd))
        simp [goSplit, h1, h2]
    rw [this, ih]
    simp

theorem goSplit_dotted : ∀ (ks : List (List Char)) (k acc : List Char),
    goSplit '.' '\\' false acc (dotted ((k :: ks).map writtenText)) = (acc ++ writtenText k) :: ks.map writtenText
  | [], k, acc => by
    have := goSplit_written k [] acc
    rw [List.append_nil] at this
    rw [List.map_cons, List.map_nil, dotted, this, goSplit]
  | k' :: ks, k, acc => by
    rw [List.map_cons, List.map_cons, dotted, goSplit_written, goSplit, if_neg (by decide), if_neg (by decide), if_pos rfl,
      ← List.map_cons, goSplit_dotted ks k' []]
    simp

theorem written_escaped (s pre : List Char) (h : ¬ Escaped '\\' pre pre.length) :
    ¬ Escaped '\\' (pre ++ writtenText s) (pre ++ writtenText s).length := by
  unfold writtenText
  induction s generalizing pre with
  | nil => simpa using h
  | cons d s ih =>
    rw [List.flatMap_cons, ← List.append_assoc]
    apply ih
    have hpre : ∀ t : List Char, runBefore '\\' (pre ++ t) pre.length = runBefore '\\' pre pre.length := by
      intro t; simp [runBefore]
    unfold written
    split
    · have h1 := escaped_succ '\\' pre [d] '\\'
      have h2 := escaped_succ '\\' (pre ++ ['\\']) [] d
      simp only [List.append_assoc, List.singleton_append, List.length_append, List.length_cons,
        List.length_nil, Nat.zero_add] at h1 h2
      have h3 : (pre ++ ['\\', d]).length = pre.length + 1 + 1 := by simp
      rw [h3, h2, h1]
      rintro ⟨_, hn⟩
      apply hn
      refine ⟨trivial, ?_⟩
      unfold Escaped at h ⊢
      rwa [hpre]
    · rename_i hd
      have h1 := escaped_succ '\\' pre [] d
      have h3 : (pre ++ [d]).length = pre.length + 1 := by simp
      rw [h3, h1]
      rintro ⟨hn, _⟩
      exact hd (Or.inl hn)

theorem dotted_escaped : ∀ (ks : List (List Char)) (pre : List Char), ¬ Escaped '\\' pre pre.length →
    ¬ Escaped '\\' (pre ++ dotted (ks.map writtenText)) (pre ++ dotted (ks.map writtenText)).length
  | [], pre, h => by simpa [dotted] using h
  | [k], pre, h => written_escaped k pre h
  | k :: k' :: ks, pre, h => by
    have h1 := written_escaped k pre h
    have h2 := dotted_escaped (k' :: ks) (pre ++ writtenText k ++ ['.']) (by
      have h4 := escaped_succ '\\' (pre ++ writtenText k) [] '.'
      have h3 : (pre ++ writtenText k ++ ['.']).length = (pre ++ writtenText k).length + 1 := by
        simp; omega
      rw [h3, h4]
      rintro ⟨hn, _⟩
      exact absurd hn (by decide))
    simp only [List.map_cons, dotted, List.append_assoc, List.singleton_append] at h2 ⊢
    exact h2

/-- A path written with `escape` and dots is read back: the steps `split_unescaped` finds are the escaped keys, and `descape` gives
the keys. -/
theorem C121_path_text (k : List Char) (ks : List (List Char)) (x : FIto Char) (hx : x.Valid)
    (ht : x.text = dotted ((k :: ks).map OntoQuery.escape)) :
    let r := splitUnescaped x '.' '\\' none none
    r.exc = none ∧ r.out.map FIto.text = (k :: ks).map OntoQuery.escape ∧
    r.out.map (fun p => OntoQuery.descape p.text) = (k :: ks).map Except.ok := by
  have hm : (k :: ks).map OntoQuery.escape = (k :: ks).map writtenText := List.map_congr_left fun s _ => C121_escape s
  intro r
  have he : ¬ Escaped '\\' x.text x.text.length := by
    rw [ht, hm]
    have := dotted_escaped (k :: ks) [] (by simp [Escaped, runBefore])
    simpa using this
  obtain ⟨h1, h2⟩ := split_text x hx '.' he
  have h3 : r.out.map FIto.text = (k :: ks).map OntoQuery.escape := by
    show (splitUnescaped x '.' '\\' none none).out.map FIto.text = _
    rw [h2, ht, hm, goSplit_dotted]
    simp
  refine ⟨h1, h3, ?_⟩
  have : r.out.map (fun p => OntoQuery.descape p.text) = (r.out.map FIto.text).map OntoQuery.descape := by simp
  rw [this, h3, List.map_map]
  exact List.map_congr_left fun s _ => C121_descape_escape s

/-! ### Entities -/

section
variable {τ : Type}

theorem get_lookup (d : Ontology.Disc (List Char) τ) (k : List Char) :
    OntoQuery.get d k = match lookup k d.kids with | some d' => .ok d' | none => .error .keyError := by
  unfold OntoQuery.get
  generalize d.kids = ks
  induction ks with
  | nil => rfl
  | cons e ks ih =>
    obtain ⟨k', v⟩ := e
    rw [lookup, List.find?_cons]
    by_cases h : k' = k
    · simp [h]
    · simp only [h, decide_false, if_false, Bool.false_eq_true]
      exact ih

theorem follow_at : ∀ (ss : List (FIto Char)) (d : Ontology.Disc (List Char) τ),
    follow none d ss = match discAt d (ss.map FIto.text) with | some d' => .ok d' | none => .error .keyError
  | [], d => rfl
  | s :: ss, d => by
    rw [follow, get_lookup, List.map_cons, discAt]
    cases lookup s.text d.kids with
    | none => rfl
    | some d' => exact follow_at ss d'

/-- The Itos of the discoveries at a path, within a window. -/
def inWindow (span : τ → Span) (start stop : Int) (is : List τ) : List τ :=
  is.filter fun i => decide (start ≤ (span i).start ∧ (span i).stop ≤ stop)

/-- What an entity written with `escape` finds, for every path: the Itos at the path of the *escaped* keys, the keys not
being restored. -/
theorem C121_entity_exact (span : τ → Span) (D : Ontology.Disc (List Char) τ) (start stop : Int) (k : List Char)
    (ks : List (List Char)) (x : FIto Char) (hx : x.Valid) (ht : x.text = dotted ((k :: ks).map OntoQuery.escape)) :
    entity span D start stop x =
      match discAt D ((k :: ks).map OntoQuery.escape) with
      | some d => .ok (inWindow span start stop d.walk)
      | none => .error .keyError := by
  obtain ⟨h1, h2, _⟩ := C121_path_text k ks x hx ht
  unfold entity
  simp only [h1]
  rw [follow_at, h2]
  cases discAt D ((k :: ks).map OntoQuery.escape) with
  | none => rfl
  | some d => simp [inWindow]

theorem written_plain {s : List Char} (h : Plain s) : writtenText s = s := by
  unfold writtenText
  induction s with
  | nil => rfl
  | cons c s ih =>
    rw [List.flatMap_cons, ih fun d hd => h d (List.mem_cons_of_mem _ hd), written, if_neg (h c (by simp))]
    rfl

theorem escape_plain {s : List Char} (h : Plain s) : OntoQuery.escape s = s := by rw [C121_escape, written_plain h]

/-- **C121 (partial).** An entity that names a path of keys without special characters finds exactly the Itos of the discoveries at
that path (and below) that lie in the window, in order, or raises `KeyError` if there are none at that path. Missing: keys
with special characters (`C121_special_violated`). -/
theorem C121_entity_partial (span : τ → Span) (D : Ontology.Disc (List Char) τ) (start stop : Int) (k : List Char)
    (ks : List (List Char)) (hp : ∀ s ∈ k :: ks, Plain s) (x : FIto Char) (hx : x.Valid)
    (ht : x.text = dotted ((k :: ks).map OntoQuery.escape)) :
    entity span D start stop x =
      match discAt D (k :: ks) with
      | some d => .ok (inWindow span start stop d.walk)
      | none => .error .keyError := by
  have hm : (k :: ks).map OntoQuery.escape = k :: ks := by
    have h : (k :: ks).map OntoQuery.escape = (k :: ks).map id := List.map_congr_left fun s hs => escape_plain (hp s hs)
    rw [h, List.map_id]
  have := C121_entity_exact span D start stop k ks x hx ht
  rwa [hm] at this

theorem written_ne {s : List Char} {c : Char} (hc : c ∈ s) (hs : Special c) : s.length < (writtenText s).length := by
  have hle : ∀ t : List Char, t.length ≤ (writtenText t).length := by
    intro t
    unfold writtenText
    induction t with
    | nil => simp
    | cons d t ih =>
      rw [List.flatMap_cons, List.length_append, List.length_cons, written]
      split <;> simp only [List.length_cons, List.length_nil] <;> omega
  induction s with
  | nil => cases hc
  | cons d s ih =>
    have e : (writtenText (d :: s)).length = (written d).length + (writtenText s).length := by
      unfold writtenText; rw [List.flatMap_cons, List.length_append]
    rw [e, List.length_cons]
    rcases List.mem_cons.1 hc with rfl | hc
    · rw [written, if_pos hs]; have := hle s; simp only [List.length_cons, List.length_nil]; omega
    · have := ih hc
      rw [written]; split <;> simp only [List.length_cons, List.length_nil] <;> omega

/-- **C121 (violated).** A key with a special character is never found by its escaped name: discoveries whose only key it is hold
Itos under it, and the entity raises `KeyError`. -/
theorem C121_special_violated (span : τ → Span) (start stop : Int) (k : List Char) {c : Char} (hc : c ∈ k) (hs : Special c)
    (d : Ontology.Disc (List Char) τ) (x : FIto Char) (hx : x.Valid) (ht : x.text = OntoQuery.escape k) :
    discAt (.mk [] [(k, d)]) [k] = some d ∧ entity span (.mk [] [(k, d)]) start stop x = .error .keyError := by
  refine ⟨by simp [discAt, lookup, Ontology.Disc.kids], ?_⟩
  rw [C121_entity_exact span _ start stop k [] x hx ht]
  have hne : k ≠ OntoQuery.escape k := by
    intro h
    have := written_ne hc hs
    rw [← C121_escape, ← h] at this
    omega
  simp [discAt, lookup, Ontology.Disc.kids, hne]

/-- What an entity raises: `KeyError` or `ValueError`, never anything else. -/
theorem C121_entity_errors (span : τ → Span) (D : Ontology.Disc (List Char) τ) (start stop : Int) (x : FIto Char) (hx : x.Valid)
    {e : PyErr} (h : entity span D start stop x = .error e) : e = .keyError ∨ e = .valueError := by
  have hf : ∀ (o : Option PyErr), (o = none ∨ o = some .valueError) → ∀ (ss : List (FIto Char)) (d : Ontology.Disc (List Char) τ),
      follow o d ss = .error e → e = .keyError ∨ e = .valueError := by
    intro o ho ss
    induction ss with
    | nil =>
      intro d hd
      rcases ho with rfl | rfl
      · cases hd
      · right; exact (Except.error.inj hd).symm
    | cons s ss ih =>
      intro d hd
      rw [follow, get_lookup] at hd
      cases hl : lookup s.text d.kids with
      | none => rw [hl] at hd; left; exact (Except.error.inj hd).symm
      | some d' => rw [hl] at hd; exact ih d' hd
  have ho : (splitUnescaped x '.' '\\' none none).exc = none ∨ (splitUnescaped x '.' '\\' none none).exc = some .valueError := by
    have := C42_split_unescaped x hx '.' '\\' none none
    by_cases he : Escaped '\\' (PyStr.slice x.text none none) (PyStr.slice x.text none none).length
    · exact Or.inr (this.2 he)
    · exact Or.inl (this.1 he).2.2
  unfold entity at h
  simp only at h
  split at h
  · rename_i e' hfo
    obtain rfl := Except.error.inj h
    exact hf _ ho _ _ hfo
  · cases h

/-! ### One entity after another -/

/-- `_Mul` of two entities that are found: every pair of an Ito of the first and one of the second, both in the window, the
second starting where the first stops or later; ordered by the first, then by the second. -/
theorem C121_mul (span : τ → Span) (D : Ontology.Disc (List Char) τ) (start stop : Int) (x y : FIto Char) (st : List QOp)
    {l m : List τ} (hl : ∀ a b, entity span D a b x = .ok (inWindow span a b l))
    (hm : ∀ a b, entity span D a b y = .ok (inWindow span a b m)) :
    call span D (.entity y :: .entity x :: st) .mul start stop =
      ⟨(inWindow span start stop l).flatMap fun i => (inWindow span (span i).stop stop m).map fun j => [i, j], none⟩ ∧
    ∀ p, p ∈ (call span D (.entity y :: .entity x :: st) .mul start stop).out ↔
      ∃ i ∈ l, ∃ j ∈ m, p = [i, j] ∧ start ≤ (span i).start ∧ (span i).stop ≤ stop ∧
        (span i).stop ≤ (span j).start ∧ (span j).stop ≤ stop := by
  have hb : ∀ is : List τ, Run.bindList (fun i1 => (⟨(inWindow span (span i1).stop stop m).map fun i2 => [i1, i2], none⟩ :
      Run (List τ))) none is = ⟨is.flatMap fun i => (inWindow span (span i).stop stop m).map fun j => [i, j], none⟩ := by
    intro is
    induction is with
    | nil => rfl
    | cons i is ih => simp only [Run.bindList, ih, List.flatMap_cons]
  have hrun : call span D (.entity y :: .entity x :: st) .mul start stop =
      ⟨(inWindow span start stop l).flatMap fun i => (inWindow span (span i).stop stop m).map fun j => [i, j], none⟩ := by
    rw [call]
    simp only [call, hl, hm, first, Run.yield, hb]
  refine ⟨hrun, fun p => ?_⟩
  rw [hrun]
  unfold inWindow
  simp only [List.mem_flatMap, List.mem_map, List.mem_filter, decide_eq_true_eq]
  constructor
  · rintro ⟨i, ⟨hi, h1, h2⟩, j, ⟨hj, h3, h4⟩, rfl⟩
    exact ⟨i, hi, j, hj, rfl, h1, h2, h3, h4⟩
  · rintro ⟨i, hi, j, hj, rfl, h1, h2, h3, h4⟩
    exact ⟨i, ⟨hi, h1, h2⟩, j, ⟨hj, h3, h4⟩, rfl⟩

/-- `_Mul` with less than two operations before it raises `ValueError` and yields nothing. -/
theorem C121_mul_short (span : τ → Span) (D : Ontology.Disc (List Char) τ) (start stop : Int) (st : List QOp) (h : st.length < 2) :
    call span D st .mul start stop = ⟨[], some .valueError⟩ := by
  match st, h with
  | [], _ => rfl
  | [_], _ => rfl

end

/-! Non-vacuity: discoveries `{'a': {'b': [(0,1), (3,5)]}, 'c.d': [(1,2)]}`. -/

/-- The discoveries. -/
def demoFound : Ontology.Disc (List Char) Span :=
  .mk [] [(['a'], .mk [] [(['b'], .mk [⟨0, 1⟩, ⟨3, 5⟩] [])]), (['c', '.', 'd'], .mk [⟨1, 2⟩] [])]

example : (FIto.ofStr ['a', '.', 'b'] none none).Valid ∧
    entity id demoFound 0 9 (FIto.ofStr ['a', '.', 'b'] none none) = .ok [⟨0, 1⟩, ⟨3, 5⟩] ∧
    entity id demoFound 1 9 (FIto.ofStr ['a', '.', 'b'] none none) = .ok [⟨3, 5⟩] ∧
    entity id demoFound 0 9 (FIto.ofStr ['c', '\\', '.', 'd'] none none) = .error .keyError ∧
    (call id demoFound [.entity (FIto.ofStr ['a', '.', 'b'] none none), .entity (FIto.ofStr ['a'] none none)] .mul 0 9).out =
      [[⟨0, 1⟩, ⟨3, 5⟩]] :=
  ⟨FIto.ofStr_valid _ _ _ _, by decide, by decide, by decide, by decide⟩

example : ∀ a b, entity id demoFound a b (FIto.ofStr ['a', '.', 'b'] none none) = .ok (inWindow id a b [⟨0, 1⟩, ⟨3, 5⟩]) := by
  intro a b
  exact C121_entity_partial id demoFound a b ['a'] [['b']] (by decide) _ (FIto.ofStr_valid _ _ _ _) (by decide)

example : (call id demoFound [.mul] .mul 0 9).exc = some .valueError ∧ [QOp.mul].length < 2 := ⟨by decide, by decide⟩

end Pawpaw.Props
