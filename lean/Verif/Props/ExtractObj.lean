import Verif.Spec.ExtractObj
import Verif.Props.Match
/-!
# C119: an `Extract` runs with the settings given last
-/
namespace Pawpaw.Props
open Pawpaw ExtractObj Match ExtractSpec

variable {R M S : Type}

theorem validate_fits {p : Pat} (h : PatOK p) {l : List GK} (hf : Fits p l) : validate p l = .ok () := by
  rw [C60_validate p h]; exact if_pos hf

theorem validate_unfit {p : Pat} (h : PatOK p) {l : List GK} (hf : ¬ Fits p l) : validate p l = .error .valueError := by
  rw [C60_validate p h]; exact if_neg hf

theorem after_settings (E : Engine R M S) : ∀ (ops : List (Op R M)) (x : Obj R M),
    (after E x ops).re = lastRe x.re ops ∧ (after E x ops).limit = lastLimit x.limit ops ∧
    (∀ d, x.desc = some d → (after E x ops).desc = some (lastDesc d ops)) ∧
    (x.desc = none → (¬ Assigned ops → (after E x ops).desc = none) ∧
      ∀ d, Assigned ops → (after E x ops).desc = some (lastDesc d ops))
  | [], x => ⟨rfl, rfl, fun _ h => h, fun h => ⟨fun _ => h, fun _ ⟨_, ha⟩ => by cases ha⟩⟩
  | op :: ops, x => by
    have skip : ∀ (y : Obj R M), (∀ d, op ≠ .desc d) → y.desc = x.desc → (after E x (op :: ops)) = after E y ops →
        (∀ d, lastDesc d (op :: ops) = lastDesc d ops) →
        (after E y ops).re = lastRe x.re (op :: ops) → (after E y ops).limit = lastLimit x.limit (op :: ops) →
        (after E x (op :: ops)).re = lastRe x.re (op :: ops) ∧ (after E x (op :: ops)).limit = lastLimit x.limit (op :: ops) ∧
        (∀ d, x.desc = some d → (after E x (op :: ops)).desc = some (lastDesc d (op :: ops))) ∧
        (x.desc = none → (¬ Assigned (op :: ops) → (after E x (op :: ops)).desc = none) ∧
          ∀ d, Assigned (op :: ops) → (after E x (op :: ops)).desc = some (lastDesc d (op :: ops))) := by
      intro y hne hyd he hl hr hli
      obtain ⟨_, _, i3, i4⟩ := after_settings E ops y
      have hA : Assigned (op :: ops) ↔ Assigned ops := by
        constructor
        · rintro ⟨d, hd⟩
          rcases List.mem_cons.1 hd with e | hd
          · exact absurd e.symm (hne d)
          · exact ⟨d, hd⟩
        · rintro ⟨d, hd⟩
          exact ⟨d, List.mem_cons_of_mem _ hd⟩
      rw [he]
      refine ⟨hr, hli, fun d hd => ?_, fun hn => ⟨fun ha => ?_, fun d ha => ?_⟩⟩
      · rw [hl, i3 d (hyd.trans hd)]
      · exact (i4 (hyd.trans hn)).1 (fun h => ha (hA.2 h))
      · rw [hl]; exact (i4 (hyd.trans hn)).2 d (hA.1 ha)
    cases op with
    | re r =>
      have i := after_settings E ops { x with re := r }
      exact skip { x with re := r } (by simp) rfl rfl (fun _ => rfl) i.1 i.2.1
    | limit l =>
      have i := after_settings E ops { x with limit := l }
      exact skip { x with limit := l } (by simp) rfl rfl (fun _ => rfl) i.1 i.2.1
    | gf f =>
      cases ha : accepts E x.re f with
      | error e =>
        have i := after_settings E ops x
        exact skip x (by simp) rfl (by rw [after, assign, ha]) (fun _ => rfl) i.1 i.2.1
      | ok u =>
        cases u
        have i := after_settings E ops { x with gf := f }
        exact skip { x with gf := f } (by simp) rfl (by rw [after, assign, ha]) (fun _ => rfl) i.1 i.2.1
    | desc d =>
      obtain ⟨i1, i2, i3, _⟩ := after_settings E ops { x with desc := some d }
      refine ⟨i1, i2, fun d' _ => i3 d rfl, fun _ => ⟨fun h => absurd ⟨d, by simp⟩ h, fun d' _ => i3 d rfl⟩⟩

theorem make_inv {E : Engine R M S} {re : R} {limit : Option Int} {desc : DescArg M} {gf : Filter M} {x : Obj R M}
    (h : make E re limit desc gf = .ok x) : x.re = re ∧ x.gf = gf ∧ x.limit = limit ∧
      (∀ f, desc = .fn f → x.desc = some desc) ∧ (∀ s, desc = .str s → x.desc = none) := by
  unfold make at h
  split at h
  · cases h
  · cases desc with
    | str s => obtain rfl := Except.ok.inj h; exact ⟨rfl, rfl, rfl, fun _ e => (by cases e), fun _ _ => rfl⟩
    | fn f => obtain rfl := Except.ok.inj h; exact ⟨rfl, rfl, rfl, fun _ _ => rfl, fun _ e => (by cases e)⟩

theorem after_filter (E : Engine R M S) (hE : ∀ r, PatOK (E.pat r)) : ∀ (ops : List (Op R M)) (x : Obj R M),
    (after E x ops).gf = lastFilter E.pat x.re x.gf ops
  | [], _ => rfl
  | .re r :: ops, x => after_filter E hE ops { x with re := r }
  | .limit l :: ops, x => after_filter E hE ops { x with limit := l }
  | .desc d :: ops, x => after_filter E hE ops { x with desc := some d }
  | .gf (.pred f) :: ops, x => after_filter E hE ops { x with gf := .pred f }
  | .gf (.keys l) :: ops, x => by
    rw [after, assign, accepts, lastFilter]
    by_cases hf : Fits (E.pat x.re) l
    · rw [validate_fits (hE x.re) hf, if_pos hf]; exact after_filter E hE ops { x with gf := .keys l }
    · rw [validate_unfit (hE x.re) hf, if_neg hf]; exact after_filter E hE ops x

/-- **C119 (partial).** An `Extract` made with a function for `desc`, or whose `desc` has been assigned, extracts from every Ito,
after any assignments (those that raised included), what `Ito.from_re` yields for the pattern, descriptor, limit and
(among those that fitted the pattern of their time) group filter given last. Missing: `desc` given as a `str` only (`C119_str_desc_violated`). -/
theorem C119_run_partial (E : Engine R M S) (hE : ∀ r, PatOK (E.pat r)) {re : R} {limit : Option Int} {desc : DescArg M} {gf : Filter M} {x : Obj R M}
    (h : make E re limit desc gf = .ok x) (ops : List (Op R M)) (hd : (∃ f, desc = .fn f) ∨ Assigned ops) (src : S) :
    run E (after E x ops) src = ExtractObj.fromRe E (lastRe re ops) src (lastFilter E.pat re gf ops) (lastDesc desc ops)
      (lastLimit limit ops) := by
  obtain ⟨m1, m2, m3, m4, m5⟩ := make_inv h
  obtain ⟨a1, a2, a3, a4⟩ := after_settings E ops x
  have : (after E x ops).desc = some (lastDesc desc ops) := by
    cases desc with
    | fn f => exact a3 _ (m4 f rfl)
    | str s =>
      rcases hd with ⟨f, hf⟩ | hd
      · cases hf
      · exact (a4 (m5 s rfl)).2 _ hd
  unfold run
  rw [this, a1, a2, after_filter E hE, m1, m2, m3]

/-- **C119 (violated).** An `Extract` made with a `str` for `desc` raises `AttributeError` on every Ito, whatever is assigned to its
other attributes. -/
theorem C119_str_desc_violated (E : Engine R M S) {re : R} {limit : Option Int} {s : String} {gf : Filter M} {x : Obj R M}
    (h : make E re limit (.str s) gf = .ok x) (ops : List (Op R M)) (hd : ¬ Assigned ops) (src : S) :
    run E (after E x ops) src = .error .attributeError := by
  obtain ⟨_, _, _, _, m5⟩ := make_inv h
  unfold run
  rw [((after_settings E ops x).2.2.2 (m5 s rfl)).1 hd]

/-- An `Extract` is made exactly if the group filter fits its pattern. -/
theorem C119_make (E : Engine R M S) (hE : ∀ r, PatOK (E.pat r)) (re : R) (limit : Option Int) (desc : DescArg M) :
    (∀ f, ∃ x, make E re limit desc (.pred f) = .ok x) ∧
    ∀ l, (Fits (E.pat re) l → ∃ x, make E re limit desc (.keys l) = .ok x) ∧
      (¬ Fits (E.pat re) l → make E re limit desc (.keys l) = .error .valueError) := by
  refine ⟨fun f => ?_, fun l => ⟨fun hf => ?_, fun hf => ?_⟩⟩
  · unfold make accepts; cases desc <;> exact ⟨_, rfl⟩
  · unfold make accepts; dsimp only
    rw [validate_fits (hE re) hf]
    cases desc <;> exact ⟨_, rfl⟩
  · unfold make accepts; dsimp only
    rw [validate_unfit (hE re) hf]

/-- What becomes of a list of keys when another pattern is assigned: it stays, unchecked, and every call raises
`ValueError` exactly if it does not fit the new pattern or its matches cannot be made into Itos. -/
theorem C119_stale_keys (E : Engine R M S) (hE : ∀ r, PatOK (E.pat r)) (x : Obj R M) {l : List GK} (hl : x.gf = .keys l)
    {d : DescArg M} (hd : x.desc = some d) (r : R) (src : S) :
    assign E x (.re r) = .ok { x with re := r } ∧
    (¬ Fits (E.pat r) l → run E { x with re := r } src = .error .valueError) ∧
    (Fits (E.pat r) l → run E { x with re := r } src = Match.fromRe (E.len src)
      ((E.finditer r src).map fun m => l.map fun gk => (descFor m gk d, E.spans m gk)) x.limit) := by
  refine ⟨rfl, fun hf => ?_, fun hf => ?_⟩
  · unfold run ExtractObj.fromRe
    dsimp only
    rw [hd, hl]
    unfold accepts
    dsimp only
    rw [validate_unfit (hE r) hf]
  · unfold run ExtractObj.fromRe
    dsimp only
    rw [hd, hl]
    unfold accepts
    dsimp only
    rw [validate_fits (hE r) hf]
    rfl

/-- **C119 (violated).** Settings each of which was accepted can make every call raise: whenever keys that fit one pattern do not fit
another, an `Extract` made with the first and then given the second raises `ValueError` on every Ito. -/
theorem C119_stale_keys_violated (E : Engine R M S) (hE : ∀ r, PatOK (E.pat r)) {r r' : R} {l : List GK} (h : Fits (E.pat r) l)
    (h' : ¬ Fits (E.pat r') l) (f : M → GK → Option String) (limit : Option Int) :
    ∃ x y, make E r limit (.fn f) (.keys l) = .ok x ∧ assign E x (.re r') = .ok y ∧ ∀ src, run E y src = .error .valueError := by
  obtain ⟨x, hx⟩ := ((C119_make E hE r limit (.fn f)).2 l).1 h
  obtain ⟨_, m2, _, m4, _⟩ := make_inv hx
  exact ⟨x, { x with re := r' }, hx, rfl, fun src => (C119_stale_keys E hE x m2 (m4 f rfl) r' src).2.1 h'⟩

theorem preferred_keyOf (p : Pat) (h : PatOK p) : preferred p = (List.range (p.groups + 1)).map (keyOf p) := by
  obtain ⟨hl, hp⟩ := C60_preferred p h
  apply List.ext_getElem?
  intro i
  by_cases hi : i ≤ p.groups
  · have hr : ((List.range (p.groups + 1)).map (keyOf p))[i]? = some (keyOf p i) := by
      rw [List.getElem?_map, List.getElem?_range (by omega)]; rfl
    rw [hr]
    unfold keyOf
    split
    · rename_i e he
      have h1 := List.mem_of_find?_eq_some he
      have h2 : e.2 = i := by simpa using List.find?_some he
      exact (hp i hi).1 e.1 (by rw [← h2]; exact h1)
    · rename_i he
      rw [List.find?_eq_none] at he
      exact (hp i hi).2 fun n hn => he (n, i) hn (by simp)
  · rw [List.getElem?_eq_none (by omega), List.getElem?_eq_none (by simp; omega)]

theorem fromFilter_groupsOf (p : Pat) (h : PatOK p) (f : GK → Bool) : fromFilter p f = groupsOf p f := by
  unfold fromFilter groupsOf
  rw [fromFilterLoop_spec, preferred_keyOf p h]
  have : ((List.range (p.groups + 1)).map (keyOf p)).zipIdx 0 = (List.range (p.groups + 1)).map fun i => (keyOf p i, i) := by
    apply List.ext_getElem?
    intro i
    by_cases hi : i < p.groups + 1
    · simp [List.getElem?_zipIdx, List.getElem?_range hi]
    · rw [List.getElem?_eq_none (by simp; omega), List.getElem?_eq_none (by simp; omega)]
  rw [this, List.filterMap_map]
  rfl

/-- What `from_re` makes of a group filter and a descriptor: a predicate stands for the groups it accepts, asked for each match; keys
stand for themselves; a `str` describes every Ito, a function is asked for the match and the key. -/
theorem C119_from_re (E : Engine R M S) (hE : ∀ r, PatOK (E.pat r)) (re : R) (src : S) (limit : Option Int) :
    (∀ f s, ExtractObj.fromRe E re src (.pred f) (.str s) limit = Match.fromRe (E.len src)
      ((E.finditer re src).map fun m => (groupsOf (E.pat re) (f m)).map fun gk => (some s, E.spans m gk)) limit) ∧
    (∀ f d, ExtractObj.fromRe E re src (.pred f) (.fn d) limit = Match.fromRe (E.len src)
      ((E.finditer re src).map fun m => (groupsOf (E.pat re) (f m)).map fun gk => (d m gk, E.spans m gk)) limit) ∧
    (∀ l s, Fits (E.pat re) l → ExtractObj.fromRe E re src (.keys l) (.str s) limit = Match.fromRe (E.len src)
      ((E.finditer re src).map fun m => l.map fun gk => (some s, E.spans m gk)) limit) ∧
    (∀ l d, Fits (E.pat re) l → ExtractObj.fromRe E re src (.keys l) (.fn d) limit = Match.fromRe (E.len src)
      ((E.finditer re src).map fun m => l.map fun gk => (d m gk, E.spans m gk)) limit) ∧
    (∀ l d, ¬ Fits (E.pat re) l → ExtractObj.fromRe E re src (.keys l) d limit = .error .valueError) := by
  refine ⟨fun f s => ?_, fun f d => ?_, fun l s hl => ?_, fun l d hl => ?_, fun l d hl => ?_⟩
  · unfold ExtractObj.fromRe accepts keysFor descFor
    simp only [fromFilter_groupsOf _ (hE re)]
  · unfold ExtractObj.fromRe accepts keysFor descFor
    simp only [fromFilter_groupsOf _ (hE re)]
  · unfold ExtractObj.fromRe accepts keysFor descFor
    simp only [validate_fits (hE re) hl]
  · unfold ExtractObj.fromRe accepts keysFor descFor
    simp only [validate_fits (hE re) hl]
  · unfold ExtractObj.fromRe accepts
    simp only [validate_unfit (hE re) hl]

/-! Non-vacuity: an engine with two patterns, one with a group `w` and one without. -/

/-- Pattern `true` has a group named `w`; every text has one match, of its first two characters. -/
def demoEngine : Engine Bool Unit Nat :=
  ⟨fun b => if b then ⟨1, [("w", 1)]⟩ else ⟨0, []⟩, fun _ _ => [()], fun _ _ => [⟨0, 2⟩], fun n => n⟩

example : (∃ x, make demoEngine true none (.str "d") (.keys [.name "w"]) = .ok x) ∧
    (∃ x, make demoEngine true none (.fn fun _ _ => some "d") (.keys [.name "w"]) = .ok x ∧
      run demoEngine x 5 = .ok [.mk ⟨0, 2⟩ (some "d") none []]) ∧
    Fits (demoEngine.pat true) [.name "w"] ∧ ¬ Fits (demoEngine.pat false) [.name "w"] := by
  refine ⟨⟨_, rfl⟩, ⟨_, rfl, by rfl⟩, ⟨[1], by decide, by decide⟩, ?_⟩
  rintro ⟨is, h, _⟩
  cases is with
  | nil => cases h
  | cons i is => simp [gkIndex, demoEngine] at h
example : ∀ b, PatOK (demoEngine.pat b) := by
  intro b
  cases b <;> constructor <;> simp [demoEngine]

example : groupsOf (demoEngine.pat true) (fun k => k = .name "w") = [.name "w"] ∧
    ExtractObj.fromRe demoEngine true 5 (.pred fun _ k => k = .name "w") (.str "d") none = .ok [.mk ⟨0, 2⟩ (some "d") none []] :=
  ⟨by decide, by rfl⟩

end Pawpaw.Props
