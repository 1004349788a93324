import Verif.Spec.XmlHelper
import Verif.Props.XmlDoc
import Verif.Props.QuerySub
import Verif.Props.QueryFilters
/-!
# C86–C90: `XmlHelper` on parsed elements
-/
set_option linter.unusedSectionVars false
set_option linter.unusedSimpArgs false
namespace Pawpaw.Props
open Pawpaw Pawpaw.Query Pawpaw.XmlHelper Pawpaw.Regex Pawpaw.Util Pawpaw.Ecf XmlSpec QuerySpec TreeSpec UtilSpec
variable {V : Type} [DecidableEq V]

/-! ### The queries -/

theorem findAll_step (X : Ext) (env : Env V) (x : Path) (a : Axis) (ha : a.orSelf = .no)
    (hk : a.key ∉ [AxisKey.self, .dedup, .preceding, .following]) (ns : List Path) (hs : a.step env.tree x = .ok ns) :
    findAll X env (axisText false a) x = ⟨ns, none⟩ := by
  unfold findAll
  rw [compile_axis]
  have hr : Axis.findRun a env.tree ⟨[x], none⟩ = ⟨a.toEcs ns (some x), none⟩ := by
    unfold Axis.findRun
    split
    · rename_i hk'; rw [hk'] at hk; simp at hk
    · rename_i hk'; rw [hk'] at hk; simp at hk
    · rename_i hk'; rw [hk'] at hk; simp at hk
    · rename_i hk'; rw [hk'] at hk; simp at hk
    · rw [bind_single, hs]
  simp only [runPhrases, List.foldl_cons, List.foldl_nil, Phrase.findAll, Run.filter, Run.map, hr]
  have h1 : ∀ ec : EIto, Phrase.combined (V := V) ⟨a, tautology, tautology⟩ (env, ec) =
    .ok true := fun _ => rfl
  simp only [h1, filterList_ok]
  have : ∀ l : List Path, (Axis.toEcs a l (some x)).map Prod.snd = l := by
    intro l
    unfold Axis.toEcs
    simp only [ha, reduceCtorEq, false_and, if_false]
    cases l with
    | nil => simp
    | cons y l => simp [enumFrom_map_snd]
  rw [show (List.filter (fun _ : EIto => true) (Axis.toEcs a ns (some x)))
    = Axis.toEcs a ns (some x) from by simp, this]

/-- The node at `p` has this desc. -/
def hasDesc (t : Node) (D : String) (p : Path) : Bool := decide ((t.get? p).bind Node.desc = some D)

theorem desc_mem (o : Option String) (D : String) : (o.map String.toList ∈ [D.toList].map some) ↔ o = some D := by
  cases o with
  | none => simp
  | some s => simp [String.toList_inj]

theorem findAll_desc (X : Ext) (env : Env V) (x : Path) (a : Axis) (ha : a.orSelf = .no)
    (hk : a.key ∉ [AxisKey.self, .dedup, .preceding, .following]) (ns : List Path) (hs : a.step env.tree x = .ok ns)
    (D : String) (hw : Writable [D.toList]) :
    findAll X env (axisText false a ++ valueFilter false 'd' [D.toList]) x = ⟨ns.filter (hasDesc env.tree D), none⟩ := by
  rw [C66_desc_filter_partial X env false false a _ hw, findAll_step X env x a ha hk ns hs]
  congr 1
  apply List.filter_congr
  intro p _
  unfold hasDesc
  rw [Bool.eq_iff_iff]
  simp only [decide_eq_true_eq, iff_true]
  exact desc_mem _ _

theorem writableD (D : String) (h : D.toList ≠ [] ∧ (∀ c ∈ D.toList.head?, reSpace c = false) ∧
    D.toList.getLast? ≠ some '\\') : Writable [D.toList] := by
  refine ⟨by simp, ?_, ?_⟩
  · intro v hv
    simp at hv
    subst hv
    exact ⟨h.1, fun c hc => h.2.1 c hc⟩
  · intro v hv
    simp at hv
    subst hv
    exact h.2.2

theorem wNamespace : Writable ["namespace".toList] := writableD _ (by decide)
theorem wName : Writable ["name".toList] := writableD _ (by decide)
theorem wValue : Writable ["value".toList] := writableD _ (by decide)
theorem wText : Writable ["text".toList] := writableD _ (by decide)
theorem wElement : Writable ["element".toList] := writableD _ (by decide)
theorem wStart : Writable ["start_tag".toList] := writableD _ (by decide)
theorem wAttributes : Writable ["attributes".toList] := writableD _ (by decide)
theorem wAttribute : Writable ["attribute".toList] := writableD _ (by decide)
theorem wIs : Writable ["is_xmlns".toList] := writableD _ (by decide)

/-- `**` -/
def axDesc : Axis := ⟨.descendants, false, .no⟩
/-- `*` -/
def axKids : Axis := ⟨.children, false, .no⟩
/-- `...` -/
def axAnc : Axis := ⟨.ancestors, false, .no⟩

theorem find_namespace (X : Ext) (env : Env V) (x : Path) :
    find X env qNamespace x = .ok ((walkAt env.tree false x).find? (hasDesc env.tree "namespace")) := by
  rw [show qNamespace = axisText false axDesc ++ valueFilter false 'd' ["namespace".toList] from by decide +kernel]
  unfold find
  rw [findAll_desc X env x axDesc rfl (by decide) _ rfl _ wNamespace, ← List.head?_filter]
  show Run.next ⟨(walkAt env.tree false x).filter _, none⟩ = _
  cases (walkAt env.tree false x).filter (hasDesc env.tree "namespace") with
  | nil => rfl
  | cons a l => rfl

theorem find_name (X : Ext) (env : Env V) (x : Path) :
    find X env qName x = .ok ((walkAt env.tree false x).find? (hasDesc env.tree "name")) := by
  rw [show qName = axisText false axDesc ++ valueFilter false 'd' ["name".toList] from by decide +kernel]
  unfold find
  rw [findAll_desc X env x axDesc rfl (by decide) _ rfl _ wName, ← List.head?_filter]
  show Run.next ⟨(walkAt env.tree false x).filter _, none⟩ = _
  cases (walkAt env.tree false x).filter (hasDesc env.tree "name") with
  | nil => rfl
  | cons a l => rfl

theorem find_value (X : Ext) (env : Env V) (x : Path) :
    find X env qValue x = .ok ((Query.children env.tree x).find? (hasDesc env.tree "value")) := by
  rw [show qValue = axisText false axKids ++ valueFilter false 'd' ["value".toList] from by decide +kernel]
  unfold find
  rw [findAll_desc X env x axKids rfl (by decide) _ rfl _ wValue, ← List.head?_filter]
  show Run.next ⟨(Query.children env.tree x).filter _, none⟩ = _
  cases (Query.children env.tree x).filter (hasDesc env.tree "value") with
  | nil => rfl
  | cons a l => rfl

theorem findAll_text (X : Ext) (env : Env V) (x : Path) :
    findAll X env qText x = ⟨(Query.children env.tree x).filter (hasDesc env.tree "text"), none⟩ := by
  rw [show qText = axisText false axKids ++ valueFilter false 'd' ["text".toList] from by decide +kernel]
  exact findAll_desc X env x axKids rfl (by decide) _ rfl _ wText

theorem find_parent (X : Ext) (env : Env V) (x : Path) :
    find X env qParent x = .ok ((Query.ancestors x).find? (hasDesc env.tree "element")) := by
  rw [show qParent = axisText false axAnc ++ valueFilter false 'd' ["element".toList] from by decide +kernel]
  unfold find
  rw [findAll_desc X env x axAnc rfl (by decide) _ rfl _ wElement, ← List.head?_filter]
  show Run.next ⟨(Query.ancestors x).filter _, none⟩ = _
  cases (Query.ancestors x).filter (hasDesc env.tree "element") with
  | nil => rfl
  | cons a l => rfl

/-! ### The query for namespace declarations -/

theorem bind_done (l : List Path) (f : Path → List Path) :
    (⟨l, none⟩ : Run Path).bind (fun y => ⟨f y, none⟩) = ⟨l.flatMap f, none⟩ := by
  unfold Run.bind
  simp only
  induction l with
  | nil => rfl
  | cons y l ih => simp only [Run.bindList, ih, List.flatMap_cons]

/-- `[d:…]` with one value, and the phrase it makes. -/
theorem compile_desc (X : Ext) (D : String) (hw : Writable [D.toList]) :
    ∃ f, (compile X (axisText false axKids ++ valueFilter false 'd' [D.toList]) : Except PyErr (List (Phrase V))) =
      .ok [⟨axKids, f, tautology⟩] ∧ (mkFilter X (valueFilter false 'd' [D.toList]) : Except PyErr (Filter (Ctx V))) = .ok f := by
  have hm := mkFilter_values (V := V) X false 'd' (by decide) [D.toList] hw
  have hk : String.ofList ['d'] = "d" := rfl
  have hf : (filterFunc X false ['d'] (valuesText [D.toList]) : Except PyErr (Filter (Ctx V))) =
      .ok (fDesc false (valuesText [D.toList])) := by
    unfold filterFunc
    simp only [hk]
    rw [if_pos (by simp)]
  rw [hf] at hm
  refine ⟨_, ?_, hm⟩
  rw [valueFilter_eq] at hm ⊢
  rw [compile_bracket X false axKids (lit_valueFilter false 'd' (by decide) _) (last_valueFilter false 'd' _ hw), hm]

/-- The predicate `is_xmlns` on the children of a node. -/
theorem findAll_is (X : Ext) (d : Doc) (w : Path) :
    findAll X (d.env (some (xmlnsPredicates d))) "*[p:is_xmlns]".toList w =
      ⟨(Query.children d.tree w).filter fun v => fullmatch xmlnsRe (d.text v), none⟩ := by
  rw [show "*[p:is_xmlns]".toList = axisText false axKids ++ keyedFilter false "p" ["is_xmlns".toList] from by
    decide +kernel]
  rw [C74_predicate_filter X _ false false axKids "p" (Or.inl rfl) _ wIs
    [("is_xmlns".toList, fun ei => fullmatch xmlnsRe (d.text ei.2))] rfl,
    findAll_step X _ w axKids rfl (by decide) (Query.children d.tree w) rfl]
  simp only [List.mem_singleton, forall_eq, Bool.not_false, forall_const, Bool.decide_eq_true]
  congr 1
  rw [zip_enum]
  generalize Query.children d.tree w = l
  generalize 0 = k
  induction l generalizing k with
  | nil => rfl
  | cons y l ih =>
    rw [enumFrom, List.filter_cons, List.filter_cons]
    simp only
    split
    · rw [List.map_cons, ih]
    · rw [ih]

theorem braced_of (s : List Char) (h : '\\' ∉ s ∧ '{' ∉ s ∧ '}' ∉ s) : Braced s := by
  induction s with
  | nil => exact .nil
  | cons c s ih =>
    simp only [List.mem_cons, not_or] at h
    exact .plain c s (fun e => h.1.1 e.symm) (fun e => h.2.1.1 e.symm) (fun e => h.2.2.1 e.symm)
      (ih ⟨h.1.2, h.2.1.2, h.2.2.2⟩)

/-- `*[d:attribute]{*[p:is_xmlns]}` -/
theorem findAll_attr_is (X : Ext) (d : Doc) (z : Path) :
    findAll X (d.env (some (xmlnsPredicates d))) "*[d:attribute]{*[p:is_xmlns]}".toList z =
      ⟨((Query.children d.tree z).filter (hasDesc d.tree "attribute")).filter
        (fun w => (Query.children d.tree w).any fun v => fullmatch xmlnsRe (d.text v)), none⟩ := by
  have hm := mkFilter_values (V := Unit) X false 'd' (by decide) ["attribute".toList] wAttribute
  have hk : String.ofList ['d'] = "d" := rfl
  have hf : (filterFunc X false ['d'] (valuesText ["attribute".toList]) : Except PyErr (Filter (Ctx Unit))) =
      .ok (fun x => .ok (decide (x.desc ∈ ["attribute".toList].map some))) := by
    unfold filterFunc
    simp only [hk]
    rw [if_pos (by simp)]
    congr 1
  rw [hf] at hm
  have e : "*[d:attribute]{*[p:is_xmlns]}".toList =
      axisText false axKids ++ '[' :: (((if false then ['~'] else []) ++ (['d'] ++ ':' :: valuesText ["attribute".toList])) ++ [']']) ++
        '{' :: ("*[p:is_xmlns]".toList ++ ['}']) := by decide +kernel
  rw [e]
  have hb : Braced "*[p:is_xmlns]".toList := braced_of _ (by decide)
  rw [C75_filter_and_subquery X _ false axKids (lit_valueFilter false 'd' (by decide) _)
    (last_valueFilter false 'd' _ wAttribute) _ hm hb (fun y => by rw [findAll_is])]
  rw [← valueFilter_eq false 'd' ["attribute".toList], findAll_desc X _ z axKids rfl (by decide) _ rfl _ wAttribute]
  simp only [findAll_is]
  congr 1
  apply List.filter_congr
  intro w _
  rw [Bool.eq_iff_iff]
  simp only [decide_eq_true_eq, ne_eq, List.filter_eq_nil_iff, List.any_eq_true, Classical.not_forall, Classical.not_not,
    not_imp]
  constructor
  · rintro ⟨v, h1, h2⟩; exact ⟨v, h1, h2⟩
  · rintro ⟨v, h1, h2⟩; exact ⟨v, h1, h2⟩

/-- What the query of `get_xmlns` finds. -/
theorem findAll_xmlns (X : Ext) (d : Doc) (x : Path) :
    findAll X (d.env (some (xmlnsPredicates d))) qXmlns x =
      ⟨((Query.children d.tree x).filter (hasDesc d.tree "start_tag")).flatMap (fun y =>
        ((Query.children d.tree y).filter (hasDesc d.tree "attributes")).flatMap (fun z =>
          ((Query.children d.tree z).filter (hasDesc d.tree "attribute")).filter
            (fun w => (Query.children d.tree w).any fun v => fullmatch xmlnsRe (d.text v)))), none⟩ := by
  obtain ⟨f1, hc1, _⟩ := compile_desc (V := Unit) X "start_tag" wStart
  obtain ⟨f2, hc2, _⟩ := compile_desc (V := Unit) X "attributes" wAttributes
  have e1 : axisText false axKids ++ valueFilter false 'd' ["start_tag".toList] = "*[d:start_tag]".toList := by decide +kernel
  have e2 : axisText false axKids ++ valueFilter false 'd' ["attributes".toList] = "*[d:attributes]".toList := by decide +kernel
  have h1 : ∀ x, findAll X (d.env (some (xmlnsPredicates d))) "*[d:start_tag]".toList x =
      ⟨(Query.children d.tree x).filter (hasDesc d.tree "start_tag"), none⟩ := by
    intro x; rw [← e1]; exact findAll_desc X _ x axKids rfl (by decide) _ rfl _ wStart
  have h2 : ∀ x, findAll X (d.env (some (xmlnsPredicates d))) "*[d:attributes]".toList x =
      ⟨(Query.children d.tree x).filter (hasDesc d.tree "attributes"), none⟩ := by
    intro x; rw [← e2]; exact findAll_desc X _ x axKids rfl (by decide) _ rfl _ wAttributes
  rw [e1] at hc1
  rw [e2] at hc2
  -- the last phrase
  obtain ⟨f3, hc3⟩ : ∃ phs, (compile X "*[d:attribute]{*[p:is_xmlns]}".toList : Except PyErr (List (Phrase Unit))) = .ok phs := by
    cases hc : (compile X "*[d:attribute]{*[p:is_xmlns]}".toList : Except PyErr (List (Phrase Unit))) with
    | ok phs => exact ⟨phs, rfl⟩
    | error e =>
      have := findAll_attr_is X d x
      unfold findAll at this
      rw [hc] at this
      have h := congrArg Run.exc this
      cases h
  have hl3 : ∀ ph ∈ f3, PerNode ph := by
    obtain ⟨f, hcf, hmf⟩ := compile_desc (V := Unit) X "attribute" wAttribute
    have hone : OneFilter X (valueFilter false 'd' ["attribute".toList]) f := by
      rw [valueFilter_eq] at hmf ⊢
      exact .one _ f (lit_valueFilter false 'd' (by decide) _) (last_valueFilter false 'd' _ wAttribute) hmf
    have hb : Braced "*[p:is_xmlns]".toList := braced_of _ (by decide)
    have := compile_sub X false axKids hone hb
    rw [show axisText false axKids ++ valueFilter false 'd' ["attribute".toList] ++ '{' :: ("*[p:is_xmlns]".toList ++ ['}'])
      = "*[d:attribute]{*[p:is_xmlns]}".toList from by decide +kernel, hc3] at this
    cases hs : (subFunc (compile X "*[p:is_xmlns]".toList : Except PyErr (List (Phrase Unit)))) with
    | error e => rw [hs] at this; cases this
    | ok g =>
      rw [hs] at this
      cases this
      intro ph hph
      simp only [List.mem_singleton] at hph
      subst hph
      exact Or.inl (show axKids.key ∉ _ by decide)
  have p12 := complete_of_plain "*[d:start_tag]".toList (by decide)
  have p3 := complete_of_plain "*[d:start_tag]/*[d:attributes]".toList (by decide)
  have e12 : ∀ x, findAll X (d.env (some (xmlnsPredicates d))) "*[d:start_tag]/*[d:attributes]".toList x =
      ⟨((Query.children d.tree x).filter (hasDesc d.tree "start_tag")).flatMap (fun y =>
        (Query.children d.tree y).filter (hasDesc d.tree "attributes")), none⟩ := by
    intro x
    rw [show "*[d:start_tag]/*[d:attributes]".toList = "*[d:start_tag]".toList ++ '/' :: "*[d:attributes]".toList from by
      decide +kernel]
    rw [C39_compose_nodes_partial X _ _ _ (by decide) (by decide) p12.1 p12.2 x _ _ hc1 hc2 (by
      intro ph hph
      simp only [List.mem_singleton] at hph
      subst hph
      exact Or.inl (show axKids.key ∉ _ by decide))]
    rw [h1, show findAll X (d.env (some (xmlnsPredicates d))) "*[d:attributes]".toList = fun x =>
      ⟨(Query.children d.tree x).filter (hasDesc d.tree "attributes"), none⟩ from funext h2, bind_done]
  obtain ⟨f12, hc12⟩ : ∃ phs, (compile X "*[d:start_tag]/*[d:attributes]".toList : Except PyErr (List (Phrase Unit))) = .ok phs := by
    cases hc : (compile X "*[d:start_tag]/*[d:attributes]".toList : Except PyErr (List (Phrase Unit))) with
    | ok phs => exact ⟨phs, rfl⟩
    | error e =>
      have := e12 x
      unfold findAll at this
      rw [hc] at this
      have h := congrArg Run.exc this
      cases h
  rw [show qXmlns = "*[d:start_tag]/*[d:attributes]".toList ++ '/' :: "*[d:attribute]{*[p:is_xmlns]}".toList from by
    decide +kernel]
  rw [C39_compose_nodes_partial X _ _ _ (by decide) (by decide) p3.1 p3.2 x _ _ hc12 hc3 hl3, e12,
    show findAll X (d.env (some (xmlnsPredicates d))) "*[d:attribute]{*[p:is_xmlns]}".toList = _ from
      funext (findAll_attr_is X d), bind_done, List.flatMap_assoc]

end Pawpaw.Props
