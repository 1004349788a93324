import Verif.Lemmas.LazyQuery
import Verif.Model.Query
/-!
# C115: queries on objects in memory, item by item
-/
set_option linter.unusedSectionVars false
namespace Pawpaw
namespace Props
open Heap Query HeapSpec TreeSpec LazySpec LazyQuery

section
variable {V : Type} [DecidableEq V]

/-- `filter` over the candidates of one Ito, and then the rest. -/
def filtThen (f : EIto → Except PyErr Bool) (R : Run Path) : List EIto → Run Path
  | [] => R
  | x :: xs =>
    match f x with
    | .error e => .raise e
    | .ok true => .yield x.2 (filtThen f R xs)
    | .ok false => filtThen f R xs

/-- A phrase whose axis has a loop. -/
def loopRun (a : Axis) (t : Node) (f : EIto → Except PyErr Bool) (e : Option PyErr) : List Path → Run Path
  | [] => ⟨[], e⟩
  | i :: is =>
    match a.step t i with
    | .error err => .raise err
    | .ok ns => filtThen f (loopRun a t f e is) (a.toEcs ns (some i))

theorem filtThen_filter (f : EIto → Except PyErr Bool) (e : Option PyErr) : ∀ (xs ys : List EIto),
    (Run.filterList f e (xs ++ ys)).map Prod.snd = filtThen f ((Run.filterList f e ys).map Prod.snd) xs
  | [], ys => rfl
  | x :: xs, ys => by
    rw [List.cons_append, Run.filterList, filtThen]
    cases hf : f x with
    | error err => rfl
    | ok b =>
      cases b with
      | true =>
        dsimp only
        rw [← filtThen_filter f e xs ys]; rfl
      | false => exact filtThen_filter f e xs ys

theorem loopRun_eq (a : Axis) (t : Node) (f : EIto → Except PyErr Bool) (e : Option PyErr) : ∀ l : List Path,
    (Run.filter f (Run.bindList (fun i => match a.step t i with
      | .error e => .raise e
      | .ok ns => ⟨a.toEcs ns (some i), none⟩) e l)).map Prod.snd = loopRun a t f e l
  | [] => rfl
  | i :: is => by
    rw [Run.bindList, loopRun]
    cases hs : a.step t i with
    | error err => rfl
    | ok ns =>
      dsimp only
      rw [← loopRun_eq a t f e is]
      exact filtThen_filter f _ _ _

variable {h : Heap} {r : Nat} {t : Node} (H : Holds h r t)
include H

/-- What a chain still gives, as a run over paths. -/
def Comes (h : Heap) (r : Nat) (t : Node) (c : Search) (R : Run Path) : Prop :=
  (∀ q ∈ R.out, IsNode t q) ∧ Gen (fun n => pull n h) c (R.out.map (ob h r)) R.exc

/-- The test of a phrase in memory is that of the phrase on the tree. -/
def Agrees (h : Heap) (r : Nat) (t : Node) (ph : LPhrase) (f : EIto → Except PyErr Bool) : Prop :=
  ∀ e p, IsNode t p → ph.test h e (ob h r p) = f (e, p)

theorem toEcs_nodes (a : Axis) {p : Path} (hp : IsNode t p) {ns : List Path} (hns : ∀ q ∈ ns, IsNode t q) :
    ∀ x ∈ a.toEcs ns (some p), IsNode t x.2 := by
  have en : ∀ (ps : List Path) (e : Nat), (∀ q ∈ ps, IsNode t q) → ∀ x ∈ enumFrom e ps, IsNode t x.2 := by
    intro ps
    induction ps with
    | nil => intro e _ x hx; cases hx
    | cons q qs ih =>
      intro e hq x hx
      rw [enumFrom] at hx
      rcases List.mem_cons.mp hx with rfl | hx
      · exact hq q List.mem_cons_self
      · exact ih (e + 1) (fun y hy => hq y (List.mem_cons_of_mem _ hy)) x hx
  intro x hx
  unfold Axis.toEcs at hx
  dsimp only at hx
  cases ns with
  | nil =>
    split at hx
    · simp only [List.mem_singleton] at hx; rw [hx]; exact hp
    · dsimp only at hx
      split at hx
      · simp only [List.mem_singleton] at hx; rw [hx]; exact hp
      · cases hx
  | cons q qs =>
    have hq := hns q List.mem_cons_self
    have hqs : ∀ y ∈ qs, IsNode t y := fun y hy => hns y (List.mem_cons_of_mem _ hy)
    split at hx
    · dsimp only at hx
      split at hx
      · rcases List.mem_cons.mp hx with rfl | hx
        · exact hp
        · rcases List.mem_cons.mp hx with rfl | hx
          · exact hq
          · exact en qs 2 hqs x hx
      · rcases List.mem_cons.mp hx with rfl | hx
        · exact hp
        · exact en qs 1 hqs x hx
    · dsimp only at hx
      rcases List.mem_append.mp hx with hx | hx
      · exact en (q :: qs) 0 hns x hx
      · split at hx
        · simp only [List.mem_singleton] at hx; rw [hx]; exact hp
        · cases hx

/-- The Ito a phrase is at: its candidates, filtered, and then the rest. -/
theorem loop_cur {ph : LPhrase} {src : Search} {f : EIto → Except PyErr Bool} (hf : Agrees h r t ph f) {i : Nat} {R : Run Path}
    (hR : Comes h r t (.loop ph src none) R) : ∀ (xs : List EIto) (s : Ecs), (∀ x ∈ xs, IsNode t x.2) →
    Gen (fun n => Ecs.next ph.axis i n h) s (xs.map (fun x => (x.1, ob h r x.2))) none →
    Comes h r t (.loop ph src (some (i, s))) (filtThen f R xs)
  | [], s, _, hg => by
    rw [List.map_nil] at hg
    cases hg with
    | ended h' =>
      refine ⟨hR.1, hR.2.stepEv h' (fun n hn => ?_)⟩
      rw [pull, hn]
  | (e, p) :: xs, s, hx, hg => by
    rw [List.map_cons] at hg
    cases hg with
    | @item _ s' _ _ _ h' hr =>
      have hp := hx _ List.mem_cons_self
      have ht := hf e p hp
      have ih := loop_cur hf hR xs s' (fun y hy => hx y (List.mem_cons_of_mem _ hy)) hr
      rw [filtThen]
      cases hb : f (e, p) with
      | error err =>
        rw [hb] at ht
        refine ⟨(by intro q hq; cases hq), .raised (h'.bind (fun n hn => ?_))⟩
        rw [pull, hn]; dsimp only; rw [ht]
      | ok b =>
        rw [hb] at ht
        cases b with
        | true =>
          refine ⟨?_, .item (h'.bind (fun n hn => ?_)) ih.2⟩
          · intro q hq
            rcases List.mem_cons.mp hq with rfl | hq
            · exact hp
            · exact ih.1 q hq
          · rw [pull, hn]; dsimp only; rw [ht]
        | false =>
          refine ⟨ih.1, ih.2.stepEv h' (fun n hn => ?_)⟩
          rw [pull, hn]; dsimp only; rw [ht]

/-- A phrase whose axis has a loop. -/
theorem loop_comes {ph : LPhrase} {f : EIto → Except PyErr Bool} (hf : Agrees h r t ph f)
    (hk : ph.axis.key ≠ .self ∧ ph.axis.key ≠ .dedup ∧ ph.axis.key ≠ .preceding ∧ ph.axis.key ≠ .following)
    (e : Option PyErr) : ∀ (ps : List Path) (src : Search), Comes h r t src ⟨ps, e⟩ →
    Comes h r t (.loop ph src none) (loopRun ph.axis t f e ps)
  | [], src, hs => by
    have hg := hs.2
    dsimp only at hg
    rw [List.map_nil] at hg
    refine ⟨(by intro q hq; cases hq), ?_⟩
    rw [loopRun]
    cases hg with
    | ended h' => exact .ended (h'.bind (fun n hn => by rw [pull]; rw [hn]))
    | raised h' => exact .raised (h'.bind (fun n hn => by rw [pull]; rw [hn]))
  | i :: is, src, hs => by
    obtain ⟨hn, hg⟩ := hs
    dsimp only at hg hn
    rw [List.map_cons] at hg
    have hi := hn i List.mem_cons_self
    cases hg with
    | @item _ src' _ _ _ h' hr =>
      have ih := loop_comes hf hk e is src' ⟨fun q hq => hn q (List.mem_cons_of_mem _ hq), hr⟩
      have hc := cands_ev H ph.axis hi hk
      rw [loopRun]
      cases hst : ph.axis.step t i with
      | error err =>
        rw [hst] at hc
        refine ⟨(by intro q hq; cases hq), .raised (h'.both hc (fun n h1 h2 => ?_))⟩
        rw [pull, h1]; dsimp only; rw [h2]
      | ok ns =>
        rw [hst] at hc
        obtain ⟨hns, c, h1, h2⟩ := hc
        have hecs := ecs_gen (a := ph.axis) (s := ob h r i) h2
        rw [ecsList_ob H ph.axis hi hns] at hecs
        have := loop_cur H hf (i := ob h r i) ih (ph.axis.toEcs ns (some i)) _ (toEcs_nodes H ph.axis hi hns) hecs
        refine ⟨this.1, ?_⟩
        refine this.2.stepEv (f := fun n => (pull n h src).bind (fun a => (cands n h ph.axis (ob h r i)).map (fun b => (a, b))))
          (r := (.item (ob h r i) src', .ok c)) ?_ (fun n hh => ?_)
        · obtain ⟨N, hN⟩ := h'
          obtain ⟨M, hM⟩ := h1
          refine ⟨N + M, fun n hn => ?_⟩
          have e1 := hN n (by omega)
          have e2 := hM n (by omega)
          dsimp only at e1 e2 ⊢
          rw [e1, e2]; rfl
        · cases hp : pull n h src with
          | none => rw [hp] at hh; cases hh
          | some o =>
            rw [hp] at hh
            cases hq : cands n h ph.axis (ob h r i) with
            | none => rw [hq] at hh; cases hh
            | some b =>
              rw [hq] at hh
              simp only [Option.bind_some, Option.map_some, Option.some.injEq, Prod.mk.injEq] at hh
              rw [pull, hp, hh.1]
              dsimp only
              rw [hq, hh.2]

/-- A phrase with the axis `'.'`. -/
theorem self_comes {ph : LPhrase} {f : EIto → Except PyErr Bool} (hf : Agrees h r t ph f) (x : Option PyErr) :
    ∀ (ps : List Path) (src : Search) (e : Nat), Comes h r t src ⟨ps, x⟩ →
    Comes h r t (.self ph src e) ((Run.filterList f x (enumFrom e ps)).map Prod.snd)
  | [], src, e, hs => by
    have hg := hs.2
    dsimp only at hg
    rw [List.map_nil] at hg
    refine ⟨(by intro q hq; cases hq), ?_⟩
    rw [enumFrom]
    cases hg with
    | ended h' => exact .ended (h'.bind (fun n hn => by rw [pull]; rw [hn]))
    | raised h' => exact .raised (h'.bind (fun n hn => by rw [pull]; rw [hn]))
  | i :: is, src, e, hs => by
    obtain ⟨hn, hg⟩ := hs
    dsimp only at hg hn
    rw [List.map_cons] at hg
    have hi := hn i List.mem_cons_self
    have ht := hf e i hi
    cases hg with
    | @item _ src' _ _ _ h' hr =>
      have ih := self_comes hf x is src' (e + 1) ⟨fun q hq => hn q (List.mem_cons_of_mem _ hq), hr⟩
      rw [enumFrom, Run.filterList]
      cases hb : f (e, i) with
      | error err =>
        rw [hb] at ht
        refine ⟨(by intro q hq; cases hq), .raised (h'.bind (fun n hn => ?_))⟩
        rw [pull, hn]; dsimp only; rw [ht]
      | ok b =>
        rw [hb] at ht
        cases b with
        | true =>
          refine ⟨?_, .item (h'.bind (fun n hn => ?_)) ih.2⟩
          · intro q hq
            rcases List.mem_cons.mp hq with rfl | hq
            · exact hi
            · exact ih.1 q hq
          · rw [pull, hn]; dsimp only; rw [ht]
        | false =>
          refine ⟨ih.1, ih.2.stepEv h' (fun n hn => ?_)⟩
          rw [pull, hn]; dsimp only; rw [ht]

theorem list_comes : ∀ ps : List Path, (∀ q ∈ ps, IsNode t q) → Comes h r t (.list (ps.map (ob h r))) ⟨ps, none⟩
  | [], hp => ⟨hp, .ended (.now (fun n => by rw [List.map_nil]; rw [pull]))⟩
  | p :: ps, hp => ⟨hp, .item (.now (fun n => by rw [List.map_cons]; rw [pull]))
      (list_comes ps (fun q hq => hp q (List.mem_cons_of_mem _ hq))).2⟩

theorem end_comes {ph : LPhrase} : Comes h r t (.loop ph (.list []) none) ⟨[], none⟩ := by
  have h1 := list_comes H [] (by intro q hq; cases hq)
  refine ⟨h1.1, .ended ⟨2, fun n hn => ?_⟩⟩
  obtain ⟨m, rfl⟩ : ∃ m, n = m + 1 + 1 := ⟨n - 2, by omega⟩
  rfl

theorem filtThen_nil (f : EIto → Except PyErr Bool) (xs : List EIto) :
    filtThen f ⟨[], none⟩ xs = (Run.filterList f none xs).map Prod.snd := by
  have := filtThen_filter f none xs []
  rw [List.append_nil] at this
  rw [this]; rfl

/-- A phrase with the axis `'><'`, `'<<<'` or `'>>>'`, that has read `acc`. -/
theorem gather_comes {ph : LPhrase} {f : EIto → Except PyErr Bool} (hf : Agrees h r t ph f)
    (hk : ph.axis.key = .dedup ∨ ph.axis.key = .preceding ∨ ph.axis.key = .following)
    (x : Option PyErr) : ∀ (ps : List Path) (src : Search) (acc : List Path), (∀ q ∈ acc, IsNode t q) →
    (ph.axis.key ≠ .dedup → ∀ q ∈ acc, q ≠ []) → Comes h r t src ⟨ps, x⟩ →
    Comes h r t (.gather ph src (acc.map (ob h r)))
      (((ph.axis.findRun t ⟨acc ++ ps, x⟩).filter f).map Prod.snd)
  | [], src, acc, hacc, hne, hs => by
    have hg := hs.2
    dsimp only at hg
    rw [List.map_nil] at hg
    rw [List.append_nil]
    cases hg with
    | @raised _ e h' =>
      have : ph.axis.findRun t ⟨acc, some e⟩ = .raise e := by
        unfold Axis.findRun
        rcases hk with hk | hk
        · rw [hk]
        · have hnd : acc.find? (fun i => decide (Query.parent i = none)) = none := by
            rw [List.find?_eq_none]
            intro q hq
            have := hne (by rcases hk with hk | hk <;> rw [hk] <;> simp) q hq
            simp [Query.parent, this]
          rcases hk with hk | hk <;> rw [hk] <;> simp only [hnd]
      rw [this]
      exact ⟨(by intro q hq; cases hq), .raised (h'.bind (fun n hn => by rw [pull]; rw [hn]))⟩
    | ended h' =>
      by_cases hd : ph.axis.key = .dedup
      · have hnodes : ∀ q ∈ (if ph.axis.rev then (Query.dedup t [] acc).reverse else Query.dedup t [] acc), IsNode t q := by
          intro q hq
          refine dedup_nodes H acc [] hacc (by intro q hq; cases hq) q ?_
          cases hr : ph.axis.rev <;> rw [hr] at hq <;> simpa using hq
        have h1 := self_comes H hf none _ _ 0 (list_comes H _ hnodes)
        have e1 : ((ph.axis.findRun t ⟨acc, none⟩).filter f).map Prod.snd = (Run.filterList f none (enumFrom 0
            (if ph.axis.rev then (Query.dedup t [] acc).reverse else Query.dedup t [] acc))).map Prod.snd := by
          unfold Axis.findRun
          rw [hd]; rfl
        rw [e1]
        refine ⟨h1.1, h1.2.stepEv h' (fun n hn => ?_)⟩
        have e2 := dedup_ob H acc [] hacc (by intro q hq; cases hq)
        rw [List.map_nil] at e2
        rw [pull, hn]
        dsimp only
        rw [if_pos hd, e2]
        cases ph.axis.rev <;> simp
      · have hk2 : ph.axis.key = .preceding ∨ ph.axis.key = .following := by
          rcases hk with hk | hk
          · exact absurd hk hd
          · exact hk
        have hnd : acc.find? (fun i => decide (Query.parent i = none)) = none := by
          rw [List.find?_eq_none]
          intro q hq
          have := hne hd q hq
          simp [Query.parent, this]
        cases hl : acc.getLast? with
        | none =>
          have e1 : ph.axis.findRun t ⟨acc, none⟩ = .raise .nameError := by
            unfold Axis.findRun
            rcases hk2 with hk2 | hk2 <;> rw [hk2] <;> simp only [hnd, hl]
          rw [e1]
          refine ⟨(by intro q hq; cases hq), .raised (h'.bind (fun n hn => ?_))⟩
          rw [pull, hn]
          dsimp only
          rw [if_neg hd, List.getLast?_map, hl]; rfl
        | some p =>
          have hpm : p ∈ acc := List.mem_of_getLast? hl
          obtain ⟨ns, hns, ⟨c, h1, h2⟩, he⟩ := tail_ev H ph.axis (hacc p hpm) (hne hd p hpm) hk2
          have e1 : ph.axis.findRun t ⟨acc, none⟩ = ⟨ph.axis.toEcs ns (some p), none⟩ := by
            rw [← he]
            unfold Axis.findRun
            rcases hk2 with hk2 | hk2 <;> rw [hk2] <;> simp only [hnd, hl]
          have hecs := ecs_gen (a := ph.axis) (s := ob h r p) h2
          rw [ecsList_ob H ph.axis (hacc p hpm) hns] at hecs
          have := loop_cur H hf (i := ob h r p) (end_comes H) _ _ (toEcs_nodes H ph.axis (hacc p hpm) hns) hecs
          rw [filtThen_nil H] at this
          rw [e1]
          refine ⟨this.1, ?_⟩
          refine this.2.stepEv (f := fun n => (pull n h src).bind (fun a => (tail n h ph.axis (ob h r p)).map (fun b => (a, b))))
            (r := (.ended, .ok c)) ?_ (fun n hh => ?_)
          · obtain ⟨N, hN⟩ := h'
            obtain ⟨M, hM⟩ := h1
            refine ⟨N + M, fun n hn => ?_⟩
            have e1 := hN n (by omega)
            have e2 := hM n (by omega)
            dsimp only at e1 e2 ⊢
            rw [e1, e2]; rfl
          · cases hp : pull n h src with
            | none => rw [hp] at hh; cases hh
            | some o =>
              rw [hp] at hh
              cases hq : tail n h ph.axis (ob h r p) with
              | none => rw [hq] at hh; cases hh
              | some b =>
                rw [hq] at hh
                simp only [Option.bind_some, Option.map_some, Option.some.injEq, Prod.mk.injEq] at hh
                rw [pull, hp, hh.1]
                dsimp only
                rw [if_neg hd, List.getLast?_map, hl]
                dsimp only [Option.map_some]
                rw [hq, hh.2]
  | i :: is, src, acc, hacc, hne, hs => by
    obtain ⟨hn, hg⟩ := hs
    dsimp only at hg hn
    rw [List.map_cons] at hg
    have hi := hn i List.mem_cons_self
    cases hg with
    | @item _ src' _ _ _ h' hr =>
      by_cases hroot : ph.axis.key ≠ .dedup ∧ i = []
      · have hk2 : ph.axis.key = .preceding ∨ ph.axis.key = .following := by
          rcases hk with hk | hk
          · exact absurd hk hroot.1
          · exact hk
        have hpar : h.parent (ob h r i) = none := by rw [ob_parent H hi, hroot.2]; rfl
        have hfind : (acc ++ i :: is).find? (fun i => decide (Query.parent i = none)) = some i := by
          rw [List.find?_append, List.find?_eq_none.mpr, Option.none_or, List.find?_cons_of_pos]
          · simp [hroot.2, Query.parent]
          · intro q hq
            have := hne hroot.1 q hq
            simp [Query.parent, this]
        have e1 : ph.axis.findRun t ⟨acc ++ i :: is, x⟩ = ⟨ph.axis.toEcs [] (some i), none⟩ := by
          unfold Axis.findRun
          rcases hk2 with hk2 | hk2 <;> rw [hk2] <;> simp only [hfind]
        have hecs := ecs_gen (a := ph.axis) (s := ob h r i) (list_gen (h := h) [])
        rw [show ([] : List Nat) = ([] : List Path).map (ob h r) from rfl,
          ecsList_ob H ph.axis hi (by intro q hq; cases hq)] at hecs
        have := loop_cur H hf (i := ob h r i) (end_comes H) _ _ (toEcs_nodes H ph.axis hi (by intro q hq; cases hq)) hecs
        rw [filtThen_nil H] at this
        rw [e1]
        refine ⟨this.1, this.2.stepEv h' (fun n hn => ?_)⟩
        rw [pull, hn]
        dsimp only
        rw [if_pos ⟨hroot.1, hpar⟩]; rfl
      · have ih := gather_comes hf hk x is src' (acc ++ [i])
          (by
            intro q hq
            rcases List.mem_append.mp hq with hq | hq
            · exact hacc q hq
            · rw [List.mem_singleton] at hq; exact hq ▸ hi)
          (by
            intro hd q hq
            rcases List.mem_append.mp hq with hq | hq
            · exact hne hd q hq
            · rw [List.mem_singleton] at hq
              intro e
              exact hroot ⟨hd, hq ▸ e⟩)
          ⟨fun q hq => hn q (List.mem_cons_of_mem _ hq), hr⟩
        rw [List.append_assoc, List.singleton_append] at ih
        refine ⟨ih.1, ih.2.stepEv h' (fun n hn => ?_)⟩
        rw [pull, hn]
        dsimp only
        rw [if_neg, List.map_append, List.map_singleton]
        rintro ⟨hd, hpar⟩
        refine hroot ⟨hd, ?_⟩
        rw [ob_parent H hi] at hpar
        rcases path_cases i with e | ⟨q, j, rfl⟩
        · exact e
        · rw [parent_snoc] at hpar; cases hpar

/-- One phrase after another. -/
theorem enter_comes {ph : LPhrase} {f : EIto → Except PyErr Bool} (hf : Agrees h r t ph f) {src : Search} {R : Run Path}
    (hs : Comes h r t src R) :
    Comes h r t (enter src ph) (((ph.axis.findRun t R).filter f).map Prod.snd) := by
  obtain ⟨ps, x⟩ := R
  have loop : ph.axis.key ≠ .self ∧ ph.axis.key ≠ .dedup ∧ ph.axis.key ≠ .preceding ∧ ph.axis.key ≠ .following →
      ph.axis.findRun t ⟨ps, x⟩ = Run.bind ⟨ps, x⟩ (fun i => match ph.axis.step t i with
        | .error e => .raise e
        | .ok ns => ⟨ph.axis.toEcs ns (some i), none⟩) → enter src ph = .loop ph src none →
      Comes h r t (enter src ph) (((ph.axis.findRun t ⟨ps, x⟩).filter f).map Prod.snd) := by
    intro hk e1 e2
    rw [e1, e2, Run.bind]
    dsimp only
    have := loopRun_eq ph.axis t f x ps
    rw [this]
    exact loop_comes H hf hk x ps src hs
  cases hkey : ph.axis.key with
  | self =>
    have e1 : enter src ph = .self ph src 0 := by unfold enter; rw [hkey]
    have e2 : ph.axis.findRun t ⟨ps, x⟩ = ⟨enumFrom 0 ps, x⟩ := by unfold Axis.findRun; rw [hkey]; rfl
    rw [e1, e2]
    exact self_comes H hf x ps src 0 hs
  | dedup | preceding | following =>
    have e1 : enter src ph = .gather ph src [] := by unfold enter; rw [hkey]
    rw [e1]
    exact gather_comes H hf (by rw [hkey]; simp) x ps src [] (by intro q hq; cases hq) (by intro _ q hq; cases hq) hs
  | _ =>
    refine loop (by rw [hkey]; simp) ?_ ?_
    · unfold Axis.findRun; rw [hkey]; rfl
    · unfold enter; rw [hkey]

/-- Phrases, one after another. -/
theorem phrases_comes {env : Env V} (ht : env.tree = t) : ∀ (qs : List (LPhrase × Phrase V)),
    (∀ q ∈ qs, q.1.axis = q.2.axis ∧ Agrees h r t q.1 (fun ec => q.2.combined (env, ec))) →
    ∀ (src : Search) (R : Run Path), Comes h r t src R →
    Comes h r t ((qs.map Prod.fst).foldl enter src) (runPhrases env (qs.map Prod.snd) R)
  | [], _, _, _, hs => hs
  | q :: qs, hq, src, R, hs => by
    obtain ⟨ha, hf⟩ := hq q List.mem_cons_self
    have h1 := enter_comes H hf hs
    rw [ha] at h1
    have h2 := phrases_comes ht qs (fun x hx => hq x (List.mem_cons_of_mem _ hx)) _ _ h1
    have e : q.2.findAll env R =
        ((q.2.axis.findRun t R).filter (fun ec => q.2.combined (env, ec))).map Prod.snd := by
      unfold Phrase.findAll; rw [ht]
    show Comes h r t _ (runPhrases env (qs.map Prod.snd) (q.2.findAll env R))
    rw [e]
    exact h2

omit H in
theorem gen_found {c : Search} {xs : List Nat} {e : Option PyErr} (hg : Gen (fun n => pull n h) c xs e) :
    Ev (fun n => forFound (fun h _ => (h, .ok ())) n h c) (xs, e, h) := by
  induction hg with
  | ended h' => exact h'.bind (fun n hn => by rw [forFound]; rw [hn])
  | raised h' => exact h'.bind (fun n hn => by rw [forFound]; rw [hn])
  | item h' _ ih => exact h'.both ih (fun n h1 h2 => by rw [forFound, h1]; dsimp only; rw [h2])

omit H in
theorem objAt_isNode (hl : Looks h r t) {p : Path} {x : Nat} (hx : objAt h r p = some x) : IsNode t p := by
  have main : ∀ (p : Path) (r : Nat) (t : Node), Looks h r t → ∀ x, objAt h r p = some x → IsNode t p := by
    intro p
    induction p with
    | nil => intro r t _ x _; exact isNode_nil t
    | cons i p ih =>
      intro r t hl x hx
      rw [objAt] at hx
      cases hc : (h.kids r)[i]? with
      | none => rw [hc] at hx; cases hx
      | some c =>
        rw [hc] at hx
        obtain ⟨s, d, v, ks⟩ := t
        have hl' := hl
        rw [Looks] at hl'
        have hlen := looksAll_length hl'.2.2.2
        obtain ⟨hi, _⟩ := List.getElem?_eq_some_iff.mp hc
        have hk : (Node.mk s d v ks).kids[i]? = some (ks[i]'(by omega)) := List.getElem?_eq_getElem (by
          show i < ks.length; omega)
        obtain ⟨c', hc', hlc⟩ := looks_kid hl hk
        rw [hc, Option.some.injEq] at hc'
        subst hc'
        obtain ⟨n, hn⟩ := isNode_iff.mp (ih c _ hlc x hx)
        refine isNode_iff.mpr ⟨n, ?_⟩
        rw [Node.get?_cons, hk]
        exact hn
  exact main p r t hl x hx

end

/-- In a memory that does not change, `[*query.find_all(x)]` — run as the chain of generators it is, one `next` after
another, over the objects in memory — gives, and raises, what `find_all` gives on the tree as a value: the objects at the
paths found, in their order, and then the exception, if any.  `qs` are the phrases of the query, each with its test as it
runs in memory and as a filter on the tree. -/
theorem C115_quiet {V : Type} [DecidableEq V] {h : Heap} {r x : Nat} {t : Node} {p : Path} (hok : OK h) (hr : r < h.next) (hroot : h.parent r = none)
    (hl : Looks h r t) (env : Env V) (ht : env.tree = t) (qs : List (LPhrase × Phrase V))
    (haxis : ∀ q ∈ qs, q.1.axis = q.2.axis)
    (htest : ∀ q ∈ qs, ∀ (e : Nat) (p' : Path) (y : Nat), objAt h r p' = some y → q.1.test h e y = q.2.combined (env, (e, p')))
    (hx : objAt h r p = some x) :
    ∃ (xs : List Nat) (N : Nat), (∀ n, N ≤ n → listFound n h (begin (qs.map Prod.fst) x) =
        some (xs, (runPhrases env (qs.map Prod.snd) ⟨[p], none⟩).exc)) ∧
      xs.map some = (runPhrases env (qs.map Prod.snd) ⟨[p], none⟩).out.map (objAt h r) := by
  have H : Holds h r t := ⟨hok, hr, hroot, hl⟩
  have hp := objAt_isNode hl hx
  have ex : ob h r p = x := by rw [ob, hx]; rfl
  have h0 := list_comes H [p] (by intro q hq; rw [List.mem_singleton] at hq; exact hq ▸ hp)
  rw [List.map_singleton, ex] at h0
  have h1 := phrases_comes H ht qs (fun q hq => ⟨haxis q hq, fun e p' hp' => htest q hq e p' _ (ob_objAt H hp')⟩) _ _ h0
  obtain ⟨N, hN⟩ := gen_found h1.2
  refine ⟨(runPhrases env (qs.map Prod.snd) ⟨[p], none⟩).out.map (ob h r), N, fun n hn => ?_, ?_⟩
  · have := hN n hn
    dsimp only at this
    rw [listFound, begin, this]; rfl
  · rw [List.map_map]
    exact List.map_congr_left (fun q hq => (ob_objAt H (h1.1 q hq)).symm)

end Props
end Pawpaw
