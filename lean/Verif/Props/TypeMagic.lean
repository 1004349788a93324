import Verif.Spec.TypeMagic
/-!
# C98, C99: `isinstance_ex`, `issubclass_ex`, `functoid_isinstance`
-/
set_option linter.unusedSectionVars false
namespace Pawpaw
namespace Props
open TypeMagic

/-! ## `unpack` -/

theorem tm_unpackAll (ms : List Ty) : unpackAll ms = ms.flatMap unpack := by
  induction ms with
  | nil => rfl
  | cons m ms ih => simp [unpackAll, ih]

theorem tm_known {t : Ty} (h : Known t) : ∀ m ∈ unpack t, (∃ c, m = .cls c) ∨ (∃ o as, m = .gen o as) := by
  induction h with
  | cls c => intro m hm; simp [unpack] at hm; exact Or.inl ⟨c, hm⟩
  | gen o as => intro m hm; simp [unpack] at hm; exact Or.inr ⟨o, as, hm⟩
  | bar _ ih =>
    intro m hm
    rw [unpack, tm_unpackAll] at hm
    obtain ⟨k, hk, hkm⟩ := List.mem_flatMap.mp hm
    exact ih k hk m hkm

/-- The classes `isinstance` and `issubclass` are asked about are those that occur. -/
theorem tm_origins {env : Env} {t : Ty} (h : Known t) (c : Nat) :
    some c ∈ (unpack t).map (origin env) ↔ Occurs c t := by
  induction h with
  | cls d =>
    simp only [unpack, List.map_cons, List.map_nil, List.mem_singleton, origin, Option.some.injEq]
    constructor
    · rintro rfl; exact .cls
    · intro h; cases h; rfl
  | gen o as =>
    simp only [unpack, List.map_cons, List.map_nil, List.mem_singleton, origin, Option.some.injEq]
    constructor
    · rintro rfl; exact .gen
    · intro h; cases h; rfl
  | bar hk ih =>
    rw [unpack, tm_unpackAll, List.map_flatMap, List.mem_flatMap]
    constructor
    · rintro ⟨m, hm, hc⟩; exact .bar hm ((ih m hm).mp hc)
    · intro h
      cases h with
      | bar hm ho => exact ⟨_, hm, (ih _ hm).mpr ho⟩

theorem tm_somes {env : Env} {t : Ty} (h : Known t) : ∀ x ∈ (unpack t).map (origin env), ∃ c, x = some c := by
  intro x hx
  obtain ⟨m, hm, rfl⟩ := List.mem_map.mp hx
  rcases tm_known h m hm with ⟨c, rfl⟩ | ⟨o, as, rfl⟩
  · exact ⟨c, rfl⟩
  · exact ⟨o, rfl⟩

/-- Instances by the classes that occur. -/
theorem tm_inst {env : Env} {t : Ty} (h : Known t) (c : Nat) :
    Inst env c t ↔ ∃ d, Occurs d t ∧ env.sub c d = true := by
  induction h with
  | cls d =>
    constructor
    · intro h; cases h with | cls h => exact ⟨d, .cls, h⟩
    · rintro ⟨e, ho, hs⟩; cases ho; exact .cls hs
  | gen o as =>
    constructor
    · intro h; cases h with | gen h => exact ⟨o, .gen, h⟩
    · rintro ⟨e, ho, hs⟩; cases ho; exact .gen hs
  | bar hk ih =>
    constructor
    · intro h
      cases h with
      | bar hm hi =>
        obtain ⟨d, ho, hs⟩ := (ih _ hm).mp hi
        exact ⟨d, .bar hm ho, hs⟩
    · rintro ⟨d, ho, hs⟩
      cases ho with
      | bar hm ho => exact .bar hm ((ih _ hm).mpr ⟨d, ho, hs⟩)

theorem tm_anyOf {α : Type} {p : α → Except PyErr Bool} {q : α → Bool} {l : List α}
    (h : ∀ x ∈ l, p x = .ok (q x)) : anyOf p l = .ok (l.any q) := by
  induction l with
  | nil => rfl
  | cons x l ih =>
    rw [anyOf, h x (by simp)]
    cases hq : q x
    · simp only [List.any_cons, hq, Bool.false_or]
      exact ih (fun y hy => h y (by simp [hy]))
    · simp [hq]

/-- Two classes tested. -/
def tmSub (env : Env) (x y : Option Nat) : Bool :=
  match x, y with
  | some a, some b => env.sub a b
  | _, _ => false

theorem tm_issub {env : Env} {x y : Option Nat} (hx : ∃ a, x = some a) (hy : ∃ b, y = some b) :
    issub env x y = .ok (tmSub env x y) := by
  obtain ⟨a, rfl⟩ := hx
  obtain ⟨b, rfl⟩ := hy
  rfl

theorem tm_isinstance {env : Env} {t : Ty} (h : Known t) (c : Nat) :
    isinstanceEx env c t = .ok (((unpack t).map (origin env)).any (tmSub env (some c))) := by
  unfold isinstanceEx
  rw [tm_anyOf (q := fun m => tmSub env (some c) (origin env m))]
  · rw [List.any_map]; rfl
  · intro m hm
    exact tm_issub ⟨c, rfl⟩ (tm_somes h _ (List.mem_map_of_mem hm))

theorem tm_issubclass {env : Env} {a t : Ty} (ha : Known a) (h : Known t) :
    issubclassEx env a t = .ok (((unpack a).map (origin env)).any fun x =>
      ((unpack t).map (origin env)).any (tmSub env x)) := by
  unfold issubclassEx
  refine tm_anyOf ?_
  intro x hx
  refine tm_anyOf ?_
  intro y hy
  exact tm_issub (tm_somes ha x hx) (tm_somes h y hy)

theorem tm_any_sub {env : Env} {t : Ty} (h : Known t) (c : Nat) :
    (((unpack t).map (origin env)).any (tmSub env (some c))) = true ↔ Inst env c t := by
  rw [List.any_eq_true, tm_inst h]
  constructor
  · rintro ⟨x, hx, hs⟩
    obtain ⟨d, rfl⟩ := tm_somes h x hx
    exact ⟨d, (tm_origins h d).mp hx, hs⟩
  · rintro ⟨d, ho, hs⟩
    exact ⟨some d, (tm_origins h d).mpr ho, hs⟩

/-- **C98** `isinstance_ex(obj, t)` for `t` built of classes, generics and `|`, to any depth: it never raises, and
says whether `obj` is an instance of one of the alternatives. -/
theorem C98_isinstance {env : Env} {t : Ty} (h : Known t) (c : Nat) :
    ∃ b, isinstanceEx env c t = .ok b ∧ (b = true ↔ Inst env c t) :=
  ⟨_, tm_isinstance h c, tm_any_sub h c⟩

/-- **C98** Exactly what `issubclass_ex(a, t)` says: *some* class that occurs in `a` is a subclass of some class
that occurs in `t`. -/
theorem C98_issubclass_exact {env : Env} {a t : Ty} (ha : Known a) (h : Known t) :
    ∃ b, issubclassEx env a t = .ok b ∧
      (b = true ↔ ∃ c d, Occurs c a ∧ Occurs d t ∧ env.sub c d = true) := by
  refine ⟨_, tm_issubclass ha h, ?_⟩
  rw [List.any_eq_true]
  constructor
  · rintro ⟨x, hx, hs⟩
    obtain ⟨c, rfl⟩ := tm_somes ha x hx
    obtain ⟨d, ho, hd⟩ := (tm_inst h c).mp ((tm_any_sub h c).mp hs)
    exact ⟨c, d, (tm_origins ha c).mp hx, ho, hd⟩
  · rintro ⟨c, d, hc, hd, hs⟩
    exact ⟨some c, (tm_origins ha c).mpr hc, (tm_any_sub h c).mpr ((tm_inst h c).mpr ⟨d, hd, hs⟩)⟩

theorem tm_below {env : Env} (ho : env.Order) {a t : Ty} (ha : Known a) (h : Known t) :
    Below env a t ↔ ∀ c, Occurs c a → Inst env c t := by
  constructor
  · intro hb c hc
    exact hb c ((tm_inst ha c).mpr ⟨c, hc, ho.refl c⟩)
  · intro hb c hc
    obtain ⟨d, hd, hs⟩ := (tm_inst ha c).mp hc
    obtain ⟨e, he, hde⟩ := (tm_inst h d).mp (hb d hd)
    exact (tm_inst h c).mpr ⟨e, he, ho.trans c d e hs hde⟩

/-- **C98** For a single class or generic on the left, `issubclass_ex` is the subtype relation.  (Missing: a union
on the left, see `C98_union_violated`; `typing.Union`, see `C98_typing_union_violated`.) -/
theorem C98_issubclass_partial {env : Env} (ho : env.Order) {a t : Ty} {c : Nat}
    (ha : a = .cls c ∨ ∃ args, a = .gen c args) (h : Known t) :
    ∃ b, issubclassEx env a t = .ok b ∧ (b = true ↔ Below env a t) := by
  have hk : Known a := by
    rcases ha with rfl | ⟨args, rfl⟩
    · exact .cls c
    · exact .gen c args
  have hoc : ∀ d, Occurs d a ↔ d = c := by
    intro d
    rcases ha with rfl | ⟨args, rfl⟩
    · constructor
      · intro h; cases h; rfl
      · rintro rfl; exact .cls
    · constructor
      · intro h; cases h; rfl
      · rintro rfl; exact .gen
  obtain ⟨b, hb, hiff⟩ := C98_issubclass_exact hk h
  refine ⟨b, hb, hiff.trans ?_⟩
  rw [tm_below ho hk h]
  constructor
  · rintro ⟨d, e, hd, he, hs⟩ x hx
    rw [hoc] at hd hx
    subst hd; subst hx
    exact (tm_inst h _).mpr ⟨e, he, hs⟩
  · intro hb
    obtain ⟨e, he, hs⟩ := (tm_inst h c).mp (hb c ((hoc c).mpr rfl))
    exact ⟨c, e, (hoc c).mpr rfl, he, hs⟩

/-- **C98** What `issubclass_ex` denies is never a subtype (unless it is the empty union). -/
theorem C98_issubclass_no {env : Env} (ho : env.Order) {a t : Ty} (ha : Known a) (h : Known t)
    {c : Nat} (hc : Occurs c a) (hno : issubclassEx env a t = .ok false) : ¬ Below env a t := by
  intro hb
  obtain ⟨b, hb', hiff⟩ := C98_issubclass_exact (env := env) ha h
  rw [hno] at hb'
  cases hb'
  obtain ⟨d, hd, hs⟩ := (tm_inst h c).mp ((tm_below ho ha h).mp hb c hc)
  exact Bool.false_ne_true (hiff.mpr ⟨c, d, hc, hd, hs⟩)

/-- **C98 (violation)** `issubclass_ex(A | B, A)` is true whatever `B` is, so also when `A | B` is no subtype of
`A`. -/
theorem C98_union_violated {env : Env} (ho : env.Order) (a b : Nat) (hab : env.sub b a = false) :
    issubclassEx env (.bar [.cls a, .cls b]) (.cls a) = .ok true ∧
      ¬ Below env (.bar [.cls a, .cls b]) (.cls a) := by
  constructor
  · simp [issubclassEx, unpack, unpackAll, anyOf, origin, issub, ho.refl a]
  · intro h
    have := h b (.bar (m := .cls b) (by simp) (.cls (ho.refl b)))
    cases this with
    | cls h => rw [hab] at h; cases h

/-- **C98 (violation)** `isinstance_ex(obj, typing.Union[…])` (so also `typing.Optional[…]`) raises `TypeError`, for
every object, even one of the very class named. -/
theorem C98_typing_union_violated (env : Env) (c : Nat) (ms : List Ty) (a : Ty) (ha : Known a)
    {d : Nat} (hd : Occurs d a) :
    isinstanceEx env c (.union ms) = .error .typeError ∧
      issubclassEx env a (.union ms) = .error .typeError ∧
      issubclassEx env (.union ms) a = .error .typeError := by
  refine ⟨rfl, ?_, ?_⟩
  · unfold issubclassEx
    have hs := tm_somes (env := env) ha
    have hne : (unpack a).map (origin env) ≠ [] := by
      have := (tm_origins (env := env) ha d).mpr hd
      intro e; rw [e] at this; cases this
    cases hl : (unpack a).map (origin env) with
    | nil => exact absurd hl hne
    | cons x xs =>
      obtain ⟨y, rfl⟩ := hs x (by rw [hl]; simp)
      rfl
  · unfold issubclassEx
    have hs := tm_somes (env := env) ha
    have hne : (unpack a).map (origin env) ≠ [] := by
      have := (tm_origins (env := env) ha d).mpr hd
      intro e; rw [e] at this; cases this
    cases hl : (unpack a).map (origin env) with
    | nil => exact absurd hl hne
    | cons x xs =>
      obtain ⟨y, rfl⟩ := hs x (by rw [hl]; simp)
      rfl

/-! ## `functoid_isinstance` -/

/-- What is asked of a declared type. -/
def tmAsk (env : Env) : Option Ty → Ty → Except PyErr Bool
  | none, _ => .ok true
  | some _, .any => .ok true
  | some a, p => issubclassEx env a p

theorem tm_hint {env : Env} {ann : Ann} {hint t : Option Ty} (h : Declares env ann hint t) (p : Ty) :
    hintMatches env ann hint p = tmAsk env t p := by
  cases hann : ann with
  | empty =>
    have := h.hint_eq
    subst this
    cases hint with
    | none => rfl
    | some a => cases p <;> rfl
  | other =>
    have := h.hint_eq
    subst this
    cases hint with
    | none => rfl
    | some a => cases p <;> rfl
  | ty a =>
    have h1 := h.ann_eq a hann
    have h2 := h.hint_eq
    subst h1
    subst h2
    simp only [hintMatches, ite_self]
    cases p <;> rfl

theorem tm_meets {env : Env} {ann : Ann} {hint t : Option Ty} (h : Declares env ann hint t) {p : Ty}
    (hp : Known p ∨ p = .any) (ht : ∀ a, t = some a → Known a) :
    ∃ b, hintMatches env ann hint p = .ok b ∧ (b = true ↔ Meets env t p) := by
  rw [tm_hint h]
  cases t with
  | none => exact ⟨true, rfl, by simp [Meets]⟩
  | some a =>
    rcases hp with hp | rfl
    · obtain ⟨b, hb, hiff⟩ := C98_issubclass_exact (env := env) (ht a rfl) hp
      refine ⟨b, ?_, hiff.trans ?_⟩
      · cases hp <;> exact hb
      · constructor
        · intro h x hx; cases hx; exact Or.inr h
        · intro h
          rcases h a rfl with h | h
          · subst h; cases hp
          · exact h
    · exact ⟨true, rfl, by simp [Meets]⟩

theorem tm_params {env : Env} {hs : List (String × Ty)} {params : List (String × Ann)} {ps : List (Option Ty)}
    {ts : List Ty} (hlen : params.length = ps.length) (hts : params.length = ts.length)
    (hd : ∀ i (h : i < params.length) (h' : i < ps.length),
      Declares env (params[i]).2 (hintOf hs (params[i]).1) ps[i])
    (hk : ∀ a, some a ∈ ps → Known a) (ht : ∀ t ∈ ts, Known t ∨ t = .any) :
    ∃ b, paramsMatch env hs params ts = .ok b ∧
      (b = true ↔ ∀ i (h : i < ps.length) (h' : i < ts.length), Meets env ps[i] ts[i]) := by
  induction params generalizing ps ts with
  | nil =>
    cases ps with
    | nil => exact ⟨true, rfl, by simp⟩
    | cons _ _ => simp at hlen
  | cons q params ih =>
    cases ps with
    | nil => simp at hlen
    | cons p ps =>
      cases ts with
      | nil => simp at hts
      | cons t ts =>
        obtain ⟨b, hb, hiff⟩ := tm_meets (hd 0 (by simp) (by simp)) (ht t (by simp))
          (fun a ha => hk a (by simp at ha; simp [ha]))
        simp only [List.getElem_cons_zero] at hb hiff
        obtain ⟨b', hb', hiff'⟩ := ih (ps := ps) (ts := ts) (by simpa using hlen) (by simpa using hts)
          (fun i h h' => by
            have := hd (i+1) (by simpa using h) (by simpa using h')
            simpa using this)
          (fun a ha => hk a (by simp [ha])) (fun x hx => ht x (by simp [hx]))
        cases hbv : b with
        | false =>
          refine ⟨false, ?_, ?_⟩
          · rw [paramsMatch, hb, hbv]
          · constructor
            · intro h; cases h
            · intro h
              have := h 0 (by simp) (by simp)
              rw [hbv] at hiff
              exact hiff.mpr this
        | true =>
          refine ⟨b', ?_, hiff'.trans ?_⟩
          · rw [paramsMatch, hb, hbv]; exact hb'
          · constructor
            · intro h i hi hi'
              cases i with
              | zero => exact hiff.mp hbv
              | succ i => exact h i (by simpa using hi) (by simpa using hi')
            · intro h i hi hi'
              exact h (i+1) (by simpa using hi) (by simpa using hi')

/-- **C99** Exactly when a function is taken for a `Callable[[t₁, …, tₙ], r]`: it has `n` parameters (of whatever
kind), and each type it declares shares a class with the wanted one, or the wanted one is `Any`.  Nothing raises. -/
theorem C99_functoid_exact {env : Env} {f : Func} {ps : List (Option Ty)} {r : Option Ty}
    (hf : Declared env f ps r) {ts : List Ty} {rt : Ty} (hts : ∀ t ∈ ts, Known t ∨ t = .any)
    (hrt : Known rt ∨ rt = .any) :
    ∃ b, functoidIsinstance env (.functoid f) (.args ts rt) = .ok b ∧
      (b = true ↔ ps.length = ts.length ∧ Meets env r rt ∧
        ∀ i (h : i < ps.length) (h' : i < ts.length), Meets env ps[i] ts[i]) := by
  obtain ⟨params, ret, hs, hsig, hhints, hret, hlen, hd⟩ := hf.ok
  obtain ⟨b, hb, hiff⟩ := tm_meets hret hrt (fun a ha => hf.known a (Or.inr ha))
  have hfi : functoidIsinstance env (.functoid f) (.args ts rt) =
      match hintMatches env ret (hintOf hs "return") rt with
      | .error e => .error e
      | .ok false => .ok false
      | .ok true => if params.length ≠ ts.length then .ok false else paramsMatch env hs params ts := by
    simp only [functoidIsinstance, hsig, hhints]
    rfl
  rw [hfi, hb]
  cases hbv : b with
  | false =>
    rw [hbv] at hiff
    exact ⟨false, rfl, by simp only [Bool.false_eq_true, false_iff] at hiff ⊢; intro h; exact hiff h.2.1⟩
  | true =>
    dsimp only
    by_cases hl : params.length = ts.length
    · rw [if_neg (by simpa using hl)]
      obtain ⟨b', hb', hiff'⟩ := tm_params hlen hl hd (fun a ha => hf.known a (Or.inl ha)) hts
      exact ⟨b', hb', hiff'.trans ⟨fun h => ⟨by omega, hiff.mp hbv, h⟩, fun h => h.2.2⟩⟩
    · rw [if_pos (by simpa using hl)]
      refine ⟨false, rfl, ?_⟩
      simp only [Bool.false_eq_true, false_iff]
      intro h; omega

/-- **C99** A function declaring nothing, or a lambda, is taken for any `Callable` with its number of parameters,
and for no other. -/
theorem C99_undeclared {env : Env} {f : Func} {n : Nat} (hf : Declared env f (List.replicate n none) none)
    {ts : List Ty} {rt : Ty} (hts : ∀ t ∈ ts, Known t ∨ t = .any) (hrt : Known rt ∨ rt = .any) :
    functoidIsinstance env (.functoid f) (.args ts rt) = .ok (decide (n = ts.length)) := by
  obtain ⟨b, hb, hiff⟩ := C99_functoid_exact hf hts hrt
  rw [hb]
  congr 1
  rw [Bool.eq_iff_iff, hiff]
  simp only [List.length_replicate, decide_eq_true_eq, List.getElem_replicate]
  constructor
  · intro h; exact h.1
  · intro h
    exact ⟨h, by simp [Meets], by simp [Meets]⟩

/-- **C99** A function declaring exactly the wanted types is taken for the `Callable`. -/
theorem C99_declared {env : Env} (ho : env.Order) {f : Func} {ts : List Ty} {rt : Ty}
    (hf : Declared env f (ts.map some) (some rt))
    (hts : ∀ t ∈ ts, Known t ∧ ∃ c, Occurs c t) (hrt : Known rt ∧ ∃ c, Occurs c rt) :
    functoidIsinstance env (.functoid f) (.args ts rt) = .ok true := by
  obtain ⟨b, hb, hiff⟩ := C99_functoid_exact hf (fun t ht => Or.inl (hts t ht).1) (Or.inl hrt.1)
  rw [hb]
  congr 1
  rw [hiff]
  refine ⟨by simp, ?_, ?_⟩
  · intro a ha; cases ha
    obtain ⟨c, hc⟩ := hrt.2
    exact Or.inr ⟨c, c, hc, hc, ho.refl c⟩
  · intro i h h' a ha
    simp only [List.getElem_map, Option.some.injEq] at ha
    subst ha
    obtain ⟨c, hc⟩ := (hts (ts[i]'(by simpa using h)) (by simp)).2
    exact Or.inr ⟨c, c, hc, hc, ho.refl c⟩

/-- **C99** A declared return type that is a single class is believed only if it is a subtype of the wanted one, and
so is each single class declared for a parameter.  (Missing, for a user who then makes the call: parameters should
be compared the other way round, see `C99_parameters_violated`.) -/
theorem C99_types_partial {env : Env} {f : Func} {ps : List (Option Ty)} {r : Option Ty}
    (hf : Declared env f ps r) {ts : List Ty} {rt : Ty} (hts : ∀ t ∈ ts, Known t ∨ t = .any)
    (hrt : Known rt ∨ rt = .any)
    (h : functoidIsinstance env (.functoid f) (.args ts rt) = .ok true) :
    ps.length = ts.length ∧ (∀ c, r = some (.cls c) → Inst env c rt) ∧
      ∀ i (h : i < ps.length) (h' : i < ts.length) c, ps[i] = some (.cls c) → Inst env c ts[i] := by
  obtain ⟨b, hb, hiff⟩ := C99_functoid_exact hf hts hrt
  rw [h] at hb
  cases hb
  obtain ⟨hl, hr, hp⟩ := hiff.mp rfl
  have key : ∀ (t : Option Ty) (p : Ty), (Known p ∨ p = .any) → Meets env t p →
      ∀ c, t = some (.cls c) → Inst env c p := by
    intro t p hk hm c ht
    rcases hm _ ht with rfl | ⟨a, d, ha, hd, hs⟩
    · exact .any
    · cases ha
      rcases hk with hk | rfl
      · exact (tm_inst hk c).mpr ⟨d, hd, hs⟩
      · exact .any
  exact ⟨hl, key r rt hrt hr, fun i hi hi' => key _ _ (hts _ (by simp)) (hp i hi hi')⟩

/-- **C99** Whatever cannot be called, or is itself a `typing.Callable`, is not taken for one. -/
theorem C99_not_functoid (env : Env) (ts : List Ty) (rt : Ty) :
    functoidIsinstance env .other (.args ts rt) = .ok false ∧
      functoidIsinstance env .other .bare = .ok false ∧
      functoidIsinstance env .other (.dots rt) = .ok false := ⟨rfl, rfl, rfl⟩

/-- **C99 (violation)** For a class `B` under `A`: a function wanting a `B` is taken for a `Callable[[A], R]`,
which may hand it an `A`; and a function content with any `A` is refused as a `Callable[[B], R]`. -/
theorem C99_parameters_violated {env : Env} (ho : env.Order) {a b r : Nat} (hba : env.sub b a = true)
    (hab : env.sub a b = false) {f g : Func} (hf : Declared env f [some (.cls b)] (some (.cls r)))
    (hg : Declared env g [some (.cls a)] (some (.cls r))) :
    functoidIsinstance env (.functoid f) (.args [.cls a] (.cls r)) = .ok true ∧
      Inst env a (.cls a) ∧ ¬ Inst env a (.cls b) ∧
      functoidIsinstance env (.functoid g) (.args [.cls b] (.cls r)) = .ok false ∧
      Below env (.cls b) (.cls a) := by
  refine ⟨?_, .cls (ho.refl a), ?_, ?_, ?_⟩
  · obtain ⟨x, hx, hiff⟩ := C99_functoid_exact hf (ts := [.cls a]) (rt := .cls r)
      (by intro t ht; simp at ht; subst ht; exact Or.inl (.cls a)) (Or.inl (.cls r))
    rw [hx]; congr 1
    rw [hiff]
    refine ⟨rfl, ?_, ?_⟩
    · intro y hy; cases hy; exact Or.inr ⟨r, r, .cls, .cls, ho.refl r⟩
    · intro i h h' y hy
      have : i = 0 := by simp at h; omega
      subst this
      simp only [List.getElem_cons_zero, Option.some.injEq] at hy
      subst hy
      exact Or.inr ⟨b, a, .cls, .cls, hba⟩
  · intro h; cases h with | cls h => rw [hab] at h; cases h
  · obtain ⟨x, hx, hiff⟩ := C99_functoid_exact hg (ts := [.cls b]) (rt := .cls r)
      (by intro t ht; simp at ht; subst ht; exact Or.inl (.cls b)) (Or.inl (.cls r))
    rw [hx]; congr 1
    rw [← Bool.not_eq_true, hiff]
    rintro ⟨-, -, h⟩
    rcases h 0 (by simp) (by simp) _ rfl with h | ⟨c, d, hc, hd, hs⟩
    · cases h
    · cases hc; cases hd; rw [hab] at hs; cases hs
  · intro c hc
    cases hc with | cls h => exact .cls (ho.trans c b a h hba)

/-- **C99 (violation)** Asked about `Callable[..., r]`, or the bare `typing.Callable`, it raises instead of
accepting: for every function that is fit to be one. -/
theorem C99_ellipsis_violated {env : Env} {f : Func} {ps : List (Option Ty)} {rt : Ty}
    (hf : Declared env f ps none) :
    functoidIsinstance env (.functoid f) (.dots rt) = .error .typeError ∧
      functoidIsinstance env (.functoid f) .bare = .error .valueError := by
  obtain ⟨params, ret, hs, hsig, hhints, hret, hlen, hd⟩ := hf.ok
  have h : hintMatches env ret (hintOf hs "return") rt = .ok true := by rw [tm_hint hret]; rfl
  constructor
  · simp only [functoidIsinstance, hsig, hhints, h]
  · simp only [functoidIsinstance, hsig, hhints]

/-- **C99 (violation)** A function that declares what it returns by `typing.Optional[…]` or `typing.Union[…]` makes
the test raise `TypeError`, unless `Any` is wanted. -/
theorem C99_optional_violated {env : Env} {f : Func} {ms : List Ty}
    {params : List (String × Ann)} {ret : Ann} {hs : List (String × Ty)}
    (hsig : f.sig = .ok (params, ret)) (hhints : f.hints = .ok hs)
    (hret : Declares env ret (hintOf hs "return") (some (.union ms))) (ts : List Ty) {rt : Ty} (hrt : Known rt)
    {d : Nat} (hd : Occurs d rt) :
    functoidIsinstance env (.functoid f) (.args ts rt) = .error .typeError := by
  have h : hintMatches env ret (hintOf hs "return") rt = .error .typeError := by
    rw [tm_hint hret]
    have := (C98_typing_union_violated env 0 ms rt hrt hd).2.2
    cases hrt <;> exact this
  simp only [functoidIsinstance, hsig, hhints, h]

/-- Two lists of parameters alike to `functoid_isinstance`, but for names. -/
def tmAlike (env : Env) (hs hs' : List (String × Ty)) (p p' : String × Ann) : Prop :=
  ∀ t, hintMatches env p.2 (hintOf hs p.1) t = hintMatches env p'.2 (hintOf hs' p'.1) t

theorem tm_params_alike {env : Env} {hs hs' : List (String × Ty)} : ∀ (ps ps' : List (String × Ann)) (ts : List Ty),
    ps.length = ps'.length →
    (∀ i (h : i < ps.length) (h' : i < ps'.length), tmAlike env hs hs' ps[i] ps'[i]) →
    paramsMatch env hs ps ts = paramsMatch env hs' ps' ts
  | [], [], ts, _, _ => by cases ts <;> rfl
  | [], _ :: _, _, h, _ => by cases h
  | _ :: _, [], _, h, _ => by cases h
  | p :: ps, p' :: ps', [], _, _ => rfl
  | p :: ps, p' :: ps', t :: ts, hl, h => by
    unfold paramsMatch
    have h0 : hintMatches env p.2 (hintOf hs p.1) t = hintMatches env p'.2 (hintOf hs' p'.1) t :=
      h 0 (by simp) (by simp) t
    rw [h0, tm_params_alike ps ps' ts (by simpa using hl) (fun i a b => h (i + 1) (by simpa using a) (by simpa using b))]

/-- **C99** An annotation that is a class or `A | B` counts by itself: what `typing.get_type_hints` says of the name
(for a class used as a callable, the annotation of an attribute of the same name) makes no difference. -/
theorem C99_annotation_first {env : Env} {params : List (String × Ann)} {ret : Ty}
    (hp : ∀ p ∈ params, ∃ a, p.2 = .ty a ∧ ((∃ c, a = .cls c) ∨ ∃ ms, a = .bar ms))
    (hr : (∃ c, ret = .cls c) ∨ ∃ ms, ret = .bar ms) (hs hs' : List (String × Ty)) (ct : CallTy) :
    functoidIsinstance env (.functoid ⟨.ok (params, .ty ret), .ok hs⟩) ct =
      functoidIsinstance env (.functoid ⟨.ok (params, .ty ret), .ok hs'⟩) ct := by
  have key : ∀ (a : Ty), ((∃ c, a = .cls c) ∨ ∃ ms, a = .bar ms) → ∀ h h' t,
      hintMatches env (.ty a) h t = hintMatches env (.ty a) h' t := by
    rintro a (⟨c, rfl⟩ | ⟨ms, rfl⟩) h h' t <;> rfl
  cases ct with
  | bare => rfl
  | notCallable b => rfl
  | dots r => simp only [functoidIsinstance, key ret hr (hintOf hs "return") (hintOf hs' "return") r]
  | args ps r =>
    have hpm := tm_params_alike (env := env) (hs := hs) (hs' := hs') params params ps rfl (by
      intro i h h' t
      obtain ⟨a, ha, hk⟩ := hp _ (List.getElem_mem h)
      rw [ha]
      exact key a hk _ _ t)
    simp only [functoidIsinstance, key ret hr (hintOf hs "return") (hintOf hs' "return") r, hpm]

/-- An annotation without those that are neither a class nor `A | B`. -/
def tmPlain (env : Env) : Ann → Ann
  | .ty a => if isType env a then .ty a else .other
  | x => x

/-- **C99** Any other annotation (a string, a generic, `typing.Union`) counts by what `typing.get_type_hints` says of
the name only. -/
theorem C99_annotation_otherwise {env : Env} (params : List (String × Ann)) (ret : Ann) (hs : List (String × Ty))
    (ct : CallTy) :
    functoidIsinstance env (.functoid ⟨.ok (params, ret), .ok hs⟩) ct =
      functoidIsinstance env (.functoid ⟨.ok (params.map fun p => (p.1, tmPlain env p.2), tmPlain env ret), .ok hs⟩) ct := by
  have key : ∀ (a : Ann) h t, hintMatches env a h t = hintMatches env (tmPlain env a) h t := by
    intro a h t
    cases a with
    | empty => rfl
    | other => rfl
    | ty a =>
      unfold tmPlain
      dsimp only
      by_cases hi : isType env a = true
      · rw [if_pos hi]
      · rw [if_neg hi]
        unfold hintMatches
        simp only [hi, Bool.false_eq_true, if_false]
  cases ct with
  | bare => rfl
  | notCallable b => rfl
  | dots r => simp only [functoidIsinstance, ← key ret]
  | args ps r =>
    have hpm := tm_params_alike (env := env) (hs := hs) (hs' := hs) params (params.map fun p => (p.1, tmPlain env p.2)) ps
      (by simp) (by
        intro i h h' t
        rw [List.getElem_map]
        exact key _ _ t)
    simp only [functoidIsinstance, ← key ret, ← hpm, List.length_map]

/-- **C99 (violation)** A callable for which `typing.get_type_hints` raises — an object with `__call__`, a
`functools.partial` — makes the test raise the same. -/
theorem C99_no_hints_violated {env : Env} {s : List (String × Ann) × Ann} {e : PyErr} (ts : List Ty) (rt : Ty) :
    functoidIsinstance env (.functoid ⟨.ok s, .error e⟩) (.args ts rt) = .error e := rfl

/-! ## Examples: classes `0 = object`, `1 = int`, `2 = bool`, `3 = str`, `4 = list` -/

/-- `bool` is a subclass of `int`, everything of `object`. -/
def tmEnv : Env := { sub := fun a b => a == b || b == 0 || (a == 2 && b == 1) }

theorem tmEnv_order : tmEnv.Order where
  refl := by intro c; simp [tmEnv]
  trans := by
    intro a b c h1 h2
    simp only [tmEnv, Bool.or_eq_true, beq_iff_eq, Bool.and_eq_true] at h1 h2 ⊢
    omega

example : isinstanceEx tmEnv 2 (.bar [.cls 3, .bar [.gen 4 [.cls 1], .cls 1]]) = .ok true := by decide
example : isinstanceEx tmEnv 3 (.bar [.cls 1, .gen 4 [.cls 3]]) = .ok false := by decide
example : issubclassEx tmEnv (.bar [.cls 1, .cls 3]) (.cls 1) = .ok true := by decide
example : Known (.bar [.cls 3, .gen 4 [.union []]]) :=
  .bar (by intro m hm; simp at hm; rcases hm with rfl | rfl; exact .cls 3; exact .gen 4 _)

/-- `def f(a: int, b) -> "str"`. -/
def tmFun : Func :=
  { sig := .ok ([("a", .ty (.cls 1)), ("b", .empty)], .other), hints := .ok [("a", .cls 1), ("return", .cls 3)] }

theorem tmFun_ok : Declared tmEnv tmFun [some (.cls 1), none] (some (.cls 3)) where
  ok := ⟨_, _, _, rfl, rfl, ⟨rfl, by intro a h; cases h⟩, rfl, by
    intro i h h'
    match i, h, h' with
    | 0, _, _ => exact ⟨rfl, by intro a h; cases h; rfl⟩
    | 1, _, _ => exact ⟨rfl, by intro a h; cases h⟩⟩
  known := by
    intro a h
    rcases h with h | h
    · simp at h; subst h; exact .cls 1
    · cases h; exact .cls 3

example : functoidIsinstance tmEnv (.functoid tmFun) (.args [.bar [.cls 1, .cls 3], .cls 4] (.cls 3)) = .ok true := by
  decide
example : functoidIsinstance tmEnv (.functoid tmFun) (.args [.cls 2, .cls 4] (.cls 3)) = .ok false := by decide
example : functoidIsinstance tmEnv (.functoid tmFun) (.args [.cls 1] (.cls 3)) = .ok false := by decide
example : functoidIsinstance tmEnv (.functoid tmFun) (.args [.any, .any] .any) = .ok true := by decide
/-- `C99_annotation_first` applies; and without a class as annotation the hint does count. -/
example := C99_annotation_first (env := tmEnv) (params := [("a", .ty (.cls 1))]) (ret := .bar [.cls 1, .cls 3])
  (by intro p hp; simp at hp; subst hp; exact ⟨_, rfl, .inl ⟨1, rfl⟩⟩) (.inr ⟨_, rfl⟩) [] [("a", .cls 4)]
example : functoidIsinstance tmEnv (.functoid ⟨.ok ([("a", .ty (.gen 4 [.cls 1]))], .empty), .ok [("a", .cls 3)]⟩)
    (.args [.cls 3] .any) = .ok true := by decide
/-- The hypotheses of `C99_parameters_violated` are met by `bool` and `int`. -/
example : tmEnv.sub 2 1 = true ∧ tmEnv.sub 1 2 = false := by decide

end Props
end Pawpaw
