import Verif.Model.Ecf
import Verif.Spec.Ecf
/-!
# Lemmas for `EcfCombined`
-/
set_option linter.unusedSectionVars false
namespace Pawpaw.Ecf
open EcfSpec

/-! ## Flat expressions -/

/-- Running state: disjunction of finished `|`-groups, exclusive or of finished `^`-groups, current `&`. -/
structure St where
  o : Bool
  x : Bool
  a : Bool

def St.step (s : St) (p : Op × Bool) : St :=
  match p.1 with
  | .and => ⟨s.o, s.x, s.a && p.2⟩
  | .xor => ⟨s.o, Bool.xor s.x s.a, p.2⟩
  | .or => ⟨s.o || Bool.xor s.x s.a, false, p.2⟩

def St.fin (s : St) : Bool := s.o || Bool.xor s.x s.a

theorem runs_head (p : Op) (r : List (Op × Bool)) : ∃ r' t, ∀ v, runs p v r = (v, r') :: t := by
  cases r with
  | nil => exact ⟨[], [], fun v => rfl⟩
  | cons q r =>
    obtain ⟨o, w⟩ := q
    by_cases h : o = p
    · exact ⟨[], runs p w r, fun v => by simp [runs, h]⟩
    · induction r generalizing o w with
      | nil => exact ⟨[(o, w)], [], fun v => by simp [runs, h]⟩
      | cons q r ih =>
        have : ∃ r' t, runs p w (q :: r) = (w, r') :: t := by
          obtain ⟨o', w'⟩ := q
          by_cases h' : o' = p
          · exact ⟨[], runs p w' r, by simp [runs, h']⟩
          · obtain ⟨r', t, ht⟩ := ih o' w' h'
            exact ⟨r', t, ht w⟩
        obtain ⟨r', t, ht⟩ := this
        exact ⟨(o, w) :: r', t, fun v => by rw [runs, if_neg h, ht]⟩

theorem foldl_xor (l : List Bool) (b : Bool) : l.foldl Bool.xor b = Bool.xor b (l.foldl Bool.xor false) := by
  induction l generalizing b with
  | nil => simp
  | cons c l ih => simp only [List.foldl_cons]; rw [ih, ih (Bool.xor false c)]; simp [Bool.xor_assoc]

theorem evalXor_xor (a w : Bool) (r : List (Op × Bool)) :
    evalXor (a, (.xor, w) :: r) = Bool.xor a (evalXor (w, r)) := by
  unfold evalXor
  simp only [runs, if_true, List.map_cons, List.foldl_cons, evalAnd, List.all_nil, Bool.and_true]
  rw [foldl_xor]
  simp

theorem evalXor_and (a w : Bool) (r : List (Op × Bool)) :
    evalXor (a, (.and, w) :: r) = evalXor (a && w, r) := by
  unfold evalXor
  obtain ⟨r', t, h⟩ := runs_head .xor r
  simp only
  rw [runs, if_neg (by decide), h w, h (a && w)]
  simp [evalAnd, Bool.and_assoc]

theorem fold_spec (r : List (Op × Bool)) : ∀ (o x a : Bool),
    (r.foldl St.step ⟨o, x, a⟩).fin =
      (o || match runs .or a r with
        | h :: t => Bool.xor x (evalXor h) || t.any evalXor
        | [] => false) := by
  induction r with
  | nil => intro o x a; simp [runs, St.fin, evalXor, evalAnd]
  | cons q r ih =>
    intro o x a
    obtain ⟨p, w⟩ := q
    obtain ⟨r', t, h⟩ := runs_head .or r
    cases p with
    | or =>
      simp only [List.foldl_cons, St.step]
      rw [ih, runs, if_pos rfl, h w]
      have : evalXor (a, []) = a := by simp [evalXor, runs, evalAnd]
      simp [this, Bool.or_assoc]
    | xor =>
      simp only [List.foldl_cons, St.step]
      rw [ih, runs, if_neg (by decide), h w]
      simp [evalXor_xor]
    | and =>
      simp only [List.foldl_cons, St.step]
      rw [ih, runs, if_neg (by decide), h w, h (a && w)]
      simp [evalXor_and]

theorem evalFlat_fold (v : Bool) (r : List (Op × Bool)) :
    evalFlat v r = (((Op.or, v) :: r).foldl St.step ⟨false, false, false⟩).fin := by
  simp only [List.foldl_cons, St.step]
  rw [fold_spec]
  unfold evalFlat
  obtain ⟨r', t, h⟩ := runs_head .or r
  rw [h v]
  simp

/-- Merging at the right place keeps the value. -/
theorem merge_and (L1 L2 : List (Op × Bool)) (o : Op) (u w : Bool) (s : St) :
    ((L1 ++ (o, u) :: (.and, w) :: L2).foldl St.step s).fin =
      ((L1 ++ (o, u && w) :: L2).foldl St.step s).fin := by
  simp only [List.foldl_append, List.foldl_cons]
  congr 2
  cases o <;> simp [St.step, Bool.and_assoc]

theorem merge_xor_tail (L2 : List (Op × Bool)) (h : ∀ p ∈ L2, p.1 ≠ .and) : ∀ s s' : St, s.o = s'.o →
    Bool.xor s.x s.a = Bool.xor s'.x s'.a → (L2.foldl St.step s).fin = (L2.foldl St.step s').fin := by
  induction L2 with
  | nil => intro s s' h1 h2; simp [St.fin, h1, h2]
  | cons p L2 ih =>
    intro s s' h1 h2
    obtain ⟨o, w⟩ := p
    simp only [List.foldl_cons]
    have hp := h (o, w) (by simp)
    apply ih (fun q hq => h q (by simp [hq]))
    · cases o <;> simp_all [St.step]
    · cases o <;> simp_all [St.step]

theorem merge_xor (L1 L2 : List (Op × Bool)) (o : Op) (ho : o ≠ .and) (u w : Bool) (s : St)
    (h : ∀ p ∈ L2, p.1 ≠ .and) :
    ((L1 ++ (o, u) :: (.xor, w) :: L2).foldl St.step s).fin =
      ((L1 ++ (o, Bool.xor u w) :: L2).foldl St.step s).fin := by
  simp only [List.foldl_append, List.foldl_cons]
  apply merge_xor_tail L2 h
  · cases o <;> simp_all [St.step]
  · cases o <;> simp_all [St.step]

theorem merge_or_tail (L2 : List (Op × Bool)) (h : ∀ p ∈ L2, p.1 = .or) : ∀ s s' : St,
    s.fin = s'.fin → (L2.foldl St.step s).fin = (L2.foldl St.step s').fin := by
  induction L2 with
  | nil => intro s s' h1; exact h1
  | cons p L2 ih =>
    intro s s' h1
    obtain ⟨o, w⟩ := p
    have ho : o = .or := h (o, w) (by simp)
    subst ho
    simp only [List.foldl_cons]
    apply ih (fun q hq => h q (by simp [hq]))
    simp only [St.step, St.fin] at h1 ⊢
    rw [h1]

theorem merge_or (L1 L2 : List (Op × Bool)) (u w : Bool) (s : St) (h : ∀ p ∈ L2, p.1 = .or) :
    ((L1 ++ (.or, u) :: (.or, w) :: L2).foldl St.step s).fin =
      ((L1 ++ (.or, u || w) :: L2).foldl St.step s).fin := by
  simp only [List.foldl_append, List.foldl_cons]
  apply merge_or_tail L2 h
  simp [St.step, St.fin, Bool.or_assoc]

/-! ## The reduction loop -/

/-- A value together with the operator and operand text before it. -/
structure Item where
  str : List Char
  op : Op
  val : Bool

/-- The operand text holds exactly the operator's character among the binary ones. -/
def Item.Ok (q : Item) : Prop := ∀ o : Op, o.char ∈ q.str ↔ o = q.op

theorem first_split {τ : Type} (p : τ → Prop) [DecidablePred p] (l : List τ) :
    (∀ q ∈ l, ¬ p q) ∨ ∃ l1 q l2, l = l1 ++ q :: l2 ∧ p q ∧ ∀ z ∈ l1, ¬ p z := by
  induction l with
  | nil => left; simp
  | cons a l ih =>
    by_cases h : p a
    · right; exact ⟨[], a, l, rfl, h, by simp⟩
    · rcases ih with ih | ⟨l1, q, l2, h1, h2, h3⟩
      · left
        intro q hq
        rcases List.mem_cons.1 hq with hq | hq
        · rw [hq]; exact h
        · exact ih q hq
      · right
        refine ⟨a :: l1, q, l2, by rw [h1]; rfl, h2, ?_⟩
        intro z hz
        rcases List.mem_cons.1 hz with hz | hz
        · rw [hz]; exact h
        · exact h3 z hz

theorem findIdx_split {τ : Type} (p : τ → Bool) (l1 : List τ) (q : τ) (l2 : List τ)
    (h1 : ∀ z ∈ l1, p z = false) (h2 : p q = true) :
    (l1 ++ q :: l2).findIdx? p = some l1.length := by
  induction l1 with
  | nil => simp [List.findIdx?_cons, h2]
  | cons a l1 ih =>
    rw [List.cons_append, List.findIdx?_cons, h1 a (by simp)]
    simp [ih (fun z hz => h1 z (by simp [hz]))]

theorem highest_spec (Q : List Item) (hok : ∀ q ∈ Q, q.Ok) (hne : Q ≠ []) :
    ∃ Q1 q Q2, Q = Q1 ++ q :: Q2 ∧
    ((q.op = .and ∧ highestFrom (Q.map Item.str) diadic = some (Q1.length, and)) ∨
     (q.op = .xor ∧ highestFrom (Q.map Item.str) diadic = some (Q1.length, Bool.xor) ∧
        ∀ z ∈ Q, z.op ≠ .and) ∨
     (q.op = .or ∧ highestFrom (Q.map Item.str) diadic = some (Q1.length, or) ∧
        ∀ z ∈ Q, z.op = .or)) := by
  have hsome : ∀ (o : Op) (Q1 Q2 : List Item) (q : Item), Q = Q1 ++ q :: Q2 → q.op = o →
      (∀ z ∈ Q1, z.op ≠ o) →
      (Q.map Item.str).findIdx? (fun op => decide (o.char ∈ op)) = some Q1.length := by
    intro o Q1 Q2 q hQ hq hz
    rw [hQ, List.map_append, List.map_cons]
    have := findIdx_split (fun op => decide (o.char ∈ op)) (Q1.map Item.str) q.str (Q2.map Item.str)
      (by
        intro z hz'
        obtain ⟨y, hy, rfl⟩ := List.mem_map.1 hz'
        apply decide_eq_false
        rw [hok y (by rw [hQ]; simp [hy]) o]
        exact fun h => hz y hy h.symm)
      (by
        apply decide_eq_true
        rw [hok q (by rw [hQ]; simp) o]
        exact hq.symm)
    rw [this, List.length_map]
  have hnone : ∀ (o : Op), (∀ z ∈ Q, z.op ≠ o) →
      (Q.map Item.str).findIdx? (fun op => decide (o.char ∈ op)) = none := by
    intro o hz
    rw [List.findIdx?_eq_none_iff]
    intro s hs
    obtain ⟨y, hy, rfl⟩ := List.mem_map.1 hs
    apply decide_eq_false
    rw [hok y hy o]
    exact fun h => hz y hy h.symm
  have ca : Op.char .and = '&' := rfl
  have cx : Op.char .xor = '^' := rfl
  have co : Op.char .or = '|' := rfl
  rcases first_split (fun q : Item => q.op = .and) Q with hA | ⟨Q1, q, Q2, h1, h2, h3⟩
  · have nA := hnone .and hA
    rw [ca] at nA
    rcases first_split (fun q : Item => q.op = .xor) Q with hX | ⟨Q1, q, Q2, h1, h2, h3⟩
    · have nX := hnone .xor hX
      rw [cx] at nX
      have hall : ∀ z ∈ Q, z.op = .or := by
        intro z hz
        have := hA z hz
        have := hX z hz
        cases hzo : z.op <;> simp_all
      cases Q with
      | nil => exact absurd rfl hne
      | cons q Q2 =>
        refine ⟨[], q, Q2, rfl, Or.inr (Or.inr ⟨hall q (by simp), ?_, hall⟩)⟩
        have := hsome .or [] Q2 q rfl (hall q (by simp)) (by simp)
        rw [co] at this
        simp only [highestFrom, diadic, nA, nX, this]
    · refine ⟨Q1, q, Q2, h1, Or.inr (Or.inl ⟨h2, ?_, hA⟩)⟩
      have := hsome .xor Q1 Q2 q h1 h2 h3
      rw [cx] at this
      simp only [highestFrom, diadic, nA, this]
  · refine ⟨Q1, q, Q2, h1, Or.inl ⟨h2, ?_⟩⟩
    have := hsome .and Q1 Q2 q h1 h2 h3
    rw [ca] at this
    simp only [highestFrom, diadic, this]

def Item.pair (q : Item) : Op × Bool := (q.op, q.val)

theorem reduce_spec (n : Nat) : ∀ (d : Item) (Q : List Item), Q.length + 1 = n → d.op = .or →
    (∀ q ∈ Q, q.Ok) →
    reduce n (d.val :: Q.map Item.val) (Q.map Item.str) =
      .ok (((d :: Q).map Item.pair).foldl St.step ⟨false, false, false⟩).fin := by
  induction n with
  | zero => intro d Q h; omega
  | succ n ih =>
    intro d Q hn hd hok
    cases hQ : Q with
    | nil => simp [reduce, Item.pair, hd, St.step, St.fin]
    | cons q0 Q0 =>
      rw [← hQ]
      have hne : Q ≠ [] := by rw [hQ]; simp
      obtain ⟨Q1, q, Q2, hs, hcase⟩ := highest_spec Q hok hne
      -- the element before `q`
      have hz : ∃ Z z, d :: Q1 = Z ++ [z] := by
        have := List.eq_nil_or_concat (d :: Q1)
        rcases this with h | ⟨Z, z, h⟩
        · cases h
        · exact ⟨Z, z, by simpa using h⟩
      obtain ⟨Z, z, hz⟩ := hz
      have hZlen : Z.length = Q1.length := by
        have := congrArg List.length hz
        simp at this; omega
      have hfull : d :: Q = Z ++ z :: q :: Q2 := by
        rw [hs, ← List.cons_append, hz]; simp
      have hvals : d.val :: Q.map Item.val = Z.map Item.val ++ z.val :: q.val :: Q2.map Item.val := by
        have := congrArg (List.map Item.val) hfull
        simpa using this
      -- generic step
      have hstep : ∀ f : Bool → Bool → Bool, highestFrom (Q.map Item.str) diadic = some (Q1.length, f) →
          reduce (n + 1) (d.val :: Q.map Item.val) (Q.map Item.str) =
          .ok (((Z ++ ⟨z.str, z.op, f z.val q.val⟩ :: Q2).map Item.pair).foldl St.step
            ⟨false, false, false⟩).fin := by
        intro f hf
        have h0 : d.val :: Q.map Item.val ≠ [] := by simp
        have hlen2 : ∃ a b c, d.val :: Q.map Item.val = a :: b :: c := by
          rw [hQ]; exact ⟨_, _, _, rfl⟩
        obtain ⟨a, b, c, habc⟩ := hlen2
        have hred : reduce (n + 1) (d.val :: Q.map Item.val) (Q.map Item.str) =
            reduce n ((d.val :: Q.map Item.val).take Q1.length ++
              f z.val q.val :: (d.val :: Q.map Item.val).drop (Q1.length + 2))
              ((Q.map Item.str).take Q1.length ++ (Q.map Item.str).drop (Q1.length + 1)) := by
          have g1 : (d.val :: Q.map Item.val)[Q1.length]? = some z.val := by
            rw [hvals, List.getElem?_append_right (by simp [hZlen])]
            simp [hZlen]
          have g2 : (d.val :: Q.map Item.val)[Q1.length + 1]? = some q.val := by
            rw [hvals, List.getElem?_append_right (by simp [hZlen])]
            have : Q1.length + 1 - (Z.map Item.val).length = 1 := by simp [hZlen]
            rw [this]; rfl
          rw [habc] at g1 g2 ⊢
          rw [reduce]
          · rw [hf]
            simp only [g1, g2]
          · intro hv; cases hv
          · intro v hv; cases hv
        rw [hred]
        have e1 : (d.val :: Q.map Item.val).take Q1.length = Z.map Item.val := by
          rw [hvals, ← hZlen, List.take_left' (by simp)]
        have e2 : (d.val :: Q.map Item.val).drop (Q1.length + 2) = Q2.map Item.val := by
          rw [hvals]
          have : Z.map Item.val ++ z.val :: q.val :: Q2.map Item.val =
              (Z.map Item.val ++ [z.val, q.val]) ++ Q2.map Item.val := by simp
          rw [this, List.drop_left' (by simp [hZlen])]
        have e3 : (Q.map Item.str).take Q1.length = Q1.map Item.str := by
          rw [hs, List.map_append, List.take_left' (by simp)]
        have e4 : (Q.map Item.str).drop (Q1.length + 1) = Q2.map Item.str := by
          have : (Q1 ++ q :: Q2).map Item.str = (Q1.map Item.str ++ [q.str]) ++ Q2.map Item.str := by simp
          rw [hs, this, List.drop_left' (by simp)]
        rw [e1, e2, e3, e4]
        -- new list
        cases hZ : Z with
        | nil =>
          have hQ1 : Q1 = [] := List.eq_nil_of_length_eq_zero (by rw [← hZlen, hZ]; rfl)
          rw [hZ, hQ1] at hz
          simp only [List.nil_append, List.cons.injEq, and_true] at hz
          have := ih ⟨z.str, z.op, f z.val q.val⟩ Q2 (by rw [hs, hQ1] at hn; simp at hn; omega)
            (by rw [← hz]; exact hd) (fun y hy => hok y (by rw [hs]; simp [hy]))
          rw [hQ1]
          simpa using this
        | cons d' Z' =>
          rw [hZ] at hz
          simp only [List.cons_append, List.cons.injEq] at hz
          obtain ⟨hd', hQ1⟩ := hz
          have := ih d' (Z' ++ ⟨z.str, z.op, f z.val q.val⟩ :: Q2) (by
            rw [hs, hQ1] at hn
            simp at hn ⊢; omega) (by rw [← hd']; exact hd) (by
              intro y hy
              rcases List.mem_append.1 hy with hy | hy
              · exact hok y (by rw [hs, hQ1]; simp [hy])
              · rcases List.mem_cons.1 hy with hy | hy
                · have hzok : z.Ok := hok z (by rw [hs, hQ1]; simp)
                  rw [hy]; exact hzok
                · exact hok y (by rw [hs]; simp [hy]))
          rw [hQ1]
          simpa [List.append_assoc] using this
      rw [hfull]
      have hzop : ∀ P : Op → Prop, P .or → (∀ y ∈ Q, P y.op) → P z.op := by
        intro P hP hall
        have hzm : z ∈ d :: Q := by rw [hfull]; simp
        rcases List.mem_cons.1 hzm with h | h
        · rw [h, hd]; exact hP
        · exact hall z h
      have hmem2 : ∀ y ∈ Q2, y ∈ Q := by intro y hy; rw [hs]; simp [hy]
      rcases hcase with ⟨ho, hf⟩ | ⟨ho, hf, hno⟩ | ⟨ho, hf, hall⟩
      · rw [hstep _ hf]
        simp only [List.map_append, List.map_cons]
        have : q.pair = (.and, q.val) := by simp [Item.pair, ho]
        rw [this]
        exact congrArg _ (merge_and _ _ _ _ _ _).symm
      · rw [hstep _ hf]
        simp only [List.map_append, List.map_cons]
        have : q.pair = (.xor, q.val) := by simp [Item.pair, ho]
        rw [this]
        refine congrArg _ (merge_xor _ _ _ ?_ _ _ _ ?_).symm
        · exact hzop (fun o => o ≠ .and) (by decide) hno
        · intro p hp
          obtain ⟨y, hy, rfl⟩ := List.mem_map.1 hp
          exact hno y (hmem2 y hy)
      · rw [hstep _ hf]
        simp only [List.map_append, List.map_cons]
        have : q.pair = (.or, q.val) := by simp [Item.pair, ho]
        have hz' : z.op = .or := hzop (fun o => o = .or) rfl hall
        have hzp : z.pair = (.or, z.val) := by simp [Item.pair, hz']
        rw [this, hzp]
        have : Item.pair ⟨z.str, z.op, z.val || q.val⟩ = (.or, z.val || q.val) := by simp [Item.pair, hz']
        rw [this]
        refine congrArg _ (merge_or _ _ _ _ _ ?_).symm
        intro p hp
        obtain ⟨y, hy, rfl⟩ := List.mem_map.1 hp
        exact hall y (hmem2 y hy)

end Pawpaw.Ecf
