import Verif.Lemmas.ReSame
/-!
# Reading a pattern text piece by piece
-/
namespace Pawpaw
namespace ReSyntax
open Regex

open Lean in
/-- `cl! "ab"` is `['a', 'b']`. -/
scoped macro "cl! " s:str : term => do
  let cs := s.getString.toList.map fun c => Syntax.mkCharLit c
  `([$(cs.toArray),*])

variable {v : Bool}

/-- The piece of text adds the items `xs` to the group being read. -/
def Adds (v : Bool) (t : List Char) (xs : List Syn) : Prop :=
  ∀ f outer q, ∃ q', t.foldl (step v) ⟨f, outer, .normal q⟩ = ⟨{ f with cur := xs.reverse ++ f.cur }, outer, .normal q'⟩

/-- The text, as that of a whole group, is read as the alternatives `as`. -/
def Body (v : Bool) (t : List Char) (as : List Syn) : Prop :=
  ∀ k L outer, ∃ q f, t.foldl (step v) ⟨⟨k, L, []⟩, outer, .normal false⟩ = ⟨f, outer, .normal q⟩ ∧ f.kind = k ∧
    f.alts ++ [seqOf f.cur.reverse] = L ++ as

theorem Adds.nil : Adds v [] [] := fun _ _ q => ⟨q, rfl⟩

theorem Adds.append {t u : List Char} {xs ys : List Syn} (h : Adds v t xs) (h' : Adds v u ys) :
    Adds v (t ++ u) (xs ++ ys) := by
  intro f outer q
  obtain ⟨q1, h1⟩ := h f outer q
  obtain ⟨q2, h2⟩ := h' { f with cur := xs.reverse ++ f.cur } outer q1
  refine ⟨q2, ?_⟩
  rw [List.foldl_append, h1, h2]
  simp

theorem Adds.body {t : List Char} {xs : List Syn} (h : Adds v t xs) : Body v t [seqOf xs] := by
  intro k L outer
  obtain ⟨q, h⟩ := h ⟨k, L, []⟩ outer false
  exact ⟨q, _, h, rfl, by simp⟩

theorem Adds.or {t u : List Char} {xs as : List Syn} (h : Adds v t xs) (h' : Body v u as) :
    Body v (t ++ '|' :: u) (seqOf xs :: as) := by
  intro k L outer
  obtain ⟨q, h⟩ := h ⟨k, L, []⟩ outer false
  obtain ⟨q', f, h1, h2, h3⟩ := h' k (L ++ [seqOf xs]) outer
  refine ⟨q', f, ?_, h2, by rw [h3]; simp⟩
  rw [List.foldl_append, h, List.foldl_cons, ← h1]
  congr 1
  simp [step, stepNormal]

/-- A text whose items are `as`, from the start. -/
theorem Body.read {t : List Char} {as : List Syn} (h : Body v t as) : read v t = some (altOf as) := by
  obtain ⟨q, f, h1, _, h3⟩ := h .plain [] []
  rw [ReSyntax.read, start, h1]
  simp only [Frame.whole, h3, List.nil_append]

/-- What a group adds. -/
def wrapK (k : Kind) (a : Syn) : Syn :=
  match k with
  | .plain => a
  | k => .grp k a

/-- Parentheses `pre … )` of kind `k`. -/
def Opens (v : Bool) (pre : List Char) (k : Kind) : Prop :=
  ∀ f outer q, pre.foldl (step v) ⟨f, outer, .normal q⟩ = ⟨⟨k, [], []⟩, f :: outer, .normal false⟩

theorem step_close (f g : Frame) (gs : List Frame) (q : Bool) :
    step v ⟨f, g :: gs, .normal q⟩ ')' = ⟨{ g with cur := wrapK f.kind f.whole :: g.cur }, gs, .normal false⟩ := by
  cases hk : f.kind <;> simp [step, stepNormal, State.close, hk, wrapK]

theorem Opens.run {pre t : List Char} {k : Kind} {as : List Syn} (ho : Opens v pre k) (h : Body v t as) (f : Frame)
    (outer : List Frame) (q : Bool) :
    (pre ++ t ++ [')']).foldl (step v) ⟨f, outer, .normal q⟩ =
      ⟨{ f with cur := wrapK k (altOf as) :: f.cur }, outer, .normal false⟩ := by
  obtain ⟨q', g, h1, h2, h3⟩ := h k [] (f :: outer)
  rw [List.foldl_append, List.foldl_append, ho, h1, List.foldl_cons, List.foldl_nil, step_close, h2]
  simp only [Frame.whole, h3, List.nil_append]

theorem Opens.adds {pre t : List Char} {k : Kind} {as : List Syn} (ho : Opens v pre k) (h : Body v t as) :
    Adds v (pre ++ t ++ [')']) [wrapK k (altOf as)] := fun f outer q => ⟨false, by simpa using ho.run h f outer q⟩

/-- A group and what is put behind it. -/
theorem Opens.rep {pre t s : List Char} {k : Kind} {as : List Syn} {lo : Nat} {hi : Option Nat} {g : Bool}
    (ho : Opens v pre k) (h : Body v t as)
    (hs : ∀ (f : Frame) (a : Syn) (c : List Syn) outer, ∃ q', s.foldl (step v) ⟨{ f with cur := a :: c }, outer, .normal false⟩ =
      ⟨{ f with cur := .rep lo hi g a :: c }, outer, .normal q'⟩) :
    Adds v (pre ++ t ++ [')'] ++ s) [.rep lo hi g (wrapK k (altOf as))] := by
  intro f outer q
  obtain ⟨q', h'⟩ := hs f (wrapK k (altOf as)) f.cur outer
  exact ⟨q', by rw [List.foldl_append, ho.run h]; simpa using h'⟩

theorem opens_plain : Opens v (cl! "(?:") .plain := by
  intro f outer q; cases v <;> rfl

theorem quant_opt (f : Frame) (a : Syn) (c : List Syn) (outer : List Frame) : ∃ q', ['?'].foldl (step v)
    ⟨{ f with cur := a :: c }, outer, .normal false⟩ = ⟨{ f with cur := .rep 0 (some 1) true a :: c }, outer, .normal q'⟩ :=
  ⟨true, by cases v <;> rfl⟩
theorem quant_plus (f : Frame) (a : Syn) (c : List Syn) (outer : List Frame) : ∃ q', ['+'].foldl (step v)
    ⟨{ f with cur := a :: c }, outer, .normal false⟩ = ⟨{ f with cur := .rep 1 none true a :: c }, outer, .normal q'⟩ :=
  ⟨true, by cases v <;> rfl⟩
theorem quant_star (f : Frame) (a : Syn) (c : List Syn) (outer : List Frame) : ∃ q', ['*'].foldl (step v)
    ⟨{ f with cur := a :: c }, outer, .normal false⟩ = ⟨{ f with cur := .rep 0 none true a :: c }, outer, .normal q'⟩ :=
  ⟨true, by cases v <;> rfl⟩

/-- A name is read up to `>`. -/
theorem name_run (n s : List Char) (h : '>' ∉ n) (f : Frame) (outer : List Frame) :
    (n ++ ['>']).foldl (step v) ⟨f, outer, .name s⟩ = ⟨⟨.named (s ++ n), [], []⟩, f :: outer, .normal false⟩ := by
  induction n generalizing s with
  | nil => simp [step, State.openGroup]
  | cons c cs ih =>
    have hc : c ≠ '>' := fun e => h (by simp [e])
    rw [List.cons_append, List.foldl_cons]
    have : step v ⟨f, outer, .name s⟩ c = ⟨f, outer, .name (s ++ [c])⟩ := by simp [step, hc]
    rw [this, ih (s ++ [c]) (fun e => h (List.mem_cons_of_mem _ e))]
    simp

theorem opens_named (n : List Char) (h : '>' ∉ n) : Opens v ((cl! "(?P<") ++ n ++ ['>']) (.named n) := by
  intro f outer q
  have h1 : (cl! "(?P<").foldl (step v) ⟨f, outer, .normal q⟩ = ⟨f, outer, .name []⟩ := by cases v <;> rfl
  rw [List.append_assoc, List.foldl_append, h1]
  exact name_run n [] h f outer

theorem opens_name (c : Char) (n : List Char) (h : '>' ∉ n) (h1 : c ≠ '=') (h2 : c ≠ '!') :
    Opens v ((cl! "(?<") ++ (c :: n) ++ ['>']) (.named (c :: n)) := by
  intro f outer q
  have e1 : (cl! "(?<").foldl (step v) ⟨f, outer, .normal q⟩ = ⟨f, outer, .questLt⟩ := by cases v <;> rfl
  have e2 : step v ⟨f, outer, .questLt⟩ c = ⟨f, outer, .name [c]⟩ := by simp [step, h1, h2]
  rw [List.append_assoc, List.foldl_append, e1, List.cons_append, List.foldl_cons, e2]
  exact name_run n [c] h f outer

/-- What the package `regex` documents of `regex.escape`: a character is left as it is or put behind `\`; the characters of
the syntax are put behind `\`, letters and digits are not. -/
structure Escapes (escape : List Char → List Char) : Prop where
  nil : escape [] = []
  cons : ∀ c cs, (escape (c :: cs) = c :: escape cs ∧ c ∉ (cl! "\\()[|.^$*+?{]}-#&~")) ∨
    (escape (c :: cs) = '\\' :: c :: escape cs ∧ alnum c = false)

theorem of_not_alnum {c : Char} (hc : alnum c = false) : category c = none ∧ control c = none ∧ hexLen c = none ∧ c ≠ 'L' := by
  refine ⟨?_, ?_, ?_, by rintro rfl; exact absurd hc (by decide)⟩
  · unfold category
    split; · subst c; exact absurd hc (by decide)
    split; · subst c; exact absurd hc (by decide)
    split; · subst c; exact absurd hc (by decide)
    rfl
  · unfold control
    split; · subst c; exact absurd hc (by decide)
    split; · subst c; exact absurd hc (by decide)
    split; · subst c; exact absurd hc (by decide)
    split; · subst c; exact absurd hc (by decide)
    split; · subst c; exact absurd hc (by decide)
    rfl
  · unfold hexLen
    split; · subst c; exact absurd hc (by decide)
    split; · subst c; exact absurd hc (by decide)
    rfl

theorem Escapes.adds {escape : List Char → List Char} (h : Escapes escape) (s : List Char) :
    Adds false (escape s) (s.map .chr) := by
  induction s with
  | nil => rw [h.nil]; exact Adds.nil
  | cons c cs ih =>
    intro f outer q
    obtain ⟨q', h'⟩ := ih { f with cur := .chr c :: f.cur } outer false
    refine ⟨q', ?_⟩
    rcases h.cons c cs with ⟨e, hc⟩ | ⟨e, hc⟩
    · have : step false ⟨f, outer, .normal q⟩ c = ⟨{ f with cur := .chr c :: f.cur }, outer, .normal false⟩ := by
        have hc' : c ≠ '\\' ∧ c ≠ '(' ∧ c ≠ ')' ∧ c ≠ '[' ∧ c ≠ '|' ∧ c ≠ '.' ∧ c ≠ '^' ∧ c ≠ '$' ∧ c ≠ '*' ∧ c ≠ '+' ∧ c ≠ '?' ∧
            c ≠ '{' := by
          simp only [List.mem_cons, not_or] at hc
          exact ⟨hc.1, hc.2.1, hc.2.2.1, hc.2.2.2.1, hc.2.2.2.2.1, hc.2.2.2.2.2.1, hc.2.2.2.2.2.2.1, hc.2.2.2.2.2.2.2.1,
            hc.2.2.2.2.2.2.2.2.1, hc.2.2.2.2.2.2.2.2.2.1, hc.2.2.2.2.2.2.2.2.2.2.1, hc.2.2.2.2.2.2.2.2.2.2.2.1⟩
        obtain ⟨h1, h2, h3, h4, h5, h6, h7, h8, h9, h10, h11, h12⟩ := hc'
        simp [step, stepNormal, State.push, *]
      rw [e, List.foldl_cons, this, h']; simp
    · have : step false (step false ⟨f, outer, .normal q⟩ '\\') c = ⟨{ f with cur := .chr c :: f.cur }, outer, .normal false⟩ := by
        have e1 : step false ⟨f, outer, .normal q⟩ '\\' = ⟨f, outer, .esc⟩ := rfl
        obtain ⟨n1, n2, n3, n4⟩ := of_not_alnum hc
        rw [e1]
        simp [step, n1, n2, n3, n4, hc, State.push]
      rw [e, List.foldl_cons, List.foldl_cons, this, h']; simp

/-- One character of a set. -/
theorem set_step {escape : List Char → List Char} (h : Escapes escape) (c : Char) (cs : List Char) (f : Frame)
    (outer : List Frame) (neg : Bool) (items : List Item) :
    (escape (c :: cs)).foldl (step false) ⟨f, outer, .cls neg items false⟩ =
      (escape cs).foldl (step false) ⟨f, outer, .cls neg (.one c :: items) false⟩ := by
  rcases h.cons c cs with ⟨e, hc⟩ | ⟨e, hc⟩
  · simp only [List.mem_cons, not_or] at hc
    obtain ⟨h1, _, _, _, _, _, _, _, _, _, _, _, h2, _, h3, _⟩ := hc
    rw [e, List.foldl_cons]
    simp [step, h1, h2, h3, addItem]
  · obtain ⟨n1, n2, n3, n4⟩ := of_not_alnum hc
    rw [e, List.foldl_cons, List.foldl_cons]
    simp [step, n1, n2, n3, hc, addItem]

theorem set_first {escape : List Char → List Char} (h : Escapes escape) (c : Char) (cs : List Char) (f : Frame)
    (outer : List Frame) :
    (escape (c :: cs)).foldl (step false) ⟨f, outer, .clsOpen⟩ =
      (escape cs).foldl (step false) ⟨f, outer, .cls false [.one c] false⟩ := by
  rcases h.cons c cs with ⟨e, hc⟩ | ⟨e, hc⟩
  · simp only [List.mem_cons, not_or] at hc
    obtain ⟨h1, _, _, _, _, _, h2, _⟩ := hc
    rw [e, List.foldl_cons]
    simp [step, h1, h2]
  · obtain ⟨n1, n2, n3, n4⟩ := of_not_alnum hc
    rw [e, List.foldl_cons, List.foldl_cons]
    simp [step, n1, n2, n3, hc, addItem]

theorem set_run {escape : List Char → List Char} (h : Escapes escape) (cs : List Char) (f : Frame) (outer : List Frame)
    (neg : Bool) (items : List Item) :
    (escape cs).foldl (step false) ⟨f, outer, .cls neg items false⟩ =
      ⟨f, outer, .cls neg ((cs.map Item.one).reverse ++ items) false⟩ := by
  induction cs generalizing items with
  | nil => rw [h.nil]; rfl
  | cons c cs ih => rw [set_step h, ih]; simp

/-- A character set. -/
theorem Escapes.set {escape : List Char → List Char} (h : Escapes escape) (c : Char) (cs : List Char) (inc : Bool) :
    Adds false (['['] ++ (if inc then [] else ['^']) ++ escape (c :: cs) ++ [']']) [.cls (!inc) ((c :: cs).map Item.one)] := by
  intro f outer q
  refine ⟨false, ?_⟩
  have e1 : (['['] : List Char).foldl (step false) ⟨f, outer, .normal q⟩ = ⟨f, outer, .clsOpen⟩ := rfl
  rw [List.foldl_append, List.foldl_append, List.foldl_append, e1]
  cases inc with
  | true =>
    rw [if_pos rfl, List.foldl_nil, set_first h, set_run h]
    simp [step, State.push]
  | false =>
    have e2 : (['^'] : List Char).foldl (step false) ⟨f, outer, .clsOpen⟩ = ⟨f, outer, .cls true [] false⟩ := rfl
    rw [if_neg Bool.false_ne_true, e2, set_run h]
    simp [step, State.push]

/-- `num` is the decimal text of `n`. -/
def Decimal (num : List Char) (n : Nat) : Prop :=
  (∀ c ∈ num, '0' ≤ c ∧ c ≤ '9') ∧ num.foldl (fun a c => 10 * a + (c.toNat - '0'.toNat)) 0 = n

theorem brace_run (num : List Char) (h : ∀ c ∈ num, '0' ≤ c ∧ c ≤ '9') (lo : Nat) (f : Frame) (outer : List Frame) :
    num.foldl (step false) ⟨f, outer, .brace lo none⟩ =
      ⟨f, outer, .brace (num.foldl (fun a c => 10 * a + (c.toNat - '0'.toNat)) lo) none⟩ := by
  induction num generalizing lo with
  | nil => rfl
  | cons c cs ih =>
    have hc := h c (by simp)
    have h1 : c ≠ '}' := by rintro rfl; exact absurd hc (by decide)
    have h2 : c ≠ ',' := by rintro rfl; exact absurd hc (by decide)
    have e : step false ⟨f, outer, .brace lo none⟩ c = ⟨f, outer, .brace (10 * lo + (c.toNat - '0'.toNat)) none⟩ := by
      simp [step, h1, h2, hc]
    rw [List.foldl_cons, e, ih (fun d hd => h d (by simp [hd]))]
    rfl

theorem quant_least {num : List Char} {n : Nat} (h : Decimal num n) (f : Frame) (a : Syn) (c : List Syn) (outer : List Frame) :
    ∃ q', (['{'] ++ num ++ [',', '}']).foldl (step false) ⟨{ f with cur := a :: c }, outer, .normal false⟩ =
      ⟨{ f with cur := .rep n none true a :: c }, outer, .normal q'⟩ := by
  refine ⟨true, ?_⟩
  have e1 : (['{'] : List Char).foldl (step false) ⟨{ f with cur := a :: c }, outer, .normal false⟩ =
    ⟨{ f with cur := a :: c }, outer, .brace 0 none⟩ := rfl
  rw [List.foldl_append, List.foldl_append, e1, brace_run num h.1, h.2]
  rfl

/-! ### What sequences of items stand for -/

/-- `x` is not a group that what follows refers to. -/
def Syn.free (x y : Syn) : Prop := x.referred y = none

theorem denote_seqOf_cons (E : Env) (bs : List (List Char × List Char)) (x : Syn) (xs : List Syn)
    (h : x.referred (seqOf xs) = none) : Same (denote E bs (seqOf (x :: xs))) (.seq (denote E bs x) (denote E bs (seqOf xs))) := by
  cases xs with
  | nil => simp only [seqOf, denote]; exact (Same.seq_eps _).symm
  | cons y ys => simp only [seqOf] at h ⊢; rw [denote]; simp only [h]; exact Same.refl _

theorem refers_seqOf (n : List Char) (xs : List Syn) : (seqOf xs).refers n = xs.any (·.refers n) := by
  induction xs with
  | nil => rfl
  | cons x xs ih =>
    cases xs with
    | nil => simp [seqOf]
    | cons y ys => rw [seqOf, Syn.refers, ih]; rfl; simp

/-- Items of which none refers back, one after the other. -/
theorem denote_seqOf_append (E : Env) (bs : List (List Char × List Char)) (xs ys : List Syn)
    (h : ∀ x ∈ xs, ∀ zs : List Syn, (∀ z ∈ zs, z ∈ xs ∨ z ∈ ys) → x.referred (seqOf zs) = none) :
    Same (denote E bs (seqOf (xs ++ ys))) (.seq (denote E bs (seqOf xs)) (denote E bs (seqOf ys))) := by
  induction xs with
  | nil => simp only [seqOf, denote, List.nil_append]; exact (Same.eps_seq _).symm
  | cons x xs ih =>
    have h1 : x.referred (seqOf (xs ++ ys)) = none :=
      h x (by simp) _ (fun z hz => by rcases List.mem_append.1 hz with hz | hz <;> simp [hz])
    have h2 : x.referred (seqOf xs) = none := h x (by simp) _ (fun z hz => by simp [hz])
    have ih := ih (fun y hy zs hzs => h y (by simp [hy]) zs (fun z hz => by rcases hzs z hz with hz | hz <;> simp [hz]))
    rw [List.cons_append]
    exact (denote_seqOf_cons E bs x _ h1).trans
      (((Same.refl _).seq ih).trans ((Same.assoc _ _ _).symm.trans ((denote_seqOf_cons E bs x xs h2).symm.seq (Same.refl _))))

theorem denote_chars (E : Env) (hf : E.fold = none) (bs : List (List Char × List Char)) (s : List Char) :
    denote E bs (seqOf (s.map .chr)) = lit s := by
  induction s with
  | nil => rfl
  | cons c cs ih =>
    cases cs with
    | nil => simp [seqOf, denote, literal, hf, lit]
    | cons d ds =>
      have h1 : (List.map Syn.chr (c :: d :: ds)) = Syn.chr c :: List.map Syn.chr (d :: ds) := rfl
      have h2 : seqOf (Syn.chr c :: List.map Syn.chr (d :: ds)) = .seq (.chr c) (seqOf (List.map Syn.chr (d :: ds))) := rfl
      rw [h1, h2, denote]
      simp only [Syn.referred]
      rw [ih]
      simp [denote, literal, hf, lit]

end ReSyntax
end Pawpaw
