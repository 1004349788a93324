import Verif.Model.Sgr
import Verif.Spec.Sgr
import Verif.Props.Highlight
import Verif.Props.PepoJson
/-!
# C78 – C80: SGR codes, and what a terminal shows of the Highlighter's output (C57)
-/
set_option linter.unusedSectionVars false
namespace Pawpaw.Props
open Pawpaw Pawpaw.Sgr SgrSpec Pepo

theorem intText_nat (n : Nat) : intText (n : Int) = Nat.toDigits 10 n := by
  show (Nat.repr n).toList = _
  exact Nat.toList_repr

theorem intText_neg (m : Nat) : intText (Int.negSucc m) = '-' :: Nat.toDigits 10 (m + 1) := by
  show ("-" ++ Nat.repr (m + 1)).toList = _
  rw [String.toList_append, Nat.toList_repr]
  rfl

theorem toDigits_inj {m n : Nat} (h : Nat.toDigits 10 m = Nat.toDigits 10 n) : m = n := by
  have := congrArg (fun l => Nat.ofDigitChars 10 l 0) h
  simpa [Nat.ofDigitChars_ten_toDigits] using this

theorem toDigits_no_minus {n : Nat} : '-' ∉ Nat.toDigits 10 n := by
  intro h
  have := Nat.isDigit_of_mem_toDigits (by decide) (by decide) h
  exact absurd this (by decide)

theorem intText_inj {m n : Int} (h : intText m = intText n) : m = n := by
  cases m with
  | ofNat a =>
    cases n with
    | ofNat b =>
      have h : intText (a : Int) = intText (b : Int) := h
      rw [intText_nat, intText_nat] at h
      rw [toDigits_inj h]
    | negSucc b =>
      have h : intText (a : Int) = _ := h
      rw [intText_nat, intText_neg] at h
      exact absurd (h ▸ List.mem_cons_self) (toDigits_no_minus (n := a))
  | negSucc a =>
    cases n with
    | ofNat b =>
      have h : _ = intText (b : Int) := h
      rw [intText_nat, intText_neg] at h
      exact absurd (h.symm ▸ List.mem_cons_self) (toDigits_no_minus (n := b))
    | negSucc b =>
      rw [intText_neg, intText_neg] at h
      have := toDigits_inj (List.cons.inj h).2
      omega

theorem intText_no {n : Int} {c : Char} (hc : c.isDigit = false ∧ c ≠ '-') : c ∉ intText n :=
  fun h => digit_ne_of ((intText_chars n).2 c h) hc rfl

/-- Cutting at the first separator is unambiguous. -/
theorem cut_unique {c : Char} : ∀ {a b x y : List Char}, c ∉ a → c ∉ b → a ++ c :: x = b ++ c :: y → a = b ∧ x = y
  | [], [], _, _, _, _, h => ⟨rfl, (List.cons.inj h).2⟩
  | [], d :: b, _, _, _, hb, h => by
    have := (List.cons.inj h).1
    exact absurd (this ▸ List.mem_cons_self) hb
  | d :: a, [], _, _, ha, _, h => by
    have := (List.cons.inj h).1
    exact absurd (this ▸ List.mem_cons_self) ha
  | d :: a, e :: b, x, y, ha, hb, h => by
    obtain ⟨h1, h2⟩ := List.cons.inj h
    obtain ⟨h3, h4⟩ := cut_unique (fun hh => ha (List.mem_cons_of_mem _ hh)) (fun hh => hb (List.mem_cons_of_mem _ hh)) h2
    exact ⟨by rw [h1, h3], h4⟩

theorem joinSemi_mem {ts : List (List Char)} {c : Char} (hc : c ∈ joinSemi ts) : c = ';' ∨ ∃ t ∈ ts, c ∈ t := by
  induction ts with
  | nil => exact absurd hc (by simp [joinSemi])
  | cons t ts ih =>
    cases ts with
    | nil => exact .inr ⟨t, by simp, hc⟩
    | cons u ts =>
      rw [joinSemi] at hc
      rcases List.mem_append.1 hc with h | h
      · exact .inr ⟨t, by simp, h⟩
      · rcases List.mem_cons.1 h with h | h
        · exact .inl h
        · rcases ih h with h | ⟨v, hv, h⟩
          · exact .inl h
          · exact .inr ⟨v, List.mem_cons_of_mem _ hv, h⟩

theorem joinSemi_inj : ∀ {ms ns : List Int}, ms ≠ [] → ns ≠ [] →
    joinSemi (ms.map intText) = joinSemi (ns.map intText) → ms = ns
  | [m], [n], _, _, h => by
    rw [intText_inj (h : intText m = intText n)]
  | [m], n :: n' :: ns, _, _, h => by
    have h : intText m = intText n ++ ';' :: joinSemi ((n' :: ns).map intText) := h
    exact absurd (h ▸ by simp) (intText_no (n := m) (c := ';') (by decide))
  | m :: m' :: ms, [n], _, _, h => by
    have h : intText m ++ ';' :: joinSemi ((m' :: ms).map intText) = intText n := h
    exact absurd (h.symm ▸ by simp) (intText_no (n := n) (c := ';') (by decide))
  | m :: m' :: ms, n :: n' :: ns, _, _, h => by
    have h : intText m ++ ';' :: joinSemi ((m' :: ms).map intText) =
      intText n ++ ';' :: joinSemi ((n' :: ns).map intText) := h
    obtain ⟨h1, h2⟩ := cut_unique (intText_no (by decide)) (intText_no (by decide)) h
    rw [intText_inj h1, joinSemi_inj (by simp) (by simp) h2]

/-- **C78.** `encode` is unambiguous: two argument lists give the same sequence only if they are the
same list (`encode()` being `encode(0)`). -/
theorem C78_injective (ms ns : List Int) :
    encode ms = encode ns ↔ (if ms = [] then [0] else ms) = (if ns = [] then [0] else ns) := by
  have key : ∀ ns : List Int, encode ns =
      escChar :: '[' :: (joinSemi ((if ns = [] then [0] else ns).map intText) ++ ['m']) := by
    intro ns
    cases ns with
    | nil => rfl
    | cons n ns => rfl
  have hne : ∀ ns : List Int, (if ns = [] then [0] else ns) ≠ [] := by
    intro ns; split
    · simp
    · assumption
  constructor
  · intro h
    rw [key, key] at h
    have h := List.append_cancel_right (List.cons.inj (List.cons.inj h).2).2
    exact joinSemi_inj (hne ms) (hne ns) h
  · intro h
    rw [key, key, h]

/-! ## The terminal -/

theorem sgr_run_append (m : Mode) (a : Look) (s t : List Char) :
    SgrSpec.run m a (s ++ t) =
      (let r := SgrSpec.run m a s
       let q := SgrSpec.run r.1 r.2.1 t
       (q.1, q.2.1, r.2.2 ++ q.2.2)) := by
  induction s generalizing m a with
  | nil => rfl
  | cons c s ih =>
    rw [List.cons_append, SgrSpec.run, ih, SgrSpec.run]
    simp [List.append_assoc]

theorem run_digits (ps : List Nat) (a : Look) : ∀ (ds : List Char) (n : Nat), (∀ c ∈ ds, c.isDigit = true) →
    SgrSpec.run (.csi ps n) a ds = (.csi ps (Nat.ofDigitChars 10 ds n), a, [])
  | [], _, _ => rfl
  | c :: ds, n, h => by
    rw [SgrSpec.run, step, if_pos (h c List.mem_cons_self)]
    dsimp only
    rw [run_digits ps a ds _ (fun d hd => h d (List.mem_cons_of_mem _ hd)), Nat.ofDigitChars_cons]
    rfl

theorem run_nat (ps : List Nat) (a : Look) (n : Nat) :
    SgrSpec.run (.csi ps 0) a (intText (n : Int)) = (.csi ps n, a, []) := by
  rw [intText_nat, run_digits ps a _ _ (fun c hc => Nat.isDigit_of_mem_toDigits (by decide) (by decide) hc),
    Nat.ofDigitChars_ten_toDigits]

theorem run_params (a : Look) : ∀ (ns : List Nat) (ps : List Nat), ns ≠ [] →
    SgrSpec.run (.csi ps 0) a (joinSemi (ns.map (fun (n : Nat) => intText (n : Int))) ++ ['m']) =
      (.text, select (ps ++ ns) a, [])
  | [n], ps, _ => by
    rw [List.map_cons, List.map_nil, joinSemi, sgr_run_append, run_nat]
    rfl
  | n :: n' :: ns, ps, _ => by
    rw [List.map_cons, List.map_cons, joinSemi, List.append_assoc, sgr_run_append, run_nat]
    have := run_params a (n' :: ns) (ps ++ [n]) (by simp)
    rw [List.map_cons] at this
    simp only [List.cons_append, SgrSpec.run, step]
    rw [if_neg (by decide), if_true]
    dsimp only
    rw [this]
    simp

/-- The numbers of a sequence as a terminal reads them. -/
theorem run_encode (a : Look) (ns : List Nat) (hne : ns ≠ []) :
    SgrSpec.run .text a (encode (ns.map (fun (n : Nat) => (n : Int)))) = (.text, select ns a, []) := by
  cases ns with
  | nil => exact absurd rfl hne
  | cons n ns =>
    have h := run_params a (n :: ns) [] (by simp)
    have e : encode ((n :: ns).map (fun (n : Nat) => (n : Int))) =
        escChar :: '[' :: (joinSemi ((n :: ns).map (fun (n : Nat) => intText (n : Int))) ++ ['m']) := by
      show escChar :: '[' :: (joinSemi (((n :: ns).map (fun (n : Nat) => (n : Int))).map intText) ++ ['m']) = _
      rw [List.map_map]
      rfl
    rw [e, SgrSpec.run, step, if_pos (by decide)]
    dsimp only
    rw [SgrSpec.run, step, if_pos rfl]
    dsimp only
    rw [h]
    rfl

/-- **C78.** A terminal that reads `encode(*ns)` shows nothing and applies the parameters `ns` in order;
no arguments mean reset. -/
theorem C78_terminal (a : Look) (ns : List Nat) :
    SgrSpec.run .text a (encode (ns.map (fun (n : Nat) => (n : Int)))) =
      (.text, if ns = [] then ⟨.default, .default⟩ else select ns a, []) := by
  by_cases h : ns = []
  · subst h
    exact run_encode a [0] (by simp)
  · rw [if_neg h, run_encode a ns h]

/-- What a colour of the library is on the terminal (nothing if a component is negative). -/
def hueOf : Color → Option Hue
  | .named .black => some (.std 0)
  | .named .red => some (.std 1)
  | .named .green => some (.std 2)
  | .named .yellow => some (.std 3)
  | .named .blue => some (.std 4)
  | .named .magenta => some (.std 5)
  | .named .cyan => some (.std 6)
  | .named .white => some (.std 7)
  | .named .brightBlack => some (.bright 0)
  | .named .brightRed => some (.bright 1)
  | .named .brightGreen => some (.bright 2)
  | .named .brightYellow => some (.bright 3)
  | .named .brightBlue => some (.bright 4)
  | .named .brightMagenta => some (.bright 5)
  | .named .brightCyan => some (.bright 6)
  | .named .brightWhite => some (.bright 7)
  | .rgb c => if 0 ≤ c.red ∧ 0 ≤ c.green ∧ 0 ≤ c.blue then some (.rgb c.red.toNat c.green.toNat c.blue.toNat) else none
  | .eightBit n => if 0 ≤ n then some (.indexed n.toNat) else none

theorem run_encode' (a : Look) (ns : List Nat) (is : List Int) (hne : ns ≠ [])
    (h : is = ns.map (fun (n : Nat) => (n : Int))) :
    SgrSpec.run .text a (encode is) = (.text, select ns a, []) := by
  rw [h]; exact run_encode a ns hne

/-- **C78.** For every colour, a terminal that reads `Fore.from_color(colour)` makes this colour the
foreground and changes nothing else; `Back.from_color` likewise for the background. -/
theorem C78_from_color (a : Look) (c : Color) (h : Hue) (hh : hueOf c = some h) :
    SgrSpec.run .text a (fromColor .fore c) = (.text, { a with fg := h }, []) ∧
    SgrSpec.run .text a (fromColor .back c) = (.text, { a with bg := h }, []) := by
  cases c with
  | named n =>
    have hn : 0 ≤ n.value := by cases n <;> decide
    have h1 : SgrSpec.run .text a (fromColor .fore (.named n)) = (.text, select [(n.value + 30).toNat] a, []) :=
      run_encode' a [(n.value + 30).toNat] [n.value + Cls.namedOffset .fore] (by simp) (by simp [Cls.namedOffset]; omega)
    have h2 : SgrSpec.run .text a (fromColor .back (.named n)) = (.text, select [(n.value + 40).toNat] a, []) :=
      run_encode' a [(n.value + 40).toNat] [n.value + Cls.namedOffset .back] (by simp) (by simp [Cls.namedOffset]; omega)
    rw [h1, h2]
    cases n <;> cases hh <;> exact ⟨rfl, rfl⟩
  | rgb c =>
    obtain ⟨r, g, b⟩ := c
    rw [hueOf] at hh
    split at hh
    · rename_i hp
      simp only at hp hh
      cases hh
      constructor
      · exact run_encode' a [38, 2, r.toNat, g.toNat, b.toNat] [Cls.byIdx .fore, 2, r, g, b] (by simp) (by simp [Cls.byIdx]; omega)
      · exact run_encode' a [48, 2, r.toNat, g.toNat, b.toNat] [Cls.byIdx .back, 2, r, g, b] (by simp) (by simp [Cls.byIdx]; omega)
    · cases hh
  | eightBit n =>
    rw [hueOf] at hh
    split at hh
    · cases hh
      constructor
      · exact run_encode' a [38, 5, n.toNat] [Cls.byIdx .fore, 5, n] (by simp) (by simp [Cls.byIdx]; omega)
      · exact run_encode' a [48, 5, n.toNat] [Cls.byIdx .back, 5, n] (by simp) (by simp [Cls.byIdx]; omega)
    · cases hh

/-- **C78.** `RESET` gives back the terminal's default colour and changes nothing else. -/
theorem C78_reset (a : Look) :
    SgrSpec.run .text a (Cls.reset .fore) = (.text, { a with fg := .default }, []) ∧
    SgrSpec.run .text a (Cls.reset .back) = (.text, { a with bg := .default }, []) :=
  ⟨run_encode a [39] (by simp), run_encode a [49] (by simp)⟩

/-- **C78.** Different colours have different codes, and no code is both a foreground and a background. -/
theorem C78_from_color_injective (k1 k2 : Cls) (c1 c2 : Color) (h : fromColor k1 c1 = fromColor k2 c2) :
    k1 = k2 ∧ c1 = c2 := by
  have hv : ∀ (n1 n2 : Named), n1.value = n2.value → n1 = n2 := by
    intro n1 n2; cases n1 <;> cases n2 <;> simp [Named.value]
  have hr : ∀ n : Named, (0 ≤ n.value ∧ n.value ≤ 7) ∨ (60 ≤ n.value ∧ n.value ≤ 67) := by
    intro n; cases n <;> simp [Named.value]
  have e : ∀ k c, fromColor k c = encode (match c with
      | .named n => [n.value + k.namedOffset]
      | .rgb c => [k.byIdx, 2, c.red, c.green, c.blue]
      | .eightBit n => [k.byIdx, 5, n]) := by
    intro k c; cases c <;> rfl
  rw [e, e] at h
  have inj : ∀ {x y : List Int}, x ≠ [] → y ≠ [] → encode x = encode y → x = y := by
    intro x y hx hy h
    have := (C78_injective x y).1 h
    rwa [if_neg hx, if_neg hy] at this
  cases c1 with
  | named n1 =>
    cases c2 with
    | named n2 =>
      have h := inj (by simp) (by simp) h
      have h := (List.cons.inj h).1
      have h1 := hr n1
      have h2 := hr n2
      cases k1 <;> cases k2 <;> simp only [Cls.namedOffset] at h
      · exact ⟨rfl, by rw [hv n1 n2 (by omega)]⟩
      · exfalso; omega
      · exfalso; omega
      · exact ⟨rfl, by rw [hv n1 n2 (by omega)]⟩
    | rgb c => exact absurd (inj (by simp) (by simp) h) (by simp)
    | eightBit m => exact absurd (inj (by simp) (by simp) h) (by simp)
  | rgb c =>
    cases c2 with
    | named n2 => exact absurd (inj (by simp) (by simp) h) (by simp)
    | rgb c' =>
      have h := inj (by simp) (by simp) h
      obtain ⟨r, g, b⟩ := c
      obtain ⟨r', g', b'⟩ := c'
      cases k1 <;> cases k2 <;> simp [Cls.byIdx] at h ⊢ <;> exact h
    | eightBit m => exact absurd (inj (by simp) (by simp) h) (by simp)
  | eightBit m =>
    cases c2 with
    | named n2 => exact absurd (inj (by simp) (by simp) h) (by simp)
    | rgb c => exact absurd (inj (by simp) (by simp) h) (by simp)
    | eightBit m' =>
      have h := inj (by simp) (by simp) h
      cases k1 <;> cases k2 <;> simp [Cls.byIdx] at h ⊢ <;> exact h

/-! ## 24-bit colours -/

/-- **C79.** `Rgb.from_24_bit(v)`: the three components are the digits of `v` in base 256 — for a 24-bit
value each is a byte, and no other value gives three bytes. -/
theorem C79_components (v : Int) :
    (Rgb.from24Bit v).red * 65536 + (Rgb.from24Bit v).green * 256 + (Rgb.from24Bit v).blue = v ∧
    (0 ≤ (Rgb.from24Bit v).green ∧ (Rgb.from24Bit v).green < 256) ∧
    (0 ≤ (Rgb.from24Bit v).blue ∧ (Rgb.from24Bit v).blue < 256) ∧
    ((0 ≤ (Rgb.from24Bit v).red ∧ (Rgb.from24Bit v).red < 256) ↔ (0 ≤ v ∧ v < 2 ^ 24)) := by
  simp only [Rgb.from24Bit]
  omega

/-- **C79.** Every triple of bytes is the colour of exactly one integer. -/
theorem C79_bijective (r g b : Int) (hg : 0 ≤ g ∧ g < 256) (hb : 0 ≤ b ∧ b < 256) (v : Int) :
    Rgb.from24Bit v = ⟨r, g, b⟩ ↔ v = r * 65536 + g * 256 + b := by
  simp only [Rgb.from24Bit, Rgb.mk.injEq]
  omega

/-! ## Equality of codes -/

/-- What a user expects of `==` on `Fore`/`Back` objects. -/
def CodesCompare : Prop :=
  ∀ (k1 k2 : Cls) (c1 c2 : Color), (Code.init k1 c1).eq (Code.init k2 c2) = true ↔ k1 = k2 ∧ c1 = c2

/-- **C80.** Any two `Fore` objects are equal, whatever their colours, and so are any two `Back` objects. -/
theorem C80_all_equal (k : Cls) (c1 c2 : Color) : (Code.init k c1).eq (Code.init k c2) = true := by
  simp [Code.eq, Code.init]

/-- **C80.** Equality of codes does not tell colours apart. -/
theorem C80_equality_violated : ¬ CodesCompare := by
  intro h
  have := ((h .fore .fore (.named .red) (.named .blue)).1 (C80_all_equal _ _ _)).2
  exact absurd this (by decide)

/-- **C80.** What holds: equal colours of one class give equal objects, a `Fore` never equals a `Back`,
and `str` of the objects tells them apart. -/
theorem C80_equality_partial (k1 k2 : Cls) (c1 c2 : Color) :
    ((Code.init k1 c1).eq (Code.init k2 c2) = true ↔ k1 = k2) ∧
    ((Code.init k1 c1).value = (Code.init k2 c2).value ↔ k1 = k2 ∧ c1 = c2) := by
  refine ⟨?_, ?_⟩
  · constructor
    · intro h
      unfold Code.eq Code.init at h
      simp only at h
      split at h
      · assumption
      · cases h
    · rintro rfl
      exact C80_all_equal _ _ _
  · constructor
    · exact C78_from_color_injective k1 k2 c1 c2
    · rintro ⟨rfl, rfl⟩; rfl

/-! ## What the terminal shows of the Highlighter's output -/

/-- Segments as shown: the text of a segment whose node satisfies the predicate has as background the
next colour of the palette (number `k` on, in turn), other text the default background. -/
def shown (palette : List Color) (fg : Hue) (s : List Char) (pred : List Nat → Bool) :
    Nat → List (Span × List Nat) → List (Char × Look)
  | _, [] => []
  | k, g :: gs =>
    let t := PyStr.slice s (some g.1.start) (some g.1.stop)
    if pred g.2 then
      let h := ((palette[k % palette.length]?).bind hueOf).getD .default
      t.map (fun c => (c, ⟨fg, h⟩)) ++ shown palette fg s pred (k + 1) gs
    else t.map (fun c => (c, ⟨fg, .default⟩)) ++ shown palette fg s pred k gs

theorem run_plain (a : Look) : ∀ (t : List Char), (∀ c ∈ t, c.toNat ≠ 27) →
    SgrSpec.run .text a t = (.text, a, t.map (fun c => (c, a)))
  | [], _ => rfl
  | c :: t, h => by
    rw [SgrSpec.run, step, if_neg (h c List.mem_cons_self)]
    dsimp only
    rw [run_plain a t (fun d hd => h d (List.mem_cons_of_mem _ hd))]
    rfl

theorem mem_slice {s : List Char} {a b : Option Int} {c : Char} (h : c ∈ PyStr.slice s a b) : c ∈ s := by
  unfold PyStr.slice at h
  obtain ⟨p, hp, rfl⟩ := List.mem_map.1 h
  exact List.fst_mem_of_mem_zipIdx (List.mem_filter.1 hp).1

theorem run_written (palette : List Color) (hp : palette ≠ []) (hv : ∀ c ∈ palette, hueOf c ≠ none)
    (s : List Char) (hs : ∀ c ∈ s, c.toNat ≠ 27) (pred : List Nat → Bool) (fg : Hue) :
    ∀ (gs : List (Span × List Nat)) (k : Nat),
      SgrSpec.run .text ⟨fg, .default⟩ (written (render (backs palette) s pred k gs)) =
        (.text, ⟨fg, .default⟩, shown palette fg s pred k gs)
  | [], _ => rfl
  | g :: gs, k => by
    have hlt : k % palette.length < palette.length := Nat.mod_lt _ (List.length_pos_iff.2 hp)
    have hlt' : k % (backs palette).length < (backs palette).length := by
      simpa [backs] using hlt
    have htxt : ∀ c ∈ PyStr.slice s (some g.1.start) (some g.1.stop), c.toNat ≠ 27 :=
      fun c hc => hs c (mem_slice hc)
    rw [render, shown]
    by_cases hpr : pred g.2 = true
    · rw [if_pos hpr, if_pos hpr]
      rw [List.getElem?_eq_getElem hlt', List.getElem?_eq_getElem hlt]
      have hcol : (backs palette)[k % (backs palette).length] = fromColor .back palette[k % palette.length] := by
        simp [backs]
      obtain ⟨h, hh⟩ := Option.ne_none_iff_exists'.1 (hv _ (List.getElem_mem hlt))
      have h1 := (C78_from_color ⟨fg, .default⟩ _ h hh).2
      simp only [written, hcol, Option.bind_some, hh, Option.getD_some]
      rw [sgr_run_append, h1]
      dsimp only
      rw [sgr_run_append, run_plain _ _ htxt]
      dsimp only
      rw [sgr_run_append, (C78_reset _).2]
      dsimp only
      rw [run_written palette hp hv s hs pred fg gs (k + 1)]
      rfl
    · rw [if_neg hpr, if_neg hpr]
      simp only [written]
      rw [sgr_run_append, run_plain _ _ htxt]
      dsimp only
      rw [run_written palette hp hv s hs pred fg gs k]

/-- **C57.** What a terminal shows of `Highlighter(palette).print(ito, predicate)`, for every well-formed
tree, palette of proper colours, predicate and text without escape characters: the Ito's segments,
each in the colour of the palette that is its turn, and afterwards the terminal is as before. -/
theorem C57_shown (palette : List Color) (hp : palette ≠ []) (hv : ∀ c ∈ palette, hueOf c ≠ none)
    (s : List Char) (hs : ∀ c ∈ s, c.toNat ≠ 27) (pred : List Nat → Bool) (n : Node)
    (hw : TreeSpec.WF n) (fg : Hue) :
    ∃ out gs, Highlight.print (backs palette) s pred n = .ok out ∧
      SgrSpec.run .text ⟨fg, .default⟩ (written out) = (.text, ⟨fg, .default⟩, shown palette fg s pred 0 gs) ∧
      SpanSpec.Tiles n.start n.stop (gs.map Prod.fst) ∧ ∀ g ∈ gs, IsSegment n g := by
  obtain ⟨gs, h1, h2, h3⟩ := C57_segments (backs palette) (by simpa [backs] using hp) s pred n hw
  exact ⟨_, gs, h1, run_written palette hp hv s hs pred fg gs 0, h2, h3⟩

theorem shown_text (palette : List Color) (fg : Hue) (s : List Char) (pred : List Nat → Bool) :
    ∀ (gs : List (Span × List Nat)) (k : Nat), (shown palette fg s pred k gs).map Prod.fst =
      gs.flatMap (fun g => PyStr.slice s (some g.1.start) (some g.1.stop))
  | [], _ => rfl
  | g :: gs, k => by
    rw [shown, List.flatMap_cons]
    split
    · rw [List.map_append, shown_text palette fg s pred gs (k + 1), List.map_map]
      simp [Function.comp_def]
    · rw [List.map_append, shown_text palette fg s pred gs k, List.map_map]
      simp [Function.comp_def]

/-- **C57.** The characters shown are those of the Ito's text. -/
theorem C57_shown_text (palette : List Color) (hp : palette ≠ []) (hv : ∀ c ∈ palette, hueOf c ≠ none)
    (s : List Char) (hs : ∀ c ∈ s, c.toNat ≠ 27) (pred : List Nat → Bool) (n : Node)
    (hw : TreeSpec.WF n) (hl : n.stop ≤ s.length) (a : Look) (ha : a.bg = .default) :
    ∃ out, Highlight.print (backs palette) s pred n = .ok out ∧
      (SgrSpec.run .text a (written out)).2.2.map Prod.fst = (n.flat s).text ∧
      (SgrSpec.run .text a (written out)).2.1 = a := by
  obtain ⟨fg, bg⟩ := a
  simp only at ha
  subst ha
  obtain ⟨out, gs, h1, h2, h3, -⟩ := C57_shown palette hp hv s hs pred n hw fg
  refine ⟨out, h1, ?_, by rw [h2]⟩
  rw [h2]
  dsimp only
  rw [shown_text]
  have h0 : 0 ≤ n.start ∧ n.start ≤ n.stop := by cases hw; exact ⟨by assumption, by assumption⟩
  obtain ⟨a, ha⟩ := Int.eq_ofNat_of_zero_le h0.1
  obtain ⟨b, hb'⟩ := Int.eq_ofNat_of_zero_le (a := n.stop) (by omega)
  rw [ha, hb'] at h3
  rw [tiles_text s gs a b (by omega) h3, FIto.text_eq (x := n.flat s) (a := a) (b := b) ha hb']
  rfl

section Examples
example : hueOf (.rgb (Rgb.from24Bit 0x3C79B4)) = some (.rgb 60 121 180) := by decide
example : String.ofList (encode [38, 2, 60, -1]) = "\x1b[38;2;60;-1m" := by decide
example : encode [] = encode [0] := by decide
private def exT : Node := .mk ⟨0, 3⟩ none none [.mk ⟨1, 2⟩ none none []]
example : (match Highlight.print (backs [.named .red, .named .brightBlue]) "abcd".toList (fun _ => true) exT with
    | .ok out => (SgrSpec.run .text ⟨.default, .default⟩ (written out)).2.2
    | .error _ => []) =
    [('a', ⟨.default, .std 1⟩), ('b', ⟨.default, .bright 4⟩), ('c', ⟨.default, .std 1⟩)] := by decide
end Examples

end Pawpaw.Props
