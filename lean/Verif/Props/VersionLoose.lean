import Verif.Spec.VersionLoose
import Verif.Props.VersionTree
/-!
# C101: which texts `Version.parse_re` matches, and what its groups capture then
-/
set_option linter.unusedSectionVars false
set_option linter.unusedSimpArgs false
namespace Pawpaw.Props
open Pawpaw Pawpaw.Version Pawpaw.Regex RegexSpec VersionSpec

/-! ### Captures as texts -/

/-- `u` is a concatenation of texts in `L`, with the captures made. -/
inductive ManyCap (L : List Char → List (String × List Char) → Prop) : List Char → List (String × List Char) → Prop
  | nil : ManyCap L [] []
  | cons {u v : List Char} {T T' : List (String × List Char)} : L u T → ManyCap L v T' → ManyCap L (u ++ v) (T ++ T')

/-- `r` stands for `u`, its groups capturing the texts `T` in this order. -/
def CapLang : Re → List Char → List (String × List Char) → Prop
  | .eps, u, T => u = [] ∧ T = []
  | .chr p, u, T => (∃ c, p c = true ∧ u = [c]) ∧ T = []
  | .seq a b, u, T => ∃ v w T1 T2, u = v ++ w ∧ T = T1 ++ T2 ∧ CapLang a v T1 ∧ CapLang b w T2
  | .alt a b, u, T => CapLang a u T ∨ CapLang b u T
  | .star _ a, u, T => ManyCap (CapLang a) u T
  | .grp n a, u, T => ∃ T', CapLang a u T' ∧ T = T' ++ [(n, u)]
  | .dep a f, u, T => ∃ v w T1 T2, u = v ++ w ∧ T = T1 ++ T2 ∧ CapLang a v T1 ∧ CapLang (f v) w T2
  | _, _, _ => False

/-- The captures of a state as texts of `s`. -/
def capTexts (s : List Char) (cs : List (String × Nat × Nat)) : List (String × List Char) :=
  cs.map fun c => (c.1, sliceN s c.2.1 c.2.2)

/-- The state is within the matching of `s`. -/
def Within (s : List Char) (st : St) : Prop := ∃ x, s = x ++ st.rest ∧ st.pos = x.length

theorem Within.reads {s u : List Char} {st st' : St} (h : Within s st) (hr : Reads st u st') : Within s st' := by
  obtain ⟨x, h1, h2⟩ := h
  refine ⟨x ++ u, by rw [h1, hr.1, List.append_assoc], ?_⟩
  rw [hr.2, h2, List.length_append]

theorem Within.slice {s u : List Char} {st st' : St} (h : Within s st) (hr : Reads st u st') :
    sliceN s st.pos st'.pos = u := by
  obtain ⟨x, h1, h2⟩ := h
  exact slice_at (x := x) (y := st'.rest) (by rw [h1, hr.1]) h2 hr.2

/-- From `st` to `st'`, reading `u` and capturing `T`. -/
structure Takes (s : List Char) (st : St) (u : List Char) (T : List (String × List Char)) (st' : St) : Prop where
  reads : Reads st u st'
  caps : capTexts s st'.caps = capTexts s st.caps ++ T

theorem Takes.refl (s : List Char) (st : St) : Takes s st [] [] st := ⟨.nil _, by simp⟩

theorem Takes.trans {s : List Char} {a b c : St} {u v : List Char} {T T' : List (String × List Char)}
    (h1 : Takes s a u T b) (h2 : Takes s b v T' c) : Takes s a (u ++ v) (T ++ T') c :=
  ⟨h1.reads.trans h2.reads, by rw [h2.caps, h1.caps, List.append_assoc]⟩

theorem iter_takes {s : List Char} {g : Bool} {f : St → List St} {L : List Char → List (String × List Char) → Prop}
    (hf : ∀ st st', Within s st → st' ∈ f st → ∃ u T, Takes s st u T st' ∧ L u T) :
    ∀ (n : Nat) (st st' : St), Within s st → st' ∈ iter g f n st → ∃ u T, Takes s st u T st' ∧ ManyCap L u T
  | 0, st, st', _, h => by
    rw [iter, List.mem_singleton] at h
    subst h
    exact ⟨[], [], .refl _ _, .nil⟩
  | n + 1, st, st', hw, h => by
    have key : st' = st ∨ st' ∈ (f st).flatMap (fun st' => if st.pos < st'.pos then iter g f n st' else []) := by
      rw [iter] at h
      cases g
      · simpa using h
      · simp only [if_true, List.mem_append, List.mem_singleton] at h
        exact h.symm
    rcases key with rfl | h
    · exact ⟨[], [], .refl _ _, .nil⟩
    · obtain ⟨s1, h1, h2⟩ := List.mem_flatMap.1 h
      split at h2
      · obtain ⟨u, T, t1, l1⟩ := hf st s1 hw h1
        obtain ⟨v, T', t2, l2⟩ := iter_takes hf n s1 st' (hw.reads t1.reads) h2
        exact ⟨u ++ v, T ++ T', t1.trans t2, .cons l1 l2⟩
      · cases h2

/-- Every way of matching reads a text of the language, with its captures. -/
theorem out_takes (s : List Char) : ∀ (r : Re), Free r → ∀ (st st' : St), Within s st → st' ∈ out r st →
    ∃ u T, Takes s st u T st' ∧ CapLang r u T
  | .eps, _, st, st', _, h => by
    rw [out, List.mem_singleton] at h
    subst h
    exact ⟨[], [], .refl _ _, rfl, rfl⟩
  | .chr p, _, st, st', _, h => by
    rw [out] at h
    split at h
    · cases h
    · rename_i c cs hr
      split at h
      · rename_i hp
        rw [List.mem_singleton] at h
        subst h
        exact ⟨[c], [], ⟨⟨hr, rfl⟩, by simp⟩, ⟨c, hp, rfl⟩, rfl⟩
      · cases h
  | .seq a b, hr, st, st', hw, h => by
    rw [out] at h
    obtain ⟨s1, h1, h2⟩ := List.mem_flatMap.1 h
    obtain ⟨u, T, t1, l1⟩ := out_takes s a hr.1 st s1 hw h1
    obtain ⟨v, T', t2, l2⟩ := out_takes s b hr.2 s1 st' (hw.reads t1.reads) h2
    exact ⟨u ++ v, T ++ T', t1.trans t2, u, v, T, T', rfl, rfl, l1, l2⟩
  | .alt a b, hr, st, st', hw, h => by
    rw [out] at h
    rcases List.mem_append.1 h with h | h
    · obtain ⟨u, T, t1, l1⟩ := out_takes s a hr.1 st st' hw h
      exact ⟨u, T, t1, .inl l1⟩
    · obtain ⟨u, T, t1, l1⟩ := out_takes s b hr.2 st st' hw h
      exact ⟨u, T, t1, .inr l1⟩
  | .star g a, hr, st, st', hw, h => by
    rw [out] at h
    exact iter_takes (fun st st' hw h => out_takes s a hr st st' hw h) _ st st' hw h
  | .grp n a, hr, st, st', hw, h => by
    rw [out] at h
    obtain ⟨s1, h1, rfl⟩ := List.mem_map.1 h
    obtain ⟨u, T, t1, l1⟩ := out_takes s a hr st s1 hw h1
    refine ⟨u, T ++ [(n, u)], ⟨⟨t1.reads.1, t1.reads.2⟩, ?_⟩, T, l1, rfl⟩
    dsimp only
    have := t1.caps
    unfold capTexts at *
    rw [List.map_append, ← List.append_assoc, ← this]
    simp only [List.map_cons, List.map_nil]
    rw [hw.slice t1.reads]
  | .dep a f, hr, st, st', hw, h => by
    rw [out] at h
    obtain ⟨s1, h1, h2⟩ := List.mem_flatMap.1 h
    obtain ⟨u, T, t1, l1⟩ := out_takes s a hr.1 st s1 hw h1
    rw [t1.reads.take] at h2
    obtain ⟨v, T', t2, l2⟩ := out_takes s (f u) (hr.2 u) s1 st' (hw.reads t1.reads) h2
    exact ⟨u ++ v, T ++ T', t1.trans t2, u, v, T, T', rfl, rfl, l1, l2⟩

/-- No groups. -/
def NoGrp : Re → Prop
  | .seq a b => NoGrp a ∧ NoGrp b
  | .alt a b => NoGrp a ∧ NoGrp b
  | .star _ a => NoGrp a
  | .grp _ _ => False
  | .dep a f => NoGrp a ∧ ∀ u, NoGrp (f u)
  | _ => True

theorem manyCap_nil {L : List Char → List (String × List Char) → Prop} {L' : List Char → Prop}
    (h : ∀ u T, L u T → L' u ∧ T = []) {u : List Char} {T : List (String × List Char)} (hm : ManyCap L u T) :
    Many L' u ∧ T = [] := by
  induction hm with
  | nil => exact ⟨.nil, rfl⟩
  | cons h1 _ ih =>
    obtain ⟨a, rfl⟩ := h _ _ h1
    obtain ⟨b, rfl⟩ := ih
    exact ⟨.cons a b, rfl⟩

theorem cap_none : ∀ (r : Re), NoGrp r → ∀ u T, CapLang r u T → Lang r u ∧ T = []
  | .eps, _, u, T, h => h
  | .chr p, _, u, T, h => h
  | .seq a b, hn, u, T, h => by
    obtain ⟨v, w, T1, T2, rfl, rfl, h1, h2⟩ := h
    obtain ⟨l1, rfl⟩ := cap_none a hn.1 _ _ h1
    obtain ⟨l2, rfl⟩ := cap_none b hn.2 _ _ h2
    exact ⟨⟨v, w, rfl, l1, l2⟩, rfl⟩
  | .alt a b, hn, u, T, h => by
    rcases h with h | h
    · exact ⟨.inl (cap_none a hn.1 _ _ h).1, (cap_none a hn.1 _ _ h).2⟩
    · exact ⟨.inr (cap_none b hn.2 _ _ h).1, (cap_none b hn.2 _ _ h).2⟩
  | .star g a, hn, u, T, h => manyCap_nil (cap_none a hn) h
  | .dep a f, hn, u, T, h => by
    obtain ⟨v, w, T1, T2, rfl, rfl, h1, h2⟩ := h
    obtain ⟨l1, rfl⟩ := cap_none a hn.1 _ _ h1
    obtain ⟨l2, rfl⟩ := cap_none (f v) (hn.2 v) _ _ h2
    exact ⟨⟨v, w, rfl, l1, l2⟩, rfl⟩

/-! ### The parts -/

theorem d09_le (c : Char) : d09 c = true ↔ '0'.toNat ≤ c.toNat ∧ c.toNat ≤ '9'.toNat := by
  simp [d09]

theorem langDigits (u : List Char) : Lang digits u ↔ Digits u := by
  rw [digits, lang_plus_chr]
  unfold Digits
  constructor
  · rintro ⟨h1, h2⟩; exact ⟨h1, fun c hc => (d09_le c).1 (h2 c hc)⟩
  · rintro ⟨h1, h2⟩; exact ⟨h1, fun c hc => (d09_le c).2 (h2 c hc)⟩

theorem sep_cases (c : Char) : sep c = true ↔ c = '-' ∨ c = '_' ∨ c = '.' := by
  simp [sep, or_assoc]

theorem lang_sepQ (u : List Char) : Lang sepQ u ↔ Separator u := by
  rw [sepQ, lang_opt]
  unfold Separator
  constructor
  · rintro (⟨c, hc, rfl⟩ | rfl)
    · rcases (sep_cases c).1 hc with rfl | rfl | rfl
      · exact .inr (.inl rfl)
      · exact .inr (.inr (.inl rfl))
      · exact .inr (.inr (.inr rfl))
    · exact .inl rfl
  · rintro (rfl | rfl | rfl | rfl)
    · exact .inr rfl
    · exact .inl ⟨_, by decide, rfl⟩
    · exact .inl ⟨_, by decide, rfl⟩
    · exact .inl ⟨_, by decide, rfl⟩

theorem lang_ci (F : Fold) (c : Char) (u : List Char) : Lang (ci F c) u ↔ SameWord F.letter [c] u := by
  unfold ci
  constructor
  · rintro ⟨x, hx, rfl⟩
    simp only [Bool.or_eq_true, beq_iff_eq, or_assoc] at hx
    exact ⟨hx, trivial⟩
  · intro h
    match u, h with
    | [x], h =>
      refine ⟨x, ?_, rfl⟩
      simp only [Bool.or_eq_true, beq_iff_eq, or_assoc]
      exact h.1
    | _ :: _ :: _, h => exact absurd h.2 (by simp [SameWord])

theorem lang_word (F : Fold) : ∀ (w u : List Char), Lang (word F w) u ↔ SameWord F.letter w u
  | [], u => by cases u <;> simp [word, Lang, SameWord]
  | [c], u => lang_ci F c u
  | c :: d :: w, u => by
    show (∃ v x, u = v ++ x ∧ Lang (ci F c) v ∧ Lang (word F (d :: w)) x) ↔ _
    constructor
    · rintro ⟨v, x, rfl, h1, h2⟩
      rw [lang_ci] at h1
      match v, h1 with
      | [y], h1 => exact ⟨h1.1, (lang_word F (d :: w) x).1 h2⟩
      | _ :: _ :: _, h1 => exact absurd h1.2 (by simp [SameWord])
    · intro h
      match u, h with
      | x :: u, h => exact ⟨[x], u, rfl, (lang_ci F c [x]).2 ⟨h.1, trivial⟩, (lang_word F (d :: w) u).2 h.2⟩

theorem lang_words (F : Fold) (u : List Char) :
    (Lang (pPhase F) u ↔ ∃ w ∈ preWords, SameWord F.letter w u) ∧
    (Lang (pPostWord F) u ↔ ∃ w ∈ postWords, SameWord F.letter w u) ∧
    (Lang (word F ['d', 'e', 'v']) u ↔ ∃ w ∈ devWords, SameWord F.letter w u) := by
  refine ⟨?_, ?_, ?_⟩
  · simp only [pPhase, Lang, lang_word, preWords]; simp
  · simp only [pPostWord, Lang, lang_word, postWords]; simp
  · simp only [lang_word, devWords]; simp

/-- A tag by its pattern. -/
theorem cap_tagged {F : Fold} {a : Re} {ws : List (List Char)} (hn : NoGrp a)
    (ha : ∀ u, Lang a u ↔ ∃ w ∈ ws, SameWord F.letter w u) {l n : String} {u : List Char}
    {T : List (String × List Char)} (h : CapLang (pTagged l a n) u T) :
    ∃ t : Tag, t.OK F.letter ws ∧ u = t.text ∧ T = (l, t.word) :: (t.num.map fun x => (n, x)).toList := by
  obtain ⟨s1, x1, T1, T1', rfl, rfl, h1, w1, x2, T2, T2', rfl, rfl, ⟨T2a, h2, rfl⟩, s2, x3, T3, T3', rfl, rfl, h3, h4⟩ := h
  obtain ⟨l1, rfl⟩ := cap_none sepQ ⟨trivial, trivial⟩ _ _ h1
  obtain ⟨l2, rfl⟩ := cap_none a hn _ _ h2
  obtain ⟨l3, rfl⟩ := cap_none sepQ ⟨trivial, trivial⟩ _ _ h3
  rw [lang_sepQ] at l1 l3
  rcases h4 with ⟨T4, h4, rfl⟩ | ⟨rfl, rfl⟩
  · obtain ⟨l4, rfl⟩ := cap_none digits ⟨trivial, trivial⟩ _ _ h4
    exact ⟨⟨s1, w1, s2, some x3⟩, ⟨l1, (ha w1).1 l2, l3, by rintro m ⟨⟩; exact (langDigits _).1 l4⟩, rfl, rfl⟩
  · exact ⟨⟨s1, w1, s2, none⟩, ⟨l1, (ha w1).1 l2, l3, by rintro m ⟨⟩⟩, rfl, rfl⟩

theorem lang_pTagged {F : Fold} {a : Re} {ws : List (List Char)} 
    (ha : ∀ u, Lang a u ↔ ∃ w ∈ ws, SameWord F.letter w u) {l n : String} {t : Tag} (ht : t.OK F.letter ws) :
    Lang (pTagged l a n) t.text := by
  obtain ⟨h1, h2, h3, h4⟩ := ht
  refine ⟨_, _, rfl, (lang_sepQ _).2 h1, _, _, rfl, (ha _).2 h2, _, _, rfl, (lang_sepQ _).2 h3, ?_⟩
  cases hn : t.num with
  | none => exact .inr rfl
  | some n => exact .inl ((langDigits _).2 (h4 n hn))

theorem noGrp_word (F : Fold) : ∀ w, NoGrp (word F w)
  | [] => trivial
  | [c] => trivial
  | c :: d :: w => ⟨trivial, noGrp_word F (d :: w)⟩

theorem freeWord (F : Fold) : ∀ w, Free (word F w)
  | [] => trivial
  | [c] => trivial
  | c :: d :: w => ⟨trivial, freeWord F (d :: w)⟩

theorem alnum_iff (F : Fold) (c : Char) :
    (low c || (decide ('A'.toNat ≤ c.toNat) && decide (c.toNat ≤ 'Z'.toNat)) || F.alnum c) = true ↔
      ('0'.toNat ≤ c.toNat ∧ c.toNat ≤ '9'.toNat) ∨ ('a'.toNat ≤ c.toNat ∧ c.toNat ≤ 'z'.toNat) ∨
        ('A'.toNat ≤ c.toNat ∧ c.toNat ≤ 'Z'.toNat) ∨ F.alnum c = true := by
  simp only [low, d09, Bool.or_eq_true, Bool.and_eq_true, decide_eq_true_eq]
  constructor
  · rintro (((h | h) | h) | h)
    · exact .inr (.inl h)
    · exact .inl h
    · exact .inr (.inr (.inl h))
    · exact .inr (.inr (.inr h))
  · rintro (h | h | h | h)
    · exact .inl (.inl (.inr h))
    · exact .inl (.inl (.inl h))
    · exact .inl (.inr h)
    · exact .inr h

theorem langSegment (F : Fold) (u : List Char) : Lang (plus (alnum F)) u ↔ LocalSegment F.alnum u := by
  rw [alnum, lang_plus_chr]
  unfold LocalSegment
  constructor
  · rintro ⟨h1, h2⟩; exact ⟨h1, fun c hc => (alnum_iff F c).1 (h2 c hc)⟩
  · rintro ⟨h1, h2⟩; exact ⟨h1, fun c hc => (alnum_iff F c).2 (h2 c hc)⟩

/-- The local part as it is written. -/
def locOK (F : Fold) (l : List Char × List (Char × List Char)) : Prop :=
  LocalSegment F.alnum l.1 ∧ ∀ q ∈ l.2, (q.1 = '-' ∨ q.1 = '_' ∨ q.1 = '.') ∧ LocalSegment F.alnum q.2

theorem langLocal (F : Fold) (u : List Char) :
    Lang (.seq (plus (alnum F)) (many (.seq (.chr sep) (plus (alnum F))))) u ↔
      ∃ l, locOK F l ∧ u = Spelling.localText l := by
  have h1 : ∀ u, Lang (.seq (.chr sep) (plus (alnum F))) u ↔
      ∃ q : Char × List Char, ((q.1 = '-' ∨ q.1 = '_' ∨ q.1 = '.') ∧ LocalSegment F.alnum q.2) ∧ u = q.1 :: q.2 := by
    intro u
    constructor
    · rintro ⟨v, w, rfl, ⟨c, hc, rfl⟩, h2⟩
      exact ⟨(c, w), ⟨(sep_cases c).1 hc, (langSegment F w).1 h2⟩, rfl⟩
    · rintro ⟨⟨c, w⟩, ⟨hc, h2⟩, rfl⟩
      exact ⟨[c], w, rfl, ⟨c, (sep_cases c).2 hc, rfl⟩, (langSegment F w).2 h2⟩
  constructor
  · rintro ⟨v, w, rfl, hv, hw⟩
    obtain ⟨qs, hq, rfl⟩ := (many_param h1 w).1 hw
    exact ⟨(v, qs), ⟨(langSegment F v).1 hv, hq⟩, rfl⟩
  · rintro ⟨⟨v, qs⟩, ⟨hv, hq⟩, rfl⟩
    exact ⟨v, _, rfl, (langSegment F v).2 hv, (many_param h1 _).2 ⟨qs, hq, rfl⟩⟩

theorem langReleaseText (u : List Char) : Lang (.seq digits (many (.seq (lit ['.']) digits))) u ↔
    ∃ (a : List Char) (as : List (List Char)), Digits a ∧ (∀ n ∈ as, Digits n) ∧ u = a ++ as.flatMap fun n => '.' :: n := by
  have h1 : ∀ u, Lang (.seq (lit ['.']) digits) u ↔ ∃ n, Digits n ∧ u = '.' :: n := by
    intro u
    constructor
    · rintro ⟨v, w, rfl, hv, hw⟩
      rw [lang_lit] at hv
      subst hv
      exact ⟨w, (langDigits w).1 hw, rfl⟩
    · rintro ⟨n, hn, rfl⟩
      exact ⟨['.'], n, rfl, (lang_lit _ _).2 rfl, (langDigits n).2 hn⟩
  constructor
  · rintro ⟨v, w, rfl, hv, hw⟩
    obtain ⟨ns, hn, rfl⟩ := (many_param h1 w).1 hw
    exact ⟨v, ns, (langDigits v).1 hv, hn, rfl⟩
  · rintro ⟨a, as, ha, has, rfl⟩
    exact ⟨a, _, rfl, (langDigits a).2 ha, (many_param h1 _).2 ⟨as, has, rfl⟩⟩

theorem lang_spaces (u : List Char) : Lang spaces u ↔ ∀ c ∈ u, Query.reSpace c = true := lang_many_chr _ u

/-- Everything between `^` and the white space at the end. -/
def parseBody (F : Fold) : Re :=
  .seq spaces (.seq (opt (ci F 'v')) (.seq pEpoch (.seq pRelease (.seq (pPre F) (.seq (pPost F) (.seq (pDev F) (pLocal F)))))))

/-- What is captured, in the order of the closing brackets. -/
def spellCaps (s : Spelling) : List (String × List Char) :=
  (s.epoch.map fun n => ("epoch", n)).toList ++ ([("release", s.releaseText)] ++
  ((match s.pre with | none => [] | some t => (("pre_l", t.word) :: (t.num.map fun x => ("pre_n", x)).toList) ++ [("pre", t.text)]) ++
  ((match s.post with
    | none => []
    | some (.implicit n) => [("post_n1", n), ("post", '-' :: n)]
    | some (.tagged t) => (("post_l", t.word) :: (t.num.map fun x => ("post_n2", x)).toList) ++ [("post", t.text)]) ++
  ((match s.dev with | none => [] | some t => (("dev_l", t.word) :: (t.num.map fun x => ("dev_n", x)).toList) ++ [("dev", t.text)]) ++
  (match s.loc with | none => [] | some l => [("local", Spelling.localText l)])))))

theorem cap_body {F : Fold} {u : List Char} {T : List (String × List Char)} (h : CapLang (parseBody F) u T) :
    ∃ s : Spelling, s.OK F.letter F.alnum ∧ s.right = [] ∧ u = s.text ∧ T = spellCaps s := by
  obtain ⟨a, x1, T1, R1, rfl, rfl, h1, p, x2, T2, R2, rfl, rfl, h2, e, x3, T3, R3, rfl, rfl, h3, r, x4, T4, R4, rfl, rfl, h4,
    pr, x5, T5, R5, rfl, rfl, h5, po, x6, T6, R6, rfl, rfl, h6, de, lo, T7, T8, rfl, rfl, h7, h8⟩ := h
  obtain ⟨l1, rfl⟩ := cap_none spaces trivial _ _ h1
  rw [lang_spaces] at l1
  obtain ⟨l2, rfl⟩ := cap_none (opt (ci F 'v')) ⟨trivial, trivial⟩ _ _ h2
  rw [lang_opt, lang_ci] at l2
  have k3 : ∃ o : Option (List Char), (∀ n, o = some n → Digits n) ∧ e = (o.map (· ++ ['!'])).getD [] ∧
      T3 = (o.map fun n => ("epoch", n)).toList := by
    rcases h3 with ⟨n, b, S1, S2, rfl, rfl, ⟨S3, g1, rfl⟩, g2⟩ | ⟨rfl, rfl⟩
    · obtain ⟨m1, rfl⟩ := cap_none digits ⟨trivial, trivial⟩ _ _ g1
      obtain ⟨m2, rfl⟩ := cap_none (lit ['!']) trivial _ _ g2
      rw [lang_lit] at m2
      subst m2
      exact ⟨some n, by rintro _ ⟨⟩; exact (langDigits _).1 m1, rfl, rfl⟩
    · exact ⟨none, by rintro _ ⟨⟩, rfl, rfl⟩
  obtain ⟨oe, hoe, rfl, rfl⟩ := k3
  obtain ⟨S4, g4, rfl⟩ := h4
  obtain ⟨l4, rfl⟩ := cap_none (.seq digits (many (.seq (lit ['.']) digits))) ⟨⟨trivial, trivial⟩, trivial, trivial, trivial⟩ _ _ g4
  obtain ⟨ra, ras, hra, hras, rfl⟩ := (langReleaseText r).1 l4
  have ktag : ∀ {a : Re} {ws : List (List Char)} {nm l n : String} {u : List Char} {T : List (String × List Char)},
      NoGrp a → (∀ u, Lang a u ↔ ∃ w ∈ ws, SameWord F.letter w u) →
      CapLang (opt (.grp nm (pTagged l a n))) u T →
      ∃ o : Option Tag, (∀ t, o = some t → t.OK F.letter ws) ∧ u = (o.map Tag.text).getD [] ∧
        T = match o with | none => [] | some t => ((l, t.word) :: (t.num.map fun x => (n, x)).toList) ++ [(nm, t.text)] := by
    intro a ws nm l n u T hn ha h
    rcases h with ⟨T', h, rfl⟩ | ⟨rfl, rfl⟩
    · obtain ⟨t, ht, rfl, rfl⟩ := cap_tagged (F := F) hn ha h
      exact ⟨some t, by rintro _ ⟨⟩; exact ht, rfl, rfl⟩
    · exact ⟨none, by rintro _ ⟨⟩, rfl, rfl⟩
  have hgP : NoGrp (pPhase F) := ⟨noGrp_word F _, noGrp_word F _, noGrp_word F _, noGrp_word F _, noGrp_word F _,
    noGrp_word F _, noGrp_word F _, noGrp_word F _⟩
  have hgQ : NoGrp (pPostWord F) := ⟨noGrp_word F _, noGrp_word F _, noGrp_word F _⟩
  obtain ⟨op, hop, rfl, rfl⟩ := ktag hgP (fun u => (lang_words F u).1) h5
  obtain ⟨od, hod, rfl, rfl⟩ := ktag (noGrp_word F _) (fun u => (lang_words F u).2.2) h7
  have k6 : ∃ o : Option Post, (∀ n, o = some (.implicit n) → Digits n) ∧
      (∀ t, o = some (.tagged t) → t.OK F.letter postWords) ∧ po = (o.map Post.text).getD [] ∧
      T6 = match o with
        | none => []
        | some (.implicit n) => [("post_n1", n), ("post", '-' :: n)]
        | some (.tagged t) => (("post_l", t.word) :: (t.num.map fun x => ("post_n2", x)).toList) ++ [("post", t.text)] := by
    rcases h6 with ⟨T', h | h, rfl⟩ | ⟨rfl, rfl⟩
    · obtain ⟨m, n, S1, S2, rfl, rfl, g1, S3, g2, rfl⟩ := h
      obtain ⟨m1, rfl⟩ := cap_none (lit ['-']) trivial _ _ g1
      obtain ⟨m2, rfl⟩ := cap_none digits ⟨trivial, trivial⟩ _ _ g2
      rw [lang_lit] at m1
      subst m1
      exact ⟨some (.implicit n), by rintro _ ⟨⟩; exact (langDigits _).1 m2, (by rintro _ ⟨⟩), rfl, rfl⟩
    · obtain ⟨t, ht, rfl, rfl⟩ := cap_tagged (F := F) hgQ (fun u => (lang_words F u).2.1) h
      exact ⟨some (.tagged t), (by rintro _ ⟨⟩), by rintro _ ⟨⟩; exact ht, rfl, rfl⟩
    · exact ⟨none, by rintro _ ⟨⟩, by rintro _ ⟨⟩, rfl, rfl⟩
  obtain ⟨oq, hoq, hoq', rfl, rfl⟩ := k6
  have k8 : ∃ o : Option (List Char × List (Char × List Char)), (∀ l, o = some l → locOK F l) ∧
      lo = (o.map fun l => '+' :: Spelling.localText l).getD [] ∧
      T8 = match o with | none => [] | some l => [("local", Spelling.localText l)] := by
    rcases h8 with ⟨m, n, S1, S2, rfl, rfl, g1, S3, g2, rfl⟩ | ⟨rfl, rfl⟩
    · obtain ⟨m1, rfl⟩ := cap_none (lit ['+']) trivial _ _ g1
      obtain ⟨m2, rfl⟩ := cap_none (.seq (plus (alnum F)) (many (.seq (.chr sep) (plus (alnum F))))) ⟨⟨trivial, trivial⟩, trivial, trivial, trivial⟩ _ _ g2
      rw [lang_lit] at m1
      subst m1
      obtain ⟨l, hl, rfl⟩ := (langLocal F n).1 m2
      exact ⟨some l, by rintro _ ⟨⟩; exact hl, rfl, rfl⟩
    · exact ⟨none, by rintro _ ⟨⟩, rfl, rfl⟩
  obtain ⟨ol, hol, rfl, rfl⟩ := k8
  refine ⟨⟨a, p, oe, ra, ras, op, oq, od, ol, []⟩, ⟨l1, l2.symm, hoe, ⟨hra, hras⟩, hop, hoq, hoq', hod, ?_, by simp⟩, rfl, ?_, ?_⟩
  · intro x xs hx; exact hol _ hx
  · simp only [Spelling.text, Spelling.releaseText, List.append_nil]
  · simp only [spellCaps, Spelling.releaseText, List.nil_append, List.append_assoc]

theorem free_body (F : Fold) : Free (parseBody F) := by
  simp only [parseBody, Free, spaces, many, opt, ci, pEpoch, digits, plus, lit, pRelease, pPre, pTagged, sepQ, pPhase,
    pPost, pPostWord, pDev, pLocal, alnum, freeWord, and_self]

theorem lang_body {F : Fold} {s : Spelling} (h : s.OK F.letter F.alnum) (hr : s.right = []) : Lang (parseBody F) s.text := by
  have ktag : ∀ {a : Re} {ws : List (List Char)} {nm l n : String} {o : Option Tag},
      (∀ u, Lang a u ↔ ∃ w ∈ ws, SameWord F.letter w u) → (∀ t, o = some t → t.OK F.letter ws) →
      Lang (opt (.grp nm (pTagged l a n))) ((o.map Tag.text).getD []) := by
    intro a ws nm l n o ha ho
    cases o with
    | none => exact .inr rfl
    | some t => exact .inl (lang_pTagged ha (ho t rfl))
  refine ⟨_, _, rfl, (lang_spaces _).2 h.left, _, _, rfl, ?_, _, _, rfl, ?_, _, _, rfl,
    (langReleaseText _).2 ⟨s.release, s.releases, h.release.1, h.release.2, rfl⟩, _, _, rfl,
    ktag (fun u => (lang_words F u).1) h.pre, _, _, rfl, ?_, _, _, rfl, ktag (fun u => (lang_words F u).2.2) h.dev, ?_⟩
  · rw [lang_opt, lang_ci]; exact h.v.symm
  · have := h.epoch
    cases he : s.epoch with
    | none => exact .inr rfl
    | some n => exact .inl ⟨n, _, rfl, (langDigits n).2 (this n he), (lang_lit _ _).2 rfl⟩
  · have h1 := h.implicit
    have h2 := h.post
    cases he : s.post with
    | none => exact .inr rfl
    | some q =>
      cases q with
      | implicit n => exact .inl (.inl ⟨['-'], n, rfl, (lang_lit _ _).2 rfl, (langDigits n).2 (h1 n he)⟩)
      | tagged t => exact .inl (.inr (lang_pTagged (fun u => (lang_words F u).2.1) (h2 t he)))
  · have h1 := h.loc
    rw [hr, List.append_nil]
    cases he : s.loc with
    | none => exact .inr rfl
    | some l => exact .inl ⟨['+'], _, rfl, (lang_lit _ _).2 rfl, (langLocal F _).2 ⟨l, h1 l.1 l.2 he, rfl⟩⟩

/-- `parse_re` as its body, white space and `$`. -/
theorem out_parse (F : Fold) (s : List Char) :
    out (parseRe F) ⟨0, s, []⟩ = (out (parseBody F) ⟨0, s, []⟩).flatMap (out (.seq spaces .eos)) := by
  show out (.seq .bos _) _ = _
  rw [out.eq_3, out.eq_7]
  simp only [if_true, List.flatMap_cons, List.flatMap_nil, List.append_nil]
  unfold parseBody
  have e : ∀ (a b : Re), out (.seq a b) = fun st => (out a st).flatMap (out b) := fun a b => funext fun st => out.eq_3 st a b
  simp only [e, List.flatMap_assoc]

theorem iter_all {p : Char → Bool} : ∀ (w : List Char) (n i : Nat) (k : List (String × Nat × Nat)), w.length ≤ n →
    (∀ c ∈ w, p c = true) → (iter true (out (.chr p)) n ⟨i, w, k⟩).head? = some ⟨i + w.length, [], k⟩
  | [], 0, i, k, _, _ => rfl
  | [], n + 1, i, k, _, _ => by
    rw [iter]
    have : out (.chr p) ⟨i, [], k⟩ = [] := rfl
    rw [this]
    rfl
  | c :: w, n + 1, i, k, hn, h => by
    rw [iter]
    have : out (.chr p) ⟨i, c :: w, k⟩ = [⟨i + 1, w, k⟩] := by
      rw [out]; simp [h c (by simp)]
    rw [this]
    simp only [if_true, List.flatMap_cons, List.flatMap_nil, List.append_nil]
    rw [if_pos (by omega), List.head?_append,
      iter_all w n (i + 1) k (by simp at hn; omega) (fun d hd => h d (List.mem_cons_of_mem _ hd))]
    simp only [Option.some_or, List.length_cons]
    congr 2
    omega

/-- The end: all the white space is read, or there is no match. -/
theorem out_end (st : St) :
    ((∀ c ∈ st.rest, Query.reSpace c = true) ∧
      (out (.seq spaces .eos) st).head? = some ⟨st.pos + st.rest.length, [], st.caps⟩) ∨
    (¬ (∀ c ∈ st.rest, Query.reSpace c = true) ∧ out (.seq spaces .eos) st = []) := by
  by_cases h : ∀ c ∈ st.rest, Query.reSpace c = true
  · left
    refine ⟨h, ?_⟩
    rw [out.eq_3]
    have h1 : (out spaces st).head? = some ⟨st.pos + st.rest.length, [], st.caps⟩ := by
      show (iter true (out (.chr Query.reSpace)) st.rest.length st).head? = _
      exact iter_all st.rest _ st.pos st.caps (Nat.le_refl _) h
    cases ho : out spaces st with
    | nil => rw [ho] at h1; cases h1
    | cons a l =>
      rw [ho] at h1
      cases h1
      rw [List.flatMap_cons, out.eq_8]
      simp
  · right
    refine ⟨h, ?_⟩
    rw [out.eq_3, List.flatMap_eq_nil_iff]
    intro s1 hs1
    obtain ⟨u, hu, hl⟩ := out_sound spaces trivial _ _ hs1
    rw [out.eq_8]
    split
    · rename_i he
      exfalso
      apply h
      intro c hc
      rw [hu.1] at hc
      rcases List.mem_append.1 hc with hc | hc
      · exact (lang_spaces u).1 hl c hc
      · rcases he with he | he
        · rw [he] at hc; cases hc
        · rw [he, List.mem_singleton] at hc; subst hc; decide
    · rfl

theorem flatMap_head {α β : Type} (f : α → List β) : ∀ (l : List α) (b : β), (l.flatMap f).head? = some b →
    ∃ a ∈ l, (f a).head? = some b
  | [], b, h => by cases h
  | a :: l, b, h => by
    rw [List.flatMap_cons] at h
    cases hf : f a with
    | nil =>
      rw [hf, List.nil_append] at h
      obtain ⟨x, hx, h⟩ := flatMap_head f l b h
      exact ⟨x, List.mem_cons_of_mem _ hx, h⟩
    | cons y ys =>
      refine ⟨a, by simp, ?_⟩
      rw [hf] at h ⊢
      exact h

theorem spell_field (s : Spelling) (name : String) (hn : name ∈ parseGroups) :
    ((spellCaps s).filter fun c => c.1 == name).map (·.2) = (s.field name).toList := by
  have hc : name = "epoch" ∨ name = "release" ∨ name = "pre" ∨ name = "pre_l" ∨ name = "pre_n" ∨ name = "post" ∨
      name = "post_n1" ∨ name = "post_l" ∨ name = "post_n2" ∨ name = "dev" ∨ name = "dev_l" ∨ name = "dev_n" ∨
      name = "local" := by simpa [parseGroups] using hn
  have ht : ∀ (o : Option Tag) (l n nm k : String), 
      (((match o with | none => [] | some t => ((l, t.word) :: (t.num.map fun x => (n, x)).toList) ++ [(nm, t.text)] :
        List (String × List Char)).filter fun c => c.1 == k).map (·.2)) =
      (if l = k then (o.map Tag.word).toList else []) ++ ((if n = k then (o.bind Tag.num).toList else []) ++
        (if nm = k then (o.map Tag.text).toList else [])) := by
    intro o l n nm k
    rcases o with _ | ⟨a, b, c, _ | d⟩
    · simp
    · by_cases h1 : l = k <;> by_cases h3 : nm = k <;> simp [h1, h3, List.filter_cons]
    · by_cases h1 : l = k <;> by_cases h2 : n = k <;> by_cases h3 : nm = k <;> simp [h1, h2, h3, List.filter_cons]
  have hq : ∀ k : String, (((match s.post with
    | none => []
    | some (.implicit n) => [("post_n1", n), ("post", '-' :: n)]
    | some (.tagged t) => (("post_l", t.word) :: (t.num.map fun x => ("post_n2", x)).toList) ++ [("post", t.text)] :
        List (String × List Char)).filter fun c => c.1 == k).map (·.2)) =
      (if "post_n1" = k then (s.field "post_n1").toList else []) ++ ((if "post_l" = k then (s.field "post_l").toList else []) ++
        ((if "post_n2" = k then (s.field "post_n2").toList else []) ++ (if "post" = k then (s.field "post").toList else []))) := by
    intro k
    simp only [Spelling.field]
    cases s.post with
    | none => simp
    | some q =>
      cases q with
      | implicit n =>
        by_cases h1 : "post_n1" = k <;> by_cases h3 : "post" = k <;> simp [h1, h3, List.filter_cons, Post.tag?, Post.text]
      | tagged t =>
        have := ht (some t) "post_l" "post_n2" "post" k
        simp only [Option.map_some, Option.bind_some, Option.toList_some] at this
        simp only [Option.bind_some, Option.map_some, Post.tag?, Post.text]
        rw [this]
        simp
  simp only [spellCaps, List.filter_append, List.map_append, hq, ht]
  rcases hc with rfl | rfl | rfl | rfl | rfl | rfl | rfl | rfl | rfl | rfl | rfl | rfl | rfl <;>
    simp [Spelling.field] <;> (cases s.epoch <;> cases s.loc <;> simp)

/-- **C101** `parse_re` matches a text exactly if the text is a version written by the rules of PEP 440, appendix B,
with white space around; it then matches all of it. -/
theorem C101_language (F : Fold) (s : List Char) :
    (matchStart (parseRe F) s).isSome = true ↔ ∃ sp : Spelling, sp.OK F.letter F.alnum ∧ s = sp.text := by
  constructor
  · intro h
    unfold matchStart at h
    rw [out_parse] at h
    cases hh : ((out (parseBody F) ⟨0, s, []⟩).flatMap (out (.seq spaces .eos))).head? with
    | none => rw [hh] at h; cases h
    | some st' =>
      obtain ⟨st, hst, he⟩ := flatMap_head _ _ _ hh
      obtain ⟨u, T, ht, hc⟩ := out_takes s (parseBody F) (free_body F) _ _ ⟨[], rfl, rfl⟩ hst
      obtain ⟨sp, hok, hr, rfl, -⟩ := cap_body hc
      rcases out_end st with ⟨hw, -⟩ | ⟨-, hn⟩
      · refine ⟨{ sp with right := st.rest }, ⟨hok.1, hok.2, hok.3, hok.4, hok.5, hok.6, hok.7, hok.8, hok.9, hw⟩, ?_⟩
        have := ht.reads.1
        dsimp only at this
        rw [this]
        simp [Spelling.text, Spelling.releaseText, hr]
      · rw [hn] at he; cases he
  · rintro ⟨sp, hok, rfl⟩
    have hl := lang_body (F := F) (s := { sp with right := [] })
      ⟨hok.1, hok.2, hok.3, hok.4, hok.5, hok.6, hok.7, hok.8, hok.9, by simp⟩ rfl
    obtain ⟨c, hc⟩ := out_complete (parseBody F) ⟨0, sp.text, []⟩ _ sp.right
      (by simp [Spelling.text, Spelling.releaseText]) hl
    unfold matchStart
    rw [out_parse]
    have : ((out (parseBody F) ⟨0, sp.text, []⟩).flatMap (out (.seq spaces .eos))) ≠ [] := by
      intro hn
      rw [List.flatMap_eq_nil_iff] at hn
      have h1 := hn _ hc
      rcases out_end ⟨0 + { sp with right := [] : Spelling }.text.length, sp.right, c⟩ with ⟨-, h2⟩ | ⟨h2, -⟩
      · rw [h1] at h2; cases h2
      · exact h2 hok.right
    cases hh : ((out (parseBody F) ⟨0, sp.text, []⟩).flatMap (out (.seq spaces .eos))) with
    | nil => exact absurd hh this
    | cons x l => rfl

/-- **C101** Whatever text it matches, it matches as a whole, and the groups have captured the parts of one reading of
it by the rules of appendix B. -/
theorem C101_groups (F : Fold) (s : List Char) (f : Found) (h : matchStart (parseRe F) s = some f) :
    f.start = 0 ∧ f.stop = s.length ∧ ∃ sp : Spelling, sp.OK F.letter F.alnum ∧ s = sp.text ∧
      ∀ name ∈ parseGroups, captures s f name = (sp.field name).toList := by
  unfold matchStart at h
  rw [out_parse] at h
  cases hh : ((out (parseBody F) ⟨0, s, []⟩).flatMap (out (.seq spaces .eos))).head? with
  | none => rw [hh] at h; cases h
  | some st' =>
    rw [hh] at h
    cases h
    obtain ⟨st, hst, he⟩ := flatMap_head _ _ _ hh
    obtain ⟨u, T, ht, hc⟩ := out_takes s (parseBody F) (free_body F) _ _ ⟨[], rfl, rfl⟩ hst
    obtain ⟨sp, hok, hr, rfl, rfl⟩ := cap_body hc
    rcases out_end st with ⟨hw, hs⟩ | ⟨-, hn⟩
    · rw [he] at hs
      cases hs
      have e1 := ht.reads.1
      have e2 := ht.reads.2
      dsimp only at e1 e2
      refine ⟨rfl, ?_, { sp with right := st.rest }, ⟨hok.1, hok.2, hok.3, hok.4, hok.5, hok.6, hok.7, hok.8, hok.9, hw⟩, ?_, ?_⟩
      · rw [e1]
        simp only [List.length_append]
        omega
      · rw [e1]
        simp [Spelling.text, Spelling.releaseText, hr]
      · intro name hn
        rw [show ({ sp with right := st.rest } : Spelling).field name = sp.field name from by
          unfold Spelling.field; rfl, ← spell_field sp name hn]
        have := ht.caps
        simp only [capTexts, List.map_nil, List.nil_append] at this
        rw [← this]
        unfold captures
        rw [List.filter_map, List.map_map]
        rfl
    · rw [hn] at he; cases he

/-! ### Examples -/

/-- ` V1!2.0-Alpha_3-4.DEV+Ubuntu-1 ` -/
def demoSpelling : Spelling :=
  ⟨[' '], ['V'], some ['1'], ['2'], [['0']], some ⟨['-'], "Alpha".toList, ['_'], some ['3']⟩, some (.implicit ['4']),
    some ⟨['.'], "DEV".toList, [], none⟩, some ("Ubuntu".toList, [('-', ['1'])]), ['\n']⟩
example : String.ofList demoSpelling.text = " V1!2.0-Alpha_3-4.DEV+Ubuntu-1\n" := by decide +kernel
theorem demoSpelling_ok : demoSpelling.OK (fun _ _ => false) (fun _ => false) where
  left := by decide
  v := .inr ⟨.inr (.inl (by decide)), trivial⟩
  epoch := by rintro _ ⟨⟩; exact ⟨by decide, by decide⟩
  release := ⟨⟨by decide, by decide⟩, by intro n hn; simp [demoSpelling] at hn; subst hn; exact ⟨by decide, by decide⟩⟩
  pre := by
    rintro _ ⟨⟩
    refine ⟨.inr (.inl rfl), ⟨"alpha".toList, by decide, ?_⟩, .inr (.inr (.inl rfl)), by rintro _ ⟨⟩; exact ⟨by decide, by decide⟩⟩
    exact ⟨by decide, by decide, by decide, by decide, by decide, trivial⟩
  implicit := by rintro _ ⟨⟩; exact ⟨by decide, by decide⟩
  post := by rintro _ ⟨⟩
  dev := by
    rintro _ ⟨⟩
    exact ⟨.inr (.inr (.inr rfl)), ⟨"dev".toList, by decide, by decide, by decide, by decide, trivial⟩, .inl rfl, by rintro _ ⟨⟩⟩
  loc := by
    rintro _ _ ⟨⟩
    refine ⟨⟨by decide, by decide⟩, ?_⟩
    intro q hq
    rw [List.mem_singleton] at hq
    subst hq
    exact ⟨.inl rfl, by decide, by decide⟩
  right := by decide
example : (matchStart (parseRe ⟨fun _ _ => false, fun _ => false⟩) demoSpelling.text).isSome = true :=
  (C101_language ⟨fun _ _ => false, fun _ => false⟩ _).2 ⟨demoSpelling, demoSpelling_ok, rfl⟩
example : (matchStart (parseRe ⟨fun _ _ => false, fun _ => false⟩) "1.0x".toList).isSome = false := by decide +kernel

end Pawpaw.Props
