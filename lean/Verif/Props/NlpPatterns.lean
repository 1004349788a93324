import Verif.Model.NlpRe
import Verif.Props.Nlp
import Verif.Props.RegexForest
import Verif.Props.NumberFind
/-!
# The patterns of `nlp.py` fulfil the contract `NlpSpec.Lawful`
-/
set_option linter.unusedSectionVars false
set_option linter.unusedSimpArgs false
namespace Pawpaw.Props
open Pawpaw Pawpaw.Regex Pawpaw.NumberRe Pawpaw.NlpRe RegexSpec NumberSpec NlpSpec TreeSpec SpanSpec

/-! ### Ordering of matches -/

theorem part_length {s : String} {a b : Int} (h0 : 0 ≤ a) (h1 : a ≤ b) (h2 : b ≤ s.length) :
    ((a.toNat + (part s ⟨a, b⟩).length : Nat) : Int) = b := by
  unfold part
  rw [List.length_drop, List.length_take, String.length_toList]
  dsimp only
  omega

theorem orderedIn_founds : ∀ (l : List Found) (i e : Nat), (∀ f ∈ l, i ≤ f.start ∧ f.start ≤ f.stop ∧ f.stop ≤ e) → i ≤ e →
    l.Pairwise (fun a b => a.stop ≤ b.start) → OrderedIn (i : Int) (e : Int) (l.map whole)
  | [], i, e, _, h, _ => by show (i : Int) ≤ e; omega
  | f :: l, i, e, h, hie, hp => by
    obtain ⟨p1, p2⟩ := List.pairwise_cons.1 hp
    have hf := h f (by simp)
    refine ⟨?_, ?_, orderedIn_founds l f.stop e (fun g hg => ?_) hf.2.2 p2⟩
    · show (i : Int) ≤ f.start; omega
    · show (f.start : Int) ≤ f.stop; omega
    · have := h g (by simp [hg])
      have := p1 g hg
      omega

theorem finds_ordered {r : Re} (hr : NoLook r) {s : String} {a b : Int} (h0 : 0 ≤ a) (h1 : a ≤ b) (h2 : b ≤ s.length) :
    OrderedIn a b ((finds r s ⟨a, b⟩).map whole) := by
  obtain ⟨k1, k2⟩ := finditer_ok hr (i := a.toNat) (rest := part s ⟨a, b⟩)
  have := part_length h0 h1 h2
  have ho := orderedIn_founds (finds r s ⟨a, b⟩) a.toNat (a.toNat + (part s ⟨a, b⟩).length)
    (fun f hf => ⟨(k1 f hf).2.1, (k1 f hf).1.le, (k1 f hf).2.2⟩) (by omega) k2
  rw [this] at ho
  rwa [Int.toNat_of_nonneg h0] at ho

/-! ### No lookahead in the patterns -/

theorem noLook_of_free : ∀ r : Re, Free r → NoLook r
  | .eps, _ | .chr _, _ => trivial
  | .seq a b, h => ⟨noLook_of_free a h.1, noLook_of_free b h.2⟩
  | .alt a b, h => ⟨noLook_of_free a h.1, noLook_of_free b h.2⟩
  | .star _ a, h => noLook_of_free a h
  | .grp _ a, h => noLook_of_free a h
  | .dep a f, h => ⟨noLook_of_free a h.1, fun u => noLook_of_free (f u) (h.2 u)⟩

theorem noLook_atLeast {a : Re} (h : NoLook a) : ∀ n, NoLook (atLeast n a)
  | 0 => h
  | n + 1 => ⟨h, noLook_atLeast h n⟩

theorem noLook_para (seps : List Char) (n : Nat) : NoLook (paraRe seps n) :=
  noLook_atLeast (a := .seq (many (oneOf blanks)) (oneOf seps)) ⟨trivial, trivial⟩ n

theorem noLook_ws : NoLook ws := ⟨⟨trivial, trivial⟩, trivial⟩

theorem noLook_sent (K : Classes) (text : List Char) (lo : Nat) : NoLook (sentRe K text lo) :=
  ⟨trivial, ⟨noLook_ws, trivial⟩, noLook_atLeast noLook_ws 2, ⟨noLook_ws, trivial⟩, trivial, trivial, trivial, trivial,
    noLook_ws, trivial⟩

theorem free_word (K : Classes) : Free (wordRe K) := ⟨trivial, ⟨⟨trivial, trivial, trivial⟩, trivial⟩, trivial⟩
theorem free_char (K : Classes) : Free (charRe K) := trivial

/-! ### The contract -/

/-- Matches of a pattern which does not match the empty text are not empty. -/
theorem finds_nonempty {r : Re} (hr : Free r) (hn : ¬ Lang r []) {s : String} {sp : Span} {f : Found} (hf : f ∈ finds r s sp) :
    f.start < f.stop := by
  obtain ⟨pre, suf, st, e1, e2, e3, e4, _⟩ := finditer_at hf
  obtain ⟨u, ⟨_, h2⟩, hl⟩ := out_sound _ hr _ st e3
  simp only at h2
  have : u ≠ [] := by rintro rfl; exact hn hl
  have := List.length_pos_iff.2 this
  omega

theorem isNumber_ne {F : Fmt} {u : List Char} (h : IsNumber F u) : u ≠ [] := by
  obtain ⟨sg, i, d, e, rfl, _, _, _, h, _⟩ := h
  intro h0
  simp at h0
  simp [h0] at h

theorem isExp_ne {F : Fmt} {u : List Char} (h : IsExp F u) : u ≠ [] := by
  rcases h with ⟨c, sg, ds, rfl, _⟩ | ⟨s1, c, s2, s3, sg, ds, rfl, _⟩ <;> simp

theorem mem_spansOf {g : String} {f : Found} {sp : Span} (h : sp ∈ spansOf g f) :
    ∃ c ∈ f.caps, c.1 = g ∧ sp = ⟨(c.2.1 : Int), (c.2.2 : Int)⟩ := by
  obtain ⟨c, hc, rfl⟩ := List.mem_map.1 h
  obtain ⟨h1, h2⟩ := List.mem_filter.1 hc
  exact ⟨c, h1, by simpa using h2, rfl⟩

theorem laminar_of_cap {a b : String × Nat × Nat} (h : CapLam a b) :
    Laminar ⟨(a.2.1 : Int), (a.2.2 : Int)⟩ ⟨(b.2.1 : Int), (b.2.2 : Int)⟩ := by
  unfold CapLam at h
  unfold Laminar
  dsimp only
  omega

theorem laminar_symm {a b : Span} (h : Laminar a b) : Laminar b a := by
  unfold Laminar at *
  omega

theorem capLam_symm {a b : String × Nat × Nat} (h : CapLam a b) : CapLam b a := by
  unfold CapLam at *
  omega

/-- Any two different captures of a list without crossing do not cross. -/
theorem caps_apart {α : Type} {R : α → α → Prop} (hs : ∀ a b, R a b → R b a) : ∀ {l : List α}, l.Pairwise R →
    ∀ a ∈ l, ∀ b ∈ l, a ≠ b → R a b
  | [], _, a, ha, _, _, _ => by cases ha
  | x :: l, h, a, ha, b, hb, hne => by
    obtain ⟨h1, h2⟩ := List.pairwise_cons.1 h
    rcases List.mem_cons.1 ha with rfl | ha' <;> rcases List.mem_cons.1 hb with rfl | hb'
    · exact absurd rfl hne
    · exact h1 b hb'
    · exact hs _ _ (h1 a ha')
    · exact caps_apart hs h2 a ha' b hb' hne

theorem laminar_groups (f : Found) (h : f.caps.Pairwise CapLam) : ∀ gs : List String, gs.Nodup →
    ((gs.map fun g => (g, spansOf g f)).flatMap (·.2)).Pairwise Laminar
  | [], _ => by simp
  | g :: gs, hn => by
    obtain ⟨n1, n2⟩ := List.nodup_cons.1 hn
    rw [List.map_cons, List.flatMap_cons, List.pairwise_append]
    refine ⟨?_, laminar_groups f h gs n2, ?_⟩
    · unfold spansOf
      rw [List.pairwise_map]
      exact (List.Pairwise.sublist List.filter_sublist h).imp laminar_of_cap
    · intro a ha b hb
      obtain ⟨x, hx, hb⟩ := List.mem_flatMap.1 hb
      obtain ⟨g', hg', rfl⟩ := List.mem_map.1 hx
      obtain ⟨c, hc, rfl, rfl⟩ := mem_spansOf ha
      obtain ⟨d, hd, rfl, rfl⟩ := mem_spansOf hb
      refine laminar_of_cap (caps_apart (fun _ _ => capLam_symm) h c hc d hd ?_)
      rintro rfl
      exact n1 hg'

/-- A found capture is inside the match and not empty. -/
theorem number_cap {F : Fmt} {s : String} {sp : Span} {f : Found} (hf : f ∈ finds (numRe F) s sp) {c : String × Nat × Nat}
    (hc : c ∈ f.caps) : f.start ≤ c.2.1 ∧ c.2.1 < c.2.2 ∧ c.2.2 ≤ f.stop := by
  have h1 := ((finditer_ok (noLook_of_free _ (free_numRe (F := F)))).1 f hf).1.inside c hc
  refine ⟨h1.1, ?_, h1.2.2⟩
  obtain ⟨pre, suf, st, e1, e2, e3, _, e5, _⟩ := finditer_at hf
  rw [e5] at hc
  rcases out_capOf _ free_numRe _ st e3 c hc with h | ⟨x, p, u, w, k1, k2, k3, k4, k5⟩
  · cases h
  · have : u ≠ [] := by
      rcases groupIn_numRe k1 with ⟨_, b⟩ | ⟨_, b⟩ | ⟨_, b⟩ | ⟨_, b⟩ | ⟨_, b⟩
      · rcases b u k2 with h | h <;> simp [h]
      · exact isInt_ne (b u k2)
      · exact isDec_ne (b u k2)
      · exact isExp_ne (b u k2)
      · exact isNumber_ne (b u k2)
    have := List.length_pos_iff.2 this
    omega

/-- The patterns of the library fulfil the contract, whatever the settings. -/
theorem patterns_lawful (K : Classes) (F : Fmt) (seps : List Char) (n : Nat) (seen : Nat → Nat) :
    Lawful (patterns K F seps n seen) where
  para s a b h0 h1 h2 := finds_ordered (noLook_para seps n) h0 h1 h2
  sent s a b h0 h1 h2 := finds_ordered (noLook_sent K _ _) h0 h1 h2
  word s a b h0 h1 h2 := finds_ordered (noLook_of_free _ (free_word K)) h0 h1 h2
  wordNE s sp w hw := by
    obtain ⟨f, hf, rfl⟩ := List.mem_map.1 hw
    have := finds_nonempty (free_word K) (by rintro ⟨v, w, h, ⟨c, _, rfl⟩, _⟩; simp at h) hf
    show (f.start : Int) < f.stop
    omega
  num s a b h0 h1 h2 := by
    show OrderedIn a b (((finds (numRe F) s ⟨a, b⟩).map _).map _)
    rw [List.map_map]
    exact finds_ordered (noLook_of_free _ free_numRe) h0 h1 h2
  numNE s sp m hm := by
    obtain ⟨f, hf, rfl⟩ := List.mem_map.1 hm
    have := finds_nonempty free_numRe (by rw [lang_numRe]; exact fun h => isNumber_ne h rfl) hf
    show (f.start : Int) < f.stop
    omega
  groupsIn s sp m hm g hg c hc := by
    obtain ⟨f, hf, rfl⟩ := List.mem_map.1 hm
    obtain ⟨n, _, rfl⟩ := List.mem_map.1 hg
    obtain ⟨d, hd, _, rfl⟩ := mem_spansOf hc
    have := number_cap hf hd
    show (f.start : Int) ≤ d.2.1 ∧ (d.2.1 : Int) < d.2.2 ∧ (d.2.2 : Int) ≤ f.stop
    omega
  groupsLaminar s sp m hm := by
    obtain ⟨f, hf, rfl⟩ := List.mem_map.1 hm
    exact laminar_groups f ((finditer_ok (noLook_of_free _ (free_numRe (F := F)))).1 f hf).1.lam _ (by decide)

/-- The group `number` is the whole match, as the model of `SimpleNlp` says. -/
theorem number_is_whole (F : Fmt) (s : String) (sp : Span) (f : Found) (hf : f ∈ finds (numRe F) s sp) :
    whole f ∈ spansOf "number" f := by
  obtain ⟨pre, suf, st, e1, e2, e3, e4, e5, _⟩ := finditer_at hf
  have hm := e3
  unfold numRe at hm
  rw [out] at hm
  obtain ⟨s1, _, rfl⟩ := List.mem_map.1 hm
  unfold spansOf
  rw [List.mem_map]
  refine ⟨("number", f.start, f.stop), ?_, rfl⟩
  rw [e5, e4]
  simp

end Pawpaw.Props
