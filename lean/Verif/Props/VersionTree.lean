import Verif.Props.VersionParse
import Verif.Props.MatchExact
import Verif.Model.XmlTag
/-!
# C100: what `Version.parse_re` says of a version, and the tree made of it
-/
set_option linter.unusedSectionVars false
set_option linter.unusedSimpArgs false
namespace Pawpaw.Props
open Pawpaw Pawpaw.Version Pawpaw.Regex RegexSpec VersionSpec TreeSpec Match

/-- The text between two positions. -/
def sliceN (s : List Char) (i j : Nat) : List Char := (s.drop i).take (j - i)

theorem slice_at {s x t y : List Char} {i j : Nat} (hs : s = x ++ (t ++ y)) (hi : i = x.length) (hj : j = i + t.length) :
    sliceN s i j = t := by
  subst hs hi hj
  unfold sliceN
  rw [List.drop_left, Nat.add_sub_cancel_left, List.take_left]

/-- The text of every capture of a tagged part. -/
theorem tag_slices {s x y : List Char} {j : Nat} {s0 t : List Char} {m : Nat} (hs : s = x ++ (s0 ++ (t ++ (dec m ++ y))))
    (hj : j = x.length) :
    sliceN s (j + s0.length) (j + s0.length + t.length) = t ∧
    sliceN s (j + s0.length + t.length) (j + s0.length + t.length + (dec m).length) = dec m ∧
    sliceN s j (j + s0.length + t.length + (dec m).length) = s0 ++ (t ++ dec m) := by
  refine ⟨slice_at (x := x ++ s0) (y := dec m ++ y) ?_ ?_ rfl, slice_at (x := x ++ s0 ++ t) (y := y) ?_ ?_ rfl,
    slice_at (x := x) (y := y) ?_ hj ?_⟩
  · rw [hs]; simp
  · rw [List.length_append]; omega
  · rw [hs]; simp
  · simp only [List.length_append]; omega
  · rw [hs]; simp
  · simp only [List.length_append]; omega

/-! ### The tree -/

/-- A leaf. -/
def leafN (name : String) (i j : Nat) : Node := .mk ⟨(i : Int), (j : Int)⟩ (some name) none []

/-- The node of a part with tag and number. -/
def tagNode (name l n : String) (s t : List Char) (m : Nat) (j : Nat) : Node :=
  .mk ⟨(j : Int), ((j + s.length + t.length + (dec m).length : Nat) : Int)⟩ (some name) none
    [leafN l (j + s.length) (j + s.length + t.length),
      leafN n (j + s.length + t.length) (j + s.length + t.length + (dec m).length)]

def epochNodes (v : Ver) (j : Nat) : List Node :=
  if v.epoch = 0 then [] else [leafN "epoch" j (j + (dec v.epoch).length)]
def preNodes (v : Ver) (j : Nat) : List Node :=
  match v.pre with | none => [] | some (p, n) => [tagNode "pre" "pre_l" "pre_n" [] p.text n j]
def postNodes (v : Ver) (j : Nat) : List Node :=
  match v.post with | none => [] | some n => [tagNode "post" "post_l" "post_n2" ['.'] "post".toList n j]
def devNodes (v : Ver) (j : Nat) : List Node :=
  match v.dev with | none => [] | some n => [tagNode "dev" "dev_l" "dev_n" ['.'] "dev".toList n j]
def locNodes (v : Ver) (j : Nat) : List Node :=
  match v.loc with | none => [] | some _ => [leafN "local" (j + 1) (j + (locText v).length)]

/-- The children of the root. -/
def verKids (v : Ver) (j : Nat) : List Node :=
  let j1 := j + (epochText v).length
  let j2 := j1 + (releaseText v).length
  let j3 := j2 + (preText v).length
  let j4 := j3 + (postText v).length
  let j5 := j4 + (devText v).length
  epochNodes v j ++ ([leafN "release" j1 j2] ++ (preNodes v j2 ++ (postNodes v j3 ++ (devNodes v j4 ++ locNodes v j5))))

/-- Nodes one after the other between two positions, none of them empty. -/
structure RowOK (i j : Nat) (l : List Node) : Prop where
  le : i ≤ j
  each : ∀ n ∈ l, Canon n ∧ (i : Int) ≤ n.span.start ∧ n.span.start < n.span.stop ∧ n.span.stop ≤ j
  order : (l.map Node.span).Pairwise fun a b => a.stop ≤ b.start
  listed : (preorderAll l).Pairwise fun a b => Before a.1 b.1
  inside : ∀ e ∈ preorderAll l, (i : Int) ≤ e.1.start ∧ e.1.start < e.1.stop ∧ e.1.stop ≤ j

theorem RowOK.nil {i j : Nat} (h : i ≤ j) : RowOK i j [] :=
  ⟨h, by simp, by simp, by simp [preorderAll], by simp [preorderAll]⟩

theorem preorderAll_app (a b : List Node) : preorderAll (a ++ b) = preorderAll a ++ preorderAll b := by
  induction a with
  | nil => rfl
  | cons n a ih => simp [preorderAll, ih]

theorem RowOK.append {i j k : Nat} {a b : List Node} (ha : RowOK i j a) (hb : RowOK j k b) : RowOK i k (a ++ b) where
  le := Nat.le_trans ha.le hb.le
  each := by
    have h1 := ha.le
    have h2 := hb.le
    intro n hn
    rcases List.mem_append.1 hn with hn | hn
    · obtain ⟨c, d⟩ := ha.each n hn
      exact ⟨c, by omega⟩
    · obtain ⟨c, d⟩ := hb.each n hn
      exact ⟨c, by omega⟩
  order := by
    rw [List.map_append, List.pairwise_append]
    refine ⟨ha.order, hb.order, ?_⟩
    intro x hx y hy
    obtain ⟨n, hn, rfl⟩ := List.mem_map.1 hx
    obtain ⟨m, hm, rfl⟩ := List.mem_map.1 hy
    have := (ha.each n hn).2
    have := (hb.each m hm).2
    omega
  listed := by
    rw [preorderAll_app, List.pairwise_append]
    refine ⟨ha.listed, hb.listed, ?_⟩
    intro x hx y hy
    have := ha.inside x hx
    have := hb.inside y hy
    left
    omega
  inside := by
    have h1 := ha.le
    have h2 := hb.le
    intro e he
    rw [preorderAll_app, List.mem_append] at he
    rcases he with he | he
    · have := ha.inside e he; omega
    · have := hb.inside e he; omega

theorem row_leaf (name : String) {i j : Nat} (h : i < j) : RowOK i j [leafN name i j] where
  le := by omega
  each := by
    intro n hn
    rw [List.mem_singleton] at hn
    subst hn
    refine ⟨.mk (by dsimp only; omega) (by dsimp only; omega) ⟨by simp, by simp⟩ (by simp) (by simp), ?_⟩
    show (i : Int) ≤ (i : Int) ∧ (i : Int) < (j : Int) ∧ (j : Int) ≤ (j : Int)
    omega
  order := by simp
  listed := by simp [preorderAll, preorder, leafN]
  inside := by
    intro e he
    simp only [preorderAll, preorder, leafN, List.mem_append, List.mem_singleton, List.append_nil] at he
    subst he
    dsimp only
    omega

theorem dec_pos (n : Nat) : 0 < (dec n).length := by
  have := (dec_d09 n).1
  cases h : dec n with
  | nil => exact absurd h this
  | cons => simp

theorem row_tag (name l n : String) (s t : List Char) (m j : Nat) (ht : t ≠ []) :
    RowOK j (j + s.length + t.length + (dec m).length) [tagNode name l n s t m j] := by
  have h1 : 0 < t.length := by cases t <;> simp_all
  have h2 := dec_pos m
  have hin := (row_leaf l (i := j + s.length) (j := j + s.length + t.length) (by omega)).append
    (row_leaf n (i := j + s.length + t.length) (j := j + s.length + t.length + (dec m).length) (by omega))
  refine ⟨by omega, ?_, by simp, ?_, ?_⟩
  · intro x hx
    rw [List.mem_singleton] at hx
    subst hx
    refine ⟨.mk (by dsimp only; omega) (by dsimp only; omega) ⟨?_, ?_⟩ ?_ ?_, ?_⟩
    · intro c hc
      obtain ⟨y, hy, rfl⟩ := List.mem_map.1 hc
      have := (hin.each y hy).2
      dsimp only
      omega
    · simp only [List.map_cons, List.map_nil, List.pairwise_cons, List.mem_singleton, forall_eq]
      refine ⟨?_, by simp⟩
      show ((j + s.length : Nat) : Int) < ((j + s.length + t.length : Nat) : Int) ∧
        ((j + s.length + t.length : Nat) : Int) ≤ ((j + s.length + t.length : Nat) : Int)
      omega
    · simp only [List.map_cons, List.map_nil, List.pairwise_cons, List.mem_singleton, forall_eq]
      refine ⟨?_, by simp⟩
      show ((j + s.length + t.length : Nat) : Int) < ((j + s.length + t.length + (dec m).length : Nat) : Int)
      omega
    · intro y hy
      exact (hin.each y hy).1
    · show (j : Int) ≤ (j : Int) ∧ (j : Int) < ((j + s.length + t.length + (dec m).length : Nat) : Int) ∧ _ ≤ _
      refine ⟨by omega, by omega, Int.le_refl _⟩
  · show (((⟨(j : Int), ((j + s.length + t.length + (dec m).length : Nat) : Int)⟩ : Span), some name) ::
      preorderAll [leafN l (j + s.length) (j + s.length + t.length),
        leafN n (j + s.length + t.length) (j + s.length + t.length + (dec m).length)] ++ []).Pairwise _
    rw [List.append_nil, List.pairwise_cons]
    refine ⟨?_, hin.listed⟩
    intro e he
    have := hin.inside e he
    unfold Before
    dsimp only
    omega
  · intro e he
    have he : e ∈ ((⟨(j : Int), ((j + s.length + t.length + (dec m).length : Nat) : Int)⟩ : Span), some name) ::
      preorderAll [leafN l (j + s.length) (j + s.length + t.length),
        leafN n (j + s.length + t.length) (j + s.length + t.length + (dec m).length)] ++ [] := he
    rw [List.append_nil, List.mem_cons] at he
    rcases he with rfl | he
    · dsimp only; omega
    · have := hin.inside e he; omega

theorem phase_ne (p : Phase) : p.text ≠ [] := by cases p <;> simp [Phase.text]

theorem row_cast {i j k : Nat} {l : List Node} (h : RowOK i j l) (e : j = k) : RowOK i k l := e ▸ h

theorem row_kids (v : Ver) (hv : v.Proper) (j : Nat) : RowOK j (j + v.text.length) (verKids v j) := by
  have hE : RowOK j (j + (epochText v).length) (epochNodes v j) := by
    unfold epochText epochNodes
    split
    · exact RowOK.nil (by omega)
    · have := dec_pos v.epoch
      exact (row_cast ((row_leaf "epoch" (by omega)).append (RowOK.nil (j := j + (dec v.epoch ++ ['!']).length)
        (by simp only [List.length_append]; omega))) rfl)
  have hR : RowOK (j + (epochText v).length) (j + (epochText v).length + (releaseText v).length)
      [leafN "release" (j + (epochText v).length) (j + (epochText v).length + (releaseText v).length)] := by
    refine row_leaf _ ?_
    have := dec_pos v.release
    unfold releaseText
    rw [List.length_append]
    omega
  have hP : ∀ j, RowOK j (j + (preText v).length) (preNodes v j) := by
    intro j
    unfold preText preNodes
    cases v.pre with
    | none => exact RowOK.nil (by simp)
    | some q => exact row_cast (row_tag _ _ _ [] _ _ _ (phase_ne q.1)) (by simp; omega)
  have hQ : ∀ j, RowOK j (j + (postText v).length) (postNodes v j) := by
    intro j
    unfold postText postNodes
    cases v.post with
    | none => exact RowOK.nil (by simp)
    | some n => exact row_cast (row_tag _ _ _ ['.'] _ _ _ (by simp)) (by simp; omega)
  have hD : ∀ j, RowOK j (j + (devText v).length) (devNodes v j) := by
    intro j
    unfold devText devNodes
    cases v.dev with
    | none => exact RowOK.nil (by simp)
    | some n => exact row_cast (row_tag _ _ _ ['.'] _ _ _ (by simp)) (by simp; omega)
  have hL : ∀ j, RowOK j (j + (locText v).length) (locNodes v j) := by
    intro j
    unfold locNodes
    cases hl : v.loc with
    | none => exact RowOK.nil (by omega)
    | some q =>
      obtain ⟨s, ss⟩ := q
      have h1 := (hv s ss hl).1.1
      have : 1 + 1 ≤ (locText v).length := by
        unfold locText
        rw [hl]
        have : 0 < s.length := by cases s <;> simp_all
        simp only [List.length_cons, List.length_append]
        omega
      exact (RowOK.nil (i := j) (j := j + 1) (by omega)).append (row_leaf _ (by omega))
  have := hE.append (hR.append ((hP _).append ((hQ _).append ((hD _).append (hL _)))))
  refine row_cast this ?_
  rw [ver_text]
  simp only [List.length_append]
  omega

/-- `match.spans(gk)` of all groups, the whole match first: what `Ito.from_match(match)` works on
(`GroupKeys.preferred`, `/repo/pawpaw/ito.py:22-29,109-117`). -/
def matchGroups (f : Found) : List (Option String × List Span) :=
  (some "0", [⟨(f.start : Int), (f.stop : Int)⟩]) :: Xml.spansOf parseGroups f

theorem kids_listed (v : Ver) (j : Nat) :
    (parseGroups.flatMap fun g => ((verCaps v j).filter (fun c => c.1 == g)).map fun c =>
      ((⟨(c.2.1 : Int), (c.2.2 : Int)⟩ : Span), some g)) = preorderAll (verKids v j) := by
  simp only [verCaps, verKids, preorderAll_app, epochCaps, epochNodes, preCaps, preNodes, postCaps, postNodes, devCaps,
    devNodes, locCaps, locNodes, parseGroups]
  generalize (epochText v).length = E
  generalize (releaseText v).length = R
  generalize (preText v).length = P
  generalize (postText v).length = Q
  generalize (devText v).length = D
  generalize (locText v).length = L
  by_cases h0 : v.epoch = 0 <;> rcases v.pre with _ | ⟨p, n⟩ <;> rcases v.post with _ | m <;> rcases v.dev with _ | d <;>
    rcases v.loc with _ | q <;>
  simp [h0, tagCaps, tagNode, leafN, preorderAll, preorder, List.filter_cons]

/-- The texts of a group: what `match.captures(name)` gives. -/
def captures (s : List Char) (f : Found) (name : String) : List (List Char) :=
  (f.caps.filter fun c => c.1 == name).map fun c => sliceN s c.2.1 c.2.2

/-- The text of a node of the string `s`. -/
def ver_nodeText (s : List Char) (n : Node) : List Char := sliceN s n.span.start.toNat n.span.stop.toNat

/-- **C100** Every version, written canonically (so also every text `is_canonical` accepts, but for a newline), possibly
with `v` before it and white space around, is matched as a whole by `parse_re`, and every group has captured exactly the
part of the version it is named for, once, or nothing if that part is missing. -/
theorem C100_parse {F : Fold} (hF : Fold.OK F) (v : Ver) (hv : v.Proper) {a p b : List Char}
    (ha : ∀ c ∈ a, Query.reSpace c = true) (hb : ∀ c ∈ b, Query.reSpace c = true) (hp : p = [] ∨ p = ['v'] ∨ p = ['V']) :
    ∃ f, matchStart (parseRe F) (a ++ p ++ v.text ++ b) = some f ∧
      f.start = 0 ∧ f.stop = (a ++ p ++ v.text ++ b).length ∧
      ∀ name ∈ parseGroups, captures (a ++ p ++ v.text ++ b) f name = (v.field name).toList := by
  have h := first_parse hF v hv ha hb hp
  unfold first at h
  refine ⟨⟨0, (a ++ p ++ v.text ++ b).length, verCaps v (a.length + p.length)⟩, ?_, rfl, rfl, ?_⟩
  · unfold matchStart
    rw [h]
    rfl
  · generalize hs : a ++ p ++ v.text ++ b = s
    have hs : s = (a ++ p) ++ (epochText v ++ (releaseText v ++ (preText v ++ (postText v ++ (devText v ++ (locText v ++ b)))))) := by
      rw [← hs, ver_text]; simp
    generalize hj : a.length + p.length = j
    have hj : j = (a ++ p).length := by rw [← hj, List.length_append]
    generalize a ++ p = x at hs hj
    intro name hn
    unfold captures verCaps
    dsimp only
    simp only [List.filter_append, List.map_append]
    have hE : ((epochCaps v j).filter fun c => c.1 == name).map (fun c => sliceN s c.2.1 c.2.2) =
        if name = "epoch" then (v.field "epoch").toList else [] := by
      unfold epochCaps Ver.field
      by_cases h0 : v.epoch = 0
      · simp [h0]
      · simp only [h0, if_false, List.filter_cons, List.filter_nil]
        have := slice_at (s := s) (x := x) (t := dec v.epoch)
          (y := '!' :: (releaseText v ++ (preText v ++ (postText v ++ (devText v ++ (locText v ++ b)))))) (i := j)
          (j := j + (dec v.epoch).length) (by rw [hs]; unfold epochText; rw [if_neg h0]; simp) hj rfl
        by_cases hn : name = "epoch"
        · subst hn; simp [this]
        · rw [if_neg hn, if_neg (by simpa using fun h => hn h.symm)]; rfl
    have hR : ((([("release", j + (epochText v).length, j + (epochText v).length + (releaseText v).length)] :
        List (String × Nat × Nat)).filter fun c => c.1 == name).map (fun c => sliceN s c.2.1 c.2.2)) =
        if name = "release" then (v.field "release").toList else [] := by
      have := slice_at (s := s) (x := x ++ epochText v) (t := releaseText v)
          (y := (preText v ++ (postText v ++ (devText v ++ (locText v ++ b))))) (i := j + (epochText v).length)
          (j := j + (epochText v).length + (releaseText v).length) (by rw [hs]; simp) (by rw [List.length_append]; omega) rfl
      by_cases hn : name = "release"
      · subst hn
        simp only [List.filter_cons, List.filter_nil, beq_self_eq_true, if_true, List.map_cons, List.map_nil, this]
        rfl
      · rw [if_neg hn, List.filter_cons, if_neg (by simpa using fun h => hn h.symm)]; rfl
    have htag : ∀ (s0 t : List Char) (m : Nat) (nm l n : String) (i : Nat) (y z : List Char), s = z ++ (s0 ++ (t ++ (dec m ++ y))) →
        i = z.length → nm ≠ l → nm ≠ n → l ≠ n →
        ((tagCaps nm l n s0 t m i).filter fun c => c.1 == name).map (fun c => sliceN s c.2.1 c.2.2) =
          if name = l then [t] else if name = n then [dec m] else if name = nm then [s0 ++ (t ++ dec m)] else [] := by
      intro s0 t m nm l n i y z hs hi h1 h2 h3
      obtain ⟨e1, e2, e3⟩ := tag_slices hs hi
      unfold tagCaps
      by_cases hl : name = l
      · subst hl
        rw [if_pos rfl, List.filter_cons, if_pos (by simp), List.filter_cons, if_neg (by simpa using fun h => h3 h.symm),
          List.filter_cons, if_neg (by simpa using h1)]
        simp [e1]
      · rw [if_neg hl]
        by_cases hn : name = n
        · subst hn
          rw [if_pos rfl, List.filter_cons, if_neg (by simpa using h3), List.filter_cons, if_pos (by simp),
            List.filter_cons, if_neg (by simpa using h2)]
          simp [e2]
        · rw [if_neg hn]
          by_cases hm : name = nm
          · subst hm
            rw [if_pos rfl, List.filter_cons, if_neg (by simpa using fun h => h1 h.symm), List.filter_cons,
              if_neg (by simpa using fun h => h2 h.symm), List.filter_cons, if_pos (by simp)]
            simp [e3]
          · rw [if_neg hm, List.filter_cons, if_neg (by simpa using fun h => hl h.symm), List.filter_cons,
              if_neg (by simpa using fun h => hn h.symm), List.filter_cons, if_neg (by simpa using fun h => hm h.symm)]
            rfl
    have hP : ((preCaps v (j + (epochText v).length + (releaseText v).length)).filter fun c => c.1 == name).map
          (fun c => sliceN s c.2.1 c.2.2) =
        if name = "pre_l" then (v.field "pre_l").toList else if name = "pre_n" then (v.field "pre_n").toList else
          if name = "pre" then (v.field "pre").toList else [] := by
      unfold preCaps Ver.field
      cases hv : v.pre with
      | none => simp
      | some q =>
        rw [htag [] q.1.text q.2 "pre" "pre_l" "pre_n" _ (postText v ++ (devText v ++ (locText v ++ b)))
          (x ++ epochText v ++ releaseText v) (by rw [hs]; simp [preText, hv]) (by simp only [List.length_append]; omega)
          (by decide) (by decide) (by decide)]
        simp
    have hQ : ((postCaps v (j + (epochText v).length + (releaseText v).length + (preText v).length)).filter
          fun c => c.1 == name).map (fun c => sliceN s c.2.1 c.2.2) =
        if name = "post_l" then (v.field "post_l").toList else if name = "post_n2" then (v.field "post_n2").toList else
          if name = "post" then (v.field "post").toList else [] := by
      unfold postCaps Ver.field
      cases hv : v.post with
      | none => simp
      | some n =>
        dsimp only
        rw [htag ['.'] "post".toList n "post" "post_l" "post_n2" _ (devText v ++ (locText v ++ b))
          (x ++ epochText v ++ releaseText v ++ preText v) (by rw [hs]; simp [postText, hv])
          (by simp only [List.length_append]; omega) (by decide) (by decide) (by decide)]
        simp
    have hD : ((devCaps v (j + (epochText v).length + (releaseText v).length + (preText v).length +
          (postText v).length)).filter fun c => c.1 == name).map (fun c => sliceN s c.2.1 c.2.2) =
        if name = "dev_l" then (v.field "dev_l").toList else if name = "dev_n" then (v.field "dev_n").toList else
          if name = "dev" then (v.field "dev").toList else [] := by
      unfold devCaps Ver.field
      cases hv : v.dev with
      | none => simp
      | some n =>
        dsimp only
        rw [htag ['.'] "dev".toList n "dev" "dev_l" "dev_n" _ (locText v ++ b)
          (x ++ epochText v ++ releaseText v ++ preText v ++ postText v) (by rw [hs]; simp [devText, hv])
          (by simp only [List.length_append]; omega) (by decide) (by decide) (by decide)]
        simp
    have hL : ((locCaps v (j + (epochText v).length + (releaseText v).length + (preText v).length +
          (postText v).length + (devText v).length)).filter fun c => c.1 == name).map (fun c => sliceN s c.2.1 c.2.2) =
        if name = "local" then (v.field "local").toList else [] := by
      unfold locCaps Ver.field
      cases hv : v.loc with
      | none => simp
      | some q =>
        obtain ⟨q1, q2⟩ := q
        have el : locText v = '+' :: (q1 ++ q2.flatMap fun q => q.1 :: q.2) := by unfold locText; rw [hv]
        have := slice_at (s := s) (x := x ++ epochText v ++ releaseText v ++ preText v ++ postText v ++ devText v ++ ['+'])
          (t := q1 ++ q2.flatMap fun q => q.1 :: q.2) (y := b)
          (i := j + (epochText v).length + (releaseText v).length + (preText v).length +
            (postText v).length + (devText v).length + 1)
          (j := j + (epochText v).length + (releaseText v).length + (preText v).length +
            (postText v).length + (devText v).length + (locText v).length) (by rw [hs, el]; simp)
          (by simp only [List.length_append, List.length_singleton]; omega) (by rw [el, List.length_cons]; omega)
        by_cases hn : name = "local"
        · subst hn
          simp only [List.filter_cons, List.filter_nil, beq_self_eq_true, if_true, List.map_cons, List.map_nil, this]
          rfl
        · rw [if_neg hn]
          dsimp only
          rw [List.filter_cons, if_neg (by simpa using fun h => hn h.symm)]; rfl
    rw [hE, hR, hP, hQ, hD, hL]
    simp only [parseGroups, List.mem_cons, List.not_mem_nil, or_false] at hn
    rcases hn with rfl | rfl | rfl | rfl | rfl | rfl | rfl | rfl | rfl | rfl | rfl | rfl | rfl <;> simp
    simp [Ver.field]

/-- What a node shows: name and text, and those of its children. -/
def ver_shown (s : List Char) (n : Node) : Option String × List Char × List (Option String × List Char) :=
  (n.desc, ver_nodeText s n, n.kids.map fun k => (k.desc, ver_nodeText s k))

theorem shown_leaf {s x t y : List Char} {name : String} {i j : Nat} (hs : s = x ++ (t ++ y)) (hi : i = x.length)
    (hj : j = i + t.length) : ver_shown s (leafN name i j) = (some name, t, []) := by
  have := slice_at hs hi hj
  show (some name, sliceN s (i : Int).toNat (j : Int).toNat, []) = _
  rw [Int.toNat_natCast, Int.toNat_natCast, this]

theorem shown_tag {s x y : List Char} {j : Nat} {name l n : String} {s0 t : List Char} {m : Nat}
    (hs : s = x ++ (s0 ++ (t ++ (dec m ++ y)))) (hj : j = x.length) :
    ver_shown s (tagNode name l n s0 t m j) = (some name, s0 ++ (t ++ dec m), [(some l, t), (some n, dec m)]) := by
  obtain ⟨e1, e2, e3⟩ := tag_slices hs hj
  show (some name, sliceN s (j : Int).toNat ((j + s0.length + t.length + (dec m).length : Nat) : Int).toNat,
    [(some l, sliceN s ((j + s0.length : Nat) : Int).toNat ((j + s0.length + t.length : Nat) : Int).toNat),
     (some n, sliceN s ((j + s0.length + t.length : Nat) : Int).toNat
      ((j + s0.length + t.length + (dec m).length : Nat) : Int).toNat)]) = _
  simp only [Int.toNat_natCast, e1, e2, e3]

/-- **C100** `Ito.from_match` on that match makes a tree: its root, named `0`, is the whole match, and its children
are the parts of the version that are there, in order, with their names and texts; those of pre-, post- and development
release have as children their letters and number. -/
theorem C100_tree {F : Fold} (hF : Fold.OK F) (v : Ver) (hv : v.Proper) {a p b : List Char}
    (ha : ∀ c ∈ a, Query.reSpace c = true) (hb : ∀ c ∈ b, Query.reSpace c = true) (hp : p = [] ∨ p = ['v'] ∨ p = ['V']) :
    ∃ f root, matchStart (parseRe F) (a ++ p ++ v.text ++ b) = some f ∧
      fromMatch (a ++ p ++ v.text ++ b).length (matchGroups f) = .ok [root] ∧
      root.desc = some "0" ∧ ver_nodeText (a ++ p ++ v.text ++ b) root = a ++ p ++ v.text ++ b ∧
      root.kids.map (ver_shown (a ++ p ++ v.text ++ b)) =
        v.outline.map fun o => (some o.1, o.2.1, o.2.2.map fun q => (some q.1, q.2)) := by
  have h := first_parse hF v hv ha hb hp
  unfold first at h
  generalize hs : a ++ p ++ v.text ++ b = s at h
  have hlen : a.length + p.length + v.text.length + b.length = s.length := by
    rw [← hs]; simp only [List.length_append]
  have hs : s = (a ++ p) ++ (epochText v ++ (releaseText v ++ (preText v ++ (postText v ++ (devText v ++ (locText v ++ b)))))) := by
    rw [← hs, ver_text]; simp
  generalize hj : a.length + p.length = j at h hlen
  have hj : j = (a ++ p).length := by rw [← hj, List.length_append]
  generalize a ++ p = x at hs hj
  have hrow := row_kids v hv j
  refine ⟨⟨0, s.length, verCaps v j⟩, .mk ⟨0, (s.length : Int)⟩ (some "0") none (verKids v j), ?_, ?_, rfl, ?_, ?_⟩
  · unfold matchStart
    rw [h]
    rfl
  · refine fromMatch_listed _ _ _ ?_ (by simp) ?_ ?_
    · intro n hn
      rw [List.mem_singleton] at hn
      subst hn
      refine ⟨.mk (Int.le_refl _) (by dsimp only; omega) ⟨?_, ?_⟩ ?_ (fun k hk => (hrow.each k hk).1), Int.le_refl _⟩
      · intro c hc
        obtain ⟨k, hk, rfl⟩ := List.mem_map.1 hc
        have := (hrow.each k hk).2
        dsimp only
        omega
      · refine List.Pairwise.imp_of_mem ?_ hrow.order
        intro c d hc hd hcd
        obtain ⟨k, hk, rfl⟩ := List.mem_map.1 hc
        have := (hrow.each k hk).2
        omega
      · refine List.Pairwise.imp_of_mem ?_ hrow.order
        intro c d hc hd hcd
        obtain ⟨k, hk, rfl⟩ := List.mem_map.1 hd
        have := (hrow.each k hk).2
        omega
    · have := kids_listed v j
      unfold matchGroups Xml.spansOf
      rw [List.flatMap_cons, List.flatMap_map]
      simp only [List.map_map, Function.comp_def, List.map_cons, List.map_nil]
      rw [this]
      simp [preorderAll, preorder]
    · show (((⟨0, (s.length : Int)⟩ : Span), some "0") :: preorderAll (verKids v j) ++ []).Pairwise _
      rw [List.append_nil, List.pairwise_cons]
      refine ⟨?_, hrow.listed⟩
      intro e he
      have := hrow.inside e he
      unfold Before
      dsimp only
      omega
  · show sliceN s (0 : Int).toNat (s.length : Int).toNat = s
    unfold sliceN
    simp
  · show (verKids v j).map (ver_shown s) = _
    have hE : (epochNodes v j).map (ver_shown s) =
        ((v.field "epoch").map fun t => (some "epoch", t, [])).toList := by
      unfold epochNodes Ver.field
      by_cases h0 : v.epoch = 0
      · simp [h0]
      · simp only [h0, if_false, List.map_cons, List.map_nil]
        rw [shown_leaf (x := x) (t := dec v.epoch)
          (y := '!' :: (releaseText v ++ (preText v ++ (postText v ++ (devText v ++ (locText v ++ b))))))
          (by rw [hs]; unfold epochText; rw [if_neg h0]; simp) hj rfl]
        rfl
    have hR : ver_shown s (leafN "release" (j + (epochText v).length) (j + (epochText v).length + (releaseText v).length)) =
        (some "release", releaseText v, []) :=
      shown_leaf (x := x ++ epochText v) (t := releaseText v)
          (y := (preText v ++ (postText v ++ (devText v ++ (locText v ++ b)))))
          (by rw [hs]; simp) (by rw [List.length_append]; omega) rfl
    have hP : (preNodes v (j + (epochText v).length + (releaseText v).length)).map (ver_shown s) =
        (v.pre.map fun q => (some "pre", q.1.text ++ dec q.2, [(some "pre_l", q.1.text), (some "pre_n", dec q.2)])).toList := by
      unfold preNodes
      cases hv : v.pre with
      | none => rfl
      | some q =>
        simp only [List.map_cons, List.map_nil]
        rw [shown_tag (s0 := []) (y := postText v ++ (devText v ++ (locText v ++ b)))
          (x := x ++ epochText v ++ releaseText v) (by rw [hs]; simp [preText, hv]) (by simp only [List.length_append]; omega)]
        rfl
    have hQ : (postNodes v (j + (epochText v).length + (releaseText v).length + (preText v).length)).map (ver_shown s) =
        (v.post.map fun n => (some "post", ".post".toList ++ dec n,
          [(some "post_l", "post".toList), (some "post_n2", dec n)])).toList := by
      unfold postNodes
      cases hv : v.post with
      | none => rfl
      | some n =>
        simp only [List.map_cons, List.map_nil]
        rw [shown_tag (y := devText v ++ (locText v ++ b))
          (x := x ++ epochText v ++ releaseText v ++ preText v) (by rw [hs]; simp [postText, hv])
          (by simp only [List.length_append]; omega)]
        rfl
    have hD : (devNodes v (j + (epochText v).length + (releaseText v).length + (preText v).length +
          (postText v).length)).map (ver_shown s) =
        (v.dev.map fun n => (some "dev", ".dev".toList ++ dec n,
          [(some "dev_l", "dev".toList), (some "dev_n", dec n)])).toList := by
      unfold devNodes
      cases hv : v.dev with
      | none => rfl
      | some n =>
        simp only [List.map_cons, List.map_nil]
        rw [shown_tag (y := locText v ++ b)
          (x := x ++ epochText v ++ releaseText v ++ preText v ++ postText v) (by rw [hs]; simp [devText, hv])
          (by simp only [List.length_append]; omega)]
        rfl
    have hL : (locNodes v (j + (epochText v).length + (releaseText v).length + (preText v).length +
          (postText v).length + (devText v).length)).map (ver_shown s) =
        (v.loc.map fun l => (some "local", l.1 ++ l.2.flatMap (fun q => q.1 :: q.2), [])).toList := by
      unfold locNodes
      cases hv : v.loc with
      | none => rfl
      | some q =>
        obtain ⟨q1, q2⟩ := q
        have el : locText v = '+' :: (q1 ++ q2.flatMap fun q => q.1 :: q.2) := by unfold locText; rw [hv]
        simp only [List.map_cons, List.map_nil]
        rw [shown_leaf (x := x ++ epochText v ++ releaseText v ++ preText v ++ postText v ++ devText v ++ ['+'])
          (t := q1 ++ q2.flatMap fun q => q.1 :: q.2) (y := b) (by rw [hs, el]; simp)
          (by simp only [List.length_append, List.length_singleton]; omega) (by rw [el, List.length_cons]; omega)]
        rfl
    unfold verKids
    dsimp only
    rw [List.map_append, List.map_append, List.map_append, List.map_append, List.map_append, hE, hP, hQ, hD, hL,
      List.map_cons, List.map_nil, hR]
    simp only [Ver.outline, Ver.field, releaseText]
    by_cases h0 : v.epoch = 0 <;> rcases v.pre with _ | ⟨p, n⟩ <;> rcases v.post with _ | m <;> rcases v.dev with _ | d <;>
      rcases v.loc with _ | q <;>
    simp [h0, subParts, Ver.field, List.filterMap_cons]

/-- **C100** Every text that `is_canonical` accepts is matched as a whole by `parse_re`. -/
theorem C100_canonical {F : Fold} (hF : Fold.OK F) (s : List Char) (h : isCanonical s = true) :
    ∃ f, matchStart (parseRe F) s = some f ∧ f.start = 0 ∧ f.stop = s.length := by
  obtain ⟨v, hv, hs⟩ := (C84_exact s).1 h
  rcases hs with rfl | rfl
  · obtain ⟨f, h1, h2, h3, -⟩ := C100_parse hF v hv (a := []) (p := []) (b := []) (by simp) (by simp) (.inl rfl)
    simp only [List.nil_append, List.append_nil] at h1 h3
    exact ⟨f, h1, h2, h3⟩
  · obtain ⟨f, h1, h2, h3, -⟩ := C100_parse hF v hv (a := []) (p := []) (b := ['\n']) (by simp)
      (by intro c hc; rw [List.mem_singleton] at hc; subst hc; decide) (.inl rfl)
    simp only [List.nil_append] at h1 h3
    exact ⟨f, h1, h2, h3⟩

/-! ### Examples -/

/-- Nothing but ASCII. -/
def asciiFold : Fold := ⟨fun _ _ => false, fun _ => false⟩

theorem asciiFold_ok : Fold.OK asciiFold := ⟨(by intro c x h; cases h), (by intro x h; cases h)⟩

/-- `1.2a34.dev567+xyz.8`, the version of the library's own test. -/
def demoVer : Ver := ⟨0, 1, [2], some (.a, 34), none, some 567, some ("xyz".toList, [('.', "8".toList)])⟩

example : demoVer.text = "1.2a34.dev567+xyz.8".toList := by decide +kernel
example : demoVer.outline = [("release", "1.2".toList, []),
    ("pre", "a34".toList, [("pre_l", "a".toList), ("pre_n", "34".toList)]),
    ("dev", ".dev567".toList, [("dev_l", "dev".toList), ("dev_n", "567".toList)]),
    ("local", "xyz.8".toList, [])] := by decide +kernel
theorem demoVer_proper : demoVer.Proper := by
  intro s ss h
  cases h
  refine ⟨⟨by decide, by decide⟩, ?_⟩
  intro q hq
  rw [List.mem_singleton] at hq
  subst hq
  exact ⟨by decide, by decide, by decide⟩
example := C100_tree asciiFold_ok demoVer demoVer_proper (a := [' ']) (p := ['v']) (b := ['\n']) (by decide) (by decide)
  (.inr (.inl rfl))
/-- Not so exact on other spellings: in `1.0a.post1` the dot is taken for part of the pre-release. -/
example : (matchStart (parseRe asciiFold) "1.0a.post1".toList).map (fun f => (captures "1.0a.post1".toList f "pre",
    captures "1.0a.post1".toList f "post")) = some (["a.".toList], ["post1".toList]) := by decide +kernel

end Pawpaw.Props
