import Verif.Model.QueryText
import Verif.Spec.QueryText
import Verif.Props.Util
/-!
# C38, C41: splitting a query into phrases; `escape` / `descape`
-/
set_option linter.unusedSectionVars false
namespace Pawpaw.Props
open Pawpaw PyStr UtilSpec Util QuerySpec Pawpaw.Query

/-! ## C41 -/

theorem replaceChar_cons (c : Char) (r : List Char) (d : Char) (s : List Char) :
    replaceChar c r (d :: s) = (if d = c then r else [d]) ++ replaceChar c r s := by
  simp [replaceChar]

theorem replaceChar_append (c : Char) (r s t : List Char) :
    replaceChar c r (s ++ t) = replaceChar c r s ++ replaceChar c r t := by
  simp [replaceChar]

/-- C41: `escape` puts a backslash before each special character and changes nothing else. -/
theorem C41_escape_spec (s : List Char) : escape s = s.flatMap escChar := by
  unfold escape
  have hf : mustEscape.filter (fun e => decide (e ≠ '\\')) = ['[', ']', '/', ',', '{', '}'] := by decide
  rw [hf]
  simp only [List.foldl_cons, List.foldl_nil]
  induction s with
  | nil => rfl
  | cons d s ih =>
    simp only [replaceChar_cons, replaceChar_append, List.flatMap_cons, ih]
    congr 1
    unfold escChar
    by_cases h1 : d = '\\'
    · subst h1; decide
    by_cases h2 : d = '['
    · subst h2; decide
    by_cases h3 : d = ']'
    · subst h3; decide
    by_cases h4 : d = '/'
    · subst h4; decide
    by_cases h5 : d = ','
    · subst h5; decide
    by_cases h6 : d = '{'
    · subst h6; decide
    by_cases h7 : d = '}'
    · subst h7; decide
    simp [replaceChar, h1, h2, h3, h4, h5, h6, h7]

theorem descapeLoop_escape (s rest rv : List Char) :
    descapeLoop false rv (s.flatMap escChar ++ rest) = descapeLoop false (rv ++ s) rest := by
  induction s generalizing rv with
  | nil => simp
  | cons d s ih =>
    rw [List.flatMap_cons, List.append_assoc]
    have : descapeLoop false rv (escChar d ++ (s.flatMap escChar ++ rest)) =
        descapeLoop false (rv ++ [d]) (s.flatMap escChar ++ rest) := by
      unfold escChar
      split
      · simp [descapeLoop]
      · rename_i h
        have : d ≠ '\\' := fun hd => h (Or.inl hd)
        simp [descapeLoop, this]
    rw [this, ih]
    simp

/-- C41: `descape(escape(s)) = s`. -/
theorem C41_descape_escape (s : List Char) : descape (escape s) = .ok s := by
  rw [C41_escape_spec]
  have := descapeLoop_escape s [] []
  simp only [List.append_nil, List.nil_append] at this
  unfold descape
  rw [this]
  rfl

/-- C41: escaping is injective. -/
theorem C41_escape_injective (s t : List Char) (h : escape s = escape t) : s = t := by
  have h1 := C41_descape_escape s
  rw [h, C41_descape_escape t] at h1
  exact (Except.ok.inj h1).symm

/-- Non-vacuity. -/
example : escape "a[b]\\".toList = "a\\[b\\]\\\\".toList ∧
    descape "a\\[b\\]\\\\".toList = .ok "a[b]\\".toList ∧
    descape "a\\".toList = .error .valueError := by decide

theorem unescapedAt_here {α : Type} [DecidableEq α] (chars : List α) (esc : α) (pre cs : List α) (c : α) :
    UnescapedAt chars esc (pre ++ c :: cs) pre.length ↔
      (c ∈ chars ∧ c ≠ esc) ∧ ¬ Escaped esc (pre ++ c :: cs) pre.length := by
  unfold UnescapedAt
  have hget : (pre ++ c :: cs)[pre.length]? = some c := by simp
  rw [hget]
  constructor
  · rintro ⟨⟨d, h1, h2, h3⟩, h4⟩
    cases h2
    exact ⟨⟨h1, h3⟩, h4⟩
  · rintro ⟨⟨h1, h3⟩, h4⟩
    exact ⟨⟨c, h1, rfl, h3⟩, h4⟩

/-- Splitting with an explicit escape state. -/
def goSplit (c esc : Char) : Bool → List Char → List Char → List (List Char)
  | _, acc, [] => [acc]
  | e, acc, d :: ds =>
    if e then goSplit c esc false (acc ++ [d]) ds
    else if d = esc then goSplit c esc true (acc ++ [d]) ds
    else if d = c then acc :: goSplit c esc false [] ds
    else goSplit c esc false (acc ++ [d]) ds

theorem cutAt_goSplit (c esc : Char) (cs : List Char) :
    ∀ (fin acc : List Char), cutAt (fin ++ acc ++ cs) fin.length
      ((List.range' (fin ++ acc).length cs.length).filter
        (fun k => decide (UnescapedAt [c] esc (fin ++ acc ++ cs) k))) =
      goSplit c esc (decide (Escaped esc (fin ++ acc ++ cs) (fin ++ acc).length)) acc cs := by
  induction cs with
  | nil => intro fin acc; simp [cutAt, goSplit]
  | cons d cs ih =>
    intro fin acc
    have hrange : List.range' (fin ++ acc).length (d :: cs).length =
        (fin ++ acc).length :: List.range' ((fin ++ acc).length + 1) cs.length := by
      simp [List.range'_succ]
    have hU := unescapedAt_here [c] esc (fin ++ acc) cs d
    have hE := escaped_succ esc (fin ++ acc) cs d
    have hnext := ih fin (acc ++ [d])
    have heq : fin ++ (acc ++ [d]) ++ cs = fin ++ acc ++ d :: cs := by simp
    have hlen : (fin ++ (acc ++ [d])).length = (fin ++ acc).length + 1 := by simp; omega
    rw [heq, hlen] at hnext
    rw [hrange]
    unfold goSplit
    by_cases he : Escaped esc (fin ++ acc ++ d :: cs) (fin ++ acc).length
    · rw [List.filter_cons_of_neg (by simpa using fun h => (hU.1 h).2 he), hnext,
        decide_eq_true he, decide_eq_false (fun h => (hE.1 h).2 he)]
      simp
    · rw [decide_eq_false he]
      simp only [Bool.false_eq_true, if_false]
      by_cases hd : d = esc
      · rw [List.filter_cons_of_neg (by simpa using fun h => (hU.1 h).1.2 hd), hnext,
          decide_eq_true (hE.2 ⟨hd, he⟩), if_pos hd]
      · rw [if_neg hd]
        by_cases hc : d = c
        · rw [List.filter_cons_of_pos (by simpa using hU.2 ⟨⟨by simp [hc], hd⟩, he⟩), if_pos hc]
          simp only [cutAt]
          have h2 := ih (fin ++ acc ++ [d]) []
          have heq2 : fin ++ acc ++ [d] ++ [] ++ cs = fin ++ acc ++ d :: cs := by simp
          have hlen2 : (fin ++ acc ++ [d] ++ []).length = (fin ++ acc).length + 1 := by
            simp only [List.append_nil, List.length_append, List.length_singleton]
          have hlen3 : (fin ++ acc ++ [d]).length = (fin ++ acc).length + 1 := by
            simp only [List.length_append, List.length_singleton]
          rw [heq2, hlen2, hlen3, decide_eq_false (fun h => hd (hE.1 h).1)] at h2
          rw [h2]
          congr 1
          rw [List.take_left' rfl, List.drop_left]
        · rw [List.filter_cons_of_neg (by
            rw [decide_eq_true_iff]; exact fun h => hc (by simpa using (hU.1 h).1.1)), if_neg hc, hnext,
            decide_eq_false (fun h => hd (hE.1 h).1)]

theorem goSplit_escape (s rest acc : List Char) :
    goSplit ',' '\\' false acc (s.flatMap escChar ++ rest) =
      goSplit ',' '\\' false (acc ++ s.flatMap escChar) rest := by
  induction s generalizing acc with
  | nil => simp
  | cons d s ih =>
    rw [List.flatMap_cons, List.append_assoc]
    have : goSplit ',' '\\' false acc (escChar d ++ (s.flatMap escChar ++ rest)) =
        goSplit ',' '\\' false (acc ++ escChar d) (s.flatMap escChar ++ rest) := by
      unfold escChar
      split
      · simp [goSplit]
      · rename_i h
        have h1 : d ≠ '\\' := fun hd => h (Or.inl hd)
        have h2 : d ≠ ',' := fun hd => h (by simp [hd])
        simp [goSplit, h1, h2]
    rw [this, ih]
    simp

theorem goSplit_join (vs : List (List Char)) : ∀ (v acc : List Char),
    goSplit ',' '\\' false acc ([','].intercalate ((v :: vs).map (fun s => s.flatMap escChar))) =
      (acc ++ v.flatMap escChar) :: vs.map (fun s => s.flatMap escChar) := by
  induction vs with
  | nil =>
    intro v acc
    have := goSplit_escape v [] acc
    simp only [List.append_nil] at this
    simp [List.intercalate, this, goSplit]
  | cons w ws ih =>
    intro v acc
    simp only [List.map_cons]
    rw [List.intercalate_cons_cons]
    have h := goSplit_escape v ([','] ++ [','].intercalate ((w :: ws).map (fun s => s.flatMap escChar))) acc
    simp only [List.map_cons, List.append_assoc] at h ⊢
    rw [h]
    simp only [List.singleton_append]
    rw [goSplit, if_neg (by decide), if_neg (by decide), if_pos rfl]
    have := ih w []
    simp only [List.map_cons, List.nil_append] at this
    rw [this]

theorem escaped_flatMap (s pre : List Char) (h : ¬ Escaped '\\' pre pre.length) :
    ¬ Escaped '\\' (pre ++ s.flatMap escChar) (pre ++ s.flatMap escChar).length := by
  induction s generalizing pre with
  | nil => simpa using h
  | cons d s ih =>
    rw [List.flatMap_cons, ← List.append_assoc]
    apply ih
    have hpre : ∀ t : List Char, runBefore '\\' (pre ++ t) pre.length = runBefore '\\' pre pre.length := by
      intro t; simp [runBefore]
    unfold escChar
    split
    · have h1 := escaped_succ '\\' pre [d] '\\'
      have h2 := escaped_succ '\\' (pre ++ ['\\']) [] d
      simp only [List.append_assoc, List.singleton_append, List.length_append, List.length_cons,
        List.length_nil, Nat.zero_add] at h1 h2
      have h3 : (pre ++ ['\\', d]).length = pre.length + 1 + 1 := by simp
      rw [h3, h2, h1]
      rintro ⟨_, hn⟩
      apply hn
      refine ⟨trivial, ?_⟩
      unfold Escaped at h ⊢
      rwa [hpre]
    · rename_i hd
      have h1 := escaped_succ '\\' pre [] d
      have h3 : (pre ++ [d]).length = pre.length + 1 := by simp
      rw [h3, h1]
      rintro ⟨hn, _⟩
      exact hd (Or.inl hn)

theorem escaped_join (vs : List (List Char)) : ∀ (v pre : List Char), ¬ Escaped '\\' pre pre.length →
    ¬ Escaped '\\' (pre ++ [','].intercalate ((v :: vs).map (fun s => s.flatMap escChar)))
      (pre ++ [','].intercalate ((v :: vs).map (fun s => s.flatMap escChar))).length := by
  induction vs with
  | nil =>
    intro v pre h
    simpa [List.intercalate] using escaped_flatMap v pre h
  | cons w ws ih =>
    intro v pre h
    simp only [List.map_cons]
    rw [List.intercalate_cons_cons]
    have h1 := escaped_flatMap v pre h
    have h2 := ih w (pre ++ v.flatMap escChar ++ [',']) (by
      have h4 := escaped_succ '\\' (pre ++ v.flatMap escChar) [] ','
      have h3 : (pre ++ v.flatMap escChar ++ [',']).length = (pre ++ v.flatMap escChar).length + 1 := by
        simp; omega
      rw [h3, h4]
      rintro ⟨hn, _⟩
      exact absurd hn (by decide))
    simpa [List.append_assoc] using h2

/-- C41: joining escaped values with commas and splitting at the unescaped commas recovers the escaped
values; de-escaping each recovers the values. -/
theorem C41_join_split (v : List Char) (vs : List (List Char)) :
    let run := splitUnescaped (FIto.ofStr ([','].intercalate ((v :: vs).map escape)) none none) ',' '\\'
      none none
    run.exc = none ∧ run.out.map FIto.text = (v :: vs).map escape ∧
    (run.out.map (fun p => descape p.text)) = (v :: vs).map Except.ok := by
  have hmap : (v :: vs).map escape = (v :: vs).map (fun s => s.flatMap escChar) :=
    List.map_congr_left (fun s _ => C41_escape_spec s)
  intro run
  have hvalid := FIto.ofStr_valid ([','].intercalate ((v :: vs).map escape)) none none none
  have htext : (FIto.ofStr ([','].intercalate ((v :: vs).map escape)) none none).text =
      [','].intercalate ((v :: vs).map escape) := by
    rw [C01_ito_text_is_slice, slice_none_left, slice_none_right]
    have := slice_nat ([','].intercalate ((v :: vs).map escape)) 0
      ([','].intercalate ((v :: vs).map escape)).length
    simpa using this
  have hw : PyStr.slice (FIto.ofStr ([','].intercalate ((v :: vs).map escape)) none none).text none none =
      [','].intercalate ((v :: vs).map escape) := by
    rw [htext, slice_none_left, slice_none_right]
    have := slice_nat ([','].intercalate ((v :: vs).map escape)) 0
      ([','].intercalate ((v :: vs).map escape)).length
    simpa using this
  have hsp := (C42_split_unescaped _ hvalid ',' '\\' none none).1
  simp only [hw] at hsp
  have hne := escaped_join vs v [] (by simp [Escaped, runBefore])
  simp only [List.nil_append] at hne
  rw [hmap] at hsp hw htext
  obtain ⟨h1, _, h3⟩ := hsp hne
  have hrun : run.out.map FIto.text = (v :: vs).map escape := by
    simp only [run]
    rw [hmap, h1]
    have hbase : (min ((FIto.ofStr ([','].intercalate ((v :: vs).map
        (fun s => s.flatMap escChar))) none none).text.length : Int)
        (adjStart (FIto.ofStr ([','].intercalate ((v :: vs).map
        (fun s => s.flatMap escChar))) none none).text.length none)).toNat = 0 := by
      simp only [adjStart]; omega
    rw [hbase, htext]
    have hid : (fun k : Nat => 0 + k) = id := by funext k; simp
    rw [hid, List.map_id]
    have hg := cutAt_goSplit ',' '\\' ([','].intercalate ((v :: vs).map (fun s => s.flatMap escChar))) [] []
    simp only [List.append_nil, List.nil_append, List.length_nil, ← List.range_eq_range'] at hg
    unfold positions
    rw [hg]
    have h0 : decide (Escaped '\\' ([','].intercalate ((v :: vs).map
        (fun s => s.flatMap escChar))) 0) = false := by
      apply decide_eq_false; simp [Escaped, runBefore]
    rw [h0, goSplit_join]
    simp
  refine ⟨by simp only [run]; rw [hmap]; exact h3, hrun, ?_⟩
  have : run.out.map (fun p => descape p.text) = (run.out.map FIto.text).map descape := by simp
  rw [this, hrun, List.map_map]
  exact List.map_congr_left (fun s _ => C41_descape_escape s)

/-! ## C38 -/

theorem braceDepth_succ (pre cs : List Char) (c : Char) :
    braceDepth (pre ++ c :: cs) (pre.length + 1) = braceDepth (pre ++ c :: cs) pre.length +
      (if Escaped '\\' (pre ++ c :: cs) pre.length then 0
       else if c = '{' then 1 else if c = '}' then -1 else 0) := by
  have h1 := unescapedAt_here ['{'] '\\' pre cs c
  have h2 := unescapedAt_here ['}'] '\\' pre cs c
  unfold braceDepth
  rw [List.range_succ, List.filter_append, List.filter_append, List.length_append, List.length_append]
  by_cases hE : Escaped '\\' (pre ++ c :: cs) pre.length
  · have n1 : ¬ UnescapedAt ['{'] '\\' (pre ++ c :: cs) pre.length := fun h => (h1.1 h).2 hE
    have n2 : ¬ UnescapedAt ['}'] '\\' (pre ++ c :: cs) pre.length := fun h => (h2.1 h).2 hE
    simp [hE, n1, n2]
  · rw [if_neg hE]
    by_cases ho : c = '{'
    · have n1 : UnescapedAt ['{'] '\\' (pre ++ c :: cs) pre.length :=
        h1.2 ⟨⟨by simp [ho], by rw [ho]; decide⟩, hE⟩
      have n2 : ¬ UnescapedAt ['}'] '\\' (pre ++ c :: cs) pre.length := fun h => by
        have := (h2.1 h).1.1; rw [ho] at this; exact absurd this (by decide)
      rw [if_pos ho]
      rw [List.filter_cons_of_pos (by simpa using n1), List.filter_cons_of_neg (by simpa using n2)]
      simp
      omega
    · have n1 : ¬ UnescapedAt ['{'] '\\' (pre ++ c :: cs) pre.length := fun h => by
        have := (h1.1 h).1.1; simp at this; exact ho this
      rw [if_neg ho, List.filter_cons_of_neg (by simpa using n1)]
      by_cases hc : c = '}'
      · have n2 : UnescapedAt ['}'] '\\' (pre ++ c :: cs) pre.length :=
          h2.2 ⟨⟨by simp [hc], by rw [hc]; decide⟩, hE⟩
        rw [if_pos hc, List.filter_cons_of_pos (by simpa using n2)]
        simp
        omega
      · have n2 : ¬ UnescapedAt ['}'] '\\' (pre ++ c :: cs) pre.length := fun h => by
          have := (h2.1 h).1.1; simp at this; exact hc this
        rw [if_neg hc, List.filter_cons_of_neg (by simpa using n2)]
        simp

theorem splitPhrasesLoop_spec (cs : List Char) :
    ∀ (pre : List Char) (cur ls : Nat) (esc : Bool) (cnt i : Int),
    i = pre.length → esc = decide (Escaped '\\' (pre ++ cs) pre.length) →
    cnt = braceDepth (pre ++ cs) pre.length →
    cur + ls + (if esc then 1 else 0) = pre.length →
    (Escaped '\\' (pre ++ cs) (pre ++ cs).length →
      (splitPhrasesLoop (pre ++ cs) ls esc cnt i cs).exc = some .valueError) ∧
    (¬ Escaped '\\' (pre ++ cs) (pre ++ cs).length →
      splitPhrasesLoop (pre ++ cs) ls esc cnt i cs =
        ⟨cutAt (pre ++ cs) cur ((List.range' pre.length cs.length).filter
          (fun k => decide (TopSlash (pre ++ cs) k))), none⟩) := by
  induction cs with
  | nil =>
    intro pre cur ls esc cnt i hi he _ hls
    simp only [List.append_nil] at he ⊢
    unfold splitPhrasesLoop
    constructor
    · intro h
      have : esc = true := by rw [he]; simp [h]
      simp [this, Run.raise]
    · intro h
      have h1 : esc = false := by rw [he]; simp [h]
      rw [h1] at hls ⊢
      simp only [Bool.false_eq_true, if_false, Run.yield, Run.done, List.length_nil, List.range'_zero,
        List.filter_nil, cutAt]
      have h2 : i - (ls : Int) = (cur : Int) := by simp at hls; omega
      rw [h2, hi, slice_nat, List.take_length]
  | cons c cs ih =>
    intro pre cur ls esc cnt i hi he hc hls
    have heq : pre ++ [c] ++ cs = pre ++ c :: cs := by simp
    have hlen : (pre ++ [c]).length = pre.length + 1 := by simp
    have hE := escaped_succ '\\' pre cs c
    have hB := braceDepth_succ pre cs c
    have hU := unescapedAt_here ['/'] '\\' pre cs c
    have hrange : List.range' pre.length (c :: cs).length =
        pre.length :: List.range' (pre.length + 1) cs.length := by
      simp [List.range'_succ]
    have step := ih (pre ++ [c])
    rw [heq, hlen] at step
    have hi' : i + 1 = ((pre.length + 1 : Nat) : Int) := by omega
    rw [hrange]
    unfold splitPhrasesLoop
    by_cases hEsc : Escaped '\\' (pre ++ c :: cs) pre.length
    · have h1 : esc = true := by rw [he]; simp [hEsc]
      rw [if_pos hEsc] at hB
      rw [h1] at hls ⊢
      simp only [if_true] at hls ⊢
      have hT : ¬ TopSlash (pre ++ c :: cs) pre.length := fun h => (hU.1 h.1).2 hEsc
      rw [List.filter_cons_of_neg (by rw [decide_eq_true_iff]; exact hT)]
      exact step cur (ls + 2) false cnt (i + 1) hi'
        (decide_eq_false (fun h => (hE.1 h).2 hEsc)).symm (by rw [hB, hc]; omega)
        (by simp; omega)
    · have h1 : esc = false := by rw [he]; simp [hEsc]
      rw [if_neg hEsc] at hB
      rw [h1] at hls ⊢
      simp only [Bool.false_eq_true, if_false, Nat.add_zero] at hls ⊢
      by_cases hbs : c = '\\'
      · rw [if_pos hbs]
        have hT : ¬ TopSlash (pre ++ c :: cs) pre.length := fun h => (hU.1 h.1).1.2 hbs
        rw [List.filter_cons_of_neg (by rw [decide_eq_true_iff]; exact hT)]
        refine step cur ls true cnt (i + 1) hi' (decide_eq_true (hE.2 ⟨hbs, hEsc⟩)).symm ?_ (by simp; omega)
        rw [hB, hc, hbs]; simp
      · rw [if_neg hbs]
        have hne : false = decide (Escaped '\\' (pre ++ c :: cs) (pre.length + 1)) :=
          (decide_eq_false (fun h => hbs (hE.1 h).1)).symm
        by_cases ho : c = '{'
        · rw [if_pos ho]
          have hT : ¬ TopSlash (pre ++ c :: cs) pre.length := fun h => by
            have := (hU.1 h.1).1.1; rw [ho] at this; exact absurd this (by decide)
          rw [List.filter_cons_of_neg (by rw [decide_eq_true_iff]; exact hT)]
          exact step cur (ls + 1) false (cnt + 1) (i + 1) hi' hne (by rw [hB, hc, if_pos ho]) (by simp; omega)
        · rw [if_neg ho] at hB ⊢
          by_cases hcl : c = '}'
          · rw [if_pos hcl]
            have hT : ¬ TopSlash (pre ++ c :: cs) pre.length := fun h => by
              have := (hU.1 h.1).1.1; rw [hcl] at this; exact absurd this (by decide)
            rw [List.filter_cons_of_neg (by rw [decide_eq_true_iff]; exact hT)]
            exact step cur (ls + 1) false (cnt - 1) (i + 1) hi' hne
              (by rw [hB, hc, if_pos hcl]; omega) (by simp; omega)
          · rw [if_neg hcl] at hB ⊢
            by_cases hs : c = '/' ∧ cnt = 0
            · rw [if_pos hs]
              have hT : TopSlash (pre ++ c :: cs) pre.length :=
                ⟨hU.2 ⟨⟨by simp [hs.1], hbs⟩, hEsc⟩, by rw [← hc]; exact hs.2⟩
              rw [List.filter_cons_of_pos (by rw [decide_eq_true_iff]; exact hT)]
              have hst := step (pre.length + 1) 0 false cnt (i + 1) hi' hne (by rw [hB, hc]; omega) (by simp)
              constructor
              · intro h; simp only [Run.yield]; exact hst.1 h
              · intro h
                rw [hst.2 h]
                simp only [Run.yield, cutAt]
                have h2 : i - (ls : Int) = (cur : Int) := by omega
                rw [h2, hi, slice_nat]
            · rw [if_neg hs]
              have hT : ¬ TopSlash (pre ++ c :: cs) pre.length := fun h => by
                have h3 := (hU.1 h.1).1.1
                simp at h3
                exact hs ⟨h3, by rw [hc]; exact h.2⟩
              rw [List.filter_cons_of_neg (by rw [decide_eq_true_iff]; exact hT)]
              exact step cur (ls + 1) false cnt (i + 1) hi' hne (by rw [hB, hc]; omega) (by simp; omega)

/-- C38: a non-empty path without dangling escape is cut exactly at its top-level slashes (unescaped and
outside braces); with a dangling escape `ValueError` is raised. -/
theorem C38_split_phrases (path : List Char) (hne : path ≠ []) :
    (¬ Escaped '\\' path path.length →
      splitPhrases path = ⟨cutAt path 0 (positions path (TopSlash path)), none⟩) ∧
    (Escaped '\\' path path.length → (splitPhrases path).exc = some .valueError) := by
  have h := splitPhrasesLoop_spec path [] 0 0 false 0 0 rfl (by simp [Escaped, runBefore])
    (by simp [braceDepth]) (by simp)
  simp only [List.nil_append, List.length_nil, ← List.range_eq_range'] at h
  unfold splitPhrases
  rw [if_neg hne]
  exact ⟨h.2, h.1⟩

/-- C38: joined by slashes, the phrases are the path. -/
theorem C38_split_rebuilds (path : List Char) (hne : path ≠ []) (h : ¬ Escaped '\\' path path.length) :
    ['/'].intercalate (splitPhrases path).out = path := by
  rw [(C38_split_phrases path hne).1 h, intercalate_cutAt path '/' _ 0]
  · simp
  · intro k hk
    refine ⟨Nat.zero_le _, ?_⟩
    unfold positions at hk
    rw [List.mem_filter] at hk
    obtain ⟨⟨⟨d, hd, he, _⟩, _⟩, _⟩ := of_decide_eq_true hk.2
    rw [List.mem_singleton] at hd
    rw [he, hd]
  · exact positions_sorted _ _

/-- Non-vacuity: slashes escaped, in braces, and at top level. -/
example : (splitPhrases "*[s:a\\/b]{*/..}/**".toList).out =
      ["*[s:a\\/b]{*/..}".toList, "**".toList] ∧
    positions "*[s:a\\/b]{*/..}/**".toList (TopSlash "*[s:a\\/b]{*/..}/**".toList) = [15] ∧
    (splitPhrases "*\\".toList).exc = some .valueError := by decide

/-- Phrase splitting with an explicit state and accumulator. -/
def goPhr : Bool → Int → List Char → List Char → Run (List Char)
  | esc, _, acc, [] => if esc then .raise .valueError else .yield acc .done
  | esc, cnt, acc, c :: cs =>
    if esc then goPhr false cnt (acc ++ [c]) cs
    else if c = '\\' then goPhr true cnt (acc ++ [c]) cs
    else if c = '{' then goPhr false (cnt + 1) (acc ++ [c]) cs
    else if c = '}' then goPhr false (cnt - 1) (acc ++ [c]) cs
    else if c = '/' ∧ cnt = 0 then .yield acc (goPhr false cnt [] cs)
    else goPhr false cnt (acc ++ [c]) cs

theorem splitPhrasesLoop_goPhr (cs : List Char) :
    ∀ (fin acc : List Char) (ls : Nat) (esc : Bool) (cnt i : Int),
    i = (fin ++ acc).length → ls + (if esc then 1 else 0) = acc.length →
    splitPhrasesLoop (fin ++ acc ++ cs) ls esc cnt i cs = goPhr esc cnt acc cs := by
  have hsl : ∀ (fin acc rest : List Char) (ls : Nat) (i : Int), i = (fin ++ acc).length →
      ls = acc.length →
      PyStr.slice (fin ++ acc ++ rest) (some (i - ls)) (some i) = acc := by
    intro fin acc rest ls i hi hl
    have h2 : i - (ls : Int) = (fin.length : Int) := by simp at hi; omega
    rw [h2, hi, slice_nat, List.take_left' rfl, List.drop_left]
  induction cs with
  | nil =>
    intro fin acc ls esc cnt i hi hls
    unfold splitPhrasesLoop goPhr
    cases esc with
    | true => rfl
    | false =>
      simp only [Bool.false_eq_true, if_false, Nat.add_zero] at hls ⊢
      rw [hsl fin acc [] ls i hi hls]
  | cons c cs ih =>
    intro fin acc ls esc cnt i hi hls
    have heq : fin ++ (acc ++ [c]) ++ cs = fin ++ acc ++ c :: cs := by simp
    have step : ∀ (ls' : Nat) (esc' : Bool) (cnt' : Int), ls' + (if esc' then 1 else 0) = acc.length + 1 →
        splitPhrasesLoop (fin ++ acc ++ c :: cs) ls' esc' cnt' (i + 1) cs =
          goPhr esc' cnt' (acc ++ [c]) cs := by
      intro ls' esc' cnt' h
      rw [← heq]
      exact ih fin (acc ++ [c]) ls' esc' cnt' (i + 1) (by simp at hi ⊢; omega) (by simp; omega)
    unfold splitPhrasesLoop goPhr
    cases esc with
    | true =>
      simp only [if_true] at hls ⊢
      exact step (ls + 2) false cnt (by simp; omega)
    | false =>
      simp only [Bool.false_eq_true, if_false, Nat.add_zero] at hls ⊢
      by_cases h1 : c = '\\'
      · rw [if_pos h1, if_pos h1]; exact step ls true cnt (by simp; omega)
      rw [if_neg h1, if_neg h1]
      by_cases h2 : c = '{'
      · rw [if_pos h2, if_pos h2]; exact step (ls + 1) false _ (by simp; omega)
      rw [if_neg h2, if_neg h2]
      by_cases h3 : c = '}'
      · rw [if_pos h3, if_pos h3]; exact step (ls + 1) false _ (by simp; omega)
      rw [if_neg h3, if_neg h3]
      by_cases h4 : c = '/' ∧ cnt = 0
      · rw [if_pos h4, if_pos h4, hsl fin acc (c :: cs) ls i hi hls]
        have heq2 : fin ++ acc ++ [c] ++ [] ++ cs = fin ++ acc ++ c :: cs := by simp
        have := ih (fin ++ acc ++ [c]) [] 0 false cnt (i + 1) (by simp at hi ⊢; omega) (by simp)
        rw [heq2] at this
        rw [this]
      · rw [if_neg h4, if_neg h4]
        exact step (ls + 1) false cnt (by simp; omega)

theorem splitPhrases_goPhr (path : List Char) (h : path ≠ []) :
    splitPhrases path = goPhr false 0 [] path := by
  unfold splitPhrases
  rw [if_neg h]
  exact splitPhrasesLoop_goPhr path [] [] 0 false 0 0 (by simp) (by simp)

/-- Depth and escape state at the end of a text. -/
def goState : Bool → Int → List Char → Bool × Int
  | esc, cnt, [] => (esc, cnt)
  | esc, cnt, c :: cs =>
    if esc then goState false cnt cs
    else if c = '\\' then goState true cnt cs
    else if c = '{' then goState false (cnt + 1) cs
    else if c = '}' then goState false (cnt - 1) cs
    else goState false cnt cs

theorem goState_spec (cs : List Char) : ∀ pre : List Char,
    goState (decide (Escaped '\\' (pre ++ cs) pre.length)) (braceDepth (pre ++ cs) pre.length) cs =
      (decide (Escaped '\\' (pre ++ cs) (pre ++ cs).length), braceDepth (pre ++ cs) (pre ++ cs).length) := by
  induction cs with
  | nil => intro pre; simp [goState]
  | cons c cs ih =>
    intro pre
    have heq : pre ++ [c] ++ cs = pre ++ c :: cs := by simp
    have hlen : (pre ++ [c]).length = pre.length + 1 := by simp
    have hE := escaped_succ '\\' pre cs c
    have hB := braceDepth_succ pre cs c
    have hn := ih (pre ++ [c])
    rw [heq, hlen] at hn
    rw [← hn]
    unfold goState
    by_cases hEsc : Escaped '\\' (pre ++ c :: cs) pre.length
    · rw [decide_eq_true hEsc, decide_eq_false (fun h => (hE.1 h).2 hEsc), hB, if_pos hEsc]
      simp
      rw [← goState.eq_def]
    · rw [if_neg hEsc] at hB
      rw [decide_eq_false hEsc]
      simp only [Bool.false_eq_true, if_false]
      by_cases hbs : c = '\\'
      · rw [if_pos hbs, decide_eq_true (hE.2 ⟨hbs, hEsc⟩), hB, hbs, ← goState.eq_def]
        simp
      · rw [if_neg hbs, decide_eq_false (fun h => hbs (hE.1 h).1), ← goState.eq_def]
        by_cases ho : c = '{'
        · rw [if_pos ho, hB, if_pos ho]
        · rw [if_neg ho] at hB ⊢
          by_cases hcl : c = '}'
          · rw [if_pos hcl, hB, if_pos hcl]; rfl
          · rw [if_neg hcl] at hB ⊢
            rw [hB]; simp

theorem goPhr_append (q : List Char) (p : List Char) : ∀ (esc : Bool) (cnt : Int) (acc : List Char),
    goState esc cnt p = (false, 0) →
    goPhr esc cnt acc (p ++ '/' :: q) =
      ⟨(goPhr esc cnt acc p).out ++ (goPhr false 0 [] q).out, (goPhr false 0 [] q).exc⟩ ∧
    (goPhr esc cnt acc p).exc = none := by
  induction p with
  | nil =>
    intro esc cnt acc h
    simp only [goState, Prod.mk.injEq] at h
    obtain ⟨h1, h2⟩ := h
    subst h1 h2
    have e1 : goPhr false 0 acc ('/' :: q) = .yield acc (goPhr false 0 [] q) := by
      rw [goPhr, if_neg (by decide), if_neg (by decide), if_neg (by decide), if_neg (by decide),
        if_pos ⟨rfl, rfl⟩]
    have e2 : goPhr false 0 acc [] = .yield acc .done := rfl
    rw [List.nil_append, e1, e2]
    simp [Run.yield, Run.done]
  | cons c p ih =>
    intro esc cnt acc h
    unfold goState at h
    rw [List.cons_append]
    generalize hR : goPhr false 0 [] q = R at *
    unfold goPhr
    cases esc with
    | true =>
      simp only [if_true] at h ⊢
      exact ih _ _ _ h
    | false =>
      simp only [Bool.false_eq_true, if_false] at h ⊢
      by_cases h1 : c = '\\'
      · rw [if_pos h1] at h
        rw [if_pos h1, if_pos h1]; exact ih _ _ _ h
      rw [if_neg h1] at h
      rw [if_neg h1, if_neg h1]
      by_cases h2 : c = '{'
      · rw [if_pos h2] at h
        rw [if_pos h2, if_pos h2]; exact ih _ _ _ h
      rw [if_neg h2] at h
      rw [if_neg h2, if_neg h2]
      by_cases h3 : c = '}'
      · rw [if_pos h3] at h
        rw [if_pos h3, if_pos h3]; exact ih _ _ _ h
      rw [if_neg h3] at h
      rw [if_neg h3, if_neg h3]
      by_cases h4 : c = '/' ∧ cnt = 0
      · rw [if_pos h4, if_pos h4]
        obtain ⟨i1, i2⟩ := ih false cnt [] h
        rw [i1]
        exact ⟨by simp [Run.yield], i2⟩
      · rw [if_neg h4, if_neg h4]
        exact ih _ _ _ h

/-- C38: the phrases of `p/q` are those of `p` followed by those of `q`, when `p` leaves no brace or
escape open. -/
theorem C38_split_append (p q : List Char) (hp : p ≠ []) (hq : q ≠ [])
    (he : ¬ Escaped '\\' p p.length) (hb : braceDepth p p.length = 0) :
    splitPhrases (p ++ '/' :: q) =
      ⟨(splitPhrases p).out ++ (splitPhrases q).out, (splitPhrases q).exc⟩ := by
  have hst := goState_spec p []
  simp only [List.nil_append, List.length_nil] at hst
  rw [decide_eq_false he, hb] at hst
  have h0 : decide (Escaped '\\' p 0) = false := by apply decide_eq_false; simp [Escaped, runBefore]
  have h1 : braceDepth p 0 = 0 := by simp [braceDepth]
  rw [h0, h1] at hst
  rw [splitPhrases_goPhr _ (by simp), splitPhrases_goPhr p hp, splitPhrases_goPhr q hq]
  exact (goPhr_append q p false 0 [] hst).1

end Pawpaw.Props
