import Verif.Model.Nlp
import Verif.Model.NlpRe
import Verif.Model.Flat
/-!
# Model of the itorator of `Paragraph`, `/repo/pawpaw/nlp/nlp.py:251-309`

`Paragraph().get_itor()` on objects, for every `min_separators` and both settings of `trim_ws`.  The setter
of `separators` (it stores `list[val]`, a type, instead of a list) is in `Model/ParagraphSet`.
-/
namespace Pawpaw
namespace Paragraph
open Pipeline Nlp NlpRe

/-- `trimmable_ws`, `/repo/pawpaw/nlp/nlp.py:10-13,106-108`: the byte order marks, the ends of lines, the blanks. -/
def trimmable : List Char := ['\uFEFF', '\uFFFE'] ++ eols ++ blanks

/-- `Ito.str_lstrip(chars)` on an object, `/repo/pawpaw/ito.py:1116-1122`: the object itself if there is nothing to strip,
else a new one without children. -/
def lstripObj (chars : List Char) (h : Heap) (x : Nat) : Heap × Nat :=
  let i := FIto.lstripLoop (fun c => decide (c ∈ chars)) (h.str x).toList (h.span x).stop
    ((h.span x).stop - (h.span x).start).toNat (h.span x).start
  if i = (h.span x).start then (h, x) else (h.newLike x i (h.span x).stop (h.obj x).desc, h.next)

/-- `Ito.str_rstrip(chars)` on an object, `/repo/pawpaw/ito.py:1124-1130`. -/
def rstripObj (chars : List Char) (h : Heap) (x : Nat) : Heap × Nat :=
  let i := FIto.rstripLoop (fun c => decide (c ∈ chars)) (h.str x).toList (h.span x).stop.toNat ((h.span x).stop - 1)
  if i = (h.span x).stop - 1 then (h, x) else (h.newLike x (h.span x).start (i + 1) (h.obj x).desc, h.next)

/-- `Ito.str_strip(chars)` on an object, `/repo/pawpaw/ito.py:1132-1133`. -/
def stripObj (chars : List Char) (h : Heap) (x : Nat) : Heap × Nat :=
  rstripObj chars (lstripObj chars h x).1 (lstripObj chars h x).2

/-- The transform of the trimmer, `/repo/pawpaw/nlp/nlp.py:302-305`: `[ito.str_strip(''.join(trimmable_ws))]`. -/
def trimT (h : Heap) (x : Nat) : Gen :=
  .ofList [(stripObj trimmable h x).2] (stripObj trimmable h x).1

/-- The separators of paragraphs in a part of a text, `/repo/pawpaw/nlp/nlp.py:257-258`. -/
def breaks (seps : List Char) (n : Nat) (s : String) (sp : Span) : List Span := (finds (paraRe seps n) s sp).map whole

/-- The itorators of `Paragraph.get_itor`, `/repo/pawpaw/nlp/nlp.py:297-309`: 0 the splitter, 1 the trimmer, which
recurses into 0.  `N` bounds the depth of nested calls. -/
def graph (seps : List Char) (n N : Nat) : Nat → It
  | 0 => { transform := splitT { desc := some "paragraph" } (splitter N (one none (breaks seps n))) }
  | _ => { transform := trimT, cons := [⟨.recurse, 0, always⟩] }

/-- `Paragraph(min_separators=n, trim_ws=trim).get_itor()(ito)`, `/repo/pawpaw/nlp/nlp.py:251-255,297-309`; `seps` are the
separators, by default the ends of lines. -/
def callItor (seps : List Char) (n : Nat) (trim : Bool) (N : Nat) (h : Heap) (x : Nat) : Gen :=
  call (graph seps n N) N (if trim then 1 else 0) h x

end Paragraph
end Pawpaw
