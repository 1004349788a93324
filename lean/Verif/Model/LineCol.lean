import Verif.Model.Flat
/-!
# Model of `Ito.to_line_col`, `/repo/pawpaw/ito.py:1376-1403`
-/
namespace Pawpaw
namespace FIto
variable {α : Type} [DecidableEq α]

/-- `to_line_col(eol)` for a string `eol`, `/repo/pawpaw/ito.py:1392-1401` -/
def toLineCol (x : FIto α) (eol : List α) : Int × Int :=
  let prior := PyStr.rfind x.string eol (some 0) (some x.start)
  if prior = -1 then (1, x.start + 1)
  else (PyStr.count x.string eol (some 0) (some prior) + 2, x.start - (prior + eol.length) + 1)

/-- `to_line_col(eol)` for a pattern, `/repo/pawpaw/ito.py:1377-1390`; `ms` are the spans of
`eol.finditer(self.string, endpos=self.start)`. -/
def toLineColRe (x : FIto α) (ms : List Span) : Int × Int :=
  match ms.getLast? with
  | none => (1, 1 + x.start)
  | some m => (1 + ms.length, 1 + (x.start - m.stop))

end FIto
end Pawpaw
