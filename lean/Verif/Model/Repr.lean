import Verif.Model.Format
/-!
# Model of `Ito.__repr__`, `/repo/pawpaw/ito.py:566-567`
-/
namespace Pawpaw
namespace ReprIto
open Format

/-- The format spec of the f-string, `/repo/pawpaw/ito.py:567`. -/
def fspec : List Char := "span=%span, desc=%desc!r, substr=%substr!r".toList

/-- `__repr__`, `/repo/pawpaw/ito.py:566-567`; `cls` is `type(self).__name__`. -/
def reprIto (env : FmtEnv) (cls : List Char) (x : FIto Char) : Except PyErr (List Char) :=
  match format env x fspec with
  | .error e => .error e
  | .ok s => .ok (cls ++ '(' :: (s ++ [')']))

end ReprIto
end Pawpaw
