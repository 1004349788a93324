import Verif.Model.Heap
/-!
# Model of `has_descendant`
-/
namespace Pawpaw
namespace Heap

/-- `x.has_descendant(y)`, `/repo/pawpaw/ito.py:1349-1350`, climbing at most `n` times. -/
def hasDescendant (h : Heap) (n x y : Nat) : Option Bool := h.descendsFrom n y x

end Heap
end Pawpaw
