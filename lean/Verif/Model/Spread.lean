import Verif.Model.Descriptive

/-!
# Model of `proadv/statistics/spread.py`
-/

namespace Proadv.Spread

open Proadv Proadv.Descriptive

variable {F : Type}

/-- `spread.variance` — spread.py:4-57: ndim (47-48), string (49-52), empty (53-55), `np.var` (56). -/
def variance [PyNum F] (data : Arr (Item F)) : Py F :=
  if data.ndim ≠ 1 then .error .valueError
  else if data.data.any Item.isStr then .error .typeError
  else if data.data.length = 0 then .error .valueError
  else .ok (npVar (data.data.filterMap Item.val?))

/-- `spread.std` — spread.py:60-119: ndim (108-109), string (111-114), empty (115-117), `np.std` (118). -/
def stdItems [PyMath F] (data : Arr (Item F)) : Py F :=
  if data.ndim ≠ 1 then .error .valueError
  else if data.data.any Item.isStr then .error .typeError
  else if data.data.length = 0 then .error .valueError
  else .ok (npStd (data.data.filterMap Item.val?))

/-- `std(a)` on a numeric array — spread.py:60-119. -/
def std [PyMath F] (a : Arr F) : Py F := stdItems ⟨a.ndim, a.isInt, a.data.map Item.num⟩

end Proadv.Spread
