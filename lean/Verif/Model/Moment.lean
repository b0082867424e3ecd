import Verif.Model.Spread

/-!
# Model of `proadv/statistics/moment.py`
-/

namespace Proadv.Moment

open Proadv Proadv.Descriptive Proadv.Spread

variable {F : Type} [PyMath F]

/-- `mean(array)` as it is called first at moment.py:60 and 111: iterating a 0-dimensional array is a TypeError
(descriptive.py:200); otherwise it does not raise, and its string result for empty data would only raise when used. -/
def firstMean (data : Arr F) : Py Unit :=
  if data.ndim = 0 then .error .typeError else .ok ()

/-- `moment.skewness` — moment.py:6-66.  `mean` (60), `std` (61), then the formula (64), which is where the value of `mean`
is used, so it is sequenced after `std` here. -/
def skewness (data : Arr F) : Py F := do
  firstMean data
  let n := data.data.length
  let stdDev ← std data
  let average ← meanOf data.data
  .ok (PyNum.sum (data.data.map (fun x => (x -. average) ^. 3)) /. (ofNat n *. stdDev ^. 3))

/-- `moment.kurtosis` — moment.py:69-122: mean (111), std (114), fourth central moment by `mean` (117), ratio (120).
Same sequencing remark as for `skewness`. -/
def kurtosis (x : Arr F) : Py F := do
  firstMean x
  let standardDev ← std x
  let average ← meanOf x.data
  let fourthMoment ← meanOf (x.data.map (fun v => (v -. average) ^. 4))
  .ok (fourthMoment /. standardDev ^. 4)

end Proadv.Moment
