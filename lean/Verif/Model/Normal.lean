import Verif.Model.Moment

/-!
# Model of `proadv/statistics/distributions/normal.py`
-/

namespace Proadv.Normal

open Proadv Proadv.Moment

variable {F : Type} [PyMath F]

/-- One iteration of the loop of `cdf` — normal.py:58-71: the value computed for the entry `x`. -/
def cdfEntry (x : F) : F :=
  let npSqrt : F := lit 1 /. PyMath.sqrt (lit 2)
  let ns := x *. npSqrt
  let i := PyNum.abs ns
  if i <. npSqrt then lit (1/2) +. lit (1/2) *. PyMath.erf ns
  else
    let y := lit (1/2) *. PyMath.erfc i
    if lit 0 <. ns then lit 1 -. y else y

/-- `normal.cdf` — normal.py:5-73.  Empty (52-53), NaN (54-55), flatten (56-57) and reshape (72) keep the C-order data.
For a 0-d array `array_cdf * np_sqrt` is a scalar, and iterating over it (62) is a TypeError.  The result is written into
a copy of the input, hence truncated for an integer array (64, 68, 70). -/
def cdf (a : Arr F) : Py (Arr F) :=
  if a.data.length = 0 then .error .valueError
  else if a.data.any PyNum.isNaN then .error .typeError
  else if a.ndim = 0 then .error .typeError
  else .ok ⟨a.ndim, a.isInt, a.data.map (fun x => store a.isInt (cdfEntry x))⟩

/-- The formula of `pdf` for one entry — normal.py:129-131. -/
def pdfEntry (std mean v : F) : F :=
  let x := (lit (-1/2) *. PyMath.log (lit 2 *. PyMath.pi)) -. PyMath.log std
  let y := ((v -. mean) ^. 2) /. (lit 2 *. (std *. std))
  PyMath.exp (x -. y)

/-- `normal.pdf` — normal.py:76-132: empty (125-126), NaN (127-128), formula (129-131). -/
def pdf (a : Arr F) (std mean : F) : Py (Arr F) :=
  if a.data.length = 0 then .error .valueError
  else if a.data.any PyNum.isNaN then .error .typeError
  else .ok ⟨a.ndim, false, a.data.map (pdfEntry std mean)⟩

/-- `normal.log_pdf` — normal.py:320-374. -/
def logPdf (a : Arr F) (std mean : F) : Py (Arr F) :=
  if a.data.length = 0 then .error .valueError
  else if a.data.any PyNum.isNaN then .error .typeError
  else do
    let p ← pdf a std mean
    .ok ⟨p.ndim, false, p.data.map PyMath.log⟩

/-- `normal.log_cdf` — normal.py:377-427. -/
def logCdf (a : Arr F) : Py (Arr F) :=
  if a.data.length = 0 then .error .valueError
  else if a.data.any PyNum.isNaN then .error .typeError
  else do
    let p ← cdf a
    .ok ⟨p.ndim, false, p.data.map PyMath.log⟩

/-- `normal.sf` — normal.py:430-480. -/
def sf (a : Arr F) : Py (Arr F) :=
  if a.data.length = 0 then .error .valueError
  else if a.data.any PyNum.isNaN then .error .typeError
  else do
    let p ← cdf a
    .ok ⟨p.ndim, p.isInt, p.data.map (fun x => lit 1 -. x)⟩

/-- `normal.log_sf` — normal.py:483-528. -/
def logSf (a : Arr F) : Py (Arr F) := do
  let p ← sf a
  .ok ⟨p.ndim, false, p.data.map PyMath.log⟩

/-- the `alternative` argument of the tests; `other` is any string not listed — normal.py:209-218, 306-315. -/
inductive Alternative where
  | twoSided | greater | less | other
deriving DecidableEq, Repr

/-- p-value rule shared by both tests — normal.py:209-220, 303-317, for any function `cdf1` on scalars. -/
def pWith (cdf1 : F → Py F) (alt : Alternative) (z : F) : Py F :=
  match alt with
  | .twoSided => do
    let c ← cdf1 (PyNum.abs z)
    .ok (lit 2 *. (lit 1 -. c))
  | .greater => do
    let c ← cdf1 z
    .ok (lit 1 -. c)
  | .less => cdf1 z
  | .other => .error .valueError

/-- p-value part of both tests — normal.py:209-220, 303-317.  `z` is a scalar, i.e. a 0-d array for `cdf`. -/
def pValue (alt : Alternative) (z : F) : Py F :=
  pWith (fun x => do
    let a ← cdf ⟨0, false, [x]⟩
    match a.data with
    | [c] => .ok c
    | _ => .error .typeError) alt z

/-- the statistic of `skewtest` — normal.py:180-204 -/
def skewZ (n : Nat) (skew : F) : F :=
  let adjustment := PyMath.sqrt ((ofNat ((n + 1) * (n + 3)) : F) /. (lit 6 *. ofNat (n - 2)))
  let adj := skew *. adjustment
  let beta2 := (lit 3 *. ofNat (n ^ 2 + 27 * n - 70) *. ofNat (n + 1) *. ofNat (n + 3)) /.
    ((ofNat n -. lit 2) *. ofNat (n + 5) *. ofNat (n + 7) *. ofNat (n + 9))
  let w2 := lit (-1) +. PyMath.sqrt (lit 2 *. (beta2 -. lit 1))
  let delta := lit 1 /. PyMath.sqrt (lit (1/2) *. PyMath.log w2)
  let alpha := PyMath.sqrt (lit 2 /. (w2 -. lit 1))
  let adj := if adj ==. lit 0 then lit 1 else adj
  delta *. PyMath.log ((adj /. alpha) +. PyMath.sqrt ((adj /. alpha) ^. 2 +. lit 1))

/-- `normal.skewtest` — normal.py:135-220, on a 1-D array: skewness (170), size check (176-177), statistic, p-value. -/
def skewtest (data : Arr F) (alt : Alternative) : Py (F × F) := do
  let skew ← skewness data
  let n := data.data.length
  if n < 8 then .error .valueError
  else
    let z := skewZ n skew
    let p ← pValue alt z
    .ok (z, p)

/-- the statistic of `kurtotest` — normal.py:269-300.  Simplification: a masked intermediate (zero `denom`, non-finite
cube root) is represented by 0, the value `np.copy` gives it in `cdf`. -/
def kurtZ (n : Nat) (kurt : F) : F :=
  let expected := lit 3 *. ofNat (n - 1) /. ofNat (n + 1)
  let variance := lit 24 *. ofNat n *. ofNat (n - 2) *. ofNat (n - 3) /. ofNat ((n + 1) * (n + 1) * (n + 3) * (n + 5))
  let z := (kurt -. expected) /. PyMath.sqrt variance
  let sb := lit 6 *. ofNat (n ^ 2 - 5 * n + 2) /. ofNat ((n + 7) * (n + 9)) *.
    PyMath.sqrt ((lit 6 *. ofNat (n + 3) *. ofNat (n + 5)) /. ofNat (n * (n - 2) * (n - 3)))
  let a := lit 6 +. lit 8 /. sb *. (lit 2 /. sb +. PyMath.sqrt (lit 1 +. lit 4 /. (sb ^. 2)))
  let term1 := lit 1 -. lit 2 /. (lit 9 *. a)
  let denom := lit 1 +. z *. PyMath.sqrt (lit 2 /. (a -. lit 4))
  let cube := PyMath.rpow ((lit 1 -. lit 2 /. a) /. denom) (lit 1 /. lit 3)
  if denom ==. lit 0 || PyNum.isNaN cube then lit 0
  else (term1 -. cube) /. PyMath.sqrt (lit 2 /. (lit 9 *. a))

/-- `normal.kurtotest` — normal.py:223-317, on a 1-D array: size check (262-264), kurtosis (267), statistic, p-value. -/
def kurtotest (data : Arr F) (alt : Alternative) : Py (F × F) := do
  let n := data.data.length
  if n < 5 then .error .valueError
  else
    let k ← kurtosis data
    let z := kurtZ n k
    let p ← pValue alt z
    .ok (z, p)

end Proadv.Normal
