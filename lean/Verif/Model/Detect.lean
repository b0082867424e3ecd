import Verif.Model.Spread

/-!
# Model of `filtration/detection/{acceleration,pollution,poincare,correlation,phasespace}.py`

Comparisons `x > t` of the source are written `t <. x`.
-/

namespace Proadv.Detect

open Proadv Proadv.Spread Proadv.Descriptive

variable {F : Type}

/-! ## acceleration.py -/

section Num
variable [PyNum F]

/-- `np.concatenate((np.array([0]), np.diff(velocities) * frequency))` — acceleration.py:52. -/
def differences (v : List F) (freq : F) : List F := lit 0 :: (diff v).map (fun d => d *. freq)

end Num

variable [PyMath F]

/-- `acceleration_thresholding` — acceleration.py:5-65.  An array that is not 1-D makes `np.diff`/`np.concatenate` (52)
raise ValueError; `std` (57, 61) raises ValueError on an empty array; tag dispatch 54-63. -/
def acceleration (v : Arr F) (freq : F) (tag : Int) (gravity kGravity kSigma : F) : Py (List Nat) :=
  if v.ndim ≠ 1 then .error .valueError
  else if tag = 1 then do
    let s ← std v
    .ok (intersect1d
      (whereTrue ((differences v.data freq).map (fun d => (kGravity *. gravity) <. d)))
      (whereTrue (v.data.map (fun x => (npMean v.data +. kSigma *. s) <. x))))
  else if tag = 2 then do
    let s ← std v
    .ok (intersect1d
      (whereTrue ((differences v.data freq).map (fun d => d <. (PyNum.neg kGravity *. gravity))))
      (whereTrue (v.data.map (fun x => x <. (npMean v.data -. kSigma *. s)))))
  else .error .valueError

/-! ## pollution.py -/

/-- `pollution_rate` — pollution.py:5-32: `std(x)` raises on non 1-D or empty `x`; upper exceedances (21), lower ones
(24), both counted (27), percentage (30).  `x` and `xfil` are 1-D numpy arrays that broadcast. -/
def pollutionRate (x : Arr F) (xfil : List F) (k : F) : Py F := do
  let s ← std x
  let pos ← bcast (fun a b => (b +. k *. s) <. a) x.data xfil
  let neg ← bcast (fun a b => a <. (PyNum.neg b -. k *. s)) x.data xfil
  .ok (ofNat ((whereTrue pos).length + (whereTrue neg).length) /. ofNat x.data.length *. lit 100)

/-! ## poincare.py -/

/-- Second result of `calculate_ab`: a float, or the pair `(1e10, 1e10)` — the conditional of poincare.py:25 binds to
the second component of the returned tuple only. -/
inductive BCoef (F : Type) where
  | scal (b : F)
  | pair (b1 b2 : F)

/-- `fact = cos(theta)**4 - sin(theta)**4` — poincare.py:22 and phasespace.py:74. -/
def fact (theta : F) : F := PyMath.cos theta ^. 4 -. PyMath.sin theta ^. 4

/-- squared first axis `fa` — poincare.py:20-23. -/
def axisA (std1 std2 theta lam : F) : F :=
  ((lam *. std1) ^. 2 *. PyMath.cos theta ^. 2 -. (lam *. std2) ^. 2 *. PyMath.sin theta ^. 2) /. fact theta

/-- squared second axis `fb` — poincare.py:24. -/
def axisB (std1 std2 theta lam : F) : F :=
  ((lam *. std2) ^. 2 *. PyMath.cos theta ^. 2 -. (lam *. std1) ^. 2 *. PyMath.sin theta ^. 2) /. fact theta

/-- `calculate_ab` — poincare.py:4-25. -/
def calculateAb (std1 std2 theta lam : F) : F × BCoef F :=
  (PyMath.sqrt (axisA std1 std2 theta lam),
    if (lit 0 <. axisA std1 std2 theta lam) && (lit 0 <. axisB std1 std2 theta lam)
    then .scal (PyMath.sqrt (axisB std1 std2 theta lam)) else .pair (lit (10 ^ 10)) (lit (10 ^ 10)))

/-- `xp` of poincare.py:44 at one sample. -/
def rotX (theta x y : F) : F := x *. PyMath.cos theta +. y *. PyMath.sin theta

/-- `yp` of poincare.py:45 at one sample. -/
def rotY (theta x y : F) : F := y *. PyMath.cos theta -. x *. PyMath.sin theta

/-- `calculate_rho` at one sample with scalar coefficients — poincare.py:44-46. -/
def rhoAt (theta a b x y : F) : F := (rotX theta x y /. a) ^. 2 +. (rotY theta x y /. b) ^. 2

/-- `calculate_rho` — poincare.py:28-46, `a` a float, `b` a float or the pair of `calculate_ab` (numpy broadcasts the
pair as an array of length 2). -/
def calculateRho (x y : List F) (theta a : F) : BCoef F → Py (List F)
  | .scal b => bcast (fun u v => rhoAt theta a b u v) x y
  | .pair b1 b2 => do
    let xp ← bcast (rotX theta) x y
    let yp ← bcast (rotY theta) x y
    let q ← bcast (fun u b => (u /. b) ^. 2) yp [b1, b2]
    bcast (fun u r => (u /. a) ^. 2 +. r) xp q

/-- `np.nonzero(rho > 1)[0]` — correlation.py:71-73, phasespace.py:116-118. -/
def outside (rho : List F) : List Nat := whereTrue (rho.map (fun r => lit 1 <. r))

/-! ## correlation.py -/

/-- `np.sqrt(2 * np.log(n))` — correlation.py:27, phasespace.py:64. -/
def lambdaOf (n : Nat) : F := PyMath.sqrt (lit 2 *. PyMath.log (ofNat n))

/-- `np.arctan(np.sum(x * y) / np.sum(x ** 2))` — correlation.py:56-58, phasespace.py:67. -/
def angle (x y : List F) : Py F := do
  let xy ← bcast (fun u v => u *. v) x y
  .ok (PyMath.arctan (PyNum.sum xy /. PyNum.sum (x.map (fun u => u ^. 2))))

/-- `x - mean(x)` — correlation.py:52. -/
def centred (x : List F) : Py (List F) := do
  let m ← meanOf x
  .ok (x.map (fun u => u -. m))

/-- `velocity_correlation` — correlation.py:31-78 with `calculate_parameters` (6-28) inlined.  Simplification: the
three arguments are 1-D numpy arrays. -/
def velocityCorrelation (ui vi wi : List F) : Py (List Nat) := do
  let u ← centred ui
  let v ← centred vi
  let w ← centred wi
  let su ← std (Arr.flt u)
  let sv ← std (Arr.flt v)
  let sw ← std (Arr.flt w)
  let lam : F := lambdaOf u.length
  let theta1 ← angle u v
  let theta2 ← angle u w
  let theta3 ← angle v w
  let rho1 ← calculateRho u v theta1 (calculateAb su sv theta1 lam).1 (calculateAb su sv theta1 lam).2
  let rho2 ← calculateRho u w theta2 (calculateAb su sw theta2 lam).1 (calculateAb su sw theta2 lam).2
  let rho3 ← calculateRho v w theta3 (calculateAb sv sw theta3 lam).1 (calculateAb sv sw theta3 lam).2
  .ok (uniqueNat (outside rho1 ++ outside rho2 ++ outside rho3))

/-! ## phasespace.py -/

/-- One loop of `calculate_derivatives` — phasespace.py:24-25 (and 28-29): entry `i` of an array created by
`np.zeros_like(c)`; only `1 ≤ i < n-1` is written, from entries of the *other* array, so the loop is a map. -/
def centralDiff {G : Type} [PyNum G] (isInt : Bool) (c : List G) : List G :=
  (List.range c.length).map (fun i =>
    if 1 ≤ i ∧ i + 1 < c.length then
      store isInt (PyNum.around ((c.getD (i + 1) PyNum.nan -. c.getD (i - 1) PyNum.nan) /. lit 2) 4)
    else lit 0)

/-- `calculate_derivatives` — phasespace.py:6-31. -/
def calculateDerivatives (c : Arr F) : List F × List F :=
  (centralDiff c.isInt c.data, centralDiff c.isInt (centralDiff c.isInt c.data))

/-- The eight values of `calculate_parameters` used by `phasespace_thresholding` — phasespace.py:77. -/
structure PhaseParams (F : Type) where
  theta : F
  a1 : F
  b1 : F
  a2 : F
  b2 : F
  a3 : F
  b3 : F

/-- the coefficients of phasespace.py:69-76 from the three standard deviations, lambda and theta. -/
def phaseCoefs (sc sdc sdc2 lam theta : F) : PhaseParams F :=
  { theta := theta
    a1 := lam *. sc
    b1 := lam *. sdc
    a2 := lam *. sdc
    b2 := lam *. sdc2
    a3 := PyMath.sqrt ((lam *. sc) ^. 2 *. PyMath.cos theta ^. 2 -.
            (lam *. sdc2) ^. 2 *. PyMath.sin theta ^. 2) /. fact theta
    b3 := PyMath.sqrt ((lam *. sdc2) ^. 2 *. PyMath.cos theta ^. 2 -.
            (lam *. sc) ^. 2 *. PyMath.sin theta ^. 2) /. fact theta }

/-- `calculate_parameters` — phasespace.py:34-77. -/
def phaseParameters (c : Arr F) (dc dc2 : List F) : Py (PhaseParams F) := do
  let sc ← std c
  let sdc ← std ⟨c.ndim, c.isInt, dc⟩
  let sdc2 ← std ⟨c.ndim, c.isInt, dc2⟩
  let theta ← angle c.data dc2
  .ok (phaseCoefs sc sdc sdc2 (lambdaOf c.data.length) theta)

/-- `phasespace_thresholding` — phasespace.py:80-123: derivatives (105), parameters (108), the three rho arrays
(111-113), union of the exceedances (116-121).  `len` of a 0-d array is a TypeError; `std` rejects other
dimensions.  Simplification: `c` is a numpy array. -/
def phasespaceThresholding (c : Arr F) : Py (List Nat) :=
  if c.ndim = 0 then .error .typeError
  else do
    let p ← phaseParameters c (calculateDerivatives c).1 (calculateDerivatives c).2
    let rho1 ← calculateRho c.data (calculateDerivatives c).1 (lit 0) p.a1 (.scal p.b1)
    let rho2 ← calculateRho (calculateDerivatives c).1 (calculateDerivatives c).2 (lit 0) p.a2 (.scal p.b2)
    let rho3 ← calculateRho c.data (calculateDerivatives c).2 p.theta p.a3 (.scal p.b3)
    .ok (uniqueNat (outside rho1 ++ outside rho2 ++ outside rho3))

/-- `theta` of phasespace.py:157: the median absolute deviation. -/
def medianAbsDev (data : List F) : F :=
  npMedian (data.map (fun x => PyNum.abs (x -. npMedian data)))

/-- `phasespace_thresholding_premodification` — phasespace.py:126-173: unremovable indices (160), threshold (163),
removable indices (166-167), in-place loop (170-171).  Simplification: 1-D numpy arrays (`data.size` of a list raises
AttributeError).  Both results are returned; `data` is modified in place. -/
def premodification (data : List F) (c1 c2 : F) : Py (List F × List Nat) := do
  let theta := medianAbsDev data
  let unremovable := intersect1d
    (whereTrue (data.map (fun x => (PyNum.neg c1 *. theta) ≤. x)))
    (whereTrue (data.map (fun x => x ≤. (c1 *. theta))))
  let t := c2 *. theta *. PyMath.sqrt (lit 2 *. PyMath.log (ofNat data.length))
  let removable := intersect1d (whereTrue (data.map (fun x => t <. x)))
    (whereTrue (data.map (fun x => x <. PyNum.neg t)))
  let data' ← removable.foldlM (fun (d : List F) (i : Nat) => do
    let x ← getIdx d ((i : Int) - 1)
    setIdx d (i : Int) x) data
  .ok (data', unremovable)

end Proadv.Detect
