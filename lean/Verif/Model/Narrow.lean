import Verif.Model.Detect
import Verif.Model.KernelDetect

/-!
# Recordings stored in fixed-width integers

The arithmetic of numpy integer arrays and scalars wraps around.  The other models treat integer arrays as exact integers; here are
the functions of the package that subtract or multiply samples before converting them to floats: `moving_average`,
`acceleration_thresholding`, `calculate_derivatives`, `_derivatives`, `phasespace_thresholding`, `kernel` (trivariate).
-/

namespace Proadv.Narrow

open Proadv Proadv.Descriptive Proadv.Spread Proadv.Detect

/-- a numpy integer type: number of bits, and whether it is signed (`int16` is `⟨16, true⟩`) — series.py:76, acceleration.py:52. -/
structure IntType where
  bits : Nat
  signed : Bool
deriving DecidableEq

/-- result of an integer operation whose exact value is `z` — series.py:76, acceleration.py:52, phasespace.py:25, 29,
trivariatekernel.py:28, 32. -/
def IntType.wrap (t : IntType) (z : Int) : Int :=
  if t.signed then (z + 2 ^ (t.bits - 1)) % 2 ^ t.bits - 2 ^ (t.bits - 1) else z % 2 ^ t.bits

/-- `np.sum` of an integer array: it accumulates in 64 bits — descriptive.py:222. -/
def npSum (t : IntType) (l : List Int) : Int := (IntType.mk 64 t.signed).wrap l.sum

section Num
variable {F : Type} [PyNum F]

/-- `mean` of an integer array: its elements are numpy integers, so the branch of 209-223 without strings is taken
— descriptive.py:209-223. -/
def mean (t : IntType) (l : List Int) : F := lit (npSum t l : ℤ) /. ofNat l.length

/-- One pass of the second loop of `moving_average` — series.py:66-76, at index `i`: the difference is an integer of the type of the
data, the division is in floats. -/
def maStep (t : IntType) (data : List Int) (w : Nat) (ma : List F) (i : Nat) : List F :=
  ma ++ [ma.getD (i - 1) PyNum.nan +. lit (t.wrap (data.getD i 0 - data.getD (i - w) 0) : ℤ) /. ofNat w]

/-- `series.moving_average` of a 1-D integer array — series.py:5-78. -/
def movingAverage (t : IntType) (data : List Int) (windowSize : Int) : Py (List F) :=
  if windowSize ≤ 0 then .error .valueError
  else if data.length = 0 then .ok []
  else if (data.length : Int) < windowSize then .error .valueError
  else
    let w := windowSize.toNat
    .ok ((List.range (data.length - w)).foldl (fun ma k => maStep t data w ma (w + k))
      ((List.range w).map (fun i => mean t (data.take (i + 1)))))

/-- `np.concatenate((np.array([0]), np.diff(velocities) * frequency))` for a float `frequency` — acceleration.py:52. -/
def differences (t : IntType) (v : List Int) (freq : F) : List F :=
  lit 0 :: List.zipWith (fun x y => lit (t.wrap (y - x) : ℤ) *. freq) v v.tail

/-- one loop of `calculate_derivatives` — phasespace.py:24-25 (and 28-29) — and of `_derivatives` — trivariatekernel.py:27-28 (and
31-32).  Half of the wrapped difference is stored in an integer array (`np.zeros_like`), truncated towards zero; the rounding to four
decimals in phasespace.py does not change a half-integer. -/
def centralDiff (t : IntType) (c : List Int) : List Int :=
  (List.range c.length).map (fun i =>
    if 1 ≤ i ∧ i + 1 < c.length then (t.wrap (c.getD (i + 1) 0 - c.getD (i - 1) 0)).tdiv 2 else 0)

end Num

/-- `acceleration_thresholding` of a 1-D integer array — acceleration.py:5-65; `np.mean`, `std` and the comparisons convert to floats. -/
def acceleration {F : Type} [PyMath F] (t : IntType) (v : List Int) (freq : F) (tag : Int) (gravity kGravity kSigma : F) : Py (List Nat) :=
  let x : List F := v.map (fun z => lit (z : ℤ))
  if tag = 1 then do
    let s ← std ⟨1, true, x⟩
    .ok (intersect1d
      (whereTrue ((differences t v freq).map (fun d => (kGravity *. gravity) <. d)))
      (whereTrue (x.map (fun y => (npMean x +. kSigma *. s) <. y))))
  else if tag = 2 then do
    let s ← std ⟨1, true, x⟩
    .ok (intersect1d
      (whereTrue ((differences t v freq).map (fun d => d <. (PyNum.neg kGravity *. gravity))))
      (whereTrue (x.map (fun y => y <. (npMean x -. kSigma *. s)))))
  else .error .valueError

/-- `np.sum(x * y)` of two integer arrays of one type: the products wrap around in that type, the sum in 64 bits
— phasespace.py:67, trivariatekernel.py:55-56. -/
def sumProd (t : IntType) (x y : List Int) : Int := npSum t (List.zipWith (fun a b => t.wrap (a * b)) x y)

/-- `np.arctan(np.sum(c * dc2) / np.sum(c ** 2))` of integer arrays — phasespace.py:67. -/
def phaseAngle {F : Type} [PyMath F] (t : IntType) (c dc2 : List Int) : F :=
  PyMath.arctan (lit (sumProd t c dc2 : ℤ) /. lit (npSum t (c.map (fun a => t.wrap (a ^ 2))) : ℤ))

/-- `phasespace_thresholding` of a 1-D integer array — phasespace.py:80-123; apart from the derivatives and the angle everything is
converted to floats (`std`, and the products with `np.cos(theta)` in `calculate_rho`). -/
def phasespace {F : Type} [PyMath F] (t : IntType) (c : List Int) : Py (List Nat) :=
  let dc := centralDiff t c
  let dc2 := centralDiff t dc
  let x : List F := c.map (fun z => lit (z : ℤ))
  let y : List F := dc.map (fun z => lit (z : ℤ))
  let z : List F := dc2.map (fun z => lit (z : ℤ))
  do
    let sc ← std ⟨1, true, x⟩
    let sdc ← std ⟨1, true, y⟩
    let sdc2 ← std ⟨1, true, z⟩
    let p := phaseCoefs sc sdc sdc2 (lambdaOf c.length) (phaseAngle t c dc2)
    let rho1 ← calculateRho x y (lit 0) p.a1 (.scal p.b1)
    let rho2 ← calculateRho y z (lit 0) p.a2 (.scal p.b2)
    let rho3 ← calculateRho x z p.theta p.a3 (.scal p.b3)
    .ok (uniqueNat (outside rho1 ++ outside rho2 ++ outside rho3))

/-- `data_size * np.sum(u1 * w1) - np.sum(u1) * np.sum(w1)` — trivariatekernel.py:55 (and 56 with `w1 = u1`).  Signed data: 64-bit
integers.  Unsigned data: a Python int times a `uint64` is a float, the second product is a `uint64`. -/
def angleTerm {F : Type} [PyNum F] (t : IntType) (u w : List Int) : F :=
  let t64 : IntType := ⟨64, t.signed⟩
  let q := t64.wrap (npSum t u * npSum t w)
  if t.signed then lit (t64.wrap (t64.wrap (u.length * sumProd t u w) - q) : ℤ)
  else ofNat u.length *. lit (sumProd t u w : ℤ) -. lit (q : ℤ)

section Kernel
variable {F : Type} [PyMath F]

/-- `_rotation` of integer arrays — trivariatekernel.py:37-58. -/
def rotation (t : IntType) (u w : List Int) : F := PyMath.arctan2 (angleTerm t u w) (angleTerm t u u)

/-- `_transform` at one sample of integer arrays — trivariatekernel.py:77-78; `-x` is formed in the type of the data. -/
def transform (t : IntType) (theta : F) (x y : Int) : F × F :=
  (lit (x : ℤ) *. PyMath.cos theta +. lit (y : ℤ) *. PyMath.sin theta,
    lit (t.wrap (-x) : ℤ) *. PyMath.sin theta +. lit (y : ℤ) *. PyMath.cos theta)

/-- the rotated samples — trivariatekernel.py:476-477. -/
def rotated (t : IntType) (u w : List Int) : List (F × F) := List.zipWith (transform t (rotation t u w)) u w

/-- `kernel` (index part) of integer arrays — trivariatekernel.py:460-500: as `KernelDetect.kernel`, with the rotated samples above. -/
def kernel (kde : List (F × F) → List F → List F → Py (List (List F))) (t : IntType) (u w : List Int) (grid : Nat) : Py (List Nat) := do
  let pts : List (F × F) := rotated t u w
  let xmin ← KernelDetect.npMin (pts.map Prod.fst)
  let xmax ← KernelDetect.npMax (pts.map Prod.fst)
  let ymin ← KernelDetect.npMin (pts.map Prod.snd)
  let ymax ← KernelDetect.npMax (pts.map Prod.snd)
  let ax := KernelDetect.gridAxis xmin xmax grid
  let ay := KernelDetect.gridAxis ymin ymax grid
  let (uf, wf) ← KernelDetect.profile (KernelDetect.meshX ax ay) (KernelDetect.meshY ax ay)
  let pdf ← kde pts uf wf
  let (ul, uu, wl, wu) ← KernelDetect.kernelCutoffs (u.map (fun z => lit (z : ℤ))) (w.map (fun z => lit (z : ℤ))) grid uf wf pdf
  .ok (outside (pts.map (fun p => KernelDetect.kernelRho ul uu wl wu p.1 p.2)))

/-- `three_dimensional_kernel` of an integer array — trivariatekernel.py:503-521; the derivatives have the type of the data
(`np.zeros_like`, 23-24). -/
def threeDimensionalKernel (kde : List (F × F) → List F → List F → Py (List (List F))) (t : IntType) (c : List Int) (grid : Nat) :
    Py (List Nat) := do
  let dc := centralDiff t c
  let dc2 := centralDiff t dc
  let x1 ← kernel kde t c dc grid
  let x2 ← kernel kde t c dc2 grid
  let x3 ← kernel kde t dc dc2 grid
  .ok (uniqueNat (x1 ++ x2 ++ x3))

end Kernel

end Proadv.Narrow
