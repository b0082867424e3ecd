import Verif.Py.Array

/-!
# Model of `filtration/detection/spherical.py`
-/

namespace Proadv.Spherical

open Proadv

variable {F : Type} [PyMath F]

/-- `np.nanstd(a)`: standard deviation of the entries that are not NaN — spherical.py:94-96. -/
def npNanstd (l : List F) : F := npStd (l.filter (fun x => !(PyNum.isNaN x)))

/-- `_descript` — spherical.py:4-24: the centred data and the updated mean. -/
def descript (c : List F) (iteration : Int) (cMean : F) : List F × F :=
  (c.map (fun x => PyNum.around (x -. npNanmean c) 4),
    if iteration = 1 then PyNum.around (npNanmean c) 4 else PyNum.around (cMean +. npNanmean c) 4)

/-- `np.gradient(a)` for unit spacing: one-sided differences at the ends, central differences inside; ValueError below
two samples — spherical.py:40-41. -/
def npGradient (a : List F) : Py (List F) :=
  if a.length < 2 then .error .valueError
  else .ok ((List.range a.length).map (fun i =>
    if i = 0 then (a.getD 1 PyNum.nan -. a.getD 0 PyNum.nan) /. lit 1
    else if i + 1 = a.length then (a.getD i PyNum.nan -. a.getD (i - 1) PyNum.nan) /. lit 1
    else (a.getD (i + 1) PyNum.nan -. a.getD (i - 1) PyNum.nan) /. lit 2))

/-- `_rotation` at one sample — spherical.py:61-74.  `lit 0`/`lit 1` are the constant entries of the rotation matrix
(rounded to 4 decimals with the rest of the matrix). -/
def rotate (theta : F) (p : F × F × F) : F × F × F :=
  if theta ==. lit 0 then p
  else
    let co := PyNum.around (PyMath.cos theta) 4
    let si := PyNum.around (PyMath.sin theta) 4
    let msi := PyNum.around (PyNum.neg (PyMath.sin theta)) 4
    let z : F := PyNum.around (lit 0) 4
    let o : F := PyNum.around (lit 1) 4
    (PyNum.around (p.1 *. co +. p.2.1 *. z +. p.2.2 *. si) 4,
     PyNum.around (p.1 *. z +. p.2.1 *. o +. p.2.2 *. z) 4,
     PyNum.around (p.1 *. msi +. p.2.1 *. z +. p.2.2 *. co) 4)

/-- `_parameters` — spherical.py:77-97, for one axis: `around(lambda_ * nanstd(x), 4)`. -/
def halfAxis (n : Nat) (x : List F) : F :=
  PyNum.around (PyNum.around (PyMath.sqrt (lit 2 *. PyMath.log (ofNat n))) 4 *. npNanstd x) 4

/-- `z2` — spherical.py:125-130. -/
def surfaceZ (rd : F → F) (zt z1 : F) : F :=
  if z1 <. lit 0 then PyNum.neg (rd (PyMath.sqrt zt))
  else if lit 0 <. z1 then rd (PyMath.sqrt zt)
  else lit 0

/-- `dis < 0` — spherical.py:119-132, with the rounding `rd` applied to `x2`, `y2`, `zt`, `z2` as a parameter (the code
uses `rd x = np.around(x, 4)`). -/
def beyond (rd : F → F) (a b c x1 y1 z1 : F) : Bool :=
  let den := PyMath.sqrt ((a *. c *. y1) ^. 2 +. b ^. 2 *. (c ^. 2 *. x1 ^. 2 +. a ^. 2 *. z1 ^. 2))
  let x2 := rd (a *. b *. c *. x1 /. den)
  let y2 := rd (a *. b *. c *. y1 /. den)
  let zt := rd (c ^. 2 *. (lit 1 -. (x2 /. a) ^. 2 -. (y2 /. b) ^. 2))
  let z2 := surfaceZ rd zt z1
  ((x2 ^. 2 +. y2 ^. 2 +. z2 ^. 2) -. (x1 ^. 2 +. y1 ^. 2 +. z1 ^. 2)) <. lit 0

/-- the rounding applied by the code: `np.around(x, 4)` — spherical.py:122-128. -/
def around4 (x : F) : F := PyNum.around x 4

/-- `_spike_indices` — spherical.py:100-138, on the list of rotated points. -/
def spikeIndices (pts : List (F × F × F)) (a b c : F) : List Nat :=
  whereTrue (pts.map (fun p => beyond around4 a b c p.1 p.2.1 p.2.2))

/-- `spherical_phasespace_thresholding` — spherical.py:141-181.  Simplification: `c` is a 1-D float array. -/
def sphericalThresholding (c : List F) (iteration : Int) (cMean : F) : Py (List Nat) := do
  let f := (descript c iteration cMean).1
  let dc ← npGradient f
  let dc2 ← npGradient dc
  let theta := PyNum.around (PyMath.arctan2 (PyNum.sum (List.zipWith (fun u v => u *. v) f dc))
    (PyNum.sum (dc2.map (fun v => v ^. 2)))) 4
  let pts := (f.zip (dc.zip dc2)).map (rotate theta)
  let a := halfAxis pts.length (pts.map (fun p => p.1))
  let b := halfAxis pts.length (pts.map (fun p => p.2.1))
  let c' := halfAxis pts.length (pts.map (fun p => p.2.2))
  .ok (spikeIndices pts a b c')

end Proadv.Spherical
