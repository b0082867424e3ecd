import Verif.Model.KernelDetect

/-!
# Model of the mesh helpers of `trivariatekernel.py`

`_scaling` and `_position` with their matrices, as lists of rows.  `kernel` (`Verif/Model/KernelDetect.lean`) uses the axes and
`positions` directly; `Verif/Props/KernelGrid.lean` proves that this is what these functions return.
-/

namespace Proadv.KernelDetect

open Proadv

variable {F : Type} [PyMath F]

/-- `_scaling` — trivariatekernel.py:98-104. -/
def scaling (x y : List F) (grid : Nat) : Py (List (List F) × List (List F)) := do
  let xmin ← npMin x
  let xmax ← npMax x
  let ymin ← npMin y
  let ymax ← npMax y
  .ok (meshX (gridAxis xmin xmax grid) (gridAxis ymin ymax grid), meshY (gridAxis xmin xmax grid) (gridAxis ymin ymax grid))

/-- first result of `_position` — trivariatekernel.py:142: `np.vstack([meshgrid_x.ravel(), meshgrid_y.ravel()])`, here as the list of
its columns. -/
def position (mx my : List (List F)) : List (List F) := List.zipWith (fun x y => [x, y]) mx.flatten my.flatten

/-! ## grids given as a signed integer

`kernel` checks nothing about `grid`: `np.mgrid` takes `int(abs(grid * 1j))` points (104), and `_cutoff` multiplies by `grid` (436). -/

/-- `delta_force` with a signed grid — trivariatekernel.py:436. -/
def deltaForceZ (density force : List F) (grid : Int) : Py (List F) :=
  bcast (fun d q => d /. q) ((lit 0 :: diff force).map (fun d => d *. lit (grid : ℚ))) density

/-- `_cutoff` with a signed grid — trivariatekernel.py:408-457. -/
def cutoffZ (density velocity : List F) (c1 c2 : F) (force : List F) (peak : Int) (grid : Int) : Py (F × F) := do
  let delta ← deltaForceZ density force grid
  let lower ← searchLoop (qualifies c1 c2 force delta peak) 1 (downRange peak)
  let upper ← searchLoop (qualifies c1 c2 force delta peak) ((force.length : Int) - 1) (upRange peak force.length)
  let lv ← getIdx velocity lower
  let uv ← getIdx velocity upper
  .ok (lv, uv)

/-- the cutoff part of `kernel` with a signed grid — trivariatekernel.py:485-492. -/
def kernelCutoffsZ (u w : List F) (grid : Int) (uf wf : List F) (pdf : List (List F)) : Py (F × F × F × F) := do
  let (peak, up, wp) ← peakPos pdf
  let su ← Spread.std (Arr.flt u)
  let sw ← Spread.std (Arr.flt w)
  let cu := Detect.lambdaOf u.length *. su /. PyMath.sqrt (ofNat u.length)
  let cw := Detect.lambdaOf u.length *. sw /. PyMath.sqrt (ofNat u.length)
  let (ul, uu) ← cutoffZ [peak] uf cu cu (pdf.map (fun r => r.getD wp PyNum.nan)) up grid
  let (wl, wu) ← cutoffZ [peak] wf cw cw (pdf.getD up []) wp grid
  .ok (ul, uu, wl, wu)

/-- `kernel` (index part) with a signed grid — trivariatekernel.py:460-500. -/
def kernelZ (kde : List (F × F) → List F → List F → Py (List (List F))) (u w : List F) (grid : Int) : Py (List Nat) := do
  let pts := rotated u w
  let (mx, my) ← scaling (pts.map Prod.fst) (pts.map Prod.snd) grid.natAbs
  let (uf, wf) ← profile mx my
  let pdf ← kde pts uf wf
  let (ul, uu, wl, wu) ← kernelCutoffsZ u w grid uf wf pdf
  .ok (Detect.outside (pts.map (fun p => kernelRho ul uu wl wu p.1 p.2)))

/-- `three_dimensional_kernel` with a signed grid — trivariatekernel.py:503-521. -/
def threeDimensionalKernelZ (kde : List (F × F) → List F → List F → Py (List (List F))) (c : Arr F) (grid : Int) :
    Py (List Nat) := do
  let x1 ← kernelZ kde c.data (derivatives c).1 grid
  let x2 ← kernelZ kde c.data (derivatives c).2 grid
  let x3 ← kernelZ kde (derivatives c).1 (derivatives c).2 grid
  .ok (uniqueNat (x1 ++ x2 ++ x3))

end Proadv.KernelDetect
