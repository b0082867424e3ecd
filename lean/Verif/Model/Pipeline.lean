import Verif.Model.Detect
import Verif.Model.Spherical
import Verif.Model.KernelDetect
import Verif.Model.Replace

/-!
# Model of the despiking programs of `examples/filtration/`

The part of each `main` between reading the CSV columns and plotting.  The columns are float arrays of equal length.
-/

namespace Proadv.Pipeline

open Proadv Proadv.Descriptive Proadv.Detect Proadv.Spherical Proadv.Replace Proadv.KernelDetect

variable {F : Type}

/-- `filtered_data_x, filtered_data_y, filtered_data_z` — acceleration.py:21-23 (of the example). -/
structure Vel (F : Type) where
  x : List F
  y : List F
  z : List F
  deriving DecidableEq

/-- State after the loop: the data, the number of completed replacement rounds (`iteration`), and whether the loop was left
by `break` — acceleration.py:26-59 (of the example). -/
structure Out (F : Type) where
  data : Vel F
  rounds : Nat
  broke : Bool
  deriving DecidableEq

section Num
variable [PyNum F]

/-- `while iteration < max_iteration` — acceleration.py:30-59, phase-space.py:29-52, phase-space-3d.py:30-53,
correlation.py:29-50 (of `examples/filtration`): `fuel` is `max_iteration - iteration`; `find` the detection part of the
body, `repl` the replacement applied to each component. -/
def loop (find : Nat → Vel F → Py (List Nat)) (repl : List F → List Int → Py (List F)) : Nat → Nat → Vel F → Py (Out F)
  | 0, it, v => .ok ⟨v, it, false⟩
  | fuel + 1, it, v => do
    let sp ← find it v
    if sp.isEmpty then .ok ⟨v, it, true⟩
    else
      let idx := sp.map (fun i : Nat => (i : Int))
      let x ← repl v.x idx
      let y ← repl v.y idx
      let z ← repl v.z idx
      loop find repl fuel (it + 1) ⟨x, y, z⟩

/-- `linear_interpolation(·, indices, decimals=3)` of a float array — acceleration.py:55-57 (of the example). -/
def interp3 (v : List F) (idx : List Int) : Py (List F) := linearInterpolation (Arr.flt v) idx 3

/-- `np.sort(np.unique(np.concatenate((indices_x, indices_y, indices_z))))` of a detector applied to each component
— acceleration.py:40-48 (of the example). -/
def union3 (det : List F → Py (List Nat)) (v : Vel F) : Py (List Nat) := do
  let ix ← det v.x
  let iy ← det v.y
  let iz ← det v.z
  .ok (uniqueNat (ix ++ iy ++ iz))

end Num

variable [PyMath F]

/-- phase-space.py:32-41: each component minus its mean. -/
def findPhase (_ : Nat) (v : Vel F) : Py (List Nat) :=
  union3 (fun c => do let d ← centred c; phasespaceThresholding (Arr.flt d)) v

/-- examples/filtration/phase-space.py:17-52 -/
def phaseSpace (v : Vel F) : Py (Out F) := loop findPhase interp3 10 0 v

/-- phase-space-3d.py:33-42: the mean is subtracted and also passed on. -/
def findSpherical (it : Nat) (v : Vel F) : Py (List Nat) :=
  union3 (fun c => do let m ← meanOf c; sphericalThresholding (c.map (fun u => u -. m)) it m) v

/-- examples/filtration/phase-space-3d.py:18-53 -/
def phaseSpace3d (v : Vel F) : Py (Out F) := loop findSpherical interp3 3 0 v

/-- `tag` during iteration `it` — acceleration.py:28, 33 (of the example): starts at 1 and is toggled before use. -/
def tagAt : Nat → Int
  | 0 => if (1 : Int) = 1 then 2 else 1
  | it + 1 => if tagAt it = 1 then 2 else 1

/-- acceleration.py:33-48 (of the example) -/
def findAcceleration (it : Nat) (v : Vel F) : Py (List Nat) :=
  union3 (fun c => do
    let d ← centred c
    acceleration (Arr.flt d) (lit 100) (tagAt it) (lit 980) (lit (3 / 2)) (lit 1)) v

/-- examples/filtration/acceleration.py:17-59 -/
def accelerationExample (v : Vel F) : Py (Out F) := loop findAcceleration interp3 10 0 v

/-- correlation.py:32-39 (of the example) -/
def findCorrelation (_ : Nat) (v : Vel F) : Py (List Nat) := do
  let x ← centred v.x
  let y ← centred v.y
  let z ← centred v.z
  velocityCorrelation x y z

/-- examples/filtration/correlation.py:17-50 -/
def correlationExample (v : Vel F) : Py (Out F) :=
  loop findCorrelation (fun c idx => meanValue (Arr.flt c) idx) 10 0 v

/-- examples/filtration/trivariate-kernel.py:19-35: one pass, grid 64, no test for an empty index set. -/
def trivariateExample (kde : List (F × F) → List F → List F → Py (List (List F))) (v : Vel F) : Py (Vel F) := do
  let sp ← union3 (fun c => threeDimensionalKernel kde (Arr.flt c) 64) v
  let idx := sp.map (fun i : Nat => (i : Int))
  let x ← interp3 v.x idx
  let y ← interp3 v.y idx
  let z ← interp3 v.z idx
  .ok ⟨x, y, z⟩


/-- `F[i]` — bivariate-kernel.py:55-74 (of the example) at one rotated sample. -/
def bivariateSpike (ul uu wl wu ut wt : F) : Bool :=
  let uu1 := uu -. lit (1 / 2) *. (uu +. ul)
  let ul1 := ul -. lit (1 / 2) *. (uu +. ul)
  let wu1 := wu -. lit (1 / 2) *. (wu +. wl)
  let wl1 := wl -. lit (1 / 2) *. (wu +. wl)
  let x := ut -. lit (1 / 2) *. (uu +. ul)
  let y := wt -. lit (1 / 2) *. (wu +. wl)
  let a := lit (1 / 2) *. (uu1 -. ul1)
  let b := lit (1 / 2) *. (wu1 -. wl1)
  if (uu1 <. x) || (x <. ul1) then true
  else
    let we := PyMath.sqrt ((b ^. 2) *. (lit 1 -. (x ^. 2) /. (a ^. 2)))
    (we <. y) || (y <. PyNum.neg we)

/-- the indices of bivariate-kernel.py:23-77 (of the example): `kde` is the density of 45-46 on the 256-point grid, with
everything there that may raise. -/
def findBivariate (kde : List (F × F) → List F → List F → Py (List (List F))) (v : List F) : Py (List Nat) := do
  let pts := rotated v (minmod v)
  let xmin ← npMin (pts.map Prod.fst)
  let xmax ← npMax (pts.map Prod.fst)
  let ymin ← npMin (pts.map Prod.snd)
  let ymax ← npMax (pts.map Prod.snd)
  let uf := gridAxis xmin xmax 256
  let wf := gridAxis ymin ymax 256
  let pdf ← kde pts uf wf
  let (dp, up, wp) ← peakPos pdf
  let (ul, uu) ← cutoff [dp] uf (lit (2 / 5)) (lit (2 / 5)) (pdf.map (fun r => r.getD wp PyNum.nan)) up 256
  let (wl, wu) ← cutoff [dp] wf (lit (2 / 5)) (lit (2 / 5)) (pdf.getD up []) wp 256
  .ok (whereTrue (pts.map (fun p => bivariateSpike ul uu wl wu p.1 p.2)))

/-- examples/filtration/bivariate-kernel.py:19-80: one pass, default 4 decimals, no test for an empty index set. -/
def bivariateExample (kde : List (F × F) → List F → List F → Py (List (List F))) (v : List F) : Py (List F) := do
  let sp ← findBivariate kde v
  linearInterpolation (Arr.flt v) (sp.map (fun i : Nat => (i : Int))) 4

end Proadv.Pipeline
