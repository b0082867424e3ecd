import Verif.Model.Series
import Verif.Model.Spectrum
import Verif.Model.Fluid
import Verif.Model.KernelDetect

/-!
# Model of the programs of `examples/signal/`

The part of each `main` between reading the CSV column (or drawing the data) and plotting; the result is what is handed to
`plt.plot`.  A CSV column is a 1-D array.
-/

namespace Proadv.SignalPrograms

open Proadv Proadv.Series Proadv.Spectrum Proadv.Signal Proadv.KernelDetect

variable {F : Type}

section Num
variable [PyNum F]

/-- `main` of examples/signal/simple-moving-average.py:6-17: the two curves. -/
def simpleMovingAverage (data : Arr F) : Py (List F × List F) := do
  let avg ← movingAverage data 30
  .ok (data.data, avg)

/-- `main` of examples/signal/exponential-moving-average.py:6-17. -/
def exponentialAverage (data : Arr F) : Py (List F × List F) := do
  let avg ← exponentialMovingAverage data (lit (8 / 100))
  .ok (data.data, avg)

/-- `main` of examples/signal/weighted-moving-average.py:6-17. -/
def weightedAverage (data : Arr F) : Py (List F × List F) := do
  let avg ← weightedMovingAverage data.data 30
  .ok (data.data, avg.data)

/-- `main` of examples/signal/kalman.py:7-27: initial state and covariance `[[1]]`, noises `[[0.01]]` and `[[15]]`; the
estimates are 1x1 arrays, squeezed for plotting. -/
def kalman (data : List F) : Py (List F × List F) := do
  let est ← kalmanFilter data (lit 1) (lit 1) (lit (1 / 100)) (lit 15)
  .ok (data, est)

/-- `main` of examples/signal/synthetic.py after the random draws — synthetic.py:7-18: `data` is the result of
`np.random.randint(0, 50, 500)`, `idx` and `r` the draws inside `synthetic_noise`; the two curves in plotting order. -/
def synthetic (data : List F) (idx : List Nat) (r : List F) : Py (List F × List F) := do
  let polluted ← syntheticNoise data (lit 10) idx r
  .ok (polluted, data)

end Num

section Math
variable [PyMath F]

/-- `main` of examples/signal/singular-spectrum.py:6-20; library parameters as in `Series.ssa`. -/
def singularSpectrum (ceilInt : F → Py Int) (eigh : Mat F → Py (Mat F)) (data : List F) : Py (List F × List F) := do
  let s ← ssa ceilInt eigh data (lit 100) (lit 1)
  .ok (data, s)

/-- `main` of examples/signal/spectrum.py:7-35: the spectrum (abscissae `psdx`, which hold the frequencies, and ordinates
`freqs`, which hold the densities) and the two end points of the line of the -5/3 law, as `((x, x'), (y, y'))`. -/
def spectrum (data : List F) : Py ((List F × List F) × (F × F) × (F × F)) := do
  let (psdx, freqs) ← powerSpectra data (lit 100) 50 2048 true
  let slope : F := lit (-5) /. lit 3
  let mn ← npMin freqs
  let mx ← npMax freqs
  let ymin1 := PyMath.log mn
  let ymax1 := PyMath.log mx
  let ymid1 := (ymin1 +. ymax1) /. lit 2
  let top ← npMax psdx
  let x1 : F := lit 0
  let x2 := PyMath.log top
  let xmid1 := (x1 +. x2) /. lit 2
  let y1 := slope *. (x1 -. xmid1) +. ymid1
  let y2 := slope *. (x2 -. xmid1) +. ymid1
  .ok ((psdx, freqs), (PyMath.exp x1, PyMath.exp x2), (PyMath.exp y1, PyMath.exp y2))

end Math

end Proadv.SignalPrograms
