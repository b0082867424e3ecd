import Verif.Model.Descriptive

/-!
# Model of `proadv/statistics/signal/fluid.py`, `synthetic.py`, `spectrum.py`
-/

namespace Proadv.Signal

open Proadv Proadv.Descriptive

variable {F : Type} [PyNum F]

/-- fluctuations `u - mean(u)` — fluid.py:20-22, 51-53.  `mean([])` of an empty array is not a number: `meanOf` raises. -/
def fluctuation (u : List F) : Py (List F) := do
  let m ← meanOf u
  .ok (u.map (fun x => x -. m))

/-- `fluid.kinetic_turbulent_energy` — fluid.py:19-32. -/
def kineticTurbulentEnergy (u v w : List F) : Py F := do
  let up ← fluctuation u
  let vp ← fluctuation v
  let wp ← fluctuation w
  let uu ← meanOf (up.map (fun x => x ^. 2))
  let vv ← meanOf (vp.map (fun x => x ^. 2))
  let ww ← meanOf (wp.map (fun x => x ^. 2))
  .ok (lit (1/2) *. (uu +. vv +. ww))

/-- the six outputs of `reynolds_stresses` — fluid.py:66. -/
structure Stresses (F : Type) where
  uu : F
  vv : F
  ww : F
  uv : F
  uw : F
  vw : F
deriving DecidableEq

/-- `fluid.reynolds_stresses` — fluid.py:50-66; the products broadcast as in numpy. -/
def reynoldsStresses (u v w : List F) : Py (Stresses F) := do
  let up ← fluctuation u
  let vp ← fluctuation v
  let wp ← fluctuation w
  let uu ← meanOf (up.map (fun x => x ^. 2))
  let vv ← meanOf (vp.map (fun x => x ^. 2))
  let ww ← meanOf (wp.map (fun x => x ^. 2))
  let uv ← meanOf (← bcast (· *. ·) up vp)
  let uw ← meanOf (← bcast (· *. ·) up wp)
  let vw ← meanOf (← bcast (· *. ·) vp wp)
  .ok ⟨uu, vv, ww, uv, uw, vw⟩

/-- One iteration of the rejection loop of `_random_index` — synthetic.py:21-27: the number drawn is appended unless it
is already present. -/
def drawStep (randoms : List Nat) (rn : Nat) : List Nat := if rn ∈ randoms then randoms else randoms ++ [rn]

/-- State of the list `randoms` when the loop condition is evaluated after at most `t` iterations — synthetic.py:19-27.
The random generator is the stream `draw`; `iteration = len(randoms)`.  Once the condition `iteration < target` fails the
state no longer changes. -/
def drawState (draw : Nat → Nat) (target : Nat) : Nat → List Nat
  | 0 => []
  | t + 1 =>
    let r := drawState draw target t
    if r.length < target then drawStep r (draw t) else r

/-- `int(data_size * percent / 100)` for an exact rational `percent` — synthetic.py:21; `range` of a negative number is
empty. -/
def targetCount (n : Nat) (percent : Rat) : Nat := (Fl.truncK ((n : Rat) * percent / 100)).toNat

/-- `_random_index` has left its loop after at most `t` iterations with result `l` — synthetic.py:19-28.  `draw t` is the
value of the `t`-th call of `np.random.randint(0, data_size)`. -/
def randomIndexReturns (draw : Nat → Nat) (n : Nat) (percent : Rat) (t : Nat) (l : List Nat) : Prop :=
  targetCount n percent ≤ (drawState draw (targetCount n percent) t).length ∧
    l = (drawState draw (targetCount n percent) t).insertionSort (· ≤ ·)

/-- `synthetic.synthetic_noise` after the random draws — synthetic.py:45-58: `idx` is the result of `_random_index`, `r`
the noise vector.  `data + s` keeps the length of `data`. -/
def syntheticNoise (data : List F) (percent : F) (idx : List Nat) (r : List F) : Py (List F) := do
  let s ← (List.range idx.length).foldlM (fun s (k : Nat) => do
    let m ← meanOf data
    let rk ← getIdx r (k : Int)
    let v := if k % 2 = 0 then (PyNum.abs rk +. percent) *. m else (PyNum.neg (PyNum.abs rk) -. percent) *. m
    setIdx s ((idx.getD k 0 : Nat) : Int) v) (List.replicate data.length (lit 0 : F))
  bcast (· +. ·) data s

/-- Arguments passed by `spectrum.power_spectra` to `scipy.signal.welch` — spectrum.py:25-28. -/
structure WelchArgs where
  /-- length of the window = segment length (`hann(block, True)`) -/
  nperseg : Int
  noverlap : Int
  nfft : Int
  onesided : Bool
deriving DecidableEq, Repr

/-- the call of `welch` — spectrum.py:25-28. -/
def powerSpectraArgs (overlap block : Int) (onesided : Bool) : WelchArgs := ⟨block, overlap, block, onesided⟩

/-- `welch` starts segment `j` at `j * (nperseg - noverlap)` and rejects `noverlap ≥ nperseg` (scipy documentation;
library code, not part of /repo) — spectrum.py:27. -/
def WelchArgs.hop (a : WelchArgs) : Py Int := if a.nperseg ≤ a.noverlap then .error .valueError else .ok (a.nperseg - a.noverlap)

end Proadv.Signal
