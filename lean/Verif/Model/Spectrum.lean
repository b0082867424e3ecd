import Verif.Model.Bivariate

/-!
# Model of `statistics/signal/spectrum.py`

`power_spectra` is two library calls; both are modelled after the scipy sources (`scipy.signal.windows.hann`,
`scipy.signal.welch` with its defaults `detrend='constant'`, `scaling='density'`, `average='mean'`, no padding).
Simplifications: 1-D real data, `fs ≠ 0` (a zero Python float would raise ZeroDivisionError in `1 / fs`).
-/

namespace Proadv.Spectrum

open Proadv Proadv.Bivariate

variable {F : Type} [PyMath F]

/-- `hann(M, True)` (library, called at spectrum.py:24): `0.5 * cos(0 * fac) + 0.5 * cos(1 * fac)` for `fac` equally
spaced from `-pi` to `pi`; ones for `M ≤ 1`, ValueError for negative `M`. -/
def hann (M : Int) : Py (List F) :=
  if M < 0 then .error .valueError
  else if M ≤ 1 then .ok (List.replicate M.toNat (lit 1))
  else .ok ((List.range M.toNat).map (fun i =>
    let fac := if i + 1 = M.toNat then PyMath.pi
      else ofNat i *. ((PyMath.pi -. PyNum.neg PyMath.pi) /. ofNat (M.toNat - 1)) +. PyNum.neg PyMath.pi
    lit 0 +. lit (1 / 2) *. PyMath.cos (ofNat 0 *. fac) +. lit (1 / 2) *. PyMath.cos (ofNat 1 *. fac)))

/-- `detrend='constant'` (library): a segment minus its mean — spectrum.py:27. -/
def detrend (seg : List F) : List F := seg.map (fun v => v -. npMean seg)

/-- `conj(X) * X` of the windowed, detrended segment at frequency number `k` (library) — spectrum.py:27. -/
def power (win seg : List F) (k : Nat) : F :=
  let r := fftEntry (List.zipWith (fun w v => w *. v) win (detrend seg)) k
  r.1 *. r.1 -. PyNum.neg r.2 *. r.2

/-- number of segments: `(n - noverlap) // (nperseg - noverlap)` (library) — spectrum.py:27. -/
def count (n : Nat) (overlap : Int) (block : Nat) : Nat := (((n : Int) - overlap) / ((block : Int) - overlap)).toNat

/-- segment `j` (library) — spectrum.py:27. -/
def segment (x : List F) (overlap : Int) (block j : Nat) : List F :=
  (x.drop (j * ((block : Int) - overlap).toNat)).take block

/-- entries of a one-sided spectrum that are doubled: all but the mean and, for even `n`, the Nyquist entry (library)
— spectrum.py:27. -/
def doubled (n k : Nat) : Bool := decide (1 ≤ k ∧ (n % 2 = 1 ∨ k + 1 < n / 2 + 1))

/-- `rfftfreq(n, 1 / fs)`, `fftfreq(n, 1 / fs)` (library) — spectrum.py:27. -/
def freqs (n : Nat) (fs : F) (onesided : Bool) : List F :=
  let val := lit 1 /. (ofNat n *. (lit 1 /. fs))
  if onesided then (List.range (n / 2 + 1)).map (fun k => ofNat k *. val)
  else (List.range n).map (fun k => lit (if k < (n - 1) / 2 + 1 then (k : ℚ) else (k : ℚ) - n) *. val)

/-- scaled power of segment `j` at frequency number `k` (library) — spectrum.py:27. -/
def scaled (x : List F) (fs : F) (win : List F) (overlap : Int) (onesided : Bool) (k j : Nat) : F :=
  let p := power win (segment x overlap win.length j) k *. (lit 1 /. (fs *. PyNum.sum (win.map (fun w => w *. w))))
  if onesided && doubled win.length k then p *. lit 2 else p

/-- the average over the segments (library); a single segment is taken as it is — spectrum.py:27. -/
def average (l : List F) : F :=
  match l with
  | [v] => v
  | _ => npMean l

/-- `welch(x, fs, window=win, noverlap=overlap, nfft=len(win), return_onesided=onesided)` (library, called at
spectrum.py:27). -/
def welch (x : List F) (fs : F) (win : List F) (overlap : Int) (onesided : Bool) : Py (List F × List F) :=
  if x.isEmpty then .ok ([], [])
  else if x.length < win.length then .error .valueError
  else if (win.length : Int) ≤ overlap then .error .valueError
  else if win.length = 0 then .error .zeroDivisionError
  else .ok (freqs win.length fs onesided,
    (List.range (if onesided then win.length / 2 + 1 else win.length)).map (fun k =>
      average ((List.range (count x.length overlap win.length)).map (scaled x fs win overlap onesided k))))

/-- `power_spectra` — spectrum.py:5-29. -/
def powerSpectra (x : List F) (fs : F) (overlap block : Int) (onesided : Bool) : Py (List F × List F) := do
  let win ← hann block
  welch x fs win overlap onesided

end Proadv.Spectrum
