import Verif.Model.Descriptive

/-!
# Model of `proadv/statistics/series.py`
-/

namespace Proadv.Series

open Proadv Proadv.Descriptive

variable {F : Type}

section Num
variable [PyNum F]

/-- One pass of the second loop of `moving_average` — series.py:66-76, at index `i`. -/
def maStep (data : List F) (w : Nat) (ma : List F) (i : Nat) : List F :=
  ma ++ [ma.getD (i - 1) PyNum.nan +.
    (data.getD i PyNum.nan -. data.getD (i - w) PyNum.nan) /. ofNat w]

/-- `series.moving_average` — series.py:5-78: guards 46-56 in order, first loop 61-63, second loop 66-76.
`ma` is a float array (58); it is represented by its already filled prefix.  `mean` of an int64 slice takes the
branch 209-223 of `mean` instead of 200-206, with the same value, so the model calls `meanOf` for both dtypes. -/
def movingAverage (data : Arr F) (windowSize : Int) : Py (List F) :=
  if windowSize ≤ 0 then .error .valueError
  else if data.data.length = 0 then .ok []
  else if data.ndim ≠ 1 then .error .valueError
  else if (data.data.length : Int) < windowSize then .error .valueError
  else do
    let w := windowSize.toNat
    let ma ← (List.range w).mapM (fun i => meanOf (data.data.take (i + 1)))
    .ok ((List.range (data.data.length - w)).foldl (fun ma t => maStep data.data w ma (w + t)) ma)

/-- Loop of `exponential_moving_average` — series.py:127-137; `isInt` is the dtype of `np.zeros_like(data)` (121). -/
def emaLoop (isInt : Bool) (alpha : F) : F → List F → List F
  | _, [] => []
  | prev, x :: t =>
    let y := store isInt (alpha *. x +. (lit 1 -. alpha) *. prev)
    y :: emaLoop isInt alpha y t

/-- `series.exponential_moving_average` — series.py:81-139: alpha check 117-118, first sample 124 (IndexError on an
empty array), loop.  Simplification: 1-D arrays only (no ndim check in the code). -/
def exponentialMovingAverage (data : Arr F) (alpha : F) : Py (List F) :=
  if (alpha ≤. lit 0) || (lit 1 <. alpha) then .error .valueError
  else match data.data with
    | [] => .error .indexError
    | x :: t => .ok (x :: emaLoop data.isInt alpha x t)

/-- Result of `weighted_moving_average`: a numpy array, or still the Python list `[]` of line 188 when the loop body
never ran — series.py:188, 198. -/
structure WmaOut (F : Type) where
  isPyList : Bool
  data : List F
  deriving DecidableEq

/-- One window of `weighted_moving_average` — series.py:195-196, `i` is the exclusive end of the window. -/
def wmaAt (data : List F) (p i : Nat) : F :=
  let weight := (List.range p).map (fun j => j + 1)
  PyNum.sum (List.zipWith (fun (w : Nat) x => ofNat w *. x) weight (slice data (i - p) i)) /. ofNat weight.sum

/-- `series.weighted_moving_average` — series.py:142-198: guards 182-186, loop 190-197. -/
def weightedMovingAverage (data : List F) (period : Int) : Py (WmaOut F) :=
  if period ≤ 0 then .error .valueError
  else if (data.length : Int) < period then .error .valueError
  else
    let p := period.toNat
    let out := (List.range (data.length - p)).map (fun t => wmaAt data p (p + t))
    .ok ⟨out.isEmpty, out⟩

/-- `np.linalg.inv` of a 1x1 matrix: LinAlgError exactly when the entry is zero — series.py:386. -/
def inv1 (s : F) : Py F := if s ==. lit 0 then .error .linAlgError else .ok (lit 1 /. s)

/-- One measurement of `kalman_filter` — series.py:381-388; state `(estimate, covariance)`.
Simplification: all matrices are 1x1 (as in the docstring), `A = H = [[1]]`. -/
def kalmanStep (q r : F) (st : F × F) (z : F) : Py (F × F) := do
  let predictedState := lit 1 *. st.1
  let predictedCov := (lit 1 *. st.2) *. lit 1 +. q
  let i ← inv1 ((lit 1 *. predictedCov) *. lit 1 +. r)
  let gain := (predictedCov *. lit 1) *. i
  let x := predictedState +. gain *. (z -. lit 1 *. predictedState)
  let p := (lit 1 -. gain *. lit 1) *. predictedCov
  .ok (x, p)

/-- Loop of `kalman_filter` — series.py:380-390: the successive `(estimate, covariance)` pairs. -/
def kalmanLoop (q r : F) : F × F → List F → Py (List (F × F))
  | _, [] => .ok []
  | st, z :: t => do
    let st' ← kalmanStep q r st z
    let rest ← kalmanLoop q r st' t
    .ok (st' :: rest)

/-- `series.kalman_filter` — series.py:341-392: list of state estimates (390, 392). -/
def kalmanFilter (data : List F) (x0 p0 q r : F) : Py (List F) := do
  let l ← kalmanLoop q r (x0, p0) data
  .ok (l.map Prod.fst)

/-- A 2-D float array: shape and entries — series.py:316. -/
structure Mat (F : Type) where
  rows : Nat
  cols : Nat
  get : Nat → Nat → F

/-- `m[r, c]` for non-negative indices — series.py:267, 274, 281. -/
def Mat.at (m : Mat F) (r c : Nat) : Py F := if r < m.rows ∧ c < m.cols then .ok (m.get r c) else .error .indexError

/-- `m.conj().T` of a real matrix — series.py:261, 321, 337. -/
def Mat.tr (m : Mat F) : Mat F := ⟨m.cols, m.rows, fun r c => m.get c r⟩

/-- `a @ b` — series.py:321, 337. -/
def Mat.mul (a b : Mat F) : Mat F :=
  ⟨a.rows, b.cols, fun r c => PyNum.sum ((List.range a.cols).map (fun t => a.get r t *. b.get t c))⟩

/-- `a[:, idx]` — series.py:337. -/
def Mat.colsAt (a : Mat F) (idx : List Nat) : Mat F := ⟨a.rows, idx.length, fun r c => a.get r (idx.getD c 0)⟩

/-- Inner loops of `_diagonal_average` (`total += transformed_data[j, i - j]`) over `js`
— series.py:265-267, 272-274, 279-281. -/
def diagTotal (m : Mat F) (i : Nat) (js : List Nat) : Py F :=
  js.foldlM (fun total j => do let v ← m.at j (i - j); .ok (total +. v)) (lit 0)

/-- `series._diagonal_average` — series.py:228-286.  The three loops are 264-268, 271-275, 278-282; `frequencies` is
zero-initialised (244); rounding at 285.  `1 / n * total` is computed as `(1 / n) * total`.  The loop variable `i` of the
first two loops is one more than the position written.  Simplification: `k < 0` (never passed by `ssa`, the only caller)
is an error. -/
def diagonalAverage (matrix : Mat F) (length size : Nat) : Py (List F) := do
  let k : Int := size - length + 1
  if k < 0 then .error .valueError
  else
    let k := k.toNat
    let minL := Nat.min length k
    let maxL := Nat.max length k
    let m := if length < k then matrix else matrix.tr
    let freq := List.replicate size (lit 0 : F)
    let freq ← (List.range (minL - 1)).foldlM (fun freq t => do
      let i := t + 1
      let total ← diagTotal m (i - 1) (List.range i)
      setIdx freq ((i : Int) - 1) ((lit 1 /. ofNat i) *. total)) freq
    let freq ← (List.range (maxL + 1 - minL)).foldlM (fun freq t => do
      let i := minL + t
      let total ← diagTotal m (i - 1) (List.range minL)
      setIdx freq ((i : Int) - 1) ((lit 1 /. ofNat minL) *. total)) freq
    let freq ← (List.range (size - maxL)).foldlM (fun freq t => do
      let i := maxL + t
      let total ← diagTotal m i ((List.range (size - i)).map (fun s => i - maxL + 1 + s))
      setIdx freq (i : Int) ((lit 1 /. ofNat (size - i)) *. total)) freq
    .ok (freq.map (fun x => PyNum.around x 4))

/-- Trajectory matrix — series.py:316-318: column `i` is `x[i : i+L]`. -/
def trajectory (x : List F) (l k : Nat) : Mat F := ⟨l, k, fun r c => x.getD (c + r) PyNum.nan⟩

end Num

section Math
variable [PyMath F]

/-- `np.linalg.norm` of a vector — series.py:218, 221. -/
def norm2 (l : List F) : F := PyMath.sqrt (PyNum.sum (l.map (fun x => x *. x)))

/-- `series._mobility` — series.py:201-225. -/
def mobility (x : List F) : Py F :=
  let n := x.length
  if n < 2 then .error .valueError
  else
    let arr := PyNum.around (norm2 x /. ofNat n) 4
    let der := norm2 (diff x) /. ofNat (n - 1)
    .ok (der /. arr)

/-- `series.ssa` — series.py:289-338.  Parameters standing for library code: `ceilInt` is `int(np.ceil(·))` (311),
`eigh` is the eigenvector matrix of `np.linalg.eigh` (324).  `np.zeros((L, k))` raises ValueError for a negative
dimension (316). -/
def ssa (ceilInt : F → Py Int) (eigh : Mat F → Py (Mat F)) (x : List F) (fs f : F) : Py (List F) := do
  let l ← ceilInt (fs /. f)
  let n := x.length
  let k : Int := n - l + 1
  if l < 0 ∨ k < 0 then .error .valueError
  else
    let l := l.toNat
    let k := k.toNat
    let traj := trajectory x l k
    let cov := traj.mul traj.tr
    let e ← eigh cov
    let mob ← (List.range l).mapM (fun i => mobility ((List.range l).map (fun r => e.get r i)))
    let thresh ← mobility ((List.range l).map (fun t => PyMath.sin (lit 2 *. PyMath.pi *. ofNat t *. f /. fs)))
    let arg := whereTrue (mob.map (fun m => m ≤. thresh))
    let sel := e.colsAt arg
    diagonalAverage ((sel.mul sel.tr).mul traj) l n

end Math

end Proadv.Series
