import Verif.Model.Series

/-!
# `series.kalman_filter` with arrays of arbitrary shape

`Model/Series.lean` has the filter for 1x1 matrices.  Here the arguments are 2-D arrays of any shape, so that the shape rules
of `np.dot`, of broadcasting and of `np.linalg.inv` decide which calls succeed.  Simplification: the initial state,
covariance and noises are 2-D arrays; a measurement is a scalar (an element of 1-D data, written as a 1x1 array, which
broadcasts the same way) or a row of 2-D data (written as a 1xk array, same remark).
-/

namespace Proadv.Series

open Proadv

variable {F : Type} [PyNum F]

/-- `np.dot(a, b)` of 2-D arrays: ValueError when the inner dimensions differ — series.py:382-388. -/
def Mat.dot (a b : Mat F) : Py (Mat F) := if a.cols = b.rows then .ok (a.mul b) else .error .valueError

/-- numpy's broadcasting rule for one dimension — series.py:382-388. -/
def bdim (m n : Nat) : Py Nat :=
  if m = n then .ok m else if m = 1 then .ok n else if n = 1 then .ok m else .error .valueError

/-- entry of a broadcast operand — series.py:382-388. -/
def Mat.bget (a : Mat F) (i j : Nat) : F := a.get (if a.rows = 1 then 0 else i) (if a.cols = 1 then 0 else j)

/-- element-wise operation on two 2-D arrays with broadcasting — series.py:382-388. -/
def Mat.bop (f : F → F → F) (a b : Mat F) : Py (Mat F) := do
  let r ← bdim a.rows b.rows
  let c ← bdim a.cols b.cols
  .ok ⟨r, c, fun i j => f (a.bget i j) (b.bget i j)⟩

/-- `np.array([[v]])` — series.py:378-379. -/
def Mat.one (v : F) : Mat F := ⟨1, 1, fun _ _ => v⟩

/-- `np.eye(n)` — series.py:388. -/
def Mat.eye (n : Nat) : Mat F := ⟨n, n, fun i j => if i = j then lit 1 else lit 0⟩

/-- One measurement of `kalman_filter` — series.py:382-388, with `A = H = [[1]]` (378-379); `inv` is `np.linalg.inv`. -/
def kalmanMatStep (inv : Mat F → Py (Mat F)) (q r : Mat F) (st : Mat F × Mat F) (z : Mat F) : Py (Mat F × Mat F) := do
  let one : Mat F := Mat.one (lit 1)
  let predictedState ← one.dot st.1
  let ap ← one.dot st.2
  let apa ← ap.dot one.tr
  let predictedCov ← apa.bop (fun u v => u +. v) q
  let ph ← predictedCov.dot one.tr
  let hp ← one.dot predictedCov
  let hph ← hp.dot one.tr
  let s ← hph.bop (fun u v => u +. v) r
  let i ← inv s
  let gain ← ph.dot i
  let hs ← one.dot predictedState
  let d ← z.bop (fun u v => u -. v) hs
  let gd ← gain.dot d
  let x ← predictedState.bop (fun u v => u +. v) gd
  let gh ← gain.dot one
  let e ← (Mat.eye x.rows).bop (fun u v => u -. v) gh
  let p ← e.dot predictedCov
  .ok (x, p)

/-- Loop of `kalman_filter` — series.py:380-390. -/
def kalmanMatLoop (inv : Mat F → Py (Mat F)) (q r : Mat F) : Mat F × Mat F → List (Mat F) → Py (List (Mat F × Mat F))
  | _, [] => .ok []
  | st, z :: t => do
    let st' ← kalmanMatStep inv q r st z
    let rest ← kalmanMatLoop inv q r st' t
    .ok (st' :: rest)

/-- `series.kalman_filter` — series.py:341-392, arrays of any shape: the list of state estimates. -/
def kalmanMat (inv : Mat F → Py (Mat F)) (data : List (Mat F)) (x0 p0 q r : Mat F) : Py (List (Mat F)) := do
  let l ← kalmanMatLoop inv q r (x0, p0) data
  .ok (l.map Prod.fst)

end Proadv.Series
