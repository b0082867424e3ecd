import Verif.Model.KalmanMat

/-!
# `series.kalman_filter` with scalars, 1-D and 2-D arrays mixed

`Model/KalmanMat.lean` has 2-D arrays only.  Here every argument may be a scalar (0-D), a 1-D or a 2-D array, with numpy's rules for
`np.dot`, broadcasting, `np.linalg.inv` and `len` on such arrays.  Arrays with three or more dimensions are not represented.
-/

namespace Proadv.Series

open Proadv

variable {F : Type} [PyNum F]

/-- a numpy array with at most two dimensions — series.py:374-388. -/
inductive Nd (F : Type) where
  | d0 (v : F)
  | d1 (n : Nat) (get : Nat → F)
  | d2 (m : Mat F)

/-- `x.ndim` — series.py:374-388. -/
def Nd.ndim : Nd F → Nat
  | .d0 _ => 0
  | .d1 _ _ => 1
  | .d2 _ => 2

/-- the array with leading dimensions of length 1 added, as broadcasting does — series.py:374-388. -/
def Nd.up : Nd F → Mat F
  | .d0 v => ⟨1, 1, fun _ _ => v⟩
  | .d1 n f => ⟨1, n, fun _ j => f j⟩
  | .d2 m => m

/-- drop leading dimensions again, down to `n` — series.py:374-388. -/
def Nd.down (n : Nat) (m : Mat F) : Nd F :=
  match n with
  | 0 => .d0 (m.get 0 0)
  | 1 => .d1 m.cols (m.get 0)
  | _ => .d2 m

/-- element-wise operation with broadcasting — series.py:374-388. -/
def Nd.bop (f : F → F → F) (a b : Nd F) : Py (Nd F) := do
  let m ← a.up.bop f b.up
  .ok (Nd.down (Max.max a.ndim b.ndim) m)

/-- multiplication by a scalar — series.py:374-388. -/
def Nd.scale (f : F → F) : Nd F → Nd F
  | .d0 v => .d0 (f v)
  | .d1 n g => .d1 n (fun i => f (g i))
  | .d2 m => .d2 ⟨m.rows, m.cols, fun i j => f (m.get i j)⟩

/-- `np.dot`: multiplication if one operand is a scalar, inner product of two 1-D arrays, otherwise sum over the last axis of the first
and the first axis (1-D) or last but one axis (2-D) of the second operand; ValueError if these differ in length
— series.py:374-388. -/
def Nd.dot : Nd F → Nd F → Py (Nd F)
  | .d0 u, b => .ok (b.scale (fun v => u *. v))
  | a, .d0 v => .ok (a.scale (fun u => u *. v))
  | .d1 n f, .d1 k g => if n = k then .ok (.d0 (PyNum.sum ((List.range n).map (fun t => f t *. g t)))) else .error .valueError
  | .d2 m, .d1 k g =>
    if m.cols = k then .ok (.d1 m.rows (fun i => PyNum.sum ((List.range k).map (fun t => m.get i t *. g t)))) else .error .valueError
  | .d1 n f, .d2 m =>
    if n = m.rows then .ok (.d1 m.cols (fun j => PyNum.sum ((List.range n).map (fun t => f t *. m.get t j)))) else .error .valueError
  | .d2 a, .d2 b => do
    let c ← a.dot b
    .ok (.d2 c)

/-- `np.linalg.inv`: LinAlgError below two dimensions, else `inv` — series.py:386. -/
def Nd.inv (inv : Mat F → Py (Mat F)) : Nd F → Py (Nd F)
  | .d2 m => do
    let i ← inv m
    .ok (.d2 i)
  | _ => .error .linAlgError

/-- `len(x)`: TypeError on a scalar — series.py:388. -/
def Nd.len : Nd F → Py Nat
  | .d0 _ => .error .typeError
  | .d1 n _ => .ok n
  | .d2 m => .ok m.rows

/-- One measurement of `kalman_filter` — series.py:382-388, with `A = H = [[1]]` (378-379); `inv` is `np.linalg.inv` on 2-D arrays. -/
def kalmanNdStep (inv : Mat F → Py (Mat F)) (q r : Nd F) (st : Nd F × Nd F) (z : Nd F) : Py (Nd F × Nd F) := do
  let one : Nd F := .d2 (Mat.one (lit 1))
  let predictedState ← one.dot st.1
  let ap ← one.dot st.2
  let apa ← ap.dot one
  let predictedCov ← apa.bop (fun u v => u +. v) q
  let ph ← predictedCov.dot one
  let hp ← one.dot predictedCov
  let hph ← hp.dot one
  let s ← hph.bop (fun u v => u +. v) r
  let i ← s.inv inv
  let gain ← ph.dot i
  let hs ← one.dot predictedState
  let d ← z.bop (fun u v => u -. v) hs
  let gd ← gain.dot d
  let x ← predictedState.bop (fun u v => u +. v) gd
  let n ← x.len
  let gh ← gain.dot one
  let e ← (Nd.d2 (Mat.eye n)).bop (fun u v => u -. v) gh
  let p ← e.dot predictedCov
  .ok (x, p)

/-- Loop of `kalman_filter` — series.py:380-390. -/
def kalmanNdLoop (inv : Mat F → Py (Mat F)) (q r : Nd F) : Nd F × Nd F → List (Nd F) → Py (List (Nd F × Nd F))
  | _, [] => .ok []
  | st, z :: t => do
    let st' ← kalmanNdStep inv q r st z
    let rest ← kalmanNdLoop inv q r st' t
    .ok (st' :: rest)

/-- `series.kalman_filter` — series.py:341-392: the list of state estimates.  The elements of 1-D data are scalars, those of 2-D data 1-D
arrays. -/
def kalmanNd (inv : Mat F → Py (Mat F)) (data : List (Nd F)) (x0 p0 q r : Nd F) : Py (List (Nd F)) := do
  let l ← kalmanNdLoop inv q r (x0, p0) data
  .ok (l.map Prod.fst)

end Proadv.Series
