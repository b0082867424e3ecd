import Verif.Model.Spread
import Verif.Model.Detect

/-!
# Model of `filtration/detection/bivariatekernel.py` and `filtration/detection/trivariatekernel.py`

The density estimate is a parameter of `kernel`; `kdeGrid` is the one the code computes, written after the scipy
sources of `gaussian_kde`, `gaussian_kernel_estimate`, and `linalg.cholesky`/`solve_triangular`.
-/

namespace Proadv.KernelDetect

open Proadv Proadv.Spread Proadv.Detect

variable {F : Type}

section Num
variable [PyNum F]

/-- `_derivative` — bivariatekernel.py:56-63: the one-sided difference of smaller absolute value (backward on ties). -/
def minmod (data : List F) : List F :=
  (List.range data.length).map (fun i =>
    if 1 ≤ i ∧ i + 1 < data.length then
      if PyNum.abs (data.getD (i + 1) PyNum.nan -. data.getD i PyNum.nan) <.
          PyNum.abs (data.getD i PyNum.nan -. data.getD (i - 1) PyNum.nan)
      then data.getD (i + 1) PyNum.nan -. data.getD i PyNum.nan
      else data.getD i PyNum.nan -. data.getD (i - 1) PyNum.nan
    else lit 0)

/-- `delta_force` — bivariatekernel.py:32, trivariatekernel.py:436; a scalar density is a length-1 list. -/
def deltaForce (density force : List F) (grid : Nat) : Py (List F) :=
  bcast (fun d q => d /. q) ((lit 0 :: diff force).map (fun d => d *. ofNat grid)) density

/-- the condition of bivariatekernel.py:36 and 44 at index `i`. -/
def qualifies (c1 c2 : F) (force delta : List F) (peak : Int) (i : Int) : Py Bool := do
  let fi ← getIdx force i
  let fp ← getIdx force peak
  if (fi /. fp) ≤. c1 then do
    let d ← getIdx delta i
    .ok (PyNum.abs d ≤. c2)
  else .ok false

/-- a `for … if …: index = i; break … else: index = default` loop — bivariatekernel.py:35-48. -/
def searchLoop (cond : Int → Py Bool) (dflt : Int) : List Int → Py Int
  | [] => .ok dflt
  | i :: t => do
    let b ← cond i
    if b then .ok i else searchLoop cond dflt t

/-- `range(peak - 1, 0, -1)` — bivariatekernel.py:35. -/
def downRange (peak : Int) : List Int := (List.range (peak - 1).toNat).map (fun k : Nat => peak - 1 - (k : Int))

/-- `range(peak + 1, n - 1)` — bivariatekernel.py:43. -/
def upRange (peak : Int) (n : Nat) : List Int :=
  (List.range ((n : Int) - 1 - (peak + 1)).toNat).map (fun k : Nat => peak + 1 + (k : Int))

/-- `_cutoff` — bivariatekernel.py:4-53 and trivariatekernel.py:408-457 (identical code). -/
def cutoff (density velocity : List F) (c1 c2 : F) (force : List F) (peak : Int) (grid : Nat) : Py (F × F) := do
  let delta ← deltaForce density force grid
  let lower ← searchLoop (qualifies c1 c2 force delta peak) 1 (downRange peak)
  let upper ← searchLoop (qualifies c1 c2 force delta peak) ((force.length : Int) - 1) (upRange peak force.length)
  let lv ← getIdx velocity lower
  let uv ← getIdx velocity upper
  .ok (lv, uv)

/-- One loop of `_derivatives` — trivariatekernel.py:27-28 (and 31-32); the arrays are `np.zeros_like(data)`. -/
def centralDiff3 (isInt : Bool) (c : List F) : List F :=
  (List.range c.length).map (fun i =>
    if 1 ≤ i ∧ i + 1 < c.length then
      store isInt ((c.getD (i + 1) PyNum.nan -. c.getD (i - 1) PyNum.nan) /. lit 2)
    else lit 0)

/-- `_derivatives` — trivariatekernel.py:8-34. -/
def derivatives (c : Arr F) : List F × List F :=
  (centralDiff3 c.isInt c.data, centralDiff3 c.isInt (centralDiff3 c.isInt c.data))

end Num

variable [PyMath F]

/-- `_rotation` — trivariatekernel.py:37-58 (arrays of equal length). -/
def rotation (u w : List F) : F :=
  PyMath.arctan2
    (ofNat u.length *. PyNum.sum (List.zipWith (fun x y => x *. y) u w) -. PyNum.sum u *. PyNum.sum w)
    (ofNat u.length *. PyNum.sum (u.map (fun x => x *. x)) -. PyNum.sum u *. PyNum.sum u)

/-- `_transform` at one sample — trivariatekernel.py:77-78. -/
def transform (theta x y : F) : F × F :=
  (x *. PyMath.cos theta +. y *. PyMath.sin theta,
    PyNum.neg x *. PyMath.sin theta +. y *. PyMath.cos theta)

/-- numpy's `min` of a non-empty array (NaN if any entry is NaN) — trivariatekernel.py:98, 100. -/
def npMin (l : List F) : Py F :=
  match l with
  | [] => .error .valueError
  | x :: t => .ok (if (x :: t).any PyNum.isNaN then PyNum.nan else t.foldl (fun m y => if y <. m then y else m) x)

/-- numpy's `max` of a non-empty array (NaN if any entry is NaN) — trivariatekernel.py:99, 101, 401. -/
def npMax (l : List F) : Py F :=
  match l with
  | [] => .error .valueError
  | x :: t => .ok (if (x :: t).any PyNum.isNaN then PyNum.nan else t.foldl (fun m y => if m <. y then y else m) x)

/-- one axis of `np.mgrid[lo:hi:grid*1j]` — trivariatekernel.py:104 with `_profile` (122): `grid` equally spaced points
(numpy uses step 1 for a single point). -/
def gridAxis (lo hi : F) (grid : Nat) : List F :=
  if grid = 1 then [ofNat 0 *. ofNat 1 +. lo] else (List.range grid).map (fun i => ofNat i *. ((hi -. lo) /. ofNat (grid - 1)) +. lo)

/-- first array of the mesh — trivariatekernel.py:104: the coordinate of the first axis, constant along each row. -/
def meshX (uf wf : List F) : List (List F) := uf.map (fun x => wf.map (fun _ => x))

/-- second array of the mesh — trivariatekernel.py:104: every row is the second axis. -/
def meshY (uf wf : List F) : List (List F) := uf.map (fun _ => wf)

/-- `row[0]` — trivariatekernel.py:122. -/
def firstEntry : List F → Py F
  | [] => .error .indexError
  | x :: _ => .ok x

/-- `_profile` — trivariatekernel.py:122: `meshgrid_x[:, 0], meshgrid_y[0, :]`.  Matrices are lists of rows; both indexings of a
mesh without points are an IndexError. -/
def profile (mx my : List (List F)) : Py (List F × List F) := do
  let uf ← mx.mapM firstEntry
  match my with
  | [] => .error .indexError
  | row :: _ => .ok (uf, row)

/-- `_factor` — trivariatekernel.py:163. -/
def factor (rows : Nat) (cols : F) : F := PyMath.rpow cols (lit (-1) /. ofNat (rows + 4))

/-- `_weight` — trivariatekernel.py:180. -/
def weight (cols : Nat) : List F := List.replicate cols (lit 1 /. ofNat cols)

/-- `net` — trivariatekernel.py:254: `np.power(np.sum(weight ** 2), -1)`. -/
def net (cols : Nat) : F := PyMath.rpow (PyNum.sum ((weight (F := F) cols).map (fun w => w ^. 2))) (lit (-1))

/-- entry `(x, y)` of `np.cov(data, rowvar=1, bias=False, aweights=w)` — trivariatekernel.py:198; numpy's formula:
weighted averages, `fact = w_sum - sum(w * w) / w_sum`, `sum(dx * (dy * w)) * (1 / fact)`. -/
def covEntry (w x y : List F) : F :=
  let ws := PyNum.sum w
  let ax := PyNum.sum (List.zipWith (fun a b => a *. b) x w) /. ws
  let ay := PyNum.sum (List.zipWith (fun a b => a *. b) y w) /. ws
  let f := ws -. PyNum.sum (w.map (fun a => a *. a)) /. ws
  PyNum.sum (List.zipWith (fun a b => a *. b) (x.map (fun a => a -. ax))
    (List.zipWith (fun a b => a *. b) (y.map (fun a => a -. ay)) w)) *. (lit 1 /. f)

/-- the dictionary returned by `_covariance` — trivariatekernel.py:270-277. -/
structure Compute (F : Type) where
  factor : F
  weight : List F
  net : F
  covariance : List (List F)
  cholesky : List (List F)
  log : F

/-- `_determination` — trivariatekernel.py:232: `np.diag` of the scaled square matrix. -/
def determination (m : List (List F)) : F :=
  lit 2 *. PyNum.sum ((List.range m.length).map (fun i =>
    PyMath.log ((m.getD i []).getD i PyNum.nan *. PyMath.sqrt (PyMath.pi *. lit 2))))

/-- the covariance matrix of the rows — trivariatekernel.py:198, 258. -/
def covMatrix (rows : List (List F)) (cols : Nat) : List (List F) :=
  rows.map (fun x => rows.map (fun y => covEntry (weight cols) x y))

/-- `_covariance` — trivariatekernel.py:235-279.  `chol` is `linalg.cholesky` (upper factor), which may raise.  The
assignment of a dtype at 264 changes nothing for float64 data. -/
def covarianceDict (chol : List (List F) → Py (List (List F))) (rows : List (List F)) (cols : Nat) : Py (Compute F) := do
  let w : List F := weight cols
  let n : F := net cols
  let f : F := factor rows.length n
  let cov := covMatrix rows cols
  let sky ← chol cov
  let cholesky := sky.map (fun r => r.map (fun v => v *. f))
  .ok ⟨f, w, n, cov.map (fun r => r.map (fun v => v *. f ^. 2)), cholesky, determination cholesky⟩

/-- `_density` — trivariatekernel.py:307-327: size and shape checks, then `_covariance`.  The data is a list of rows of
`cols` entries. -/
def density (chol : List (List F) → Py (List (List F))) (rows : List (List F)) (cols : Nat) : Py (Compute F) :=
  if rows.length * cols = 0 then .error .valueError
  else if cols < rows.length then .error .valueError
  else covarianceDict chol rows cols

/-- `scipy.linalg.cholesky` of a 2×2 matrix (library; upper factor, reads the upper triangle): ValueError for a
non-finite entry, LinAlgError unless positive definite — trivariatekernel.py:215. -/
def chol2 (m : List (List F)) : Py (List (List F)) :=
  if !(m.all (fun r => r.all (fun v => (v -. v) ==. lit 0))) then .error .valueError
  else match m with
    | [[a, b], [_, c]] =>
      if lit 0 <. a then
        let r := PyMath.sqrt a
        let s := b /. r
        let t := c -. s *. s
        if lit 0 <. t then .ok [[r, s], [lit 0, PyMath.sqrt t]] else .error .linAlgError
      else .error .linAlgError
    | _ => .error .linAlgError

/-- `scipy.linalg.solve_triangular(L, b, lower=True)` (library): forward substitution — trivariatekernel.py:380-386. -/
def solveLower (L : List (List F)) (b : List F) : List F :=
  (List.zip L b).foldl (fun y (rb : List F × F) =>
    y ++ [(rb.2 -. PyNum.sum (List.zipWith (fun p q => p *. q) rb.1 y)) /. rb.1.getD y.length PyNum.nan]) []

/-- `(2π)^(-d/2) / (L₀₀ L₁₁ …)`, the normalisation inside scipy's `gaussian_kernel_estimate` (library)
— trivariatekernel.py:380-386. -/
def gkeNorm (L : List (List F)) : F :=
  (List.range L.length).foldl (fun a i => a /. (L.getD i []).getD i PyNum.nan)
    (PyMath.rpow (lit 2 *. PyMath.pi) (PyNum.neg (ofNat L.length) /. lit 2))

/-- scipy's `gaussian_kernel_estimate['double'](points, values, xi, L, …)[:, 0]` (library, called at
trivariatekernel.py:380-386 and inside `gaussian_kde.__call__` at 484): whiten points and nodes by the lower triangular
`L`, sum the weighted Gaussians. -/
def gke (points : List (List F)) (weights : List F) (xi : List (List F)) (L : List (List F)) : List F :=
  xi.map (fun x => (List.zipWith (fun p w =>
      w *. (PyMath.exp (PyNum.neg ((List.zipWith (fun a b => (a -. b) *. (a -. b)) (solveLower L p) (solveLower L x)).foldl
        (fun a b => a +. b) (lit 0)) /. lit 2) *. gkeNorm L)) points weights).foldl (fun a b => a +. b) (lit 0))

/-- `A.T` of a square matrix — trivariatekernel.py:362. -/
def transposed (m : List (List F)) : List (List F) :=
  (List.range m.length).map (fun j => m.map (fun r => r.getD j PyNum.nan))

/-- `positions.T` of `_position` — trivariatekernel.py:142, 362: the nodes of the mesh of 104 in row-major order (`ravel`),
first coordinate along the rows. -/
def positions (uf wf : List F) : List (List F) := uf.flatMap (fun x => wf.map (fun y => [x, y]))

/-- `_evolve` and `_extraction` — trivariatekernel.py:346-386, for a data set of two rows given as points.
`np.common_type` of float64 arrays selects the 'double' kernel (282-304). -/
def evolve (pts : List (F × F)) (pos : List (List F)) (c : Compute F) : List F :=
  gke (pts.map (fun p => [p.1, p.2])) c.weight pos (transposed c.cholesky)

/-- `np.reshape(…, (grid, grid))` — trivariatekernel.py:343, 484. -/
def reshape (grid : Nat) (l : List F) : List (List F) :=
  (List.range grid).map (fun i => (l.drop (i * grid)).take grid)

/-- the density on the grid — trivariatekernel.py:480-484 (the part that concerns the returned indices): `_density` on
the rotated points, then `kde(values)(positions)`.  scipy's `gaussian_kde` computes the same weights, Scott factor,
covariance and Cholesky factor as `_covariance`, and evaluates with the same compiled kernel, on the rotated points. -/
def kdeGrid (chol : List (List F) → Py (List (List F))) (grid : Nat) (pts : List (F × F)) (uf wf : List F) :
    Py (List (List F)) := do
  let c ← density chol [pts.map Prod.fst, pts.map Prod.snd] pts.length
  .ok (reshape grid (evolve pts (positions uf wf) c))

/-- the first position (row-major) of the maximum — `_peak`, trivariatekernel.py:401-402; an empty `np.where`
(NaN maximum) makes `[0][0]` an IndexError. -/
def peakPos (pdf : List (List F)) : Py (F × Nat × Nat) := do
  let m ← npMax pdf.flatten
  match (List.range pdf.length).findSome? (fun i =>
      ((pdf.getD i []).findIdx? (fun v => v ==. m)).map (fun j => (i, j))) with
  | none => .error .indexError
  | some (i, j) => .ok (m, i, j)

/-- rho of trivariatekernel.py:493-497 at one rotated point: centred at the mid-points of the cutoffs, half-axes
`upper - mid-point`. -/
def kernelRho (ul uu wl wu ut wt : F) : F :=
  ((ut -. lit (1 / 2) *. (uu +. ul)) /. (uu -. lit (1 / 2) *. (uu +. ul))) ^. 2 +.
  ((wt -. lit (1 / 2) *. (wu +. wl)) /. (wu -. lit (1 / 2) *. (wu +. wl))) ^. 2

/-- the cutoff part of `kernel` — trivariatekernel.py:485-492, for the grid density `pdf`, giving `(ul, uu, wl, wu)`. -/
def kernelCutoffs (u w : List F) (grid : Nat) (uf wf : List F) (pdf : List (List F)) : Py (F × F × F × F) := do
  let (peak, up, wp) ← peakPos pdf
  let su ← std (Arr.flt u)
  let sw ← std (Arr.flt w)
  let cu := lambdaOf u.length *. su /. PyMath.sqrt (ofNat u.length)
  let cw := lambdaOf u.length *. sw /. PyMath.sqrt (ofNat u.length)
  let (ul, uu) ← cutoff [peak] uf cu cu (pdf.map (fun r => r.getD wp PyNum.nan)) up grid
  let (wl, wu) ← cutoff [peak] wf cw cw (pdf.getD up []) wp grid
  .ok (ul, uu, wl, wu)

/-- the rotated samples — trivariatekernel.py:476-477. -/
def rotated (u w : List F) : List (F × F) := List.zipWith (transform (rotation u w)) u w

/-- `kernel` (index part) — trivariatekernel.py:460-500.  `kde` is the density estimate reshaped to the grid (484)
together with everything in 480-483 that may raise (`_density`, `linalg.cholesky`, the scipy kernels); it may depend on the
rotated data and the grid axes. -/
def kernel (kde : List (F × F) → List F → List F → Py (List (List F))) (u w : List F) (grid : Nat) :
    Py (List Nat) := do
  let pts := rotated u w
  let xmin ← npMin (pts.map Prod.fst)
  let xmax ← npMax (pts.map Prod.fst)
  let ymin ← npMin (pts.map Prod.snd)
  let ymax ← npMax (pts.map Prod.snd)
  let ax := gridAxis xmin xmax grid
  let ay := gridAxis ymin ymax grid
  let (uf, wf) ← profile (meshX ax ay) (meshY ax ay)
  let pdf ← kde pts uf wf
  let (ul, uu, wl, wu) ← kernelCutoffs u w grid uf wf pdf
  .ok (outside (pts.map (fun p => kernelRho ul uu wl wu p.1 p.2)))

/-- `kernel` with both results — trivariatekernel.py:460-500: indices, and the `estimation` of 482-483, which evaluates
the kernels of the rotated data (`evals`) at the *unrotated* data set (475). -/
def kernelBoth (chol : List (List F) → Py (List (List F))) (u w : List F) (grid : Nat) :
    Py (List Nat × List (List F)) := do
  let pts := rotated u w
  let xmin ← npMin (pts.map Prod.fst)
  let xmax ← npMax (pts.map Prod.fst)
  let ymin ← npMin (pts.map Prod.snd)
  let ymax ← npMax (pts.map Prod.snd)
  let ax := gridAxis xmin xmax grid
  let ay := gridAxis ymin ymax grid
  let (uf, wf) ← profile (meshX ax ay) (meshY ax ay)
  let evals ← density chol [pts.map Prod.fst, pts.map Prod.snd] pts.length
  let estimation := reshape grid (evolve (List.zip u w) (positions uf wf) evals)
  let pdf := reshape grid (evolve pts (positions uf wf) evals)
  let (ul, uu, wl, wu) ← kernelCutoffs u w grid uf wf pdf
  .ok (outside (pts.map (fun p => kernelRho ul uu wl wu p.1 p.2)), estimation)

/-- `three_dimensional_kernel` — trivariatekernel.py:503-521. -/
def threeDimensionalKernel (kde : List (F × F) → List F → List F → Py (List (List F))) (c : Arr F) (grid : Nat) :
    Py (List Nat) := do
  let x1 ← kernel kde c.data (derivatives c).1 grid
  let x2 ← kernel kde c.data (derivatives c).2 grid
  let x3 ← kernel kde (derivatives c).1 (derivatives c).2 grid
  .ok (uniqueNat (x1 ++ x2 ++ x3))

end Proadv.KernelDetect
