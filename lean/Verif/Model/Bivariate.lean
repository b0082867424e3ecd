import Verif.Model.KernelDetect

/-!
# Model of `kernel/bivariate.py`

`scipy.optimize.brentq` and `fminbound` are parameters (external library).  `np.fft.fft` is its defining sum.
A two-row data array is a pair of lists of equal length (one per row).
-/

namespace Proadv.Bivariate

open Proadv Proadv.KernelDetect

variable {F : Type}

/-- `a[::2]` — bivariate.py:157. -/
def everyOther {α : Type} : List α → List α
  | [] => []
  | [a] => [a]
  | a :: _ :: t => a :: everyOther t

variable [PyMath F]

/-! ## Scaling and binning -/

/-- `_scaling` of one row — bivariate.py:48-52: `(max, min, scale)`. -/
def scaling (row : List F) : Py (F × F × F) := do
  let mx ← npMax row
  let mn ← npMin row
  .ok (mx, mn, mx -. mn)

/-- `_transform` of one row — bivariate.py:74-78. -/
def transform1 (row : List F) (mn scale : F) : List F := row.map (fun x => (x -. mn) /. scale)

/-- `np.linspace(0, 1, grid + 1)` — bivariate.py:129: `i * step + start`, the last point set to the stop value. -/
def edges (grid : Nat) : List F :=
  (List.range (grid + 1)).map (fun i =>
    if i = grid ∧ 0 < grid then lit 1 else ofNat i *. (lit 1 /. ofNat grid) +. lit 0)

/-- `np.digitize(x, hist, 1)` followed by `np.minimum(…, grid - 1)` — bivariate.py:133-134: the number of edges strictly
below `x` (numpy orders NaN last). -/
def bin (grid : Nat) (x : F) : Nat :=
  Min.min ((edges (F := F) grid).countP (fun e => PyNum.isNaN x || (e <. x))) (grid - 1)

/-- `accum[i, j] += v` — bivariate.py:103. -/
def addAt (m : List (List F)) (i j : Nat) (v : F) : List (List F) :=
  m.modify i (fun r => r.modify j (fun a => a +. v))

/-- `_accumarray` for two columns of in-range subscripts — bivariate.py:99-105. -/
def accumarray (subs : List (Nat × Nat)) (vals : List F) (n m : Nat) : List (List F) :=
  (List.zip subs vals).foldl (fun acc sv => addAt acc sv.1.1 sv.1.2 sv.2) (List.replicate n (List.replicate m (lit 0)))

/-- `_histogram` of two columns — bivariate.py:123-139.  With `grid = 0` the subscript -1 is out of range (IndexError). -/
def histogram (tx ty : List F) (grid : Nat) : Py (List (List F)) :=
  if grid = 0 then .error .indexError
  else
    let subs := List.zip (tx.map (bin grid)) (ty.map (bin grid))
    .ok ((accumarray subs (List.replicate subs.length (lit 1)) grid grid).map (fun r => r.map (fun a => a /. ofNat subs.length)))

/-! ## Cosine transform -/

/-- `a.T` — bivariate.py:191, 435. -/
def transpose (m : List (List F)) : List (List F) :=
  (List.range (m.headD []).length).map (fun j => m.map (fun r => r.getD j PyNum.nan))

/-- row reordering of `_discrete_cosine_1d` — bivariate.py:157. -/
def reorder {α : Type} (rows : List α) : List α := everyOther rows ++ everyOther rows.reverse

/-- entry `j` of `np.fft.fft(row)`: real and imaginary part — bivariate.py:160. -/
def fftEntry (row : List F) (j : Nat) : F × F :=
  let ang := fun k : Nat => lit (-2) *. PyMath.pi *. ofNat (j * k) /. ofNat row.length
  (PyNum.sum (row.mapIdx (fun k x => x *. PyMath.cos (ang k))), PyNum.sum (row.mapIdx (fun k x => x *. PyMath.sin (ang k))))

/-- the weights — bivariate.py:186-187: real and imaginary parts of `[1, 2 exp(-1j i pi / (2 rows))…]`. -/
def weights (rows : Nat) : List (F × F) :=
  (lit 1, lit 0) :: (List.range (rows - 1)).map (fun i =>
    (lit 2 *. PyMath.cos (PyNum.neg (ofNat (i + 1)) *. PyMath.pi /. ofNat (2 * rows)),
     lit 2 *. PyMath.sin (PyNum.neg (ofNat (i + 1)) *. PyMath.pi /. ofNat (2 * rows))))

/-- index into a broadcast axis of size `n` — bivariate.py:160, 423. -/
def bidx (n i : Nat) : Nat := if n = 1 then 0 else i

/-- `_discrete_cosine_1d` — bivariate.py:157-162.  The weight rows must match the reordered rows (or be a single row, which
broadcasts); a row without entries makes `fft` raise ValueError.  The columns of `weight` agree with the data in all calls. -/
def dct1 (data : List (List F)) (w : List (F × F)) : Py (List (List F)) :=
  let r := reorder data
  if (data.headD []).length = 0 then .error .valueError
  else if r.length ≠ w.length ∧ w.length ≠ 1 then .error .valueError
  else .ok (r.mapIdx (fun i row => (List.range row.length).map (fun j =>
    let wt := w.getD (bidx w.length i) (PyNum.nan, PyNum.nan)
    let f := fftEntry row j
    wt.1 *. f.1 -. wt.2 *. f.2)))

/-- `_discrete_cosine_2d` — bivariate.py:179-193. -/
def dct2 (data : List (List F)) : Py (List (List F)) :=
  if data.length ≠ (data.headD []).length then .error .valueError
  else do
    let a ← dct1 data (weights data.length)
    let b ← dct1 (transpose a) (weights data.length)
    .ok (transpose b)

/-! ## Functionals -/

/-- `np.arange(start, stop, step)` on rationals — bivariate.py:213. -/
def arangeQ (start stop step : ℚ) : List ℚ := (List.range (⌈(stop - start) / step⌉).toNat).map (fun i : Nat => start + i * step)

/-- `_k` — bivariate.py:210-216. -/
def kVal (s : Nat) : F :=
  lit ((-1) ^ s) *. ((arangeQ 1 (2 * (s : ℚ) - 1 + 1 / 10 * 2) 2).foldl (fun a q => a *. lit q) (lit 1))
    /. PyMath.sqrt (lit 2 *. PyMath.pi)

/-- inner product of two vectors (`np.matmul`) — bivariate.py:246. -/
def dot (a b : List F) : F := PyNum.sum (List.zipWith (fun x y => x *. y) a b)

/-- the weight vector — bivariate.py:236-237. -/
def psiWeights (time : F) (ic : List F) : List F :=
  List.zipWith (fun x y => x *. y) (ic.map (fun i => PyMath.exp (PyNum.neg i *. (PyMath.pi ^. 2) *. time)))
    (lit 1 :: List.replicate (ic.length - 1) (lit (1 / 2) *. lit 1))

/-- `_psi` — bivariate.py:236-250. -/
def psi (s0 s1 : Nat) (time : F) (ic : List F) (ac2 : List (List F)) : F :=
  let wv := psiWeights time ic
  let wx := List.zipWith (fun x y => x *. y) wv (ic.map (fun i => i ^. s0))
  let wy := List.zipWith (fun x y => x *. y) wv (ic.map (fun i => i ^. s1))
  lit ((-1) ^ (s0 + s1)) *. dot ((transpose ac2).map (fun col => dot wy col)) wx *. (PyMath.pi ^. (2 * (s0 + s1)))

/-- `_func` — bivariate.py:303-320. -/
def func (s0 s1 : Nat) (t : F) (n : Nat) (ic : List F) (ac2 : List (List F)) : F :=
  if s0 + s1 ≤ 4 then
    let sumFunc := func (s0 + 1) s1 t n ic ac2 +. func s0 (s1 + 1) t n ic ac2
    let const := (lit 1 +. lit 1 /. ofNat (2 ^ (s0 + s1 + 1))) /. lit 3
    let time := PyMath.rpow (lit (-2) *. const *. kVal s0 *. kVal s1 /. ofNat n /. sumFunc) (lit 1 /. ofNat (2 + (s0 + s1)))
    psi s0 s1 time ic ac2
  else psi s0 s1 t ic ac2
termination_by 5 - (s0 + s1)

/-- `_func` instrumented with the number of `_psi` evaluations — bivariate.py:303-320 (C90 shows that the first component is
`func`). -/
def funcCounted (s0 s1 : Nat) (t : F) (n : Nat) (ic : List F) (ac2 : List (List F)) : F × Nat :=
  if s0 + s1 ≤ 4 then
    let a := funcCounted (s0 + 1) s1 t n ic ac2
    let b := funcCounted s0 (s1 + 1) t n ic ac2
    let const := (lit 1 +. lit 1 /. ofNat (2 ^ (s0 + s1 + 1))) /. lit 3
    let time := PyMath.rpow (lit (-2) *. const *. kVal s0 *. kVal s1 /. ofNat n /. (a.1 +. b.1)) (lit 1 /. ofNat (2 + (s0 + s1)))
    (psi s0 s1 time ic ac2, a.2 + b.2 + 1)
  else (psi s0 s1 t ic ac2, 1)
termination_by 5 - (s0 + s1)

/-- `_evolve` — bivariate.py:274-282: `(time_evolution, actual_time)`. -/
def evolve (t : F) (n : Nat) (ic : List F) (ac2 : List (List F)) : F × F :=
  let sumFunc := func 0 2 t n ic ac2 +. func 2 0 t n ic ac2 +. lit 2 *. func 1 1 t n ic ac2
  let actual := PyMath.rpow (lit 2 *. PyMath.pi *. ofNat n *. sumFunc) (lit (-1) /. lit 3)
  ((t -. actual) /. actual, actual)

/-! ## Root search -/

/-- one pass of the loop body per unit of fuel — bivariate.py:348-359; `none` when the fuel is exhausted.
`brent tol` is `optimize.brentq(f=fun, a=0, b=tol)`, `fmin` the bounded minimisation of `|fun|` on `[0, 0.1]`. -/
def rootLoop (brent : F → Py F) (fmin : Py F) : Nat → F → Option (Py F)
  | 0, _ => none
  | fuel + 1, tol =>
    match brent tol with
    | .ok t => if lit (1 / 10) ≤. tol then some fmin else some (.ok t)
    | .error .valueError =>
      let tol' := if lit (1 / 10) <. tol *. lit 2 then lit (1 / 10) else tol *. lit 2
      if lit (1 / 10) ≤. tol' then some fmin else rootLoop brent fmin fuel tol'
    | .error e => some (.error e)

/-- `n` after the adjustment of bivariate.py:341 -/
def clampN (n : Int) : Int :=
  50 * (if n ≤ 50 then 1 else 0) + 1050 * (if 1050 ≤ n then 1 else 0) + n * (if n < 1050 ∧ 50 < n then 1 else 0)

/-- the initial bracket — bivariate.py:344 -/
def tol0 (n : Int) : F := lit (1 / 10 ^ 12) +. lit (1 / 100) *. lit ((clampN n - 50 : Int) : ℚ) /. lit 1000

/-- `root` — bivariate.py:337-361. -/
def root (brent : F → Py F) (fmin : Py F) (fuel : Nat) (n : Int) : Option (Py F) := rootLoop brent fmin fuel (tol0 n)

/-! ## `bivariate_kernel` -/

/-- the smoothing factors — bivariate.py:418-422 -/
def smooth (grid : Nat) (t : F) : List F :=
  (List.range grid).map (fun i => PyMath.exp (PyNum.neg (ofNat i ^. 2) *. (PyMath.pi ^. 2) *. t /. lit 2))

/-- `a_t` — bivariate.py:423 -/
def adjusted (v1 v2 : List F) (discrete : List (List F)) : List (List F) :=
  discrete.mapIdx (fun i row => row.mapIdx (fun j d =>
    v1.getD (bidx v1.length i) PyNum.nan *. v2.getD (bidx v2.length j) PyNum.nan *. d))

/-- negative entries replaced — bivariate.py:427 -/
def clip (m : List (List F)) : List (List F) := m.map (fun r => r.map (fun d => if d <. lit 0 then lit (1 / 2 ^ 52) else d))

/-- `bivariate_kernel` — bivariate.py:383-437.  `brent f tol`, `fmin f` are scipy's `brentq` on `[0, tol]` and `fminbound` of
`|f|` on `[0, 0.1]`; `arange` is `np.arange`; `fuel` bounds the loop of `root`.  `p_02`, `p_20`, `p_11` (407-409) are
never used and cannot raise, so they are omitted. -/
def bivariateKernel (brent : (F → F) → F → Py F) (fmin : (F → F) → Py F) (arange : F → F → F → Py (List F)) (fuel : Nat)
    (xs ys : List F) (hx hy : F) (grid : Nat) : Option (Py (List (List F) × List (List F) × List (List F))) :=
  let step1 : Py ((F × F × F) × (F × F × F) × List (List F)) := do
    let sx ← scaling xs
    let sy ← scaling ys
    let h ← histogram (transform1 xs sx.2.1 sx.2.2) (transform1 ys sy.2.1 sy.2.2) grid
    let d ← dct2 h
    .ok (sx, sy, d)
  match step1 with
  | .error e => some (.error e)
  | .ok (sx, sy, d) =>
    let ic : List F := (List.range d.length).map (fun i => ofNat i ^. 2)
    let ac2 := d.map (fun r => r.map (fun x => x ^. 2))
    let n := xs.length + ys.length
    let f := fun t => t -. (evolve t n ic ac2).1
    match root (brent f) (fmin f) fuel (n : Int) with
    | none => none
    | some (.error e) => some (.error e)
    | some (.ok _) => some (do
      let at' := adjusted (smooth grid (hx ^. 2)) (smooth grid (hy ^. 2)) d
      let q ← dct2 at'
      let dens := clip (q.map (fun r => r.map (fun x => x *. (ofNat (at'.map List.length).sum /. (sx.2.2 *. sy.2.2)))))
      let xstep := sx.2.2 /. lit ((grid : ℚ) - 1)
      let ystep := sy.2.2 /. lit ((grid : ℚ) - 1)
      let xv ← arange sx.2.1 (sx.1 +. lit (1 / 10) *. xstep) xstep
      let yv ← arange sy.2.1 (sy.1 +. lit (1 / 10) *. ystep) ystep
      .ok (transpose dens, yv.map (fun _ => xv), yv.map (fun y => xv.map (fun _ => y))))

/-- `np.arange` on exact floats: the length is `ceil((stop - start) / step)`; a non-finite length raises ValueError
— bivariate.py:432-433. -/
def arangeFl {K : Type} [Field K] [LinearOrder K] [FloorRing K] (start stop step : Fl K) : Py (List (Fl K)) :=
  match (stop -. start) /. step with
  | .fin x => .ok ((List.range (⌈x⌉).toNat).map (fun i => start +. ofNat i *. step))
  | _ => .error .valueError

end Proadv.Bivariate
