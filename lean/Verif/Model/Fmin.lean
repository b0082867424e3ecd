import Verif.Py.Num

/-!
# Model of `_optimize_within_bounds` and `fminbound` of `proadv/statistics/optimize/optimize.py`

Every variable is a float (`F`), so NaN and infinite values of the target function are covered.  The target is a
function `F → F` (deterministic; `extra_params` are part of it).  A ghost component records the points of evaluation.
-/

namespace Proadv.Fmin

open Proadv

variable {F : Type} [PyNum F]

/-- `np.sign(x)` — optimize.py:276, 291. -/
def npSign (x : F) : F :=
  if x <. lit 0 then lit (-1) else if lit 0 <. x then lit 1 else if x ==. lit 0 then lit 0 else PyNum.nan

/-- `np.sign(x) + (x == 0)` — optimize.py:291 (and 276 with `x = x_central - x_optimal`) -/
def dir (x : F) : F := npSign x +. (if x ==. lit 0 then lit 1 else lit 0)

/-- `np.maximum` (NaN-propagating) — optimize.py:292. -/
def npMaximum (a b : F) : F := if PyNum.isNaN a || PyNum.isNaN b then PyNum.nan else if b <. a then a else b

/-- `np.isfinite(x)`: `x - x` is 0 exactly for finite `x` — optimize.py:203. -/
def npIsFinite (x : F) : Bool := (x -. x) ==. lit 0

/-- loop variables of `_optimize_within_bounds`; `evals` is the ghost list of evaluation points, in order — optimize.py:220-242 -/
structure St (F : Type) where
  left : F
  right : F
  xopt : F
  xmid : F
  xtmp : F
  e : F
  step : F
  xcur : F
  fopt : F        -- `f_current`, the value at `x_optimal`
  fmid : F        -- `f_x_middle`
  fxtmp : F       -- `f_x_temp`
  ftemp : F       -- `f_temp`, the last value
  count : Nat     -- `iteration_count`
  evals : List F

/-- optimize.py:245, 317 -/
def xcentral (s : St F) : F := lit (1 / 2) *. (s.left +. s.right)

/-- optimize.py:248, 318 -/
def tol1 (eps tol : F) (s : St F) : F := (eps *. PyNum.abs s.xopt) +. (tol /. lit 3)

/-- optimize.py:249, 319 -/
def tol2 (eps tol : F) (s : St F) : F := lit 2 *. tol1 eps tol s

/-- loop condition — optimize.py:252 -/
def cond (eps tol : F) (s : St F) : Bool :=
  (tol2 eps tol s -. (lit (1 / 2) *. (s.right -. s.left))) <. PyNum.abs (s.xopt -. xcentral s)

/-- `q` before `abs`, and `p` after the sign flip — optimize.py:259-265 -/
def parabola (s : St F) : F × F :=
  let r := (s.xopt -. s.xtmp) *. (s.fopt -. s.fmid)
  let q := (s.xopt -. s.xmid) *. (s.fopt -. s.fxtmp)
  let p := ((s.xopt -. s.xmid) *. q) -. ((s.xopt -. s.xtmp) *. r)
  let q := lit 2 *. (q -. r)
  (if lit 0 <. q then PyNum.neg p else p, PyNum.abs q)

/-- is the parabolic step acceptable — optimize.py:270 -/
def acceptable (s : St F) : Bool :=
  let (p, q) := parabola s
  (PyNum.abs p <. PyNum.abs ((lit (1 / 2) *. q) *. s.e)) && ((q *. (s.left -. s.xopt)) <. p) &&
    (p <. (q *. (s.right -. s.xopt)))

/-- the parabolic step — optimize.py:271-277 -/
def parabolicStep (eps tol : F) (s : St F) : F :=
  let (p, q) := parabola s
  let step := p /. q
  let x := s.xopt +. step
  if ((x -. s.left) <. tol2 eps tol s) || ((s.right -. x) <. tol2 eps tol s) then
    tol1 eps tol s *. (npSign (xcentral s -. s.xopt) +. (if xcentral s ==. s.xopt then lit 1 else lit 0))
  else step

/-- golden-section `e` — optimize.py:284-287 -/
def goldenE (s : St F) : F := if xcentral s ≤. s.xopt then s.left -. s.xopt else s.right -. s.xopt

/-- the pair `(e, step_size)` after optimize.py:253-288 -/
def chooseStep (eps g tol : F) (s : St F) : F × F :=
  if (tol1 eps tol s <. PyNum.abs s.e) && acceptable s then (s.step, parabolicStep eps tol s)
  else (goldenE s, g *. goldenE s)

/-- optimize.py:291-292 -/
def nextPoint (eps tol : F) (s : St F) (step : F) : F :=
  s.xopt +. (dir step *. npMaximum (PyNum.abs step) (tol1 eps tol s))

/-- optimize.py:293-314: evaluate the target at `x` and update the variables -/
def update (target : F → F) (s : St F) (e step x : F) : St F :=
  let f := target x
  let s := { s with e := e, step := step, xcur := x, ftemp := f, count := s.count + 1, evals := s.evals ++ [x] }
  if f ≤. s.fopt then
    let s := if s.xopt ≤. x then { s with left := s.xopt } else { s with right := s.xopt }
    { s with xmid := s.xtmp, fmid := s.fxtmp, xtmp := s.xopt, fxtmp := s.fopt, xopt := x, fopt := f }
  else
    let s := if x <. s.xopt then { s with left := x } else { s with right := x }
    if (f ≤. s.fxtmp) || (s.xtmp ==. s.xopt) then { s with xmid := s.xtmp, fmid := s.fxtmp, xtmp := x, fxtmp := f }
    else if (f ≤. s.fmid) || (s.xmid ==. s.xopt) || (s.xmid ==. s.xtmp) then { s with xmid := x, fmid := f }
    else s

/-- one pass of the loop body — optimize.py:253-319 -/
def body (target : F → F) (eps g tol : F) (s : St F) : St F :=
  let es := chooseStep eps g tol s
  update target s es.1 es.2 (nextPoint eps tol s es.2)

/-- the `while` loop — optimize.py:252-324; the Boolean says whether it was left by the `break` (flag 1).  The first
argument bounds the number of passes; `Fmin.loop_fuel` shows that the bound used by `optimize` is never reached. -/
def loop (target : F → F) (eps g tol : F) (limit : Int) : Nat → St F → Option (St F × Bool)
  | 0, _ => none
  | n + 1, s =>
    if cond eps tol s then
      let s' := body target eps g tol s
      if limit ≤ s'.count then some (s', true) else loop target eps g tol limit n s'
    else some (s, false)

/-- state before the loop — optimize.py:220-242 -/
def initial (target : F → F) (g lower upper : F) : St F :=
  let x := lower +. (g *. (upper -. lower))
  let f := target x
  { left := lower, right := upper, xopt := x, xmid := x, xtmp := x, e := lit 0, step := lit 0, xcur := x,
    fopt := f, fmid := f, fxtmp := f, ftemp := lit 1 /. lit 0, count := 1, evals := [x] }

/-- what `fminbound` returns with `detailed_output=True`, and the ghost list of evaluation points — optimize.py:336. -/
structure Out (F : Type) where
  x : F
  fval : F
  flag : Nat
  count : Nat
  evals : List F

/-- optimize.py:326-336 -/
def finish (r : St F × Bool) : Out F :=
  let s := r.1
  let flag := if r.2 then 1 else 0
  let flag := if PyNum.isNaN s.xopt || PyNum.isNaN s.fopt || PyNum.isNaN s.ftemp then 2 else flag
  ⟨s.xcur, s.fopt, flag, s.count, s.evals⟩

/-- `_optimize_within_bounds(target, (lower, upper), …)` with the constants `epsilon_sqrt` and `golden_ratio` as
parameters — optimize.py:156-336.  The test `len(limit_bounds) != 2` (196) cannot fire for `fminbound`. `none` means that the bound on the number
of passes was reached, which never happens. -/
def optimize (target : F → F) (eps g lower upper tol : F) (limit : Int) : Py (Option (Out F)) :=
  if !(npIsFinite lower && npIsFinite upper) then .error .valueError
  else if upper <. lower then .error .valueError
  else .ok ((loop target eps g tol limit (limit.toNat + 2) (initial target g lower upper)).map finish)

/-- `optimize.fminbound(target, lower, upper, tolerance=…, max_evaluations=…, detailed_output=True)` — optimize.py:339-401 -/
def fminbound {F : Type} [PyMath F] (target : F → F) (lower upper tol : F) (limit : Int) : Py (Option (Out F)) :=
  optimize target (PyMath.sqrt (lit (22 / 10 ^ 17))) (lit (1 / 2) *. (lit 3 -. PyMath.sqrt (lit 5))) lower upper tol limit

end Proadv.Fmin
