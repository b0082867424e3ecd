import Verif.Model.Normal
import Verif.Model.Series
import Verif.Model.Fmin
import Verif.Model.Brent

/-!
# Running the model on binary64

The model is generic in the number type, so it can be run on Lean's `Float` (IEEE binary64, as in numpy).  The checks
below replay every example with printed output of the docstrings, and the assertions of `/repo/proadv/tests`, on the
definitions the theorems are about.  They test the *model* against the documented behaviour of the code.  They are not
part of any proof and no property relies on them.

`Float` operations are opaque to the kernel: the checks are evaluated at elaboration time only.
-/

namespace Proadv.Tests

open Proadv Proadv.Descriptive

/-- `erf` by its Taylor series (accurate to about 1e-13 for `|x| ≤ 3`, which covers the examples) -/
def erfF (x : Float) : Float :=
  let rec go : Nat → Float → Float → Float → Float
    | 0, _, _, acc => acc
    | n + 1, k, t, acc => go n (k + 1) (-t * x * x / (k + 1)) (acc + t / (2 * k + 1))
  2 / Float.sqrt 3.141592653589793 * go 80 0 x 0

/-- round half to even -/
def rintF (x : Float) : Float :=
  let f := x.floor
  if x - f < 0.5 then f else if 0.5 < x - f then f + 1 else if (f / 2).floor * 2 == f then f else f + 1

instance : PyMath Float where
  add := (· + ·)
  sub := (· - ·)
  mul := (· * ·)
  div := (· / ·)
  neg x := -x
  abs := Float.abs
  lt a b := a < b
  le a b := a ≤ b
  eq a b := a == b
  isNaN := Float.isNaN
  nan := 0 / 0
  ofRat q := Float.ofInt q.num / Float.ofNat q.den
  around x d := rintF (x * Float.pow 10 (Float.ofInt d)) / Float.pow 10 (Float.ofInt d)
  castInt x := if 0 ≤ x then x.floor else x.ceil
  sum l := l.foldl (· + ·) 0
  npow x n := (List.replicate n x).foldl (· * ·) 1
  sqrt := Float.sqrt
  log := Float.log
  exp := Float.exp
  sin := Float.sin
  cos := Float.cos
  tan := Float.tan
  arctan := Float.atan
  arctan2 := Float.atan2
  erf := erfF
  erfc x := 1 - erfF x
  rpow := Float.pow
  pi := 3.141592653589793

/-- the result is the number `y`, up to `tol` -/
def near (r : Py Float) (y : Float) (tol : Float := 1e-14) : Bool :=
  match r with
  | .ok x => (x - y).abs ≤ tol
  | .error _ => false

/-- the result is the array `ys`, up to `tol` -/
def nears (r : Py (List Float)) (ys : List Float) (tol : Float := 1e-14) : Bool :=
  match r with
  | .ok xs => xs.length == ys.length && (List.zipWith (fun x y => decide ((x - y).abs ≤ tol)) xs ys).all id
  | .error _ => false

/-- the exception `e` is raised -/
def raises {α : Type} (r : Py α) (e : PyErr) : Bool :=
  match r with
  | .ok _ => false
  | .error e' => e == e'

/-- a numeric array as `Item`s -/
def nums (l : List Float) : List (Item Float) := l.map Item.num

/-- `float(s)` on the strings of the examples -/
def parseF : String → Option Float
  | "1" => some 1
  | "2" => some 2
  | "3.5" => some 3.5
  | _ => none

/-- the number returned by `mean` -/
def meanVal (r : Py (MeanOut Float)) : Py Float :=
  match r with
  | .ok (.val x) => .ok x
  | .ok .invalid => .error .typeError
  | .error e => .error e

def nanF : Float := 0 / 0

/-! ## descriptive.py -/

-- tests/statistics/descriptive/test_min.py, and the docstring of `min`
#guard near (min (nums [1, 2, 3, 4, 5])) 1
#guard near (min (nums [3, 5, 7, 9, 1])) 1
#guard near (min (nums [25.5, 10.5, 56.5, 23.5])) 10.5
#guard near (min (nums [-1, -2, -3, -4])) (-4)
#guard near (min (nums [-1.5, -2.5, -3.5, -4.5])) (-4.5)
#guard near (min (nums [5, 3, 7, 1])) 1
#guard near (min (nums [21.5, 5.5, 10.5, 8.5])) 5.5
#guard raises (min (nums [1, 2, nanF, 4, 5])) .valueError
#guard raises (min (nums [])) .valueError
#guard raises (min ("proadv".toList.map (fun c => (Item.str (String.singleton c) : Item Float)))) .typeError

-- tests/statistics/descriptive/test_max.py, and the docstring of `max`
#guard near (max (nums [1, 2, 3, 4, 5])) 5
#guard near (max (nums [2, 3, 4, 5, 6, 7, 8, 9])) 9
#guard near (max (nums [3, 5, 7, 9, 1])) 9
#guard near (max (nums [25.5, 10.5, 56.5, 23.5])) 56.5
#guard near (max (nums [-1, -2, -3, -4])) (-1)
#guard near (max (nums [-1.5, -2.5, -3.5, -4.5])) (-1.5)
#guard near (max (nums [21.5, 5.5, 10.5, 8.5])) 21.5
#guard raises (max (nums [1, 2, nanF, 4, 5])) .valueError
#guard raises (max (nums [])) .valueError
#guard raises (max ("proadv".toList.map (fun c => (Item.str (String.singleton c) : Item Float)))) .typeError

-- tests/statistics/descriptive/test_mean.py, and the docstring of `mean`
#guard near (meanVal (mean parseF (.seq (nums [1, 2, 3])))) 2
#guard near (meanVal (mean parseF (.seq (nums [2, 4, 6, 8])))) 5
#guard near (meanVal (mean parseF (.seq (nums [2.5, 4.5, 6.5, 8.5])))) 5.5
#guard near (meanVal (mean parseF (.seq (nums [-1, -2, -3, -4, -5])))) (-3)
#guard near (meanVal (mean parseF (.seq (nums [-1.5, -2.5, -3.5, -4.5, -5.5])))) (-3.5)
#guard near (meanVal (mean parseF (.seq [.str "1", .str "2", .str "3.5", .str "not a number"]))) 2.1666666666666665
#guard match mean parseF (.seq (nums [])) with | .ok .invalid => true | _ => false

-- tests/statistics/descriptive/test_median.py, and the docstring of `median`
#guard near (median ⟨1, true, nums [14, 8, 11, 10, 5, 7]⟩) 9
#guard near (median ⟨1, true, nums ((List.range 31).map (fun i => Float.ofNat (i + 14)))⟩) 29
#guard near (median ⟨1, false, nums [2.5, 4.5, 5.5, 8.5]⟩) 5
#guard near (median ⟨1, true, nums [2, 4, 6, 8, 10]⟩) 6
#guard near (median ⟨1, true, nums [-1, -2, -3, -4]⟩) (-2.5)
#guard near (median ⟨1, false, nums [-1.5, -2.5, -3.5, -4.5, -5.5]⟩) (-3.5)
#guard raises (median ⟨1, false, nums []⟩) .valueError

/-- equality of a `mode` result with a value and a count -/
def modeIs (r : Py (Float × Nat)) (v : Float) (n : Nat) : Bool :=
  match r with
  | .ok (x, c) => x == v && c == n
  | .error _ => false

-- tests/statistics/descriptive/test_mode.py
#guard modeIs (mode [1.5, 5.5, 5.5, 1.5, 7.5, 1.5, 8.5, 5.5, 7.5, 8.5, 5.5]) 5.5 4
#guard modeIs (mode [-2.5, -4.5, -6.5, -6.5, -6.5, -8.5, -8.5]) (-6.5) 3
#guard modeIs (mode [1, 3, 5, 7, 9, 7, 5, 9, 5, 7, 9, 7]) 7 4
#guard modeIs (mode [-1, -2, -4, -3, -4, -5, -6]) (-4) 2
#guard modeIs (mode [5]) 5 1
#guard raises (mode ([] : List Float)) .valueError

/-! ## spread.py, moment.py -/

#guard near (Spread.variance ⟨1, true, nums [14, 8, 11, 10]⟩) 4.6875
#guard near (Spread.variance ⟨1, true, nums ((List.range 15).map (fun i => Float.ofNat (i + 15)))⟩) 18.666666666666668
#guard near (Spread.std (Arr.int [14, 8, 11, 10, 5, 7] : Arr Float)) 2.9107081994288304
#guard near (Spread.std (Arr.int [3, 4, 5, 6, 7, 8, 9] : Arr Float)) 2
#guard near (Moment.skewness (Arr.int [2, 8, 0, 4, 1, 9, 9, 0] : Arr Float)) 0.2650554122698573
#guard near (Moment.skewness (Arr.int [1, 2, 3, 4, 5] : Arr Float)) 0
#guard near (Moment.kurtosis (Arr.int [1, 2, 2, 3, 3, 3, 4, 4, 4, 4] : Arr Float)) 2.2

/-! ## series.py -/

/-- `np.array([1, 2, …, 10])` -/
def ten : List Float := (List.range 10).map (fun i => Float.ofNat (i + 1))

#guard nears (Series.movingAverage (Arr.int ten) 3) [1, 1.5, 2, 3, 4, 5, 6, 7, 8, 9]
#guard nears (Series.exponentialMovingAverage (Arr.int ten) 0.5) [1, 1, 2, 3, 4, 5, 6, 7, 8, 9]
#guard nears ((Series.weightedMovingAverage ten 3).map (·.data))
  [2.33333333, 3.33333333, 4.33333333, 5.33333333, 6.33333333, 7.33333333, 8.33333333] 1e-8
-- tests/statistics/descriptive/test_moving_average.py, test_exponential_moving_average.py
-- (the default window size is 20)
#guard raises (Series.movingAverage (Arr.int [5] : Arr Float) 20) .valueError
#guard raises (Series.movingAverage (Arr.int [1, 2, 3, 4, 5] : Arr Float) 20) .valueError
#guard raises (Series.movingAverage (Arr.int ten) 20) .valueError
#guard raises (Series.movingAverage (Arr.int [1, 2, 3] : Arr Float) 0) .valueError
#guard raises (Series.movingAverage (Arr.int [1, 2, 3] : Arr Float) (-5)) .valueError
#guard raises (Series.exponentialMovingAverage (Arr.int [1, 2, 3, 4, 5] : Arr Float) (-1)) .valueError
#guard raises (Series.exponentialMovingAverage (Arr.int [1, 2, 3, 4, 5] : Arr Float) 2) .valueError

/-! ## distributions/normal.py -/

/-- the array of all docstring examples of normal.py -/
def sample : Arr Float := Arr.flt [0.43385221, 0.61265808, -0.00662029, 0.44512392, 0.4065942]

/-- the same array with a NaN entry -/
def sampleNaN : Arr Float := Arr.flt [0.43385221, 0.61265808, -0.00662029, nanF, 0.44512392, 0.4065942]

#guard nears ((Normal.cdf sample).map (·.data)) [0.66780212, 0.72994878, 0.49735891, 0.6718849, 0.65784697] 1e-8
#guard nears ((Normal.pdf sample 1 0).map (·.data)) [0.36310893, 0.33067691, 0.39893354, 0.36131462, 0.36729206] 1e-8
#guard nears ((Normal.logPdf sample 1 0).map (·.data))
  [-1.0130524, -1.10661349, -0.91896045, -1.01800619, -1.00159795] 1e-8
#guard nears ((Normal.logCdf sample).map (·.data))
  [-0.40376338, -0.31478092, -0.69844337, -0.39766824, -0.41878294] 1e-8
#guard nears ((Normal.sf sample).map (·.data)) [0.33219788, 0.27005122, 0.50264109, 0.3281151, 0.34215303] 1e-8
#guard nears ((Normal.logSf sample).map (·.data))
  [-1.10202446, -1.30914362, -0.68787889, -1.11439081, -1.07249719] 1e-8
#guard raises (Normal.cdf sampleNaN) .typeError
#guard raises (Normal.pdf sampleNaN 1 0) .typeError
#guard raises (Normal.logPdf sampleNaN 1 0) .typeError
#guard raises (Normal.logCdf sampleNaN) .typeError
#guard raises (Normal.sf sampleNaN) .typeError
#guard raises (Normal.logSf sampleNaN) .typeError

/-! ## optimize.py -/

-- the docstring of `brentq`, in exact rational arithmetic (the model of `brentq` is over ordered fields); with
-- the default tolerances 1.48e-8 and 500 iterations
#guard match (Brent.brentq (fun x : ℚ => x ^ 2 - 2) 0 2 (148 / 10 ^ 10) (148 / 10 ^ 10) 500).1 with
  | .ok o => decide (|o.root - 14142135623730951 / 10 ^ 16| ≤ 1 / 10 ^ 12)
  | .error _ => false

-- the docstring of `fminbound`: default tolerance 1e-5 and 500 evaluations
#guard match Fmin.fminbound (fun x : Float => (x - 2) * (x - 2) + 1) (-1) 5 1e-5 500 with
  | .ok (some o) => (o.x - 2).abs ≤ 1e-5 && o.flag == 0
  | _ => false

end Proadv.Tests
