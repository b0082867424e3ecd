import Verif.Model.Series

/-!
# Model of `proadv/filtration/replacement/replacements.py`

`velocities` is a 1-D numpy array of dtype float64 or int64 (`Arr F`, field `ndim` ignored here), `spike_indices` a 1-D integer
array (negative entries count from the end, as in Python).
-/

namespace Proadv.Replace

open Proadv Proadv.Descriptive Proadv.Series

variable {F : Type}

section Num
variable [PyNum F]

/-- `last_valid_data` — replacements.py:8-31 -/
def lastValidData (v : Arr F) (spikes : List Int) : Py (List F) :=
  spikes.foldlM (fun a i => do
    let x ← getIdx a (i - 1)
    setIdx a i x) v.data

/-- `mean(xs)` as the right-hand side of an array assignment: assigning the string "Invalid input." (empty `xs`) to a
numeric array is a ValueError — replacements.py:55, 151. -/
def meanForStore (xs : List F) : Py F := if xs.isEmpty then .error .valueError else meanOf xs

/-- `mean_value` — replacements.py:34-57 -/
def meanValue (v : Arr F) (spikes : List Int) : Py (List F) := do
  let m ← meanForStore v.data
  setMany v.data spikes (store v.isInt m)

/-- `median_value` — replacements.py:60-83 -/
def medianValue (v : Arr F) (spikes : List Int) : Py (List F) := do
  let m ← median ⟨1, v.isInt, v.data.map Item.num⟩
  setMany v.data spikes (store v.isInt m)

/-- `a[idx] = b[idx]` where `b` is a float array and `a` has the given dtype — replacements.py:242, 272, 302, 332. -/
def setFromStore (isInt : Bool) (l : List F) (idx : List Int) (b : List F) : Py (List F) :=
  idx.foldlM (fun a i => do
    let x ← getIdx b i
    setIdx a i (store isInt x)) l

/-- `simple_moving_average` — replacements.py:216-243 -/
def simpleMovingAverage (v : Arr F) (spikes : List Int) (windowSize : Int) : Py (List F) := do
  let sma ← movingAverage { v with ndim := 1 } windowSize
  setFromStore v.isInt v.data spikes sma

/-- `exponential_moving_average` — replacements.py:246-273 -/
def exponentialMovingAverageR (v : Arr F) (spikes : List Int) (alpha : F) : Py (List F) := do
  let ema ← exponentialMovingAverage v alpha
  setFromStore v.isInt v.data spikes ema

/-- `weighted_moving_average` — replacements.py:276-303; indexing the Python list `[]` by an array (302) is a TypeError -/
def weightedMovingAverageR (v : Arr F) (spikes : List Int) (period : Int) : Py (List F) := do
  let wma ← weightedMovingAverage v.data period
  if wma.isPyList then .error .typeError
  else setFromStore v.isInt v.data spikes wma.data

/-- the `spike_indices` argument of the Kalman replacement: an array or a bare integer — replacements.py:336-364. -/
inductive Spikes where
  | scalar (i : Int)
  | array (l : List Int)

/-- `kalman_filter` — replacements.py:336-364.  `kalman_filter` of series.py returns a Python list, so an index array
raises TypeError (364); with a bare integer the assignment succeeds but the function has no `return`: it returns `None`. -/
def kalmanReplacement (v : Arr F) (spikes : Spikes) (x0 p0 q r : F) : Py (Option (List F)) := do
  let est ← kalmanFilter v.data x0 p0 q r
  match spikes with
  | .array _ => .error .typeError
  | .scalar i => do
    let x ← getIdx est i
    let _ ← setIdx v.data i (store v.isInt x)
    .ok none

/-- `a[mask]` for a boolean mask of the same length — replacements.py:132-134. -/
def select {α : Type} (l : List α) (mask : List Bool) : List α :=
  (l.zip mask).filterMap (fun p => if p.2 then some p.1 else none)

/-- `spike_diff > 1` — replacements.py:130 -/
def bigGap (spikes : List Int) : List Bool := List.zipWith (fun a b => decide (1 < b - a)) spikes spikes.tail

/-- `zip(spike_starts, spike_ends)` — replacements.py:132-136 -/
def spikeRuns (spikes : List Int) : List (Int × Int) :=
  (select spikes (true :: bigGap spikes)).zip (select spikes (bigGap spikes ++ [true]))

/-- bound of a Python slice on an array of length `n` — replacements.py:151, 155, 205, 209, 429, 432. -/
def sliceBound (n : Nat) (i : Int) : Nat := if i < 0 then ((n : Int) + i).toNat else Nat.min i.toNat n

/-- `a[i:j] = x` — replacements.py:151, 155. -/
def setSlice {α : Type} (l : List α) (i j : Int) (x : α) : List α :=
  l.mapIdx (fun k y => if sliceBound l.length i ≤ k ∧ k < sliceBound l.length j then x else y)

/-- `valid_start` — replacements.py:138 -/
def validStart (md : List F) (s : Int) : Py F := if 0 < s then getIdx md (s - 1) else .ok PyNum.nan

/-- `valid_end` — replacements.py:140 -/
def validEnd (n : Nat) (md : List F) (e : Int) : Py F := if e < (n : Int) - 1 then getIdx md (e + 1) else .ok PyNum.nan

/-- the three replacement branches — replacements.py:143-155; `v` is the original data, `md` the modified data -/
def liWrite (v : List F) (md : List F) (s e : Int) (a b : F) : Py (List F) :=
  if !(PyNum.isNaN a) && !(PyNum.isNaN b) then
    (List.range (e + 1 - s).toNat).foldlM
      (fun d (i : Nat) => setIdx d (s + i) (a +. ((b -. a) /. lit (e - s + 2 : Int)) *. ofNat (i + 1))) md
  else if PyNum.isNaN b then do
    let m ← meanForStore (v.filter (fun x => !(PyNum.isNaN x)))
    .ok (setSlice md s (e + 1) m)
  else .ok (setSlice md s (e + 1) (npNanmean [a, b]))

/-- one run of spikes — replacements.py:136-155 -/
def liRun (v : List F) (md : List F) (run : Int × Int) : Py (List F) := do
  let a ← validStart md run.1
  let b ← validEnd v.length md run.2
  liWrite v md run.1 run.2 a b

/-- `linear_interpolation` before the final rounding — replacements.py:124-155.  Storing NaN in an integer array is a
ValueError (127); with no spikes the boolean index of length 1 does not match (132): IndexError. -/
def linearInterpolationRaw (v : Arr F) (spikes : List Int) : Py (List F) := do
  if v.isInt then .error .valueError
  else
    let md ← setMany v.data spikes PyNum.nan
    if spikes.isEmpty then .error .indexError
    else (spikeRuns spikes).foldlM (liRun v.data) md

/-- `linear_interpolation` — replacements.py:86-158 -/
def linearInterpolation (v : Arr F) (spikes : List Int) (decimals : Int) : Py (List F) := do
  let md ← linearInterpolationRaw v spikes
  .ok (md.map (fun x => PyNum.around x decimals))

/-- `modified_data[i:][~np.isnan(modified_data[i:])]` — replacements.py:205, 209 -/
def validFrom (md : List F) (i : Int) : List F := (md.drop (sliceBound md.length i)).filter (fun x => !(PyNum.isNaN x))

/-- the abscissae — replacements.py:199 -/
def cubicX : List F := ((List.range 12).map (fun k => ofNat (k + 1))) ++ ((List.range 12).map (fun k => ofNat (k + 14)))

/-- the ordinates — replacements.py:209-210: `np.delete(np.append(velocities[i-13:i], …[0:12]), 12)` -/
def cubicY (v md : List F) (i : Int) : List F :=
  ((v.drop (i - 13).toNat).take 13 ++ (validFrom md i).take 12).eraseIdx 12

/-- one spike of `cubic_12points_polynomial` — replacements.py:201-212.  `interp x y t` is `interp1d(x, y, 3)(t)`; the
length check of `interp1d` is kept. -/
def cubicStep (interp : List F → List F → F → Py F) (v md : List F) (i : Int) : Py (List F) :=
  if i ≤ 30 ∨ (v.length : Int) - 30 ≤ i then do
    let p ← getIdx v (i - 1)
    let q ← getIdx (validFrom md i) 0
    setIdx md i (PyNum.around ((p +. q) /. lit 2) 4)
  else
    let y := cubicY v md i
    if y.length ≠ 24 then .error .valueError
    else do
      let f ← interp cubicX y (lit 13)
      setIdx md i f

/-- `cubic_12points_polynomial` — replacements.py:161-213 -/
def cubic12 (interp : List F → List F → F → Py F) (v : Arr F) (spikes : List Int) (decimals : Int) : Py (List F) := do
  if v.isInt then .error .valueError
  else
    let md ← setMany v.data spikes PyNum.nan
    let md ← spikes.foldlM (cubicStep interp v.data) md
    .ok (md.map (fun x => PyNum.around x decimals))

/-- loop state of `polynomial_replacement`: the array (with its dtype) and whether `a` is still 0
— replacements.py:415-416. -/
structure PolyState (F : Type) where
  arr : Arr F
  first : Bool

/-- Python slice `l[i:j]` — replacements.py:429, 432. -/
def pySlice {α : Type} (l : List α) (i j : Int) : List α := slice l (sliceBound l.length i) (sliceBound l.length j)

/-- one spike of `polynomial_replacement` — replacements.py:417-433.  `predict y lo i` stands for
`_create_model(y, np.arange(lo, i), i, degree).squeeze()` (367-390): polynomial regression of the samples `y` at the
abscissae `lo, …, i-1`, evaluated at `i`.  A squeezed one-element index array makes `np.diff` raise ValueError (425, 130). -/
def polyStep (predict : List F → Int → Int → Py F) (spikes : List Int) (window decimals : Int) (st : PolyState F)
    (i : Int) : Py (PolyState F) :=
  if i = 0 then do
    let d ← setIdx st.arr.data 0 (store st.arr.isInt (npMean st.arr.data))
    .ok { st with arr := { st.arr with data := d } }
  else if 1 ≤ i ∧ i ≤ 10 then
    if st.first then
      let early := spikes.filter (fun j => decide (j < 10))
      if early.length = 1 then .error .valueError
      else do
        let d ← linearInterpolation st.arr early decimals
        .ok ⟨⟨1, false, d⟩, false⟩
    else .ok st
  else if 11 ≤ i ∧ i ≤ window - 1 then do
    let y ← predict (pySlice st.arr.data 0 i) 0 i
    let d ← setIdx st.arr.data i (store st.arr.isInt y)
    .ok { st with arr := { st.arr with data := d } }
  else do
    let y ← predict (pySlice st.arr.data (i - window) i) (i - window) i
    let d ← setIdx st.arr.data i (store st.arr.isInt y)
    .ok { st with arr := { st.arr with data := d } }

/-- `polynomial_replacement` — replacements.py:393-435.  Iterating the squeezed one-element array is a TypeError (417). -/
def polynomialReplacement (predict : List F → Int → Int → Py F) (v : Arr F) (spikes : List Int) (window decimals : Int) :
    Py (List F) :=
  if spikes.length = 1 then .error .typeError
  else do
    let st ← spikes.foldlM (polyStep predict spikes window decimals) ⟨v, true⟩
    .ok (st.arr.data.map (fun x => PyNum.around x decimals))

end Num

/-- `ssa` — replacements.py:306-333 -/
def ssaReplacement [PyMath F] (ceilInt : F → Py Int) (eigh : Mat F → Py (Mat F)) (v : Arr F) (spikes : List Int)
    (fs f : F) : Py (List F) := do
  let xf ← ssa ceilInt eigh v.data fs f
  setFromStore v.isInt v.data spikes xf

end Proadv.Replace
