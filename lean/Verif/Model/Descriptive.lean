import Verif.Py.Array

/-!
# Model of `proadv/statistics/descriptive.py`
-/

namespace Proadv.Descriptive

open Proadv

/-- An element of a Python list / numpy array handed to the descriptive functions.
Simplification: other Python objects (`None`, nested lists, complex numbers) are not represented
— descriptive.py:53-56, 200. -/
inductive Item (F : Type) where
  /-- a Python `int`/`float`/`bool` or `np.float64` (`isinstance(item, (int, float))` is true) -/
  | num (x : F)
  /-- a numpy number that is not a Python `int`/`float` (e.g. `np.int64`, `np.float32`) -/
  | npnum (x : F)
  /-- a string (`str` or `np.str_`) -/
  | str (s : String)

namespace Item
variable {F : Type}

/-- `isinstance(i, str)` — descriptive.py:54. -/
def isStr : Item F → Bool
  | str _ => true
  | _ => false

/-- `isinstance(item, (int, float))` — descriptive.py:200. -/
def isPyNum : Item F → Bool
  | num _ => true
  | _ => false

/-- numeric value, if any — descriptive.py:57-62. -/
def val? : Item F → Option F
  | num x => some x
  | npnum x => some x
  | str _ => none

/-- Python `==` against a string — descriptive.py:215. -/
def eqStr (s : String) : Item F → Bool
  | str t => s == t
  | _ => false

end Item

variable {F : Type} [PyNum F]

/-- `descriptive.min` — descriptive.py:4-63.  Guards in source order: string (53-56), NaN (57-58), empty (59-60),
then `np.min` (62). -/
def min (data : List (Item F)) : Py F :=
  if data.any Item.isStr then .error .typeError
  else
    let xs := data.filterMap Item.val?
    if xs.any PyNum.isNaN then .error .valueError
    else match xs with
      | [] => .error .valueError
      | x :: t => .ok (t.foldl (fun m y => if y <. m then y else m) x)

/-- `descriptive.max` — descriptive.py:66-132.  Guards 119-129, `np.max` 130. -/
def max (data : List (Item F)) : Py F :=
  if data.any Item.isStr then .error .typeError
  else
    let xs := data.filterMap Item.val?
    if xs.any PyNum.isNaN then .error .valueError
    else match xs with
      | [] => .error .valueError
      | x :: t => .ok (t.foldl (fun m y => if m <. y then y else m) x)

/-- Result of `mean`: a number, or the string `"Invalid input."` — descriptive.py:205-226. -/
inductive MeanOut (F : Type) where
  | val (x : F)
  | invalid
  deriving DecidableEq

/-- Argument of `mean`.  A Python string argument (`text`) is given as the list of its one-character strings, which is how
the loop at 210 iterates it — descriptive.py:197-210. -/
inductive MeanIn (F : Type) where
  | scalar (x : F)
  | seq (items : List (Item F))
  | text (chars : List String)

/-- One iteration of the loop descriptive.py:210-221.  `parse` is Python's `float(str)`, `none` = ValueError.
`array.index(item)` (215) raising ValueError and `float(item)` (216) raising ValueError are both caught at 218,
and filter the *current* list. -/
def meanStep (parse : String → Option F) (array : List (Item F)) (item : Item F) : List (Item F) :=
  match item with
  | .str s =>
    match array.findIdx? (Item.eqStr s), parse s with
    | some k, some v => array.set k (.num v)
    | _, _ => array.filter Item.isPyNum
  | _ => array

/-- `np.sum(array) / np.size(array)` — descriptive.py:205 and 222; `np.sum` on remaining strings is a TypeError. -/
def sumOverSize (array : List (Item F)) : Py (MeanOut F) :=
  if array.any Item.isStr then .error .typeError
  else .ok (.val (PyNum.sum (array.filterMap Item.val?) /. ofNat array.length))

/-- `descriptive.mean` — descriptive.py:135-226: scalar (197-198), all-numeric (200-206), mixed (209-223),
empty -> `"Invalid input."` (225-226).  A string argument is excluded from the second case by the type test of 200, and
`np.size(np.array(s))` is 1 even for the empty string, whose `np.sum` (222) is a TypeError. -/
def mean (parse : String → Option F) : MeanIn F → Py (MeanOut F)
  | .scalar x => .ok (.val x)
  | .seq items =>
    if items.length ≠ 0 ∧ items.all Item.isPyNum = true then
      sumOverSize items
    else if items.length ≠ 0 then
      sumOverSize (items.foldl (meanStep parse) items)
    else .ok .invalid
  | .text chars =>
    if chars.isEmpty then .error .typeError
    else sumOverSize ((chars.map Item.str).foldl (meanStep parse) (chars.map Item.str))

/-- `mean(a)` for a numeric 1-D array, used as a number by the caller: arithmetic with the string
`"Invalid input."` is a TypeError — descriptive.py:200-206. -/
def meanOf (xs : List F) : Py F :=
  match mean (fun _ => none) (.seq (xs.map Item.num)) with
  | .ok (.val x) => .ok x
  | .ok .invalid => .error .typeError
  | .error e => .error e

/-- `descriptive.median` — descriptive.py:229-282: ndim (272-273), string (274-277), empty (278-280),
`np.median` (281). -/
def median (data : Arr (Item F)) : Py F :=
  if data.ndim ≠ 1 then .error .valueError
  else if data.data.any Item.isStr then .error .typeError
  else if data.data.length = 0 then .error .valueError
  else .ok (npMedian (data.data.filterMap Item.val?))

/-- Two entries that `np.unique` identifies (NaNs are identified with each other) — descriptive.py:321. -/
def sameVal (a b : F) : Bool := (a ==. b) || (PyNum.isNaN a && PyNum.isNaN b)

/-- Run-length encoding of a sorted array: the second half of `np.unique(..., return_counts=True)`
— descriptive.py:321. -/
def runs : List F → List (F × Nat)
  | [] => []
  | x :: t => match runs t with
    | [] => [(x, 1)]
    | (y, c) :: r => if sameVal x y then (x, c + 1) :: r else (x, 1) :: (y, c) :: r

/-- `np.argmax(counts)`-indexed entry: the first run with the largest count — descriptive.py:322. -/
def argmaxRun : List (F × Nat) → Option (F × Nat)
  | [] => none
  | r :: t => some (t.foldl (fun best q => if best.2 < q.2 then q else best) r)

/-- `descriptive.mode` — descriptive.py:285-325: `np.unique(return_counts=True)` (321), first `argmax` (322), lookups
(323-324).  `np.argmax` of an empty array raises ValueError.  Simplification: numeric data only. -/
def mode (data : List F) : Py (F × Nat) :=
  match argmaxRun (runs (npSort data)) with
  | none => .error .valueError
  | some r => .ok r

end Proadv.Descriptive
