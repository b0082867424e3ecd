import Verif.Py.Num
import Mathlib.Data.List.Sort

/-!
# numpy / Python array primitives

Meaning of the numpy calls used by `/repo`, on 1-D arrays represented as lists.  These are the *library* operations
(trusted reading of numpy's documentation), not code of `/repo`.
-/

namespace Proadv

variable {F : Type} {α : Type}

/-- Python index normalisation: negative indices count from the end, `none` = IndexError. -/
def pyIdx (n : Nat) (i : Int) : Option Nat :=
  if 0 ≤ i then (if i.toNat < n then some i.toNat else none)
  else (if 0 ≤ (n : Int) + i then some ((n : Int) + i).toNat else none)

/-- `a[i]` -/
def getIdx (l : List α) (i : Int) : Py α :=
  match pyIdx l.length i with
  | none => .error .indexError
  | some k => match l[k]? with
    | some x => .ok x
    | none => .error .indexError

/-- `a[i] = x` (on a private copy of the array) -/
def setIdx (l : List α) (i : Int) (x : α) : Py (List α) :=
  match pyIdx l.length i with
  | none => .error .indexError
  | some k => .ok (l.set k x)

/-- `a[idx] = x` for an integer index array and a scalar -/
def setMany (l : List α) (idx : List Int) (x : α) : Py (List α) :=
  idx.foldlM (fun a i => setIdx a i x) l

/-- `np.nonzero(mask)[0]` / `np.where(mask)[0]`: increasing indices of the true entries -/
def whereTrue (mask : List Bool) : List Nat :=
  (List.range mask.length).filter (fun i => mask.getD i false)

/-- `np.sort(np.unique(idx))` on an index array -/
def uniqueNat (l : List Nat) : List Nat := (l.insertionSort (· ≤ ·)).dedup

/-- `np.intersect1d(a, b)` on index arrays: sorted distinct common values -/
def intersect1d (a b : List Nat) : List Nat := uniqueNat (a.filter (fun i => decide (i ∈ b)))

/-- Python slice `l[a:b]` for `0 ≤ a`, `0 ≤ b` (clipped to the array). -/
def slice (l : List α) (a b : Nat) : List α := (l.take b).drop a

/-- Broadcasting element-wise operation on two 1-D arrays. -/
def bcast {β γ : Type} (f : α → β → γ) (a : List α) (b : List β) : Py (List γ) :=
  if a.length = b.length then .ok (List.zipWith f a b)
  else match a, b with
    | [x], _ => .ok (b.map (f x))
    | _, [y] => .ok (a.map (fun x => f x y))
    | _, _ => .error .valueError

section Num
variable [PyNum F]

/-- `np.diff(a)` -/
def diff (l : List F) : List F := List.zipWith (fun x y => y -. x) l l.tail

/-- numpy's sort order: NaN last -/
def leN (a b : F) : Bool := PyNum.isNaN b || (!(PyNum.isNaN a) && (a ≤. b))

/-- `np.sort(a)` -/
def npSort (l : List F) : List F := l.insertionSort (fun a b => leN a b = true)

/-- `np.mean(a)` of a 1-D array: `sum / n` (NaN for the empty array: `0.0 / 0`) -/
def npMean (l : List F) : F := PyNum.sum l /. ofNat l.length

/-- `np.var(a)`: mean of the squared deviations from the mean -/
def npVar (l : List F) : F :=
  let m := npMean l
  PyNum.sum (l.map (fun x => (x -. m) *. (x -. m))) /. ofNat l.length

/-- `np.median(a)`: NaN if any entry is NaN, otherwise the mean of the middle one or two sorted entries -/
def npMedian (l : List F) : F :=
  if l.any PyNum.isNaN then PyNum.nan
  else
    let s := npSort l
    let n := s.length
    if n = 0 then PyNum.nan
    else if n % 2 = 1 then s.getD (n / 2) PyNum.nan
    else (s.getD (n / 2 - 1) PyNum.nan +. s.getD (n / 2) PyNum.nan) /. lit 2

/-- `np.nanmean(a)`: mean of the non-NaN entries -/
def npNanmean (l : List F) : F := npMean (l.filter (fun x => !(PyNum.isNaN x)))

end Num

/-- `np.std(a)` -/
def npStd [PyMath F] (l : List F) : F := PyMath.sqrt (npVar l)

end Proadv
