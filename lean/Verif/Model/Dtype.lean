import Verif.Py.Array
import Mathlib.Data.Fintype.Basic

/-!
# Model of `trivariatekernel._type`

The only function of the package whose result depends on the dtype of its arguments beyond "integer or float".
-/

namespace Proadv.Dtype

open Proadv

/-- kinds of numpy element types, as far as `np.common_type` distinguishes them; `other` are strings, objects, dates, ..
— trivariatekernel.py:296. -/
inductive DType where
  | bool | int | half | single | double | longdouble | csingle | cdouble | clongdouble | other
deriving DecidableEq, Repr

/-- every element type, so that statements about all of them are decidable -/
instance : Fintype DType where
  elems := {.bool, .int, .half, .single, .double, .longdouble, .csingle, .cdouble, .clongdouble, .other}
  complete := by intro t; cases t <;> decide

/-- precision of one argument in `np.common_type`: integers count as double, non-numeric (and boolean) types are a TypeError
— trivariatekernel.py:296. -/
def precision : DType → Py Nat
  | .int => .ok 2
  | .half => .ok 0
  | .single | .csingle => .ok 1
  | .double | .cdouble => .ok 2
  | .longdouble | .clongdouble => .ok 3
  | .bool | .other => .error .typeError

/-- `np.iscomplexobj` — trivariatekernel.py:296. -/
def isComplex : DType → Bool
  | .csingle | .cdouble | .clongdouble => true
  | _ => false

/-- the table of `np.common_type`; there is no complex half (`None`, so `np.dtype(None)` is double) — unreachable, since a complex
argument has precision at least 1 — trivariatekernel.py:296. -/
def ofPrecision (cplx : Bool) : Nat → DType
  | 0 => if cplx then .double else .half
  | 1 => if cplx then .csingle else .single
  | 2 => if cplx then .cdouble else .double
  | _ => if cplx then .clongdouble else .longdouble

/-- `np.common_type(a, b)` — trivariatekernel.py:296. -/
def commonType (a b : DType) : Py DType := do
  let p ← precision a
  let q ← precision b
  .ok (ofPrecision (isComplex a || isComplex b) (Max.max p q))

/-- `np.dtype(t).itemsize` of the inexact types; `ld` is the size of a long double on the platform (8, 12 or 16)
— trivariatekernel.py:297. -/
def itemsize (ld : Nat) : DType → Nat
  | .half => 2
  | .single => 4
  | .double => 8
  | .longdouble => ld
  | .csingle => 8
  | .cdouble => 16
  | .clongdouble => 2 * ld
  | .bool => 1
  | .int | .other => 8

/-- the second result of `_type`: the name of a kernel, or the item size left unchanged
— trivariatekernel.py:298-304. -/
inductive Mode where
  | float | double | longDouble | size (n : Nat)
deriving DecidableEq, Repr

/-- `trivariatekernel._type` — trivariatekernel.py:282-304. -/
def typeOf (ld : Nat) (cov scatt : DType) : Py (DType × Mode) := do
  let t ← commonType cov scatt
  let n := itemsize ld t
  if n = 4 then .ok (t, .float)
  else if n = 8 then .ok (t, .double)
  else if n = 12 ∨ n = 16 then .ok (t, .longDouble)
  else .ok (t, .size n)

end Proadv.Dtype
