import Mathlib.Algebra.Order.Floor.Ring
import Mathlib.Algebra.Order.Field.Basic
import Mathlib.Algebra.Field.Rat
import Mathlib.Data.Rat.Cast.Order
import Mathlib.Data.Rat.Floor
import Mathlib.Algebra.BigOperators.Group.List.Basic

/-!
# Python exceptions and the float layer

`PyNum F` / `PyMath F` list the primitive float operations the code of `/repo` uses (numpy scalars and element-wise
ufuncs).  **No law is part of the classes**: a theorem stated for every `[PyNum F]` therefore holds for IEEE
binary64 with its rounding, for numpy's pairwise summation order, etc.

`Fl K` is the exact instance: an element of an ordered field `K`, or one of the IEEE special values.
Simplifications of `Fl K` (recorded in DESIGN.md): no rounding error, no overflow, a single (positive) zero.
-/

namespace Proadv

/-- The exception classes raised by the modelled code (or by the numpy calls it makes). -/
inductive PyErr where
  | valueError | typeError | indexError | attributeError | zeroDivisionError | linAlgError
  | notImplementedError | assertionError
  deriving DecidableEq, Repr

/-- A Python computation that may raise. -/
abbrev Py (α : Type) := Except PyErr α

deriving instance DecidableEq for Except

/-- Primitive float operations (numpy float64 scalars / element-wise ufuncs).  Law-free. -/
class PyNum (F : Type) where
  /-- float addition -/
  add : F → F → F
  /-- float subtraction -/
  sub : F → F → F
  /-- float multiplication -/
  mul : F → F → F
  /-- float division (numpy: never raises) -/
  div : F → F → F
  neg : F → F
  abs : F → F
  /-- IEEE `<` (false when an operand is NaN). -/
  lt : F → F → Bool
  /-- IEEE `<=` (false when an operand is NaN). -/
  le : F → F → Bool
  /-- IEEE `==` (false when an operand is NaN). -/
  eq : F → F → Bool
  isNaN : F → Bool
  nan : F
  /-- literals and integer-to-float conversion -/
  ofRat : ℚ → F
  /-- `np.around(x, decimals)` -/
  around : F → Int → F
  /-- the value a float takes when stored in an integer array (C cast, truncation toward zero) -/
  castInt : F → F
  /-- `np.sum` of a 1-D array -/
  sum : List F → F
  /-- `x ** n` for a non-negative integer literal `n` -/
  npow : F → Nat → F

@[inherit_doc] scoped infixl:65 " +. " => PyNum.add
@[inherit_doc] scoped infixl:65 " -. " => PyNum.sub
@[inherit_doc] scoped infixl:70 " *. " => PyNum.mul
@[inherit_doc] scoped infixl:70 " /. " => PyNum.div
@[inherit_doc] scoped infix:50 " <. " => PyNum.lt
@[inherit_doc] scoped infix:50 " ≤. " => PyNum.le
@[inherit_doc] scoped infix:50 " ==. " => PyNum.eq
@[inherit_doc] scoped infixr:75 " ^. " => PyNum.npow

/-- A numeric literal of the source. -/
def lit {F : Type} [PyNum F] (q : ℚ) : F := PyNum.ofRat q

/-- An integer (length, index) used as a float operand. -/
def ofNat {F : Type} [PyNum F] (n : Nat) : F := PyNum.ofRat (n : ℚ)

/-- Transcendental functions. Law-free. -/
class PyMath (F : Type) extends PyNum F where
  sqrt : F → F
  log : F → F
  exp : F → F
  sin : F → F
  cos : F → F
  tan : F → F
  arctan : F → F
  /-- `np.arctan2(y, x)` -/
  arctan2 : F → F → F
  erf : F → F
  erfc : F → F
  /-- `np.power(x, y)` / `x ** y` with a float exponent -/
  rpow : F → F → F
  pi : F

/-- Exact floats: a field element, or an IEEE special value. -/
inductive Fl (K : Type) where
  | fin (x : K)
  | nan
  | pinf
  | ninf
  deriving DecidableEq, Repr

namespace Fl

variable {K : Type} [Field K] [LinearOrder K]

def add : Fl K → Fl K → Fl K
  | nan, _ => nan
  | _, nan => nan
  | fin a, fin b => fin (a + b)
  | pinf, ninf => nan
  | ninf, pinf => nan
  | pinf, _ => pinf
  | _, pinf => pinf
  | ninf, _ => ninf
  | _, ninf => ninf

def neg : Fl K → Fl K
  | fin a => fin (-a)
  | nan => nan
  | pinf => ninf
  | ninf => pinf

def sub : Fl K → Fl K → Fl K
  | fin a, fin b => fin (a - b)
  | a, b => add a (neg b)

def abs : Fl K → Fl K
  | fin a => fin |a|
  | nan => nan
  | pinf => pinf
  | ninf => pinf

/-- an infinity with the sign of `s` (`0` gives NaN: `inf * 0`) -/
def infSgn (s : K) : Fl K := if s = 0 then nan else if 0 < s then pinf else ninf

def mul : Fl K → Fl K → Fl K
  | nan, _ => nan
  | _, nan => nan
  | fin a, fin b => fin (a * b)
  | fin a, pinf => infSgn a
  | fin a, ninf => infSgn (-a)
  | pinf, fin b => infSgn b
  | ninf, fin b => infSgn (-b)
  | pinf, pinf => pinf
  | ninf, ninf => pinf
  | pinf, ninf => ninf
  | ninf, pinf => ninf

/-- IEEE division; the zero is the positive zero. -/
def div : Fl K → Fl K → Fl K
  | nan, _ => nan
  | _, nan => nan
  | fin a, fin b => if b = 0 then infSgn a else fin (a / b)
  | fin _, pinf => fin 0
  | fin _, ninf => fin 0
  | pinf, fin b => if 0 ≤ b then pinf else ninf
  | ninf, fin b => if 0 ≤ b then ninf else pinf
  | _, _ => nan

def lt : Fl K → Fl K → Bool
  | fin a, fin b => decide (a < b)
  | fin _, pinf => true
  | ninf, fin _ => true
  | ninf, pinf => true
  | _, _ => false

def le : Fl K → Fl K → Bool
  | fin a, fin b => decide (a ≤ b)
  | nan, _ => false
  | _, nan => false
  | _, pinf => true
  | ninf, _ => true
  | _, _ => false

def eq : Fl K → Fl K → Bool
  | fin a, fin b => decide (a = b)
  | pinf, pinf => true
  | ninf, ninf => true
  | _, _ => false

def isNaN : Fl K → Bool
  | nan => true
  | _ => false

def npow : Fl K → Nat → Fl K
  | _, 0 => fin 1
  | fin a, n => fin (a ^ n)
  | nan, _ => nan
  | pinf, _ => pinf
  | ninf, n => if n % 2 = 0 then pinf else ninf

/-- left-to-right sum, `0.0` for the empty array -/
def sum (l : List (Fl K)) : Fl K := l.foldl add (fin 0)

variable [FloorRing K]

/-- `rint`: nearest integer, ties to even. -/
def rint (x : K) : ℤ :=
  let f := ⌊x⌋
  if x - f < 1 / 2 then f
  else if 1 / 2 < x - f then f + 1
  else if f % 2 = 0 then f else f + 1

/-- exact `np.around`: `rint(x * 10**d) / 10**d`. -/
def aroundK (x : K) (d : Int) : K := (rint (x * (10 : K) ^ d) : K) / (10 : K) ^ d

def around : Fl K → Int → Fl K
  | fin a, d => fin (aroundK a d)
  | x, _ => x

/-- truncation toward zero -/
def truncK (x : K) : ℤ := if 0 ≤ x then ⌊x⌋ else ⌈x⌉

/-- storing in an int64 array; a NaN/inf store yields the platform's INT_MIN pattern -/
def castInt : Fl K → Fl K
  | fin a => fin (truncK a : K)
  | _ => fin (-(2 ^ 63))

instance instPyNum : PyNum (Fl K) where
  add := add
  sub := sub
  mul := mul
  div := div
  neg := neg
  abs := abs
  lt := lt
  le := le
  eq := eq
  isNaN := isNaN
  nan := nan
  ofRat q := fin (q : K)
  around := around
  castInt := castInt
  sum := sum
  npow := npow

/-- the value is an ordinary finite number -/
def isFin : Fl K → Bool
  | fin _ => true
  | _ => false

end Fl

/-- A 1-D (or other) numpy array: number of dimensions, integer dtype flag, data in C order. -/
structure Arr (F : Type) where
  ndim : Nat
  isInt : Bool
  data : List F
  deriving DecidableEq, Repr

/-- a 1-D float64 array -/
def Arr.flt {F : Type} (l : List F) : Arr F := ⟨1, false, l⟩

/-- a 1-D int64 array -/
def Arr.int {F : Type} (l : List F) : Arr F := ⟨1, true, l⟩

/-- the value actually kept when `x` is stored in an array of the given dtype -/
def store {F : Type} [PyNum F] (isInt : Bool) (x : F) : F := if isInt then PyNum.castInt x else x

end Proadv
