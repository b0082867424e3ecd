import Verif.Py.Num
import Mathlib.Analysis.SpecialFunctions.Pow.Real
import Mathlib.Analysis.SpecialFunctions.Complex.Arg
import Mathlib.Analysis.SpecialFunctions.Trigonometric.Arctan
import Mathlib.Analysis.SpecialFunctions.Sqrt
import Mathlib.MeasureTheory.Integral.IntervalIntegral.Basic
import Mathlib.Algebra.Order.Archimedean.Real.Basic

/-!
# Exact transcendental functions on `Fl ℝ`

The value-level theorems that involve `sqrt`, `log`, `exp`, trigonometric functions or `erf` are proved for this
instance: each library function returns the mathematically exact real, with numpy's conventions at the special values.
-/

namespace Proadv

open Real MeasureTheory

/-- The error function `2/√π ∫₀ˣ exp(-t²) dt`. -/
noncomputable def erfR (x : ℝ) : ℝ := 2 / √π * ∫ t in (0 : ℝ)..x, Real.exp (-t ^ 2)

namespace Fl

noncomputable section

def sqrtR : Fl ℝ → Fl ℝ
  | fin a => if a < 0 then nan else fin (√a)
  | pinf => pinf
  | _ => nan

def logR : Fl ℝ → Fl ℝ
  | fin a => if a < 0 then nan else if a = 0 then ninf else fin (Real.log a)
  | pinf => pinf
  | _ => nan

def expR : Fl ℝ → Fl ℝ
  | fin a => fin (Real.exp a)
  | pinf => pinf
  | ninf => fin 0
  | nan => nan

/-- sine, cosine, tangent of a non-finite argument are NaN -/
def trig (f : ℝ → ℝ) : Fl ℝ → Fl ℝ
  | fin a => fin (f a)
  | _ => nan

def arctanR : Fl ℝ → Fl ℝ
  | fin a => fin (Real.arctan a)
  | pinf => fin (π / 2)
  | ninf => fin (-(π / 2))
  | nan => nan

/-- `np.arctan2(y, x)`; the finite case is the argument of the complex number `x + i y`. -/
def arctan2R : Fl ℝ → Fl ℝ → Fl ℝ
  | nan, _ => nan
  | _, nan => nan
  | fin y, fin x => fin (Complex.arg ⟨x, y⟩)
  | pinf, fin _ => fin (π / 2)
  | ninf, fin _ => fin (-(π / 2))
  | fin _, pinf => fin 0
  | fin y, ninf => fin (if 0 ≤ y then π else -π)
  | pinf, pinf => fin (π / 4)
  | pinf, ninf => fin (3 * π / 4)
  | ninf, pinf => fin (-(π / 4))
  | ninf, ninf => fin (-(3 * π / 4))

def erfF : Fl ℝ → Fl ℝ
  | fin a => fin (erfR a)
  | pinf => fin 1
  | ninf => fin (-1)
  | nan => nan

def erfcF : Fl ℝ → Fl ℝ
  | fin a => fin (1 - erfR a)
  | pinf => fin 0
  | ninf => fin 2
  | nan => nan

/-- `x ** y` for floats.  Finite operands follow C `pow`; for infinite operands only the sign-insensitive cases
needed by the code are detailed. -/
def rpowR : Fl ℝ → Fl ℝ → Fl ℝ
  | fin a, fin b =>
    if b = 0 then fin 1
    else if 0 < a then fin (a ^ b)
    else if a = 0 then (if 0 < b then fin 0 else pinf)
    else if (⌊b⌋ : ℝ) = b then fin (a ^ ⌊b⌋) else nan
  | pinf, fin b => if b = 0 then fin 1 else if 0 < b then pinf else fin 0
  | _, fin b => if b = 0 then fin 1 else nan
  | _, _ => nan

instance instPyMath : PyMath (Fl ℝ) where
  toPyNum := Fl.instPyNum
  sqrt := sqrtR
  log := logR
  exp := expR
  sin := trig Real.sin
  cos := trig Real.cos
  tan := trig Real.tan
  arctan := arctanR
  arctan2 := arctan2R
  erf := erfF
  erfc := erfcF
  rpow := rpowR
  pi := fin π

end

end Fl

end Proadv
