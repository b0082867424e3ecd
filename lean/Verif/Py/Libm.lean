import Verif.Py.RoundReal

/-!
# `exp`, `log`, `erf` and `erfc` with an error of their own

No standard requires a library to round these functions correctly.  `Rm A L` is `Rd A` with the four functions replaced by
arbitrary real functions `L.exp`, …; the contract `L.Acc ε` bounds their relative error by `ε` (a few units of `2⁻⁵³` for the usual
libraries).
-/

namespace Proadv

open Real

/-- library functions, on finite arguments -/
structure Libm where
  exp : ℝ → ℝ
  log : ℝ → ℝ
  erf : ℝ → ℝ
  erfc : ℝ → ℝ

/-- relative error at most `ε` -/
structure Libm.Acc (L : Libm) (ε : ℝ) : Prop where
  nonneg : 0 ≤ ε
  exp : ∀ x, |L.exp x - Real.exp x| ≤ ε * Real.exp x
  log : ∀ x, 0 < x → |L.log x - Real.log x| ≤ ε * |Real.log x|
  erf : ∀ x, |L.erf x - erfR x| ≤ ε * |erfR x|
  erfc : ∀ x, |L.erfc x - (1 - erfR x)| ≤ ε * |1 - erfR x|

/-- values computed with the arithmetic `A` and the library `L` -/
def Rm (_ : Arith ℝ) (_ : Libm) : Type := Fl ℝ

namespace Rm

noncomputable section

/-- an ordinary number -/
def fin (A : Arith ℝ) (L : Libm) (x : ℝ) : Rm A L := Fl.fin x

/-- minus infinity -/
def ninf (A : Arith ℝ) (L : Libm) : Rm A L := Fl.ninf

/-- a library function on special values: the limits at infinity, NaN for NaN -/
def lift (f : ℝ → ℝ) (top bot : ℝ) : Fl ℝ → Fl ℝ
  | .fin a => .fin (f a)
  | .pinf => .fin top
  | .ninf => .fin bot
  | .nan => .nan

/-- a logarithm on special values -/
def liftLog (f : ℝ → ℝ) : Fl ℝ → Fl ℝ
  | .fin a => if a < 0 then .nan else if a = 0 then .ninf else .fin (f a)
  | .pinf => .pinf
  | _ => .nan

/-- an exponential on special values -/
def liftExp (f : ℝ → ℝ) : Fl ℝ → Fl ℝ
  | .fin a => .fin (f a)
  | .pinf => .pinf
  | .ninf => .fin 0
  | .nan => .nan

instance instPyMath (A : Arith ℝ) (L : Libm) : PyMath (Rm A L) :=
  { Rd.instPyMath A with
    exp := liftExp L.exp
    log := liftLog L.log
    erf := lift L.erf 1 (-1)
    erfc := lift L.erfc 0 2 }

end

variable (A : Arith ℝ) (L : Libm)

theorem add_fin (a b : ℝ) : fin A L a +. fin A L b = fin A L (A.rnd (a + b)) := rfl
theorem sub_fin (a b : ℝ) : fin A L a -. fin A L b = fin A L (A.rnd (a - b)) := rfl
theorem mul_fin (a b : ℝ) : fin A L a *. fin A L b = fin A L (A.rnd (a * b)) := rfl
theorem div_fin {a b : ℝ} (h : b ≠ 0) : fin A L a /. fin A L b = fin A L (A.rnd (a / b)) := Rd.div_fin A h
theorem lt_fin (a b : ℝ) : (fin A L a <. fin A L b) = decide (a < b) := rfl
theorem lit_fin (q : ℚ) : (lit q : Rm A L) = fin A L (A.rnd (q : ℝ)) := rfl
theorem abs_fin (a : ℝ) : PyNum.abs (fin A L a) = fin A L |a| := rfl
theorem erf_fin (a : ℝ) : PyMath.erf (fin A L a) = fin A L (L.erf a) := rfl
theorem erfc_fin (a : ℝ) : PyMath.erfc (fin A L a) = fin A L (L.erfc a) := rfl
theorem sqrt_fin {x : ℝ} (h : 0 ≤ x) : PyMath.sqrt (fin A L x) = fin A L (A.rnd (√x)) := Rd.sqrt_fin A h
theorem npow_fin (a : ℝ) (n : ℕ) : (fin A L a) ^. n = fin A L (A.rnd (a ^ n)) := by
  show Rd.round A (Fl.npow (Fl.fin a) n) = _
  have : Fl.npow (Fl.fin a) n = Fl.fin (a ^ n) := Fl.pnpow_fin a n
  rw [this]; rfl
theorem pi_fin : (PyMath.pi : Rm A L) = fin A L (A.rnd π) := rfl
theorem exp_fin (a : ℝ) : PyMath.exp (fin A L a) = fin A L (L.exp a) := rfl

theorem log_zero : PyMath.log (fin A L 0) = ninf A L := by
  show liftLog L.log (Fl.fin 0) = _
  unfold liftLog; simp; rfl

theorem log_fin {a : ℝ} (h : 0 < a) : PyMath.log (fin A L a) = fin A L (L.log a) := by
  show liftLog L.log (Fl.fin a) = _
  unfold liftLog; simp only
  rw [if_neg (not_lt.mpr h.le), if_neg h.ne']; rfl

end Rm

end Proadv
