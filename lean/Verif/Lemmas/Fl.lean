import Mathlib.Tactic.Linarith
import Verif.Py.Array
import Verif.Py.Real

/-! # Computation lemmas for the exact instance `Fl K` -/

set_option linter.unusedSectionVars false

namespace Proadv

open Fl

variable {K : Type} [Field K] [LinearOrder K] [FloorRing K]

/-- a list of ordinary numbers seen as floats -/
abbrev fins (xs : List K) : List (Fl K) := xs.map Fl.fin

namespace Fl

@[simp] theorem padd_fin (a b : K) : (fin a : Fl K) +. fin b = fin (a + b) := rfl
@[simp] theorem psub_fin (a b : K) : (fin a : Fl K) -. fin b = fin (a - b) := rfl
@[simp] theorem pmul_fin (a b : K) : (fin a : Fl K) *. fin b = fin (a * b) := rfl
theorem pdiv_fin' (a b : K) : (fin a : Fl K) /. fin b = if b = 0 then infSgn a else fin (a / b) := rfl
theorem pdiv_fin {a b : K} (h : b ≠ 0) : (fin a : Fl K) /. fin b = fin (a / b) := by simp [pdiv_fin', h]
@[simp] theorem pneg_fin (a : K) : PyNum.neg (fin a : Fl K) = fin (-a) := rfl
@[simp] theorem pabs_fin (a : K) : PyNum.abs (fin a : Fl K) = fin |a| := rfl
@[simp] theorem plt_fin (a b : K) : ((fin a : Fl K) <. fin b) = decide (a < b) := rfl
@[simp] theorem ple_fin (a b : K) : ((fin a : Fl K) ≤. fin b) = decide (a ≤ b) := rfl
@[simp] theorem peq_fin (a b : K) : ((fin a : Fl K) ==. fin b) = decide (a = b) := rfl
@[simp] theorem isNaN_fin (a : K) : PyNum.isNaN (fin a : Fl K) = false := rfl
@[simp] theorem isNaN_nan : PyNum.isNaN (nan : Fl K) = true := rfl
@[simp] theorem isNaN_pinf : PyNum.isNaN (pinf : Fl K) = false := rfl
@[simp] theorem isNaN_ninf : PyNum.isNaN (ninf : Fl K) = false := rfl
@[simp] theorem pynan : (PyNum.nan : Fl K) = nan := rfl
@[simp] theorem lit_eq (q : ℚ) : (lit q : Fl K) = fin (q : K) := rfl
@[simp] theorem ofRat_eq (q : ℚ) : (PyNum.ofRat q : Fl K) = fin (q : K) := rfl
@[simp] theorem pnpow_fin (a : K) (n : Nat) : (fin a : Fl K) ^. n = fin (a ^ n) := by
  cases n with
  | zero => show fin 1 = _; simp
  | succ n => rfl
@[simp] theorem paround_fin (a : K) (d : Int) : PyNum.around (fin a : Fl K) d = fin (aroundK a d) := rfl
@[simp] theorem pcast_fin (a : K) : PyNum.castInt (fin a : Fl K) = fin (truncK a : K) := rfl

@[simp] theorem nan_add (x : Fl K) : nan +. x = nan := rfl
@[simp] theorem add_nan (x : Fl K) : x +. nan = nan := by cases x <;> rfl
@[simp] theorem nan_sub (x : Fl K) : nan -. x = nan := by cases x <;> rfl
@[simp] theorem sub_nan (x : Fl K) : x -. nan = nan := by cases x <;> rfl
@[simp] theorem nan_mul (x : Fl K) : nan *. x = nan := rfl
@[simp] theorem mul_nan (x : Fl K) : x *. nan = nan := by cases x <;> rfl
@[simp] theorem nan_div (x : Fl K) : nan /. x = nan := rfl
@[simp] theorem div_nan (x : Fl K) : x /. nan = nan := by cases x <;> rfl
@[simp] theorem neg_nan : PyNum.neg (nan : Fl K) = nan := rfl
@[simp] theorem abs_nan : PyNum.abs (nan : Fl K) = nan := rfl
@[simp] theorem nan_lt (x : Fl K) : (nan <. x) = false := rfl
@[simp] theorem lt_nan (x : Fl K) : (x <. nan) = false := by cases x <;> rfl
@[simp] theorem nan_le (x : Fl K) : (nan ≤. x) = false := rfl
@[simp] theorem le_nan (x : Fl K) : (x ≤. nan) = false := by cases x <;> rfl
@[simp] theorem nan_eq (x : Fl K) : (nan ==. x) = false := rfl
@[simp] theorem eq_nan (x : Fl K) : (x ==. nan) = false := by cases x <;> rfl

theorem foldl_add_fin (xs : List K) (a : K) :
    (fins xs).foldl Fl.add (fin a) = fin (a + xs.sum) := by
  induction xs generalizing a with
  | nil => simp
  | cons x t ih =>
    have : Fl.add (fin a) (fin x) = fin (a + x) := rfl
    simp only [List.map_cons, List.foldl_cons, this, List.sum_cons]
    rw [ih, add_assoc]

@[simp] theorem psum_fin (xs : List K) : PyNum.sum (fins xs) = fin xs.sum := by
  show (fins xs).foldl Fl.add (fin 0) = _
  rw [foldl_add_fin, zero_add]

theorem foldl_add_nan (l : List (Fl K)) : l.foldl Fl.add nan = nan := by
  induction l with
  | nil => rfl
  | cons x t ih =>
    have : Fl.add nan x = nan := rfl
    simp [this, ih]

/-- a NaN anywhere makes the sum NaN -/
theorem psum_nan (l : List (Fl K)) (h : nan ∈ l) : PyNum.sum l = (nan : Fl K) := by
  show l.foldl Fl.add (fin 0) = _
  generalize (fin 0 : Fl K) = a
  induction l generalizing a with
  | nil => simp at h
  | cons x t ih =>
    rcases List.mem_cons.mp h with rfl | h
    · have : Fl.add a nan = nan := add_nan a
      simp [this, foldl_add_nan]
    · exact ih h _

variable [IsStrictOrderedRing K]

@[simp] theorem ofNat_eq (n : Nat) : (Proadv.ofNat n : Fl K) = fin (n : K) := by
  simp [Proadv.ofNat]

end Fl

section
variable [IsStrictOrderedRing K]

theorem npMean_fins (xs : List K) (h : xs ≠ []) :
    npMean (fins xs) = fin (xs.sum / (xs.length : K)) := by
  have : (xs.length : K) ≠ 0 := by
    simpa using h
  unfold npMean
  rw [psum_fin, ofNat_eq, List.length_map, pdiv_fin this]

end

namespace Fl
theorem psqrt_fin {a : ℝ} (h : 0 ≤ a) : PyMath.sqrt (fin a : Fl ℝ) = fin (√a) := by
  show (if a < 0 then nan else fin (√a)) = _
  rw [if_neg (not_lt.mpr h)]
theorem psqrt_neg {a : ℝ} (h : a < 0) : PyMath.sqrt (fin a : Fl ℝ) = nan := by
  show (if a < 0 then nan else fin (√a)) = _
  rw [if_pos h]
theorem plog_fin {a : ℝ} (h : 0 < a) : PyMath.log (fin a : Fl ℝ) = fin (Real.log a) := by
  show (if a < 0 then nan else if a = 0 then ninf else fin (Real.log a)) = _
  rw [if_neg (not_lt.mpr h.le), if_neg h.ne']
@[simp] theorem pexp_fin (a : ℝ) : PyMath.exp (fin a : Fl ℝ) = fin (Real.exp a) := rfl
@[simp] theorem psin_fin (a : ℝ) : PyMath.sin (fin a : Fl ℝ) = fin (Real.sin a) := rfl
@[simp] theorem pcos_fin (a : ℝ) : PyMath.cos (fin a : Fl ℝ) = fin (Real.cos a) := rfl
@[simp] theorem ptan_fin (a : ℝ) : PyMath.tan (fin a : Fl ℝ) = fin (Real.tan a) := rfl
@[simp] theorem parctan_fin (a : ℝ) : PyMath.arctan (fin a : Fl ℝ) = fin (Real.arctan a) := rfl
@[simp] theorem parctan2_fin (y x : ℝ) : PyMath.arctan2 (fin y : Fl ℝ) (fin x) = fin (Complex.arg ⟨x, y⟩) := rfl
@[simp] theorem perf_fin (a : ℝ) : PyMath.erf (fin a : Fl ℝ) = fin (erfR a) := rfl
@[simp] theorem perfc_fin (a : ℝ) : PyMath.erfc (fin a : Fl ℝ) = fin (1 - erfR a) := rfl
@[simp] theorem ppi : (PyMath.pi : Fl ℝ) = fin Real.pi := rfl
@[simp] theorem psqrt_nan : PyMath.sqrt (nan : Fl ℝ) = nan := rfl
@[simp] theorem plog_nan : PyMath.log (nan : Fl ℝ) = nan := rfl
@[simp] theorem pexp_nan : PyMath.exp (nan : Fl ℝ) = nan := rfl
@[simp] theorem psin_nan : PyMath.sin (nan : Fl ℝ) = nan := rfl
@[simp] theorem pcos_nan : PyMath.cos (nan : Fl ℝ) = nan := rfl
@[simp] theorem parctan_nan : PyMath.arctan (nan : Fl ℝ) = nan := rfl
end Fl

section round
variable {K : Type} [Field K] [LinearOrder K] [FloorRing K] [IsStrictOrderedRing K]

theorem rint_int (z : ℤ) : rint (z : K) = z := by
  unfold rint
  simp

/-- `rint` moves a number by at most one half -/
theorem abs_rint_sub (x : K) : |(rint x : K) - x| ≤ 1 / 2 := by
  have h0 := Int.floor_le x
  have h1 := Int.lt_floor_add_one x
  unfold rint
  simp only
  split
  · rw [abs_le]; constructor <;> linarith
  · split
    · push_cast; rw [abs_le]; constructor <;> linarith
    · split
      · rw [abs_le]; constructor <;> linarith
      · push_cast; rw [abs_le]; constructor <;> linarith

end round

end Proadv
