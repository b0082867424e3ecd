import Verif.Py.Real
import Verif.Py.Round
import Verif.Py.Underflow
import Verif.Lemmas.Round

/-!
# Square roots and other library functions with rounding

`Rd A` over the reals, with every library function rounded once after the exact result.  IEEE 754 requires this of `sqrt`; of
the other members only `log`, `exp` and `erfc` are used, and only in C244 (`Libm.lean` gives them an error of their own).  `KeepsSign` is what `np.std` needs so that the radicand
is not negative; it holds of every monotone rounding that fixes 0.
-/

namespace Proadv

open Real

namespace Rd

noncomputable section

instance instPyMath (A : Arith ℝ) : PyMath (Rd A) where
  toPyNum := Rd.instPyNum A
  sqrt x := round A (Fl.sqrtR x)
  log x := round A (Fl.logR x)
  exp x := round A (Fl.expR x)
  sin x := round A (Fl.trig Real.sin x)
  cos x := round A (Fl.trig Real.cos x)
  tan x := round A (Fl.trig Real.tan x)
  arctan x := round A (Fl.arctanR x)
  arctan2 y x := round A (Fl.arctan2R y x)
  erf x := round A (Fl.erfF x)
  erfc x := round A (Fl.erfcF x)
  rpow x y := round A (Fl.rpowR x y)
  pi := fin A (A.rnd π)

theorem sqrt_fin (A : Arith ℝ) {x : ℝ} (h : 0 ≤ x) : PyMath.sqrt (fin A x) = fin A (A.rnd (√x)) := by
  show round A (Fl.sqrtR (Fl.fin x)) = _
  unfold Fl.sqrtR
  simp only
  rw [if_neg (not_lt.mpr h)]
  rfl

end

end Rd

/-- rounding and summation keep non-negative numbers non-negative -/
structure KeepsSign (A : Arith ℝ) : Prop where
  rnd : ∀ x, 0 ≤ x → 0 ≤ A.rnd x
  sum : ∀ xs : List ℝ, (∀ x ∈ xs, 0 ≤ x) → 0 ≤ A.sum xs

theorem leftArith_keeps (rnd : ℝ → ℝ) (h : ∀ x, 0 ≤ x → 0 ≤ rnd x) : KeepsSign (leftArith rnd) where
  rnd := h
  sum := by
    have key : ∀ (xs : List ℝ) (s : ℝ), 0 ≤ s → (∀ x ∈ xs, 0 ≤ x) → 0 ≤ xs.foldl (fun s x => rnd (s + x)) s := by
      intro xs
      induction xs with
      | nil => intro s hs _; exact hs
      | cons x t ih =>
        intro s hs hx
        exact ih _ (h _ (add_nonneg hs (hx x (by simp)))) (fun y hy => hx y (by simp [hy]))
    exact fun xs hx => key xs 0 le_rfl hx

/-! ## 53 significant bits over the reals -/

/-- rounding a real to 53 significant bits, ties to even -/
noncomputable def rnd53R (x : ℝ) : ℝ :=
  if x = 0 then 0 else
    let e : ℤ := Int.log 2 |x| - 52
    (Fl.rint (x / 2 ^ e) : ℝ) * 2 ^ e

theorem rnd53R_near (x : ℝ) : |rnd53R x - x| ≤ 1 / 2 ^ 53 * |x| := by
  unfold rnd53R
  split_ifs with hx
  · simp [hx]
  · set e : ℤ := Int.log 2 |x| - 52 with he
    have hp : (0 : ℝ) < 2 ^ e := by positivity
    have h1 : ((Fl.rint (x / 2 ^ e) : ℤ) : ℝ) * 2 ^ e - x = ((Fl.rint (x / 2 ^ e) : ℝ) - x / 2 ^ e) * 2 ^ e := by
      field_simp
    rw [h1, abs_mul, abs_of_pos hp]
    have h2 := abs_rint_sub (x / 2 ^ e)
    have h3 : (2 : ℝ) ^ Int.log 2 |x| ≤ |x| := Int.zpow_log_le_self (by norm_num) (abs_pos.mpr hx)
    have h4 : (2 : ℝ) ^ Int.log 2 |x| = 2 ^ e * 2 ^ 52 := by
      rw [show Int.log 2 |x| = e + (52 : ℕ) by rw [he]; push_cast; ring, zpow_add₀ (by norm_num), zpow_natCast]
    rw [h4] at h3
    have h5 := mul_le_mul_of_nonneg_right h2 hp.le
    refine h5.trans ?_
    rw [show (1 : ℝ) / 2 * 2 ^ e = 1 / 2 ^ 53 * (2 ^ e * 2 ^ 52) by ring]
    exact mul_le_mul_of_nonneg_left h3 (by positivity)

/-- 53 significant bits, left-to-right summation -/
noncomputable def bin64R : Arith ℝ := leftArith rnd53R

theorem bin64R_std : Std bin64R (1 / 2 ^ 53) := leftArith_std rnd53R _ (by positivity) rnd53R_near

theorem bin64R_keeps : KeepsSign bin64R := by
  refine leftArith_keeps rnd53R (fun x hx => ?_)
  have h := abs_le.mp (rnd53R_near x)
  rw [abs_of_nonneg hx] at h
  nlinarith [h.1]

/-- natural numbers below `2⁵³` are exact -/
theorem rnd53R_nat (n : ℕ) (h : n < 2 ^ 53) : bin64R.rnd n = n := by
  show rnd53R n = n
  unfold rnd53R
  split_ifs with hx
  · rw [hx]
  · set e : ℤ := Int.log 2 |(n : ℝ)| - 52 with he
    have hpos : 0 < |(n : ℝ)| := abs_pos.mpr hx
    have h1 : (2 : ℝ) ^ Int.log 2 |(n : ℝ)| ≤ |(n : ℝ)| := Int.zpow_log_le_self (by norm_num) hpos
    have h2 : |(n : ℝ)| < 2 ^ (53 : ℤ) := by
      rw [abs_of_nonneg (by positivity)]; exact_mod_cast h
    have h3 : Int.log 2 |(n : ℝ)| < 53 := (zpow_lt_zpow_iff_right₀ (by norm_num : (1 : ℝ) < 2)).mp (h1.trans_lt h2)
    obtain ⟨k, hk⟩ : ∃ k : ℕ, e = -(k : ℤ) := ⟨(-e).toNat, by omega⟩
    show ((Fl.rint ((n : ℝ) / 2 ^ e) : ℤ) : ℝ) * 2 ^ e = n
    rw [hk, zpow_neg, zpow_natCast, div_inv_eq_mul]
    have h4 : (n : ℝ) * 2 ^ k = ((n * 2 ^ k : ℤ) : ℝ) := by push_cast; ring
    rw [h4, rint_int]
    push_cast
    field_simp

end Proadv
