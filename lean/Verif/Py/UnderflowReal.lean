import Verif.Lemmas.RoundMonoReal

/-!
# Binary64 with gradual underflow, over the reals

As `rndSub` of `Py/Underflow.lean`, for real numbers: below `2⁻¹⁰²²` the representable numbers are the multiples of `2⁻¹⁰⁷⁴`.
Not modelled: overflow.
-/

namespace Proadv

open Fl

/-- 53 significant bits, ties to even, gradual underflow -/
noncomputable def rndSubR (x : ℝ) : ℝ :=
  if |x| < 2 ^ (-1022 : ℤ) then (rint (x / 2 ^ (-1074 : ℤ)) : ℝ) * 2 ^ (-1074 : ℤ) else rnd53R x

/-- the arithmetic, with left-to-right summation -/
noncomputable def bin64gR : Arith ℝ := leftArith rndSubR

theorem rndSubR_normal {x : ℝ} (h : 2 ^ (-1022 : ℤ) ≤ |x|) : rndSubR x = rnd53R x := by
  unfold rndSubR; rw [if_neg (not_lt.mpr h)]

theorem rndSubR_nonneg {x : ℝ} (h : 0 ≤ x) : 0 ≤ rndSubR x := by
  unfold rndSubR
  split_ifs
  · have h1 : (((0 : ℤ)) : ℝ) ≤ x / 2 ^ (-1074 : ℤ) := by push_cast; positivity
    have := rint_mono h1
    rw [rint_int] at this
    have : (0 : ℝ) ≤ (rint (x / 2 ^ (-1074 : ℤ)) : ℝ) := by exact_mod_cast this
    positivity
  · have := rnd53R_mono h
    rwa [rnd53R_rounding.zero] at this

theorem rndSubR_nonpos {x : ℝ} (h : x ≤ 0) : rndSubR x ≤ 0 := by
  unfold rndSubR
  split_ifs
  · have h1 : x / 2 ^ (-1074 : ℤ) ≤ (((0 : ℤ)) : ℝ) := by
      push_cast; exact div_nonpos_of_nonpos_of_nonneg h (by positivity)
    have := rint_mono h1
    rw [rint_int] at this
    have : (rint (x / 2 ^ (-1074 : ℤ)) : ℝ) ≤ 0 := by exact_mod_cast this
    exact mul_nonpos_of_nonpos_of_nonneg this (by positivity)
  · have := rnd53R_mono h
    rwa [rnd53R_rounding.zero] at this

theorem rndSubR_zero : rndSubR 0 = 0 := le_antisymm (rndSubR_nonpos le_rfl) (rndSubR_nonneg le_rfl)

/-- numbers below half of the smallest positive float become zero -/
theorem rndSubR_flush {x : ℝ} (h0 : 0 ≤ x) (h : x < 2 ^ (-1075 : ℤ)) : rndSubR x = 0 := by
  have hp : (0 : ℝ) < 2 ^ (-1074 : ℤ) := by positivity
  have e : (2 : ℝ) ^ (-1075 : ℤ) = 1 / 2 * 2 ^ (-1074 : ℤ) := by
    rw [show (-1075 : ℤ) = -1 + -1074 by norm_num, zpow_add₀ (by norm_num)]; norm_num
  have h1 : x / 2 ^ (-1074 : ℤ) < 1 / 2 := by rw [div_lt_iff₀ hp, ← e]; exact h
  have h2 : 0 ≤ x / 2 ^ (-1074 : ℤ) := by positivity
  have hr : rint (x / 2 ^ (-1074 : ℤ)) = 0 := by
    unfold rint
    have hf : ⌊x / 2 ^ (-1074 : ℤ)⌋ = 0 := by rw [Int.floor_eq_iff]; push_cast; constructor <;> linarith
    simp only [hf]
    rw [if_pos (by push_cast; linarith)]
  have h3 : |x| < 2 ^ (-1022 : ℤ) := by
    rw [abs_of_nonneg h0]
    exact h.trans (zpow_lt_zpow_right₀ (by norm_num) (by norm_num))
  unfold rndSubR
  rw [if_pos h3, hr]; simp

/-- numbers of ordinary size: relative error `2⁻⁵³` -/
theorem rndSubR_near {x : ℝ} (h : 1 / 1024 ≤ |x|) : |rndSubR x - x| ≤ 1 / 2 ^ 53 * |x| := by
  have : (2 : ℝ) ^ (-1022 : ℤ) ≤ 1 / 1024 := by
    have : (2 : ℝ) ^ (-1022 : ℤ) ≤ 2 ^ (-10 : ℤ) := zpow_le_zpow_right₀ (by norm_num) (by norm_num)
    exact this.trans (by norm_num)
  rw [rndSubR_normal (this.trans h)]
  exact rnd53R_near x

/-- small integers and their halves are exact -/
theorem rndSubR_half_nat (n : ℕ) (hn : n ≤ 1024) : rndSubR (n / 2) = n / 2 := by
  rcases Nat.eq_zero_or_pos n with rfl | hp
  · simpa using rndSubR_zero
  · have h1 : (1 : ℝ) ≤ n := by exact_mod_cast hp
    have hs : (2 : ℝ) ^ (-1022 : ℤ) ≤ 2 ^ (-10 : ℤ) := zpow_le_zpow_right₀ (by norm_num) (by norm_num)
    rw [rndSubR_normal]
    · have := rnd53R_rep (n : ℤ) (-1) (by rw [abs_of_nonneg (by positivity)]; push_cast; exact_mod_cast le_trans hn (by norm_num))
      have e : ((n : ℤ) : ℝ) * 2 ^ (-1 : ℤ) = n / 2 := by push_cast; rw [zpow_neg_one]; ring
      rwa [e] at this
    · rw [abs_of_pos (by positivity)]
      refine hs.trans ?_
      norm_num
      linarith

end Proadv
