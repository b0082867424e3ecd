import Verif.Py.Real
import Mathlib.Probability.Distributions.Gaussian.Real
import Mathlib.Analysis.SpecialFunctions.Gaussian.GaussianIntegral
import Mathlib.MeasureTheory.Integral.IntegralEqImproper

/-! # The error function and the standard normal distribution -/

namespace Proadv

open Real MeasureTheory ProbabilityTheory Set

theorem erfR_neg (x : ℝ) : erfR (-x) = -erfR x := by
  unfold erfR
  have h := intervalIntegral.integral_comp_neg (a := 0) (b := -x) (fun t : ℝ => Real.exp (-t ^ 2))
  simp only [neg_sq, neg_zero, neg_neg] at h
  rw [h, intervalIntegral.integral_symm]
  ring

theorem gaussianPDF_std (x : ℝ) : gaussianPDFReal 0 1 x = (√(2 * π))⁻¹ * rexp (-(1 / 2) * x ^ 2) := by
  rw [gaussianPDFReal]
  simp only [NNReal.coe_one, mul_one, sub_zero]
  congr 2; ring

theorem integral_std_Iic_zero : ∫ x in Iic (0 : ℝ), gaussianPDFReal 0 1 x = 1 / 2 := by
  have h1 : ∫ x in Ioi (0 : ℝ), gaussianPDFReal 0 1 x = 1 / 2 := by
    simp only [gaussianPDF_std]
    rw [integral_const_mul, integral_gaussian_Ioi]
    have : π / (1 / 2) = 2 * π := by ring
    rw [this]
    have : √(2 * π) ≠ 0 := by positivity
    field_simp
  have h2 := integral_gaussianPDFReal_eq_one 0 (v := 1) one_ne_zero
  have h3 := integral_add_compl (measurableSet_Iic (a := (0 : ℝ))) (integrable_gaussianPDFReal 0 1)
  rw [compl_Iic, h1, h2] at h3
  linarith

/-- the distribution function of the standard normal law in terms of the error function -/
theorem gaussian_Iic (x : ℝ) : (gaussianReal 0 1 (Iic x)).toReal = 1 / 2 + 1 / 2 * erfR (x / √2) := by
  rw [gaussianReal_apply_eq_integral 0 one_ne_zero,
    ENNReal.toReal_ofReal (integral_nonneg (fun t => gaussianPDFReal_nonneg 0 1 t))]
  have hint := integrable_gaussianPDFReal 0 1
  have h := intervalIntegral.integral_Iic_sub_Iic (a := 0) (b := x) hint.integrableOn hint.integrableOn
  rw [integral_std_Iic_zero] at h
  have h2 : ∫ t in (0 : ℝ)..x, gaussianPDFReal 0 1 t = 1 / 2 * erfR (x / √2) := by
    have h3 := intervalIntegral.integral_comp_div (a := 0) (b := x) (fun t : ℝ => Real.exp (-t ^ 2))
      (c := √2) (by positivity)
    have h4 : ∀ t : ℝ, gaussianPDFReal 0 1 t = (√(2 * π))⁻¹ * rexp (-(t / √2) ^ 2) := by
      intro t
      rw [gaussianPDF_std]
      congr 2
      rw [div_pow, Real.sq_sqrt (by norm_num)]; ring
    simp only [h4]
    rw [intervalIntegral.integral_const_mul, h3, zero_div, erfR, Real.sqrt_mul (by norm_num)]
    have : √2 ≠ 0 := by positivity
    have : √π ≠ 0 := by positivity
    rw [smul_eq_mul]
    field_simp
  rw [h2] at h
  linarith

theorem gaussian_Iic_pos (x : ℝ) : 0 < (gaussianReal 0 1 (Iic x)).toReal := by
  apply ENNReal.toReal_pos
  · intro h
    have := gaussianReal_absolutelyContinuous' 0 (v := 1) one_ne_zero h
    simp at this
  · exact measure_ne_top _ _

theorem gaussian_Iic_lt_one (x : ℝ) : (gaussianReal 0 1 (Iic x)).toReal < 1 := by
  have h1 := gaussian_Iic x
  have h2 := gaussian_Iic (-x)
  have h3 := gaussian_Iic_pos (-x)
  rw [neg_div, erfR_neg] at h2
  linarith

end Proadv
