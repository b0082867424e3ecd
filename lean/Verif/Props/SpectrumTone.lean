import Verif.Props.SpectrumLaws
import Mathlib.Analysis.Real.Pi.Bounds

/-!
# Property C236: what `power_spectra` shows of a pure tone
-/

set_option linter.unusedSectionVars false

namespace Proadv.Props

open Proadv Spectrum Fl

namespace PSpec

noncomputable section

/-- `∑ exp (i β m)` over `N` samples -/
def geo (N : Nat) (β : ℝ) : ℂ := ∑ m ∈ Finset.range N, Complex.exp ((β * m : ℝ) * Complex.I)

/-- transform of the window at the frequency number `ν` -/
def wdft (N : Nat) (ν : ℤ) : ℂ := ∑ m ∈ Finset.range N, (w N m : ℂ) * Complex.exp (-(2 * Real.pi * (ν * m) / N : ℝ) * Complex.I)

/-- `n` samples of a tone with `k0` periods in `N` samples -/
def tone (A ph : ℝ) (k0 N n : Nat) : List ℝ := (List.range n).map (fun i : ℕ => A * Real.cos (2 * Real.pi * (k0 * i) / N + ph))

end

theorem geo_mul (N : Nat) (β : ℝ) : ‖geo N β‖ * |Real.sin (β / 2)| = |Real.sin (N * β / 2)| := by
  have h1 : geo N β * (Complex.exp (Complex.I * β) - 1) = Complex.exp (Complex.I * ((N * β : ℝ) : ℂ)) - 1 := by
    have e : geo N β = ∑ m ∈ Finset.range N, Complex.exp (Complex.I * β) ^ m := by
      unfold geo
      apply Finset.sum_congr rfl
      intro m _
      rw [← Complex.exp_nat_mul]
      congr 1
      push_cast
      ring
    rw [e, geom_sum_mul, ← Complex.exp_nat_mul]
    congr 2
    push_cast
    ring
  have h2 := congrArg norm h1
  rw [norm_mul, Complex.norm_exp_I_mul_ofReal_sub_one, Complex.norm_exp_I_mul_ofReal_sub_one, Real.norm_eq_abs, Real.norm_eq_abs,
    abs_mul, abs_mul, abs_of_pos (by norm_num : (0 : ℝ) < 2)] at h2
  linarith

theorem wdft_geo (N : Nat) (ν : ℤ) : wdft N ν = 1 / 2 * geo N (-(2 * Real.pi * ν / N)) -
    1 / 4 * geo N (2 * Real.pi / ((N : ℝ) - 1) - 2 * Real.pi * ν / N) -
    1 / 4 * geo N (-(2 * Real.pi / ((N : ℝ) - 1)) - 2 * Real.pi * ν / N) := by
  unfold wdft geo
  rw [Finset.mul_sum, Finset.mul_sum, Finset.mul_sum, ← Finset.sum_sub_distrib, ← Finset.sum_sub_distrib]
  apply Finset.sum_congr rfl
  intro m _
  have e1 : ((-(2 * Real.pi * ν / N) * m : ℝ) : ℂ) * Complex.I = -(2 * Real.pi * (ν * m) / N : ℝ) * Complex.I := by
    push_cast; ring
  have e2 : ((((2 * Real.pi / ((N : ℝ) - 1) - 2 * Real.pi * ν / N) * m : ℝ)) : ℂ) * Complex.I =
      ((2 * Real.pi * m / ((N : ℝ) - 1) : ℝ) : ℂ) * Complex.I + -(2 * Real.pi * (ν * m) / N : ℝ) * Complex.I := by
    push_cast; ring
  have e3 : ((((-(2 * Real.pi / ((N : ℝ) - 1)) - 2 * Real.pi * ν / N) * m : ℝ)) : ℂ) * Complex.I =
      -((2 * Real.pi * m / ((N : ℝ) - 1) : ℝ) : ℂ) * Complex.I + -(2 * Real.pi * (ν * m) / N : ℝ) * Complex.I := by
    push_cast; ring
  rw [e1, e2, e3, Complex.exp_add, Complex.exp_add]
  have hw : ((w N m : ℝ) : ℂ) = 1 / 2 - 1 / 4 * (Complex.exp (((2 * Real.pi * m / ((N : ℝ) - 1) : ℝ) : ℂ) * Complex.I) +
      Complex.exp (-((2 * Real.pi * m / ((N : ℝ) - 1) : ℝ) : ℂ) * Complex.I)) := by
    unfold w
    rw [Complex.ofReal_sub, Complex.ofReal_mul, Complex.ofReal_cos, Complex.cos]
    push_cast
    ring
  rw [hw]
  ring

/-- Jordan's inequality on both halves -/
theorem sin_ge {y d : ℝ} (h0 : 0 ≤ d) (h1 : d ≤ y) (h2 : y ≤ Real.pi - d) : 2 / Real.pi * d ≤ Real.sin y := by
  have hpi := Real.pi_pos
  have hc : 0 ≤ 2 / Real.pi := by positivity
  rcases le_total y (Real.pi / 2) with h | h
  · exact (mul_le_mul_of_nonneg_left h1 hc).trans (Real.mul_le_sin (by linarith) h)
  · rw [← Real.sin_pi_sub]
    exact (mul_le_mul_of_nonneg_left (by linarith : d ≤ Real.pi - y) hc).trans (Real.mul_le_sin (by linarith) (by linarith))

/-- the two side terms of the window have the same numerator -/
theorem sin_top {N : Nat} (h : 3 ≤ N) (ν : ℤ) (e : ℝ) (he : e = 1 ∨ e = -1) :
    |Real.sin (N * (e * (2 * Real.pi / ((N : ℝ) - 1)) - 2 * Real.pi * ν / N) / 2)| ≤ Real.pi / ((N : ℝ) - 1) := by
  have hN : (3 : ℝ) ≤ N := by exact_mod_cast h
  have hN1 : (0 : ℝ) < (N : ℝ) - 1 := by linarith
  have e1 : N * (e * (2 * Real.pi / ((N : ℝ) - 1)) - 2 * Real.pi * ν / N) / 2 =
      e * Real.pi + e * (Real.pi / ((N : ℝ) - 1)) - ν * Real.pi := by
    field_simp
    ring
  have hpi := Real.pi_pos
  have h0 : 0 ≤ Real.pi / ((N : ℝ) - 1) := by positivity
  rw [e1, Real.sin_sub_int_mul_pi, abs_mul, abs_zpow, abs_neg, abs_one, one_zpow, one_mul]
  rcases he with rfl | rfl
  · rw [one_mul, one_mul, add_comm, Real.sin_add_pi, abs_neg]
    exact (Real.abs_sin_le_abs).trans_eq (abs_of_nonneg h0)
  · rw [neg_one_mul, neg_one_mul, ← neg_add, Real.sin_neg, abs_neg, add_comm, Real.sin_add_pi, abs_neg]
    exact (Real.abs_sin_le_abs).trans_eq (abs_of_nonneg h0)

/-- a side term of the window whose angle stays away from the multiples of `π` -/
theorem side_le {N : Nat} (h : 3 ≤ N) (ν : ℤ) (e : ℝ) (he : e = 1 ∨ e = -1) (s : ℝ) (hs : 0 < s)
    (hsin : s ≤ |Real.sin ((e * (2 * Real.pi / ((N : ℝ) - 1)) - 2 * Real.pi * ν / N) / 2)|) :
    ‖geo N (e * (2 * Real.pi / ((N : ℝ) - 1)) - 2 * Real.pi * ν / N)‖ ≤ Real.pi / ((N : ℝ) - 1) / s := by
  rw [le_div_iff₀ hs]
  have h1 := geo_mul N (e * (2 * Real.pi / ((N : ℝ) - 1)) - 2 * Real.pi * ν / N)
  have h2 := sin_top h ν e he
  have h3 := mul_le_mul_of_nonneg_left hsin (norm_nonneg (geo N (e * (2 * Real.pi / ((N : ℝ) - 1)) - 2 * Real.pi * ν / N)))
  linarith

theorem main_zero {N : Nat} (h : 3 ≤ N) (ν : ℤ) (h1 : 1 ≤ |ν|) (h2 : |ν| + 1 ≤ N) : geo N (-(2 * Real.pi * ν / N)) = 0 := by
  have hN : (0 : ℝ) < N := by exact_mod_cast (by omega : 0 < N)
  have h3 := geo_mul N (-(2 * Real.pi * ν / N))
  have e1 : N * (-(2 * Real.pi * ν / N)) / 2 = -(ν * Real.pi) := by field_simp
  have e2 : -(2 * Real.pi * ν / N) / 2 = -(Real.pi * ν / N) := by ring
  rw [e1, e2, Real.sin_neg, Real.sin_neg, Real.sin_int_mul_pi, neg_zero, abs_zero, abs_neg] at h3
  rcases mul_eq_zero.mp h3 with h4 | h4
  · exact norm_eq_zero.mp h4
  · exfalso
    have hpi := Real.pi_pos
    have hpos : 0 < Real.sin (Real.pi * (|ν| : ℤ) / N) := by
      apply Real.sin_pos_of_pos_of_lt_pi
      · have : (1 : ℝ) ≤ (|ν| : ℤ) := by exact_mod_cast h1
        positivity
      · rw [div_lt_iff₀ hN]
        have : ((|ν| : ℤ) : ℝ) < N := by exact_mod_cast (by omega : |ν| < (N : ℤ))
        exact mul_lt_mul_of_pos_left this hpi
    rcases abs_choice ν with h5 | h5
    · rw [h5] at hpos
      rw [abs_of_pos hpos] at h4
      linarith
    · rw [h5] at hpos
      have e3 : Real.pi * ((-ν : ℤ) : ℝ) / N = -(Real.pi * ν / N) := by push_cast; ring
      rw [e3, Real.sin_neg] at hpos
      have : Real.sin (Real.pi * ν / N) = 0 := abs_eq_zero.mp h4
      linarith

/-- distance of the side angles from the multiples of `π` -/
theorem sin_far {N : Nat} (h : 3 ≤ N) (ν : ℤ) (h2 : 2 ≤ |ν|) (hN : |ν| + 2 ≤ N) (e : ℝ) (he : e = 1 ∨ e = -1) :
    2 * ((N : ℝ) - 2) / (N * ((N : ℝ) - 1)) ≤ |Real.sin ((e * (2 * Real.pi / ((N : ℝ) - 1)) - 2 * Real.pi * ν / N) / 2)| := by
  have hpi := Real.pi_pos
  have hN3 : (3 : ℝ) ≤ N := by exact_mod_cast h
  have hN0 : (0 : ℝ) < N := by linarith
  have hN1 : (0 : ℝ) < (N : ℝ) - 1 := by linarith
  have e1 : (e * (2 * Real.pi / ((N : ℝ) - 1)) - 2 * Real.pi * ν / N) / 2 = -(Real.pi * ν / N - e * (Real.pi / ((N : ℝ) - 1))) := by ring
  rw [e1, Real.sin_neg, abs_neg]
  -- for positive numbers
  have key : ∀ (m : ℤ) (c : ℝ), 2 ≤ m → m + 2 ≤ N → (c = 1 ∨ c = -1) →
      2 * ((N : ℝ) - 2) / (N * ((N : ℝ) - 1)) ≤ Real.sin (Real.pi * m / N - c * (Real.pi / ((N : ℝ) - 1))) := by
    intro m c hm hm2 hc
    have hmR : (2 : ℝ) ≤ m := by exact_mod_cast hm
    have hmR2 : (m : ℝ) + 2 ≤ N := by exact_mod_cast hm2
    have b1 : Real.pi * 2 / N ≤ Real.pi * m / N := by gcongr
    have b2 : Real.pi * m / N ≤ Real.pi - Real.pi * 2 / N := by
      have : Real.pi - Real.pi * 2 / N = Real.pi * ((N : ℝ) - 2) / N := by field_simp
      rw [this]
      have : (m : ℝ) ≤ (N : ℝ) - 2 := by linarith
      gcongr
    have b3 : Real.pi * 2 / N - Real.pi / ((N : ℝ) - 1) = Real.pi * (((N : ℝ) - 2) / (N * ((N : ℝ) - 1))) := by
      field_simp
      ring
    have b0 : 0 ≤ Real.pi / ((N : ℝ) - 1) := by positivity
    have hd : 0 ≤ ((N : ℝ) - 2) / (N * ((N : ℝ) - 1)) := div_nonneg (by linarith) (by positivity)
    have h4 := sin_ge (y := Real.pi * m / N - c * (Real.pi / ((N : ℝ) - 1)))
      (d := Real.pi * (((N : ℝ) - 2) / (N * ((N : ℝ) - 1)))) (by positivity)
      (by rcases hc with rfl | rfl <;> linarith) (by rcases hc with rfl | rfl <;> linarith)
    refine le_trans (le_of_eq ?_) h4
    field_simp
  rcases abs_choice ν with h5 | h5
  · exact (key ν e (by omega) (by omega) he).trans (le_abs_self _)
  · have h6 := key (-ν) (-e) (by omega) (by omega) (by rcases he with rfl | rfl <;> simp)
    have e2 : Real.pi * ((-ν : ℤ) : ℝ) / N - -e * (Real.pi / ((N : ℝ) - 1)) = -(Real.pi * ν / N - e * (Real.pi / ((N : ℝ) - 1))) := by
      push_cast; ring
    rw [e2, Real.sin_neg] at h6
    exact h6.trans (neg_le_abs _)

theorem wdft_norm (N : Nat) (h : 3 ≤ N) (ν : ℤ) (h1 : 1 ≤ |ν|) (h2 : |ν| + 1 ≤ N) :
    ‖wdft N ν‖ ≤ 1 / 4 * ‖geo N (1 * (2 * Real.pi / ((N : ℝ) - 1)) - 2 * Real.pi * ν / N)‖ +
      1 / 4 * ‖geo N (-1 * (2 * Real.pi / ((N : ℝ) - 1)) - 2 * Real.pi * ν / N)‖ := by
  rw [wdft_geo, main_zero h ν h1 h2, mul_zero, zero_sub, one_mul, neg_one_mul]
  refine (norm_sub_le _ _).trans ?_
  rw [norm_neg, norm_mul, norm_mul]
  have : ‖(1 / 4 : ℂ)‖ = 1 / 4 := by norm_num
  rw [this]

/-- two or more frequencies away the window is nearly blind -/
theorem wdft_far (N : Nat) (h : 32 ≤ N) (ν : ℤ) (h2 : 2 ≤ |ν|) (hN : |ν| + 2 ≤ N) : ‖wdft N ν‖ ≤ 1 := by
  have hR : (32 : ℝ) ≤ N := by exact_mod_cast h
  have hs : 0 < 2 * ((N : ℝ) - 2) / (N * ((N : ℝ) - 1)) := div_pos (by linarith) (mul_pos (by linarith) (by linarith))
  have h3 := wdft_norm N (by omega) ν (by omega) (by omega)
  have h4 := side_le (by omega) ν 1 (Or.inl rfl) _ hs (sin_far (by omega) ν h2 hN 1 (Or.inl rfl))
  have h5 := side_le (by omega) ν (-1) (Or.inr rfl) _ hs (sin_far (by omega) ν h2 hN (-1) (Or.inr rfl))
  have h6 : Real.pi / ((N : ℝ) - 1) / (2 * ((N : ℝ) - 2) / (N * ((N : ℝ) - 1))) ≤ 2 := by
    have hp := Real.pi_lt_d2
    have e : Real.pi / ((N : ℝ) - 1) / (2 * ((N : ℝ) - 2) / (N * ((N : ℝ) - 1))) = Real.pi * N / (2 * ((N : ℝ) - 2)) := by
      have h7 : (N : ℝ) - 1 ≠ 0 := by intro h0; linarith
      have h8 : (N : ℝ) - 2 ≠ 0 := by intro h0; linarith
      field_simp
    rw [e, div_le_iff₀ (by linarith)]
    nlinarith
  linarith

theorem wdft_one (N : Nat) (h : 32 ≤ N) (ν : ℤ) (hν : |ν| = 1) : ‖wdft N ν‖ ≤ Real.pi * N / 8 + 1 / 2 := by
  have hpi := Real.pi_pos
  have hR : (32 : ℝ) ≤ N := by exact_mod_cast h
  have hN1 : (0 : ℝ) < (N : ℝ) - 1 := by linarith
  have hN0 : (0 : ℝ) < N := by linarith
  have hs : 0 < 2 / (N * ((N : ℝ) - 1)) := by positivity
  have h3 := wdft_norm N (by omega) ν (by omega) (by omega)
  -- the near term
  have near : ∀ e : ℝ, (e = 1 ∨ e = -1) → e * ν = 1 → ‖geo N (e * (2 * Real.pi / ((N : ℝ) - 1)) - 2 * Real.pi * ν / N)‖ ≤ Real.pi * N / 2 := by
    intro e he hev
    have h4 : 2 / (N * ((N : ℝ) - 1)) ≤ |Real.sin ((e * (2 * Real.pi / ((N : ℝ) - 1)) - 2 * Real.pi * ν / N) / 2)| := by
      have hev' : (ν : ℝ) = e := by
        rcases he with rfl | rfl <;> linarith
      have e1 : (e * (2 * Real.pi / ((N : ℝ) - 1)) - 2 * Real.pi * ν / N) / 2 = e * (Real.pi * (1 / (N * ((N : ℝ) - 1)))) := by
        rw [hev']; field_simp; ring
      have hle : 1 / (N * ((N : ℝ) - 1)) ≤ 1 / 2 := by
        rw [div_le_div_iff₀ (by positivity) (by norm_num)]
        nlinarith
      have h5 := sin_ge (y := Real.pi * (1 / (N * ((N : ℝ) - 1)))) (d := Real.pi * (1 / (N * ((N : ℝ) - 1)))) (by positivity) le_rfl
        (by nlinarith)
      have e2 : 2 / Real.pi * (Real.pi * (1 / (N * ((N : ℝ) - 1)))) = 2 / (N * ((N : ℝ) - 1)) := by field_simp
      rw [e2] at h5
      rw [e1]
      rcases he with rfl | rfl
      · rw [one_mul]; exact h5.trans (le_abs_self _)
      · rw [neg_one_mul, Real.sin_neg, abs_neg]; exact h5.trans (le_abs_self _)
    refine (side_le (by omega) ν e he _ hs h4).trans (le_of_eq ?_)
    field_simp
  -- the far term
  have far : ∀ e : ℝ, (e = 1 ∨ e = -1) → e * ν = -1 → ‖geo N (e * (2 * Real.pi / ((N : ℝ) - 1)) - 2 * Real.pi * ν / N)‖ ≤ 2 := by
    intro e he hev
    have h4 : 4 / (N : ℝ) ≤ |Real.sin ((e * (2 * Real.pi / ((N : ℝ) - 1)) - 2 * Real.pi * ν / N) / 2)| := by
      have hev' : (ν : ℝ) = -e := by
        rcases he with rfl | rfl <;> linarith
      have e1 : (e * (2 * Real.pi / ((N : ℝ) - 1)) - 2 * Real.pi * ν / N) / 2 = e * (Real.pi / N + Real.pi / ((N : ℝ) - 1)) := by
        rw [hev']; ring
      have b1 : Real.pi / N ≤ Real.pi / ((N : ℝ) - 1) := by gcongr; linarith
      have b2 : Real.pi / ((N : ℝ) - 1) ≤ Real.pi / 31 := by gcongr; linarith
      have h5 := sin_ge (y := Real.pi / N + Real.pi / ((N : ℝ) - 1)) (d := 2 * (Real.pi / N)) (by positivity) (by linarith) (by linarith)
      have e2 : 2 / Real.pi * (2 * (Real.pi / N)) = 4 / (N : ℝ) := by field_simp; norm_num
      rw [e2] at h5
      rw [e1]
      rcases he with rfl | rfl
      · rw [one_mul]; exact h5.trans (le_abs_self _)
      · rw [neg_one_mul, Real.sin_neg, abs_neg]; exact h5.trans (le_abs_self _)
    refine (side_le (by omega) ν e he _ (by positivity) h4).trans ?_
    rw [div_div_eq_mul_div, div_le_iff₀ (by norm_num), div_mul_eq_mul_div, div_le_iff₀ hN1]
    have hp := Real.pi_lt_d2
    nlinarith
  rcases (abs_eq (by norm_num : (0 : ℤ) ≤ 1)).mp hν with rfl | rfl
  · have h4 := near 1 (Or.inl rfl) (by push_cast; ring)
    have h5 := far (-1) (Or.inr rfl) (by push_cast; ring)
    linarith
  · have h4 := near (-1) (Or.inr rfl) (by push_cast; ring)
    have h5 := far 1 (Or.inl rfl) (by push_cast; ring)
    linarith

theorem geo_one (N : Nat) (h : 3 ≤ N) (j : ℤ) (hj : Real.sin (j * Real.pi / ((N : ℝ) - 1)) ≠ 0) :
    geo N (j * (2 * Real.pi / ((N : ℝ) - 1))) = 1 := by
  have hN3 : (3 : ℝ) ≤ N := by exact_mod_cast h
  have hN1 : (N : ℝ) - 1 ≠ 0 := by intro h0; linarith
  set β := j * (2 * Real.pi / ((N : ℝ) - 1)) with hβ
  have h1 : geo N β * (Complex.exp (Complex.I * β) - 1) = Complex.exp (Complex.I * ((N * β : ℝ) : ℂ)) - 1 := by
    have e' : geo N β = ∑ m ∈ Finset.range N, Complex.exp (Complex.I * β) ^ m := by
      unfold geo
      apply Finset.sum_congr rfl
      intro m _
      rw [← Complex.exp_nat_mul]
      congr 1
      push_cast
      ring
    rw [e', geom_sum_mul, ← Complex.exp_nat_mul]
    congr 2
    push_cast
    ring
  have h2 : (N : ℝ) * β = β + j * (2 * Real.pi) := by
    rw [hβ]; field_simp; ring
  have h3 : Complex.exp (Complex.I * ((N * β : ℝ) : ℂ)) = Complex.exp (Complex.I * β) := by
    rw [h2, show Complex.I * ((β + j * (2 * Real.pi) : ℝ) : ℂ) = Complex.I * β + j * (2 * Real.pi * Complex.I) by push_cast; ring,
      Complex.exp_periodic.int_mul j]
  rw [h3] at h1
  have h4 : Complex.exp (Complex.I * β) - 1 ≠ 0 := by
    intro h0
    have h5 := Complex.norm_exp_I_mul_ofReal_sub_one β
    rw [h0, norm_zero, Real.norm_eq_abs] at h5
    have h6 : Real.sin (β / 2) = 0 := by
      have := abs_eq_zero.mp h5.symm
      linarith
    have h8 : β / 2 = j * Real.pi / ((N : ℝ) - 1) := by rw [hβ]; ring
    rw [h8] at h6
    exact hj h6
  exact mul_right_cancel₀ h4 (h1.trans (one_mul _).symm)

theorem sin_step {N : Nat} (h : 4 ≤ N) : 0 < Real.sin (Real.pi / ((N : ℝ) - 1)) ∧ 0 < Real.sin (2 * Real.pi / ((N : ℝ) - 1)) := by
  have hN3 : (4 : ℝ) ≤ N := by exact_mod_cast h
  have hN1 : (0 : ℝ) < (N : ℝ) - 1 := by linarith
  have hpi := Real.pi_pos
  constructor
  · apply Real.sin_pos_of_pos_of_lt_pi (by positivity)
    rw [div_lt_iff₀ hN1]
    nlinarith
  · apply Real.sin_pos_of_pos_of_lt_pi (by positivity)
    rw [div_lt_iff₀ hN1]
    nlinarith

theorem wdft_zero (N : Nat) (h : 4 ≤ N) : wdft N 0 = (((N : ℝ) - 1) / 2 : ℝ) := by
  have s1 := geo_one N (by omega) 1 (by simpa using (sin_step h).1.ne')
  have s2 := geo_one N (by omega) (-1) (by
    have e : ((-1 : ℤ) : ℝ) * Real.pi / ((N : ℝ) - 1) = -(Real.pi / ((N : ℝ) - 1)) := by push_cast; ring
    rw [e, Real.sin_neg]
    have := (sin_step h).1
    intro h0
    linarith)
  rw [Int.cast_one, one_mul] at s1
  rw [Int.cast_neg, Int.cast_one, neg_one_mul] at s2
  rw [wdft_geo]
  have s0 : geo N (-(2 * Real.pi * ((0 : ℤ) : ℝ) / N)) = N := by
    unfold geo
    simp
  rw [s0]
  simp only [Int.cast_zero, mul_zero, zero_div, sub_zero]
  rw [s1, s2]
  push_cast
  ring

theorem geo_re (N : Nat) (β : ℝ) : (geo N β).re = ∑ m ∈ Finset.range N, Real.cos (β * m) := by
  unfold geo
  rw [Complex.re_sum]
  apply Finset.sum_congr rfl
  intro m _
  exact Complex.exp_ofReal_mul_I_re _

/-- energy of the window -/
theorem w2_eq (N : Nat) (h : 4 ≤ N) : w2 N = 3 * ((N : ℝ) - 1) / 8 := by
  have s1 := congrArg Complex.re (geo_one N (by omega) 1 (by simpa using (sin_step h).1.ne'))
  have s2 := congrArg Complex.re (geo_one N (by omega) 2 (by simpa using (sin_step h).2.ne'))
  rw [geo_re, Complex.one_re] at s1 s2
  have e : w2 N = ∑ m ∈ Finset.range N, (3 / 8 - 1 / 2 * Real.cos (((1 : ℤ) : ℝ) * (2 * Real.pi / ((N : ℝ) - 1)) * m) +
      1 / 8 * Real.cos (((2 : ℤ) : ℝ) * (2 * Real.pi / ((N : ℝ) - 1)) * m)) := by
    unfold w2
    apply Finset.sum_congr rfl
    intro m _
    unfold w
    have e1 : ((1 : ℤ) : ℝ) * (2 * Real.pi / ((N : ℝ) - 1)) * m = 2 * Real.pi * m / ((N : ℝ) - 1) := by push_cast; ring
    have e2 : ((2 : ℤ) : ℝ) * (2 * Real.pi / ((N : ℝ) - 1)) * m = 2 * (2 * Real.pi * m / ((N : ℝ) - 1)) := by push_cast; ring
    rw [e1, e2, Real.cos_two_mul]
    ring
  rw [e, Finset.sum_add_distrib, Finset.sum_sub_distrib, ← Finset.mul_sum, ← Finset.mul_sum, s1, s2]
  simp
  ring

/-- a tone with a whole number of periods in the segment has mean 0 -/
theorem segMean_tone (N : Nat) (h : 3 ≤ N) (k0 : Nat) (h1 : 1 ≤ k0) (h2 : k0 + 1 ≤ N) (A ph : ℝ) :
    segMean N (fun m => A * Real.cos (2 * Real.pi * (k0 * m) / N + ph)) = 0 := by
  have hz := main_zero h (-(k0 : ℤ)) (by simp; omega) (by simp; omega)
  have e0 : -(2 * Real.pi * ((-(k0 : ℤ) : ℤ) : ℝ) / N) = 2 * Real.pi * k0 / N := by push_cast; ring
  rw [e0] at hz
  unfold segMean
  have e : ∑ m ∈ Finset.range N, A * Real.cos (2 * Real.pi * (k0 * m) / N + ph) =
      (A * Complex.exp ((ph : ℂ) * Complex.I) * geo N (2 * Real.pi * k0 / N)).re := by
    unfold geo
    rw [Finset.mul_sum, Complex.re_sum]
    apply Finset.sum_congr rfl
    intro m _
    rw [mul_assoc (A : ℂ), ← Complex.exp_add, ← add_mul, ← Complex.ofReal_add, Complex.re_ofReal_mul, Complex.exp_ofReal_mul_I_re]
    congr 2
    ring
  rw [e, hz]
  simp

/-- the transform of a tone: two copies of the transform of the window -/
theorem dft_tone (N : Nat) (h : 3 ≤ N) (k0 k : Nat) (h1 : 1 ≤ k0) (h2 : k0 + 1 ≤ N) (A ph : ℝ) :
    dft N (a N (fun m => A * Real.cos (2 * Real.pi * (k0 * m) / N + ph))) k =
      A / 2 * (Complex.exp (ph * Complex.I) * wdft N ((k : ℤ) - k0) + Complex.exp (-ph * Complex.I) * wdft N ((k : ℤ) + k0)) := by
  unfold dft wdft
  rw [Finset.mul_sum, Finset.mul_sum, ← Finset.sum_add_distrib, Finset.mul_sum]
  apply Finset.sum_congr rfl
  intro m _
  unfold a
  rw [segMean_tone N h k0 h1 h2 A ph, sub_zero]
  have e1 : (-(2 * Real.pi * ((((k : ℤ) - k0 : ℤ) : ℝ) * m) / N : ℝ) : ℂ) * Complex.I =
      ((2 * Real.pi * (k0 * m) / N : ℝ) : ℂ) * Complex.I + -(2 * Real.pi * (k * m) / N : ℝ) * Complex.I := by
    push_cast; ring
  have e2 : (-(2 * Real.pi * ((((k : ℤ) + k0 : ℤ) : ℝ) * m) / N : ℝ) : ℂ) * Complex.I =
      -((2 * Real.pi * (k0 * m) / N : ℝ) : ℂ) * Complex.I + -(2 * Real.pi * (k * m) / N : ℝ) * Complex.I := by
    push_cast; ring
  rw [e1, e2, Complex.exp_add, Complex.exp_add, Complex.ofReal_mul, Complex.ofReal_mul, Complex.ofReal_cos, Complex.cos,
    Complex.ofReal_add, add_mul, neg_add, add_mul, Complex.exp_add, Complex.exp_add]
  ring

theorem norm_phase (t : ℝ) : ‖Complex.exp (t * Complex.I)‖ = 1 ∧ ‖Complex.exp (-t * Complex.I)‖ = 1 := by
  refine ⟨Complex.norm_exp_ofReal_mul_I t, ?_⟩
  rw [← Complex.ofReal_neg]
  exact Complex.norm_exp_ofReal_mul_I (-t)

theorem tone_upper (N : Nat) (h : 3 ≤ N) (k0 k : Nat) (h1 : 1 ≤ k0) (h2 : k0 + 1 ≤ N) (A ph b c : ℝ)
    (hb : ‖wdft N ((k : ℤ) - k0)‖ ≤ b) (hc : ‖wdft N ((k : ℤ) + k0)‖ ≤ c) :
    ‖dft N (a N (fun m => A * Real.cos (2 * Real.pi * (k0 * m) / N + ph))) k‖ ≤ |A| / 2 * (b + c) := by
  rw [dft_tone N h k0 k h1 h2 A ph, norm_mul]
  have e : ‖(A : ℂ) / 2‖ = |A| / 2 := by simp
  rw [e]
  apply mul_le_mul_of_nonneg_left _ (by positivity)
  refine (norm_add_le _ _).trans ?_
  rw [norm_mul, norm_mul, (norm_phase ph).1, (norm_phase ph).2, one_mul, one_mul]
  linarith

theorem tone_lower (N : Nat) (h : 32 ≤ N) (k0 : Nat) (h1 : 2 ≤ k0) (h2 : 2 * k0 + 4 ≤ N) (A ph : ℝ) :
    |A| / 2 * (((N : ℝ) - 3) / 2) ≤ ‖dft N (a N (fun m => A * Real.cos (2 * Real.pi * (k0 * m) / N + ph))) k0‖ := by
  rw [dft_tone N (by omega) k0 k0 (by omega) (by omega) A ph, norm_mul]
  have e : ‖(A : ℂ) / 2‖ = |A| / 2 := by simp
  rw [e]
  apply mul_le_mul_of_nonneg_left _ (by positivity)
  have hfar := wdft_far N h ((k0 : ℤ) + k0) (by rw [abs_of_nonneg (by omega)]; omega) (by rw [abs_of_nonneg (by omega)]; omega)
  rw [sub_self, wdft_zero N (by omega)]
  have h3 := norm_sub_le_norm_add (Complex.exp (ph * Complex.I) * ((((N : ℝ) - 1) / 2 : ℝ) : ℂ))
    (Complex.exp (-ph * Complex.I) * wdft N ((k0 : ℤ) + k0))
  rw [norm_mul, norm_mul, (norm_phase ph).1, (norm_phase ph).2, one_mul, one_mul, Complex.norm_real, Real.norm_eq_abs] at h3
  have hR : (32 : ℝ) ≤ N := by exact_mod_cast h
  rw [abs_of_nonneg (by linarith)] at h3
  linarith

/-- only the samples of the segment count -/
theorem periodogram_congr (N : Nat) (fs : ℝ) (s t : Nat → ℝ) (h : ∀ m < N, s m = t m) (k : Nat) :
    periodogram N fs s k = periodogram N fs t k := by
  have h1 : segMean N s = segMean N t := by
    unfold segMean
    rw [Finset.sum_congr rfl (fun m hm => h m (Finset.mem_range.mp hm))]
  unfold periodogram dft
  congr 3
  apply Finset.sum_congr rfl
  intro m hm
  unfold a
  rw [h1, h m (Finset.mem_range.mp hm)]

theorem tone_segment (A ph : ℝ) (k0 N n s : Nat) (hs : s + N ≤ n) (m : Nat) (hm : m < N) :
    (tone A ph k0 N n).getD (s + m) 0 = A * Real.cos (2 * Real.pi * (k0 * m) / N + (ph + 2 * Real.pi * (k0 * s) / N)) := by
  unfold tone
  rw [List.getD_eq_getElem?_getD, List.getElem?_map, List.getElem?_range (by omega)]
  simp only [Option.map_some, Option.getD_some]
  congr 2
  push_cast
  ring

/-- bounds for one periodogram carry over to Welch's average -/
theorem welch_bounds (N h c : Nat) (hc : 0 < c) (fs : ℝ) (x : List ℝ) (one : Bool) (k : Nat) (lo hi : ℝ)
    (hb : ∀ j < c, lo ≤ periodogram N fs (fun m => x.getD (j * h + m) 0) k ∧ periodogram N fs (fun m => x.getD (j * h + m) 0) k ≤ hi) :
    mult one N k * lo ≤ welch N h c fs x one k ∧ welch N h c fs x one k ≤ mult one N k * hi := by
  have hm : 0 ≤ mult one N k := by unfold mult; split <;> norm_num
  have hcR : (0 : ℝ) < c := by exact_mod_cast hc
  unfold welch
  constructor
  · apply mul_le_mul_of_nonneg_left _ hm
    rw [le_div_iff₀ hcR]
    have := Finset.card_nsmul_le_sum (Finset.range c) _ lo (fun j hj => (hb j (Finset.mem_range.mp hj)).1)
    rw [Finset.card_range, nsmul_eq_mul] at this
    linarith
  · apply mul_le_mul_of_nonneg_left _ hm
    rw [div_le_iff₀ hcR]
    have := Finset.sum_le_card_nsmul (Finset.range c) _ hi (fun j hj => (hb j (Finset.mem_range.mp hj)).2)
    rw [Finset.card_range, nsmul_eq_mul] at this
    linarith

end PSpec

open PSpec in
/-- **C236** A pure tone with `k0` periods per block, whatever its amplitude, phase, length and the overlap: the one-sided spectrum has
its only maximum at entry `k0`, whose frequency is `k0 fs / block`; the maximum lies between
`A² (block - 3)² / (3 fs (block - 1))` and `A² (block + 1)² / (3 fs (block - 1))`, and every entry two or more places away is at most `16 A² / (3 fs (block - 1))`. -/
theorem C236_tone (A ph fs : ℝ) (hA : A ≠ 0) (hfs : 0 < fs) (N k0 n : Nat) (h32 : 32 ≤ N) (h2 : 2 ≤ k0) (hk0 : 2 * k0 + 4 ≤ N)
    (hn : N ≤ n) (overlap : Int) (ho : overlap < N) :
    ∃ f p : List ℝ, powerSpectra (fins (tone A ph k0 N n)) (fin fs) overlap N true = .ok (fins f, fins p) ∧
      f.length = N / 2 + 1 ∧ p.length = N / 2 + 1 ∧ f.getD k0 0 = k0 * fs / N ∧
      (∀ k < N / 2 + 1, k ≠ k0 → p.getD k 0 < p.getD k0 0) ∧
      A ^ 2 * ((N : ℝ) - 3) ^ 2 / (3 * fs * ((N : ℝ) - 1)) ≤ p.getD k0 0 ∧
      p.getD k0 0 ≤ A ^ 2 * ((N : ℝ) + 1) ^ 2 / (3 * fs * ((N : ℝ) - 1)) ∧
      (∀ k < N / 2 + 1, k + 2 ≤ k0 ∨ k0 + 2 ≤ k → p.getD k 0 ≤ 16 * A ^ 2 / (3 * fs * ((N : ℝ) - 1))) := by
  have hR : (32 : ℝ) ≤ N := by exact_mod_cast h32
  have hpi := Real.pi_lt_d2
  have hA0 : 0 < |A| := abs_pos.mpr hA
  have hlen : (tone A ph k0 N n).length = n := by simp [tone]
  set x := tone A ph k0 N n with hx
  set c := (((n : Int) - overlap) / ((N : Int) - overlap)).toNat with hc
  have hcc : c = count n overlap N := rfl
  have hcpos : 0 < c := hcc ▸ count_pos n overlap N hn ho
  set st := ((N : Int) - overlap).toNat with hst
  have hw2 : 0 < fs * w2 N := mul_pos hfs (w2_pos (by omega))
  have hD : (0 : ℝ) < 3 * fs * ((N : ℝ) - 1) := by
    have : (0 : ℝ) < (N : ℝ) - 1 := by linarith
    positivity
  have hw : fs * w2 N = 3 * fs * ((N : ℝ) - 1) / 8 := by rw [w2_eq N (by omega)]; ring
  -- one periodogram
  have hper : ∀ j < c, ∀ k, ∃ t : ℝ, periodogram N fs (fun m => x.getD (j * st + m) 0) k =
      ‖dft N (a N (fun m => A * Real.cos (2 * Real.pi * (k0 * m) / N + t))) k‖ ^ 2 / (fs * w2 N) := by
    intro j hj k
    have hfit := seg_fit (n := n) ho (hcc ▸ hj)
    refine ⟨ph + 2 * Real.pi * (k0 * (j * st : ℕ)) / N, ?_⟩
    rw [periodogram_congr N fs _ (fun m => A * Real.cos (2 * Real.pi * (k0 * m) / N + (ph + 2 * Real.pi * (k0 * (j * st : ℕ)) / N)))
      (fun m hm => tone_segment A ph k0 N n (j * st) hfit m hm) k]
    rfl
  -- bounds of the transform give bounds of the spectrum
  have up : ∀ (k : ℕ) (b c' : ℝ), ‖wdft N ((k : ℤ) - k0)‖ ≤ b → ‖wdft N ((k : ℤ) + k0)‖ ≤ c' →
      welch N st c fs x true k ≤ mult true N k * ((|A| / 2 * (b + c')) ^ 2 / (fs * w2 N)) := by
    intro k b c' hb hc'
    refine (welch_bounds N st c hcpos fs x true k 0 _ (fun j hj => ?_)).2
    obtain ⟨t, ht⟩ := hper j hj k
    rw [ht]
    refine ⟨by positivity, div_le_div_of_nonneg_right ?_ hw2.le⟩
    exact pow_le_pow_left₀ (norm_nonneg _) (tone_upper N (by omega) k0 k (by omega) (by omega) A t b c' hb hc') 2
  have hm0 : mult true N k0 = 2 := by unfold mult; rw [if_pos ⟨rfl, by omega, by omega⟩]
  have hm : ∀ k, mult true N k ≤ 2 := by intro k; unfold mult; split <;> norm_num
  have low : 2 * ((|A| / 2 * (((N : ℝ) - 3) / 2)) ^ 2 / (fs * w2 N)) ≤ welch N st c fs x true k0 := by
    have hb : ∀ j < c, (|A| / 2 * (((N : ℝ) - 3) / 2)) ^ 2 / (fs * w2 N) ≤ periodogram N fs (fun m => x.getD (j * st + m) 0) k0 ∧
        periodogram N fs (fun m => x.getD (j * st + m) 0) k0 ≤ (|A| / 2 * (((N : ℝ) - 1) / 2 + 1)) ^ 2 / (fs * w2 N) := by
      intro j hj
      obtain ⟨t, ht⟩ := hper j hj k0
      rw [ht]
      constructor
      · apply div_le_div_of_nonneg_right _ hw2.le
        exact pow_le_pow_left₀ (mul_nonneg (by positivity) (by linarith)) (tone_lower N h32 k0 h2 hk0 A t) 2
      · apply div_le_div_of_nonneg_right _ hw2.le
        refine pow_le_pow_left₀ (norm_nonneg _) (tone_upper N (by omega) k0 k0 (by omega) (by omega) A t _ _ ?_
          (wdft_far N h32 _ (by rw [abs_of_nonneg (by omega)]; omega) (by rw [abs_of_nonneg (by omega)]; omega))) 2
        rw [sub_self, wdft_zero N (by omega), Complex.norm_real, Real.norm_eq_abs, abs_of_nonneg (by linarith)]
    have h3 := (welch_bounds N st c hcpos fs x true k0 _ _ hb).1
    rwa [hm0] at h3
  have hfar0 : ∀ k, k < N / 2 + 1 → ‖wdft N ((k : ℤ) + k0)‖ ≤ 1 := fun k hk =>
    wdft_far N h32 _ (by rw [abs_of_nonneg (by omega)]; omega) (by rw [abs_of_nonneg (by omega)]; omega)
  have hget : ∀ k < N / 2 + 1, ((List.range (N / 2 + 1)).map (fun k => welch N st c fs x true k)).getD k 0 = welch N st c fs x true k := by
    intro k hk
    rw [List.getD_eq_getElem?_getD, List.getElem?_map, List.getElem?_range hk]
    rfl
  refine ⟨PSpec.freqs N fs true, (List.range (N / 2 + 1)).map (fun k => welch N st c fs x true k), ?_, ?_, by simp, ?_, ?_, ?_, ?_, ?_⟩
  · rw [value_fins x fs hfs.ne' overlap N true (by omega) (by rw [hlen]; exact hn) ho, hlen]
    rfl
  · simp [PSpec.freqs]
  · unfold PSpec.freqs
    rw [if_pos rfl, List.getD_eq_getElem?_getD, List.getElem?_map, List.getElem?_range (by omega)]
    rfl
  · intro k hk hne
    rw [hget k hk, hget k0 (by omega)]
    refine lt_of_le_of_lt (b := 2 * ((|A| / 2 * (Real.pi * N / 8 + 1 / 2 + 1)) ^ 2 / (fs * w2 N))) ?_ (lt_of_lt_of_le ?_ low)
    · refine (up k (Real.pi * N / 8 + 1 / 2) 1 ?_ (hfar0 k hk)).trans (mul_le_mul_of_nonneg_right (hm k) (by positivity))
      rcases Int.lt_or_le 1 |(k : ℤ) - k0| with h3 | h3
      · refine (wdft_far N h32 _ (by omega) ?_).trans ?_
        · rcases abs_choice ((k : ℤ) - k0) with h4 | h4 <;> omega
        · nlinarith [Real.pi_gt_three]
      · have h5 : |(k : ℤ) - k0| = 1 := by
          have : 0 < |(k : ℤ) - k0| := abs_pos.mpr (by omega)
          omega
        exact wdft_one N h32 _ h5
    · apply mul_lt_mul_of_pos_left _ (by norm_num)
      apply div_lt_div_of_pos_right _ hw2
      apply pow_lt_pow_left₀ _ (by have := Real.pi_pos; positivity) (by norm_num)
      apply mul_lt_mul_of_pos_left _ (by positivity)
      nlinarith
  · rw [hget k0 (by omega)]
    refine le_trans (le_of_eq ?_) low
    rw [hw, mul_pow, div_pow, sq_abs]
    have h7 : (N : ℝ) - 1 ≠ 0 := by intro h0; linarith
    field_simp
    ring
  · rw [hget k0 (by omega)]
    have h3 := up k0 (((N : ℝ) - 1) / 2) 1 (by
      rw [sub_self, wdft_zero N (by omega), Complex.norm_real, Real.norm_eq_abs, abs_of_nonneg (by linarith)]) (hfar0 k0 (by omega))
    refine h3.trans (le_of_eq ?_)
    rw [hm0, hw, mul_pow, div_pow, sq_abs]
    have h7 : (N : ℝ) - 1 ≠ 0 := by intro h0; linarith
    field_simp
    ring
  · intro k hk hfar
    rw [hget k hk]
    have h4 : |(k : ℤ) - k0| = (k : ℤ) - k0 ∨ |(k : ℤ) - k0| = -((k : ℤ) - k0) := abs_choice _
    have h5 := abs_nonneg ((k : ℤ) - k0)
    have h3 := up k 1 1 (wdft_far N h32 _ (by rcases h4 with h4 | h4 <;> omega) (by rcases h4 with h4 | h4 <;> omega)) (hfar0 k hk)
    refine (h3.trans (mul_le_mul_of_nonneg_right (hm k) (by positivity))).trans (le_of_eq ?_)
    rw [hw, mul_pow, div_pow, sq_abs]
    have h7 : (N : ℝ) - 1 ≠ 0 := by intro h0; linarith
    field_simp
    ring

/-- the hypotheses of C236 hold with the defaults of `power_spectra` (block 2048, overlap 50) for a tone of 100 periods per block -/
example : ∃ f p : List ℝ, powerSpectra (fins (PSpec.tone 2 1 100 2048 5000)) (fin 100) 50 (2048 : ℕ) true = .ok (fins f, fins p) ∧
    ∀ k < 1025, k ≠ 100 → p.getD k 0 < p.getD 100 0 := by
  obtain ⟨f, p, h, -, -, -, h2, -⟩ := C236_tone 2 1 100 (by norm_num) (by norm_num) 2048 100 5000 (by norm_num) (by norm_num) (by norm_num)
    (by norm_num) 50 (by norm_num)
  exact ⟨f, p, h, h2⟩

end Proadv.Props
