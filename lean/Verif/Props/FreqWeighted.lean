import Verif.Props.FreqResponse

/-!
# C229: response of `weighted_moving_average` to sinusoids
-/

set_option linter.unusedSectionVars false

namespace Proadv.Props

open Proadv Fl Descriptive Series

/-- Specification: response of linear weights `1, …, p` at the angular frequency `w`: the mean of the weighted phases -/
noncomputable def wmaResponse (p : Nat) (w : ℝ) : ℂ :=
  (∑ j ∈ Finset.range p, ((j : ℂ) + 1) * Complex.exp ((w * j : ℝ) * Complex.I)) / ((p * (p + 1) : ℕ) / 2 : ℂ)

private theorem weight_sum (p : Nat) : ∑ j ∈ Finset.range p, ((j : ℝ) + 1) = ((p * (p + 1) : ℕ) : ℝ) / 2 := by
  induction p with
  | zero => simp
  | succ p ih => rw [Finset.sum_range_succ, ih]; push_cast; ring

private theorem norm_term (w : ℝ) (j : Nat) : ‖((j : ℂ) + 1) * Complex.exp ((w * j : ℝ) * Complex.I)‖ = (j : ℝ) + 1 := by
  rw [norm_mul, Complex.norm_exp_ofReal_mul_I, mul_one]
  have : ((j : ℂ) + 1) = ((j : ℝ) + 1 : ℝ) := by push_cast; rfl
  rw [this, Complex.norm_of_nonneg (by positivity)]

/-- **C229** on a sinusoid the weighted moving average is a sinusoid of the same frequency: the amplitude is multiplied by the modulus of
the response and the phase advanced by its argument, counting time from the first sample of the window -/
theorem C229_sinusoid (A w ph : ℝ) (n p : Nat) (hp : 1 ≤ p) (hpn : p ≤ n) :
    ∃ out, weightedMovingAverage ((sinusoid A w ph n).map fin : List (Fl ℝ)) (p : Int) = .ok out ∧ out.data.length = n - p ∧
      ∀ k < n - p, out.data[k]? = some (fin (‖wmaResponse p w‖ * (A * Real.cos (w * k + ph + (wmaResponse p w).arg)))) := by
  have hlen : (sinusoid A w ph n).length = n := by simp [sinusoid]
  refine ⟨_, C17_wma _ p hp (by rw [hlen]; exact hpn), by simp [hlen], fun k hk => ?_⟩
  simp only [hlen]
  rw [List.getElem?_map, List.getElem?_range hk]
  simp only [Option.map_some, Option.some.injEq, fin.injEq]
  have e1 : ‖wmaResponse p w‖ * Real.cos (w * k + ph + (wmaResponse p w).arg) =
      (Complex.exp ((w * k + ph : ℝ) * Complex.I) * wmaResponse p w).re := by
    conv_rhs => rw [← Complex.norm_mul_exp_arg_mul_I (wmaResponse p w)]
    rw [show Complex.exp ((w * k + ph : ℝ) * Complex.I) * (‖wmaResponse p w‖ * Complex.exp ((wmaResponse p w).arg * Complex.I)) =
      (‖wmaResponse p w‖ : ℂ) * Complex.exp ((w * k + ph + (wmaResponse p w).arg : ℝ) * Complex.I) by
        rw [mul_left_comm, ← Complex.exp_add]; congr 2; push_cast; ring]
    rw [Complex.re_ofReal_mul, Complex.exp_ofReal_mul_I_re]
  rw [show ‖wmaResponse p w‖ * (A * Real.cos (w * k + ph + (wmaResponse p w).arg)) =
    A * (‖wmaResponse p w‖ * Real.cos (w * k + ph + (wmaResponse p w).arg)) by ring, e1]
  have e2 : Complex.exp ((w * k + ph : ℝ) * Complex.I) * wmaResponse p w =
      ((∑ j ∈ Finset.range p, (((j : ℝ) + 1 : ℝ) : ℂ) * Complex.exp ((w * (k + j : ℕ) + ph : ℝ) * Complex.I))) /
        ((((p * (p + 1) : ℕ) : ℝ) / 2 : ℝ) : ℂ) := by
    unfold wmaResponse
    rw [mul_div_assoc', Finset.mul_sum]
    congr 1
    · apply Finset.sum_congr rfl
      intro j _
      rw [mul_left_comm, ← Complex.exp_add]
      push_cast
      congr 2
      ring
    · push_cast; rfl
  rw [e2, Complex.div_ofReal_re, Complex.re_sum, mul_div_assoc', Finset.mul_sum]
  congr 1
  rw [← List.sum_range_eq_finset]
  congr 1
  apply List.map_congr_left
  intro j hj
  have hj := List.mem_range.mp hj
  rw [Complex.re_ofReal_mul, Complex.exp_ofReal_mul_I_re, sinusoid_getD _ _ _ _ _ (by omega)]
  ring
where
  List.sum_range_eq_finset (f : ℕ → ℝ) (p : ℕ) : ((List.range p).map f).sum = ∑ j ∈ Finset.range p, f j := by
    induction p with
    | zero => simp
    | succ p ih => rw [List.range_succ, List.map_append, List.sum_append, ih, Finset.sum_range_succ]; simp

/-- **C229** the amplitude factor lies in `(0, 1]`: unlike the moving average, no frequency is removed entirely -/
theorem C229_gain (p : Nat) (hp : 1 ≤ p) (w : ℝ) : 0 < ‖wmaResponse p w‖ ∧ ‖wmaResponse p w‖ ≤ 1 := by
  have hD : 0 < ((p * (p + 1) : ℕ) : ℝ) / 2 := by
    have : 0 < p * (p + 1) := by positivity
    have : (0 : ℝ) < ((p * (p + 1) : ℕ) : ℝ) := by exact_mod_cast this
    linarith
  have hDc : (((p * (p + 1) : ℕ) : ℂ) / 2) = ((((p * (p + 1) : ℕ) : ℝ) / 2 : ℝ) : ℂ) := by push_cast; rfl
  constructor
  · rw [norm_pos_iff]
    unfold wmaResponse
    rw [hDc]
    refine div_ne_zero ?_ (by exact_mod_cast hD.ne')
    intro h0
    set z := Complex.exp ((w : ℝ) * Complex.I) with hz
    have hpow : ∀ j : Nat, Complex.exp ((w * j : ℝ) * Complex.I) = z ^ j := by
      intro j; rw [hz, ← Complex.exp_nat_mul]; congr 1; push_cast; ring
    simp only [hpow] at h0
    -- summation by parts
    have key : ∀ m : Nat, (z - 1) * ∑ j ∈ Finset.range m, ((j : ℂ) + 1) * z ^ j = m * z ^ m - ∑ j ∈ Finset.range m, z ^ j := by
      intro m
      induction m with
      | zero => simp
      | succ m ih => rw [Finset.sum_range_succ, mul_add, ih, Finset.sum_range_succ]; push_cast; ring
    have h1 := key p
    rw [h0, mul_zero] at h1
    have hzn : z ≠ 0 := Complex.exp_ne_zero _
    -- divide by z ^ p and compare real parts
    have h2 : (p : ℂ) = ∑ j ∈ Finset.range p, Complex.exp ((w * ((j : ℝ) - p) : ℝ) * Complex.I) := by
      have : ∀ j : Nat, Complex.exp ((w * ((j : ℝ) - p) : ℝ) * Complex.I) = z ^ j / z ^ p := by
        intro j
        rw [← hpow, ← hpow, ← Complex.exp_sub]; congr 1; push_cast; ring
      simp only [this]
      rw [← Finset.sum_div, eq_div_iff (pow_ne_zero _ hzn)]
      exact sub_eq_zero.mp h1.symm
    have h3 := congrArg Complex.re h2
    rw [Complex.re_sum] at h3
    simp only [Complex.exp_ofReal_mul_I_re, Complex.natCast_re] at h3
    have h4 : ∑ j ∈ Finset.range p, (1 - Real.cos (w * ((j : ℝ) - p))) = 0 := by
      rw [Finset.sum_sub_distrib, ← h3]; simp
    have h5 := (Finset.sum_eq_zero_iff_of_nonneg (fun j _ => by linarith [Real.cos_le_one (w * ((j : ℝ) - p))])).mp h4 (p - 1)
      (Finset.mem_range.mpr (by omega))
    rw [Nat.cast_sub hp, show w * ((p : ℝ) - (1 : ℕ) - p) = -w by push_cast; ring, Real.cos_neg] at h5
    have hw1 : Real.cos w = 1 := by linarith
    have hs0 : Real.sin w = 0 := by
      have := Real.sin_sq_add_cos_sq w
      rw [hw1] at this
      nlinarith
    have hz1 : z = 1 := by
      apply Complex.ext
      · rw [hz, Complex.exp_ofReal_mul_I_re, hw1]; rfl
      · rw [hz, Complex.exp_ofReal_mul_I_im, hs0]; rfl
    rw [hz1] at h0
    simp only [one_pow, mul_one] at h0
    have h6 := congrArg Complex.re h0
    rw [Complex.re_sum] at h6
    simp only [Complex.add_re, Complex.natCast_re, Complex.one_re, Complex.zero_re] at h6
    rw [weight_sum] at h6
    exact absurd h6 hD.ne'
  · unfold wmaResponse
    rw [hDc, norm_div, Complex.norm_of_nonneg hD.le, div_le_one hD, ← weight_sum]
    refine (norm_sum_le _ _).trans (Finset.sum_le_sum (fun j _ => (norm_term w j).le))

/-- **C229** only the constant component (frequency a multiple of `2π`) passes undiminished, for periods of at least 2 -/
theorem C229_strict (p : Nat) (hp : 2 ≤ p) (w : ℝ) : ‖wmaResponse p w‖ = 1 ↔ Real.cos w = 1 := by
  have hD : 0 < ((p * (p + 1) : ℕ) : ℝ) / 2 := by
    have : 0 < p * (p + 1) := by positivity
    have : (0 : ℝ) < ((p * (p + 1) : ℕ) : ℝ) := by exact_mod_cast this
    linarith
  have hDc : (((p * (p + 1) : ℕ) : ℂ) / 2) = ((((p * (p + 1) : ℕ) : ℝ) / 2 : ℝ) : ℂ) := by push_cast; rfl
  have hN : ‖wmaResponse p w‖ = ‖∑ j ∈ Finset.range p, ((j : ℂ) + 1) * Complex.exp ((w * j : ℝ) * Complex.I)‖ /
      (((p * (p + 1) : ℕ) : ℝ) / 2) := by
    unfold wmaResponse
    rw [hDc, norm_div, Complex.norm_of_nonneg hD.le]
  rw [hN, div_eq_one_iff_eq hD.ne', ← weight_sum]
  constructor
  · intro h
    by_contra hc
    have hlt : Real.cos w < 1 := lt_of_le_of_ne (Real.cos_le_one w) hc
    obtain ⟨q, rfl⟩ : ∃ q, p = q + 2 := ⟨p - 2, by omega⟩
    rw [Finset.sum_range_succ', Finset.sum_range_succ', Finset.sum_range_succ', Finset.sum_range_succ'] at h
    have b1 := norm_sum_le (Finset.range q) (fun j : ℕ => (((j + 1 + 1 : ℕ) : ℂ) + 1) * Complex.exp ((w * (j + 1 + 1 : ℕ) : ℝ) * Complex.I))
    simp only [norm_term] at b1
    have b2 : ‖(((0 + 1 : ℕ) : ℂ) + 1) * Complex.exp ((w * (0 + 1 : ℕ) : ℝ) * Complex.I) +
        (((0 : ℕ) : ℂ) + 1) * Complex.exp ((w * (0 : ℕ) : ℝ) * Complex.I)‖ < 3 := by
      have e : (((0 + 1 : ℕ) : ℂ) + 1) * Complex.exp ((w * (0 + 1 : ℕ) : ℝ) * Complex.I) +
          (((0 : ℕ) : ℂ) + 1) * Complex.exp ((w * (0 : ℕ) : ℝ) * Complex.I) =
          ⟨2 * Real.cos w + 1, 2 * Real.sin w⟩ := by
        apply Complex.ext
        · simp [Complex.exp_re]; left; norm_num
        · simp [Complex.exp_im]; left; norm_num
      rw [e, Complex.norm_def, Complex.normSq_mk, show (3 : ℝ) = √9 by
        rw [show (9 : ℝ) = 3 ^ 2 by norm_num, Real.sqrt_sq (by norm_num)]]
      apply Real.sqrt_lt_sqrt
      · nlinarith [sq_nonneg (2 * Real.cos w + 1), sq_nonneg (2 * Real.sin w)]
      · nlinarith [Real.sin_sq_add_cos_sq w]
    rw [add_assoc] at h
    have b3 := norm_add_le (∑ j ∈ Finset.range q, (((j + 1 + 1 : ℕ) : ℂ) + 1) * Complex.exp ((w * (j + 1 + 1 : ℕ) : ℝ) * Complex.I))
      ((((0 + 1 : ℕ) : ℂ) + 1) * Complex.exp ((w * (0 + 1 : ℕ) : ℝ) * Complex.I) +
        (((0 : ℕ) : ℂ) + 1) * Complex.exp ((w * (0 : ℕ) : ℝ) * Complex.I))
    rw [h] at b3
    norm_num at b3 b2 b1
    linarith
  · intro h
    have hs0 : Real.sin w = 0 := by
      have := Real.sin_sq_add_cos_sq w
      rw [h] at this
      nlinarith
    have hz1 : Complex.exp ((w : ℝ) * Complex.I) = 1 := by
      apply Complex.ext
      · rw [Complex.exp_ofReal_mul_I_re, h]; rfl
      · rw [Complex.exp_ofReal_mul_I_im, hs0]; rfl
    have : ∀ j : Nat, Complex.exp ((w * j : ℝ) * Complex.I) = 1 := by
      intro j
      rw [show ((w * j : ℝ) : ℂ) * Complex.I = (j : ℂ) * ((w : ℝ) * Complex.I) by push_cast; ring, Complex.exp_nat_mul, hz1, one_pow]
    simp only [this, mul_one]
    rw [show (∑ j ∈ Finset.range p, ((j : ℂ) + 1)) = ((∑ j ∈ Finset.range p, ((j : ℝ) + 1) : ℝ) : ℂ) by push_cast; rfl,
      Complex.norm_of_nonneg (Finset.sum_nonneg (fun j _ => by positivity))]

/-- **C229** at the Nyquist frequency the factor is `1/p` for odd and `1/(p+1)` for even periods -/
theorem C229_nyquist (m : Nat) :
    ‖wmaResponse (2 * m + 1) Real.pi‖ = 1 / (2 * m + 1 : ℕ) ∧ (1 ≤ m → ‖wmaResponse (2 * m) Real.pi‖ = 1 / (2 * m + 1 : ℕ)) := by
  have hpow : ∀ j : Nat, Complex.exp ((Real.pi * j : ℝ) * Complex.I) = (-1) ^ j := by
    intro j
    rw [show ((Real.pi * j : ℝ) : ℂ) * Complex.I = (j : ℂ) * (Real.pi * Complex.I) by push_cast; ring, Complex.exp_nat_mul,
      Complex.exp_pi_mul_I]
  have hs : ∀ m : Nat, (∑ j ∈ Finset.range (2 * m), ((j : ℂ) + 1) * (-1) ^ j) = -(m : ℂ) := by
    intro m
    induction m with
    | zero => simp
    | succ m ih =>
      rw [show 2 * (m + 1) = 2 * m + 1 + 1 by ring, Finset.sum_range_succ, Finset.sum_range_succ, ih, pow_succ, pow_mul]
      push_cast; norm_num; ring
  have hn : ∀ k : Nat, ‖(k : ℂ)‖ = k := Complex.norm_natCast
  constructor
  · unfold wmaResponse
    simp only [hpow]
    rw [Finset.sum_range_succ, hs, pow_mul]
    norm_num
    rw [show -(m : ℂ) + (2 * m + 1) = ((m + 1 : ℕ) : ℂ) by push_cast; ring, hn,
      show (2 * (m : ℂ) + 1) = ((2 * m + 1 : ℕ) : ℂ) by push_cast; ring,
      show (((2 * m + 1 : ℕ) : ℂ) + 1) = ((2 * m + 2 : ℕ) : ℂ) by push_cast; ring, hn, hn]
    push_cast
    have : (2 * (m : ℝ) + 1) ≠ 0 := by positivity
    have : ((m : ℝ) + 1) ≠ 0 := by positivity
    field_simp
    try ring
  · intro hm
    unfold wmaResponse
    simp only [hpow]
    rw [hs]
    have h0 : (m : ℝ) ≠ 0 := by exact_mod_cast (by omega : m ≠ 0)
    rw [norm_div, norm_neg, hn, norm_div, hn]
    norm_num
    have : (2 * (m : ℝ) + 1) ≠ 0 := by positivity
    field_simp

example : ‖wmaResponse 3 Real.pi‖ = 1 / 3 ∧ ‖wmaResponse 4 Real.pi‖ = 1 / 5 := by
  have h1 := (C229_nyquist 1).1
  have h2 := (C229_nyquist 2).2 (by norm_num)
  norm_num at h1 h2
  exact ⟨h1, h2⟩

end Proadv.Props
