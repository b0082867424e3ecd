import Verif.Props.Normal
import Mathlib.Analysis.Calculus.Deriv.MeanValue
import Mathlib.MeasureTheory.Integral.IntervalIntegral.FundThmCalculus

/-! # `normal`: cdf and pdf belong together; limits and tail bounds (C169) -/

namespace Proadv.Props

open Proadv Proadv.Normal Fl Real ProbabilityTheory Filter Topology
open MeasureTheory (measure_ne_top measure_mono measure_union tendsto_measure_Iic_atTop)

namespace NormalLaws

/-- standard normal density -/
noncomputable def phi (x : ℝ) : ℝ := rexp (-x ^ 2 / 2) / √(2 * π)

theorem phi_pos (x : ℝ) : 0 < phi x := by unfold phi; positivity

theorem erfR_deriv (x : ℝ) : HasDerivAt erfR (2 / √π * rexp (-x ^ 2)) x := by
  unfold erfR
  have hc : Continuous fun t : ℝ => rexp (-t ^ 2) := by fun_prop
  exact (intervalIntegral.integral_hasDerivAt_right (hc.intervalIntegrable _ _)
    hc.stronglyMeasurable.stronglyMeasurableAtFilter hc.continuousAt).const_mul _

theorem Phi_deriv (x : ℝ) : HasDerivAt Phi (phi x) x := by
  have e : Phi = fun x => 1 / 2 + 1 / 2 * erfR (x / √2) := funext Phi_eq
  rw [e]
  have h := ((((erfR_deriv (x / √2)).comp x ((hasDerivAt_id x).div_const (√2))).const_mul (1 / 2)).const_add (1 / 2))
  refine h.congr_deriv ?_
  unfold phi
  have h2 : (√2 : ℝ) ^ 2 = 2 := Real.sq_sqrt (by norm_num)
  rw [Real.sqrt_mul (by norm_num), div_pow, h2, neg_div]
  field_simp

theorem phi_deriv (x : ℝ) : HasDerivAt phi (-x * phi x) x := by
  unfold phi
  have h1 : HasDerivAt (fun x : ℝ => -x ^ 2 / 2) (-x) x := by
    have := ((hasDerivAt_pow 2 x).neg).div_const 2
    refine this.congr_deriv ?_; norm_num; ring
  refine (h1.exp.div_const (√(2 * π))).congr_deriv ?_
  ring

theorem Phi_top : Tendsto Phi atTop (𝓝 1) := by
  have h := tendsto_measure_Iic_atTop (gaussianReal 0 1)
  have h2 := (ENNReal.tendsto_toReal (measure_ne_top _ Set.univ)).comp h
  have h3 : Tendsto Phi atTop (𝓝 ((gaussianReal 0 1 Set.univ).toReal)) := h2
  simpa using h3

theorem phi_top : Tendsto phi atTop (𝓝 0) := by
  unfold phi
  have h1 : Tendsto (fun x : ℝ => x ^ 2 / 2) atTop atTop :=
    (tendsto_pow_atTop (by norm_num)).atTop_div_const (by norm_num)
  have h2 := (Real.tendsto_exp_neg_atTop_nhds_zero.comp h1).div_const (√(2 * π))
  simp only [zero_div] at h2
  refine h2.congr fun x => ?_
  simp [neg_div]

/-- a function with negative derivative beyond `a` and limit zero is positive there -/
theorem pos_of_deriv_neg {f f' : ℝ → ℝ} {a : ℝ} (hd : ∀ x, a < x → HasDerivAt f (f' x) x) (hn : ∀ x, a < x → f' x < 0)
    (hl : Tendsto f atTop (𝓝 0)) {x : ℝ} (hx : a < x) : 0 < f x := by
  have hs : StrictAntiOn f (Set.Ici x) := by
    apply strictAntiOn_of_deriv_neg (convex_Ici x)
    · intro y hy; exact (hd y (lt_of_lt_of_le hx hy)).continuousAt.continuousWithinAt
    · intro y hy
      rw [interior_Ici] at hy
      rw [(hd y (hx.trans hy)).deriv]; exact hn y (hx.trans hy)
  have h1 : f (x + 1) < f x := hs (Set.mem_Ici.mpr le_rfl) (Set.mem_Ici.mpr (by linarith)) (by linarith)
  have h2 : 0 ≤ f (x + 1) := by
    apply le_of_tendsto hl
    filter_upwards [eventually_ge_atTop (x + 1)] with y hy
    exact hs.antitoneOn (Set.mem_Ici.mpr (by linarith)) (Set.mem_Ici.mpr (by linarith)) hy
  linarith

theorem tail_top : Tendsto (fun x => 1 - Phi x) atTop (𝓝 0) := by
  simpa using (tendsto_const_nhds (x := (1 : ℝ))).sub Phi_top

theorem mills_upper {x : ℝ} (hx : 0 < x) : 1 - Phi x < phi x / x := by
  have h := pos_of_deriv_neg (f := fun x => phi x / x - (1 - Phi x)) (f' := fun x => -(phi x / x ^ 2)) (a := 0) ?_ ?_ ?_ hx
  · linarith
  · intro y hy
    refine (((phi_deriv y).div (hasDerivAt_id y) hy.ne').sub ((Phi_deriv y).const_sub 1)).congr_deriv ?_
    simp only [id]; field_simp; ring
  · intro y hy; have := phi_pos y; have : 0 < phi y / y ^ 2 := by positivity
    linarith
  · have h1 : Tendsto (fun x => phi x / x) atTop (𝓝 0) := phi_top.div_atTop tendsto_id
    simpa using h1.sub tail_top

theorem mills_lower {x : ℝ} (hx : 0 < x) : x * phi x / (1 + x ^ 2) < 1 - Phi x := by
  have h := pos_of_deriv_neg (f := fun x => (1 - Phi x) - x * phi x / (1 + x ^ 2)) (f' := fun x => -(2 * phi x / (1 + x ^ 2) ^ 2))
    (a := 0) ?_ ?_ ?_ hx
  · linarith
  · intro y hy
    have hne : (1 + y ^ 2) ≠ 0 := by positivity
    have h2 : HasDerivAt (fun y : ℝ => 1 + y ^ 2) (2 * y) y := by
      refine ((hasDerivAt_pow 2 y).const_add 1).congr_deriv ?_; norm_num
    refine (((Phi_deriv y).const_sub 1).sub (((hasDerivAt_id y).mul (phi_deriv y)).div h2 hne)).congr_deriv ?_
    simp only [id, Pi.mul_apply]; field_simp; ring
  · intro y hy; have := phi_pos y; have : 0 < 2 * phi y / (1 + y ^ 2) ^ 2 := by positivity
    linarith
  · have h1 : Tendsto (fun x => x * phi x / (1 + x ^ 2)) atTop (𝓝 0) := by
      apply squeeze_zero' (g := phi) _ _ phi_top
      · filter_upwards [eventually_ge_atTop 0] with y hy
        have := phi_pos y; positivity
      · filter_upwards [eventually_ge_atTop 0] with y hy
        have := phi_pos y
        rw [div_le_iff₀ (by positivity)]
        nlinarith [sq_nonneg (y - 1), mul_nonneg this.le (sq_nonneg (y - 1))]
    simpa using tail_top.sub h1

theorem Phi_half : Phi 0 = 1 / 2 := by
  have := Phi_neg 0
  rw [neg_zero] at this; linarith

theorem chernoff {x : ℝ} (hx : 0 ≤ x) : 1 - Phi x ≤ rexp (-x ^ 2 / 2) / 2 := by
  set c : ℝ := 2 / √(2 * π) with hc
  have hcp : 0 < c := by positivity
  set f : ℝ → ℝ := fun x => rexp (-x ^ 2 / 2) / 2 - (1 - Phi x) with hf
  have e : ∀ y, rexp (-y ^ 2 / 2) / 2 = phi y * (√(2 * π) / 2) := by
    intro y; unfold phi; field_simp
  have hd : ∀ y, HasDerivAt f (phi y * (1 - y * (√(2 * π) / 2))) y := by
    intro y
    have h1 : HasDerivAt (fun y => rexp (-y ^ 2 / 2) / 2) (-y * phi y * (√(2 * π) / 2)) y := by
      rw [show (fun y : ℝ => rexp (-y ^ 2 / 2) / 2) = fun y => phi y * (√(2 * π) / 2) from funext e]
      exact (phi_deriv y).mul_const _
    refine (h1.sub ((Phi_deriv y).const_sub 1)).congr_deriv ?_
    ring
  have key : 0 ≤ f x := by
    rcases lt_or_ge c x with h | h
    · refine (pos_of_deriv_neg (a := c) (f := f) (fun y _ => hd y) ?_ ?_ h).le
      · intro y hy
        have : 1 < y * (√(2 * π) / 2) := by
          have := mul_lt_mul_of_pos_right hy (show 0 < √(2 * π) / 2 by positivity)
          rwa [hc, div_mul_div_comm, mul_comm (√(2 * π)) 2, div_self (by positivity)] at this
        exact mul_neg_of_pos_of_neg (phi_pos y) (by linarith)
      · have h1 : Tendsto (fun y => phi y * (√(2 * π) / 2)) atTop (𝓝 0) := by simpa using phi_top.mul_const (√(2 * π) / 2)
        rw [hf, show (fun x : ℝ => rexp (-x ^ 2 / 2) / 2 - (1 - Phi x)) = fun x => phi x * (√(2 * π) / 2) - (1 - Phi x) from
          funext fun y => by rw [e]]
        simpa using h1.sub tail_top
    · have hm : MonotoneOn f (Set.Icc 0 c) := by
        apply monotoneOn_of_deriv_nonneg (convex_Icc 0 c)
        · intro y _; exact (hd y).continuousAt.continuousWithinAt
        · intro y _; exact (hd y).differentiableAt.differentiableWithinAt
        · intro y hy
          rw [interior_Icc] at hy
          rw [(hd y).deriv]
          apply mul_nonneg (phi_pos y).le
          have := mul_lt_mul_of_pos_right hy.2 (show 0 < √(2 * π) / 2 by positivity)
          rw [hc, div_mul_div_comm, mul_comm (√(2 * π)) 2, div_self (by positivity)] at this
          linarith
      have h0 : f 0 = 0 := by simp [hf, Phi_half]; norm_num
      rw [← h0]; exact hm ⟨le_refl _, hcp.le⟩ ⟨hx, h⟩ hx
  have : 0 ≤ rexp (-x ^ 2 / 2) / 2 - (1 - Phi x) := key
  linarith

/-- the density of `pdf` in terms of the standard one -/
theorem pdf_std (s m x : ℝ) (hs : 0 < s) : gaussianPDFReal m (s ^ 2).toNNReal x = phi ((x - m) / s) / s := by
  rw [gaussianPDFReal_def, Real.coe_toNNReal _ (sq_nonneg s)]
  unfold phi
  rw [Real.sqrt_mul (by positivity), Real.sqrt_sq hs.le, div_pow]
  have : -(x - m) ^ 2 / (2 * s ^ 2) = -((x - m) ^ 2 / s ^ 2) / 2 := by field_simp
  simp only []
  rw [this]
  field_simp

end NormalLaws

open NormalLaws

/-- **C169.** `pdf` is the derivative of `cdf`: whatever the values `c t` that `cdf` returns on the standardised samples
`(t - mean) / std`, the function `c` is differentiable and its derivative at `x` is the value `pdf` returns at `x`. -/
theorem C169_derivative (s m : ℝ) (hs : 0 < s) (c : ℝ → ℝ)
    (hc : ∀ t, cdf (⟨1, false, [fin ((t - m) / s)]⟩ : Arr (Fl ℝ)) = .ok ⟨1, false, [fin (c t)]⟩) (x : ℝ) :
    ∃ p, pdf (⟨1, false, [fin x]⟩ : Arr (Fl ℝ)) (fin s) (fin m) = .ok ⟨1, false, [fin p]⟩ ∧ HasDerivAt c p x := by
  refine ⟨_, (C33_pdf 1 false [x] (by simp) s m hs).1, ?_⟩
  have e : c = fun t => Phi ((t - m) / s) := by
    funext t
    have h1 := hc t
    rw [show ([fin ((t - m) / s)] : List (Fl ℝ)) = [(t - m) / s].map fin from rfl, C31_cdf 1 one_ne_zero _ (by simp)] at h1
    have h2 : fin (Phi ((t - m) / s)) = (fin (c t) : Fl ℝ) := by simpa [Phi] using h1
    exact (Fl.fin.inj h2).symm
  rw [e, pdf_std s m x hs]
  have h := (Phi_deriv ((x - m) / s)).comp x (((hasDerivAt_id x).sub_const m).div_const s)
  exact h.congr_deriv (by ring)

/-- **C169.** tails: for `x > 0` the value `q` of `sf` at `x` lies strictly between `x p/(1+x²)` and `p/x`, `p` the value of `pdf`,
and is at most `exp(-x²/2)/2` -/
theorem C169_tails (x : ℝ) (hx : 0 < x) :
    ∃ p q, pdf (⟨1, false, [fin x]⟩ : Arr (Fl ℝ)) (fin 1) (fin 0) = .ok ⟨1, false, [fin p]⟩ ∧
      sf (⟨1, false, [fin x]⟩ : Arr (Fl ℝ)) = .ok ⟨1, false, [fin q]⟩ ∧
      x * p / (1 + x ^ 2) < q ∧ q < p / x ∧ q ≤ rexp (-x ^ 2 / 2) / 2 := by
  refine ⟨_, _, (C33_pdf 1 false [x] (by simp) 1 0 one_pos).1, (C32_sf 1 one_ne_zero [x] (by simp)).1, ?_⟩
  rw [pdf_std 1 0 x one_pos, sub_zero, div_one, div_one]
  exact ⟨mills_lower hx, mills_upper hx, chernoff hx.le⟩

/-- **C169.** limits: the values of `cdf` tend to 1 at +∞ and to 0 at -∞ -/
theorem C169_limits (c : ℝ → ℝ) (hc : ∀ t, cdf (⟨1, false, [fin t]⟩ : Arr (Fl ℝ)) = .ok ⟨1, false, [fin (c t)]⟩) :
    Tendsto c atTop (𝓝 1) ∧ Tendsto c atBot (𝓝 0) := by
  have e : c = Phi := by
    funext t
    have h1 := hc t
    rw [show ([fin t] : List (Fl ℝ)) = [t].map fin from rfl, C31_cdf 1 one_ne_zero _ (by simp)] at h1
    have h2 : fin (Phi t) = (fin (c t) : Fl ℝ) := by simpa [Phi] using h1
    exact (Fl.fin.inj h2).symm
  rw [e]
  refine ⟨Phi_top, ?_⟩
  have h := tail_top.comp tendsto_neg_atBot_atTop
  refine h.congr fun x => ?_
  simp only [Function.comp]
  rw [Phi_neg]; ring

/-- the function of the hypotheses of C169 exists -/
example : ∃ c : ℝ → ℝ, ∀ t, cdf (⟨1, false, [fin ((t - 3) / 2)]⟩ : Arr (Fl ℝ)) = .ok ⟨1, false, [fin (c t)]⟩ :=
  ⟨fun t => Phi ((t - 3) / 2), fun t => C31_cdf 1 one_ne_zero [(t - 3) / 2] (by simp)⟩

end Proadv.Props
