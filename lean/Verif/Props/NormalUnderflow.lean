import Verif.Py.UnderflowReal
import Verif.Props.NormalRnd2

/-!
# `log_pdf` and `log_cdf` in the far tails (C244)
-/

set_option linter.unusedSectionVars false

namespace Proadv.Props

open Proadv Proadv.Normal Real ProbabilityTheory NormalLaws NormalRnd

private noncomputable abbrev B := bin64gR

/-- `e^{-750}` is less than half of the smallest positive float -/
theorem exp_flush {x : ℝ} (h : x ≤ -750) : rexp x < 2 ^ (-1075 : ℤ) := by
  have h1 : (2 : ℝ) ^ (-1075 : ℤ) = rexp (-(1075 * Real.log 2)) := by
    rw [zpow_neg, Real.exp_neg]
    congr 1
    rw [show (1075 : ℝ) * Real.log 2 = Real.log 2 * (1075 : ℕ) by push_cast; ring, Real.exp_mul, Real.exp_log (by norm_num), Real.rpow_natCast]
    exact zpow_natCast 2 1075
  rw [h1]
  apply Real.exp_lt_exp.mpr
  have := Real.log_two_lt_d9
  linarith

private theorem lit_b (q : ℚ) : (lit q : Rd B) = Rd.fin B (rndSubR (q : ℝ)) := rfl

private theorem lits : (lit 0 : Rd B) = Rd.fin B 0 ∧ (lit 1 : Rd B) = Rd.fin B 1 ∧ (lit 2 : Rd B) = Rd.fin B 2 ∧
    (lit (1 / 2) : Rd B) = Rd.fin B (1 / 2) := by
  have h0 := rndSubR_half_nat 0 (by norm_num)
  have h1 := rndSubR_half_nat 1 (by norm_num)
  have h2 := rndSubR_half_nat 2 (by norm_num)
  have h4 := rndSubR_half_nat 4 (by norm_num)
  norm_num at h0 h1 h2 h4
  refine ⟨?_, ?_, ?_, ?_⟩ <;> rw [lit_b] <;> norm_num [h0, h1, h2, h4]

private theorem log_pos_b {a : ℝ} (h : 0 < a) : PyMath.log (Rd.fin B a) = Rd.fin B (rndSubR (Real.log a)) := by
  show Rd.round B (Fl.logR (Fl.fin a)) = _
  have : Fl.logR (Fl.fin a) = Fl.fin (Real.log a) := by
    unfold Fl.logR; simp only; rw [if_neg (not_lt.mpr h.le), if_neg h.ne']
  rw [this]; rfl

private theorem log_zero_b : PyMath.log (Rd.fin B 0) = (Fl.ninf : Fl ℝ) := by
  show Rd.round B (Fl.logR (Fl.fin 0)) = _
  have : Fl.logR (Fl.fin 0) = Fl.ninf := by unfold Fl.logR; simp
  rw [this]; rfl

private theorem npow_b (a : ℝ) : (Rd.fin B a) ^. 2 = Rd.fin B (rndSubR (a ^ 2)) := by
  show Rd.round B (Fl.npow (Fl.fin a) 2) = _
  have : Fl.npow (Fl.fin a) 2 = Fl.fin (a ^ 2) := Fl.pnpow_fin a 2
  rw [this]; rfl

private theorem exp_b (a : ℝ) : PyMath.exp (Rd.fin B a) = Rd.fin B (rndSubR (rexp a)) := rfl
private theorem pi_b : (PyMath.pi : Rd B) = Rd.fin B (rndSubR π) := rfl
private theorem erfc_b (a : ℝ) : PyMath.erfc (Rd.fin B a) = Rd.fin B (rndSubR (1 - erfR a)) := rfl
private theorem abs_b (a : ℝ) : PyNum.abs (Rd.fin B a) = Rd.fin B |a| := rfl
private theorem rnd_b : B.rnd = rndSubR := rfl

/-- rounding a number at least one shrinks it by at most a millionth -/
private theorem ge_b {x : ℝ} (h : 1 / 1024 ≤ x) : (1 - 1 / 10 ^ 6) * x ≤ rndSubR x ∧ rndSubR x ≤ (1 + 1 / 10 ^ 6) * x := by
  have h0 : 0 < x := lt_of_lt_of_le (by norm_num) h
  have := rndSubR_near (x := x) (by rw [abs_of_pos h0]; exact h)
  rw [abs_of_pos h0] at this
  obtain ⟨h1, h2⟩ := abs_le.mp this
  have h3 : 1 / 2 ^ 53 * x ≤ 1 / 10 ^ 6 * x := mul_le_mul_of_nonneg_right (by norm_num) h0.le
  constructor <;> linarith

private theorem abs_ge_b {x : ℝ} (h : 1 / 1024 ≤ |x|) : (1 - 1 / 10 ^ 6) * |x| ≤ |rndSubR x| := by
  have h0 := abs_nonneg x
  have h1 := rndSubR_near h
  have h2 := abs_sub_abs_le_abs_sub x (rndSubR x)
  rw [abs_sub_comm] at h1
  have h3 : 1 / 2 ^ 53 * |x| ≤ 1 / 10 ^ 6 * |x| := mul_le_mul_of_nonneg_right (by norm_num) h0
  linarith

private theorem pdf_zero (v : ℝ) (hv : 39 ≤ |v|) : pdfEntry (lit 1) (lit 0) (Rd.fin B v) = Rd.fin B 0 := by
  obtain ⟨l0, l1, l2, lh⟩ := lits
  have r1 : rndSubR 1 = 1 := by have := rndSubR_half_nat 2 (by norm_num); norm_num at this; exact this
  have r2 : rndSubR 2 = 2 := by have := rndSubR_half_nat 4 (by norm_num); norm_num at this; exact this
  obtain ⟨p1, p2⟩ := ge_b (x := π) (by linarith [Real.pi_gt_three])
  obtain ⟨q1, q2⟩ := ge_b (x := 2 * rndSubR π) (by nlinarith [Real.pi_gt_three])
  have hq : 1 < rndSubR (2 * rndSubR π) := by nlinarith [Real.pi_gt_three]
  unfold pdfEntry
  simp only [l0, l1, l2, pi_b, Rd.mul_fin, Rd.sub_fin, rnd_b, log_pos_b (lt_trans one_pos hq), log_pos_b one_pos, npow_b, Real.log_one,
    rndSubR_zero, sub_zero, mul_one, r1, r2]
  rw [Rd.div_fin B two_ne_zero, lit_b]
  simp only [Rd.mul_fin, Rd.sub_fin, rnd_b, exp_b, sub_zero]
  congr 1
  apply rndSubR_flush (Real.exp_pos _).le
  apply exp_flush
  -- the constant is not positive
  have c1 : 0 ≤ rndSubR (Real.log (rndSubR (2 * rndSubR π))) := rndSubR_nonneg (Real.log_nonneg hq.le)
  have c2 : rndSubR ((((-1 / 2 : ℚ)) : ℝ)) ≤ 0 := rndSubR_nonpos (by norm_num)
  set k := rndSubR (rndSubR (rndSubR ((((-1 / 2 : ℚ)) : ℝ)) * rndSubR (Real.log (rndSubR (2 * rndSubR π))))) with hk
  have c3 : k ≤ 0 := rndSubR_nonpos (rndSubR_nonpos (mul_nonpos_of_nonpos_of_nonneg c2 c1))
  -- the quadratic part is large
  have d1 := abs_ge_b (x := v) (by linarith)
  have d2 : 1520 ≤ rndSubR v ^ 2 := by
    rw [← sq_abs]; nlinarith [abs_nonneg (rndSubR v)]
  obtain ⟨d3, -⟩ := ge_b (x := rndSubR v ^ 2) (by linarith)
  obtain ⟨d4, -⟩ := ge_b (x := rndSubR (rndSubR v ^ 2) / 2) (by nlinarith)
  set y := rndSubR (rndSubR (rndSubR v ^ 2) / 2) with hy
  have d5 : 759 ≤ y := by nlinarith
  have e1 : 1 / 1024 ≤ |k - y| := by rw [abs_of_neg (by linarith)]; linarith
  have e2 := rndSubR_near e1
  rw [abs_of_neg (by linarith : k - y < 0)] at e2
  have e3 := (abs_le.mp e2).2
  have e4 : 1 / 2 ^ 53 * -(k - y) ≤ 1 / 100 * -(k - y) := mul_le_mul_of_nonneg_right (by norm_num) (by linarith)
  linarith

private theorem cdf_zero (x : ℝ) (hx : x ≤ -39) : cdfEntry (Rd.fin B x) = Rd.fin B 0 := by
  obtain ⟨l0, l1, l2, lh⟩ := lits
  have hs2 : (1.414 : ℝ) ≤ √2 := Real.le_sqrt_of_sq_le (by norm_num)
  have hs3 : √2 ≤ (1.415 : ℝ) := by rw [Real.sqrt_le_left (by norm_num)]; norm_num
  have hss : √(2 : ℝ) ^ 2 = 2 := Real.sq_sqrt (by norm_num)
  obtain ⟨a1, a2⟩ := ge_b (x := √2) (by linarith)
  have hr0 : 0 < rndSubR √2 := by nlinarith
  set r := rndSubR √2 with hr
  have hi : 0.7 ≤ 1 / r ∧ 1 / r ≤ 0.71 := by
    constructor
    · rw [le_div_iff₀ hr0]; nlinarith
    · rw [div_le_iff₀ hr0]; nlinarith
  obtain ⟨b1, b2⟩ := ge_b (x := 1 / r) (by linarith [hi.1])
  set c := rndSubR (1 / r) with hc
  have hc1 : 0.69 ≤ c := by nlinarith [hi.1]
  have hc2 : c ≤ 0.72 := by nlinarith [hi.2]
  have hcs : 0.999 ≤ c * √2 := by
    have : 1 ≤ 1 / r * ((1 + 1 / 10 ^ 6) * √2) := by
      rw [div_mul_eq_mul_div, one_mul, le_div_iff₀ hr0]; linarith
    have h3 : (1 - 1 / 10 ^ 6) * (1 / r) * √2 ≤ c * √2 := mul_le_mul_of_nonneg_right b1 (by positivity)
    nlinarith
  have hxc : x * c ≤ -26 := by nlinarith
  have hn := rndSubR_near (x := x * c) (by rw [abs_of_neg (by linarith)]; linarith)
  rw [abs_of_neg (by linarith : x * c < 0)] at hn
  have hn2 := (abs_le.mp hn).2
  have hn3 : 1 / 2 ^ 53 * -(x * c) ≤ 1 / 10 ^ 6 * -(x * c) := mul_le_mul_of_nonneg_right (by norm_num) (by linarith)
  set w := rndSubR (x * c) with hw
  have hw0 : w < -25 := by linarith
  unfold cdfEntry
  have hsq : PyMath.sqrt (Rd.fin B 2) = Rd.fin B r := Rd.sqrt_fin B (by norm_num)
  simp only [l0, l1, l2, lh, hsq]
  rw [Rd.div_fin B hr0.ne']
  simp only [rnd_b, ← hc, Rd.mul_fin, ← hw, abs_b, Rd.lt_fin, erfc_b, decide_eq_true_eq]
  rw [if_neg (by rw [abs_of_neg (by linarith)]; linarith), if_neg (by linarith)]
  have hE : 1 - erfR |w| < 2 ^ (-1075 : ℤ) := by
    have e : |w| = (|w| * √2) / √2 := by field_simp
    rw [e, erf_Phi]
    have hp : 38.9 ≤ |w| * √2 := by
      rw [abs_of_neg (by linarith)]
      have h1 : (1 - 1 / 10 ^ 6) * -(x * c) ≤ -w := by linarith
      have h2 := mul_le_mul_of_nonneg_right h1 (by positivity : 0 ≤ √(2 : ℝ))
      nlinarith
    have hch := chernoff (x := |w| * √2) (by linarith)
    have hex := exp_flush (x := -(|w| * √2) ^ 2 / 2) (by nlinarith)
    linarith
  have hE0 : 0 ≤ 1 - erfR |w| := by
    have e : |w| = (|w| * √2) / √2 := by field_simp
    rw [e, erf_Phi]
    have := tail_pos (|w| * √2); linarith
  rw [rndSubR_flush hE0 hE, mul_zero, rndSubR_zero]

private theorem no_nan_b (xs : List ℝ) : (Rd.fins B xs).any PyNum.isNaN = false := by
  rw [List.any_eq_false]
  intro y hy
  obtain ⟨x, -, rfl⟩ := List.mem_map.mp hy
  exact Bool.false_ne_true

/-- **C244**, a finding: in binary64 with gradual underflow `log_pdf` (default mean and deviation) returns minus infinity for every sample
of size 39 or more, although the logarithm of the density there is an ordinary number. -/
theorem C244_log_pdf (d : Nat) (b : Bool) (xs : List ℝ) (hne : xs ≠ []) (hx : ∀ x ∈ xs, 39 ≤ |x|) :
    pdf (⟨d, b, Rd.fins bin64gR xs⟩ : Arr (Rd bin64gR)) (lit 1) (lit 0) =
        .ok ⟨d, false, List.replicate xs.length (Rd.fin bin64gR 0)⟩ ∧
      logPdf (⟨d, b, Rd.fins bin64gR xs⟩ : Arr (Rd bin64gR)) (lit 1) (lit 0) =
        .ok ⟨d, false, List.replicate xs.length (Fl.ninf : Fl ℝ)⟩ ∧
      logPdf (⟨d, b, xs.map Fl.fin⟩ : Arr (Fl ℝ)) (lit 1) (lit 0) =
        .ok ⟨d, false, xs.map (fun x => Fl.fin (-x ^ 2 / 2 - Real.log (2 * π) / 2))⟩ := by
  have hp : pdf (⟨d, b, Rd.fins bin64gR xs⟩ : Arr (Rd bin64gR)) (lit 1) (lit 0) =
        .ok ⟨d, false, List.replicate xs.length (Rd.fin bin64gR 0)⟩ := by
    unfold pdf
    rw [if_neg (by simpa using hne), no_nan_b, if_neg (by simp)]
    congr 2
    rw [List.map_map, List.eq_replicate_iff]
    refine ⟨by simp, fun y hy => ?_⟩
    obtain ⟨x, hm, rfl⟩ := List.mem_map.mp hy
    exact pdf_zero x (hx x hm)
  refine ⟨hp, ?_, ?_⟩
  · unfold logPdf
    rw [if_neg (by simpa using hne), no_nan_b, if_neg (by simp), hp]
    simp only [bind, Except.bind, List.map_replicate, log_zero_b]
  · have h := (C33_pdf d b xs hne 1 0 one_pos).2
    have e1 : (Fl.fin 1 : Fl ℝ) = lit 1 := by simp [Fl.lit_eq]
    have e0 : (Fl.fin 0 : Fl ℝ) = lit 0 := by simp [Fl.lit_eq]
    rw [e1, e0] at h
    rw [h]
    congr 2
    apply List.map_congr_left
    intro x _
    rw [← exp_expo 1 0 x one_pos, Real.log_exp]
    unfold expo
    rw [Real.log_one]
    congr 1
    ring

/-- **C244**, a finding: in the same arithmetic `cdf` returns 0 and `log_cdf` minus infinity for every sample of -39 or less, although
the exact value is positive. -/
theorem C244_log_cdf (d : Nat) (hd : d ≠ 0) (xs : List ℝ) (hne : xs ≠ []) (hx : ∀ x ∈ xs, x ≤ -39) :
    cdf (⟨d, false, Rd.fins bin64gR xs⟩ : Arr (Rd bin64gR)) = .ok ⟨d, false, List.replicate xs.length (Rd.fin bin64gR 0)⟩ ∧
      logCdf (⟨d, false, Rd.fins bin64gR xs⟩ : Arr (Rd bin64gR)) = .ok ⟨d, false, List.replicate xs.length (Fl.ninf : Fl ℝ)⟩ ∧
      ∀ x ∈ xs, 0 < Phi x := by
  have hp : cdf (⟨d, false, Rd.fins bin64gR xs⟩ : Arr (Rd bin64gR)) = .ok ⟨d, false, List.replicate xs.length (Rd.fin bin64gR 0)⟩ := by
    unfold cdf
    rw [if_neg (by simpa using hne), no_nan_b, if_neg (by simp), if_neg hd]
    congr 2
    rw [List.map_map, List.eq_replicate_iff]
    refine ⟨by simp, fun y hy => ?_⟩
    obtain ⟨x, hm, rfl⟩ := List.mem_map.mp hy
    exact cdf_zero x (hx x hm)
  refine ⟨hp, ?_, fun x _ => gaussian_Iic_pos x⟩
  unfold logCdf
  rw [if_neg (by simpa using hne), no_nan_b, if_neg (by simp), hp]
  simp only [bind, Except.bind, List.map_replicate, log_zero_b]

/-- the hypotheses are met: samples at 40 and -50 standard deviations -/
example : (∀ x ∈ ([40, -50] : List ℝ), 39 ≤ |x|) ∧ ∀ x ∈ ([-40, -50] : List ℝ), x ≤ -39 := by
  constructor <;> intro x hx <;> simp at hx <;> rcases hx with rfl | rfl <;> norm_num

end Proadv.Props
