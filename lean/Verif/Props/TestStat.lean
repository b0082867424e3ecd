import Verif.Props.Normal
import Mathlib.Analysis.SpecialFunctions.Arsinh
import Mathlib.Analysis.SpecialFunctions.Pow.Real
import Mathlib.Tactic.Positivity
import Mathlib.Tactic.NormNum.RealSqrt

/-! # The statistics of `skewtest` and `kurtotest` (C172)

The statistic each test computes before the p-value (normal.py:180-204 and 269-300). -/

namespace Proadv.Props

open Proadv Proadv.Normal Fl Real

namespace Spec

/-- D'Agostino (1970): the variance of the squared fourth-moment ratio used for the normalising transformation -/
noncomputable def beta2 (n : ℝ) : ℝ := 3 * (n ^ 2 + 27 * n - 70) * (n + 1) * (n + 3) / ((n - 2) * (n + 5) * (n + 7) * (n + 9))

/-- D'Agostino's `W²` -/
noncomputable def wsq (n : ℝ) : ℝ := -1 + √(2 * (beta2 n - 1))

/-- D'Agostino's transformation of a standardised skewness `y` -/
noncomputable def dagostino (n y : ℝ) : ℝ := arsinh (y / √(2 / (wsq n - 1))) / √(log (wsq n) / 2)

/-- Anscombe and Glynn (1983): expected kurtosis of a normal sample -/
noncomputable def kmean (n : ℝ) : ℝ := 3 * (n - 1) / (n + 1)

/-- its variance -/
noncomputable def kvar (n : ℝ) : ℝ := 24 * n * (n - 2) * (n - 3) / ((n + 1) ^ 2 * (n + 3) * (n + 5))

/-- square of the third standardised moment of the kurtosis -/
noncomputable def kskew (n : ℝ) : ℝ :=
  6 * (n ^ 2 - 5 * n + 2) / ((n + 7) * (n + 9)) * √(6 * (n + 3) * (n + 5) / (n * (n - 2) * (n - 3)))

/-- degrees of freedom of the approximating distribution -/
noncomputable def kdof (n : ℝ) : ℝ := 6 + 8 / kskew n * (2 / kskew n + √(1 + 4 / kskew n ^ 2))

/-- the denominator of the cube root -/
noncomputable def kden (n k : ℝ) : ℝ := 1 + (k - kmean n) / √(kvar n) * √(2 / (kdof n - 4))

/-- Anscombe and Glynn's transformation of a kurtosis `k` -/
noncomputable def anscombe (n k : ℝ) : ℝ :=
  (1 - 2 / (9 * kdof n) - ((1 - 2 / kdof n) / kden n k) ^ (1 / 3 : ℝ)) / √(2 / (9 * kdof n))

end Spec

open Spec

namespace TestStat

theorem beta2_gt {n : ℝ} (hn : 8 ≤ n) : 3 < beta2 n := by
  unfold beta2
  have h1 : 0 < n - 2 := by linarith
  rw [lt_div_iff₀ (by positivity)]
  nlinarith [mul_nonneg (sq_nonneg n) (sub_nonneg.mpr hn), mul_nonneg (by linarith : (0:ℝ) ≤ n) (sub_nonneg.mpr hn)]

theorem wsq_gt {n : ℝ} (hn : 8 ≤ n) : 1 < wsq n := by
  have h := beta2_gt hn
  have : 2 < √(2 * (beta2 n - 1)) := Real.lt_sqrt_of_sq_lt (by linarith)
  unfold wsq; linarith

theorem skewZ_fin {n : Nat} (hn : 8 ≤ n) (s : ℝ) :
    skewZ n (fin s : Fl ℝ) = fin (dagostino n (if s = 0 then 1 else s * √((n + 1) * (n + 3) / (6 * (n - 2))))) := by
  have hn' : (8 : ℝ) ≤ n := by exact_mod_cast hn
  have hc : ((n - 2 : ℕ) : ℝ) = (n : ℝ) - 2 := by rw [Nat.cast_sub (by omega)]; norm_num
  have h2 : (0 : ℝ) < n - 2 := by linarith
  have hA : PyMath.sqrt ((ofNat ((n + 1) * (n + 3)) : Fl ℝ) /. (lit 6 *. ofNat (n - 2))) =
      fin (√((n + 1) * (n + 3) / (6 * (n - 2)))) := by
    rw [ofNat_eq, ofNat_eq, lit_eq, pmul_fin, pdiv_fin (by push_cast [hc]; positivity), psqrt_fin (by push_cast [hc]; positivity)]
    congr 2; push_cast [hc]; ring
  have hq : ((n ^ 2 + 27 * n - 70 : ℕ) : ℝ) = (n : ℝ) ^ 2 + 27 * n - 70 := by
    rw [Nat.cast_sub (by nlinarith)]; push_cast; ring
  have hB : ((lit 3 *. ofNat (n ^ 2 + 27 * n - 70) *. ofNat (n + 1) *. ofNat (n + 3) : Fl ℝ) /.
      ((ofNat n -. lit 2) *. ofNat (n + 5) *. ofNat (n + 7) *. ofNat (n + 9))) = fin (beta2 n) := by
    simp only [ofNat_eq, lit_eq, psub_fin, pmul_fin]
    rw [pdiv_fin (by push_cast; positivity)]
    unfold beta2
    congr 1; rw [hq]; push_cast; ring
  have hb := beta2_gt hn'
  have hw := wsq_gt hn'
  have hW : (lit (-1) +. PyMath.sqrt (lit 2 *. (fin (beta2 n) -. lit 1)) : Fl ℝ) = fin (wsq n) := by
    simp only [lit_eq, psub_fin, pmul_fin]
    rw [psqrt_fin (by push_cast; nlinarith), padd_fin]
    unfold wsq; congr 1; push_cast; ring_nf
  have hl : 0 < log (wsq n) := Real.log_pos hw
  have hD : (lit 1 /. PyMath.sqrt (lit (1 / 2) *. PyMath.log (fin (wsq n))) : Fl ℝ) = fin (1 / √(log (wsq n) / 2)) := by
    rw [plog_fin (by linarith), lit_eq, lit_eq, pmul_fin, psqrt_fin (by push_cast; positivity),
      pdiv_fin (by push_cast; positivity)]
    congr 2; · push_cast; ring
    congr 1; push_cast; ring
  have hAl : (PyMath.sqrt (lit 2 /. (fin (wsq n) -. lit 1)) : Fl ℝ) = fin (√(2 / (wsq n - 1))) := by
    simp only [lit_eq, psub_fin]
    rw [pdiv_fin (by push_cast; linarith), psqrt_fin (div_nonneg (by norm_num) (by push_cast; linarith))]
    congr 2; push_cast; ring
  have hal : 0 < √(2 / (wsq n - 1)) := Real.sqrt_pos.mpr (div_pos (by norm_num) (by linarith))
  have ha : 0 < √(((n : ℝ) + 1) * (n + 3) / (6 * (n - 2))) := Real.sqrt_pos.mpr (by positivity)
  have key : ∀ y : ℝ, (fin (1 / √(log (wsq n) / 2)) *. PyMath.log ((fin y /. fin (√(2 / (wsq n - 1)))) +.
      PyMath.sqrt ((fin y /. fin (√(2 / (wsq n - 1)))) ^. 2 +. lit 1)) : Fl ℝ) = fin (dagostino n y) := by
    intro y
    rw [pdiv_fin hal.ne', pnpow_fin, lit_eq, padd_fin]
    rw [psqrt_fin (by push_cast; positivity), padd_fin, plog_fin, pmul_fin]
    · unfold dagostino arsinh
      congr 1
      rw [one_div, inv_mul_eq_div]
      congr 3; congr 1; push_cast; ring
    · have := Real.exp_arsinh (y / √(2 / (wsq n - 1))) ▸ Real.exp_pos (arsinh (y / √(2 / (wsq n - 1))))
      have e : (y / √(2 / (wsq n - 1))) ^ 2 + ((1 : ℚ) : ℝ) = 1 + (y / √(2 / (wsq n - 1))) ^ 2 := by push_cast; ring
      rw [e]; exact this
  unfold skewZ
  simp only [hA, hB, hW, hD, hAl, pmul_fin]
  by_cases hs : s = 0
  · rw [if_pos hs, hs, if_pos (by simp), lit_eq]
    have := key 1
    simpa using this
  · rw [if_neg hs, if_neg (by simp [hs, ha.ne'])]
    exact key _

theorem dago_pos {n : ℝ} (hn : 8 ≤ n) : 0 < √(2 / (wsq n - 1)) ∧ 0 < √(log (wsq n) / 2) := by
  have hw := wsq_gt hn
  exact ⟨Real.sqrt_pos.mpr (div_pos (by norm_num) (by linarith)), Real.sqrt_pos.mpr (by have := Real.log_pos hw; positivity)⟩

theorem dago_strict {n : ℝ} (hn : 8 ≤ n) {y z : ℝ} (h : y < z) : dagostino n y < dagostino n z := by
  obtain ⟨h1, h2⟩ := dago_pos hn
  unfold dagostino
  exact div_lt_div_of_pos_right (Real.arsinh_strictMono (div_lt_div_of_pos_right h h1)) h2

theorem dago_neg (n y : ℝ) : dagostino n (-y) = -dagostino n y := by
  unfold dagostino; rw [neg_div, Real.arsinh_neg, neg_div]

theorem kskew_pos {n : ℝ} (hn : 5 ≤ n) : 0 < kskew n := by
  have h2 : 0 < n - 2 := by linarith
  have h3 : 0 < n - 3 := by linarith
  have h0 : 0 < n := by linarith
  have hq : 0 < n ^ 2 - 5 * n + 2 := by nlinarith
  unfold kskew; positivity

theorem kdof_gt {n : ℝ} (hn : 5 ≤ n) : 6 < kdof n := by
  have h := kskew_pos hn
  have : 0 < 8 / kskew n * (2 / kskew n + √(1 + 4 / kskew n ^ 2)) := by positivity
  unfold kdof; linarith

theorem kvar_pos {n : ℝ} (hn : 5 ≤ n) : 0 < kvar n := by
  have h2 : 0 < n - 2 := by linarith
  have h3 : 0 < n - 3 := by linarith
  have h0 : 0 < n := by linarith
  unfold kvar; positivity

theorem kurtZ_fin {n : Nat} (hn : 5 ≤ n) (k : ℝ) :
    kurtZ n (fin k : Fl ℝ) = fin (if 0 < kden n k then anscombe n k else 0) := by
  have hn' : (5 : ℝ) ≤ n := by exact_mod_cast hn
  have c1 : ((n - 1 : ℕ) : ℝ) = (n : ℝ) - 1 := by rw [Nat.cast_sub (by omega)]; norm_num
  have c2 : ((n - 2 : ℕ) : ℝ) = (n : ℝ) - 2 := by rw [Nat.cast_sub (by omega)]; norm_num
  have c3 : ((n - 3 : ℕ) : ℝ) = (n : ℝ) - 3 := by rw [Nat.cast_sub (by omega)]; norm_num
  have c4 : ((n ^ 2 - 5 * n + 2 : ℕ) : ℝ) = (n : ℝ) ^ 2 - 5 * n + 2 := by
    rw [Nat.cast_add, Nat.cast_sub (by nlinarith)]; push_cast; ring
  have h2 : (0 : ℝ) < n - 2 := by linarith
  have h3 : (0 : ℝ) < n - 3 := by linarith
  have h0 : (0 : ℝ) < n := by linarith
  have hE : (lit 3 *. ofNat (n - 1) /. ofNat (n + 1) : Fl ℝ) = fin (kmean n) := by
    simp only [ofNat_eq, lit_eq, pmul_fin]
    rw [pdiv_fin (by positivity)]
    unfold kmean; rw [c1]; push_cast; rfl
  have hV : (lit 24 *. ofNat n *. ofNat (n - 2) *. ofNat (n - 3) /. ofNat ((n + 1) * (n + 1) * (n + 3) * (n + 5)) : Fl ℝ) =
      fin (kvar n) := by
    simp only [ofNat_eq, lit_eq, pmul_fin]
    rw [pdiv_fin (by positivity)]
    unfold kvar; rw [c2, c3]; congr 1; push_cast; ring
  have hR : (PyMath.sqrt ((lit 6 *. ofNat (n + 3) *. ofNat (n + 5)) /. ofNat (n * (n - 2) * (n - 3))) : Fl ℝ) =
      fin (√(6 * (n + 3) * (n + 5) / (n * (n - 2) * (n - 3)))) := by
    simp only [ofNat_eq, lit_eq, pmul_fin]
    rw [pdiv_fin (by push_cast [c2, c3]; positivity), psqrt_fin (by push_cast [c2, c3]; positivity)]
    congr 2; push_cast [c2, c3]; ring
  have hS : (lit 6 *. ofNat (n ^ 2 - 5 * n + 2) /. ofNat ((n + 7) * (n + 9)) *.
      fin (√(6 * (n + 3) * (n + 5) / (n * (n - 2) * (n - 3)))) : Fl ℝ) = fin (kskew n) := by
    simp only [ofNat_eq, lit_eq, pmul_fin]
    rw [pdiv_fin (by positivity), pmul_fin]
    unfold kskew; rw [c4]; congr 1; push_cast; ring
  have hs := kskew_pos hn'
  have hA : (lit 6 +. lit 8 /. fin (kskew n) *. (lit 2 /. fin (kskew n) +. PyMath.sqrt (lit 1 +. lit 4 /. (fin (kskew n) ^. 2))) : Fl ℝ) =
      fin (kdof n) := by
    simp only [lit_eq, pnpow_fin]
    rw [pdiv_fin hs.ne', pdiv_fin hs.ne', pdiv_fin (by positivity), padd_fin, psqrt_fin (by push_cast; positivity), padd_fin, pmul_fin,
      padd_fin]
    unfold kdof; push_cast; rfl
  have ha := kdof_gt hn'
  have hv := kvar_pos hn'
  have hT : (lit 1 -. lit 2 /. (lit 9 *. fin (kdof n)) : Fl ℝ) = fin (1 - 2 / (9 * kdof n)) := by
    simp only [lit_eq, pmul_fin]
    rw [pdiv_fin (by push_cast; positivity), psub_fin]; push_cast; rfl
  have hU : (lit 1 -. lit 2 /. fin (kdof n) : Fl ℝ) = fin (1 - 2 / kdof n) := by
    simp only [lit_eq]
    rw [pdiv_fin (by positivity), psub_fin]; push_cast; rfl
  have hZ : (PyMath.sqrt (lit 2 /. (lit 9 *. fin (kdof n))) : Fl ℝ) = fin (√(2 / (9 * kdof n))) := by
    simp only [lit_eq, pmul_fin]
    rw [pdiv_fin (by push_cast; positivity), psqrt_fin (by push_cast; positivity)]; push_cast; rfl
  have hsv : 0 < √(kvar n) := Real.sqrt_pos.mpr hv
  have hD : (lit 1 +. (fin k -. fin (kmean n)) /. fin (√(kvar n)) *. PyMath.sqrt (lit 2 /. (fin (kdof n) -. lit 4)) : Fl ℝ) =
      fin (kden n k) := by
    simp only [lit_eq, psub_fin]
    rw [pdiv_fin hsv.ne', pdiv_fin (by push_cast; linarith), psqrt_fin (div_nonneg (by norm_num) (by push_cast; linarith)), pmul_fin,
      padd_fin]
    unfold kden; push_cast; rfl
  have hth : (lit 1 /. lit 3 : Fl ℝ) = fin (1 / 3) := by
    simp only [lit_eq]; rw [pdiv_fin (by norm_num)]; norm_num
  unfold kurtZ
  simp only [hE, hV, hR, hS, hA, hT, hU, psqrt_fin hv.le, hD, hZ, hth]
  have hu : 0 < 1 - 2 / kdof n := by
    rw [sub_pos, div_lt_one (by linarith)]; linarith
  rcases lt_trichotomy (kden n k) 0 with hd | hd | hd
  · rw [if_neg (not_lt.mpr hd.le), pdiv_fin hd.ne]
    have hq : (1 - 2 / kdof n) / kden n k < 0 := div_neg_of_pos_of_neg hu hd
    have : PyMath.rpow (fin ((1 - 2 / kdof n) / kden n k) : Fl ℝ) (fin (1 / 3)) = nan := by
      show (if (1 / 3 : ℝ) = 0 then _ else if 0 < (1 - 2 / kdof n) / kden n k then _ else if (1 - 2 / kdof n) / kden n k = 0 then _ else _) = _
      rw [if_neg (by norm_num), if_neg (not_lt.mpr hq.le), if_neg hq.ne, if_neg]
      have : ⌊(1 / 3 : ℝ)⌋ = 0 := by norm_num
      rw [this]; norm_num
    rw [this, if_pos (by simp [PyNum.isNaN, Fl.isNaN]), lit_eq]; simp
  · rw [hd, if_neg (lt_irrefl _), if_pos (by simp), lit_eq]; simp
  · rw [if_pos hd, pdiv_fin hd.ne']
    have hq : 0 < (1 - 2 / kdof n) / kden n k := div_pos hu hd
    have : PyMath.rpow (fin ((1 - 2 / kdof n) / kden n k) : Fl ℝ) (fin (1 / 3)) = fin (((1 - 2 / kdof n) / kden n k) ^ (1 / 3 : ℝ)) := by
      show (if (1 / 3 : ℝ) = 0 then _ else if 0 < (1 - 2 / kdof n) / kden n k then _ else _) = _
      rw [if_neg (by norm_num), if_pos hq]
    rw [this, if_neg (by simp [PyNum.isNaN, Fl.isNaN, hd.ne']), psub_fin, pdiv_fin (Real.sqrt_pos.mpr (by positivity)).ne']
    rfl

theorem kden_strict {n : ℝ} (hn : 5 ≤ n) {k l : ℝ} (h : k < l) : kden n k < kden n l := by
  have h1 : 0 < √(kvar n) := Real.sqrt_pos.mpr (kvar_pos hn)
  have h2 : 0 < √(2 / (kdof n - 4)) := Real.sqrt_pos.mpr (div_pos (by norm_num) (by linarith [kdof_gt hn]))
  unfold kden
  have := mul_lt_mul_of_pos_right (div_lt_div_of_pos_right (sub_lt_sub_right h (kmean n)) h1) h2
  linarith

end TestStat

open TestStat

/-- **C172.** the statistic of `skewtest` on `n ≥ 8` samples of skewness `s` is D'Agostino's, except that a zero skewness is
replaced by a standardised skewness of one -/
theorem C172_skew_value (n : Nat) (hn : 8 ≤ n) (s : ℝ) :
    (s ≠ 0 → skewZ n (fin s : Fl ℝ) = fin (dagostino n (s * √((n + 1) * (n + 3) / (6 * (n - 2)))))) ∧
    skewZ n (fin 0 : Fl ℝ) = fin (dagostino n 1) := by
  refine ⟨fun h => ?_, ?_⟩
  · rw [skewZ_fin hn, if_neg h]
  · rw [skewZ_fin hn, if_pos rfl]


/-- **C172.** the statistic of `skewtest` is odd and strictly increasing in a non-zero skewness and has its sign; perfectly symmetric
data do not get zero but a positive statistic -/
theorem C172_skew_laws (n : Nat) (hn : 8 ≤ n) : ∃ z : ℝ → ℝ, (∀ s, skewZ n (fin s : Fl ℝ) = fin (z s)) ∧
    (∀ s t, s ≠ 0 → t ≠ 0 → s < t → z s < z t) ∧ (∀ s, s ≠ 0 → z (-s) = -z s) ∧ (∀ s, 0 < s → 0 < z s) ∧ 0 < z 0 := by
  have hn' : (8 : ℝ) ≤ n := by exact_mod_cast hn
  have h2 : (0 : ℝ) < n - 2 := by linarith
  have ha : 0 < √(((n : ℝ) + 1) * (n + 3) / (6 * (n - 2))) := Real.sqrt_pos.mpr (by positivity)
  have h0 : dagostino n 0 = 0 := by simp [dagostino]
  refine ⟨_, fun s => skewZ_fin hn s, fun s t hs ht h => ?_, fun s hs => ?_, fun s hs => ?_, ?_⟩
  · simp only [if_neg hs, if_neg ht]; exact dago_strict hn' (mul_lt_mul_of_pos_right h ha)
  · simp only [if_neg hs, if_neg (neg_ne_zero.mpr hs)]; rw [neg_mul, dago_neg]
  · simp only [if_neg hs.ne']; rw [← h0]; exact dago_strict hn' (mul_pos hs ha)
  · simp only [if_true]; rw [← h0]; exact dago_strict hn' one_pos

/-- **C172.** with 7 samples D'Agostino's constants degenerate (`W² = 1`) and every finite skewness gives a NaN statistic: the bound of
8 samples is sharp -/
theorem C172_skew_sharp (s : ℝ) : skewZ 7 (fin s : Fl ℝ) = nan := by
  have hA : PyMath.sqrt ((ofNat ((7 + 1) * (7 + 3)) : Fl ℝ) /. (lit 6 *. ofNat (7 - 2))) = fin (√(80 / 30)) := by
    rw [ofNat_eq, ofNat_eq, lit_eq, pmul_fin, pdiv_fin (by norm_num), psqrt_fin (by norm_num)]
    norm_num
  have hB : ((lit 3 *. ofNat (7 ^ 2 + 27 * 7 - 70) *. ofNat (7 + 1) *. ofNat (7 + 3) : Fl ℝ) /.
      ((ofNat 7 -. lit 2) *. ofNat (7 + 5) *. ofNat (7 + 7) *. ofNat (7 + 9))) = fin 3 := by
    simp only [ofNat_eq, lit_eq, psub_fin, pmul_fin]
    rw [pdiv_fin (by norm_num)]
    norm_num
  have hW : (lit (-1) +. PyMath.sqrt (lit 2 *. (fin 3 -. lit 1)) : Fl ℝ) = fin 1 := by
    simp only [lit_eq, psub_fin, pmul_fin]
    have e : ((2 : ℚ) : ℝ) * (3 - ((1 : ℚ) : ℝ)) = 2 ^ 2 := by norm_num
    rw [e, psqrt_fin (by norm_num), padd_fin, Real.sqrt_sq (by norm_num)]; norm_num
  have hD : (lit 1 /. PyMath.sqrt (lit (1 / 2) *. PyMath.log (fin 1)) : Fl ℝ) = pinf := by
    rw [plog_fin one_pos, lit_eq, lit_eq, pmul_fin, Real.log_one, mul_zero, psqrt_fin le_rfl, Real.sqrt_zero]
    show Fl.div _ _ = _
    simp [Fl.div, infSgn]
  have hAl : (PyMath.sqrt (lit 2 /. (fin 1 -. lit 1)) : Fl ℝ) = pinf := by
    simp only [lit_eq, psub_fin]
    have e : (1 : ℝ) - ((1 : ℚ) : ℝ) = 0 := by norm_num
    rw [e]
    have : (fin ((2 : ℚ) : ℝ) /. fin 0 : Fl ℝ) = pinf := by
      show Fl.div _ _ = _
      simp [Fl.div, infSgn]
    rw [this]; rfl
  have key : ∀ y : ℝ, (pinf *. PyMath.log ((fin y /. pinf) +. PyMath.sqrt ((fin y /. pinf) ^. 2 +. lit 1)) : Fl ℝ) = nan := by
    intro y
    have : (fin y /. pinf : Fl ℝ) = fin 0 := rfl
    rw [this, pnpow_fin, lit_eq, padd_fin, psqrt_fin (by norm_num), padd_fin, plog_fin (by norm_num)]
    have e : log (0 + √(0 ^ 2 + ((1 : ℚ) : ℝ))) = 0 := by norm_num
    rw [e]
    show Fl.mul _ _ = _
    simp [Fl.mul, infSgn]
  unfold skewZ
  simp only [hA, hB, hW, hD, hAl, pmul_fin]
  split
  · rw [lit_eq]; exact key _
  · exact key _

/-- **C172.** the statistic of `kurtotest` on `n ≥ 5` samples of kurtosis `k` is Anscombe and Glynn's while the argument of its cube
root is positive, and 0 otherwise -/
theorem C172_kurt_value (n : Nat) (hn : 5 ≤ n) (k : ℝ) :
    (0 < kden n k → kurtZ n (fin k : Fl ℝ) = fin (anscombe n k)) ∧ (kden n k ≤ 0 → kurtZ n (fin k : Fl ℝ) = fin 0) := by
  refine ⟨fun h => ?_, fun h => ?_⟩
  · rw [kurtZ_fin hn, if_pos h]
  · rw [kurtZ_fin hn, if_neg (not_lt.mpr h)]

/-- **C172.** it strictly increases with the kurtosis wherever the cube root is real -/
theorem C172_kurt_monotone (n : Nat) (hn : 5 ≤ n) (k l : ℝ) (hk : 0 < kden n k) (h : k < l) :
    ∃ y z, kurtZ n (fin k : Fl ℝ) = fin y ∧ kurtZ n (fin l : Fl ℝ) = fin z ∧ y < z := by
  have hn' : (5 : ℝ) ≤ n := by exact_mod_cast hn
  have hd := kden_strict hn' h
  refine ⟨_, _, (C172_kurt_value n hn k).1 hk, (C172_kurt_value n hn l).1 (hk.trans hd), ?_⟩
  have ha := kdof_gt hn'
  have hu : 0 < 1 - 2 / kdof n := by
    rw [sub_pos, div_lt_one (by linarith)]; linarith
  unfold anscombe
  apply div_lt_div_of_pos_right _ (Real.sqrt_pos.mpr (by positivity))
  have := Real.rpow_lt_rpow (div_pos hu (hk.trans hd)).le (div_lt_div_of_pos_left hu hk hd) (show (0 : ℝ) < 1 / 3 by norm_num)
  linarith

/-- **C172.** the least possible kurtosis, 1 (samples of two equally frequent values), is treated as no deviation at all with 100
samples: the statistic is 0, although 1 is far from the expected kurtosis -/
theorem C172_kurt_masked : kurtZ 100 (fin 1 : Fl ℝ) = fin 0 ∧ 2.9 < kmean 100 := by
  refine ⟨(C172_kurt_value 100 (by norm_num) 1).2 ?_, by unfold kmean; norm_num⟩
  have hv := kvar_pos (n := 100) (by norm_num)
  have ha := kdof_gt (n := 100) (by norm_num)
  have hs := kskew_pos (n := 100) (by norm_num)
  have hsq : kskew 100 ^ 2 = (6 * (100 ^ 2 - 5 * 100 + 2) / ((100 + 7) * (100 + 9))) ^ 2 * (6 * (100 + 3) * (100 + 5) / (100 * (100 - 2) * (100 - 3))) := by
    unfold kskew; rw [mul_pow, Real.sq_sqrt (by norm_num)]
  have hsl : 1.27 < kskew 100 := by
    apply lt_of_pow_lt_pow_left₀ 2 hs.le
    rw [hsq]; norm_num
  have hA : kdof 100 < 28 := by
    unfold kdof
    have h1 : 8 / kskew 100 < 6.3 := by rw [div_lt_iff₀ hs]; linarith
    have h2 : 2 / kskew 100 < 1.575 := by rw [div_lt_iff₀ hs]; linarith
    have h3 : √(1 + 4 / kskew 100 ^ 2) < 1.8661 := by
      rw [Real.sqrt_lt' (by norm_num), hsq]; norm_num
    have h4 : 0 < 8 / kskew 100 := by positivity
    have h5 : 0 < 2 / kskew 100 + √(1 + 4 / kskew 100 ^ 2) := by positivity
    nlinarith
  unfold kden
  have hm : kmean 100 = 297 / 101 := by unfold kmean; norm_num
  have hkv : kvar 100 < 0.21 := by unfold kvar; norm_num
  have hsv : 0 < √(kvar 100) := Real.sqrt_pos.mpr hv
  have h1 : √(kvar 100) < 0.4583 := by rw [Real.sqrt_lt' (by norm_num)]; linarith
  have h2 : 0.288 < √(2 / (kdof 100 - 4)) := by
    apply Real.lt_sqrt_of_sq_lt
    rw [lt_div_iff₀ (by linarith)]; nlinarith
  rw [Nat.cast_ofNat, hm]
  have h3 : (1 - 297 / 101) / √(kvar 100) < -4.2 := by
    rw [div_lt_iff₀ hsv]; nlinarith
  nlinarith

/-- the hypotheses hold in an ordinary case: 100 samples of kurtosis 3 -/
example : 0 < kden (100 : ℕ) 3 := by
  have hv := kvar_pos (n := 100) (by norm_num)
  have ha := kdof_gt (n := 100) (by norm_num)
  have : (0 : ℝ) ≤ (3 - kmean 100) / √(kvar 100) * √(2 / (kdof 100 - 4)) := by
    have : (0 : ℝ) ≤ 3 - kmean 100 := by unfold kmean; norm_num
    positivity
  unfold kden; push_cast; linarith

end Proadv.Props
