import Verif.Props.Correlation
import Verif.Props.FluidTensor
import Mathlib.Topology.Algebra.Order.Field
import Mathlib.Analysis.SpecialFunctions.Log.Basic
import Mathlib.Analysis.Complex.ExponentialBounds

/-!
# C196–C199 What `velocity_correlation` does with a large spike, and how many samples it can flag
-/

set_option linter.unusedSectionVars false

namespace Proadv.Props

open Proadv Proadv.Detect Proadv.Fl Finset

/-- Specification: the series `xs` with a spike of height `M` added to sample `i`. -/
def spiked (xs : List ℝ) (i : Nat) (M : ℝ) : List ℝ := xs.set i (xs.getD i 0 + M)

theorem spiked_length (xs : List ℝ) (i : Nat) (M : ℝ) : (spiked xs i M).length = xs.length := by simp [spiked]

theorem spiked_getD (xs : List ℝ) (i : Nat) (M : ℝ) (hi : i < xs.length) (k : Nat) :
    (spiked xs i M).getD k 0 = xs.getD k 0 + if k = i then M else 0 := by
  unfold spiked
  by_cases hk : k = i
  · subst hk
    simp [List.getD, hi]
  · simp [List.getD, hk, Ne.symm hk]

theorem spiked_avg (xs : List ℝ) (i : Nat) (M : ℝ) (hi : i < xs.length) :
    Spec.avg (spiked xs i M) = Spec.avg xs + M / xs.length := by
  rw [avg_getD, avg_getD, spiked_length]
  simp only [spiked_getD xs i M hi, sum_add_distrib, sum_ite_eq', mem_range, hi, if_true]
  ring

theorem cov_sum (xs ys : List ℝ) (h : xs.length = ys.length) :
    Spec.cov xs ys = (∑ k ∈ range xs.length, (xs.getD k 0 - Spec.avg xs) * ys.getD k 0) / xs.length := by
  rcases Nat.eq_zero_or_pos xs.length with h0 | h0
  · have : xs = [] := List.length_eq_zero_iff.mp h0
    subst this
    simp [Spec.cov, Spec.avg]
  have hn : (xs.length : ℝ) ≠ 0 := by positivity
  have e : Spec.cov xs ys = (∑ k ∈ range xs.length, (xs.getD k 0 - Spec.avg xs) * (ys.getD k 0 - Spec.avg ys)) / xs.length := by
    conv_lhs => rw [list_range xs, list_range ys, ← h]
    rw [cov_range, ← avg_getD]
    conv_lhs => rw [h, ← avg_getD, ← h]
  rw [e]
  congr 1
  simp only [mul_sub, sum_sub_distrib, ← sum_mul]
  have : ∑ k ∈ range xs.length, (xs.getD k 0 - Spec.avg xs) = 0 := by
    rw [sum_sub_distrib, sum_const, card_range, nsmul_eq_mul, avg_getD]
    field_simp; ring
  rw [sum_sub_distrib] at this
  rw [this, zero_mul, sub_zero]

theorem cov_spiked_right (xs ys : List ℝ) (h : xs.length = ys.length) (i : Nat) (M : ℝ) (hi : i < xs.length) :
    Spec.cov xs (spiked ys i M) = Spec.cov xs ys + M * (xs.getD i 0 - Spec.avg xs) / xs.length := by
  rw [cov_sum xs _ (by rw [spiked_length, h]), cov_sum xs ys h, ← add_div]
  congr 1
  simp only [spiked_getD ys i M (h ▸ hi), mul_add, sum_add_distrib, mul_ite, mul_zero, sum_ite_eq', mem_range, hi, if_true]
  ring

theorem cov_spiked_left (xs ys : List ℝ) (h : xs.length = ys.length) (i : Nat) (M : ℝ) (hi : i < xs.length) :
    Spec.cov (spiked xs i M) ys = Spec.cov xs ys + M * (ys.getD i 0 - Spec.avg ys) / xs.length := by
  rw [cov_comm, cov_spiked_right ys xs h.symm i M (h ▸ hi), cov_comm, h]

theorem cov_spiked_both (xs ys : List ℝ) (h : xs.length = ys.length) (i : Nat) (M : ℝ) (hi : i < xs.length) :
    Spec.cov (spiked xs i M) (spiked ys i M) = Spec.cov xs ys + M * (xs.getD i 0 - Spec.avg xs) / xs.length +
      M * (ys.getD i 0 - Spec.avg ys) / xs.length + M ^ 2 * (1 - 1 / xs.length) / xs.length := by
  rw [cov_spiked_left xs _ (by rw [spiked_length, h]) i M hi, cov_spiked_right xs ys h i M hi,
    spiked_getD ys i M (h ▸ hi), spiked_avg ys i M (h ▸ hi), if_pos rfl, ← h]
  ring

theorem var_spiked (xs : List ℝ) (i : Nat) (M : ℝ) (hi : i < xs.length) :
    Spec.var (spiked xs i M) = Spec.var xs + 2 * M * (xs.getD i 0 - Spec.avg xs) / xs.length +
      M ^ 2 * (1 - 1 / xs.length) / xs.length := by
  rw [← Spec.cov_self, cov_spiked_both xs xs rfl i M hi, Spec.cov_self]
  ring

private theorem steep_of (n V C M d : ℝ) (hn : 0 < n) (h : n * (V + |C|) ≤ |M| * |d|) : V ≤ |C + M * d / n| := by
  have h1 : |M * d / n| = |M| * |d| / n := by rw [abs_div, abs_mul, abs_of_pos hn]
  have h2 : V + |C| ≤ |M * d / n| := by rw [h1, le_div_iff₀ hn]; linarith
  have h3 : |M * d / n| ≤ |C + M * d / n| + |C| := by
    have := abs_sub (C + M * d / n) C
    simpa using this
  linarith

/-- **C196** a spike in the second or third component: when its height times the deviation of an earlier component at that
sample reaches `n` times the variance of that component plus the covariance of the two, the call raises ValueError. -/
theorem C196_raises (us vs ws : List ℝ) (hn : 3 ≤ us.length) (hv : vs.length = us.length) (hw : ws.length = us.length)
    (i : Nat) (hi : i < us.length) (M : ℝ) :
    (us.length * (Spec.var us + |Spec.cov us vs|) ≤ |M| * |us.getD i 0 - Spec.avg us| →
      velocityCorrelation (fins us) (fins (spiked vs i M)) (fins ws : List (Fl ℝ)) = .error .valueError) ∧
    (us.length * (Spec.var us + |Spec.cov us ws|) ≤ |M| * |us.getD i 0 - Spec.avg us| →
      velocityCorrelation (fins us) (fins vs) (fins (spiked ws i M) : List (Fl ℝ)) = .error .valueError) ∧
    (us.length * (Spec.var vs + |Spec.cov vs ws|) ≤ |M| * |vs.getD i 0 - Spec.avg vs| →
      velocityCorrelation (fins us) (fins vs) (fins (spiked ws i M) : List (Fl ℝ)) = .error .valueError) := by
  have hp : (0 : ℝ) < us.length := by exact_mod_cast (by omega : 0 < us.length)
  refine ⟨fun h => ?_, fun h => ?_, fun h => ?_⟩
  · apply (C104_steep us (spiked vs i M) ws hn (by rw [spiked_length, hv]) hw).1
    left
    rw [cov_spiked_right us vs hv.symm i M hi]
    exact steep_of _ _ _ _ _ hp h
  · apply (C104_steep us vs (spiked ws i M) hn hv (by rw [spiked_length, hw])).1
    right; left
    rw [cov_spiked_right us ws hw.symm i M hi]
    exact steep_of _ _ _ _ _ hp h
  · apply (C104_steep us vs (spiked ws i M) hn hv (by rw [spiked_length, hw])).1
    right; right
    rw [cov_spiked_right vs ws (by rw [hv, hw]) i M (by rw [hv]; exact hi), hv]
    exact steep_of _ _ _ _ _ hp h

/-- **C196** so every component `v`, whatever the rest of the data, has a finite spike height that makes the call fail,
unless `u` is exactly at its mean at that sample. -/
theorem C196_always (us vs ws : List ℝ) (hn : 3 ≤ us.length) (hv : vs.length = us.length) (hw : ws.length = us.length)
    (i : Nat) (hi : i < us.length) (hd : us.getD i 0 ≠ Spec.avg us) :
    ∃ M0, ∀ M, M0 ≤ |M| →
      velocityCorrelation (fins us) (fins (spiked vs i M)) (fins ws : List (Fl ℝ)) = .error .valueError ∧
      velocityCorrelation (fins us) (fins vs) (fins (spiked ws i M) : List (Fl ℝ)) = .error .valueError := by
  have hd' : 0 < |us.getD i 0 - Spec.avg us| := abs_pos.mpr (sub_ne_zero.mpr hd)
  refine ⟨max (us.length * (Spec.var us + |Spec.cov us vs|) / |us.getD i 0 - Spec.avg us|)
    (us.length * (Spec.var us + |Spec.cov us ws|) / |us.getD i 0 - Spec.avg us|), fun M hM => ⟨?_, ?_⟩⟩
  · exact (C196_raises us vs ws hn hv hw i hi M).1 ((div_le_iff₀ hd').mp ((le_max_left _ _).trans hM))
  · exact (C196_raises us vs ws hn hv hw i hi M).2.1 ((div_le_iff₀ hd').mp ((le_max_right _ _).trans hM))

/-- a spike of height 2 in `v` (whose values are 0, 1 and -1) is enough: hypotheses of `C196_raises` on data the function
accepts without the spike (see the example after `C104_steep`). -/
example (ws : List ℝ) (hw : ws.length = 6) :
    velocityCorrelation (fins [1, -1, 0, 0, 0, 0]) (fins (spiked [0, 0, 1, -1, 0, 0] 0 2)) (fins ws : List (Fl ℝ)) =
      .error .valueError :=
  (C196_raises [1, -1, 0, 0, 0, 0] [0, 0, 1, -1, 0, 0] ws (by simp) (by simp) (by simpa using hw) 0 (by simp) 2).1
    (by norm_num [Spec.var, Spec.cov, Spec.cmoment, Spec.avg])

/-- **C196** the same spike in two components: if the later component deviates more (in the direction of the spike) at
that sample than the earlier one, the call raises ValueError from an explicit height on, whatever the third component. -/
theorem C196_common (us vs ws : List ℝ) (hn : 3 ≤ us.length) (hv : vs.length = us.length) (hw : ws.length = us.length)
    (i : Nat) (hi : i < us.length) (M : ℝ)
    (h : us.length * (Spec.var us - Spec.cov us vs) ≤
      M * ((vs.getD i 0 - Spec.avg vs) - (us.getD i 0 - Spec.avg us))) :
    velocityCorrelation (fins (spiked us i M)) (fins (spiked vs i M)) (fins ws : List (Fl ℝ)) = .error .valueError := by
  have hp : (0 : ℝ) < us.length := by exact_mod_cast (by omega : 0 < us.length)
  apply (C104_steep _ _ ws (by rw [spiked_length]; exact hn) (by rw [spiked_length, spiked_length, hv])
    (by rw [spiked_length, hw])).1
  left
  refine le_trans ?_ (le_abs_self _)
  rw [var_spiked us i M hi, cov_spiked_both us vs hv.symm i M hi]
  have : Spec.var us - Spec.cov us vs ≤ M * ((vs.getD i 0 - Spec.avg vs) - (us.getD i 0 - Spec.avg us)) / us.length := by
    rw [le_div_iff₀ hp]; linarith
  have e : M * ((vs.getD i 0 - Spec.avg vs) - (us.getD i 0 - Spec.avg us)) / us.length =
    M * (vs.getD i 0 - Spec.avg vs) / us.length - M * (us.getD i 0 - Spec.avg us) / us.length := by ring
  rw [e] at this
  have e2 : 2 * M * (us.getD i 0 - Spec.avg us) / us.length = M * (us.getD i 0 - Spec.avg us) / us.length +
    M * (us.getD i 0 - Spec.avg us) / us.length := by ring
  rw [e2]
  linarith

/-- hypothesis of `C196_common`: here from height 2 on -/
example (ws : List ℝ) (hw : ws.length = 6) (M : ℝ) (hM : 2 ≤ M) :
    velocityCorrelation (fins (spiked [1, -1, 0, 0, 0, 0] 2 M)) (fins (spiked [0, 0, 1, -1, 0, 0] 2 M))
      (fins ws : List (Fl ℝ)) = .error .valueError :=
  C196_common [1, -1, 0, 0, 0, 0] [0, 0, 1, -1, 0, 0] ws (by simp) (by simp) (by simpa using hw) 2 (by simp) M
    (by norm_num [Spec.var, Spec.cov, Spec.cmoment, Spec.avg]; linarith)

/-! ## C197 a spike in the first component -/

theorem log_lt_half (n : Nat) (hn : 4 ≤ n) : 2 * Real.log n < (n : ℝ) - 1 := by
  have h4 : (4 : ℝ) ≤ n := by exact_mod_cast hn
  have h1 : Real.log (n / 4) ≤ n / 4 - 1 := Real.log_le_sub_one_of_pos (by positivity)
  rw [Real.log_div (by positivity) (by norm_num)] at h1
  have h2 : Real.log 4 = 2 * Real.log 2 := by
    rw [show (4 : ℝ) = 2 ^ 2 by norm_num, Real.log_pow]; norm_num
  have h3 := Real.log_two_lt_d9
  linarith

/-- the squared deviation of one sample is less than `n - 1` times the variance, unless all the others are equal -/
theorem samuelson_strict (xs : List ℝ) (i j k : Nat) (hi : i < xs.length) (hj : j < xs.length) (hk : k < xs.length)
    (hji : j ≠ i) (hki : k ≠ i) (hjk : xs.getD j 0 ≠ xs.getD k 0) :
    (xs.getD i 0 - Spec.avg xs) ^ 2 < (xs.length - 1) * Spec.var xs := by
  set n := xs.length with hn
  have hij : 1 < n := by omega
  have h1 : (0 : ℝ) < (n : ℝ) - 1 := by
    have : (1 : ℝ) < n := by exact_mod_cast hij
    linarith
  have hn0 : (0 : ℝ) < n := by linarith
  set D : Nat → ℝ := fun l => xs.getD l 0 - Spec.avg xs with hD
  have s1 : ∑ l ∈ range n, D l = 0 := by
    simp only [hD]
    rw [sum_sub_distrib, sum_const, card_range, nsmul_eq_mul, avg_getD, ← hn]
    field_simp; ring
  have s2 : ∑ l ∈ range n, D l ^ 2 = n * Spec.var xs := by
    rw [← Spec.cov_self, cov_sum xs xs rfl, ← hn, mul_div_cancel₀ _ hn0.ne']
    have : ∑ l ∈ range n, D l ^ 2 = ∑ l ∈ range n, (D l * xs.getD l 0 - D l * Spec.avg xs) :=
      sum_congr rfl (fun l _ => by simp only [hD]; ring)
    rw [this, sum_sub_distrib, ← sum_mul, s1, zero_mul, sub_zero]
  have hmi : i ∈ range n := mem_range.mpr hi
  have t1 : ∑ l ∈ (range n).erase i, D l = -D i := by
    have := add_sum_erase (range n) D hmi
    rw [s1] at this; linarith
  have t2 : ∑ l ∈ (range n).erase i, D l ^ 2 = n * Spec.var xs - D i ^ 2 := by
    have := add_sum_erase (range n) (fun l => D l ^ 2) hmi
    rw [s2] at this; linarith
  have hcard : (((range n).erase i).card : ℝ) = n - 1 := by
    rw [card_erase_of_mem hmi, card_range, Nat.cast_sub hij.le, Nat.cast_one]
  have t3 : ∑ l ∈ (range n).erase i, (D l + D i / (n - 1)) ^ 2 = n * Spec.var xs - n * D i ^ 2 / (n - 1) := by
    have : ∀ l ∈ (range n).erase i, (D l + D i / (n - 1)) ^ 2 =
        D l ^ 2 + 2 * (D i / (n - 1)) * D l + (D i / (n - 1)) ^ 2 := fun l _ => by ring
    rw [sum_congr rfl this, sum_add_distrib, sum_add_distrib, ← mul_sum, t1, t2, sum_const, nsmul_eq_mul, hcard]
    field_simp; ring
  have pos : 0 < ∑ l ∈ (range n).erase i, (D l + D i / (n - 1)) ^ 2 := by
    apply sum_pos' (fun l _ => sq_nonneg _)
    by_cases hz : D j + D i / (n - 1) = 0
    · refine ⟨k, mem_erase.mpr ⟨hki, mem_range.mpr hk⟩, ?_⟩
      have : D k + D i / (n - 1) ≠ 0 := by
        intro hz'
        apply hjk
        have : D j = D k := by linarith
        simp only [hD] at this
        linarith
      positivity
    · exact ⟨j, mem_erase.mpr ⟨hji, mem_range.mpr hj⟩, by positivity⟩
  rw [t3] at pos
  have h2 : n * D i ^ 2 / (n - 1) < n * Spec.var xs := by linarith
  rw [div_lt_iff₀ h1] at h2
  have h3 : (n : ℝ) * D i ^ 2 < n * ((n - 1) * Spec.var xs) := by linarith
  exact (mul_lt_mul_iff_right₀ hn0).mp h3

/-- the pair of a component with a large spike and another one -/
private theorem pair_spiked (xs ys : List ℝ) (h : ys.length = xs.length) (hn : 4 ≤ xs.length) (i : Nat)
    (hi : i < xs.length) (hs : (ys.getD i 0 - Spec.avg ys) ^ 2 < (xs.length - 1) * Spec.var ys) :
    ∃ M0, ∀ M, M0 ≤ |M| → PairOk (spiked xs i M) ys ∧ Beyond (spiked xs i M) ys i := by
  have hn4 : (4 : ℝ) ≤ xs.length := by exact_mod_cast hn
  set n : ℝ := (xs.length : ℝ) with hnd
  have hn0 : 0 < n := by linarith
  set d := xs.getD i 0 - Spec.avg xs with hd
  set e := ys.getD i 0 - Spec.avg ys with he
  set κ : ℝ := (1 - 1 / n) / n with hκ
  have hκe : κ = (n - 1) / n ^ 2 := by rw [hκ]; field_simp
  have hκ0 : 0 < κ := by rw [hκe]; apply div_pos <;> [linarith; positivity]
  set V := Spec.var xs
  set W := Spec.var ys
  set c := Spec.cov xs ys
  let A : ℝ → ℝ := fun t => V * t ^ 2 + 2 * d / n * t + κ
  let B : ℝ → ℝ := fun t => c * t + e / n
  let X : ℝ → ℝ := fun t => d * t + (1 - 1 / n)
  let G : ℝ → ℝ := fun t => (1 - (t * B t / A t) ^ 2) / (1 + (t * B t / A t) ^ 2) * ((X t + t ^ 2 * B t * e / A t) ^ 2 / A t)
  have cA : Continuous A := by fun_prop
  have cB : Continuous B := by fun_prop
  have cX : Continuous X := by fun_prop
  have A0 : A 0 = κ := by simp [A]
  have B0 : B 0 = e / n := by simp [B]
  have cq : ContinuousAt (fun t => t * B t / A t) 0 :=
    (continuousAt_id.mul cB.continuousAt).div cA.continuousAt (by rw [A0]; exact hκ0.ne')
  have cG : ContinuousAt G 0 := by
    refine ContinuousAt.mul (ContinuousAt.div (continuousAt_const.sub (cq.pow 2)) (continuousAt_const.add (cq.pow 2)) ?_)
      (ContinuousAt.div ((cX.continuousAt.add (ContinuousAt.div ?_ cA.continuousAt ?_)).pow 2) cA.continuousAt ?_)
    · simp only [zero_mul, zero_div]; norm_num
    · exact ((continuous_id.pow 2).mul cB |>.mul continuous_const).continuousAt
    · rw [A0]; exact hκ0.ne'
    · rw [A0]; exact hκ0.ne'
  have G0 : G 0 = n - 1 := by
    simp only [G, A0, B0, X]
    simp only [zero_mul, zero_div, mul_zero, zero_add]
    rw [hκe]
    have : n - 1 ≠ 0 := by linarith
    field_simp
    ring
  have ev1 : ∀ᶠ t in nhds (0 : ℝ), 0 < A t :=
    cA.continuousAt.tendsto.eventually (lt_mem_nhds (by rw [A0]; exact hκ0))
  have ev2 : ∀ᶠ t in nhds (0 : ℝ), 0 < A t * W - B t ^ 2 := by
    have cc : Continuous (fun t => A t * W - B t ^ 2) := (cA.mul continuous_const).sub (cB.pow 2)
    refine cc.continuousAt.tendsto.eventually (lt_mem_nhds ?_)
    simp only [A0, B0, hκe]
    rw [show (n - 1) / n ^ 2 * W - (e / n) ^ 2 = ((n - 1) * W - e ^ 2) / n ^ 2 by field_simp]
    exact div_pos (by linarith) (by positivity)
  have ev3 : ∀ᶠ t in nhds (0 : ℝ), 0 < A t ^ 3 - B t ^ 2 * W * t ^ 4 := by
    have cc : Continuous (fun t => A t ^ 3 - B t ^ 2 * W * t ^ 4) :=
      (cA.pow 3).sub (((cB.pow 2).mul continuous_const).mul (continuous_id.pow 4))
    refine cc.continuousAt.tendsto.eventually (lt_mem_nhds ?_)
    simp only [A0]
    have := pow_pos hκ0 3
    simpa using this
  have ev4 : ∀ᶠ t in nhds (0 : ℝ), 0 < 1 - (t * B t / A t) ^ 2 := by
    have cc : ContinuousAt (fun t => 1 - (t * B t / A t) ^ 2) 0 := continuousAt_const.sub (cq.pow 2)
    refine cc.tendsto.eventually (lt_mem_nhds ?_)
    simp
  have ev5 : ∀ᶠ t in nhds (0 : ℝ), 2 * Real.log n < G t :=
    cG.tendsto.eventually (lt_mem_nhds (by rw [G0]; exact log_lt_half _ hn))
  obtain ⟨ε, hε, H⟩ := Metric.eventually_nhds_iff.mp (ev1.and (ev2.and (ev3.and (ev4.and ev5))))
  refine ⟨2 / ε, fun M hM => ?_⟩
  have hMa : 0 < |M| := lt_of_lt_of_le (by positivity) hM
  have hM0 : M ≠ 0 := abs_pos.mp hMa
  have ht : dist (1 / M) 0 < ε := by
    rw [Real.dist_eq, sub_zero, abs_div, abs_one, div_lt_iff₀ hMa]
    rw [div_le_iff₀ hε] at hM
    linarith
  obtain ⟨h1, h2, h3, h4, h5⟩ := H ht
  have eV : Spec.var (spiked xs i M) = M ^ 2 * A (1 / M) := by
    rw [var_spiked xs i M hi, ← hnd, ← hd]
    simp only [A, hκ, V]
    field_simp
  have eC : Spec.cov (spiked xs i M) ys = M * B (1 / M) := by
    rw [cov_spiked_left xs ys h.symm i M hi, ← hnd, ← he]
    simp only [B, c]
    field_simp
  generalize hA : A (1 / M) = a at *
  generalize hB : B (1 / M) = b at *
  have hM2 : 0 < M ^ 2 := by positivity
  have ok : PairOk (spiked xs i M) ys := by
    refine ⟨?_, ?_⟩
    · rw [eV, eC]
      have : 0 < M ^ 2 * (a * W - b ^ 2) := mul_pos hM2 h2
      linarith [this]
    · rw [eV, eC]
      have : 0 < M ^ 6 * (a ^ 3 - b ^ 2 * W * (1 / M) ^ 4) := mul_pos (by positivity) h3
      have e6 : M ^ 6 * (a ^ 3 - b ^ 2 * W * (1 / M) ^ 4) = (M ^ 2 * a) ^ 3 - (M * b) ^ 2 * W := by field_simp
      linarith [this]
  refine ⟨ok, (spiked xs i M).getD i 0, ys.getD i 0, ?_, ?_, ?_⟩
  · rw [List.getD, List.getElem?_eq_getElem (by rw [spiked_length]; exact hi)]; rfl
  · rw [List.getD, List.getElem?_eq_getElem (by rw [h]; exact hi)]; rfl
  · rw [spiked_length, spiked_getD xs i M hi, if_pos rfl, spiked_avg xs i M hi, eV, eC]
    refine lt_of_lt_of_le h5 ?_
    simp only [G, hA, hB]
    unfold pairDist
    have hm : M * b / (M ^ 2 * a) = 1 / M * b / a := by field_simp
    rw [hm]
    generalize hq : 1 / M * b / a = q at *
    refine mul_le_mul_of_nonneg_left ?_ (div_nonneg h4.le (by positivity))
    have hden : 0 < M ^ 2 * a - q ^ 2 * W := by
      have : M ^ 2 * a - q ^ 2 * W = (a ^ 3 - b ^ 2 * W * (1 / M) ^ 4) * (M ^ 2 / a ^ 2) := by
        rw [← hq]; field_simp
      rw [this]; exact mul_pos h3 (by positivity)
    have hden2 : 0 < W - q ^ 2 * (M ^ 2 * a) := by
      have : W - q ^ 2 * (M ^ 2 * a) = (a * W - b ^ 2) / a := by
        rw [← hq]; field_simp
      rw [this]; exact div_pos h2 h1
    have t1 : (X (1 / M) + (1 / M) ^ 2 * b * e / a) ^ 2 / a = (d + M * (1 - 1 / n) + q * e) ^ 2 / (M ^ 2 * a) := by
      simp only [X]
      rw [← hq]
      field_simp
    have hW : 0 ≤ W := Spec.var_nonneg ys
    have t2 : xs.getD i 0 + M - (Spec.avg xs + M / xs.length) = d + M * (1 - 1 / n) := by
      rw [hd, hnd]; ring
    rw [t1, t2, ← he]
    have t3 : (d + M * (1 - 1 / n) + q * e) ^ 2 / (M ^ 2 * a) ≤ (d + M * (1 - 1 / n) + q * e) ^ 2 / (M ^ 2 * a - q ^ 2 * W) :=
      div_le_div_of_nonneg_left (sq_nonneg _) hden (by have := mul_nonneg (sq_nonneg q) hW; linarith)
    have t4 : 0 ≤ (e - q * (d + M * (1 - 1 / n))) ^ 2 / (W - q ^ 2 * (M ^ 2 * a)) := div_nonneg (sq_nonneg _) hden2.le
    linarith

/-- **C197** a spike in the first component: for at least four samples, components `v` and `w` that the function accepts
and that are not constant apart from sample `i`, every sufficiently high spike added to sample `i` of `u` is accepted and
flagged. -/
theorem C197_detects (us vs ws : List ℝ) (hn : 4 ≤ us.length) (hv : vs.length = us.length) (hw : ws.length = us.length)
    (i : Nat) (hi : i < us.length)
    (hv' : ∃ j k, j < us.length ∧ k < us.length ∧ j ≠ i ∧ k ≠ i ∧ vs.getD j 0 ≠ vs.getD k 0)
    (hw' : ∃ j k, j < us.length ∧ k < us.length ∧ j ≠ i ∧ k ≠ i ∧ ws.getD j 0 ≠ ws.getD k 0) (hp : PairOk vs ws) :
    ∃ M0, ∀ M, M0 ≤ |M| → ∃ r,
      velocityCorrelation (fins (spiked us i M)) (fins vs) (fins ws : List (Fl ℝ)) = .ok r ∧ i ∈ r := by
  obtain ⟨j, k, hj, hk, hji, hki, hjk⟩ := hv'
  obtain ⟨j', k', hj', hk', hji', hki', hjk'⟩ := hw'
  have s1 := samuelson_strict vs i j k (by omega) (by omega) (by omega) hji hki hjk
  have s2 := samuelson_strict ws i j' k' (by omega) (by omega) (by omega) hji' hki' hjk'
  rw [hv] at s1
  rw [hw] at s2
  obtain ⟨M1, H1⟩ := pair_spiked us vs hv hn i hi s1
  obtain ⟨M2, H2⟩ := pair_spiked us ws hw hn i hi s2
  refine ⟨max M1 M2, fun M hM => ?_⟩
  have a1 := H1 M ((le_max_left _ _).trans hM)
  have a2 := H2 M ((le_max_right _ _).trans hM)
  obtain ⟨r, hr, -, hm⟩ := C104_flagged (spiked us i M) vs ws (by rw [spiked_length]; omega) (by rw [spiked_length, hv])
    (by rw [spiked_length, hw]) a1.1 a2.1 hp
  exact ⟨r, hr, (hm i).mpr (Or.inl a1.2)⟩

/-- hypotheses of `C197_detects` -/
example : ∃ M0, ∀ M, M0 ≤ |M| → ∃ r, velocityCorrelation (fins (spiked [1, -1, 0, 0, 0, 0] 0 M))
    (fins [0, 0, 1, -1, 0, 0]) (fins [0, 0, 0, 0, 1, -1] : List (Fl ℝ)) = .ok r ∧ 0 ∈ r :=
  C197_detects [1, -1, 0, 0, 0, 0] [0, 0, 1, -1, 0, 0] [0, 0, 0, 0, 1, -1] (by simp) (by simp) (by simp) 0 (by simp)
    ⟨2, 3, by simp, by simp, by simp, by simp, by norm_num⟩ ⟨4, 5, by simp, by simp, by simp, by simp, by norm_num⟩
    (by norm_num [PairOk, Spec.var, Spec.cov, Spec.cmoment, Spec.avg])

end Proadv.Props
