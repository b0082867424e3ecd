import Verif.Props.Spherical2
import Verif.Props.CorrelationSpike
import Verif.Props.FluidTensor
import Mathlib.Analysis.SpecialFunctions.Complex.Arg
import Mathlib.Topology.Algebra.Order.Field

/-!
# C220 A high spike in `spherical_phasespace_thresholding`
-/

set_option linter.unusedSectionVars false

namespace Proadv.Props

open Proadv Proadv.Fl Spherical Filter Topology

/-! ## Quantities that grow with the height of the spike -/

/-- `u M / M` tends to `L` as the height `M` grows -/
def Big (u : ℝ → ℝ) (L : ℝ) : Prop := Tendsto (fun M => u M / M) atTop (𝓝 L)

theorem big_const (c : ℝ) : Big (fun _ => c) 0 := tendsto_const_nhds.div_atTop tendsto_id

theorem big_id : Big (fun M => M) 1 := by
  refine Tendsto.congr' ?_ tendsto_const_nhds
  filter_upwards [eventually_gt_atTop (0 : ℝ)] with M hM
  field_simp

theorem Big.add {u v : ℝ → ℝ} {L K : ℝ} (hu : Big u L) (hv : Big v K) : Big (fun M => u M + v M) (L + K) := by
  unfold Big at *
  simpa only [add_div] using Tendsto.add hu hv

theorem Big.sub {u v : ℝ → ℝ} {L K : ℝ} (hu : Big u L) (hv : Big v K) : Big (fun M => u M - v M) (L - K) := by
  unfold Big at *
  simpa only [sub_div] using Tendsto.sub hu hv

theorem Big.div_const {u : ℝ → ℝ} {L : ℝ} (hu : Big u L) (c : ℝ) : Big (fun M => u M / c) (L / c) := by
  unfold Big at *
  have := Tendsto.div_const hu c
  refine this.congr (fun M => ?_)
  ring

theorem small_div (e : ℝ → ℝ) (he : ∀ M, |e M| ≤ 1 / 20000) (p : ℕ) (hp : p ≠ 0) :
    Tendsto (fun M => e M / M ^ p) atTop (𝓝 0) := by
  have h0 : Tendsto (fun M : ℝ => (1 / 20000 : ℝ) / M ^ p) atTop (𝓝 0) := tendsto_const_nhds.div_atTop (tendsto_pow_atTop hp)
  refine squeeze_zero_norm' ?_ h0
  filter_upwards [eventually_gt_atTop (0 : ℝ)] with M hM
  rw [Real.norm_eq_abs, abs_div, abs_of_pos (pow_pos hM p)]
  exact div_le_div_of_nonneg_right (he M) (pow_pos hM p).le

theorem around_pow {u : ℝ → ℝ} {L : ℝ} (p : ℕ) (hp : p ≠ 0) (h : Tendsto (fun M => u M / M ^ p) atTop (𝓝 L)) :
    Tendsto (fun M => aroundK (u M) 4 / M ^ p) atTop (𝓝 L) := by
  have := h.add (small_div (fun M => aroundK (u M) 4 - u M) (fun M => around4_near (u M)) p hp)
  rw [add_zero] at this
  refine this.congr (fun M => ?_)
  rw [← add_div]
  congr 1
  ring

theorem Big.around {u : ℝ → ℝ} {L : ℝ} (h : Big u L) : Big (fun M => aroundK (u M) 4) L := by
  have := around_pow (u := u) 1 one_ne_zero (by simpa only [pow_one, Big] using h)
  unfold Big
  simpa only [pow_one] using this

theorem Big.sqrt {u : ℝ → ℝ} {L : ℝ} (h : Tendsto (fun M => u M / M ^ 2) atTop (𝓝 L)) : Big (fun M => √(u M)) (√L) := by
  have := (Real.continuous_sqrt.tendsto L).comp h
  refine this.congr' ?_
  filter_upwards [eventually_gt_atTop (0 : ℝ)] with M hM
  simp only [Function.comp]
  rw [Real.sqrt_div' _ (by positivity), Real.sqrt_sq hM.le]

theorem Big.sq {u : ℝ → ℝ} {L : ℝ} (h : Big u L) : Tendsto (fun M => u M ^ 2 / M ^ 2) atTop (𝓝 (L ^ 2)) := by
  simpa only [div_pow] using h.pow 2

/-- a series depending on `M`, of fixed length, growing entry by entry -/
structure BigL (zs : ℝ → List ℝ) (n : ℕ) (L : ℕ → ℝ) : Prop where
  len : ∀ M, (zs M).length = n
  lim : ∀ k < n, Big (fun M => (zs M).getD k 0) (L k)

theorem BigL.congr {zs : ℝ → List ℝ} {n : ℕ} {L L' : ℕ → ℝ} (h : BigL zs n L) (he : ∀ k < n, L k = L' k) : BigL zs n L' :=
  ⟨h.len, fun k hk => he k hk ▸ h.lim k hk⟩

theorem BigL.avg {zs : ℝ → List ℝ} {n : ℕ} {L : ℕ → ℝ} (h : BigL zs n L) :
    Big (fun M => Spec.avg (zs M)) ((∑ k ∈ Finset.range n, L k) / n) := by
  have h1 : Tendsto (fun M => (∑ k ∈ Finset.range n, (zs M).getD k 0 / M) / n) atTop (𝓝 ((∑ k ∈ Finset.range n, L k) / n)) :=
    (tendsto_finsetSum _ (fun k hk => h.lim k (Finset.mem_range.mp hk))).div_const _
  refine h1.congr (fun M => ?_)
  simp only
  rw [avg_getD, h.len M, Finset.sum_div, Finset.sum_div, Finset.sum_div]
  exact Finset.sum_congr rfl (fun k _ => by ring)

theorem BigL.var {zs : ℝ → List ℝ} {n : ℕ} {L : ℕ → ℝ} (h : BigL zs n L) (hn : n ≠ 0) (hs : ∑ k ∈ Finset.range n, L k = 0) :
    Tendsto (fun M => Spec.var (zs M) / M ^ 2) atTop (𝓝 ((∑ k ∈ Finset.range n, L k ^ 2) / n)) := by
  have h1 : Tendsto (fun M => (∑ k ∈ Finset.range n, (zs M).getD k 0 ^ 2 / M ^ 2) / n) atTop
      (𝓝 ((∑ k ∈ Finset.range n, L k ^ 2) / n)) :=
    (tendsto_finsetSum _ (fun k hk => (h.lim k (Finset.mem_range.mp hk)).sq)).div_const _
  have h2 := h.avg
  rw [hs, zero_div] at h2
  have h3 := h1.sub h2.sq
  rw [zero_pow two_ne_zero, sub_zero] at h3
  refine h3.congr (fun M => ?_)
  have hne : zs M ≠ [] := by
    intro he
    have := h.len M
    rw [he] at this
    exact hn this.symm
  rw [Spec.var_eq_sub hne, sub_div]
  congr 1
  have e : Spec.avg ((zs M).map (fun x => x ^ 2)) = (∑ k ∈ Finset.range n, (zs M).getD k 0 ^ 2) / n := by
    conv_lhs => rw [list_range (zs M), List.map_map, h.len M]
    exact avg_range _ _
  rw [e, Finset.sum_div, Finset.sum_div, Finset.sum_div]
  exact Finset.sum_congr rfl (fun k _ => by ring)

theorem BigL.axis {zs : ℝ → List ℝ} {n : ℕ} {L : ℕ → ℝ} (h : BigL zs n L) (hn : n ≠ 0) (hs : ∑ k ∈ Finset.range n, L k = 0) :
    Big (fun M => axisR (zs M)) (aroundK (√(2 * Real.log n)) 4 * √((∑ k ∈ Finset.range n, L k ^ 2) / n)) := by
  have h1 := Big.sqrt (h.var hn hs)
  have h2 : Big (fun M => aroundK (√(2 * Real.log n)) 4 * √(Spec.var (zs M)))
      (aroundK (√(2 * Real.log n)) 4 * √((∑ k ∈ Finset.range n, L k ^ 2) / n)) := by
    have := Tendsto.const_mul (aroundK (√(2 * Real.log n)) 4) h1
    refine this.congr (fun M => ?_)
    ring
  have h3 := h2.around
  unfold axisR
  simpa only [h.len] using h3

/-- limit of the gradient -/
noncomputable def gradL (n : ℕ) (L : ℕ → ℝ) (k : ℕ) : ℝ :=
  if k = 0 then L 1 - L 0 else if k + 1 = n then L k - L (k - 1) else (L (k + 1) - L (k - 1)) / 2

theorem gradL_congr {n : ℕ} {L L' : ℕ → ℝ} (hn : 2 ≤ n) (h : ∀ k < n, L k = L' k) {k : ℕ} (hk : k < n) :
    gradL n L k = gradL n L' k := by
  unfold gradL
  split_ifs with h1 h2
  · rw [h 1 (by omega), h 0 (by omega)]
  · rw [h k hk, h (k - 1) (by omega)]
  · rw [h (k + 1) (by omega), h (k - 1) (by omega)]

theorem BigL.grad {zs : ℝ → List ℝ} {n : ℕ} {L : ℕ → ℝ} (h : BigL zs n L) (hn : 2 ≤ n) :
    BigL (fun M => gradR (zs M)) n (gradL n L) := by
  refine ⟨fun M => by rw [gradR_length, h.len M], fun k hk => ?_⟩
  have e : ∀ M, (gradR (zs M)).getD k 0 = gradAtR (zs M) k := by
    intro M
    unfold gradR
    simp [List.getD, h.len M, hk]
  simp only [e]
  unfold gradAtR gradL
  simp only [h.len]
  split_ifs with h1 h2
  · exact (h.lim 1 (by omega)).sub (h.lim 0 (by omega))
  · exact (h.lim k hk).sub (h.lim (k - 1) (by omega))
  · exact ((h.lim (k + 1) (by omega)).sub (h.lim (k - 1) (by omega))).div_const 2

theorem bigL_spiked (xs : List ℝ) (i : ℕ) (hi : i < xs.length) :
    BigL (fun M => spiked xs i M) xs.length (fun k => if k = i then 1 else 0) := by
  refine ⟨fun M => spiked_length xs i M, fun k _ => ?_⟩
  simp only [spiked_getD xs i _ hi k]
  split_ifs
  · simpa using (big_const (xs.getD k 0)).add big_id
  · simpa using big_const (xs.getD k 0)

theorem bigL_cent (xs : List ℝ) (i : ℕ) (hi : i < xs.length) :
    BigL (fun M => centR (spiked xs i M)) xs.length (fun k => (if k = i then 1 else 0) - 1 / xs.length) := by
  have h := bigL_spiked xs i hi
  have hs : ∑ k ∈ Finset.range xs.length, (if k = i then (1 : ℝ) else 0) = 1 := by
    rw [Finset.sum_ite_eq', if_pos (Finset.mem_range.mpr hi)]
  have ha := h.avg
  rw [hs] at ha
  refine ⟨fun M => by simp [centR, spiked_length], fun k hk => ?_⟩
  have := ((h.lim k hk).sub ha).around
  have e : ∀ M, (centR (spiked xs i M)).getD k 0 = aroundK ((spiked xs i M).getD k 0 - Spec.avg (spiked xs i M)) 4 := by
    intro M
    have : k < (spiked xs i M).length := by rw [spiked_length]; exact hk
    unfold centR
    simp [List.getD, this]
  simp only [e]
  exact this

/-! ## The decision for a growing point -/

theorem denR_scale (a b c : ℝ) (p : ℝ × ℝ × ℝ) {M : ℝ} (hM : 0 < M) :
    denR (a / M) (b / M) (c / M) (p.1 / M, p.2.1 / M, p.2.2 / M) = denR a b c p / M ^ 3 := by
  unfold denR
  have e : (a / M * (c / M) * (p.2.1 / M)) ^ 2 + (b / M) ^ 2 * ((c / M) ^ 2 * (p.1 / M) ^ 2 + (a / M) ^ 2 * (p.2.2 / M) ^ 2) =
      ((a * c * p.2.1) ^ 2 + b ^ 2 * (c ^ 2 * p.1 ^ 2 + a ^ 2 * p.2.2 ^ 2)) / (M ^ 3) ^ 2 := by
    field_simp
  simp only
  rw [e, Real.sqrt_div' _ (by positivity), Real.sqrt_sq (by positivity)]

section point

variable {a b c x y z : ℝ → ℝ} {A B C X Y Z : ℝ}

theorem den_lim (ha : Big a A) (hb : Big b B) (hc : Big c C) (hx : Big x X) (hy : Big y Y) (hz : Big z Z) :
    Tendsto (fun M => denR (a M) (b M) (c M) (x M, y M, z M) / M ^ 3) atTop (𝓝 (denR A B C (X, Y, Z))) := by
  have h : Tendsto (fun M => denR (a M / M) (b M / M) (c M / M) (x M / M, y M / M, z M / M)) atTop (𝓝 (denR A B C (X, Y, Z))) := by
    unfold denR
    refine (Real.continuous_sqrt.tendsto _).comp ?_
    exact (((ha.mul hc).mul hy).pow 2).add ((hb.pow 2).mul (((hc.pow 2).mul (hx.pow 2)).add ((ha.pow 2).mul (hz.pow 2))))
  refine h.congr' ?_
  filter_upwards [eventually_gt_atTop (0 : ℝ)] with M hM
  exact denR_scale (a M) (b M) (c M) (x M, y M, z M) hM

theorem surf_lim (ha : Big a A) (hb : Big b B) (hc : Big c C) (hx : Big x X) (hy : Big y Y) (hz : Big z Z)
    (hD : denR A B C (X, Y, Z) ≠ 0) {w : ℝ → ℝ} {W : ℝ} (hw : Big w W) :
    Big (fun M => aroundK (a M * b M * c M * w M / denR (a M) (b M) (c M) (x M, y M, z M)) 4)
      (A * B * C * W / denR A B C (X, Y, Z)) := by
  apply Big.around
  have h := (((ha.mul hb).mul hc).mul hw).div (den_lim ha hb hc hx hy hz) hD
  refine h.congr' ?_
  filter_upwards [eventually_gt_atTop (0 : ℝ)] with M hM
  have : M ≠ 0 := hM.ne'
  show a M / M * (b M / M) * (c M / M) * (w M / M) / (denR (a M) (b M) (c M) (x M, y M, z M) / M ^ 3) = _
  generalize denR (a M) (b M) (c M) (x M, y M, z M) = d
  by_cases hd : d = 0
  · rw [hd]; simp
  · field_simp

/-- outside the limit ellipsoid, in the plane of the first and third axis: flagged for large `M` -/
theorem flagged_large (ha : Big a A) (hb : Big b B) (hc : Big c C) (hx : Big x X) (hy : Big y 0) (hz : Big z Z)
    (hA : 0 < A) (hB : 0 < B) (hC : 0 < C) (hZ : Z ≠ 0) (hout : A ^ 2 * C ^ 2 < C ^ 2 * X ^ 2 + A ^ 2 * Z ^ 2) :
    ∀ᶠ M in atTop, FlaggedR (a M) (b M) (c M) (x M, y M, z M) := by
  set E := C ^ 2 * X ^ 2 + A ^ 2 * Z ^ 2 with hE
  have hZ2 : 0 < Z ^ 2 := by positivity
  have hEp : 0 < E := by positivity
  have hD2 : denR A B C (X, 0, Z) ^ 2 = B ^ 2 * E := by
    unfold denR
    simp only
    rw [Real.sq_sqrt (by positivity)]
    ring
  have hD : denR A B C (X, 0, Z) ≠ 0 := by
    intro h
    rw [h] at hD2
    have : 0 < B ^ 2 * E := by positivity
    rw [← hD2] at this
    norm_num at this
  have hx2 := surf_lim ha hb hc hx hy hz hD hx
  have hy2 := surf_lim ha hb hc hx hy hz hD hy
  rw [mul_zero, zero_div] at hy2
  set X2 := A * B * C * X / denR A B C (X, 0, Z) with hX2
  have hX2sq : X2 ^ 2 = A ^ 2 * C ^ 2 * X ^ 2 / E := by
    rw [hX2, div_pow, hD2]
    field_simp
  set x2 : ℝ → ℝ := fun M => aroundK (a M * b M * c M * x M / denR (a M) (b M) (c M) (x M, y M, z M)) 4 with hx2d
  set y2 : ℝ → ℝ := fun M => aroundK (a M * b M * c M * y M / denR (a M) (b M) (c M) (x M, y M, z M)) 4 with hy2d
  have hzt : Tendsto (fun M => ztR (a M) (b M) (c M) (x2 M) (y2 M) / M ^ 2) atTop (𝓝 (C ^ 2 * A ^ 2 * Z ^ 2 / E)) := by
    unfold ztR
    apply around_pow 2 two_ne_zero
    have h := (hc.pow 2).mul ((tendsto_const_nhds (x := (1 : ℝ))).sub ((hx2.div ha hA.ne').pow 2) |>.sub ((hy2.div hb hB.ne').pow 2))
    have e : C ^ 2 * (1 - (X2 / A) ^ 2 - (0 / B) ^ 2) = C ^ 2 * A ^ 2 * Z ^ 2 / E := by
      rw [div_pow, hX2sq, zero_div, zero_pow two_ne_zero, sub_zero]
      have : E ≠ 0 := hEp.ne'
      field_simp
      rw [hE]
      ring
    rw [e] at h
    refine h.congr' ?_
    filter_upwards [eventually_gt_atTop (0 : ℝ)] with M hM
    have hM' : M ≠ 0 := hM.ne'
    have e1 : x2 M / M / (a M / M) = x2 M / a M := div_div_div_cancel_right₀ hM' _ _
    have e2 : y2 M / M / (b M / M) = y2 M / b M := div_div_div_cancel_right₀ hM' _ _
    show (c M / M) ^ 2 * (1 - (x2 M / M / (a M / M)) ^ 2 - (y2 M / M / (b M / M)) ^ 2) = _
    rw [e1, e2]
    ring
  have hZT : 0 < C ^ 2 * A ^ 2 * Z ^ 2 / E := by positivity
  have hz2 := (Big.sqrt hzt).around
  have hlhs := (hx2.sq.add hy2.sq).add hz2.sq
  have hrhs := (hx.sq.add hy.sq).add hz.sq
  have hlt : X2 ^ 2 + 0 ^ 2 + √(C ^ 2 * A ^ 2 * Z ^ 2 / E) ^ 2 < X ^ 2 + 0 ^ 2 + Z ^ 2 := by
    rw [Real.sq_sqrt hZT.le, hX2sq]
    have e : A ^ 2 * C ^ 2 * X ^ 2 / E + 0 ^ 2 + C ^ 2 * A ^ 2 * Z ^ 2 / E = (A ^ 2 * C ^ 2) * (X ^ 2 + Z ^ 2) / E := by ring
    rw [e, div_lt_iff₀ hEp]
    have : 0 < X ^ 2 + Z ^ 2 := by positivity
    have := mul_lt_mul_of_pos_right hout this
    linarith
  filter_upwards [hlhs.eventually_lt hrhs hlt, hzt.eventually_const_lt hZT, (den_lim ha hb hc hx hy hz).eventually_ne hD,
    ha.eventually_ne hA.ne', hb.eventually_ne hB.ne', hz.eventually_ne hZ, eventually_gt_atTop (0 : ℝ)] with M h1 h2 h3 h4 h5 h6 hM
  have ne : ∀ {u : ℝ} {p : ℕ}, u / M ^ p ≠ 0 → u ≠ 0 := fun h h0 => h (by rw [h0, zero_div])
  have ne1 : ∀ {u : ℝ}, u / M ≠ 0 → u ≠ 0 := fun h h0 => h (by rw [h0, zero_div])
  refine ⟨ne h3, ?_⟩
  simp only
  rw [if_neg (ne1 h6)]
  have hM2 : 0 < M ^ 2 := by positivity
  refine ⟨ne1 h4, ne1 h5, ?_, ?_⟩
  · have := (lt_div_iff₀ hM2).mp h2
    rw [zero_mul] at this
    exact this.le
  · rw [← add_div, ← add_div, ← add_div, ← add_div] at h1
    exact (div_lt_div_iff_of_pos_right hM2).mp h1

/-- a point whose limit lies on the first axis inside the ellipsoid: not flagged for large `M` -/
theorem unflagged_large (ha : Big a A) (hb : Big b B) (hc : Big c C) (hx : Big x X) (hy : Big y 0) (hz : Big z 0)
    (hB : 0 < B) (hC : 0 < C) (hX : X ≠ 0) (hin : X ^ 2 < A ^ 2) :
    ∀ᶠ M in atTop, ¬ FlaggedR (a M) (b M) (c M) (x M, y M, z M) := by
  have hD2 : denR A B C (X, 0, 0) ^ 2 = B ^ 2 * C ^ 2 * X ^ 2 := by
    unfold denR
    simp only
    rw [Real.sq_sqrt (by positivity)]
    ring
  have hp : 0 < B ^ 2 * C ^ 2 * X ^ 2 := by positivity
  have hD : denR A B C (X, 0, 0) ≠ 0 := by
    intro h
    rw [h] at hD2
    rw [← hD2] at hp
    norm_num at hp
  have hx2 := (surf_lim ha hb hc hx hy hz hD hx).sq
  have e : (A * B * C * X / denR A B C (X, 0, 0)) ^ 2 = A ^ 2 := by
    rw [div_pow, hD2]
    field_simp
  rw [e] at hx2
  have hrhs := (hx.sq.add hy.sq).add hz.sq
  have hlt : X ^ 2 + 0 ^ 2 + 0 ^ 2 < A ^ 2 := by simpa using hin
  filter_upwards [hrhs.eventually_lt hx2 hlt, eventually_gt_atTop (0 : ℝ)] with M h1 hM
  have hM2 : 0 < M ^ 2 := by positivity
  rw [← add_div, ← add_div, div_lt_div_iff_of_pos_right hM2] at h1
  rintro ⟨_, h⟩
  simp only at h
  set y2 := aroundK (a M * b M * c M * y M / denR (a M) (b M) (c M) (x M, y M, z M)) 4
  have hy2 : 0 ≤ y2 ^ 2 := sq_nonneg _
  split_ifs at h with hz0
  · have := sq_nonneg (z M)
    linarith
  · have := h.2.2.2
    have h0 := sq_nonneg (aroundK (√(ztR (a M) (b M) (c M) (aroundK (a M * b M * c M * x M / denR (a M) (b M) (c M) (x M, y M, z M)) 4)
      y2)) 4)
    linarith

end point

/-! ## The spike -/

theorem theta_large {zs : ℝ → List ℝ} {n : ℕ} {L : ℕ → ℝ} (h : BigL zs n L) (m : ℕ) (hn : n = m + 2)
    (hdot : L (m + 1) ^ 2 - L 0 ^ 2 + (L 0 * L 1 - L m * L (m + 1)) / 2 = 0)
    (hpos : 0 < ∑ k ∈ Finset.range n, gradL n (gradL n L) k ^ 2) : ∀ᶠ M in atTop, thetaR (zs M) = 0 := by
  have hh := (h.grad (by omega)).grad (by omega)
  set S := ∑ k ∈ Finset.range n, gradL n (gradL n L) k ^ 2 with hS
  have h1 : Tendsto (fun M => ((gradR (gradR (zs M))).map (fun v => v ^ 2)).sum / M ^ 2) atTop (𝓝 S) := by
    have := tendsto_finsetSum (Finset.range n) (fun k hk => (hh.lim k (Finset.mem_range.mp hk)).sq)
    refine this.congr (fun M => ?_)
    conv_rhs => rw [list_range (gradR (gradR (zs M))), List.map_map, hh.len M]
    rw [← Finset.sum_div]
    congr 1
  have h2 : Tendsto (fun M => Spec.dot (zs M) (gradR (zs M)) / M ^ 2) atTop (𝓝 0) := by
    have l0 := h.lim 0 (by omega)
    have l1 := h.lim 1 (by omega)
    have lm := h.lim m (by omega)
    have lm1 := h.lim (m + 1) (by omega)
    have := (lm1.sq.sub l0.sq).add (((Tendsto.mul l0 l1).sub (Tendsto.mul lm lm1)).div_const 2)
    rw [hdot] at this
    refine this.congr (fun M => ?_)
    rw [C105_telescope (zs M) m (by rw [h.len M, hn])]
    simp only
    ring
  have h3 : Tendsto (fun M => (((((gradR (gradR (zs M))).map (fun v => v ^ 2)).sum / M ^ 2 : ℝ) : ℂ) +
      ((Spec.dot (zs M) (gradR (zs M)) / M ^ 2 : ℝ) : ℂ) * Complex.I)) atTop (𝓝 ((S : ℂ) + ((0 : ℝ) : ℂ) * Complex.I)) :=
    ((Complex.continuous_ofReal.tendsto _).comp h1).add (((Complex.continuous_ofReal.tendsto _).comp h2).mul_const _)
  have hm : ((S : ℂ) + ((0 : ℝ) : ℂ) * Complex.I) ∈ Complex.slitPlane := by
    left
    simpa using hpos
  have h4 := (Complex.continuousAt_arg hm).tendsto.comp h3
  have e0 : Complex.arg ((S : ℂ) + ((0 : ℝ) : ℂ) * Complex.I) = 0 := by
    rw [Complex.ofReal_zero, zero_mul, add_zero]
    exact Complex.arg_ofReal_of_nonneg hpos.le
  rw [e0] at h4
  have h5 := (tendsto_order.mp h4.abs).2 (1 / 20000) (by norm_num)
  filter_upwards [h5, eventually_gt_atTop (0 : ℝ)] with M hM hp
  unfold thetaR
  have e : ((((gradR (gradR (zs M))).map (fun v => v ^ 2)).sum / M ^ 2 : ℝ) : ℂ) +
      ((Spec.dot (zs M) (gradR (zs M)) / M ^ 2 : ℝ) : ℂ) * Complex.I =
      (((M ^ 2)⁻¹ : ℝ) : ℂ) * (⟨((gradR (gradR (zs M))).map (fun v => v ^ 2)).sum, Spec.dot (zs M) (gradR (zs M))⟩ : ℂ) := by
    apply Complex.ext <;> simp [div_eq_inv_mul, -Complex.ofReal_inv, -Complex.ofReal_pow, -Complex.ofReal_mul]
  simp only [Function.comp] at hM
  rw [e, Complex.arg_real_mul _ (by positivity)] at hM
  have := around4_eq (Complex.arg ⟨((gradR (gradR (zs M))).map (fun v => v ^ 2)).sum, Spec.dot (zs M) (gradR (zs M))⟩) 0
    (by simpa using hM)
  simpa using this

theorem pts_zero (f : List ℝ) (h : thetaR f = 0) :
    (ptsR f).map (fun q => q.1) = f ∧ (ptsR f).map (fun q => q.2.1) = gradR f ∧ (ptsR f).map (fun q => q.2.2) = gradR (gradR f) ∧
      ∀ k < f.length, (ptsR f)[k]? = some (f.getD k 0, (gradR f).getD k 0, (gradR (gradR f)).getD k 0) := by
  have e : ptsR f = f.zip ((gradR f).zip (gradR (gradR f))) := by
    unfold ptsR
    rw [h]
    conv_rhs => rw [← List.map_id (f.zip ((gradR f).zip (gradR (gradR f))))]
    exact List.map_congr_left (fun p _ => by simp [rotSph])
  have l1 : (gradR f).length = f.length := gradR_length f
  have l2 : (gradR (gradR f)).length = f.length := by rw [gradR_length, l1]
  rw [e]
  refine ⟨?_, ?_, ?_, ?_⟩
  · exact List.map_fst_zip (by simp [l1, l2])
  · rw [show (fun q : ℝ × ℝ × ℝ => q.2.1) = (fun q : ℝ × ℝ => q.1) ∘ (fun q : ℝ × ℝ × ℝ => q.2) from rfl, ← List.map_map]
    rw [show (f.zip ((gradR f).zip (gradR (gradR f)))).map (fun q : ℝ × ℝ × ℝ => q.2) = (gradR f).zip (gradR (gradR f)) from
      List.map_snd_zip (by simp [l1, l2])]
    exact List.map_fst_zip (by simp [l1, l2])
  · rw [show (fun q : ℝ × ℝ × ℝ => q.2.2) = (fun q : ℝ × ℝ => q.2) ∘ (fun q : ℝ × ℝ × ℝ => q.2) from rfl, ← List.map_map]
    rw [show (f.zip ((gradR f).zip (gradR (gradR f)))).map (fun q : ℝ × ℝ × ℝ => q.2) = (gradR f).zip (gradR (gradR f)) from
      List.map_snd_zip (by simp [l1, l2])]
    exact List.map_snd_zip (by simp [l1, l2])
  · intro k hk
    have k1 : k < (gradR f).length := by omega
    have k2 : k < (gradR (gradR f)).length := by omega
    simp [List.getD, hk, k1, k2]

/-- the rounded universal threshold, squared -/
theorem level_bounds (n : ℕ) (hn : 7 ≤ n) :
    0 < aroundK (√(2 * Real.log n)) 4 ∧ 1 / 2 < aroundK (√(2 * Real.log n)) 4 ^ 2 ∧
      aroundK (√(2 * Real.log n)) 4 ^ 2 ≤ 2 * Real.log n * (1 + 1 / 20000) ^ 2 := by
  have h7 : (7 : ℝ) ≤ n := by exact_mod_cast hn
  have hlog : 1 ≤ Real.log n := by
    rw [Real.le_log_iff_exp_le (by linarith)]
    have := Real.exp_one_lt_d9
    linarith
  have hs : 1 ≤ √(2 * Real.log n) := by
    rw [show (1 : ℝ) = √1 by simp]
    exact Real.sqrt_le_sqrt (by linarith)
  have hsq : √(2 * Real.log n) ^ 2 = 2 * Real.log n := Real.sq_sqrt (by linarith)
  have hr := abs_le.mp (around4_near (√(2 * Real.log n)))
  generalize √(2 * Real.log n) = s at *
  rw [← hsq]
  generalize aroundK s 4 = l at *
  refine ⟨by linarith [hr.1], by nlinarith [hr.1], ?_⟩
  rw [← mul_pow]
  exact pow_le_pow_left₀ (by linarith [hr.1]) (by linarith [hr.2]) 2

theorem log_line (n m : ℕ) (hm : 0 < m) (h : m ≤ n) : Real.log n ≤ Real.log m + ((n : ℝ) / m - 1) := by
  have hm' : (0 : ℝ) < m := by exact_mod_cast hm
  have hn' : (0 : ℝ) < n := by exact_mod_cast (lt_of_lt_of_le hm h)
  have := Real.log_le_sub_one_of_pos (x := (n : ℝ) / m) (by positivity)
  rw [Real.log_div hn'.ne' hm'.ne'] at this
  linarith

theorem level_lt (n : ℕ) (hn : 7 ≤ n) : aroundK (√(2 * Real.log n)) 4 ^ 2 < n - 1 := by
  have h7 : (7 : ℝ) ≤ n := by exact_mod_cast hn
  have h1 := (level_bounds n hn).2.2
  have h2 := log_line n 7 (by norm_num) hn
  have h3 : Real.log (7 : ℕ) ≤ 2 := by
    rw [Real.log_le_iff_le_exp (by norm_num)]
    have := Real.exp_one_gt_d9
    have e : Real.exp 2 = Real.exp 1 ^ 2 := by rw [← Real.exp_nat_mul]; norm_num
    rw [e]
    push_cast
    nlinarith
  push_cast at h2 h3
  linarith

theorem level_six (n : ℕ) (hn : 46 ≤ n) : 6 * aroundK (√(2 * Real.log n)) 4 ^ 2 < n := by
  have h46 : (46 : ℝ) ≤ n := by exact_mod_cast hn
  have h1 := (level_bounds n (by omega)).2.2
  have h2 := log_line n 46 (by norm_num) hn
  have h3 : Real.log (46 : ℕ) ≤ 3.829 := by
    have e : 2 * Real.log (46 : ℕ) = 11 * Real.log 2 + Real.log (2116 / 2048) := by
      rw [show (2116 / 2048 : ℝ) = 46 ^ 2 / 2 ^ 11 by norm_num, Real.log_div (by norm_num) (by norm_num), Real.log_pow, Real.log_pow]
      push_cast
      ring
    have h4 := Real.log_le_sub_one_of_pos (x := (2116 / 2048 : ℝ)) (by norm_num)
    have := Real.log_two_lt_d9
    linarith
  push_cast at h2 h3
  linarith

/-- the limits of the three coordinates, divided by the height -/
theorem spike_limits (n i : ℕ) (h3 : 3 ≤ i) (hi : i + 3 < n) :
    (∀ k < n, gradL n (fun k => (if k = i then (1 : ℝ) else 0) - 1 / n) k =
      (if k = i - 1 then 1 / 2 else 0) - (if k = i + 1 then 1 / 2 else 0)) ∧
    (∀ k < n, gradL n (fun k => (if k = i - 1 then (1 / 2 : ℝ) else 0) - (if k = i + 1 then 1 / 2 else 0)) k =
      (if k = i - 2 then 1 / 4 else 0) + (if k = i + 2 then 1 / 4 else 0) - (if k = i then 1 / 2 else 0)) := by
  constructor
  · intro k hk
    unfold gradL
    simp only
    split_ifs <;> first | omega | ring
  · intro k hk
    unfold gradL
    simp only
    split_ifs <;> first | omega | contradiction | norm_num

theorem spike_sums (n i : ℕ) (h3 : 3 ≤ i) (hi : i + 3 < n) :
    (∑ k ∈ Finset.range n, ((if k = i then (1 : ℝ) else 0) - 1 / n) = 0 ∧
      ∑ k ∈ Finset.range n, ((if k = i then (1 : ℝ) else 0) - 1 / n) ^ 2 = 1 - 1 / (n : ℝ)) ∧
    (∑ k ∈ Finset.range n, ((if k = i - 1 then (1 / 2 : ℝ) else 0) - (if k = i + 1 then 1 / 2 else 0)) = 0 ∧
      ∑ k ∈ Finset.range n, ((if k = i - 1 then (1 / 2 : ℝ) else 0) - (if k = i + 1 then 1 / 2 else 0)) ^ 2 = 1 / 2) ∧
    (∑ k ∈ Finset.range n, ((if k = i - 2 then (1 / 4 : ℝ) else 0) + (if k = i + 2 then 1 / 4 else 0) - (if k = i then 1 / 2 else 0)) = 0 ∧
      ∑ k ∈ Finset.range n, ((if k = i - 2 then (1 / 4 : ℝ) else 0) + (if k = i + 2 then 1 / 4 else 0) - (if k = i then 1 / 2 else 0)) ^ 2 =
        3 / 8) := by
  have hn : (n : ℝ) ≠ 0 := by
    have : 0 < n := by omega
    positivity
  have one : ∀ (j : ℕ) (v : ℝ), j < n → ∑ k ∈ Finset.range n, (if k = j then v else 0) = v := by
    intro j v hj
    rw [Finset.sum_ite_eq', if_pos (Finset.mem_range.mpr hj)]
  refine ⟨⟨?_, ?_⟩, ⟨?_, ?_⟩, ?_, ?_⟩
  · rw [Finset.sum_sub_distrib, one i 1 (by omega), Finset.sum_const, Finset.card_range, nsmul_eq_mul]
    field_simp
    norm_num
  · have e : ∀ k ∈ Finset.range n, ((if k = i then (1 : ℝ) else 0) - 1 / n) ^ 2 = (if k = i then (1 - 2 / n : ℝ) else 0) + 1 / n ^ 2 := by
      intro k _
      split_ifs <;> ring
    rw [Finset.sum_congr rfl e, Finset.sum_add_distrib, one i _ (by omega), Finset.sum_const, Finset.card_range, nsmul_eq_mul]
    field_simp
    ring
  · rw [Finset.sum_sub_distrib, one _ _ (by omega), one _ _ (by omega)]
    norm_num
  · have e : ∀ k ∈ Finset.range n, ((if k = i - 1 then (1 / 2 : ℝ) else 0) - (if k = i + 1 then 1 / 2 else 0)) ^ 2 =
        (if k = i - 1 then (1 / 4 : ℝ) else 0) + (if k = i + 1 then 1 / 4 else 0) := by
      intro k _
      split_ifs <;> first | omega | norm_num
    rw [Finset.sum_congr rfl e, Finset.sum_add_distrib, one _ _ (by omega), one _ _ (by omega)]
    norm_num
  · rw [Finset.sum_sub_distrib, Finset.sum_add_distrib, one _ _ (by omega), one _ _ (by omega), one _ _ (by omega)]
    norm_num
  · have e : ∀ k ∈ Finset.range n, ((if k = i - 2 then (1 / 4 : ℝ) else 0) + (if k = i + 2 then 1 / 4 else 0) - (if k = i then 1 / 2 else 0)) ^ 2 =
        (if k = i - 2 then (1 / 16 : ℝ) else 0) + (if k = i + 2 then 1 / 16 else 0) + (if k = i then 1 / 4 else 0) := by
      intro k _
      split_ifs <;> first | omega | norm_num
    rw [Finset.sum_congr rfl e, Finset.sum_add_distrib, Finset.sum_add_distrib, one _ _ (by omega), one _ _ (by omega), one _ _ (by omega)]
    norm_num

/-- the statement for positive heights -/
theorem spherical_spike_pos (xs : List ℝ) (i : ℕ) (h3 : 3 ≤ i) (hi : i + 3 < xs.length) (it : Int) (m : Fl ℝ) :
    ∀ᶠ M in atTop, ∃ r, sphericalThresholding (fins (spiked xs i M)) it m = .ok r ∧ i ∈ r ∧
      (46 ≤ xs.length → i - 2 ∈ r ∧ i + 2 ∈ r) ∧ ∀ k ∈ r, i ≤ k + 2 ∧ k ≤ i + 2 := by
  set n := xs.length with hn
  have hn7 : 7 ≤ n := by omega
  have hnr : (7 : ℝ) ≤ n := by exact_mod_cast hn7
  have hn0 : (0 : ℝ) < n := by linarith
  obtain ⟨g1, g2⟩ := spike_limits n i h3 hi
  obtain ⟨⟨s1, q1⟩, ⟨s2, q2⟩, s3, q3⟩ := spike_sums n i h3 hi
  have hc := bigL_cent xs i (by omega)
  rw [← hn] at hc
  have hg := (hc.grad (by omega)).congr g1
  have hh := (hg.grad (by omega)).congr g2
  have ha := hc.axis (by omega) s1
  have hb := hg.axis (by omega) s2
  have hd := hh.axis (by omega) s3
  rw [q1] at ha
  rw [q2] at hb
  rw [q3] at hd
  obtain ⟨hl0, hl1, _⟩ := level_bounds n hn7
  have hl2 := level_lt n hn7
  have hl6 := level_six n
  have hth : ∀ᶠ M in atTop, thetaR (centR (spiked xs i M)) = 0 := by
    have hgg : ∀ k < n, gradL n (gradL n (fun k => (if k = i then (1 : ℝ) else 0) - 1 / n)) k =
        (if k = i - 2 then 1 / 4 else 0) + (if k = i + 2 then 1 / 4 else 0) - (if k = i then 1 / 2 else 0) := by
      intro k hk
      rw [← g2 k hk]
      exact gradL_congr (by omega) g1 hk
    refine theta_large hc (n - 2) (by omega) ?_ ?_
    · rw [if_neg (by omega), if_neg (by omega), if_neg (by omega), if_neg (by omega)]
      ring
    · rw [Finset.sum_congr rfl (fun k hk => by rw [hgg k (Finset.mem_range.mp hk)]), q3]
      norm_num
  generalize aroundK (√(2 * Real.log n)) 4 = l at *
  have hv1 : 0 < (1 - 1 / (n : ℝ)) / n := by
    apply div_pos _ hn0
    rw [sub_pos, div_lt_one hn0]
    linarith
  have hA2 : (l * √((1 - 1 / (n : ℝ)) / n)) ^ 2 = l ^ 2 * ((1 - 1 / (n : ℝ)) / n) := by rw [mul_pow, Real.sq_sqrt hv1.le]
  have hC2 : (l * √(3 / 8 / (n : ℝ))) ^ 2 = l ^ 2 * (3 / 8 / (n : ℝ)) := by rw [mul_pow, Real.sq_sqrt (by positivity)]
  have hA : 0 < l * √((1 - 1 / (n : ℝ)) / n) := mul_pos hl0 (Real.sqrt_pos.mpr hv1)
  have hB : 0 < l * √(1 / 2 / (n : ℝ)) := mul_pos hl0 (Real.sqrt_pos.mpr (by positivity))
  have hC : 0 < l * √(3 / 8 / (n : ℝ)) := mul_pos hl0 (Real.sqrt_pos.mpr (by positivity))
  have hin : (1 / (n : ℝ)) ^ 2 < (l * √((1 - 1 / (n : ℝ)) / n)) ^ 2 := by
    rw [hA2]
    have e : l ^ 2 * ((1 - 1 / (n : ℝ)) / n) = l ^ 2 * (n - 1) / n ^ 2 := by field_simp
    rw [e, div_pow, one_pow]
    apply div_lt_div_of_pos_right _ (by positivity)
    nlinarith
  have hout : (l * √((1 - 1 / (n : ℝ)) / n)) ^ 2 < (1 - 1 / (n : ℝ)) ^ 2 := by
    rw [hA2]
    have e : l ^ 2 * ((1 - 1 / (n : ℝ)) / n) = l ^ 2 * (n - 1) / n ^ 2 := by field_simp
    have e' : (1 - 1 / (n : ℝ)) ^ 2 = (n - 1) * (n - 1) / n ^ 2 := by field_simp
    rw [e, e']
    apply div_lt_div_of_pos_right _ (by positivity)
    exact mul_lt_mul_of_pos_right hl2 (by linarith)
  have hout2 : 46 ≤ n → (l * √(3 / 8 / (n : ℝ))) ^ 2 < (1 / 4) ^ 2 := by
    intro h
    rw [hC2]
    have e : l ^ 2 * (3 / 8 / (n : ℝ)) = 6 * l ^ 2 / n / 16 := by field_simp; norm_num
    rw [e]
    have : 6 * l ^ 2 / n < 1 := by rw [div_lt_one hn0]; exact hl6 h
    linarith
  generalize l * √((1 - 1 / (n : ℝ)) / n) = A at *
  generalize l * √(1 / 2 / (n : ℝ)) = B at *
  generalize l * √(3 / 8 / (n : ℝ)) = C at *
  -- the decision for every sample
  set F : ℕ → ℝ → Prop := fun k M => FlaggedR (axisR (centR (spiked xs i M))) (axisR (gradR (centR (spiked xs i M))))
    (axisR (gradR (gradR (centR (spiked xs i M))))) ((centR (spiked xs i M)).getD k 0, (gradR (centR (spiked xs i M))).getD k 0,
      (gradR (gradR (centR (spiked xs i M)))).getD k 0) with hF
  have f0 : ∀ᶠ M in atTop, F i M := by
    have lx := hc.lim i (by omega)
    have ly := hg.lim i (by omega)
    have lz := hh.lim i (by omega)
    rw [if_pos rfl] at lx
    rw [if_neg (by omega), if_neg (by omega), sub_zero] at ly
    rw [if_neg (by omega), if_neg (by omega), if_pos rfl] at lz
    refine flagged_large ha hb hd lx ly lz hA hB hC (by norm_num) ?_
    have h1 : C ^ 2 * A ^ 2 < C ^ 2 * (1 - 1 / (n : ℝ)) ^ 2 := mul_lt_mul_of_pos_left hout (by positivity)
    have h2 : 0 ≤ A ^ 2 * (0 + 0 - 1 / 2 : ℝ) ^ 2 := by positivity
    linarith
  have f2 : 46 ≤ n → ∀ j, (j = i - 2 ∨ j = i + 2) → ∀ᶠ M in atTop, F j M := by
    intro h j hj
    have lx := hc.lim j (by omega)
    have ly := hg.lim j (by omega)
    have lz := hh.lim j (by omega)
    rw [if_neg (by omega)] at lx
    rw [if_neg (by omega), if_neg (by omega), sub_zero] at ly
    have ez : (if j = i - 2 then (1 / 4 : ℝ) else 0) + (if j = i + 2 then 1 / 4 else 0) - (if j = i then 1 / 2 else 0) = 1 / 4 := by
      rcases hj with rfl | rfl
      · rw [if_pos rfl, if_neg (by omega), if_neg (by omega)]; norm_num
      · rw [if_neg (by omega), if_pos rfl, if_neg (by omega)]; norm_num
    rw [ez] at lz
    refine flagged_large ha hb hd lx ly lz hA hB hC (by norm_num) ?_
    have h1 : A ^ 2 * C ^ 2 < A ^ 2 * (1 / 4) ^ 2 := mul_lt_mul_of_pos_left (hout2 h) (by positivity)
    have h2 : 0 ≤ C ^ 2 * (0 - 1 / (n : ℝ)) ^ 2 := by positivity
    linarith
  have fn : ∀ᶠ M in atTop, ∀ k ∈ Finset.range n, (k + 2 < i ∨ i + 2 < k) → ¬ F k M := by
    rw [Filter.eventually_all_finset]
    intro k hk
    have hk' := Finset.mem_range.mp hk
    by_cases hfar : k + 2 < i ∨ i + 2 < k
    swap
    · exact Eventually.of_forall (fun M h => absurd h hfar)
    have lx := hc.lim k hk'
    have ly := hg.lim k hk'
    have lz := hh.lim k hk'
    rw [if_neg (by omega)] at lx
    rw [if_neg (by omega), if_neg (by omega), sub_zero] at ly
    rw [if_neg (by omega), if_neg (by omega), if_neg (by omega)] at lz
    rw [add_zero, sub_zero] at lz
    have := unflagged_large ha hb hd lx ly lz hB hC (by rw [zero_sub]; exact neg_ne_zero.mpr (by positivity)) (by rw [zero_sub, neg_sq]; exact hin)
    filter_upwards [this] with M hM _
    exact hM
  have f2' : ∀ᶠ M in atTop, 46 ≤ n → F (i - 2) M ∧ F (i + 2) M := by
    by_cases h : 46 ≤ n
    · filter_upwards [f2 h _ (Or.inl rfl), f2 h _ (Or.inr rfl)] with M h1 h2 _
      exact ⟨h1, h2⟩
    · exact Eventually.of_forall (fun M h' => absurd h' h)
  filter_upwards [hth, f0, f2', fn] with M h0 h1 h2 h4
  obtain ⟨r, hr, hm⟩ := C121_flags (spiked xs i M) it m (by rw [spiked_length]; omega)
  obtain ⟨p1, p2, p3, p4⟩ := pts_zero _ h0
  have hlen : (centR (spiked xs i M)).length = n := hc.len M
  have key : ∀ k < n, (k ∈ r ↔ F k M) := by
    intro k hk
    rw [hm, p1, p2, p3]
    have := p4 k (by omega)
    constructor
    · rintro ⟨p, hp, hf⟩
      rw [this] at hp
      obtain rfl := Option.some.inj hp
      exact hf
    · intro hf
      exact ⟨_, this, hf⟩
  refine ⟨r, hr, (key i (by omega)).mpr h1, fun h => ⟨(key _ (by omega)).mpr (h2 h).1, (key _ (by omega)).mpr (h2 h).2⟩, ?_⟩
  intro k hk
  have hkn : k < n := by
    obtain ⟨p, hp, _⟩ := (hm k).mp hk
    obtain ⟨hk', _⟩ := List.getElem?_eq_some_iff.mp hp
    have : (ptsR (centR (spiked xs i M))).length = n := by
      rw [← hlen]
      simp [ptsR, gradR_length]
    omega
  by_contra hfar
  exact h4 k (Finset.mem_range.mpr hkn) (by omega) ((key k hkn).mp hk)

/-- **C220** a single spike of height `M` added to an arbitrary series, at least three samples away from both ends: once
`|M|` is large enough, the spike itself is flagged, no sample more than two away from it is flagged, and in a series of at
least 46 samples the two samples at distance two — which the spike does not touch — are flagged as well. -/
theorem C220_spike (xs : List ℝ) (i : ℕ) (h3 : 3 ≤ i) (hi : i + 3 < xs.length) (it : Int) (m : Fl ℝ) :
    ∃ M0 : ℝ, ∀ M, M0 ≤ |M| → ∃ r, sphericalThresholding (fins (xs.set i (xs.getD i 0 + M))) it m = .ok r ∧ i ∈ r ∧
      (46 ≤ xs.length → i - 2 ∈ r ∧ i + 2 ∈ r) ∧ ∀ k ∈ r, i ≤ k + 2 ∧ k ≤ i + 2 := by
  have hp := spherical_spike_pos xs i h3 hi it m
  have hq := spherical_spike_pos (xs.map (fun x => -x)) i h3 (by simpa using hi) it m
  obtain ⟨M1, h1⟩ := eventually_atTop.mp hp
  obtain ⟨M2, h2⟩ := eventually_atTop.mp hq
  refine ⟨max M1 M2, fun M hM => ?_⟩
  rcases le_total 0 M with h0 | h0
  · rw [abs_of_nonneg h0] at hM
    exact h1 M (le_trans (le_max_left _ _) hM)
  · rw [abs_of_nonpos h0] at hM
    obtain ⟨r, hr, hrest⟩ := h2 (-M) (le_trans (le_max_right _ _) hM)
    have e : fins (spiked (xs.map (fun x => -x)) i (-M)) = ((fins (xs.set i (xs.getD i 0 + M))).map PyNum.neg : List (Fl ℝ)) := by
      unfold spiked fins
      rw [List.map_map, show (PyNum.neg ∘ fin : ℝ → Fl ℝ) = fin ∘ (fun x => -x) from funext (fun x => by simp [Function.comp]),
        ← List.map_map, List.map_set]
      have : i < xs.length := by omega
      have e : (xs.map (fun x => -x)).getD i 0 + -M = -(xs.getD i 0 + M) := by
        simp [List.getD, this]
        ring
      rw [e, List.map_set, List.map_set]
    rw [e, C106_sign] at hr
    simp only [List.length_map] at hrest
    exact ⟨r, hr, hrest⟩

/-- the hypotheses hold for the constant series of 60 zeros and a spike at index 30 -/
example : 3 ≤ 30 ∧ 30 + 3 < (List.replicate 60 (0 : ℝ)).length ∧ 46 ≤ (List.replicate 60 (0 : ℝ)).length := by
  simp

end Proadv.Props
