import Verif.Props.Phase2
import Verif.Props.CorrelationCount

/-!
# C213 How many samples `phasespace_thresholding` can flag

A Chebyshev argument: a flagged sample contributes more than 1 to the sum of the squared elliptical distances, and that sum
is known in terms of the means and variances of the series and its two derivatives.
-/

set_option linter.unusedSectionVars false

namespace Proadv.Props

open Proadv Fl Detect Spread Finset

/-! ## Specifications -/

/-- mean square relative to the variance: `1 + mean²/variance` for a non-constant series -/
noncomputable def relPower (xs : List ℝ) : ℝ := Spec.avg (xs.map (fun x => x ^ 2)) / Spec.var xs

/-- `2 ln n` times the mean squared distance in the third plane, from the slope `m`, the variances `V0`, `V2` and the mean
squares `Q0`, `Q2` of the series and its second derivative -/
noncomputable def thirdMean (m V0 V2 Q0 Q2 : ℝ) : ℝ :=
  ((1 - m ^ 2) / (1 + m ^ 2)) ^ 2 * ((Q0 * (1 + 2 * m ^ 2) + m ^ 2 * Q2) / (V0 - m ^ 2 * V2) + (Q2 - m ^ 2 * Q0) / (V2 - m ^ 2 * V0))

theorem relPower_eq {xs : List ℝ} (h : xs ≠ []) (hv : 0 < Spec.var xs) : relPower xs = 1 + Spec.avg xs ^ 2 / Spec.var xs := by
  unfold relPower
  have := Spec.var_eq_sub h
  rw [div_eq_iff hv.ne', add_mul, div_mul_cancel₀ _ hv.ne', this]; ring

/-! ## Sums over a series -/

theorem range_sum_list (n : Nat) (f : Nat → ℝ) : ∑ i ∈ range n, f i = ((List.range n).map f).sum := by
  induction n with
  | zero => simp
  | succ n ih => rw [sum_range_succ, ih, List.range_succ, List.map_append, List.sum_append]; simp

theorem sum_sq_getD {xs : List ℝ} (h : xs ≠ []) :
    ∑ i ∈ range xs.length, xs.getD i 0 ^ 2 = xs.length * Spec.avg (xs.map (fun x => x ^ 2)) := by
  have hn : (xs.length : ℝ) ≠ 0 := by
    have := List.length_pos_iff.mpr h
    positivity
  have e : ∑ i ∈ range xs.length, xs.getD i 0 ^ 2 = (xs.map (fun x => x ^ 2)).sum := by
    conv_rhs => rw [list_range xs]
    rw [List.map_map, ← range_sum_list]
    rfl
  rw [e, Spec.avg, List.length_map, mul_div_cancel₀ _ hn]

theorem sum_mul_getD (xs ys : List ℝ) (h : xs.length = ys.length) :
    ∑ i ∈ range xs.length, xs.getD i 0 * ys.getD i 0 = (List.zipWith (fun x y => x * y) xs ys).sum := by
  conv_rhs => rw [list_range xs, list_range ys, ← h]
  rw [List.zipWith_map, List.zipWith_self, ← range_sum_list]

/-- a set of samples outside an ellipse is not larger than the sum of the squared distances -/
theorem outside_card (n : Nat) (X Y : Nat → ℝ) (θ : ℝ) {a b : ℝ} (ha : a ≠ 0) (hb : b ≠ 0) (S : Finset Nat) (hS : S ⊆ range n)
    (h : ∀ i ∈ S, ¬ EllipseDisc θ a b (X i) (Y i)) : (S.card : ℝ) ≤ ∑ i ∈ range n, rhoR θ a b (X i) (Y i) := by
  have nn : ∀ i, 0 ≤ rhoR θ a b (X i) (Y i) := fun i => by unfold rhoR; positivity
  refine le_trans ?_ (sum_le_sum_of_subset_of_nonneg hS (fun i _ _ => nn i))
  rw [← nsmul_one, ← sum_const]
  refine sum_le_sum (fun i hi => ?_)
  have := h i hi
  rw [← rhoR_le_one_iff _ _ _ ha hb] at this
  exact (not_le.mp this).le

/-- the sum of the squared distances in a plane with axes along the coordinates -/
theorem sum_plain (xs ys : List ℝ) (hx : xs ≠ []) (hlen : ys.length = xs.length) {l : ℝ} (hl : l ≠ 0) (hV : 0 < Spec.var xs)
    (hW : 0 < Spec.var ys) :
    ∑ i ∈ range xs.length, rhoR 0 (l * √(Spec.var xs)) (l * √(Spec.var ys)) (xs.getD i 0) (ys.getD i 0) =
      xs.length / l ^ 2 * (relPower xs + relPower ys) := by
  have hy : ys ≠ [] := by
    intro h; rw [h] at hlen; exact hx (List.length_eq_zero_iff.mp (by simpa using hlen.symm))
  have sx := Real.sq_sqrt hV.le
  have sy := Real.sq_sqrt hW.le
  have e : ∀ i ∈ range xs.length, rhoR 0 (l * √(Spec.var xs)) (l * √(Spec.var ys)) (xs.getD i 0) (ys.getD i 0) =
      1 / (l ^ 2 * Spec.var xs) * xs.getD i 0 ^ 2 + 1 / (l ^ 2 * Spec.var ys) * ys.getD i 0 ^ 2 := by
    intro i _
    unfold rhoR
    rw [Real.cos_zero, Real.sin_zero, div_pow, div_pow, mul_pow, mul_pow, sx, sy]
    ring
  rw [sum_congr rfl e, sum_add_distrib, ← mul_sum, ← mul_sum, sum_sq_getD hx]
  have := sum_sq_getD hy
  rw [hlen] at this
  rw [this]
  unfold relPower
  have := hV.ne'
  have := hW.ne'
  field_simp

/-- the sum of the squared distances in the third plane -/
theorem sum_third (xs zs : List ℝ) (hx : xs ≠ []) (hlen : zs.length = xs.length) {l : ℝ} (hl : l ≠ 0) (m : ℝ)
    (hm : m = slope xs zs) (hsum : (xs.map (fun x => x ^ 2)).sum ≠ 0)
    (ha : m ^ 2 * Spec.var zs < Spec.var xs) (hb : m ^ 2 * Spec.var xs < Spec.var zs) (hm1 : m ^ 2 < 1) :
    ∑ i ∈ range xs.length, rhoR (Real.arctan m) (phaseAxis (l * √(Spec.var xs)) (l * √(Spec.var zs)) (Real.arctan m))
        (phaseAxis (l * √(Spec.var zs)) (l * √(Spec.var xs)) (Real.arctan m)) (xs.getD i 0) (zs.getD i 0) =
      xs.length / l ^ 2 * thirdMean m (Spec.var xs) (Spec.var zs) (Spec.avg (xs.map (fun x => x ^ 2)))
        (Spec.avg (zs.map (fun x => x ^ 2))) := by
  have hz : zs ≠ [] := by
    intro h; rw [h] at hlen; exact hx (List.length_eq_zero_iff.mp (by simpa using hlen.symm))
  have hn : (xs.length : ℝ) ≠ 0 := by
    have := List.length_pos_iff.mpr hx
    positivity
  have sx := Real.sq_sqrt (Spec.var_nonneg xs)
  have sz := Real.sq_sqrt (Spec.var_nonneg zs)
  set V := Spec.var xs
  set W := Spec.var zs
  set θ := Real.arctan m with hθ
  set c := Real.cos θ with hc
  have hcpos : 0 < c := Real.cos_arctan_pos m
  have hsin : Real.sin θ = m * c := by
    have : Real.tan θ = m := Real.tan_arctan m
    rw [Real.tan_eq_sin_div_cos, div_eq_iff hcpos.ne'] at this
    exact this
  have hc2 : c ^ 2 = 1 / (1 + m ^ 2) := by
    have := Real.sin_sq_add_cos_sq θ
    rw [hsin, ← hc] at this
    rw [eq_div_iff (by positivity)]; linarith
  have ax : ∀ (V W : ℝ), √V ^ 2 = V → √W ^ 2 = W → m ^ 2 * W < V → phaseAxis (l * √V) (l * √W) θ ^ 2 =
      l ^ 2 * (V - m ^ 2 * W) / (c ^ 2 * (1 - m ^ 2) ^ 2) := by
    intro V W sV sW h
    have hnum : numA (l * √V) (l * √W) θ = l ^ 2 * (V - m ^ 2 * W) * c ^ 2 := by
      unfold numA
      rw [← hc, hsin]
      linear_combination (l ^ 2 * c ^ 2) * sV - (l ^ 2 * m ^ 2 * c ^ 2) * sW
    unfold phaseAxis
    rw [div_pow, Real.sq_sqrt (by rw [hnum]; have : 0 < V - m ^ 2 * W := by linarith
                                  positivity), hnum, ← hc, hsin]
    have h1 : 1 - m ^ 2 ≠ 0 := by linarith
    rw [div_eq_div_iff (by rw [show c ^ 2 - (m * c) ^ 2 = c ^ 2 * (1 - m ^ 2) by ring]; positivity) (by positivity)]
    ring
  have axx := ax V W sx sz ha
  have axz := ax W V sz sx hb
  have hA : 0 < V - m ^ 2 * W := by linarith
  have hB : 0 < W - m ^ 2 * V := by linarith
  have h1 : 1 - m ^ 2 ≠ 0 := by linarith
  have e : ∀ i ∈ range xs.length, rhoR θ (phaseAxis (l * √V) (l * √W) θ) (phaseAxis (l * √W) (l * √V) θ) (xs.getD i 0) (zs.getD i 0) =
      ((1 - m ^ 2) / (1 + m ^ 2)) ^ 2 / l ^ 2 * ((1 / (V - m ^ 2 * W) + m ^ 2 / (W - m ^ 2 * V)) * xs.getD i 0 ^ 2 +
        (2 * m / (V - m ^ 2 * W) - 2 * m / (W - m ^ 2 * V)) * (xs.getD i 0 * zs.getD i 0) +
        (m ^ 2 / (V - m ^ 2 * W) + 1 / (W - m ^ 2 * V)) * zs.getD i 0 ^ 2) := by
    intro i _
    unfold rhoR
    rw [div_pow, div_pow, axx, axz, ← hc, hsin]
    rw [show ((1 - m ^ 2) / (1 + m ^ 2)) ^ 2 = (c ^ 2 * (1 - m ^ 2)) ^ 2 by rw [hc2]; ring]
    generalize xs.getD i 0 = x
    generalize zs.getD i 0 = z
    field_simp
    ring
  rw [sum_congr rfl e, ← mul_sum, sum_add_distrib, sum_add_distrib, ← mul_sum, ← mul_sum, ← mul_sum, sum_sq_getD hx,
    sum_mul_getD xs zs hlen.symm]
  have hz2 := sum_sq_getD hz
  rw [hlen] at hz2
  rw [hz2]
  have hs : (List.zipWith (fun x y => x * y) xs zs).sum = m * (xs.length * Spec.avg (xs.map (fun x => x ^ 2))) := by
    have h3 : (xs.length : ℝ) * Spec.avg (xs.map (fun x => x ^ 2)) = (xs.map (fun x => x ^ 2)).sum := by
      unfold Spec.avg; rw [List.length_map, mul_div_cancel₀ _ hn]
    rw [h3, hm, slope, div_mul_cancel₀ _ hsum]
  rw [hs]
  unfold thirdMean
  have := hA.ne'
  have := hB.ne'
  field_simp
  ring

/-! ## The bound -/

private theorem third_facts {m V W : ℝ} (hW0 : 0 ≤ W) (hV0 : 0 ≤ V) (ha : m ^ 2 * W < V) (hb : m ^ 2 * V < W) : 0 < V ∧ 0 < W ∧ m ^ 2 < 1 := by
  have h1 : 0 < V := lt_of_le_of_lt (by positivity) ha
  have h2 : 0 < W := lt_of_le_of_lt (by positivity) hb
  refine ⟨h1, h2, ?_⟩
  by_contra hc
  push Not at hc
  nlinarith

private theorem sumsq_ne {xs : List ℝ} (hne : xs ≠ []) (hV : 0 < Spec.var xs) : (xs.map (fun x => x ^ 2)).sum ≠ 0 := by
  intro hz
  have e1 : Spec.avg (xs.map (fun x => x ^ 2)) = 0 := by unfold Spec.avg; rw [hz, zero_div]
  have := Spec.var_eq_sub hne
  rw [e1] at this
  nlinarith [sq_nonneg (Spec.avg xs)]

private theorem len_lambda {n : Nat} (h2 : 2 ≤ n) : √(2 * Real.log n) ≠ 0 ∧ √(2 * Real.log n) ^ 2 = 2 * Real.log n ∧ 0 < 2 * Real.log n := by
  have : (1 : ℝ) < n := by exact_mod_cast (by omega : 1 < n)
  have := Real.log_pos this
  have h : 0 < 2 * Real.log n := by linarith
  exact ⟨(Real.sqrt_pos.mpr h).ne', Real.sq_sqrt h.le, h⟩

private theorem get_getD {xs : List ℝ} {i : Nat} {x : ℝ} (h : xs[i]? = some x) : xs.getD i 0 = x := by
  rw [List.getD_eq_getElem?_getD, h]; rfl

private theorem get_lt {xs : List ℝ} {i : Nat} {x : ℝ} (h : xs[i]? = some x) : i < xs.length := by
  by_contra hc
  rw [List.getElem?_eq_none (by omega)] at h; cases h

/-- **C213** the number of flagged samples, for a series whose three ellipses are real: at most `n / (2 ln n)` times the sum
of the (relative) mean squared distances in the three planes. -/
theorem C213_count (b : Bool) (xs : List ℝ) (h2 : 2 ≤ xs.length) (m : ℝ) (hm : m = slope xs (cdiff b (cdiff b xs)))
    (hV1 : 0 < Spec.var (cdiff b xs)) (ha : m ^ 2 * Spec.var (cdiff b (cdiff b xs)) < Spec.var xs)
    (hb : m ^ 2 * Spec.var xs < Spec.var (cdiff b (cdiff b xs))) :
    ∃ r, phasespaceThresholding ⟨1, b, fins xs⟩ = .ok r ∧
      r.length * (2 * Real.log xs.length) ≤ xs.length * ((relPower xs + relPower (cdiff b xs)) +
        (relPower (cdiff b xs) + relPower (cdiff b (cdiff b xs))) +
        thirdMean m (Spec.var xs) (Spec.var (cdiff b (cdiff b xs))) (Spec.avg (xs.map (fun x => x ^ 2)))
          (Spec.avg ((cdiff b (cdiff b xs)).map (fun x => x ^ 2)))) := by
  classical
  have hne : xs ≠ [] := by rintro rfl; simp at h2
  set ys := cdiff b xs with hys
  set zs := cdiff b ys with hzs
  have ly : ys.length = xs.length := cdiff_length b xs
  have lz : zs.length = xs.length := (cdiff_length b ys).trans ly
  have hyne : ys ≠ [] := by intro h; rw [h] at ly; simp at ly; omega
  obtain ⟨hV0, hV2, hm1⟩ := third_facts (Spec.var_nonneg zs) (Spec.var_nonneg xs) ha hb
  obtain ⟨hl0, hl2, hlp⟩ := len_lambda h2
  set l := √(2 * Real.log xs.length) with hl
  have hsum := sumsq_ne hne hV0
  set θ := Real.arctan m with hθ
  have hcpos : 0 < Real.cos θ := Real.cos_arctan_pos m
  have hsin : Real.sin θ = m * Real.cos θ := by
    have : Real.tan θ = m := Real.tan_arctan m
    rw [Real.tan_eq_sin_div_cos, div_eq_iff hcpos.ne'] at this
    exact this
  have hnum : ∀ V W : ℝ, 0 ≤ V → 0 ≤ W → m ^ 2 * W < V → 0 < numA (l * √V) (l * √W) θ := by
    intro V W h1 h2 h
    have sV := Real.sq_sqrt h1
    have sW := Real.sq_sqrt h2
    have : numA (l * √V) (l * √W) θ = l ^ 2 * (V - m ^ 2 * W) * Real.cos θ ^ 2 := by
      unfold numA
      rw [hsin]
      linear_combination (l ^ 2 * Real.cos θ ^ 2) * sV - (l ^ 2 * m ^ 2 * Real.cos θ ^ 2) * sW
    rw [this]
    have : 0 < V - m ^ 2 * W := by linarith
    positivity
  have hf : Real.cos θ ^ 2 - Real.sin θ ^ 2 ≠ 0 := by
    rw [hsin, show Real.cos θ ^ 2 - (m * Real.cos θ) ^ 2 = Real.cos θ ^ 2 * (1 - m ^ 2) by ring]
    have : 1 - m ^ 2 ≠ 0 := by linarith
    positivity
  have na := hnum _ _ hV0.le hV2.le ha
  have nb := hnum _ _ hV2.le hV0.le hb
  have s0 := (Real.sqrt_pos.mpr hV0).ne'
  have s1 := (Real.sqrt_pos.mpr hV1).ne'
  have s2 := (Real.sqrt_pos.mpr hV2).ne'
  obtain ⟨r, hr, hmem⟩ := C64_ellipses b xs hne l (√(Spec.var xs)) (√(Spec.var ys)) (√(Spec.var zs)) θ hl rfl rfl rfl
    (by rw [hθ, hm]) hl0 s0 s1 s2 na nb hf
  refine ⟨r, hr, ?_⟩
  have hnd : r.Nodup := (C64_char b _ r hr).1.imp (fun h => Nat.ne_of_lt h)
  have ea : phaseAxis (l * √(Spec.var xs)) (l * √(Spec.var zs)) θ ≠ 0 := div_ne_zero (Real.sqrt_pos.mpr na).ne' hf
  have eb : phaseAxis (l * √(Spec.var zs)) (l * √(Spec.var xs)) θ ≠ 0 := div_ne_zero (Real.sqrt_pos.mpr nb).ne' hf
  set S1 := (range xs.length).filter (fun i => ¬ EllipseDisc 0 (l * √(Spec.var xs)) (l * √(Spec.var ys)) (xs.getD i 0) (ys.getD i 0)) with hS1
  set S2 := (range xs.length).filter (fun i => ¬ EllipseDisc 0 (l * √(Spec.var ys)) (l * √(Spec.var zs)) (ys.getD i 0) (zs.getD i 0)) with hS2
  set S3 := (range xs.length).filter (fun i => ¬ EllipseDisc θ (phaseAxis (l * √(Spec.var xs)) (l * √(Spec.var zs)) θ)
    (phaseAxis (l * √(Spec.var zs)) (l * √(Spec.var xs)) θ) (xs.getD i 0) (zs.getD i 0)) with hS3
  have c1 := outside_card xs.length (fun i => xs.getD i 0) (fun i => ys.getD i 0) 0 (mul_ne_zero hl0 s0) (mul_ne_zero hl0 s1) S1
    (filter_subset _ _) (fun i hi => (mem_filter.mp hi).2)
  have c2 := outside_card xs.length (fun i => ys.getD i 0) (fun i => zs.getD i 0) 0 (mul_ne_zero hl0 s1) (mul_ne_zero hl0 s2) S2
    (filter_subset _ _) (fun i hi => (mem_filter.mp hi).2)
  have c3 := outside_card xs.length (fun i => xs.getD i 0) (fun i => zs.getD i 0) θ ea eb S3
    (filter_subset _ _) (fun i hi => (mem_filter.mp hi).2)
  rw [sum_plain xs ys hne ly hl0 hV0 hV1] at c1
  have t2 := sum_plain ys zs hyne (lz.trans ly.symm) hl0 hV1 hV2
  rw [ly] at t2
  rw [t2] at c2
  rw [hθ, sum_third xs zs hne lz hl0 m hm hsum ha hb hm1] at c3
  have hcard : r.length ≤ S1.card + S2.card + S3.card := by
    rw [← List.toFinset_card_of_nodup hnd]
    refine le_trans (card_le_card (t := S1 ∪ S2 ∪ S3) (fun i hi => ?_))
      (le_trans (card_union_le _ _) (Nat.add_le_add_right (card_union_le _ _) _))
    obtain ⟨x, y, z, hx, hy, hz, hor⟩ := (hmem i).mp (List.mem_toFinset.mp hi)
    rw [← hys] at hy hz
    rw [← hzs] at hz
    simp only [hS1, hS2, hS3, mem_union, mem_filter, mem_range, get_getD hx, get_getD hy, get_getD hz]
    have := get_lt hx
    tauto
  have hc' : (r.length : ℝ) ≤ S1.card + S2.card + S3.card := by exact_mod_cast hcard
  have hfin := hc'.trans (add_le_add (add_le_add c1 c2) c3)
  rw [hl2] at hfin
  have := mul_le_mul_of_nonneg_right hfin hlp.le
  refine this.trans (le_of_eq ?_)
  have hlog : Real.log xs.length ≠ 0 := by intro h; rw [h] at hlp; simp at hlp
  field_simp

/-- **C213** when the third ellipse is not real it flags nothing, and the bound has the two other planes only. -/
theorem C213_count_unreal (b : Bool) (xs : List ℝ) (h2 : 2 ≤ xs.length) (m : ℝ) (hm : m = slope xs (cdiff b (cdiff b xs)))
    (hV0 : 0 < Spec.var xs) (hV1 : 0 < Spec.var (cdiff b xs)) (hV2 : 0 < Spec.var (cdiff b (cdiff b xs)))
    (h : Spec.var xs < m ^ 2 * Spec.var (cdiff b (cdiff b xs)) ∨ Spec.var (cdiff b (cdiff b xs)) < m ^ 2 * Spec.var xs) :
    ∃ r, phasespaceThresholding ⟨1, b, fins xs⟩ = .ok r ∧
      r.length * (2 * Real.log xs.length) ≤ xs.length * ((relPower xs + relPower (cdiff b xs)) +
        (relPower (cdiff b xs) + relPower (cdiff b (cdiff b xs)))) := by
  classical
  have hne : xs ≠ [] := by rintro rfl; simp at h2
  have hne' : fins xs ≠ [] := by simpa using hne
  set ys := cdiff b xs with hys
  set zs := cdiff b ys with hzs
  have ly : ys.length = xs.length := cdiff_length b xs
  have lz : zs.length = xs.length := (cdiff_length b ys).trans ly
  have hyne : ys ≠ [] := by intro h; rw [h] at ly; simp at ly; omega
  have hzne : zs ≠ [] := by intro h; rw [h] at lz; simp at lz; omega
  obtain ⟨hl0, hl2, hlp⟩ := len_lambda h2
  set l := √(2 * Real.log xs.length) with hl
  have hsum := sumsq_ne hne hV0
  set θ := Real.arctan m with hθ
  have hcpos : 0 < Real.cos θ := Real.cos_arctan_pos m
  have hsin : Real.sin θ = m * Real.cos θ := by
    have : Real.tan θ = m := Real.tan_arctan m
    rw [Real.tan_eq_sin_div_cos, div_eq_iff hcpos.ne'] at this
    exact this
  have hnum : ∀ V W : ℝ, 0 ≤ V → 0 ≤ W → V < m ^ 2 * W → (l * √V) ^ 2 * Real.cos θ ^ 2 - (l * √W) ^ 2 * Real.sin θ ^ 2 < 0 := by
    intro V W h1 h2 h
    have sV := Real.sq_sqrt h1
    have sW := Real.sq_sqrt h2
    have : (l * √V) ^ 2 * Real.cos θ ^ 2 - (l * √W) ^ 2 * Real.sin θ ^ 2 = -(l ^ 2 * (m ^ 2 * W - V) * Real.cos θ ^ 2) := by
      rw [hsin]
      linear_combination (l ^ 2 * Real.cos θ ^ 2) * sV - (l ^ 2 * m ^ 2 * Real.cos θ ^ 2) * sW
    rw [this]
    have : 0 < m ^ 2 * W - V := by linarith
    have : 0 < l ^ 2 * (m ^ 2 * W - V) * Real.cos θ ^ 2 := by positivity
    linarith
  have s0 := (Real.sqrt_pos.mpr hV0).ne'
  have s1 := (Real.sqrt_pos.mpr hV1).ne'
  have s2 := (Real.sqrt_pos.mpr hV2).ne'
  have hp : phaseP b (fins xs) = phaseCoefs (fin √(Spec.var xs)) (fin √(Spec.var ys)) (fin √(Spec.var zs)) (fin l) (fin θ) := by
    unfold phaseP
    rw [show centralDiff b (fins xs) = fins ys from centralDiff_fins b xs,
      show centralDiff b (fins ys) = fins zs from centralDiff_fins b _,
      npStd_fins xs hne, npStd_fins _ hyne, npStd_fins _ hzne, phaseAngle_fins _ _ hsum, List.length_map,
      lambdaOf_fin (by omega), ← hl, ← hm]
  have hnan : (phaseP b (fins xs)).a3 = nan ∨ (phaseP b (fins xs)).b3 = nan := by
    rw [hp]
    unfold phaseCoefs
    simp only [pcos_fin, psin_fin, pnpow_fin, pmul_fin, psub_fin]
    rcases h with h | h
    · left
      rw [psqrt_neg (hnum _ _ hV0.le hV2.le h), nan_div]
    · right
      rw [psqrt_neg (hnum _ _ hV2.le hV0.le h), nan_div]
  have hthird : ∀ t x z : Fl ℝ, ((lit 1 : Fl ℝ) <. rhoAt t (phaseP b (fins xs)).a3 (phaseP b (fins xs)).b3 x z) = false := by
    intro t x z
    unfold rhoAt
    have hp2 : (nan : Fl ℝ) ^. 2 = nan := rfl
    rcases hnan with h | h <;> rw [h] <;> simp [hp2]
  obtain ⟨r, hr⟩ := (C64_errors (⟨1, b, fins xs⟩ : Arr (Fl ℝ))).1.mpr ⟨rfl, hne'⟩
  refine ⟨r, hr, ?_⟩
  obtain ⟨hsorted, hmem⟩ := C64_char b _ r hr
  have hnd : r.Nodup := hsorted.imp (fun h => Nat.ne_of_lt h)
  have key : ∀ (a b x y : ℝ), a ≠ 0 → b ≠ 0 →
      (((lit 1 : Fl ℝ) <. rhoAt (lit 0) (fin a) (fin b) (fin x) (fin y)) = true ↔ ¬ EllipseDisc 0 a b x y) := by
    intro a b x y ha hb
    obtain ⟨ρ, h1, _, h2, _⟩ := C70_rho 0 a b x y ha hb
    rw [show (lit 0 : Fl ℝ) = fin 0 by simp, h1]; exact h2
  set S1 := (range xs.length).filter (fun i => ¬ EllipseDisc 0 (l * √(Spec.var xs)) (l * √(Spec.var ys)) (xs.getD i 0) (ys.getD i 0)) with hS1
  set S2 := (range xs.length).filter (fun i => ¬ EllipseDisc 0 (l * √(Spec.var ys)) (l * √(Spec.var zs)) (ys.getD i 0) (zs.getD i 0)) with hS2
  have c1 := outside_card xs.length (fun i => xs.getD i 0) (fun i => ys.getD i 0) 0 (mul_ne_zero hl0 s0) (mul_ne_zero hl0 s1) S1
    (filter_subset _ _) (fun i hi => (mem_filter.mp hi).2)
  have c2 := outside_card xs.length (fun i => ys.getD i 0) (fun i => zs.getD i 0) 0 (mul_ne_zero hl0 s1) (mul_ne_zero hl0 s2) S2
    (filter_subset _ _) (fun i hi => (mem_filter.mp hi).2)
  rw [sum_plain xs ys hne ly hl0 hV0 hV1] at c1
  have t2 := sum_plain ys zs hyne (lz.trans ly.symm) hl0 hV1 hV2
  rw [ly] at t2
  rw [t2] at c2
  have hcard : r.length ≤ S1.card + S2.card := by
    rw [← List.toFinset_card_of_nodup hnd]
    refine le_trans (card_le_card (t := S1 ∪ S2) (fun i hi => ?_)) (card_union_le _ _)
    obtain ⟨x, y, z, hx, hy, hz, hor⟩ := (hmem i).mp (List.mem_toFinset.mp hi)
    rw [show centralDiff b (fins xs) = fins ys from centralDiff_fins b xs] at hy hz
    rw [show centralDiff b (fins ys) = fins zs from centralDiff_fins b _] at hz
    obtain ⟨x, hx', rfl⟩ := (fins_get _ _ _).mp hx
    obtain ⟨y, hy', rfl⟩ := (fins_get _ _ _).mp hy
    obtain ⟨z, hz', rfl⟩ := (fins_get _ _ _).mp hz
    rw [hthird, hp] at hor
    simp only [phaseCoefs, pmul_fin] at hor
    rw [key _ _ _ _ (mul_ne_zero hl0 s0) (mul_ne_zero hl0 s1), key _ _ _ _ (mul_ne_zero hl0 s1) (mul_ne_zero hl0 s2)] at hor
    simp only [hS1, hS2, mem_union, mem_filter, mem_range, get_getD hx', get_getD hy', get_getD hz']
    have := get_lt hx'
    simp only [Bool.false_eq_true, or_false] at hor
    tauto
  have hc' : (r.length : ℝ) ≤ S1.card + S2.card := by exact_mod_cast hcard
  have hfin := hc'.trans (add_le_add c1 c2)
  rw [hl2] at hfin
  have := mul_le_mul_of_nonneg_right hfin hlp.le
  refine this.trans (le_of_eq ?_)
  have hlog : Real.log xs.length ≠ 0 := by intro h; rw [h] at hlp; simp at hlp
  field_simp

/-- **C213** a series without mean, orthogonal to its second derivative: at most `3 n / ln n` samples are flagged when the
derivatives have mean 0 as well. -/
theorem C213_centred (b : Bool) (xs : List ℝ) (h2 : 2 ≤ xs.length) (hm : slope xs (cdiff b (cdiff b xs)) = 0)
    (hV0 : 0 < Spec.var xs) (hV1 : 0 < Spec.var (cdiff b xs)) (hV2 : 0 < Spec.var (cdiff b (cdiff b xs)))
    (h0 : Spec.avg xs = 0) (h1 : Spec.avg (cdiff b xs) = 0) (h3 : Spec.avg (cdiff b (cdiff b xs)) = 0) :
    ∃ r, phasespaceThresholding ⟨1, b, fins xs⟩ = .ok r ∧ r.length * Real.log xs.length ≤ 3 * xs.length := by
  have hne : xs ≠ [] := by rintro rfl; simp at h2
  have ly : (cdiff b xs).length = xs.length := cdiff_length b xs
  have lz : (cdiff b (cdiff b xs)).length = xs.length := (cdiff_length b _).trans ly
  have hyne : cdiff b xs ≠ [] := by intro h; rw [h] at ly; simp at ly; omega
  have hzne : cdiff b (cdiff b xs) ≠ [] := by intro h; rw [h] at lz; simp at lz; omega
  obtain ⟨r, hr, hc⟩ := C213_count b xs h2 0 hm.symm hV1 (by simpa using hV0) (by simpa using hV2)
  refine ⟨r, hr, ?_⟩
  rw [relPower_eq hne hV0, relPower_eq hyne hV1, relPower_eq hzne hV2, h0, h1, h3] at hc
  have q0 : Spec.avg (xs.map (fun x => x ^ 2)) = Spec.var xs := by rw [Spec.var_eq_sub hne, h0]; ring
  have q2 : Spec.avg ((cdiff b (cdiff b xs)).map (fun x => x ^ 2)) = Spec.var (cdiff b (cdiff b xs)) := by
    rw [Spec.var_eq_sub hzne, h3]; ring
  rw [q0, q2] at hc
  have : thirdMean 0 (Spec.var xs) (Spec.var (cdiff b (cdiff b xs))) (Spec.var xs) (Spec.var (cdiff b (cdiff b xs))) = 2 := by
    unfold thirdMean
    norm_num
    rw [div_self hV0.ne', div_self hV2.ne']; norm_num
  rw [this] at hc
  norm_num at hc
  linarith

/-! ## The hypotheses are met -/

private theorem around_int (z : ℤ) : aroundK (z : ℝ) 4 = z := by
  have : (z : ℝ) * 10 ^ (4 : ℤ) = ((z * 10000 : ℤ) : ℝ) := by push_cast; norm_num
  unfold aroundK
  rw [this, rint_int]
  push_cast
  norm_num

private theorem cdiff_six (a b c d e f : ℤ) : cdiff false [2 * (a : ℝ), 2 * b, 2 * c, 2 * d, 2 * e, 2 * f] =
    [0, (c : ℝ) - a, (d : ℝ) - b, (e : ℝ) - c, (f : ℝ) - d, 0] := by
  have h (u v : ℤ) : aroundK ((2 * (u : ℝ) - 2 * v) / 2) 4 = u - v := by
    rw [show (2 * (u : ℝ) - 2 * v) / 2 = ((u - v : ℤ) : ℝ) by push_cast; ring, around_int]; push_cast; ring
  simp [cdiff, List.range_succ, storeK, h]

/-- a series with a real third ellipse, in fact one to which `C213_centred` applies -/
example : ∃ xs : List ℝ, 2 ≤ xs.length ∧ slope xs (cdiff false (cdiff false xs)) = 0 ∧ 0 < Spec.var xs ∧
    0 < Spec.var (cdiff false xs) ∧ 0 < Spec.var (cdiff false (cdiff false xs)) ∧ Spec.avg xs = 0 ∧
    Spec.avg (cdiff false xs) = 0 ∧ Spec.avg (cdiff false (cdiff false xs)) = 0 := by
  have h1 := cdiff_six (-4) 4 (-2) 2 (-4) 4
  have h2 := cdiff_six 0 1 (-1) (-1) 1 0
  norm_num at h1 h2
  refine ⟨[-8, 8, -4, 4, -8, 8], by simp, ?_⟩
  rw [h1, h2]
  norm_num [slope, Spec.var, Spec.cmoment, Spec.avg]

/-- one with a slope that is not 0 -/
example : ∃ xs : List ℝ, ∃ m, m = slope xs (cdiff false (cdiff false xs)) ∧ m ≠ 0 ∧ 0 < Spec.var (cdiff false xs) ∧
    m ^ 2 * Spec.var (cdiff false (cdiff false xs)) < Spec.var xs ∧
    m ^ 2 * Spec.var xs < Spec.var (cdiff false (cdiff false xs)) := by
  have h1 := cdiff_six (-4) (-4) (-4) (-4) (-4) (-2)
  have h2 := cdiff_six 0 0 0 0 1 0
  norm_num at h1 h2
  refine ⟨[-8, -8, -8, -8, -8, -4], _, rfl, ?_⟩
  rw [h1, h2]
  norm_num [slope, Spec.var, Spec.cmoment, Spec.avg]

/-- one whose third ellipse is not real -/
example : ∃ xs : List ℝ, ∃ m, m = slope xs (cdiff false (cdiff false xs)) ∧ 0 < Spec.var (cdiff false xs) ∧
    0 < Spec.var (cdiff false (cdiff false xs)) ∧ Spec.var (cdiff false (cdiff false xs)) < m ^ 2 * Spec.var xs := by
  have h1 := cdiff_six (-4) 4 0 2 2 (-2)
  have h2 := cdiff_six 0 2 (-1) 1 (-2) 0
  norm_num at h1 h2
  refine ⟨[-8, 8, 0, 4, 4, -4], _, rfl, ?_⟩
  rw [h1, h2]
  norm_num [slope, Spec.var, Spec.cmoment, Spec.avg]

end Proadv.Props
