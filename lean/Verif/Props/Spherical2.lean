import Verif.Props.Spherical

/-!
# Properties C120–C122: rotation, decision rule and rounding of `filtration/detection/spherical.py`
-/

set_option linter.unusedSectionVars false

namespace Proadv.Props

open Proadv Fl Spherical

/-! ## Rounding to four decimals -/

theorem around4_int (z : ℤ) : aroundK (z : ℝ) 4 = z := by
  unfold aroundK
  rw [show ((z : ℝ) * (10 : ℝ) ^ (4 : ℤ)) = ((z * 10 ^ 4 : ℤ) : ℝ) by push_cast; norm_num, rint_int]
  push_cast
  have h : ((10 : ℝ) ^ (4 : ℤ)) = 10 ^ 4 := by norm_num
  rw [h]
  norm_num

/-- rounding to 4 decimals moves a number by at most 5·10⁻⁵ -/
theorem around4_near (x : ℝ) : |aroundK x 4 - x| ≤ 1 / 20000 := by
  have h := abs_rint_sub (x * (10 : ℝ) ^ (4 : ℤ))
  have e : ((10 : ℝ) ^ (4 : ℤ)) = 10000 := by norm_num
  unfold aroundK
  rw [e] at h ⊢
  have : (rint (x * 10000) : ℝ) / 10000 - x = ((rint (x * 10000) : ℝ) - x * 10000) / 10000 := by ring
  rw [this, abs_div, abs_of_pos (by norm_num : (0 : ℝ) < 10000), div_le_iff₀ (by norm_num)]
  linarith

/-- a number closer than 5·10⁻⁵ to a 4-decimal number is rounded to it -/
theorem around4_eq (x : ℝ) (k : ℤ) (h : |x - k / 10000| < 1 / 20000) : aroundK x 4 = k / 10000 := by
  have e : ((10 : ℝ) ^ (4 : ℤ)) = 10000 := by norm_num
  have hr := abs_rint_sub (x * (10 : ℝ) ^ (4 : ℤ))
  unfold aroundK
  rw [e] at hr ⊢
  have : rint (x * 10000) = k := by
    rw [abs_lt] at h
    rw [abs_le] at hr
    have h1 : (rint (x * 10000) : ℝ) < k + 1 := by linarith
    have h2 : (k : ℝ) - 1 < rint (x * 10000) := by linarith
    have h1' : rint (x * 10000) < k + 1 := by exact_mod_cast h1
    have h2' : k - 1 < rint (x * 10000) := by exact_mod_cast h2
    omega
  rw [this]

/-! ## C120: the rotation -/

/-- Specification: a rotated point, every number rounded to 4 decimals. -/
noncomputable def rotSph (t : ℝ) (p : ℝ × ℝ × ℝ) : ℝ × ℝ × ℝ :=
  if t = 0 then p
  else (aroundK (p.1 * aroundK (Real.cos t) 4 + p.2.2 * aroundK (Real.sin t) 4) 4, aroundK p.2.1 4,
    aroundK (p.2.2 * aroundK (Real.cos t) 4 - p.1 * aroundK (Real.sin t) 4) 4)

/-- a real point as a point of float values -/
def finP (p : ℝ × ℝ × ℝ) : Fl ℝ × Fl ℝ × Fl ℝ := (fin p.1, fin p.2.1, fin p.2.2)

/-- **C120** `_rotation` on a finite point at every finite angle. -/
theorem C120_rotation (t : ℝ) (p : ℝ × ℝ × ℝ) : rotate (fin t) (finP p) = finP (rotSph t p) := by
  unfold rotate rotSph finP
  by_cases ht : t = 0
  · rw [if_pos (by simp [ht]), if_pos ht]
  · rw [if_neg (by simpa using ht), if_neg ht]
    have h0 : aroundK (0 : ℝ) 4 = 0 := aroundK_zero 4
    have h1 : aroundK (1 : ℝ) 4 = 1 := by simpa using around4_int 1
    simp only [pcos_fin, psin_fin, pneg_fin, lit_eq, Rat.cast_zero, Rat.cast_one, paround_fin, pmul_fin, padd_fin, h0, h1,
      aroundK_neg]
    refine Prod.ext_iff.mpr ⟨?_, Prod.ext_iff.mpr ⟨?_, ?_⟩⟩
    · simp
    · simp
    · simp only [mul_zero, add_zero]
      congr 2; ring

/-- **C120** the rotated point is the exact rotation by `t` in the plane of the data and its second derivative, up to
`5·10⁻⁵·(|c| + |dc2| + 1)` in those coordinates and `5·10⁻⁵` in the first derivative. -/
theorem C120_near (t x y z : ℝ) :
    |(rotSph t (x, y, z)).1 - (x * Real.cos t + z * Real.sin t)| ≤ (|x| + |z| + 1) / 20000 ∧
    |(rotSph t (x, y, z)).2.1 - y| ≤ 1 / 20000 ∧
    |(rotSph t (x, y, z)).2.2 - (z * Real.cos t - x * Real.sin t)| ≤ (|x| + |z| + 1) / 20000 := by
  unfold rotSph
  by_cases ht : t = 0
  · rw [if_pos ht, ht]
    simp
    positivity
  · rw [if_neg ht]
    have hc := around4_near (Real.cos t)
    have hs := around4_near (Real.sin t)
    have hmul : ∀ u e : ℝ, |e| ≤ 1 / 20000 → |u * e| ≤ |u| / 20000 := by
      intro u e he
      rw [abs_mul]
      have := mul_le_mul_of_nonneg_left he (abs_nonneg u)
      linarith
    refine ⟨?_, around4_near y, ?_⟩
    · have h := around4_near (x * aroundK (Real.cos t) 4 + z * aroundK (Real.sin t) 4)
      have h1 := hmul x _ hc
      have h2 := hmul z _ hs
      simp only
      rw [abs_le] at *
      constructor <;> nlinarith
    · have h := around4_near (z * aroundK (Real.cos t) 4 - x * aroundK (Real.sin t) 4)
      have h1 := hmul z _ hc
      have h2 := hmul x _ hs
      simp only
      rw [abs_le] at *
      constructor <;> nlinarith

/-- **C120** the centred data and the mean that is passed on: on the first iteration the rounded mean of the data, later
the rounded sum with the previous mean. -/
theorem C120_mean (xs : List ℝ) (it : Int) (m : ℝ) (h : xs ≠ []) :
    descript (fins xs) it (fin m) = ((fins (centR xs) : List (Fl ℝ)),
      fin (aroundK (if it = 1 then Spec.avg xs else m + Spec.avg xs) 4)) := by
  have hm : npNanmean (fins xs) = (fin (Spec.avg xs) : Fl ℝ) := by
    unfold npNanmean
    rw [List.filter_eq_self.mpr]
    · exact npMean_fins xs h
    · intro x hx
      obtain ⟨y, _, rfl⟩ := List.mem_map.mp hx
      rfl
  unfold descript
  refine Prod.ext_iff.mpr ⟨sphF_fins xs h, ?_⟩
  simp only
  rw [hm]
  split_ifs <;> rfl

/-- half a turn negates the data and its second derivative -/
example : rotSph Real.pi (3, 1, 2) = (-3, 1, -2) ∧ ([1, 5] : List ℝ) ≠ [] := by
  have hi : ∀ z : ℤ, aroundK (z : ℝ) 4 = z := around4_int
  have h1 := hi 1
  have h2 := hi (-1)
  have h3 := hi (-3)
  have h4 := hi (-2)
  push_cast at h1 h2 h3 h4
  unfold rotSph
  refine ⟨?_, by simp⟩
  rw [if_neg Real.pi_ne_zero, Real.cos_pi, Real.sin_pi, aroundK_zero, h2]
  norm_num [h1, h3, h4]

/-! ## C121: the decision rule, end to end -/

/-- rotation angle of a centred series -/
noncomputable def thetaR (f : List ℝ) : ℝ :=
  aroundK (Complex.arg ⟨((gradR (gradR f)).map (fun v => v ^ 2)).sum, Spec.dot f (gradR f)⟩) 4

/-- rotated points of a centred series -/
noncomputable def ptsR (f : List ℝ) : List (ℝ × ℝ × ℝ) :=
  (f.zip ((gradR f).zip (gradR (gradR f)))).map (rotSph (thetaR f))

/-- half-axis: rounded product of the rounded universal threshold and the standard deviation -/
noncomputable def axisR (xs : List ℝ) : ℝ := aroundK (aroundK (√(2 * Real.log xs.length)) 4 * √(Spec.var xs)) 4

/-- length of the direction in ellipsoid coordinates times `a·b·c` -/
noncomputable def denR (a b c : ℝ) (p : ℝ × ℝ × ℝ) : ℝ :=
  √((a * c * p.2.1) ^ 2 + b ^ 2 * (c ^ 2 * p.1 ^ 2 + a ^ 2 * p.2.2 ^ 2))

/-- squared third coordinate of the surface point computed from its rounded first two coordinates -/
noncomputable def ztR (a b c x2 y2 : ℝ) : ℝ := aroundK (c ^ 2 * (1 - (x2 / a) ^ 2 - (y2 / b) ^ 2)) 4

/-- Specification: the decision for a rotated point.  A point with a non-zero third coordinate needs a defined surface
point: non-zero half-axes and a non-negative square. -/
def FlaggedR (a b c : ℝ) (p : ℝ × ℝ × ℝ) : Prop :=
  denR a b c p ≠ 0 ∧
  let x2 := aroundK (a * b * c * p.1 / denR a b c p) 4
  let y2 := aroundK (a * b * c * p.2.1 / denR a b c p) 4
  if p.2.2 = 0 then x2 ^ 2 + y2 ^ 2 < p.1 ^ 2 + p.2.1 ^ 2
  else a ≠ 0 ∧ b ≠ 0 ∧ 0 ≤ ztR a b c x2 y2 ∧
    x2 ^ 2 + y2 ^ 2 + aroundK (√(ztR a b c x2 y2)) 4 ^ 2 < p.1 ^ 2 + p.2.1 ^ 2 + p.2.2 ^ 2

private theorem zero_div_zero : (fin 0 : Fl ℝ) /. fin 0 = nan := by simp [pdiv_fin', infSgn]

private theorem psqrt_neg {a : ℝ} (h : a < 0) : PyMath.sqrt (fin a : Fl ℝ) = nan := by
  show (if a < 0 then nan else _) = _
  rw [if_pos h]

/-- **C121** `_spike_indices` at one finite point with finite half-axes, rounding included. -/
theorem C121_point (a b c : ℝ) (p : ℝ × ℝ × ℝ) :
    beyond around4 (fin a) (fin b) (fin c) (fin p.1) (fin p.2.1) (fin p.2.2) = true ↔ FlaggedR a b c p := by
  obtain ⟨x, y, z⟩ := p
  simp only
  have hden : PyMath.sqrt (((fin a *. fin c *. fin y) ^. 2) +. (fin b) ^. 2 *. ((fin c) ^. 2 *. (fin x) ^. 2 +.
      (fin a) ^. 2 *. (fin z) ^. 2)) = (fin (denR a b c (x, y, z)) : Fl ℝ) := by
    simp only [pmul_fin, pnpow_fin, padd_fin]
    rw [psqrt_fin (by positivity)]; rfl
  unfold beyond FlaggedR
  simp only
  rw [hden]
  set d := denR a b c (x, y, z) with hd
  have h2n : (nan : Fl ℝ) ^. 2 = nan := rfl
  by_cases hd0 : d = 0
  · -- no direction: the surface point is NaN
    have hx : a * b * c * x = 0 := by
      have hz : (a * c * y) ^ 2 + b ^ 2 * (c ^ 2 * x ^ 2 + a ^ 2 * z ^ 2) = 0 := by
        have := (Real.sqrt_eq_zero (by positivity)).mp (hd ▸ hd0 : denR a b c (x, y, z) = 0)
        simpa using this
      have h1 : (b * c * x) ^ 2 = 0 := by
        nlinarith [sq_nonneg (a * c * y), sq_nonneg (b * c * x), sq_nonneg (a * b * z)]
      have h1' := pow_eq_zero_iff two_ne_zero |>.mp h1
      linear_combination a * h1'
    simp only [pmul_fin]
    rw [hx, hd0, zero_div_zero]
    have hn : (around4 nan : Fl ℝ) = nan := rfl
    rw [hn, h2n]
    simp
  · simp only [pmul_fin]
    rw [pdiv_fin hd0, pdiv_fin hd0]
    simp only [around4, paround_fin]
    set x2 := aroundK (a * b * c * x / d) 4 with hx2
    set y2 := aroundK (a * b * c * y / d) 4 with hy2
    by_cases hz : z = 0
    · subst hz
      have hs : ∀ zt : Fl ℝ, surfaceZ (fun t : Fl ℝ => PyNum.around t 4) zt (fin 0) = lit 0 := by
        intro zt; unfold surfaceZ; simp
      have hs' : ∀ zt : Fl ℝ, surfaceZ around4 zt (fin 0) = lit 0 := hs
      rw [hs', if_pos rfl]
      simp only [pnpow_fin, padd_fin, psub_fin, lit_eq, plt_fin, Rat.cast_zero, decide_eq_true_eq]
      constructor
      · intro h
        refine ⟨hd0, ?_⟩
        nlinarith
      · rintro ⟨_, h⟩
        nlinarith
    · rw [if_neg hz]
      -- nonzero third coordinate
      have hsurf : ∀ zt : Fl ℝ, surfaceZ around4 zt (fin z) ^. 2 = (around4 (PyMath.sqrt zt)) ^. 2 := by
        intro zt
        unfold surfaceZ
        rcases lt_or_gt_of_ne hz with h | h
        · rw [if_pos (by simpa using h)]
          cases around4 (PyMath.sqrt zt) with
          | fin v => simp
          | nan => rfl
          | pinf => rfl
          | ninf => rfl
        · rw [if_neg (by simpa using h.le), if_pos (by simpa using h)]
      rw [hsurf]
      by_cases hab : a = 0 ∨ b = 0
      · have habc : a * b * c = 0 := by rcases hab with h | h <;> simp [h]
        have ex : x2 = 0 := by rw [hx2, habc]; simp [aroundK_zero]
        have ey : y2 = 0 := by rw [hy2, habc]; simp [aroundK_zero]
        have hnan : fin c ^. 2 *. (lit 1 -. (fin x2 /. fin a) ^. 2 -. (fin y2 /. fin b) ^. 2) = (nan : Fl ℝ) := by
          rw [ex, ey]
          rcases hab with h | h
          · rw [h, zero_div_zero, h2n]; simp
          · rw [h, zero_div_zero, h2n]; simp
        rw [hnan]
        have hn : (around4 (PyMath.sqrt (PyNum.around nan 4)) : Fl ℝ) = nan := rfl
        rw [hn, h2n]
        constructor
        · intro h; simp at h
        · rintro ⟨_, h1, h2, _⟩
          rcases hab with h | h
          · exact absurd h h1
          · exact absurd h h2
      · push Not at hab
        obtain ⟨ha, hb⟩ := hab
        rw [pdiv_fin ha, pdiv_fin hb]
        simp only [pnpow_fin, lit_eq, psub_fin, pmul_fin, Rat.cast_one, paround_fin]
        rw [show aroundK (c ^ 2 * (1 - (x2 / a) ^ 2 - (y2 / b) ^ 2)) 4 = ztR a b c x2 y2 from rfl]
        by_cases hzt : 0 ≤ ztR a b c x2 y2
        · rw [psqrt_fin hzt]
          simp only [around4, paround_fin, pnpow_fin, padd_fin, psub_fin, plt_fin, Rat.cast_zero, decide_eq_true_eq]
          constructor
          · intro h; exact ⟨hd0, ha, hb, hzt, by linarith⟩
          · rintro ⟨_, _, _, _, h⟩; linarith
        · rw [psqrt_neg (not_le.mp hzt)]
          have hn : (around4 nan : Fl ℝ) = nan := rfl
          rw [hn, h2n]
          constructor
          · intro h; simp at h
          · rintro ⟨_, _, _, h, _⟩; exact absurd h hzt

private theorem npNanstd_fins (xs : List ℝ) (h : xs ≠ []) : npNanstd (fins xs) = (fin (√(Spec.var xs)) : Fl ℝ) := by
  unfold npNanstd
  rw [List.filter_eq_self.mpr]
  · exact npStd_fins xs h
  · intro x hx
    obtain ⟨y, _, rfl⟩ := List.mem_map.mp hx
    rfl

private theorem halfAxis_fins (n : Nat) (xs : List ℝ) (hn : n = xs.length) (h : xs ≠ []) :
    halfAxis n (fins xs) = (fin (axisR xs) : Fl ℝ) := by
  have hp : 0 < xs.length := List.length_pos_iff.mpr h
  have hl : 0 ≤ 2 * Real.log (xs.length : ℝ) := by
    have := Real.log_natCast_nonneg xs.length
    linarith
  unfold halfAxis axisR
  rw [npNanstd_fins xs h, ofNat_eq, hn, plog_fin (by exact_mod_cast hp), lit_eq, pmul_fin, Rat.cast_ofNat, psqrt_fin hl,
    paround_fin, pmul_fin, paround_fin]

private theorem sphTheta_fins (f : List ℝ) (hn : 2 ≤ f.length) : sphTheta (fins f) = (fin (thetaR f) : Fl ℝ) := by
  unfold sphTheta thetaR
  rw [grad_fins _ hn, grad_fins _ (by rw [gradR_length]; exact hn)]
  have hz : List.zipWith (fun u v : Fl ℝ => u *. v) (fins f) (fins (gradR f)) =
      fins (List.zipWith (fun x y => x * y) f (gradR f)) := by
    rw [fins, fins, List.zipWith_map, fins, List.map_zipWith]; rfl
  have hq : (fins (gradR (gradR f))).map (fun v : Fl ℝ => v ^. 2) = fins ((gradR (gradR f)).map (fun v => v ^ 2)) := by
    simp only [fins, List.map_map]
    apply List.map_congr_left
    intro x _; exact pnpow_fin x 2
  rw [hz, hq, show PyNum.sum (fins (List.zipWith (fun x y => x * y) f (gradR f))) = (fin _ : Fl ℝ) from psum_fin _,
    show PyNum.sum (fins ((gradR (gradR f)).map (fun v => v ^ 2))) = (fin _ : Fl ℝ) from psum_fin _, parctan2_fin,
    paround_fin]
  rfl

private theorem sphPts_fins (f : List ℝ) (hn : 2 ≤ f.length) : sphPts (fins f) = (ptsR f).map finP := by
  unfold sphPts ptsR
  rw [sphTheta_fins f hn, grad_fins _ hn, grad_fins _ (by rw [gradR_length]; exact hn), fins, fins, fins, List.zip_map,
    List.zip_map, List.map_map, List.map_map]
  apply List.map_congr_left
  intro p _
  exact C120_rotation (thetaR f) p

/-- **C121** end to end on finite data: sample `i` is returned exactly when its rotated point is flagged against the
ellipsoid whose half-axes are the universal threshold times the standard deviations of the rotated coordinates. -/
theorem C121_flags (xs : List ℝ) (it : Int) (m : Fl ℝ) (hn : 2 ≤ xs.length) :
    ∃ r, sphericalThresholding (fins xs) it m = .ok r ∧ ∀ i, i ∈ r ↔
      ∃ p, (ptsR (centR xs))[i]? = some p ∧
        FlaggedR (axisR ((ptsR (centR xs)).map (fun q => q.1))) (axisR ((ptsR (centR xs)).map (fun q => q.2.1)))
          (axisR ((ptsR (centR xs)).map (fun q => q.2.2))) p := by
  have hx : xs ≠ [] := by rintro rfl; simp at hn
  have hl : (centR xs).length = xs.length := by simp [centR]
  have hpl : (ptsR (centR xs)).length = xs.length := by simp [ptsR, gradR_length, hl]
  have hpne : ptsR (centR xs) ≠ [] := by
    intro h; rw [h] at hpl; simp at hpl; omega
  refine ⟨_, sph_eq _ it m (by simpa [fins] using hn), ?_⟩
  intro i
  rw [sphF_fins xs hx, sphPts_fins _ (by omega)]
  unfold sphDetect
  have hm : ∀ (g : Fl ℝ × Fl ℝ × Fl ℝ → Fl ℝ) (k : ℝ × ℝ × ℝ → ℝ), (∀ p, g (finP p) = fin (k p)) →
      halfAxis ((ptsR (centR xs)).map finP).length (((ptsR (centR xs)).map finP).map g) =
        (fin (axisR ((ptsR (centR xs)).map k)) : Fl ℝ) := by
    intro g k hg
    rw [List.map_map, show (ptsR (centR xs)).map (g ∘ finP) = fins ((ptsR (centR xs)).map k) by
      rw [fins, List.map_map]; apply List.map_congr_left; intro p _; exact hg p]
    exact halfAxis_fins _ _ (by simp) (by simpa using hpne)
  rw [hm (fun p => p.1) (fun q => q.1) (fun _ => rfl), hm (fun p => p.2.1) (fun q => q.2.1) (fun _ => rfl),
    hm (fun p => p.2.2) (fun q => q.2.2) (fun _ => rfl)]
  unfold spikeIndices
  rw [mem_whereTrue_map]
  simp only [List.getElem?_map, Option.map_eq_some_iff]
  constructor
  · rintro ⟨p, ⟨q, hq, rfl⟩, hb⟩
    exact ⟨q, hq, (C121_point _ _ _ q).mp hb⟩
  · rintro ⟨q, hq, hf⟩
    exact ⟨finP q, ⟨q, hq, rfl⟩, (C121_point _ _ _ q).mpr hf⟩

/-- the decision rule can answer both ways -/
example : FlaggedR 1 1 1 (2, 0, 0) ∧ ¬ FlaggedR 1 1 1 (0, 0, 0) := by
  have h1 : aroundK (1 : ℝ) 4 = 1 := by simpa using around4_int 1
  constructor
  · have hd : denR 1 1 1 (2, 0, 0) = 2 := by
      unfold denR
      simp only
      rw [show ((1 : ℝ) * 1 * 0) ^ 2 + 1 ^ 2 * (1 ^ 2 * 2 ^ 2 + 1 ^ 2 * 0 ^ 2) = 2 ^ 2 by norm_num]
      exact Real.sqrt_sq (by norm_num)
    unfold FlaggedR
    simp only [hd]
    refine ⟨by norm_num, ?_⟩
    rw [if_pos trivial]
    norm_num [h1, aroundK_zero]
  · rintro ⟨h, _⟩
    apply h
    simp [denR]

/-! ## C122: rounding hides arbitrarily large spikes -/

/-- **C122** with half-axes 1, 1 and 10 the points `(5t, 12t, z)`, `0 < z ≤ 1/2`, lie `13t` times outside the ellipsoid and
are never flagged, whatever `t ≥ 1`: both surface coordinates are rounded up, the square of the third one comes out
negative, and its root is NaN. -/
theorem C122_missed (t z : ℝ) (ht : 1 ≤ t) (hz : 0 < z) (hz2 : z ≤ 1 / 2) :
    beyond around4 (fin 1) (fin 1) (fin 10) (fin (5 * t)) (fin (12 * t)) (fin z) = false ∧
    OutsideEllipsoid 1 1 10 (5 * t) (12 * t) z ∧ 169 * t ^ 2 ≤ (5 * t / 1) ^ 2 + (12 * t / 1) ^ 2 + (z / 10) ^ 2 := by
  have hbig : 169 * t ^ 2 ≤ (5 * t / 1) ^ 2 + (12 * t / 1) ^ 2 + (z / 10) ^ 2 := by nlinarith [sq_nonneg (z / 10)]
  refine ⟨?_, ?_, hbig⟩
  · rw [← Bool.not_eq_true]
    intro h
    have h' := (C121_point 1 1 10 (5 * t, 12 * t, z)).mp h
    unfold FlaggedR at h'
    obtain ⟨hd0, h'⟩ := h'
    simp only at h'
    rw [if_neg hz.ne'] at h'
    obtain ⟨-, -, hzt, -⟩ := h'
    set d := denR 1 1 10 (5 * t, 12 * t, z) with hd
    have hdsq : d ^ 2 = 16900 * t ^ 2 + z ^ 2 := by
      rw [hd]
      unfold denR
      rw [Real.sq_sqrt (by positivity)]
      ring
    have hdp : 0 < d := lt_of_le_of_ne (Real.sqrt_nonneg _) (Ne.symm hd0)
    have hlo : 130 * t ≤ d := by
      refine (sq_le_sq₀ (by positivity) hdp.le).mp ?_
      rw [hdsq]; nlinarith [sq_nonneg z]
    have hhi : d ≤ 130 * t + 1 / 1000 := by
      refine (sq_le_sq₀ hdp.le (by positivity)).mp ?_
      rw [hdsq]; nlinarith
    have hx2 : aroundK (1 * 1 * 10 * (5 * t) / d) 4 = ((3846 : ℤ) : ℝ) / 10000 := by
      apply around4_eq
      rw [abs_lt]
      constructor
      · rw [lt_sub_iff_add_lt, lt_div_iff₀ hdp]; push_cast; nlinarith
      · rw [sub_lt_iff_lt_add, div_lt_iff₀ hdp]; push_cast; nlinarith
    have hy2 : aroundK (1 * 1 * 10 * (12 * t) / d) 4 = ((9231 : ℤ) : ℝ) / 10000 := by
      apply around4_eq
      rw [abs_lt]
      constructor
      · rw [lt_sub_iff_add_lt, lt_div_iff₀ hdp]; push_cast; nlinarith
      · rw [sub_lt_iff_lt_add, div_lt_iff₀ hdp]; push_cast; nlinarith
    rw [hx2, hy2] at hzt
    have : ztR 1 1 10 (((3846 : ℤ) : ℝ) / 10000) (((9231 : ℤ) : ℝ) / 10000) = ((-31 : ℤ) : ℝ) / 10000 := by
      unfold ztR
      apply around4_eq
      rw [abs_lt]
      norm_num
    rw [this] at hzt
    norm_num at hzt
  · unfold OutsideEllipsoid
    nlinarith

example : (1 : ℝ) ≤ 1000 ∧ (0 : ℝ) < 1 / 4 ∧ (1 / 4 : ℝ) ≤ 1 / 2 := by norm_num

end Proadv.Props
