import Verif.Props.PhaseFlat

/-!
# C137: `phasespace_thresholding` is scale-invariant as long as the rounding of the derivatives is exact
-/

set_option linter.unusedSectionVars false
set_option linter.unusedSimpArgs false

namespace Proadv.Props

open Proadv Fl Detect

/-- central differences without rounding, zero at both ends -/
private noncomputable def rawDiff (xs : List ℝ) : List ℝ :=
  (List.range xs.length).map (fun i =>
    if 1 ≤ i ∧ i + 1 < xs.length then (xs.getD (i + 1) 0 - xs.getD (i - 1) 0) / 2 else 0)

/-- every sample is a multiple of `1 / m` -/
def OnGrid (m : ℕ) (xs : List ℝ) : Prop := ∀ x ∈ xs, ∃ k : ℤ, x = k / m

private theorem getD_grid {m : ℕ} {xs : List ℝ} (h : OnGrid m xs) (i : Nat) : ∃ k : ℤ, xs.getD i 0 = k / m := by
  by_cases hi : i < xs.length
  · have : xs.getD i 0 = xs[i] := by simp [List.getD, hi]
    rw [this]; exact h _ (List.getElem_mem hi)
  · exact ⟨0, by simp [List.getD, List.getElem?_eq_none (by omega : xs.length ≤ i)]⟩

private theorem cdiff_exact {xs : List ℝ} (h : OnGrid 5000 xs) : cdiff false xs = rawDiff xs := by
  unfold cdiff rawDiff
  apply List.map_congr_left
  intro i _
  split_ifs with hc
  · obtain ⟨a, ha⟩ := getD_grid h (i + 1)
    obtain ⟨d, hd⟩ := getD_grid h (i - 1)
    rw [ha, hd]
    have e : ((a : ℝ) / (5000 : ℕ) - d / (5000 : ℕ)) / 2 = ((a - d : ℤ) : ℝ) / 10000 := by push_cast; ring
    rw [e]
    exact around4_eq _ _ (by simp)
  · rfl

private theorem rawDiff_grid {m : ℕ} {xs : List ℝ} (h : OnGrid m xs) : OnGrid (2 * m) (rawDiff xs) := by
  intro x hx
  unfold rawDiff at hx
  obtain ⟨i, -, rfl⟩ := List.mem_map.mp hx
  split_ifs with hc
  · obtain ⟨a, ha⟩ := getD_grid h (i + 1)
    obtain ⟨d, hd⟩ := getD_grid h (i - 1)
    refine ⟨a - d, ?_⟩
    rw [ha, hd]; push_cast
    rw [← sub_div, div_div, mul_comm]
  · exact ⟨0, by simp⟩

private theorem rawDiff_scale (c : ℝ) (xs : List ℝ) : rawDiff (xs.map (fun x => c * x)) = (rawDiff xs).map (fun x => c * x) := by
  unfold rawDiff
  rw [List.length_map, List.map_map]
  apply List.map_congr_left
  intro i hi
  have e : ∀ k, (xs.map (fun x => c * x)).getD k 0 = c * xs.getD k 0 := by
    intro k
    rw [List.getD_eq_getElem?_getD, List.getD_eq_getElem?_getD, List.getElem?_map]
    cases xs[k]? <;> simp
  simp only [Function.comp, e]
  split_ifs
  · ring
  · simp

private theorem std_scale (c : ℝ) (hc : 0 < c) (xs : List ℝ) (hne : xs ≠ []) :
    √(Spec.var (xs.map (fun x => c * x))) = c * √(Spec.var xs) := by
  have : Spec.var (xs.map (fun x => c * x)) = c ^ 2 * Spec.var xs := by
    have := Spec.cmoment_affine 2 c 0 hne
    simpa [Spec.var] using this
  rw [this, Real.sqrt_mul (by positivity), Real.sqrt_sq hc.le]

/-- multiplication of an axis by a positive number -/
private noncomputable def sc (c : ℝ) : Fl ℝ → Fl ℝ
  | fin a => fin (c * a)
  | x => x

private theorem infSgn_scale (c : ℝ) (hc : 0 < c) (u : ℝ) : (infSgn (c * u) : Fl ℝ) = infSgn u := by
  unfold infSgn
  simp [mul_pos_iff_of_pos_left hc, hc.ne', mul_neg_iff, hc, hc.not_gt]

private theorem sc_infSgn (c u : ℝ) : sc c (infSgn u : Fl ℝ) = infSgn u := by
  unfold infSgn; split_ifs <;> rfl

private theorem div_sc (c : ℝ) (hc : 0 < c) (u : ℝ) (a : Fl ℝ) : (fin (c * u) : Fl ℝ) /. sc c a = fin u /. a := by
  cases a with
  | fin a =>
    show (fin (c * u) : Fl ℝ) /. fin (c * a) = _
    rw [pdiv_fin', pdiv_fin']
    by_cases ha : a = 0
    · simp [ha, infSgn_scale c hc]
    · simp [ha, hc.ne', mul_div_mul_left]
  | nan => rfl
  | pinf => rfl
  | ninf => rfl

private theorem sqrt_div_sc (c : ℝ) (hc : 0 < c) (A f : ℝ) :
    (PyMath.sqrt (fin (c ^ 2 * A)) : Fl ℝ) /. fin f = sc c (PyMath.sqrt (fin A) /. fin f) := by
  by_cases hA : 0 ≤ A
  · rw [psqrt_fin hA, psqrt_fin (by positivity), Real.sqrt_mul (by positivity), Real.sqrt_sq hc.le, pdiv_fin', pdiv_fin']
    by_cases hf : f = 0
    · simp [hf, infSgn_scale c hc, sc_infSgn]
    · simp only [hf, if_false, mul_div_assoc]; rfl
  · push Not at hA
    have h1 : (PyMath.sqrt (fin A) : Fl ℝ) = nan := psqrt_neg hA
    have h2 : (PyMath.sqrt (fin (c ^ 2 * A)) : Fl ℝ) = nan := psqrt_neg (mul_neg_of_pos_of_neg (by positivity) hA)
    rw [h1, h2, nan_div]; rfl

private theorem rhoAt_scale (c : ℝ) (hc : 0 < c) (θ : ℝ) (a b : Fl ℝ) (x y : ℝ) :
    rhoAt (fin θ) (sc c a) (sc c b) (fin (c * x)) (fin (c * y)) = rhoAt (fin θ) a b (fin x) (fin y) := by
  unfold rhoAt rotX rotY
  simp only [pcos_fin, psin_fin, pmul_fin, padd_fin, psub_fin]
  rw [show c * x * Real.cos θ + c * y * Real.sin θ = c * (x * Real.cos θ + y * Real.sin θ) by ring,
    show c * y * Real.cos θ - c * x * Real.sin θ = c * (y * Real.cos θ - x * Real.sin θ) by ring, div_sc c hc, div_sc c hc]

private theorem sqsum_scale (c : ℝ) (xs : List ℝ) :
    ((xs.map (fun x => c * x)).map (fun x => x ^ 2)).sum = c ^ 2 * (xs.map (fun x => x ^ 2)).sum := by
  induction xs with
  | nil => simp
  | cons x t ih => simp only [List.map_cons, List.sum_cons, ih]; ring

private theorem slope_scale (c : ℝ) (hc : 0 < c) (xs ys : List ℝ) :
    slope (xs.map (fun x => c * x)) (ys.map (fun x => c * x)) = slope xs ys := by
  unfold slope
  have h1 : (List.zipWith (fun x y => x * y) (xs.map (fun x => c * x)) (ys.map (fun x => c * x))).sum =
      c ^ 2 * (List.zipWith (fun x y => x * y) xs ys).sum := by
    induction xs generalizing ys with
    | nil => simp
    | cons x t ih =>
      cases ys with
      | nil => simp
      | cons y s => simp only [List.map_cons, List.zipWith_cons_cons, List.sum_cons, ih s]; ring
  rw [h1, sqsum_scale, mul_div_mul_left _ _ (by positivity)]

/-- **C137** if all samples, before and after a change of unit by the factor `c > 0`, are multiples of 0.0004, the
derivatives are not changed by their rounding and the same samples are flagged. -/
theorem C137_scale (xs : List ℝ) (c : ℝ) (hc : 0 < c) (h : OnGrid 2500 xs) (h' : OnGrid 2500 (xs.map (fun x => c * x))) :
    phasespaceThresholding ⟨1, false, fins (xs.map (fun x => c * x))⟩ = phasespaceThresholding ⟨1, false, fins xs⟩ := by
  by_cases hne : xs = []
  · subst hne; rfl
  by_cases hq : (xs.map (fun x => x ^ 2)).sum = 0
  · have hz : ∀ x ∈ xs, x = 0 := by
      intro x hx
      have h1 := List.single_le_sum (l := xs.map (fun x => x ^ 2)) (by
        intro y hy; obtain ⟨x, -, rfl⟩ := List.mem_map.mp hy; exact sq_nonneg x) (x ^ 2) (List.mem_map.mpr ⟨x, hx, rfl⟩)
      have this : x ^ 2 = 0 := le_antisymm (h1.trans hq.le) (sq_nonneg x)
      exact pow_eq_zero_iff (by norm_num) |>.mp this
    have : xs.map (fun x => c * x) = xs := by
      conv_rhs => rw [← List.map_id xs]
      apply List.map_congr_left
      intro x hx; simp [hz x hx]
    rw [this]
  have fine : ∀ {l : List ℝ}, OnGrid 2500 l → OnGrid 5000 l := by
    intro l hl x hx
    obtain ⟨k, rfl⟩ := hl x hx
    exact ⟨2 * k, by push_cast; ring⟩
  have dd : ∀ {l : List ℝ}, OnGrid 2500 l → cdiff false l = rawDiff l ∧ cdiff false (rawDiff l) = rawDiff (rawDiff l) := by
    intro l hl
    exact ⟨cdiff_exact (fine hl), cdiff_exact (rawDiff_grid hl)⟩
  set d := rawDiff xs with hd
  set e := rawDiff d with he
  have hdl : d.length = xs.length := by simp [hd, rawDiff]
  have hel : e.length = xs.length := by simp [he, rawDiff, hdl]
  have hdne : d ≠ [] := fun hh => hne (List.length_eq_zero_iff.mp (by rw [← hdl, hh]; rfl))
  have hene : e ≠ [] := fun hh => hne (List.length_eq_zero_iff.mp (by rw [← hel, hh]; rfl))
  have d1 : centralDiff false (fins xs) = (fins d : List (Fl ℝ)) := by
    rw [show centralDiff false (fins xs) = _ from centralDiff_fins false _, (dd h).1]
  have d2 : centralDiff false (fins d) = (fins e : List (Fl ℝ)) := by
    rw [show centralDiff false (fins d) = _ from centralDiff_fins false _, (dd h).2]
  have d1' : centralDiff false (fins (xs.map (fun x => c * x))) = (fins (d.map (fun x => c * x)) : List (Fl ℝ)) := by
    rw [show centralDiff false (fins (xs.map (fun x => c * x))) = _ from centralDiff_fins false _, (dd h').1, rawDiff_scale]
  have d2' : centralDiff false (fins (d.map (fun x => c * x))) = (fins (e.map (fun x => c * x)) : List (Fl ℝ)) := by
    have := (dd h').2
    rw [rawDiff_scale] at this
    rw [show centralDiff false (fins (d.map (fun x => c * x))) = _ from centralDiff_fins false _, this, rawDiff_scale]
  have hlam : ∀ l : List ℝ, l.length = xs.length → (lambdaOf (fins l).length : Fl ℝ) = fin √(2 * Real.log xs.length) := by
    intro l hl; rw [List.length_map, hl]; exact lambdaOf_fin (List.length_pos_iff.mpr hne)
  have P : phaseP false (fins xs) = phaseCoefs (fin √(Spec.var xs)) (fin √(Spec.var d)) (fin √(Spec.var e))
      (fin √(2 * Real.log xs.length)) (fin (Real.arctan (slope xs e)) : Fl ℝ) := by
    unfold phaseP
    rw [d1, d2, npStd_fins _ hne, npStd_fins _ hdne, npStd_fins _ hene, hlam _ rfl, phaseAngle_fins _ _ hq]
  have P' : phaseP false (fins (xs.map (fun x => c * x))) = phaseCoefs (fin (c * √(Spec.var xs))) (fin (c * √(Spec.var d)))
      (fin (c * √(Spec.var e))) (fin √(2 * Real.log xs.length)) (fin (Real.arctan (slope xs e)) : Fl ℝ) := by
    unfold phaseP
    rw [d1', d2', npStd_fins _ (by simpa using hne), npStd_fins _ (by simpa using hdne), npStd_fins _ (by simpa using hene),
      hlam _ (by simp), phaseAngle_fins _ _ (by rw [sqsum_scale]; positivity), slope_scale c hc, std_scale c hc _ hne,
      std_scale c hc _ hdne, std_scale c hc _ hene]
  set θ := Real.arctan (slope xs e)
  set l := √(2 * Real.log xs.length)
  set p := (phaseP false (fins xs) : PhaseParams (Fl ℝ)) with hp
  set p' := (phaseP false (fins (xs.map (fun x => c * x))) : PhaseParams (Fl ℝ)) with hp'
  have a1 : p'.a1 = sc c p.a1 := by rw [P, P']; simp only [phaseCoefs, pmul_fin, sc]; congr 1; ring
  have b1 : p'.b1 = sc c p.b1 := by rw [P, P']; simp only [phaseCoefs, pmul_fin, sc]; congr 1; ring
  have a2 : p'.a2 = sc c p.a2 := by rw [P, P']; simp only [phaseCoefs, pmul_fin, sc]; congr 1; ring
  have b2 : p'.b2 = sc c p.b2 := by rw [P, P']; simp only [phaseCoefs, pmul_fin, sc]; congr 1; ring
  have a3 : p'.a3 = sc c p.a3 := by
    rw [P, P']; simp only [phaseCoefs, fact_fin, pcos_fin, psin_fin, pnpow_fin, pmul_fin, psub_fin]
    rw [← sqrt_div_sc c hc]; congr 3; ring
  have b3 : p'.b3 = sc c p.b3 := by
    rw [P, P']; simp only [phaseCoefs, fact_fin, pcos_fin, psin_fin, pnpow_fin, pmul_fin, psub_fin]
    rw [← sqrt_div_sc c hc]; congr 3; ring
  have t : p.theta = fin θ := by rw [P]; rfl
  have t' : p'.theta = fin θ := by rw [P']; rfl
  have z : ∀ (θ : ℝ) (a b : Fl ℝ) (us vs : List ℝ),
      List.zipWith (rhoAt (fin θ) (sc c a) (sc c b)) (fins (us.map (fun x => c * x))) (fins (vs.map (fun x => c * x))) =
        List.zipWith (rhoAt (fin θ) a b) (fins us) (fins vs) := by
    intro θ a b us vs
    simp only [fins, List.map_map, List.zipWith_map]
    congr 1; funext x y; exact rhoAt_scale c hc θ a b x y
  have l0 : (lit 0 : Fl ℝ) = fin 0 := by simp
  rw [phase_ok _ _ (by simpa using hne), phase_ok _ _ (by simpa using hne), ← hp, ← hp', d1', d2', d1, d2, a1, b1, a2, b2,
    a3, b3, t, t', l0, z, z, z]

/-- centimetres per second to metres per second, samples in steps of 0.0004 m/s -/
example (ks : List ℤ) : phasespaceThresholding ⟨1, false, fins ((ks.map (fun k : ℤ => (k : ℝ) / 2500)).map (fun x => 100 * x))⟩ =
    phasespaceThresholding ⟨1, false, fins (ks.map (fun k : ℤ => (k : ℝ) / 2500))⟩ := by
  refine C137_scale _ 100 (by norm_num) ?_ ?_
  · intro x hx; obtain ⟨k, -, rfl⟩ := List.mem_map.mp hx; exact ⟨k, by simp⟩
  · intro x hx
    obtain ⟨y, hy, rfl⟩ := List.mem_map.mp hx
    obtain ⟨k, -, rfl⟩ := List.mem_map.mp hy
    exact ⟨100 * k, by push_cast; ring⟩

end Proadv.Props
