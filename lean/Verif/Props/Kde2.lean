import Verif.Props.Kde

/-!
# Property C116: the density estimate of `filtration/detection/trivariatekernel.py`
-/

set_option linter.unusedSectionVars false

namespace Proadv.Props

open Proadv Fl KernelDetect Spread Detect

/-- the points as floats -/
def finPts (pts : List (ℝ × ℝ)) : List (Fl ℝ × Fl ℝ) := pts.map (fun p => (fin p.1, fin p.2))

theorem solveLower_fins (r s t x y : ℝ) (hr : r ≠ 0) (ht : t ≠ 0) :
    solveLower [[(fin r : Fl ℝ), fin 0], [fin s, fin t]] [fin x, fin y] = [fin (x / r), fin ((y - s * (x / r)) / t)] := by
  have e : solveLower [[(fin r : Fl ℝ), fin 0], [fin s, fin t]] [fin x, fin y] =
      [(fin x -. PyNum.sum []) /. fin r, (fin y -. PyNum.sum [fin s *. ((fin x -. PyNum.sum []) /. fin r)]) /. fin t] := rfl
  rw [e, psum_nil, psub_fin, pdiv_fin hr, pmul_fin, sub_zero, psum_cons, psum_nil, padd_fin, psub_fin, pdiv_fin ht, add_zero]

theorem gkeNorm_fins (r s t : ℝ) (hr : r ≠ 0) (ht : t ≠ 0) :
    gkeNorm [[(fin r : Fl ℝ), fin 0], [fin s, fin t]] = fin (1 / (2 * Real.pi * (r * t))) := by
  have e : gkeNorm [[(fin r : Fl ℝ), fin 0], [fin s, fin t]] =
      PyMath.rpow (lit 2 *. PyMath.pi) (PyNum.neg (ofNat 2) /. lit 2) /. fin r /. fin t := rfl
  have hp := Real.pi_pos
  have e2 : PyMath.rpow ((lit 2 : Fl ℝ) *. PyMath.pi) (PyNum.neg (ofNat 2) /. lit 2) = fin (1 / (2 * Real.pi)) := by
    rw [lit_eq, ofNat_eq, pneg_fin, pdiv_fin (by norm_num), show (PyMath.pi : Fl ℝ) = fin Real.pi from rfl, pmul_fin]
    show (if (_ : ℝ) = 0 then fin 1 else if 0 < (_ : ℝ) then fin ((_ : ℝ) ^ (_ : ℝ)) else _) = _
    rw [if_neg (by norm_num), if_pos (by push_cast; positivity)]
    congr 1
    push_cast
    rw [show (-2 / 2 : ℝ) = -1 by norm_num, Real.rpow_neg_one, one_div]
  rw [e, e2, pdiv_fin hr, pdiv_fin ht]
  congr 1
  field_simp

theorem foldl_fins (l : List ℝ) : (fins l : List (Fl ℝ)).foldl (fun a b => a +. b) (lit 0) = fin l.sum := by
  have : (fins l : List (Fl ℝ)).foldl (fun a b => a +. b) (lit 0) = PyNum.sum (fins l) := by
    rw [lit_eq, Rat.cast_zero]; rfl
  rw [this]; exact psum_fin _

/-- scipy's kernel estimate at one node is the average of the normal densities whose covariance matrix is `L Lᵀ` -/
theorem gkeAt_fins (r s t : ℝ) (hr : 0 < r) (ht : 0 < t) (pts : List (ℝ × ℝ)) (x y : ℝ) :
    gkeAt ((finPts pts).map (fun p => [p.1, p.2])) (fins (List.replicate pts.length (1 / (pts.length : ℝ))))
      [[(fin r : Fl ℝ), fin 0], [fin s, fin t]] [fin x, fin y] =
      fin (Spec.kdeAt (r * r) (r * s) (s * s + t * t) pts x y) := by
  have hp := Real.pi_pos
  unfold gkeAt
  have one : ∀ (p : ℝ × ℝ) (w : ℝ), (fin w : Fl ℝ) *. (PyMath.exp (PyNum.neg ((List.zipWith (fun a b => (a -. b) *. (a -. b))
      (solveLower [[(fin r : Fl ℝ), fin 0], [fin s, fin t]] [fin p.1, fin p.2])
      (solveLower [[(fin r : Fl ℝ), fin 0], [fin s, fin t]] [fin x, fin y])).foldl
        (fun a b => a +. b) (lit 0)) /. lit 2) *. gkeNorm [[(fin r : Fl ℝ), fin 0], [fin s, fin t]]) =
      fin (w * Spec.normal2 (r * r) (r * s) (s * s + t * t) (x - p.1) (y - p.2)) := by
    intro p w
    rw [solveLower_fins r s t _ _ hr.ne' ht.ne', solveLower_fins r s t _ _ hr.ne' ht.ne', gkeNorm_fins r s t hr.ne' ht.ne']
    simp only [List.zipWith_cons_cons, List.zipWith_nil_left, psub_fin, pmul_fin]
    have := foldl_fins [(p.1 / r - x / r) * (p.1 / r - x / r),
      ((p.2 - s * (p.1 / r)) / t - (y - s * (x / r)) / t) * ((p.2 - s * (p.1 / r)) / t - (y - s * (x / r)) / t)]
    simp only [fins, List.map_cons, List.map_nil] at this
    rw [this, lit_eq, pneg_fin, pdiv_fin (by norm_num)]
    show fin w *. (fin (Real.exp _) *. fin _) = _
    rw [pmul_fin, pmul_fin]
    congr 2
    unfold Spec.normal2
    have hdet : r * r * (s * s + t * t) - (r * s) ^ 2 = (r * t) ^ 2 := by ring
    rw [hdet, Real.sqrt_sq (by positivity)]
    rw [mul_one_div]
    congr 2
    simp only [List.sum_cons, List.sum_nil]
    push_cast
    field_simp
    ring
  have hz : List.zipWith (fun p w => w *. (PyMath.exp (PyNum.neg ((List.zipWith (fun a b => (a -. b) *. (a -. b))
      (solveLower [[(fin r : Fl ℝ), fin 0], [fin s, fin t]] p)
      (solveLower [[(fin r : Fl ℝ), fin 0], [fin s, fin t]] [fin x, fin y])).foldl
        (fun a b => a +. b) (lit 0)) /. lit 2) *. gkeNorm [[(fin r : Fl ℝ), fin 0], [fin s, fin t]]))
      ((finPts pts).map (fun p => [p.1, p.2])) (fins (List.replicate pts.length (1 / (pts.length : ℝ)))) =
      fins (pts.map (fun p => 1 / (pts.length : ℝ) * Spec.normal2 (r * r) (r * s) (s * s + t * t) (x - p.1) (y - p.2))) := by
    apply List.ext_getElem
    · simp [finPts]
    · intro i h1 h2
      simp only [finPts, fins, List.map_map, List.getElem_zipWith, List.getElem_map, List.getElem_replicate, Function.comp]
      exact one _ _
  rw [hz, foldl_fins, List.sum_map_mul_left]
  unfold Spec.kdeAt
  congr 1
  ring

theorem transposed2 {F : Type} [PyMath F] (a b c d : F) : transposed [[a, b], [c, d]] = [[a, c], [b, d]] := rfl

theorem density_eq (pts : List (ℝ × ℝ)) (hn : 2 ≤ pts.length) :
    density chol2 [(finPts pts).map Prod.fst, (finPts pts).map Prod.snd] (finPts pts).length =
      covarianceDict chol2 [fins (pts.map Prod.fst), fins (pts.map Prod.snd)] pts.length ∧
    covMatrix [(fins (pts.map Prod.fst) : List (Fl ℝ)), fins (pts.map Prod.snd)] pts.length =
      [[fin (Spec.scov (pts.map Prod.fst) (pts.map Prod.fst)), fin (Spec.scov (pts.map Prod.fst) (pts.map Prod.snd))],
       [fin (Spec.scov (pts.map Prod.fst) (pts.map Prod.snd)), fin (Spec.scov (pts.map Prod.snd) (pts.map Prod.snd))]] := by
  have e1 : (finPts pts).map Prod.fst = fins (pts.map Prod.fst) := by simp [finPts, fins]
  have e2 : (finPts pts).map Prod.snd = fins (pts.map Prod.snd) := by simp [finPts, fins]
  have e3 : (finPts pts).length = pts.length := by simp [finPts]
  constructor
  · rw [e1, e2, e3]
    unfold density
    rw [if_neg (by simp only [List.length_cons, List.length_nil]; omega), if_neg (by simp only [List.length_cons, List.length_nil]; omega)]
  · have hc : ∀ x y : List ℝ, x.length = pts.length → y.length = pts.length →
        covEntry (weight pts.length) (fins x) (fins y) = (fin (Spec.scov x y) : Fl ℝ) := by
      intro x y hx hy
      have := (C81_covariance x y (by rw [hx, hy])).1 (by omega)
      rw [hx] at this
      rw [this]; simp [Spec.scov, hx]
    have hsym : Spec.scov (pts.map Prod.snd) (pts.map Prod.fst) = Spec.scov (pts.map Prod.fst) (pts.map Prod.snd) := by
      unfold Spec.scov Spec.dot
      rw [List.zipWith_comm]
      simp only [mul_comm, List.length_map]
    unfold covMatrix
    simp only [List.map_cons, List.map_nil]
    rw [hc _ _ (by simp) (by simp), hc _ _ (by simp) (by simp), hc _ _ (by simp) (by simp), hc _ _ (by simp) (by simp), hsym]

/-- **C116** the density used for the cutoffs: on `n ≥ 2` points with positive definite covariance matrix, the entry in row
`i` and column `j` is the average over the points of the bivariate normal density centred at the point, evaluated at
`(uf i, wf j)`; the common covariance matrix is `n^(-1/3)` times the sample covariance matrix.  For points with singular
covariance matrix (all on one line) LinAlgError is raised. -/
theorem C116_density (pts : List (ℝ × ℝ)) (hn : 2 ≤ pts.length) (uf wf : List ℝ) (g : Nat) (hu : uf.length = g)
    (hw : wf.length = g) (a b c h : ℝ) (ha : a = Spec.scov (pts.map Prod.fst) (pts.map Prod.fst))
    (hb : b = Spec.scov (pts.map Prod.fst) (pts.map Prod.snd)) (hc : c = Spec.scov (pts.map Prod.snd) (pts.map Prod.snd))
    (hh : h = (pts.length : ℝ) ^ (-1 / 3 : ℝ)) :
    (0 < a ∧ 0 < a * c - b ^ 2 → kdeGrid chol2 g (finPts pts) (fins uf) (fins wf) =
      .ok (uf.map (fun x => fins (wf.map (fun y => Spec.kdeAt (h * a) (h * b) (h * c) pts x y))))) ∧
    (¬(0 < a ∧ 0 < a * c - b ^ 2) → kdeGrid chol2 g (finPts pts) (fins uf) (fins wf) = .error .linAlgError) := by
  obtain ⟨d1, d2⟩ := density_eq pts hn
  rw [← ha, ← hb, ← hc] at d2
  have hn' : (0 : ℝ) < pts.length := by positivity
  unfold kdeGrid
  rw [d1]
  unfold covarianceDict
  rw [d2]
  simp only [bind, Except.bind]
  constructor
  · intro hpd
    obtain ⟨r, s, t, hch, hr, ht, h1, h2, h3⟩ := (C115_cholesky a b c).1 hpd
    rw [hch]
    simp only
    rw [evolve_grid _ _ _ _ _ (by simpa using hu) (by simpa using hw)]
    obtain ⟨-, -, hnet, hfac⟩ := C81_weights pts.length 2 (by omega)
    simp only [List.length_cons, List.length_nil, zero_add, Nat.reduceAdd]
    rw [hnet, hfac]
    set f : ℝ := (pts.length : ℝ) ^ (-1 / (((2 : ℕ) : ℝ) + 4)) with hf
    have hfp : 0 < f := Real.rpow_pos_of_pos hn' _
    have hff : f * f = h := by
      rw [hf, hh, ← Real.rpow_add hn']; congr 1; push_cast; norm_num
    simp only [List.map_cons, List.map_nil, pmul_fin, transposed2, zero_mul]
    rw [weight_fins _ (by omega)]
    congr 1
    simp only [fins, List.map_map]
    apply List.map_congr_left
    intro x _
    simp only [Function.comp]
    apply List.map_congr_left
    intro y _
    have := gkeAt_fins (r * f) (s * f) (t * f) (by positivity) (by positivity) pts x y
    simp only [fins] at this
    simp only [Function.comp]
    rw [this]
    have k1 : r * f * (r * f) = h * a := by rw [← hff, ← h1]; ring
    have k2 : r * f * (s * f) = h * b := by rw [← hff, ← h2]; ring
    have k3 : s * f * (s * f) + t * f * (t * f) = h * c := by rw [← hff, ← h3]; ring
    rw [k1, k2, k3]
  · intro hpd
    rw [(C115_cholesky a b c).2 hpd]

/-- **C116** the density is positive everywhere. -/
theorem C116_positive (a b c : ℝ) (hd : 0 < a * c - b ^ 2) (pts : List (ℝ × ℝ)) (hne : pts ≠ []) (x y : ℝ) :
    0 < Spec.kdeAt a b c pts x y := by
  have hp := Real.pi_pos
  unfold Spec.kdeAt
  apply div_pos
  · apply List.sum_pos
    · intro v hv
      obtain ⟨p, _, rfl⟩ := List.mem_map.mp hv
      unfold Spec.normal2
      have := Real.sqrt_pos.mpr hd
      positivity
    · simpa using hne
  · exact_mod_cast List.length_pos_iff.mpr hne

open MeasureTheory in
theorem integral_list_map_sum {α : Type} (f : α → ℝ → ℝ) (l : List α) (h : ∀ p ∈ l, Integrable (f p)) :
    Integrable (fun x => (l.map (fun p => f p x)).sum) ∧
    ∫ x, (l.map (fun p => f p x)).sum = (l.map (fun p => ∫ x, f p x)).sum := by
  induction l with
  | nil => simp
  | cons p t ih =>
    obtain ⟨i1, i2⟩ := ih (fun q hq => h q (by simp [hq]))
    have hp := h p (by simp)
    simp only [List.map_cons, List.sum_cons]
    exact ⟨hp.add i1, by rw [integral_add hp i1, i2]⟩

open MeasureTheory in
theorem integral_normal2_inner (a b c : ℝ) (ha : 0 < a) (hd : 0 < a * c - b ^ 2) (y : ℝ) :
    Integrable (fun x : ℝ => Spec.normal2 a b c x y) ∧ ∫ x : ℝ, Spec.normal2 a b c x y =
      √(Real.pi / (c / (2 * (a * c - b ^ 2)))) / (2 * Real.pi * √(a * c - b ^ 2)) * Real.exp (-(1 / (2 * c)) * y ^ 2) := by
  have hp := Real.pi_pos
  have hc : 0 < c := by nlinarith [sq_nonneg b]
  set D := a * c - b ^ 2 with hD
  have hs : 0 < √D := Real.sqrt_pos.mpr hd
  have e : ∀ x : ℝ, Spec.normal2 a b c x y =
      (Real.exp (-(1 / (2 * c)) * y ^ 2) / (2 * Real.pi * √D)) * Real.exp (-(c / (2 * D)) * (x - b * y / c) ^ 2) := by
    intro x
    unfold Spec.normal2
    rw [← hD, div_mul_eq_mul_div, ← Real.exp_add]
    congr 2
    field_simp
    rw [hD]; ring
  simp only [e]
  refine ⟨?_, ?_⟩
  · apply Integrable.const_mul
    exact (integrable_exp_neg_mul_sq (by positivity : 0 < c / (2 * D))).comp_sub_right (b * y / c)
  · rw [integral_const_mul, integral_sub_right_eq_self
      (fun x => Real.exp (-(c / (2 * D)) * x ^ 2)) (b * y / c), integral_gaussian]
    ring

open MeasureTheory in
theorem integral_normal2_outer (a b c : ℝ) (ha : 0 < a) (hd : 0 < a * c - b ^ 2) :
    Integrable (fun y : ℝ => ∫ x : ℝ, Spec.normal2 a b c x y) ∧ ∫ y : ℝ, ∫ x : ℝ, Spec.normal2 a b c x y = 1 := by
  have hp := Real.pi_pos
  have hc : 0 < c := by nlinarith [sq_nonneg b]
  simp only [fun y => (integral_normal2_inner a b c ha hd y).2]
  set D := a * c - b ^ 2 with hD
  have hs : 0 < √D := Real.sqrt_pos.mpr hd
  refine ⟨(integrable_exp_neg_mul_sq (by positivity : 0 < 1 / (2 * c))).const_mul _, ?_⟩
  rw [integral_const_mul, integral_gaussian]
  have e1 : Real.pi / (c / (2 * D)) = (2 * Real.pi) * D / c := by field_simp
  have e2 : Real.pi / (1 / (2 * c)) = (2 * Real.pi) * c := by field_simp
  rw [e1, e2, div_mul_eq_mul_div, ← Real.sqrt_mul (by positivity)]
  have e3 : 2 * Real.pi * D / c * (2 * Real.pi * c) = (2 * Real.pi) ^ 2 * D := by field_simp
  rw [e3, Real.sqrt_mul (by positivity), Real.sqrt_sq (by positivity)]
  exact div_self (by positivity)

open MeasureTheory in
/-- **C116** the density integrates to 1 over the plane. -/
theorem C116_integral (a b c : ℝ) (ha : 0 < a) (hd : 0 < a * c - b ^ 2) (pts : List (ℝ × ℝ)) (hne : pts ≠ []) :
    ∫ y : ℝ, ∫ x : ℝ, Spec.kdeAt a b c pts x y = 1 := by
  have hn : (pts.length : ℝ) ≠ 0 := by simpa using hne
  unfold Spec.kdeAt
  simp only [integral_div]
  have h1 : ∀ y : ℝ, ∫ x : ℝ, (pts.map (fun p => Spec.normal2 a b c (x - p.1) (y - p.2))).sum =
      (pts.map (fun p => ∫ x : ℝ, Spec.normal2 a b c x (y - p.2))).sum := by
    intro y
    rw [(integral_list_map_sum (fun (p : ℝ × ℝ) x => Spec.normal2 a b c (x - p.1) (y - p.2)) pts
      (fun p _ => (integral_normal2_inner a b c ha hd (y - p.2)).1.comp_sub_right p.1)).2]
    congr 1
    apply List.map_congr_left
    intro p _
    exact integral_sub_right_eq_self (fun x => Spec.normal2 a b c x (y - p.2)) p.1
  simp only [h1]
  rw [(integral_list_map_sum (fun (p : ℝ × ℝ) y => ∫ x : ℝ, Spec.normal2 a b c x (y - p.2)) pts
    (fun p _ => (integral_normal2_outer a b c ha hd).1.comp_sub_right p.2)).2]
  have h2 : pts.map (fun p => ∫ y : ℝ, ∫ x : ℝ, Spec.normal2 a b c x (y - p.2)) = List.replicate pts.length 1 := by
    rw [List.eq_replicate_iff]
    refine ⟨by simp, ?_⟩
    intro v hv
    obtain ⟨p, _, rfl⟩ := List.mem_map.mp hv
    rw [integral_sub_right_eq_self (fun y => ∫ x : ℝ, Spec.normal2 a b c x y) p.2]
    exact (integral_normal2_outer a b c ha hd).2
  rw [h2, List.sum_replicate, nsmul_eq_mul, mul_one, div_self hn]

/-- **C116** `kernel` computes its indices from that density (every float arithmetic): the first result of the two is
`kernel` with `kdeGrid` as its density estimate. -/
theorem C116_kernel_both {F : Type} [PyMath F] (chol : List (List F) → Py (List (List F))) (u w : List F) (g : Nat) :
    (kernelBoth chol u w g).map Prod.fst = kernel (kdeGrid chol g) u w g := by
  unfold kernelBoth kernel kdeGrid
  simp only [bind, Except.bind]
  cases npMin ((rotated u w).map Prod.fst) <;> [rfl; skip]
  cases npMax ((rotated u w).map Prod.fst) <;> [rfl; skip]
  cases npMin ((rotated u w).map Prod.snd) <;> [rfl; skip]
  cases npMax ((rotated u w).map Prod.snd) <;> [rfl; skip]
  simp only
  cases profile (meshX _ _) (meshY _ _) <;> [rfl; skip]
  simp only
  cases density chol [(rotated u w).map Prod.fst, (rotated u w).map Prod.snd] (rotated u w).length <;> [rfl; skip]
  simp only
  cases kernelCutoffs u w g _ _ _ <;> rfl

end Proadv.Props
