import Verif.Model.Spherical
import Verif.Spec.Cov
import Verif.Lemmas.Sets
import Verif.Lemmas.FlAlg
import Verif.Lemmas.Descriptive
import Mathlib.Tactic.LinearCombination

/-!
# Properties C59 (spherical), C72–C75, C105, C106: `filtration/detection/spherical.py`
-/

set_option linter.unusedSectionVars false

namespace Proadv.Props

open Proadv Fl Spherical

/-! ## Structure (every float arithmetic) -/

section generic
variable {F : Type} [PyMath F]

/-- entry `i` of `np.gradient` -/
def gradAt (a : List F) (i : Nat) : F :=
  if i = 0 then (a.getD 1 PyNum.nan -. a.getD 0 PyNum.nan) /. lit 1
  else if i + 1 = a.length then (a.getD i PyNum.nan -. a.getD (i - 1) PyNum.nan) /. lit 1
  else (a.getD (i + 1) PyNum.nan -. a.getD (i - 1) PyNum.nan) /. lit 2

def grad (a : List F) : List F := (List.range a.length).map (gradAt a)

theorem grad_length (a : List F) : (grad a).length = a.length := by simp [grad]

theorem npGradient_eq (a : List F) (h : 2 ≤ a.length) : npGradient a = .ok (grad a) := by
  unfold npGradient
  rw [if_neg (by omega)]; rfl

/-- centred, rounded series -/
def sphF (c : List F) : List F := c.map (fun x => PyNum.around (x -. npNanmean c) 4)

theorem sphF_length (c : List F) : (sphF c).length = c.length := by simp [sphF]

/-- rotation angle -/
def sphTheta (f : List F) : F :=
  PyNum.around (PyMath.arctan2 (PyNum.sum (List.zipWith (fun u v => u *. v) f (grad f)))
    (PyNum.sum ((grad (grad f)).map (fun v => v ^. 2)))) 4

/-- rotated points -/
def sphPts (f : List F) : List (F × F × F) := (f.zip ((grad f).zip (grad (grad f)))).map (rotate (sphTheta f))

theorem sphPts_length (f : List F) : (sphPts f).length = f.length := by
  simp [sphPts, grad_length]

/-- the detector applied to rotated points -/
def sphDetect (pts : List (F × F × F)) : List Nat :=
  spikeIndices pts (halfAxis pts.length (pts.map (fun p => p.1))) (halfAxis pts.length (pts.map (fun p => p.2.1)))
    (halfAxis pts.length (pts.map (fun p => p.2.2)))

theorem sph_eq (c : List F) (it : Int) (m : F) (h : 2 ≤ c.length) :
    sphericalThresholding c it m = .ok (sphDetect (sphPts (sphF c))) := by
  unfold sphericalThresholding
  rw [show (descript c it m).1 = sphF c from rfl]
  simp only [bind, Except.bind]
  rw [npGradient_eq _ (by rw [sphF_length]; exact h)]
  simp only
  rw [npGradient_eq _ (by rw [grad_length, sphF_length]; exact h)]
  rfl

/-- **C75** (every float arithmetic) fewer than two samples raise ValueError; from two samples on the call succeeds. -/
theorem C75_errors (c : List F) (it : Int) (m : F) :
    (c.length < 2 → sphericalThresholding c it m = .error .valueError) ∧
    (2 ≤ c.length → ∃ r, sphericalThresholding c it m = .ok r) := by
  constructor
  · intro h
    unfold sphericalThresholding npGradient
    rw [show (descript c it m).1 = sphF c from rfl]
    simp only [bind, Except.bind]
    rw [if_pos (by rw [sphF_length]; exact h)]
  · intro h; exact ⟨_, sph_eq c it m h⟩

/-- **C59** (every float arithmetic) the spherical detector returns strictly increasing in-range indices. -/
theorem C59_spherical (c : List F) (it : Int) (m : F) (r : List Nat) (h : sphericalThresholding c it m = .ok r) :
    r.Pairwise (· < ·) ∧ ∀ i ∈ r, i < c.length := by
  by_cases hn : 2 ≤ c.length
  · rw [sph_eq c it m hn] at h
    cases h
    refine ⟨whereTrue_sorted _, fun i hi => ?_⟩
    have := whereTrue_lt hi
    rw [List.length_map, sphPts_length, sphF_length] at this
    exact this
  · rw [(C75_errors c it m).1 (by omega)] at h; cases h

/-- **C72** (every float arithmetic) the arguments `iteration` and `c_mean` do not influence the result. -/
theorem C72_arguments (c : List F) (it it' : Int) (m m' : F) :
    sphericalThresholding c it m = sphericalThresholding c it' m' := rfl

end generic

/-! ## C72: offsets -/

private theorem add_sub_add (x m : Fl ℝ) (k : ℝ) : (x +. fin k) -. (m +. fin k) = x -. m := by
  cases x <;> cases m <;> simp [add_def, sub_def, Fl.add, Fl.sub, Fl.neg]

private theorem isNaN_add (x : Fl ℝ) (k : ℝ) : PyNum.isNaN (x +. fin k) = PyNum.isNaN x := by
  cases x <;> rfl

private theorem psum_shift (k : ℝ) (l : List (Fl ℝ)) :
    PyNum.sum (l.map (fun x => x +. fin k)) = PyNum.sum l +. fin (l.length * k) := by
  induction l with
  | nil => simp [psum_nil]
  | cons x t ih =>
    rw [List.map_cons, psum_cons, psum_cons, ih, List.length_cons]
    generalize PyNum.sum t = S
    cases x <;> cases S <;> simp [add_def, Fl.add]
    ring

private theorem npMean_shift (k : ℝ) {l : List (Fl ℝ)} (h : l ≠ []) :
    npMean (l.map (fun x => x +. fin k)) = npMean l +. fin k := by
  unfold npMean
  rw [psum_shift, List.length_map, ofNat_eq]
  have hn : (l.length : ℝ) ≠ 0 := by simpa using h
  have hp' : 0 ≤ (l.length : ℝ) := by positivity
  generalize (l.length : ℝ) = n at *
  cases PyNum.sum l with
  | fin a => rw [padd_fin, pdiv_fin hn, pdiv_fin hn, padd_fin]; congr 1; field_simp
  | nan => rfl
  | pinf => simp [add_def, Fl.add, div_def, Fl.div, hp']
  | ninf => simp [add_def, Fl.add, div_def, Fl.div, hp']

/-- **C72** adding a constant to the series changes nothing (for every series, NaN and infinities included). -/
theorem C72_offset (c : List (Fl ℝ)) (it : Int) (m : Fl ℝ) (k : ℝ) :
    sphericalThresholding (c.map (fun x => x +. fin k)) it m = sphericalThresholding c it m := by
  have hf : sphF (c.map (fun x => x +. fin k)) = sphF c := by
    unfold sphF
    rw [List.map_map]
    apply List.map_congr_left
    intro x hx
    simp only [Function.comp]
    congr 1
    unfold npNanmean
    have hfl : (c.map (fun x => x +. fin k)).filter (fun x => !(PyNum.isNaN x)) =
        (c.filter (fun x => !(PyNum.isNaN x))).map (fun x => x +. fin k) := by
      rw [List.filter_map]
      congr 1
      apply List.filter_congr
      intro y _
      simp only [Function.comp, isNaN_add]
    rw [hfl]
    by_cases he : c.filter (fun x => !(PyNum.isNaN x)) = []
    · rw [he]
      have : npMean ([] : List (Fl ℝ)) = nan := by simp [npMean, psum_nil, pdiv_fin', infSgn]
      rw [List.map_nil, this]; simp
    · rw [npMean_shift k he, add_sub_add]
  by_cases hn : 2 ≤ c.length
  · rw [sph_eq _ _ _ (by simpa using hn), sph_eq _ _ _ hn, hf]
  · rw [(C75_errors _ _ _).1 (by simp; omega), (C75_errors c _ _).1 (by omega)]

/-! ## C73: one non-finite sample disables the detector -/

private theorem around_nan : PyNum.around (nan : Fl ℝ) 4 = nan := rfl

private theorem beyond_nan (a b c y z : Fl ℝ) : beyond around4 a b c nan y z = false := by
  have h2 : (nan : Fl ℝ) ^. 2 = nan := rfl
  have ha : around4 (nan : Fl ℝ) = nan := rfl
  unfold beyond
  simp [h2, ha]

private theorem mean_pinf {l : List (Fl ℝ)} {v : Fl ℝ} (hv : v = pinf ∨ v = ninf) (h : v ∈ l) :
    npMean l = v ∨ npMean l = nan := by
  have hS : PyNum.sum l = v ∨ PyNum.sum l = nan := by
    induction l with
    | nil => simp at h
    | cons x t ih =>
      rw [psum_cons]
      rcases List.mem_cons.mp h with rfl | h
      · generalize PyNum.sum t = S
        rcases hv with rfl | rfl <;> cases S <;> simp [add_def, Fl.add]
      · rcases ih h with e | e <;> rw [e]
        · rcases hv with rfl | rfl <;> cases x <;> simp [add_def, Fl.add]
        · simp
  unfold npMean
  rw [ofNat_eq]
  rcases hS with e | e <;> rw [e]
  · rcases hv with rfl | rfl <;> simp [div_def, Fl.div]
  · right; rfl

private theorem grad_nan {a : List (Fl ℝ)} {i : Nat} (hi : i < a.length)
    (h : a.getD i PyNum.nan = nan) : ∃ j, j < a.length ∧ gradAt a j = nan ∧ (j = i - 1) := by
  refine ⟨i - 1, by omega, ?_, rfl⟩
  unfold gradAt
  rcases Nat.lt_or_ge 1 i with h1 | h1
  · rw [if_neg (by omega), if_neg (by omega), show i - 1 + 1 = i by omega, h]; simp
  · rw [if_pos (by omega)]
    rcases Nat.eq_zero_or_pos i with h0 | h0
    · subst h0; rw [h]; simp
    · have : i = 1 := by omega
      subst this; rw [h]; simp

/-- **C73** if any sample is NaN or infinite (at least 2 samples) the result is empty. -/
theorem C73_nonfinite (c : List (Fl ℝ)) (it : Int) (m : Fl ℝ) (hn : 2 ≤ c.length)
    (h : ∃ x ∈ c, x = nan ∨ x = pinf ∨ x = ninf) : sphericalThresholding c it m = .ok [] := by
  rw [sph_eq c it m hn]
  -- a NaN in the centred series
  obtain ⟨i, hi, hfi⟩ : ∃ i, ∃ hi : i < c.length, (sphF c).getD i PyNum.nan = nan := by
    obtain ⟨x, hx, hx'⟩ := h
    obtain ⟨i, hi, rfl⟩ := List.getElem_of_mem hx
    refine ⟨i, hi, ?_⟩
    have e : (sphF c).getD i PyNum.nan = PyNum.around (c[i] -. npNanmean c) 4 := by
      rw [List.getD_eq_getElem?_getD, List.getElem?_eq_getElem (by rw [sphF_length]; exact hi)]
      simp [sphF]
    rw [e]
    rcases hx' with h' | h'
    · rw [h']; simp [around_nan]
    · have hm : c[i] ∈ c.filter (fun x => !(PyNum.isNaN x)) := by
        rw [List.mem_filter]
        refine ⟨hx, ?_⟩
        rcases h' with h' | h' <;> rw [h'] <;> rfl
      have := mean_pinf h' hm
      unfold npNanmean
      rcases this with e | e
      · rw [e]
        rcases h' with h' | h' <;> rw [h'] <;> rfl
      · rw [e]; simp [around_nan]
  have hl := sphF_length c
  have hth : sphTheta (sphF c) = nan := by
    obtain ⟨j, hj, hg, -⟩ := grad_nan (by omega) hfi
    have hgj : (grad (sphF c))[j]? = some nan := by
      unfold grad
      rw [List.getElem?_map, List.getElem?_range hj]
      simp [hg]
    have hsum : PyNum.sum (List.zipWith (fun u v => u *. v) (sphF c) (grad (sphF c))) = (nan : Fl ℝ) := by
      apply psum_nan
      have : (List.zipWith (fun u v => u *. v) (sphF c) (grad (sphF c)))[j]? = some nan := by
        rw [List.getElem?_zipWith, hgj, List.getElem?_eq_getElem hj]
        simp
      exact List.mem_of_getElem? this
    unfold sphTheta
    rw [hsum]; rfl
  have hpts : ∀ p ∈ sphPts (sphF c), p.1 = nan := by
    intro p hp
    unfold sphPts at hp
    obtain ⟨q, -, rfl⟩ := List.mem_map.mp hp
    rw [hth]
    unfold rotate
    rw [if_neg (by simp)]
    simp [around_nan]
  congr 1
  unfold sphDetect spikeIndices
  apply List.eq_nil_iff_forall_not_mem.mpr
  intro j hj
  obtain ⟨p, hp, hb⟩ := mem_whereTrue_map.mp hj
  rw [hpts p (List.mem_of_getElem? hp), beyond_nan] at hb
  exact Bool.noConfusion hb

/-! ## C74 -/

/-- Specification: strictly outside the axis-parallel ellipsoid with half-axes `a`, `b`, `c`. -/
def OutsideEllipsoid (a b c x y z : ℝ) : Prop := 1 < (x / a) ^ 2 + (y / b) ^ 2 + (z / c) ^ 2

/-- **C74** with positive half-axes and no intermediate rounding, a point is flagged iff it lies outside the ellipsoid. -/
theorem C74_ellipsoid (a b c x y z : ℝ) (ha : 0 < a) (hb : 0 < b) (hc : 0 < c) :
    beyond (fun t : Fl ℝ => t) (fin a) (fin b) (fin c) (fin x) (fin y) (fin z) = true ↔ OutsideEllipsoid a b c x y z := by
  set S := (x / a) ^ 2 + (y / b) ^ 2 + (z / c) ^ 2 with hS
  have hS0 : 0 ≤ S := by positivity
  have hden : (a * c * y) ^ 2 + b ^ 2 * (c ^ 2 * x ^ 2 + a ^ 2 * z ^ 2) = (a * b * c) ^ 2 * S := by
    rw [hS]; field_simp; ring
  have hp : 0 < a * b * c := by positivity
  have hsq : √((a * b * c) ^ 2 * S) = a * b * c * √S := by
    rw [Real.sqrt_mul (by positivity), Real.sqrt_sq hp.le]
  unfold OutsideEllipsoid
  rw [← hS]
  have hdenF : PyMath.sqrt (((fin a *. fin c *. fin y) ^. 2) +. (fin b) ^. 2 *. ((fin c) ^. 2 *. (fin x) ^. 2 +.
      (fin a) ^. 2 *. (fin z) ^. 2)) = (fin (a * b * c * √S) : Fl ℝ) := by
    simp only [pmul_fin, pnpow_fin, padd_fin]
    rw [hden, psqrt_fin (by positivity), hsq]
  unfold beyond
  simp only
  rw [hdenF]
  by_cases h0 : S = 0
  · have hx : x = 0 := by
      have : (x / a) ^ 2 = 0 := by nlinarith [sq_nonneg (x / a), sq_nonneg (y / b), sq_nonneg (z / c)]
      have := pow_eq_zero_iff two_ne_zero |>.mp this
      rcases div_eq_zero_iff.mp this with h | h
      · exact h
      · exact absurd h ha.ne'
    rw [h0, Real.sqrt_zero, mul_zero, hx]
    simp only [pmul_fin, mul_zero]
    have e : (fin 0 : Fl ℝ) /. fin 0 = nan := by simp [pdiv_fin', infSgn]
    have h2 : (nan : Fl ℝ) ^. 2 = nan := rfl
    rw [e]
    simp [h2]
  · have hSp : 0 < S := lt_of_le_of_ne hS0 (Ne.symm h0)
    have hr : 0 < √S := Real.sqrt_pos.mpr hSp
    have hrS : √S ^ 2 = S := Real.sq_sqrt hS0
    have ex : fin a *. fin b *. fin c *. fin x /. fin (a * b * c * √S) = (fin (x / √S) : Fl ℝ) := by
      simp only [pmul_fin]
      rw [pdiv_fin (by positivity), mul_div_mul_left _ _ hp.ne']
    have ey : fin a *. fin b *. fin c *. fin y /. fin (a * b * c * √S) = (fin (y / √S) : Fl ℝ) := by
      simp only [pmul_fin]
      rw [pdiv_fin (by positivity), mul_div_mul_left _ _ hp.ne']
    have ez : fin c ^. 2 *. (lit 1 -. ((fin (x / √S)) /. fin a) ^. 2 -. ((fin (y / √S)) /. fin b) ^. 2) =
        (fin ((z / √S) ^ 2) : Fl ℝ) := by
      rw [pdiv_fin ha.ne', pdiv_fin hb.ne']
      simp only [pnpow_fin, lit_eq, psub_fin, pmul_fin, Rat.cast_one]
      congr 1
      have : (z / √S) ^ 2 = c ^ 2 * ((z / c) ^ 2 / S) := by rw [div_pow, hrS]; field_simp
      rw [this]
      congr 1
      have e1 : (x / √S / a) ^ 2 = (x / a) ^ 2 / S := by rw [div_pow, div_pow, hrS, div_pow]; field_simp
      have e2 : (y / √S / b) ^ 2 = (y / b) ^ 2 / S := by rw [div_pow, div_pow, hrS, div_pow]; field_simp
      rw [e1, e2]
      have : (z / c) ^ 2 = S - (x / a) ^ 2 - (y / b) ^ 2 := by rw [hS]; ring
      rw [this]
      field_simp
    rw [ex, ey, ez]
    have ezz : surfaceZ (fun t : Fl ℝ => t) (fin ((z / √S) ^ 2)) (fin z) ^. 2 = (fin ((z / √S) ^ 2) : Fl ℝ) := by
      unfold surfaceZ
      rw [psqrt_fin (sq_nonneg _), Real.sqrt_sq_eq_abs]
      rcases lt_trichotomy z 0 with hz | hz | hz
      · rw [if_pos (by simpa using hz)]
        simp
      · subst hz; simp
      · rw [if_neg (by simpa using hz.le), if_pos (by simpa using hz)]
        simp
    rw [ezz]
    simp only [pnpow_fin, padd_fin, psub_fin, lit_eq, plt_fin, Rat.cast_zero, decide_eq_true_eq]
    have e : (x / √S) ^ 2 + (y / √S) ^ 2 + (z / √S) ^ 2 = (x ^ 2 + y ^ 2 + z ^ 2) / S := by
      rw [div_pow, div_pow, div_pow, hrS]; ring
    rw [e]
    have hN : 0 < x ^ 2 + y ^ 2 + z ^ 2 := by
      by_contra hc'
      push Not at hc'
      have hx : x = 0 := by nlinarith [sq_nonneg x, sq_nonneg y, sq_nonneg z]
      have hy : y = 0 := by nlinarith [sq_nonneg x, sq_nonneg y, sq_nonneg z]
      have hz : z = 0 := by nlinarith [sq_nonneg x, sq_nonneg y, sq_nonneg z]
      apply h0
      rw [hS, hx, hy, hz]; simp
    rw [sub_neg, div_lt_iff₀ hSp, lt_mul_iff_one_lt_right hN]

example : OutsideEllipsoid 1 2 3 2 0 0 ∧ ¬ OutsideEllipsoid 1 2 3 (1 / 2) 1 1 := by
  unfold OutsideEllipsoid; norm_num

/-! ## Real series -/

/-- entry `i` of the numerical gradient -/
noncomputable def gradAtR (a : List ℝ) (i : Nat) : ℝ :=
  if i = 0 then a.getD 1 0 - a.getD 0 0
  else if i + 1 = a.length then a.getD i 0 - a.getD (i - 1) 0
  else (a.getD (i + 1) 0 - a.getD (i - 1) 0) / 2

/-- the numerical gradient (specification of `np.gradient`) -/
noncomputable def gradR (a : List ℝ) : List ℝ := (List.range a.length).map (gradAtR a)

theorem gradR_length (a : List ℝ) : (gradR a).length = a.length := by simp [gradR]

theorem grad_fins (a : List ℝ) (hn : 2 ≤ a.length) : grad (fins a) = (fins (gradR a) : List (Fl ℝ)) := by
  unfold grad gradR
  rw [fins, fins, List.map_map, List.length_map]
  apply List.map_congr_left
  intro i hi
  rw [List.mem_range] at hi
  have hg : ∀ k, k < a.length → (a.map fin).getD k PyNum.nan = (fin (a.getD k 0) : Fl ℝ) := by
    intro k hk
    simp [List.getD, hk]
  simp only [Function.comp]
  unfold gradAt gradAtR
  rw [List.length_map]
  split_ifs with h1 h2
  · rw [hg 1 (by omega), hg 0 (by omega), psub_fin, lit_eq, pdiv_fin (by norm_num)]; simp
  · rw [hg i hi, hg (i - 1) (by omega), psub_fin, lit_eq, pdiv_fin (by norm_num)]; simp
  · rw [hg (i + 1) (by omega), hg (i - 1) (by omega), psub_fin, lit_eq, pdiv_fin (by norm_num)]; simp

/-- centred series rounded to 4 decimals -/
noncomputable def centR (xs : List ℝ) : List ℝ := xs.map (fun x => aroundK (x - Spec.avg xs) 4)

theorem sphF_fins (xs : List ℝ) (h : xs ≠ []) : sphF (fins xs) = (fins (centR xs) : List (Fl ℝ)) := by
  have hm : npNanmean (fins xs) = (fin (Spec.avg xs) : Fl ℝ) := by
    unfold npNanmean
    rw [List.filter_eq_self.mpr]
    · exact npMean_fins xs h
    · intro x hx
      obtain ⟨y, _, rfl⟩ := List.mem_map.mp hx
      rfl
  unfold sphF centR
  rw [hm, fins, fins, List.map_map, List.map_map]
  rfl

/-! ## C105 -/

private theorem sum_mid (x : ℕ → ℝ) (k : ℕ) :
    ((List.range k).map (fun i => x (i + 1) * ((x (i + 2) - x i) / 2))).sum = (x k * x (k + 1) - x 0 * x 1) / 2 := by
  induction k with
  | zero => simp
  | succ k ih => rw [List.range_succ, List.map_append, List.sum_append, ih]; simp; ring

/-- **C105** the numerator `Σ c·dc` of the rotation angle telescopes: it only depends on the first two and the last two
samples. -/
theorem C105_telescope (a : List ℝ) (m : Nat) (hn : a.length = m + 2) :
    Spec.dot a (gradR a) =
      a.getD (m + 1) 0 ^ 2 - a.getD 0 0 ^ 2 + (a.getD 0 0 * a.getD 1 0 - a.getD m 0 * a.getD (m + 1) 0) / 2 := by
  have e : Spec.dot a (gradR a) = ((List.range (m + 2)).map (fun i => a.getD i 0 * gradAtR a i)).sum := by
    unfold Spec.dot gradR
    congr 1
    apply List.ext_getElem
    · simp [hn]
    · intro i h1 h2
      have hi : i < a.length := by simpa using h1
      simp [hi]
  rw [e, List.range_succ_eq_map, List.map_cons, List.sum_cons, List.map_map, List.range_succ, List.map_append,
    List.sum_append]
  have mid : ((List.range m).map ((fun i => a.getD i 0 * gradAtR a i) ∘ Nat.succ)) =
      (List.range m).map (fun i => a.getD (i + 1) 0 * ((a.getD (i + 2) 0 - a.getD i 0) / 2)) := by
    apply List.map_congr_left
    intro i hi
    rw [List.mem_range] at hi
    simp only [Function.comp, Nat.succ_eq_add_one]
    unfold gradAtR
    rw [if_neg (by omega), if_neg (by omega)]
    rfl
  rw [mid, sum_mid (fun i => a.getD i 0) m]
  simp only [List.map_cons, List.map_nil, List.sum_cons, List.sum_nil, Function.comp, Nat.succ_eq_add_one]
  unfold gradAtR
  rw [if_pos rfl, if_neg (by omega), if_pos (by omega), show m + 1 - 1 = m by omega]
  ring

private theorem zip_fins (f : Fl ℝ → Fl ℝ → Fl ℝ) (g : ℝ → ℝ → ℝ) (h : ∀ x y, f (fin x) (fin y) = fin (g x y))
    (xs ys : List ℝ) : List.zipWith f (fins xs) (fins ys) = fins (List.zipWith g xs ys) := by
  rw [List.zipWith_map, show fins (List.zipWith g xs ys) = _ from List.map_zipWith]
  congr 1; funext x y; exact h x y

/-- **C105** the angle `spherical_phasespace_thresholding` rotates by is the 4-decimal rounding of
`atan2(E, Σ dc2²)`, where `E` only involves the two first and two last centred samples. -/
theorem C105_angle (xs : List ℝ) (m : Nat) (hn : xs.length = m + 2) :
    sphTheta (sphF (fins xs)) = (fin (aroundK (Complex.arg
      ⟨((gradR (gradR (centR xs))).map (fun v => v ^ 2)).sum,
        (centR xs).getD (m + 1) 0 ^ 2 - (centR xs).getD 0 0 ^ 2 +
          ((centR xs).getD 0 0 * (centR xs).getD 1 0 - (centR xs).getD m 0 * (centR xs).getD (m + 1) 0) / 2⟩) 4) : Fl ℝ) := by
  have hx : xs ≠ [] := by rintro rfl; simp at hn
  have hl : (centR xs).length = m + 2 := by simp [centR, hn]
  unfold sphTheta
  rw [sphF_fins xs hx, grad_fins _ (by omega), grad_fins _ (by rw [gradR_length]; omega),
    zip_fins _ (fun x y => x * y) (fun _ _ => rfl)]
  have hq : (fins (gradR (gradR (centR xs)))).map (fun v : Fl ℝ => v ^. 2) =
      fins ((gradR (gradR (centR xs))).map (fun v => v ^ 2)) := by
    simp only [fins, List.map_map]
    apply List.map_congr_left
    intro x _; exact pnpow_fin x 2
  rw [hq, show PyNum.sum (fins (List.zipWith (fun x y => x * y) (centR xs) (gradR (centR xs)))) = (fin _ : Fl ℝ) from
    psum_fin _, show PyNum.sum (fins ((gradR (gradR (centR xs))).map (fun v => v ^ 2))) = (fin _ : Fl ℝ) from psum_fin _,
    parctan2_fin]
  rw [show (List.zipWith (fun x y => x * y) (centR xs) (gradR (centR xs))).sum = Spec.dot (centR xs) (gradR (centR xs))
    from rfl, C105_telescope _ m hl]
  rfl

/-- **C105** consequence: when the first and the last centred sample vanish no rotation takes place, whatever the interior
of the series. -/
theorem C105_no_rotation (xs : List ℝ) (m : Nat) (hn : xs.length = m + 2) (h0 : (centR xs).getD 0 0 = 0)
    (h1 : (centR xs).getD (m + 1) 0 = 0) :
    sphPts (sphF (fins xs)) = ((centR xs).zip ((gradR (centR xs)).zip (gradR (gradR (centR xs))))).map
      (fun p => ((fin p.1 : Fl ℝ), (fin p.2.1 : Fl ℝ), (fin p.2.2 : Fl ℝ))) := by
  have hx : xs ≠ [] := by rintro rfl; simp at hn
  have hl : (centR xs).length = m + 2 := by simp [centR, hn]
  have ht : sphTheta (sphF (fins xs)) = (fin 0 : Fl ℝ) := by
    rw [C105_angle xs m hn, h0, h1]
    congr 1
    have hS : 0 ≤ ((gradR (gradR (centR xs))).map (fun v => v ^ 2)).sum := by
      apply List.sum_nonneg
      intro y hy
      obtain ⟨x, _, rfl⟩ := List.mem_map.mp hy
      positivity
    have : (⟨((gradR (gradR (centR xs))).map (fun v => v ^ 2)).sum, 0 ^ 2 - 0 ^ 2 +
        (0 * (centR xs).getD 1 0 - (centR xs).getD m 0 * 0) / 2⟩ : ℂ) =
        ((((gradR (gradR (centR xs))).map (fun v => v ^ 2)).sum : ℝ) : ℂ) := by
      apply Complex.ext <;> simp
    rw [this, Complex.arg_ofReal_of_nonneg hS, aroundK_zero]
  unfold sphPts
  rw [ht, sphF_fins xs hx, grad_fins _ (by omega), grad_fins _ (by rw [gradR_length]; omega), fins, fins, fins,
    List.zip_map, List.zip_map, List.map_map]
  apply List.map_congr_left
  intro p _
  simp only [Function.comp, Prod.map]
  unfold rotate
  rw [if_pos (by simp)]

/-- the hypotheses are met by a non-trivial series -/
example : (centR [0, 1, -1, 0]).getD 0 0 = 0 ∧ (centR [0, 1, -1, 0]).getD (2 + 1) 0 = 0 := by
  have : Spec.avg [0, 1, -1, 0] = (0 : ℝ) := by norm_num [Spec.avg]
  unfold centR
  rw [this]
  constructor <;> simp [aroundK_zero]

/-! ## C75: constant series -/

/-- **C75** a constant series flags nothing. -/
theorem C75_constant (n : Nat) (k : ℝ) (it : Int) (mean : Fl ℝ) (hn : 2 ≤ n) :
    sphericalThresholding (fins (List.replicate n k)) it mean = .ok [] := by
  have hc : centR (List.replicate n k) = List.replicate n 0 := by
    have hne : List.replicate n k ≠ [] := by simpa using (by omega : n ≠ 0)
    have ha : Spec.avg (List.replicate n k) = k := by
      have := Spec.avg_const k hne
      simpa using this
    unfold centR
    rw [ha, List.map_replicate, sub_self, aroundK_zero]
  have hg : gradR (List.replicate n (0 : ℝ)) = List.replicate n 0 := by
    unfold gradR
    apply List.ext_getElem
    · simp
    · intro i h1 h2
      have e : ∀ j, (List.replicate n (0 : ℝ)).getD j 0 = 0 := by
        intro j
        rw [List.getD_eq_getElem?_getD, List.getElem?_replicate]
        split_ifs <;> rfl
      simp only [List.getElem_map, List.getElem_range, gradAtR, e, sub_zero, zero_div, ite_self, List.getElem_replicate]
  obtain ⟨m, rfl⟩ : ∃ m, n = m + 2 := ⟨n - 2, by omega⟩
  have e0 : ∀ j, (List.replicate (m + 2) (0 : ℝ)).getD j 0 = 0 := by
    intro j
    rw [List.getD_eq_getElem?_getD, List.getElem?_replicate]
    split_ifs <;> rfl
  rw [sph_eq _ _ _ (by simp)]
  have hp := C105_no_rotation (List.replicate (m + 2) k) m (by simp) (by rw [hc]; exact e0 _) (by rw [hc]; exact e0 _)
  rw [hc, hg, hg] at hp
  have hp' : sphPts (sphF (fins (List.replicate (m + 2) k))) =
      List.replicate (m + 2) ((fin 0 : Fl ℝ), (fin 0 : Fl ℝ), (fin 0 : Fl ℝ)) := by
    rw [hp]
    simp
  rw [hp']
  congr 1
  unfold sphDetect spikeIndices
  apply List.eq_nil_iff_forall_not_mem.mpr
  intro j hj
  obtain ⟨p, hpj, hb⟩ := mem_whereTrue_map.mp hj
  have := List.eq_of_mem_replicate (List.mem_of_getElem? hpj)
  subst this
  simp only at hb
  -- at the origin `x2` is `0 / sqrt(..)`, and the half-axes are zero
  have hh : ∀ l : List (Fl ℝ), l = List.replicate (m + 2) (fin 0) →
      halfAxis (m + 2) l = fin 0 := by
    rintro l rfl
    have hs : npNanstd (List.replicate (m + 2) (fin 0 : Fl ℝ)) = fin 0 := by
      unfold npNanstd
      have hf : (List.replicate (m + 2) (fin 0 : Fl ℝ)).filter (fun x => !(PyNum.isNaN x)) = fins (List.replicate (m + 2) 0) := by
        rw [List.filter_replicate_of_pos (by rfl), fins, List.map_replicate]
      rw [hf, npStd_fins _ (by simp)]
      have : Spec.var (List.replicate (m + 2) (0 : ℝ)) = 0 := Spec.var_eq_zero.mpr (by
        intro x hx y hy
        rw [List.eq_of_mem_replicate hx, List.eq_of_mem_replicate hy])
      rw [this, Real.sqrt_zero]
    unfold halfAxis
    have hlog : 0 ≤ Real.log ((m + 2 : ℕ) : ℝ) := Real.log_nonneg (by push_cast; linarith [Nat.cast_nonneg (α := ℝ) m])
    rw [hs, ofNat_eq, plog_fin (by positivity), lit_eq, pmul_fin, psqrt_fin (by
      push_cast at hlog ⊢; linarith), paround_fin, pmul_fin, mul_zero, paround_fin, aroundK_zero]
  rw [List.length_replicate, List.map_replicate, List.map_replicate, List.map_replicate, hh _ rfl] at hb
  have h00 : around4 ((fin 0 : Fl ℝ) /. fin 0) = nan := by simp [pdiv_fin', infSgn, around4, around_nan]
  have h2 : (nan : Fl ℝ) ^. 2 = nan := rfl
  unfold beyond at hb
  simp only [pmul_fin, mul_zero, pnpow_fin, padd_fin, add_zero, ne_eq, OfNat.ofNat_ne_zero, not_false_eq_true, zero_pow,
    psqrt_fin le_rfl, Real.sqrt_zero, h00, h2, nan_add, nan_sub, nan_lt] at hb
  exact Bool.noConfusion hb

/-! ## C106: sign flip -/

private theorem pneg_div (a b : Fl ℝ) : PyNum.neg a /. b = PyNum.neg (a /. b) := by
  cases b with
  | fin b =>
    by_cases h : b = 0
    · subst h
      cases a with
      | fin a => rw [pneg_fin, pdiv_fin', pdiv_fin', if_pos rfl, if_pos rfl, infSgn_neg]; rfl
      | nan => rfl
      | pinf => simp [neg_def, div_def, Fl.div, Fl.neg]
      | ninf => simp [neg_def, div_def, Fl.div, Fl.neg]
    · exact pneg_div_fin a h
  | nan => simp
  | pinf => cases a <;> simp [neg_def, div_def, Fl.div, Fl.neg]
  | ninf => cases a <;> simp [neg_def, div_def, Fl.div, Fl.neg]

/-- point reflection -/
noncomputable def negP (p : Fl ℝ × Fl ℝ × Fl ℝ) : Fl ℝ × Fl ℝ × Fl ℝ := (PyNum.neg p.1, PyNum.neg p.2.1, PyNum.neg p.2.2)

private theorem rotate_neg (t : Fl ℝ) (p : Fl ℝ × Fl ℝ × Fl ℝ) : rotate t (negP p) = negP (rotate t p) := by
  unfold rotate
  split_ifs with h
  · rfl
  · simp only [negP, pneg_mul, pneg_add, paround_neg]

private theorem around4_neg (x : Fl ℝ) : around4 (PyNum.neg x) = PyNum.neg (around4 x) := paround_neg x 4

private theorem neg_lt_zero_iff (z : Fl ℝ) : (PyNum.neg z <. lit 0) = ((lit 0 : Fl ℝ) <. z) := by
  cases z <;> simp [neg_def, Fl.neg, PyNum.lt, Fl.lt]

private theorem zero_lt_neg_iff (z : Fl ℝ) : ((lit 0 : Fl ℝ) <. PyNum.neg z) = (z <. lit 0) := by
  cases z <;> simp [neg_def, Fl.neg, PyNum.lt, Fl.lt]

private theorem lt_asymm' (z : Fl ℝ) (h : (z <. lit 0) = true) : ((lit 0 : Fl ℝ) <. z) = false := by
  cases z <;> simp_all [PyNum.lt, Fl.lt]
  linarith

private theorem surfaceZ_neg (zt z : Fl ℝ) : surfaceZ around4 zt (PyNum.neg z) ^. 2 = surfaceZ around4 zt z ^. 2 := by
  unfold surfaceZ
  rw [neg_lt_zero_iff, zero_lt_neg_iff]
  by_cases h : (z <. lit 0) = true
  · rw [if_neg (by rw [lt_asymm' z h]; simp), if_pos h, if_pos h, pneg_sq]
  · by_cases h' : ((lit 0 : Fl ℝ) <. z) = true
    · rw [if_pos h', if_neg h, if_pos h', pneg_sq]
    · rw [if_neg h', if_neg h, if_neg h, if_neg h']

private theorem beyond_neg (a b c : Fl ℝ) (p : Fl ℝ × Fl ℝ × Fl ℝ) :
    beyond around4 a b c (negP p).1 (negP p).2.1 (negP p).2.2 = beyond around4 a b c p.1 p.2.1 p.2.2 := by
  unfold beyond negP
  simp only [pmul_neg, pneg_sq, pneg_div, around4_neg, surfaceZ_neg]

private theorem halfAxis_neg (n : Nat) (l : List (Fl ℝ)) : halfAxis n (l.map PyNum.neg) = halfAxis n l := by
  have : npNanstd (l.map PyNum.neg) = npNanstd l := by
    unfold npNanstd
    rw [List.filter_map]
    have e : ((fun x => !(PyNum.isNaN x)) ∘ PyNum.neg : Fl ℝ → Bool) = fun x => !(PyNum.isNaN x) := by
      funext x; cases x <;> rfl
    rw [e]
    by_cases h : l.filter (fun x => !(PyNum.isNaN x)) = []
    · rw [h]; rfl
    · exact npStd_neg h
  unfold halfAxis
  rw [this]

private theorem nonfin_or (c : List (Fl ℝ)) : (∃ x ∈ c, x = nan ∨ x = pinf ∨ x = ninf) ∨ ∃ xs, c = fins xs := by
  induction c with
  | nil => exact Or.inr ⟨[], rfl⟩
  | cons x t ih =>
    rcases ih with ⟨y, hy, h⟩ | ⟨xs, rfl⟩
    · exact Or.inl ⟨y, List.mem_cons_of_mem _ hy, h⟩
    · cases x with
      | fin a => exact Or.inr ⟨a :: xs, rfl⟩
      | nan => exact Or.inl ⟨nan, by simp, by simp⟩
      | pinf => exact Or.inl ⟨pinf, by simp, by simp⟩
      | ninf => exact Or.inl ⟨ninf, by simp, by simp⟩

private theorem getD_map_neg (a : List ℝ) (i : Nat) : (a.map (fun x => -x)).getD i 0 = -a.getD i 0 := by
  rw [List.getD_eq_getElem?_getD, List.getD_eq_getElem?_getD, List.getElem?_map]
  cases a[i]? <;> simp

private theorem gradR_neg (a : List ℝ) : gradR (a.map (fun x => -x)) = (gradR a).map (fun x => -x) := by
  unfold gradR
  rw [List.map_map, List.length_map]
  apply List.map_congr_left
  intro i _
  simp only [Function.comp]
  unfold gradAtR
  rw [List.length_map]
  simp only [getD_map_neg]
  split_ifs <;> ring

private theorem centR_neg (xs : List ℝ) : centR (xs.map (fun x => -x)) = (centR xs).map (fun x => -x) := by
  unfold centR
  have : Spec.avg (xs.map (fun x => -x)) = -Spec.avg xs := by
    have := Spec.avg_mul (-1) xs
    simpa using this
  rw [this, List.map_map, List.map_map]
  apply List.map_congr_left
  intro x _
  simp only [Function.comp]
  rw [← aroundK_neg]; congr 1; ring

/-- **C106** flipping the sign of the series does not change the flagged samples (for every series, NaN and infinities
included). -/
theorem C106_sign (c : List (Fl ℝ)) (it : Int) (m : Fl ℝ) :
    sphericalThresholding (c.map PyNum.neg) it m = sphericalThresholding c it m := by
  by_cases hn : 2 ≤ c.length
  swap
  · rw [(C75_errors _ _ _).1 (by simp; omega), (C75_errors c _ _).1 (by omega)]
  rcases nonfin_or c with h | ⟨xs, rfl⟩
  · rw [C73_nonfinite c it m hn h, C73_nonfinite _ it m (by simpa using hn)]
    obtain ⟨x, hx, h⟩ := h
    refine ⟨PyNum.neg x, List.mem_map.mpr ⟨x, hx, rfl⟩, ?_⟩
    rcases h with rfl | rfl | rfl <;> simp [neg_def, Fl.neg]
  · have hnx : 2 ≤ xs.length := by simpa using hn
    have hx : xs ≠ [] := by rintro rfl; simp at hnx
    have hneg : (fins xs).map PyNum.neg = (fins (xs.map (fun x => -x)) : List (Fl ℝ)) := by
      simp only [fins, List.map_map]
      apply List.map_congr_left
      intro x _; rfl
    obtain ⟨k, hk⟩ : ∃ k, xs.length = k + 2 := ⟨xs.length - 2, by omega⟩
    have hcl : (centR xs).length = xs.length := by simp [centR]
    have ht : sphTheta (sphF (fins (xs.map (fun x => -x)))) = (sphTheta (sphF (fins xs)) : Fl ℝ) := by
      rw [C105_angle (xs.map (fun x => -x)) k (by simpa using hk), C105_angle xs k hk, centR_neg, gradR_neg, gradR_neg]
      simp only [getD_map_neg, List.map_map, Function.comp_def, neg_sq, neg_mul_neg]
    have hp : sphPts (sphF (fins (xs.map (fun x => -x)))) = (sphPts (sphF (fins xs)) : List (Fl ℝ × Fl ℝ × Fl ℝ)).map negP := by
      unfold sphPts
      rw [ht, List.map_map]
      have hr : (negP ∘ rotate (sphTheta (sphF (fins xs)))) = (rotate (sphTheta (sphF (fins xs))) ∘ negP) := by
        funext p; exact (rotate_neg _ p).symm
      rw [hr, ← List.map_map]
      congr 1
      rw [sphF_fins _ (by simpa using hx), sphF_fins xs hx, centR_neg, grad_fins _ (by simp; omega), gradR_neg,
        grad_fins _ (by simp [gradR_length]; omega), gradR_neg, grad_fins (centR xs) (by omega),
        grad_fins (gradR (centR xs)) (by rw [gradR_length]; omega)]
      apply List.ext_getElem
      · simp
      · intro i h1 h2
        simp [negP]
    rw [hneg, sph_eq _ _ _ (by simpa using hnx), sph_eq _ _ _ hn, hp]
    congr 1
    unfold sphDetect spikeIndices
    simp only [List.map_map, List.length_map]
    have e1 : (fun p : Fl ℝ × Fl ℝ × Fl ℝ => p.1) ∘ negP = PyNum.neg ∘ fun p => p.1 := rfl
    have e2 : (fun p : Fl ℝ × Fl ℝ × Fl ℝ => p.2.1) ∘ negP = PyNum.neg ∘ fun p => p.2.1 := rfl
    have e3 : (fun p : Fl ℝ × Fl ℝ × Fl ℝ => p.2.2) ∘ negP = PyNum.neg ∘ fun p => p.2.2 := rfl
    have ha : ∀ (n : Nat) (f : Fl ℝ × Fl ℝ × Fl ℝ → Fl ℝ) (l : List (Fl ℝ × Fl ℝ × Fl ℝ)),
        halfAxis n (l.map (PyNum.neg ∘ f)) = halfAxis n (l.map f) := by
      intro n f l
      rw [← List.map_map, halfAxis_neg]
    rw [e1, e2, e3, ha, ha, ha]
    congr 1
    apply List.map_congr_left
    intro p _
    exact beyond_neg _ _ _ p

end Proadv.Props
