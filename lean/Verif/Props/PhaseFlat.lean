import Verif.Props.Phase2
import Verif.Props.Spherical2

/-!
# C136: the rounded derivatives make `phasespace_thresholding` depend on the unit of velocity
-/

set_option linter.unusedSectionVars false
set_option linter.unusedSimpArgs false

namespace Proadv.Props

open Proadv Fl Detect

private theorem mem_zip_zero (xs : List ℝ) (n : Nat) :
    (List.zipWith (fun x y : ℝ => x * y) xs (List.replicate n 0)).sum = 0 := by
  induction xs generalizing n with
  | nil => simp
  | cons x t ih =>
    cases n with
    | zero => simp
    | succ n => simp [List.replicate_succ, ih n]

private theorem cdiff_zeros (b : Bool) (n : Nat) : cdiff b (List.replicate n (0 : ℝ)) = List.replicate n 0 := by
  unfold cdiff
  apply List.ext_getElem
  · simp
  · intro i h1 h2
    have hi : i < n := by simpa using h1
    simp only [List.getElem_map, List.getElem_range, List.getElem_replicate, List.length_replicate]
    split_ifs with h
    · have e : ∀ j, j < n → (List.replicate n (0 : ℝ)).getD j 0 = 0 := by
        intro j hj; simp [List.getD, hj]
      rw [e _ h.2, e _ (by omega), sub_self, zero_div, aroundK_zero]
      cases b <;> simp [storeK, truncK]
    · rfl

/-- **C136** when every rounded first derivative is 0, nothing is flagged, whatever the samples are: the axes of all three
ellipses degenerate and every comparison is with NaN. -/
theorem C136_flat (b : Bool) (xs : List ℝ) (hne : xs ≠ []) (hz : ∀ y ∈ cdiff b xs, y = 0) :
    phasespaceThresholding ⟨1, b, fins xs⟩ = .ok [] := by
  have hz : cdiff b xs = List.replicate xs.length 0 :=
    List.eq_replicate_iff.mpr ⟨cdiff_length b xs, hz⟩
  have hn : 0 < xs.length := List.length_pos_iff.mpr hne
  have hr0 : List.replicate xs.length (0 : ℝ) ≠ [] := by simpa using hne
  have hs0 : npStd (fins (List.replicate xs.length (0 : ℝ))) = (fin 0 : Fl ℝ) := by
    rw [npStd_fins _ hr0, Spec.var_eq_zero.mpr (by
      intro x hx y hy
      rw [List.eq_of_mem_replicate hx, List.eq_of_mem_replicate hy]), Real.sqrt_zero]
  obtain ⟨r, hr⟩ := (C64_errors (⟨1, b, fins xs⟩ : Arr (Fl ℝ))).1.mpr ⟨rfl, by simpa using hne⟩
  rw [hr]
  congr 1
  apply List.eq_nil_iff_forall_not_mem.mpr
  intro i hi
  obtain ⟨x, y, z, hx, hy, hz', ho⟩ := ((C64_char b _ r hr).2 i).mp hi
  have e1 : centralDiff b (fins xs) = (fins (List.replicate xs.length 0) : List (Fl ℝ)) := by
    rw [show centralDiff b (fins xs) = _ from centralDiff_fins b _, hz]
  have e2 : centralDiff b (fins (List.replicate xs.length (0 : ℝ))) = (fins (List.replicate xs.length 0) : List (Fl ℝ)) := by
    rw [show centralDiff b (fins (List.replicate xs.length (0 : ℝ))) = _ from centralDiff_fins b _, cdiff_zeros]
  rw [e1] at hy
  rw [e1, e2] at hz'
  have rep : ∀ w : Fl ℝ, (fins (List.replicate xs.length (0 : ℝ)))[i]? = some w → w = fin 0 := by
    intro w hw
    obtain ⟨u, hu, rfl⟩ := (fins_get _ _ _).mp hw
    rw [List.eq_of_mem_replicate (List.mem_of_getElem? hu)]
  obtain ⟨x, -, rfl⟩ := (fins_get _ _ _).mp hx
  obtain rfl := rep _ hy
  obtain rfl := rep _ hz'
  have el : (lambdaOf (fins xs).length : Fl ℝ) = fin √(2 * Real.log xs.length) := by
    rw [List.length_map]; exact lambdaOf_fin hn
  obtain ⟨a, a1⟩ : ∃ a, (phaseP b (fins xs) : PhaseParams (Fl ℝ)).a1 = fin a := by
    refine ⟨√(2 * Real.log xs.length) * √(Spec.var xs), ?_⟩
    show lambdaOf _ *. npStd _ = _
    rw [npStd_fins _ hne, el, pmul_fin]
  have b1 : (phaseP b (fins xs) : PhaseParams (Fl ℝ)).b1 = fin 0 := by
    show lambdaOf _ *. npStd _ = _
    rw [e1, hs0, el, pmul_fin, mul_zero]
  have b2 : (phaseP b (fins xs) : PhaseParams (Fl ℝ)).b2 = fin 0 := by
    show lambdaOf _ *. npStd _ = _
    rw [e1, e2, hs0, el, pmul_fin, mul_zero]
  have hd0 : (((fin 0 : Fl ℝ) /. fin 0) ^. 2) = nan := by simp [pdiv_fin', infSgn, npow_def, Fl.npow]
  have c0 : (PyMath.cos (lit 0) : Fl ℝ) = fin 1 := by simp
  have s0 : (PyMath.sin (lit 0) : Fl ℝ) = fin 0 := by simp
  rcases ho with ho | ho | ho
  · rw [b1] at ho
    unfold rhoAt rotX rotY at ho
    rw [c0, s0] at ho
    simp [hd0] at ho
  · rw [b2] at ho
    unfold rhoAt rotX rotY at ho
    rw [c0, s0] at ho
    simp [hd0] at ho
  · have ht : (phaseP b (fins xs) : PhaseParams (Fl ℝ)).theta = fin 0 ∨
        (phaseP b (fins xs) : PhaseParams (Fl ℝ)).theta = nan := by
      show phaseAngle _ _ = _ ∨ phaseAngle _ _ = _
      rw [e1, e2]
      have hsum0 := mem_zip_zero xs xs.length
      by_cases hq : (xs.map (fun x => x ^ 2)).sum = 0
      · right
        unfold phaseAngle
        rw [zipWith_fins _ (fun x y => x * y) (fun _ _ => rfl), map_fins _ (fun x => x ^ 2) (fun x => pnpow_fin x 2)]
        rw [show PyNum.sum (fins (List.zipWith (fun x y => x * y) xs (List.replicate xs.length 0))) =
          (fin _ : Fl ℝ) from psum_fin _,
          show PyNum.sum (fins (xs.map (fun x => x ^ 2))) = (fin _ : Fl ℝ) from psum_fin _, hq, hsum0]
        simp [pdiv_fin', infSgn]
      · left
        rw [phaseAngle_fins _ _ hq]
        unfold slope
        rw [hsum0, zero_div, Real.arctan_zero]
    rcases ht with ht | ht
    · have b3 : (phaseP b (fins xs) : PhaseParams (Fl ℝ)).b3 = fin 0 := by
        have : (phaseP b (fins xs) : PhaseParams (Fl ℝ)).b3 =
            PyMath.sqrt (((phaseP b (fins xs) : PhaseParams (Fl ℝ)).b2) ^. 2 *.
              PyMath.cos (phaseP b (fins xs) : PhaseParams (Fl ℝ)).theta ^. 2 -.
              (phaseP b (fins xs) : PhaseParams (Fl ℝ)).a1 ^. 2 *.
              PyMath.sin (phaseP b (fins xs) : PhaseParams (Fl ℝ)).theta ^. 2) /.
              fact (phaseP b (fins xs) : PhaseParams (Fl ℝ)).theta := rfl
        rw [this, ht, a1, b2, fact_fin]
        simp only [pcos_fin, psin_fin, pnpow_fin, pmul_fin, psub_fin, Real.cos_zero, Real.sin_zero]
        rw [psqrt_fin (by norm_num), pdiv_fin (by norm_num)]
        norm_num
      rw [ht, b3] at ho
      unfold rhoAt rotX rotY at ho
      simp only [pcos_fin, psin_fin, Real.cos_zero, Real.sin_zero, pmul_fin, mul_one, mul_zero, psub_fin, sub_zero, hd0,
        add_nan, lt_nan] at ho
      exact Bool.noConfusion ho
    · rw [ht] at ho
      unfold rhoAt rotX rotY at ho
      simp [npow_def, Fl.npow] at ho

private theorem cdiff_mem {b : Bool} {xs : List ℝ} {y : ℝ} (h : y ∈ cdiff b xs) :
    y = 0 ∨ ∃ i l r, xs[i]? = some l ∧ xs[i + 2]? = some r ∧ y = storeK b (aroundK ((r - l) / 2) 4) := by
  unfold cdiff at h
  obtain ⟨i, -, rfl⟩ := List.mem_map.mp h
  split_ifs with hc
  · right
    have h1 : i - 1 < xs.length := by omega
    have h2 : i - 1 + 2 = i + 1 := by omega
    refine ⟨i - 1, xs[i - 1], xs[i + 1], List.getElem?_eq_getElem h1, ?_, ?_⟩
    · rw [h2]; exact List.getElem?_eq_getElem hc.2
    · simp [List.getD, h1, hc.2]
  · left; rfl

/-- **C136** if samples two apart differ by less than 0.0001, nothing is flagged.  The samples themselves may be
arbitrarily far from the mean: even and odd samples may lie on different levels. -/
theorem C136_fine (b : Bool) (xs : List ℝ) (hne : xs ≠ [])
    (h : ∀ i l r, xs[i]? = some l → xs[i + 2]? = some r → |r - l| < 1 / 10000) :
    phasespaceThresholding ⟨1, b, fins xs⟩ = .ok [] := by
  refine C136_flat b xs hne (fun y hy => ?_)
  rcases cdiff_mem hy with h0 | ⟨i, l, r, hl, hr, rfl⟩
  · exact h0
  · have hlt := h i l r hl hr
    have : aroundK ((r - l) / 2) 4 = 0 := by
      have := around4_eq ((r - l) / 2) 0 (by
        rw [abs_lt] at hlt ⊢; push_cast; constructor <;> linarith [hlt.1, hlt.2])
      simpa using this
    rw [this]
    cases b <;> simp [storeK, truncK]

/-- **C136** an integer array is blind to steps of 1: the derivatives are stored as integers, so if samples two apart differ
by at most 1 nothing is flagged. -/
theorem C136_integers (xs : List ℤ) (hne : xs ≠ [])
    (h : ∀ i l r, xs[i]? = some l → xs[i + 2]? = some r → |r - l| ≤ 1) :
    phasespaceThresholding ⟨1, true, fins (xs.map (fun z : ℤ => (z : ℝ)))⟩ = .ok [] := by
  refine C136_flat true _ (by simpa using hne) (fun y hy => ?_)
  rcases cdiff_mem hy with h0 | ⟨i, l, r, hl, hr, rfl⟩
  · exact h0
  · rw [List.getElem?_map] at hl hr
    obtain ⟨l', hl', rfl⟩ := Option.map_eq_some_iff.mp hl
    obtain ⟨r', hr', rfl⟩ := Option.map_eq_some_iff.mp hr
    have hlt := abs_le.mp (h i l' r' hl' hr')
    have hcast : ((r' : ℝ) - l') / 2 = ((5000 * (r' - l') : ℤ) : ℝ) / 10000 := by push_cast; ring
    have hr4 : aroundK (((r' : ℝ) - l') / 2) 4 = ((r' : ℝ) - l') / 2 := by
      rw [hcast]
      exact around4_eq _ _ (by simp)
    rw [hr4]
    have hd : r' - l' = -1 ∨ r' - l' = 0 ∨ r' - l' = 1 := by omega
    have hd' : (r' : ℝ) - l' = -1 ∨ (r' : ℝ) - l' = 0 ∨ (r' : ℝ) - l' = 1 := by
      rcases hd with hd | hd | hd
      · left; exact_mod_cast hd
      · right; left; exact_mod_cast hd
      · right; right; exact_mod_cast hd
    rcases hd' with hd | hd | hd <;> rw [hd] <;> norm_num [storeK, truncK]

/-- **C136** every series has a unit in which nothing is flagged: below some positive scale the answer is empty. -/
theorem C136_small_unit (xs : List ℝ) (hne : xs ≠ []) :
    ∃ e : ℝ, 0 < e ∧ ∀ c : ℝ, |c| ≤ e → phasespaceThresholding ⟨1, false, fins (xs.map (fun x => c * x))⟩ = .ok [] := by
  obtain ⟨B, hB0, hB⟩ : ∃ B : ℝ, 0 < B ∧ ∀ x ∈ xs, |x| ≤ B := by
    refine ⟨1 + (xs.map (fun x => |x|)).sum, ?_, fun x hx => ?_⟩
    · have : 0 ≤ (xs.map (fun x => |x|)).sum := List.sum_nonneg (by
        intro y hy; obtain ⟨x, -, rfl⟩ := List.mem_map.mp hy; exact abs_nonneg x)
      linarith
    · have := List.single_le_sum (l := xs.map (fun x => |x|)) (by
        intro y hy; obtain ⟨x, -, rfl⟩ := List.mem_map.mp hy; exact abs_nonneg x) (|x|) (List.mem_map.mpr ⟨x, hx, rfl⟩)
      linarith
  refine ⟨1 / (30000 * B), by positivity, fun c hc => C136_fine false _ (by simpa using hne) ?_⟩
  intro i l r hl hr
  rw [List.getElem?_map] at hl hr
  obtain ⟨l', hl', rfl⟩ := Option.map_eq_some_iff.mp hl
  obtain ⟨r', hr', rfl⟩ := Option.map_eq_some_iff.mp hr
  have h1 := hB l' (List.mem_of_getElem? hl')
  have h2 := hB r' (List.mem_of_getElem? hr')
  have h3 : |r' - l'| ≤ 2 * B := by
    have := abs_sub r' l'
    linarith
  rw [← mul_sub, abs_mul]
  calc |c| * |r' - l'| ≤ 1 / (30000 * B) * (2 * B) := by gcongr
    _ = 1 / 15000 := by field_simp; norm_num
    _ < 1 / 10000 := by norm_num

/-- **C136** so the detection depends on the unit: some series has flagged samples, and none when all velocities are
expressed in another unit. -/
theorem C136_unit_dependent :
    ∃ (xs : List ℝ) (c : ℝ) (r : List Nat), 0 < c ∧ phasespaceThresholding ⟨1, false, fins xs⟩ = .ok r ∧ r ≠ [] ∧
      phasespaceThresholding ⟨1, false, fins (xs.map (fun x => c * x))⟩ = .ok [] := by
  obtain ⟨xs, o, r, r', -, h2, -, h4⟩ := C66_not_offset_invariant
  have hne : xs.map (fun x => x + o) ≠ [] := by
    have := ((C64_errors (⟨1, false, fins (xs.map (fun x => x + o))⟩ : Arr (Fl ℝ))).1.mp ⟨r', h2⟩).2
    simpa using this
  obtain ⟨e, he, h⟩ := C136_small_unit _ hne
  exact ⟨_, e, r', he, h2, fun hr => by rw [hr] at h4; simp at h4, h e (abs_of_pos he).le⟩

/-- a series with samples far apart meets the hypothesis of `C136_fine` -/
example : phasespaceThresholding ⟨1, false, fins [(100 : ℝ), -100, 100, -100, 100]⟩ = .ok [] := by
  refine C136_fine false _ (by simp) ?_
  intro i l r hl hr
  match i, hl, hr with
  | 0, hl, hr => simp at hl hr; subst hl hr; norm_num
  | 1, hl, hr => simp at hl hr; subst hl hr; norm_num
  | 2, hl, hr => simp at hl hr; subst hl hr; norm_num
  | i + 3, hl, hr => simp at hr

end Proadv.Props
