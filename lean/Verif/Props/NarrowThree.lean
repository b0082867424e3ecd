import Verif.Props.NarrowKernel
import Verif.Props.Kde4

/-!
# Property C238: `three_dimensional_kernel` of integer recordings

Both derivatives of an integer recording are integers: half differences are truncated towards 0.  When nothing wraps, the result is
that for exact integers (C232); truncation alone already makes the detector useless for slowly varying recordings.
-/

set_option linter.unusedSectionVars false

namespace Proadv.Props

open Proadv Fl Detect KernelDetect

/-! ## Specification -/

/-- central half-differences of integers, truncated towards 0; 0 at both ends -/
def halfSteps (xs : List ℤ) : List ℤ :=
  (List.range xs.length).map (fun i => if 1 ≤ i ∧ i + 1 < xs.length then (xs.getD (i + 1) 0 - xs.getD (i - 1) 0).tdiv 2 else 0)

theorem halfSteps_length (xs : List ℤ) : (halfSteps xs).length = xs.length := by simp [halfSteps]

private theorem castInt_half (z : ℤ) : (PyNum.castInt (fin ((z : ℝ) / 2)) : Fl ℝ) = fin ((z.tdiv 2 : ℤ) : ℝ) := by
  have h := trunc_half z
  have hcast : (z : ℝ) / 2 = ((5000 * z : ℤ) : ℝ) / 10000 := by push_cast; ring
  have hr4 : aroundK ((z : ℝ) / 2) 4 = (z : ℝ) / 2 := by
    rw [hcast]; exact around4_eq _ _ (by simp)
  rw [hr4] at h
  rw [← h]; rfl

theorem cd3_int (xs : List ℤ) : centralDiff3 true (fins (toK ℝ xs)) = (fins (toK ℝ (halfSteps xs)) : List (Fl ℝ)) := by
  unfold centralDiff3 halfSteps fins toK
  rw [List.map_map, List.map_map, List.map_map, List.length_map]
  apply List.map_congr_left
  intro i hi
  simp only [Function.comp]
  split_ifs with hc
  · have h1 : xs[i - 1]? = some xs[i - 1] := List.getElem?_eq_getElem (by omega)
    have h2 : xs[i + 1]? = some xs[i + 1] := List.getElem?_eq_getElem (by omega)
    simp only [List.getD_eq_getElem?_getD, List.getElem?_map, h1, h2, Option.map_some, Option.getD_some, Function.comp]
    rw [← castInt_half]
    simp only [psub_fin, lit_eq, store, if_true]
    rw [pdiv_fin (by norm_num)]
    push_cast; rfl
  · simp

theorem derivatives_int (d : Nat) (xs : List ℤ) : derivatives (⟨d, true, fins (toK ℝ xs)⟩ : Arr (Fl ℝ)) =
    (fins (toK ℝ (halfSteps xs)), fins (toK ℝ (halfSteps (halfSteps xs)))) := by
  unfold derivatives
  simp only [cd3_int]

/-! ## No wrapping -/

theorem ncd_halfSteps (t : Narrow.IntType) (hb : 1 ≤ t.bits) (xs : List ℤ)
    (h : ∀ i x y, xs[i]? = some x → xs[i + 2]? = some y → Represents t (y - x)) : Narrow.centralDiff t xs = halfSteps xs := by
  unfold Narrow.centralDiff halfSteps
  apply List.map_congr_left
  intro i hi
  split_ifs with hc
  · have h1 : xs[i - 1]? = some xs[i - 1] := List.getElem?_eq_getElem (by omega)
    have h2 : xs[i + 1]? = some xs[i + 1] := List.getElem?_eq_getElem (by omega)
    simp only [List.getD_eq_getElem?_getD, h1, h2, Option.getD_some]
    rw [wrap_id t hb _ (h (i - 1) _ _ h1 (by rw [show i - 1 + 2 = i + 1 by omega]; exact h2))]
  · rfl

theorem halfSteps_bound (xs : List ℤ) (M : ℤ) (h0 : 0 ≤ M) (h : ∀ x ∈ xs, |x| ≤ M) : ∀ d ∈ halfSteps xs, |d| ≤ M := by
  intro d hd
  unfold halfSteps at hd
  obtain ⟨i, -, rfl⟩ := List.mem_map.mp hd
  split_ifs with hc
  · have h1 : xs[i - 1]? = some xs[i - 1] := List.getElem?_eq_getElem (by omega)
    have h2 : xs[i + 1]? = some xs[i + 1] := List.getElem?_eq_getElem (by omega)
    simp only [List.getD_eq_getElem?_getD, h1, h2, Option.getD_some]
    have a1 := abs_le.mp (h _ (List.mem_of_getElem? h1))
    have a2 := abs_le.mp (h _ (List.mem_of_getElem? h2))
    exact tdiv_two_le _ _ (by rw [abs_le]; constructor <;> omega)
  · simpa using h0

/-- **C238** when nothing wraps, `three_dimensional_kernel` returns what it returns for exact integers: it suffices that a number `M`
with `M² < 2^(bits-1)` bounds all samples, and that `2 n² M² < 2^63`. -/
theorem C238_exact (b : ℕ) (hb : 3 ≤ b) (xs : List ℤ) (M : ℤ) (hM : ∀ x ∈ xs, |x| ≤ M) (hsq : M ^ 2 < 2 ^ (b - 1))
    (hn : 2 * xs.length ^ 2 * M ^ 2 < 2 ^ 63)
    (kde : List (Fl ℝ × Fl ℝ) → List (Fl ℝ) → List (Fl ℝ) → Py (List (List (Fl ℝ)))) (grid : ℕ) :
    Narrow.threeDimensionalKernel kde ⟨b, true⟩ xs grid =
      KernelDetect.threeDimensionalKernel kde ⟨1, true, fins (toK ℝ xs)⟩ grid := by
  by_cases hne : xs = []
  · subst hne; rfl
  have hM0 : 0 ≤ M := by
    obtain ⟨x, hx⟩ := List.exists_mem_of_ne_nil xs hne
    exact (abs_nonneg x).trans (hM x hx)
  have h2M : 2 * M < 2 ^ (b - 1) := by
    have h4 : (4 : ℤ) ≤ 2 ^ (b - 1) := by
      calc (4 : ℤ) = 2 ^ 2 := by norm_num
        _ ≤ 2 ^ (b - 1) := pow_le_pow_right₀ (by norm_num) (by omega)
    by_cases hs : M ≤ 1
    · omega
    · nlinarith
  have rep : ∀ z : ℤ, |z| < 2 ^ (b - 1) → Represents ⟨b, true⟩ z := by
    intro z hz
    simp only [Represents, if_true]
    have := abs_lt.mp hz
    exact ⟨by omega, this.2⟩
  have step : ∀ ys : List ℤ, (∀ y ∈ ys, |y| ≤ M) →
      (∀ i x y, ys[i]? = some x → ys[i + 2]? = some y → Represents ⟨b, true⟩ (y - x)) := by
    intro ys hy i x y hx hy'
    apply rep
    have h1 := abs_le.mp (hy x (List.mem_of_getElem? hx))
    have h2 := abs_le.mp (hy y (List.mem_of_getElem? hy'))
    rw [abs_lt]; constructor <;> omega
  have hb1 : 1 ≤ (⟨b, true⟩ : Narrow.IntType).bits := by show 1 ≤ b; omega
  have B1 := halfSteps_bound xs M hM0 hM
  have B2 := halfSteps_bound _ M hM0 B1
  have l1 := halfSteps_length xs
  have l2 := halfSteps_length (halfSteps xs)
  unfold Narrow.threeDimensionalKernel KernelDetect.threeDimensionalKernel
  rw [derivatives_int]
  simp only
  rw [ncd_halfSteps _ hb1 xs (step xs hM), ncd_halfSteps _ hb1 _ (step _ B1),
    C232_exact b xs _ l1.symm M hM B1 hsq hn (by omega) kde grid,
    C232_exact b xs _ (by rw [l2, l1]) M hM B2 hsq hn (by omega) kde grid,
    C232_exact b _ _ l2.symm M B1 B2 hsq (by rw [l1]; exact hn) (by omega) kde grid]

/-! ## Truncation -/

private theorem steps_zero (xs : List ℤ) (h : ∀ i x y, xs[i]? = some x → xs[i + 2]? = some y → |y - x| ≤ 1) :
    halfSteps xs = List.replicate xs.length 0 := by
  rw [List.eq_replicate_iff]
  refine ⟨halfSteps_length xs, fun d hd => ?_⟩
  unfold halfSteps at hd
  obtain ⟨i, -, rfl⟩ := List.mem_map.mp hd
  split_ifs with hc
  · have h1 : xs[i - 1]? = some xs[i - 1] := List.getElem?_eq_getElem (by omega)
    have h2 : xs[i + 1]? = some xs[i + 1] := List.getElem?_eq_getElem (by omega)
    simp only [List.getD_eq_getElem?_getD, h1, h2, Option.getD_some]
    have h3 := h (i - 1) _ _ h1 (by rw [show i - 1 + 2 = i + 1 by omega]; exact h2)
    have := tdiv_two_le (xs[i + 1] - xs[i - 1]) 0
    have h4 := abs_le.mp h3
    generalize xs[i + 1] - xs[i - 1] = z at *
    have : z = -1 ∨ z = 0 ∨ z = 1 := by omega
    rcases this with rfl | rfl | rfl <;> rfl
  · rfl

private theorem toK_zeros (n : ℕ) : toK ℝ (List.replicate n (0 : ℤ)) = List.replicate n 0 := by simp [toK]

/-- **C238** An integer recording of at least two samples in which samples two apart differ by at most one count is rejected with
LinAlgError, on any grid with a point: all its truncated half-differences are 0. -/
theorem C238_slow (xs : List ℤ) (hn : 2 ≤ xs.length) (h : ∀ i x y, xs[i]? = some x → xs[i + 2]? = some y → |y - x| ≤ 1)
    (d g : ℕ) (hg : g ≠ 0) : KernelDetect.threeDimensionalKernel (kdeGrid chol2 g) ⟨d, true, fins (toK ℝ xs)⟩ g = .error .linAlgError := by
  apply (C82_union (kdeGrid chol2 g) (⟨d, true, fins (toK ℝ xs)⟩ : Arr (Fl ℝ)) g).2.1
  rw [derivatives_int, steps_zero xs h, toK_zeros]
  exact C117_collinear _ _ (by simp) (by simpa using hn) g hg (var_zero_list _ _)

/-- **C238** The same when the first differences are not 0 but change by at most one count over two samples (a ramp, for example):
on any usable grid. -/
theorem C238_smooth (xs : List ℤ) (hn : 2 ≤ xs.length)
    (h : ∀ i x y, (halfSteps xs)[i]? = some x → (halfSteps xs)[i + 2]? = some y → |y - x| ≤ 1) (d g : ℕ) (hg : 2 ≤ g) :
    KernelDetect.threeDimensionalKernel (kdeGrid chol2 g) ⟨d, true, fins (toK ℝ xs)⟩ g = .error .linAlgError := by
  have hU := (C82_union (kdeGrid chol2 g) (⟨d, true, fins (toK ℝ xs)⟩ : Arr (Fl ℝ)) g).2
  rw [derivatives_int, steps_zero _ h, toK_zeros, halfSteps_length] at hU
  have hl : (toK ℝ xs).length = (toK ℝ (halfSteps xs)).length := by simp [halfSteps_length]
  have e2 : kernel (kdeGrid chol2 g) (fins (toK ℝ xs)) (fins (List.replicate xs.length 0)) g = .error .linAlgError :=
    C117_collinear _ _ (by simp) (by simpa using hn) g (by omega) (var_zero_list _ _)
  by_cases hc : Spec.var (toK ℝ xs) * Spec.var (toK ℝ (halfSteps xs)) = Spec.cov (toK ℝ xs) (toK ℝ (halfSteps xs)) ^ 2
  · exact hU.1 _ (C117_collinear _ _ hl (by simpa using hn) g (by omega) hc)
  · obtain ⟨_, _, _, _, _, _, _, _, _, _, _, r, -, -, -, -, -, -, -, -, -, hr, -⟩ :=
      C117_success (toK ℝ xs) (toK ℝ (halfSteps xs)) hl (by simpa using hn) hc g hg
    exact hU.2.1 r _ hr e2

/-- a ramp of slope 1 meets the hypothesis of `C238_smooth`, and not that of `C238_slow` -/
example : (∀ i x y, (halfSteps [3, 4, 5, 6, 7, 8])[i]? = some x → (halfSteps [3, 4, 5, 6, 7, 8])[i + 2]? = some y → |y - x| ≤ 1) ∧
    ¬ ∀ i x y, ([3, 4, 5, 6, 7, 8] : List ℤ)[i]? = some x → ([3, 4, 5, 6, 7, 8] : List ℤ)[i + 2]? = some y → |y - x| ≤ 1 := by
  refine ⟨fun i x y hx hy => ?_, fun h => absurd (h 0 3 5 rfl rfl) (by norm_num)⟩
  have e : halfSteps [3, 4, 5, 6, 7, 8] = [0, 1, 1, 1, 1, 0] := by decide +kernel
  rw [e] at hx hy
  have hi : i < 4 := by
    have := (List.getElem?_eq_some_iff.mp hy).1
    simp only [List.length_cons, List.length_nil] at this
    omega
  interval_cases i <;> simp at hx hy <;> subst hx <;> subst hy <;> norm_num

/-- **C238** The same numbers as floats can be accepted: the step `0, 0, 1, 1, 1` is rejected as an integer recording and gives a
result as a float recording, on any usable grid. -/
theorem C238_step (d g : ℕ) (hg : 2 ≤ g) :
    KernelDetect.threeDimensionalKernel (kdeGrid chol2 g) (⟨d, true, fins [0, 0, 1, 1, 1]⟩ : Arr (Fl ℝ)) g = .error .linAlgError ∧
    ∃ r, KernelDetect.threeDimensionalKernel (kdeGrid chol2 g) (Arr.flt (fins [0, 0, 1, 1, 1]) : Arr (Fl ℝ)) g = .ok r := by
  constructor
  · have := C238_slow [0, 0, 1, 1, 1] (by simp) (by
      intro i x y hx hy
      have hi : i < 3 := by
        have := (List.getElem?_eq_some_iff.mp hy).1
        simp only [List.length_cons, List.length_nil] at this
        omega
      interval_cases i <;> simp at hx hy <;> subst hx <;> subst hy <;> norm_num) d g (by omega)
    simpa [toK] using this
  · have e1 : halfDiff ([0, 0, 1, 1, 1] : List ℝ) = [0, 1 / 2, 1 / 2, 0, 0] := by
      simp [halfDiff, List.range_succ]
    have e2 : halfDiff ([0, 1 / 2, 1 / 2, 0, 0] : List ℝ) = [0, 1 / 4, -1 / 4, -1 / 4, 0] := by
      simp [halfDiff, List.range_succ]; norm_num
    have key : ∀ us ws : List ℝ, us.length = ws.length → 2 ≤ us.length → Spec.var us * Spec.var ws ≠ Spec.cov us ws ^ 2 →
        ∃ r, kernel (kdeGrid chol2 g) (fins us) (fins ws : List (Fl ℝ)) g = .ok r := by
      intro us ws h1 h2 h3
      obtain ⟨_, _, _, _, _, _, _, _, _, _, _, r, -, -, -, -, -, -, -, -, -, hr, -⟩ := C117_success us ws h1 h2 h3 g hg
      exact ⟨r, hr⟩
    obtain ⟨r1, h1⟩ := key [0, 0, 1, 1, 1] [0, 1 / 2, 1 / 2, 0, 0] rfl (by simp)
      (by norm_num [Spec.var, Spec.cmoment, Spec.cov, Spec.avg])
    obtain ⟨r2, h2⟩ := key [0, 0, 1, 1, 1] [0, 1 / 4, -1 / 4, -1 / 4, 0] rfl (by simp)
      (by norm_num [Spec.var, Spec.cmoment, Spec.cov, Spec.avg])
    obtain ⟨r3, h3⟩ := key [0, 1 / 2, 1 / 2, 0, 0] [0, 1 / 4, -1 / 4, -1 / 4, 0] rfl (by simp)
      (by norm_num [Spec.var, Spec.cmoment, Spec.cov, Spec.avg])
    refine ⟨uniqueNat (r1 ++ r2 ++ r3), ?_⟩
    unfold KernelDetect.threeDimensionalKernel
    rw [derivatives_fins, e1, e2]
    simp only [Arr.flt, h1, h2, h3, bind, Except.bind]

end Proadv.Props
