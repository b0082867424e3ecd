import Verif.Model.Detect
import Verif.Lemmas.Sets
import Verif.Lemmas.FlAlg
import Mathlib.Tactic.LinearCombination

/-!
# Properties C70, C71: `filtration/detection/poincare.py`
-/

set_option linter.unusedSectionVars false

namespace Proadv.Props

open Proadv Fl Detect

/-- Specification: the closed region bounded by the ellipse with half-axes `a`, `b` along the axes rotated by `θ` (the
image of the unit disc under scaling, then rotation). -/
def EllipseDisc (θ a b x y : ℝ) : Prop :=
  ∃ p q : ℝ, p ^ 2 + q ^ 2 ≤ 1 ∧ x = a * p * Real.cos θ - b * q * Real.sin θ ∧
    y = a * p * Real.sin θ + b * q * Real.cos θ

/-- the real value of rho -/
noncomputable def rhoR (θ a b x y : ℝ) : ℝ :=
  ((x * Real.cos θ + y * Real.sin θ) / a) ^ 2 + ((y * Real.cos θ - x * Real.sin θ) / b) ^ 2

theorem rhoAt_fin (θ x y : ℝ) {a b : ℝ} (ha : a ≠ 0) (hb : b ≠ 0) :
    rhoAt (fin θ) (fin a) (fin b) (fin x) (fin y) = (fin (rhoR θ a b x y) : Fl ℝ) := by
  simp [rhoAt, rotX, rotY, rhoR, pdiv_fin, ha, hb]

theorem rhoR_le_one_iff (θ x y : ℝ) {a b : ℝ} (ha : a ≠ 0) (hb : b ≠ 0) :
    rhoR θ a b x y ≤ 1 ↔ EllipseDisc θ a b x y := by
  have h1 := Real.sin_sq_add_cos_sq θ
  unfold rhoR EllipseDisc
  constructor
  · intro h
    refine ⟨_, _, h, ?_, ?_⟩
    · field_simp
      linear_combination (-x) * h1
    · field_simp
      linear_combination (-y) * h1
  · rintro ⟨p, q, h, rfl, rfl⟩
    have e1 : ((a * p * Real.cos θ - b * q * Real.sin θ) * Real.cos θ +
        (a * p * Real.sin θ + b * q * Real.cos θ) * Real.sin θ) / a = p := by
      rw [div_eq_iff ha]; linear_combination (a * p) * h1
    have e2 : ((a * p * Real.sin θ + b * q * Real.cos θ) * Real.cos θ -
        (a * p * Real.cos θ - b * q * Real.sin θ) * Real.sin θ) / b = q := by
      rw [div_eq_iff hb]; linear_combination (b * q) * h1
    rw [e1, e2]; exact h

/-! ## C70 -/

/-- **C70** for non-zero coefficients the rho of a point is a non-negative number exceeding 1 exactly outside the ellipse
with half-axes `|a|`, `|b|` rotated by `theta`; it is unchanged by point reflection and by `theta → theta + π`, and is
`(x²+y²)/a²` when `b = a`. -/
theorem C70_rho (θ a b x y : ℝ) (ha : a ≠ 0) (hb : b ≠ 0) :
    ∃ ρ : ℝ, rhoAt (fin θ) (fin a) (fin b) (fin x) (fin y) = (fin ρ : Fl ℝ) ∧ 0 ≤ ρ ∧
      (((lit 1 : Fl ℝ) <. fin ρ) = true ↔ ¬ EllipseDisc θ a b x y) ∧
      rhoAt (fin θ) (fin a) (fin b) (fin (-x)) (fin (-y)) = (fin ρ : Fl ℝ) ∧
      rhoAt (fin (θ + Real.pi)) (fin a) (fin b) (fin x) (fin y) = (fin ρ : Fl ℝ) ∧
      rhoAt (fin θ) (fin a) (fin a) (fin x) (fin y) = (fin ((x ^ 2 + y ^ 2) / a ^ 2) : Fl ℝ) := by
  refine ⟨_, rhoAt_fin θ x y ha hb, by unfold rhoR; positivity, ?_, ?_, ?_, ?_⟩
  · rw [← rhoR_le_one_iff θ x y ha hb]; simp
  · rw [rhoAt_fin _ _ _ ha hb]; congr 1; unfold rhoR; ring
  · rw [rhoAt_fin _ _ _ ha hb]; congr 1; unfold rhoR
    rw [Real.cos_add_pi, Real.sin_add_pi]; ring
  · rw [rhoAt_fin _ _ _ ha ha]; congr 1; unfold rhoR
    have h1 := Real.sin_sq_add_cos_sq θ
    field_simp
    linear_combination (x ^ 2 + y ^ 2) * h1

/-- the spec separates points: `(2,0)` is outside and `(1/2,0)` inside the unit circle -/
example : ¬ EllipseDisc 0 1 1 2 0 ∧ EllipseDisc 0 1 1 (1 / 2) 0 := by
  rw [← rhoR_le_one_iff _ _ _ one_ne_zero one_ne_zero, ← rhoR_le_one_iff _ _ _ one_ne_zero one_ne_zero]
  unfold rhoR; norm_num

/-- **C70** (every float arithmetic) on arrays of one length `calculate_rho` is the point-wise rho. -/
theorem C70_array {F : Type} [PyMath F] (ps : List (F × F)) (θ a b : F) :
    calculateRho (ps.map Prod.fst) (ps.map Prod.snd) θ a (.scal b) =
      .ok (ps.map (fun p => rhoAt θ a b p.1 p.2)) := by
  show bcast (fun u v => rhoAt θ a b u v) _ _ = _
  rw [bcast_same _ (by simp)]
  congr 1
  induction ps with
  | nil => rfl
  | cons p t ih => simp [ih]

/-- **C70** (every float arithmetic) arrays that do not broadcast are rejected, for either form of `b`. -/
theorem C70_mismatch {F : Type} [PyMath F] (x y : List F) (θ a : F) (b : BCoef F)
    (h : x.length ≠ y.length) (hx : x.length ≠ 1) (hy : y.length ≠ 1) :
    calculateRho x y θ a b = .error .valueError := by
  have hb : ∀ f : F → F → F, bcast f x y = .error .valueError := by
    intro f
    unfold bcast
    rw [if_neg h]
    split
    · simp at hx
    · simp at hy
    · rfl
  cases b with
  | scal b => exact hb _
  | pair b1 b2 => simp only [calculateRho, bind, Except.bind, hb]

/-- **C70** (every float arithmetic) a pair of second coefficients is matched with the samples in order: two samples get one
coefficient each, one sample is evaluated with both, and every other number of samples is rejected. -/
theorem C70_pair {F : Type} [PyMath F] (θ a b1 b2 : F) :
    (∀ x0 y0 x1 y1, calculateRho [x0, x1] [y0, y1] θ a (.pair b1 b2) = .ok [rhoAt θ a b1 x0 y0, rhoAt θ a b2 x1 y1]) ∧
    (∀ x0 y0, calculateRho [x0] [y0] θ a (.pair b1 b2) = .ok [rhoAt θ a b1 x0 y0, rhoAt θ a b2 x0 y0]) ∧
    (∀ x y : List F, x.length = y.length → x.length ≠ 1 → x.length ≠ 2 →
      calculateRho x y θ a (.pair b1 b2) = .error .valueError) := by
  refine ⟨fun _ _ _ _ => rfl, fun _ _ => rfl, fun x y h h1 h2 => ?_⟩
  simp only [calculateRho, bind, Except.bind]
  rw [bcast_same _ h, bcast_same _ h]
  simp only
  have hz : ∀ f : F → F → F, (List.zipWith f x y).length = x.length := fun f => by simp [h]
  have : bcast (fun u b => (u /. b) ^. 2) (List.zipWith (rotY θ) x y) [b1, b2] = .error .valueError := by
    unfold bcast
    rw [if_neg (by rw [hz]; simpa using h2)]
    have h3 := hz (rotY θ)
    split
    · rename_i e; rw [e] at h3; exact absurd h3.symm h1
    · rename_i e _; simp at e
    · rfl
  rw [this]

/-! ## C71 -/

theorem fact_fin (θ : ℝ) : fact (fin θ) = (fin (Real.cos θ ^ 2 - Real.sin θ ^ 2) : Fl ℝ) := by
  have h1 := Real.sin_sq_add_cos_sq θ
  simp only [fact, pcos_fin, psin_fin, pnpow_fin, psub_fin]
  congr 1
  linear_combination (Real.cos θ ^ 2 - Real.sin θ ^ 2) * h1

/-- numerator of the first squared axis -/
noncomputable def numA (r1 r2 θ : ℝ) : ℝ := r1 ^ 2 * Real.cos θ ^ 2 - r2 ^ 2 * Real.sin θ ^ 2

theorem axisA_fin (s1 s2 θ l : ℝ) : axisA (fin s1) (fin s2) (fin θ) (fin l) =
    (fin (numA (l * s1) (l * s2) θ) : Fl ℝ) /. fin (Real.cos θ ^ 2 - Real.sin θ ^ 2) := by
  simp only [axisA, fact_fin, pcos_fin, psin_fin, pnpow_fin, pmul_fin, psub_fin]; rfl

theorem axisB_fin (s1 s2 θ l : ℝ) : axisB (fin s1) (fin s2) (fin θ) (fin l) =
    (fin (numA (l * s2) (l * s1) θ) : Fl ℝ) /. fin (Real.cos θ ^ 2 - Real.sin θ ^ 2) := by
  simp only [axisB, fact_fin, pcos_fin, psin_fin, pnpow_fin, pmul_fin, psub_fin]; rfl

/-- both squared axes positive, as a statement about reals -/
def AxesPos (r1 r2 θ : ℝ) : Prop :=
  0 < numA r1 r2 θ / (Real.cos θ ^ 2 - Real.sin θ ^ 2) ∧ 0 < numA r2 r1 θ / (Real.cos θ ^ 2 - Real.sin θ ^ 2)

theorem axes_pos_iff (s1 s2 θ l : ℝ) :
    ((lit 0 : Fl ℝ) <. axisA (fin s1) (fin s2) (fin θ) (fin l) && (lit 0 : Fl ℝ) <. axisB (fin s1) (fin s2) (fin θ) (fin l))
      = true ↔ AxesPos (l * s1) (l * s2) θ := by
  rw [axisA_fin, axisB_fin]
  by_cases hf : Real.cos θ ^ 2 - Real.sin θ ^ 2 = 0
  · have hn : numA (l * s2) (l * s1) θ = - numA (l * s1) (l * s2) θ := by
      have hc : Real.cos θ ^ 2 = Real.sin θ ^ 2 := by linarith
      unfold numA; rw [hc]; ring
    unfold AxesPos
    rw [hf, hn]
    simp only [pdiv_fin', if_pos, div_zero, lt_irrefl, false_and, iff_false, Bool.and_eq_true, not_and, lit_eq,
      Rat.cast_zero]
    intro h
    unfold infSgn at *
    split_ifs at h ⊢ with h0 h1 h2 <;> simp_all [PyNum.lt, Fl.lt]
    linarith
  · unfold AxesPos
    rw [pdiv_fin hf, pdiv_fin hf]
    simp

/-- **C71** when both squared axes are positive, `calculate_ab` returns the half-axes: positive `a`, `b` solving
`a² cos² + b² sin² = (λ·std1)²` and `a² sin² + b² cos² = (λ·std2)²`. -/
theorem C71_axes (s1 s2 θ l : ℝ) (h : AxesPos (l * s1) (l * s2) θ) :
    ∃ a b : ℝ, calculateAb (fin s1) (fin s2) (fin θ) (fin l) = ((fin a : Fl ℝ), .scal (fin b)) ∧ 0 < a ∧ 0 < b ∧
      a ^ 2 * Real.cos θ ^ 2 + b ^ 2 * Real.sin θ ^ 2 = (l * s1) ^ 2 ∧
      a ^ 2 * Real.sin θ ^ 2 + b ^ 2 * Real.cos θ ^ 2 = (l * s2) ^ 2 := by
  have hf : Real.cos θ ^ 2 - Real.sin θ ^ 2 ≠ 0 := by
    intro hf
    have := h.1
    rw [hf, div_zero] at this
    exact lt_irrefl _ this
  refine ⟨_, _, ?_, Real.sqrt_pos.mpr h.1, Real.sqrt_pos.mpr h.2, ?_, ?_⟩
  · unfold calculateAb
    rw [if_pos ((axes_pos_iff s1 s2 θ l).mpr h), axisA_fin, axisB_fin, pdiv_fin hf, pdiv_fin hf,
      psqrt_fin h.1.le, psqrt_fin h.2.le]
  · rw [Real.sq_sqrt h.1.le, Real.sq_sqrt h.2.le]
    have h1 := Real.sin_sq_add_cos_sq θ
    unfold numA
    field_simp
    linear_combination ((Real.cos θ ^ 2 - Real.sin θ ^ 2) * (l * s1) ^ 2) * h1
  · rw [Real.sq_sqrt h.1.le, Real.sq_sqrt h.2.le]
    have h1 := Real.sin_sq_add_cos_sq θ
    unfold numA
    field_simp
    linear_combination ((Real.cos θ ^ 2 - Real.sin θ ^ 2) * (l * s2) ^ 2) * h1

/-- **C71** otherwise the second result is the pair `(1e10, 1e10)` and the first is still the square root of `fa`. -/
theorem C71_fallback (s1 s2 θ l : ℝ) (h : ¬ AxesPos (l * s1) (l * s2) θ) :
    calculateAb (fin s1) (fin s2) (fin θ) (fin l) =
      (PyMath.sqrt (axisA (fin s1) (fin s2) (fin θ) (fin l) : Fl ℝ), .pair (fin (10 ^ 10)) (fin (10 ^ 10))) := by
  unfold calculateAb
  rw [if_neg (mt (axes_pos_iff s1 s2 θ l).mp h)]
  simp

example : AxesPos (1 * 2) (1 * 1) 0 := by
  unfold AxesPos numA; norm_num

example : ¬ AxesPos (1 * 0) (1 * 1) 0 := by
  unfold AxesPos numA; norm_num

end Proadv.Props
