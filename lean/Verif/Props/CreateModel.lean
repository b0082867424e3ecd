import Verif.Model.CreateModel
import Verif.Props.Regression

/-!
# C204: the regression model `_create_model`
-/

set_option linter.unusedSectionVars false

namespace Proadv.Props

open Proadv Replace Fl Polynomial Finset

noncomputable section

/-! ## Least squares of least norm, in sums -/

/-- the centred matrix times a vector -/
def ctr {m n : Nat} (X : Fin m → Fin n → ℝ) (c : Fin n → ℝ) (i : Fin m) : ℝ := ∑ j, (X i j - colMean X j) * c j

theorem ctr_add {m n : Nat} (X : Fin m → Fin n → ℝ) (c c' : Fin n → ℝ) (t : ℝ) (i : Fin m) :
    ctr X (fun j => c j + t * c' j) i = ctr X c i + t * ctr X c' i := by
  unfold ctr
  rw [mul_sum, ← sum_add_distrib]
  exact sum_congr rfl (fun j _ => by ring)

theorem centredSse_eq {m n : Nat} (X : Fin m → Fin n → ℝ) (y : Fin m → ℝ) (c : Fin n → ℝ) :
    centredSse X y c = ∑ i, (ctr X c i - (y i - sampleMean y)) ^ 2 := rfl

/-- expansion of a sum of squares along a line -/
theorem sq_line {ι : Type} [Fintype ι] (u v : ι → ℝ) (t : ℝ) :
    ∑ i, (u i + t * v i) ^ 2 = ∑ i, u i ^ 2 + t * (2 * ∑ i, v i * u i) + t ^ 2 * ∑ i, v i ^ 2 := by
  rw [mul_sum, mul_sum, mul_sum, ← sum_add_distrib, ← sum_add_distrib]
  exact sum_congr rfl (fun i _ => by ring)

theorem slope_zero {s u : ℝ} (hu : 0 ≤ u) (h : ∀ t : ℝ, 0 ≤ t * (2 * s) + t ^ 2 * u) : s = 0 := by
  have h1 := h (-s / (u + 1))
  have hp : 0 < u + 1 := by linarith
  have e : -s / (u + 1) * (2 * s) + (-s / (u + 1)) ^ 2 * u = -(s ^ 2 * (u + 2)) / (u + 1) ^ 2 := by
    field_simp; ring
  rw [e] at h1
  have h2 : 0 ≤ -(s ^ 2 * (u + 2)) := by
    by_contra hc
    exact absurd h1 (not_le.mpr (div_neg_of_neg_of_pos (not_le.mp hc) (by positivity)))
  have : s ^ 2 ≤ 0 := by nlinarith [sq_nonneg s]
  exact pow_eq_zero_iff (two_ne_zero) |>.mp (le_antisymm this (sq_nonneg s))

/-- the solution is characterised by the normal equations and by being orthogonal to the kernel -/
theorem isLstsq_iff {m n : Nat} (X : Fin m → Fin n → ℝ) (y : Fin m → ℝ) (c : Fin n → ℝ) :
    IsLstsq X y c ↔ (∀ c', ∑ i, ctr X c' i * (ctr X c i - (y i - sampleMean y)) = 0) ∧
      ∀ k, (∀ i, ctr X k i = 0) → ∑ j, k j * c j = 0 := by
  have line : ∀ (c c' : Fin n → ℝ) (t : ℝ), centredSse X y (fun j => c j + t * c' j) = centredSse X y c +
      t * (2 * ∑ i, ctr X c' i * (ctr X c i - (y i - sampleMean y))) + t ^ 2 * ∑ i, ctr X c' i ^ 2 := by
    intro c c' t
    rw [centredSse_eq, centredSse_eq, ← sq_line]
    exact sum_congr rfl (fun i _ => by rw [ctr_add]; ring)
  constructor
  · rintro ⟨h1, h2⟩
    refine ⟨fun c' => ?_, fun k hk => ?_⟩
    · refine slope_zero (u := ∑ i, ctr X c' i ^ 2) (sum_nonneg (fun i _ => sq_nonneg _)) (fun t => ?_)
      have := h1 (fun j => c j + t * c' j)
      rw [line] at this
      linarith
    · refine slope_zero (u := ∑ j, k j ^ 2) (sum_nonneg (fun i _ => sq_nonneg _)) (fun t => ?_)
      have := h2 (fun j => c j + t * k j) (by rw [line]; simp [hk])
      rw [sq_line] at this
      linarith
  · rintro ⟨h1, h2⟩
    have exp : ∀ c', centredSse X y c' = centredSse X y c + ∑ i, ctr X (fun j => c' j - c j) i ^ 2 := by
      intro c'
      have := line c (fun j => c' j - c j) 1
      rw [h1] at this
      simpa using this
    refine ⟨fun c' => ?_, fun c' hc => ?_⟩
    · rw [exp c']
      have := sum_nonneg (s := univ) (f := fun i => ctr X (fun j => c' j - c j) i ^ 2) (fun i _ => sq_nonneg _)
      linarith
    · rw [exp c'] at hc
      have h0 : ∑ i, ctr X (fun j => c' j - c j) i ^ 2 = 0 := by linarith
      have hz : ∀ i, ctr X (fun j => c' j - c j) i = 0 := fun i =>
        pow_eq_zero_iff two_ne_zero |>.mp ((sum_eq_zero_iff_of_nonneg (fun i _ => sq_nonneg _)).mp h0 i (mem_univ i))
      have h3 := h2 _ hz
      have := sq_line c (fun j => c' j - c j) 1
      rw [h3] at this
      have e : ∑ j, c' j ^ 2 = ∑ j, c j ^ 2 + ∑ j, (c' j - c j) ^ 2 := by simpa using this
      rw [e]
      have := sum_nonneg (s := univ) (f := fun j => (c' j - c j) ^ 2) (fun i _ => sq_nonneg _)
      linarith

theorem lstsq_unique {m n : Nat} {X : Fin m → Fin n → ℝ} {y : Fin m → ℝ} {c c' : Fin n → ℝ} (h : IsLstsq X y c) (h' : IsLstsq X y c') :
    c = c' := by
  obtain ⟨a1, a2⟩ := (isLstsq_iff X y c).mp h
  obtain ⟨b1, b2⟩ := (isLstsq_iff X y c').mp h'
  have hd : ∀ i, ctr X (fun j => c j + (-1) * c' j) i = ctr X c i + (-1) * ctr X c' i := fun i => ctr_add X c c' (-1) i
  have h0 : ∑ i, ctr X (fun j => c j + (-1) * c' j) i ^ 2 = 0 := by
    have e1 := a1 (fun j => c j + (-1) * c' j)
    have e2 := b1 (fun j => c j + (-1) * c' j)
    rw [← sub_eq_zero.mpr (e1.trans e2.symm), ← sum_sub_distrib]
    refine sum_congr rfl (fun i _ => ?_)
    rw [hd]; ring
  have hz : ∀ i, ctr X (fun j => c j + (-1) * c' j) i = 0 := fun i =>
    pow_eq_zero_iff two_ne_zero |>.mp ((sum_eq_zero_iff_of_nonneg (fun i _ => sq_nonneg _)).mp h0 i (mem_univ i))
  have h1 : ∑ j, (c j + (-1) * c' j) ^ 2 = 0 := by
    rw [← sub_eq_zero.mpr ((a2 _ hz).trans (b2 _ hz).symm), ← sum_sub_distrib]
    exact sum_congr rfl (fun j _ => by ring)
  funext j
  have := pow_eq_zero_iff two_ne_zero |>.mp ((sum_eq_zero_iff_of_nonneg (fun i _ => sq_nonneg _)).mp h1 j (mem_univ j))
  linarith

/-- the centred matrix as a linear map of Euclidean spaces -/
def ctrMap {m n : Nat} (X : Fin m → Fin n → ℝ) : EuclideanSpace ℝ (Fin n) →ₗ[ℝ] EuclideanSpace ℝ (Fin m) where
  toFun c := WithLp.toLp 2 (ctr X c)
  map_add' p q := by
    ext i
    have := ctr_add X p q 1 i
    simp only [one_mul] at this
    exact this
  map_smul' t p := by
    ext i
    have := ctr_add X 0 p t i
    have h0 : ctr X 0 i = 0 := by simp [ctr]
    rw [h0] at this
    simp only [Pi.zero_apply, zero_add] at this
    exact this

theorem lstsq_exists {m n : Nat} (X : Fin m → Fin n → ℝ) (y : Fin m → ℝ) : ∃ c, IsLstsq X y c := by
  set A := ctrMap X
  set b : EuclideanSpace ℝ (Fin m) := WithLp.toLp 2 (fun i => y i - sampleMean y) with hb
  obtain ⟨c0, hc0⟩ := LinearMap.mem_range.mp (Submodule.starProjection_apply_mem (LinearMap.range A) b)
  set K := LinearMap.ker A
  set c := c0 - K.starProjection c0 with hc
  have hAc : A c = (LinearMap.range A).starProjection b := by
    rw [hc, map_sub, hc0, LinearMap.mem_ker.mp (Submodule.starProjection_apply_mem K c0), sub_zero]
  refine ⟨c, (isLstsq_iff X y c).mpr ⟨fun c' => ?_, fun k hk => ?_⟩⟩
  · have h := Submodule.starProjection_inner_eq_zero (K := LinearMap.range A) b (A (WithLp.toLp 2 c'))
      (LinearMap.mem_range.mpr ⟨_, rfl⟩)
    rw [← hAc, PiLp.inner_apply] at h
    have e : ∑ i, ctr X c' i * (ctr X c i - (y i - sampleMean y)) = -∑ i, ctr X c' i * ((y i - sampleMean y) - ctr X c i) := by
      rw [← sum_neg_distrib]; exact sum_congr rfl (fun i _ => by ring)
    rw [e, neg_eq_zero, ← h]
    refine sum_congr rfl (fun i _ => ?_)
    simp [A, ctrMap, hb]
  · have hkK : WithLp.toLp 2 k ∈ K := by
      rw [LinearMap.mem_ker]
      ext i
      simpa [A, ctrMap] using hk i
    have h := Submodule.starProjection_inner_eq_zero (K := K) c0 _ hkK
    rw [← hc, PiLp.inner_apply] at h
    rw [← h]
    refine sum_congr rfl (fun i _ => ?_)
    simp

/-- **C204** `LinearRegression.fit` is well defined: the centred system has exactly one least-squares solution of least norm, and
`model.coef_` is it, also when there are fewer samples than coefficients. -/
theorem C204_fit {m n : Nat} (X : Fin m → Fin n → ℝ) (y : Fin m → ℝ) : IsLstsq X y (coef X y) ∧ ∀ c, IsLstsq X y c → c = coef X y := by
  have h : IsLstsq X y (coef X y) := Classical.epsilon_spec (lstsq_exists X y)
  exact ⟨h, fun c hc => lstsq_unique hc h⟩

/-! ## The prediction -/

/-- the number `_create_model` returns for the samples `y` at `lo, …, lo + m - 1`, evaluated at `lo + m` -/
def forecast (d m : Nat) (lo : Int) (y : Fin m → ℝ) : ℝ :=
  regressAt (designMatrix d m lo) y (polyFeatures d ((lo : ℝ) + m))

theorem finiteAll_fins (y : List ℝ) : finiteAll (fins y) = some y := by
  induction y with
  | nil => rfl
  | cons a t ih =>
    show Option.map (a :: ·) (finiteAll (fins t)) = _
    rw [ih]; rfl

theorem finiteAll_some {z : List (Fl ℝ)} {y : List ℝ} (h : finiteAll z = some y) : z = fins y := by
  induction z generalizing y with
  | nil => cases h; rfl
  | cons a t ih =>
    cases a with
    | fin x =>
      obtain ⟨w, h1, h2⟩ := Option.map_eq_some_iff.mp (show Option.map (x :: ·) (finiteAll t) = some y from h)
      subst h2
      rw [ih h1]; rfl
    | nan => cases h
    | pinf => cases h
    | ninf => cases h

theorem finiteAll_none {z : List (Fl ℝ)} : finiteAll z = none ↔ ∃ x ∈ z, ∀ r, x ≠ fin r := by
  constructor
  · intro h
    by_contra hc
    push Not at hc
    have : ∃ y, z = fins y := by
      clear h
      induction z with
      | nil => exact ⟨[], rfl⟩
      | cons a t ih =>
        obtain ⟨r, hr⟩ := hc a List.mem_cons_self
        obtain ⟨y, hy⟩ := ih (fun x hx => hc x (List.mem_cons_of_mem _ hx))
        exact ⟨r :: y, by rw [hr, hy]; rfl⟩
    obtain ⟨y, rfl⟩ := this
    rw [finiteAll_fins] at h
    cases h
  · rintro ⟨x, hx, hr⟩
    cases h : finiteAll z with
    | none => rfl
    | some y =>
      rw [finiteAll_some h] at hx
      obtain ⟨r, _, rfl⟩ := List.mem_map.mp hx
      exact absurd rfl (hr r)

theorem createModel_eq (d : Nat) (y : List ℝ) (lo i : Int) (hne : y ≠ []) (hi : i = lo + y.length) :
    createModel d (fins y) lo i = .ok (fin (forecast d y.length lo (fun k => y[k]))) := by
  have hpos := List.length_pos_iff.mpr hne
  unfold createModel
  rw [if_neg (by omega), if_neg (by omega), if_neg (by simp [fins]; omega), finiteAll_fins]
  simp only [Int.toNat_natCast]
  unfold forecast
  rw [hi]
  push_cast
  rfl

/-- the same with the number of samples as a variable -/
theorem createModel_eq' (d m : Nat) (y : List ℝ) (lo : Int) (hm : y.length = m) (h0 : 0 < m) :
    createModel d (fins y) lo (lo + m) = .ok (fin (forecast d m lo (fun k => y.getD k 0))) := by
  subst hm
  rw [createModel_eq d y lo _ (List.length_pos_iff.mp h0) rfl]
  congr 3
  funext k
  simp [List.getD]

/-- **C204** What `_create_model` rejects: a negative degree, no abscissa, different numbers of abscissae and samples, and a sample
that is NaN or infinite; always ValueError.  In every other case the result is a finite number. -/
theorem C204_rejects (degree : Int) (y : List (Fl ℝ)) (lo i : Int) :
    (createModel degree y lo i = .error .valueError ↔
      degree < 0 ∨ i ≤ lo ∨ (y.length : Int) ≠ i - lo ∨ ∃ x ∈ y, ∀ r, x ≠ fin r) ∧
    (createModel degree y lo i ≠ .error .valueError → ∃ r, createModel degree y lo i = .ok (fin r)) := by
  unfold createModel
  by_cases h1 : degree < 0
  · simp [h1]
  by_cases h2 : i ≤ lo
  · simp [h1, h2]
  by_cases h3 : (y.length : Int) ≠ i - lo
  · simp [h1, h2, h3]
  rw [if_neg h1, if_neg h2, if_neg h3]
  cases h : finiteAll y with
  | none => exact ⟨⟨fun _ => Or.inr (Or.inr (Or.inr (finiteAll_none.mp h))), fun _ => rfl⟩, fun hc => absurd rfl hc⟩
  | some z =>
    refine ⟨⟨fun hc => (by cases hc), fun hc => ?_⟩, fun _ => ⟨_, rfl⟩⟩
    rcases hc with hc | hc | hc | hc
    · exact absurd hc h1
    · exact absurd hc h2
    · exact absurd hc h3
    · rw [finiteAll_none.mpr hc] at h; cases h

/-- value of the model for any solution of the centred system -/
theorem regressAt_of {m n : Nat} {X : Fin m → Fin n → ℝ} {y : Fin m → ℝ} {c : Fin n → ℝ} (h : IsLstsq X y c) (row : Fin n → ℝ) :
    regressAt X y row = sampleMean y + ∑ j, c j * (row j - colMean X j) := by
  have := (C204_fit X y).2 c h
  unfold regressAt intercept
  rw [← this]
  have : ∑ j, c j * (row j - colMean X j) = ∑ j, c j * row j - ∑ j, colMean X j * c j := by
    rw [← sum_sub_distrib]; exact sum_congr rfl (fun j _ => by ring)
  rw [this]; ring

/-- centring: an affine model splits into its centred part and the error of its mean -/
theorem sse_split {m n : Nat} (hm : 0 < m) (X : Fin m → Fin n → ℝ) (y : Fin m → ℝ) (a : ℝ) (c : Fin n → ℝ) :
    ∑ i, (a + ∑ j, c j * X i j - y i) ^ 2 =
      centredSse X y c + m * (a + ∑ j, colMean X j * c j - sampleMean y) ^ 2 := by
  have hm' : (m : ℝ) ≠ 0 := by positivity
  set δ := a + ∑ j, colMean X j * c j - sampleMean y with hδ
  have hc : ∀ i, a + ∑ j, c j * X i j - y i = (ctr X c i - (y i - sampleMean y)) + δ := by
    intro i
    have : ctr X c i = ∑ j, c j * X i j - ∑ j, colMean X j * c j := by
      unfold ctr
      rw [← sum_sub_distrib]; exact sum_congr rfl (fun j _ => by ring)
    rw [this, hδ]; ring
  have h0 : ∑ i, (ctr X c i - (y i - sampleMean y)) = 0 := by
    have e1 : ∑ i, ctr X c i = 0 := by
      unfold ctr
      rw [sum_comm]
      refine sum_eq_zero (fun j _ => ?_)
      rw [← sum_mul, sum_sub_distrib]
      simp only [sum_const, card_univ, Fintype.card_fin, nsmul_eq_mul, colMean]
      rw [mul_div_cancel₀ _ hm', sub_self, zero_mul]
    have e2 : ∑ i, (y i - sampleMean y) = 0 := by
      rw [sum_sub_distrib]
      simp only [sum_const, card_univ, Fintype.card_fin, nsmul_eq_mul, sampleMean]
      rw [mul_div_cancel₀ _ hm', sub_self]
    rw [sum_sub_distrib, e1, e2, sub_zero]
  rw [sum_congr rfl (fun i _ => by rw [hc i])]
  have := sq_line (fun i => ctr X c i - (y i - sampleMean y)) (fun _ => (1 : ℝ)) δ
  simp only [mul_one, one_mul, h0, mul_zero, add_zero, one_pow, sum_const, card_univ, Fintype.card_fin, nsmul_eq_mul] at this
  rw [this, centredSse_eq]
  ring

/-- **C204** `_create_model` is polynomial least squares: its prediction is the value of a polynomial of at most the given degree whose sum
of squared residuals on the samples is least among all such polynomials.  So C125, C187 and C188 hold of the code's own model. -/
theorem C204_least_squares (degree : Nat) : LeastSquares degree (createModel degree) := by
  intro y lo i hne hi
  have hpos := List.length_pos_iff.mpr hne
  set m := y.length with hm
  set D := designMatrix degree m lo with hD
  set Y : Fin m → ℝ := fun k => y[k] with hY
  set c := coef D Y with hc
  set a := sampleMean Y - ∑ j, colMean D j * c j with ha
  have hfit := (C204_fit D Y).1
  have hres : ∀ (p : ℝ[X]) (b : ℝ) (e : Fin (degree + 1) → ℝ), (∀ x : ℝ, p.eval x = b + ∑ j, e j * x ^ (j : ℕ)) →
      residual p y lo = centredSse D Y e + m * (b + ∑ j, colMean D j * e j - sampleMean Y) ^ 2 := by
    intro p b e hp
    rw [← sse_split hpos, residual_sum, Finset.sum_range]
    refine sum_congr rfl (fun k _ => ?_)
    rw [hp]
    simp [hD, hY, designMatrix, polyFeatures, List.getD]
  have hev : ∀ x : ℝ, (C a + ∑ j : Fin (degree + 1), C (c j) * X ^ (j : ℕ) : ℝ[X]).eval x = a + ∑ j, c j * x ^ (j : ℕ) := by
    intro x
    simp [eval_finsetSum]
  refine ⟨C a + ∑ j : Fin (degree + 1), C (c j) * X ^ (j : ℕ), ?_, fun p hp => ?_, ?_⟩
  · refine (natDegree_add_le _ _).trans (max_le (by simp) (natDegree_sum_le_of_forall_le _ _ (fun j _ => ?_)))
    exact (natDegree_C_mul_X_pow_le _ _).trans (by omega)
  · have hpe : ∀ x : ℝ, p.eval x = 0 + ∑ j : Fin (degree + 1), p.coeff j * x ^ (j : ℕ) := by
      intro x
      rw [zero_add, eval_eq_sum_range' (Nat.lt_succ_of_le hp), Finset.sum_range]
    rw [hres _ a c hev, hres p 0 (fun j => p.coeff j) hpe]
    have h1 := hfit.1 (fun j => p.coeff j)
    have h0 : a + ∑ j, colMean D j * c j - sampleMean Y = 0 := by rw [ha]; ring
    rw [h0]
    have h2 : 0 ≤ (m : ℝ) * (0 + ∑ j, colMean D j * (fun j : Fin (degree + 1) => p.coeff j) j - sampleMean Y) ^ 2 := by positivity
    rw [← hc] at h1
    linarith
  · rw [createModel_eq degree y lo i hne hi, hev]
    unfold forecast regressAt intercept polyFeatures
    rw [hi]
    push_cast
    rfl

/-! ## Laws for every degree, with any number of samples -/

theorem sampleMean_lin {m : Nat} (y z : Fin m → ℝ) (a b : ℝ) :
    sampleMean (fun k => a * y k + b * z k) = a * sampleMean y + b * sampleMean z := by
  unfold sampleMean
  rw [sum_add_distrib, ← mul_sum, ← mul_sum]
  ring

theorem forecast_lin (d m : Nat) (lo : Int) (y z : Fin m → ℝ) (a b : ℝ) :
    forecast d m lo (fun k => a * y k + b * z k) = a * forecast d m lo y + b * forecast d m lo z := by
  set D := designMatrix d m lo with hD
  obtain ⟨p1, p2⟩ := (isLstsq_iff D y _).mp (C204_fit D y).1
  obtain ⟨q1, q2⟩ := (isLstsq_iff D z _).mp (C204_fit D z).1
  have hctr : ∀ i, ctr D (fun j => a * coef D y j + b * coef D z j) i = a * ctr D (coef D y) i + b * ctr D (coef D z) i := by
    intro i
    unfold ctr
    rw [mul_sum, mul_sum, ← sum_add_distrib]
    exact sum_congr rfl (fun j _ => by ring)
  have h : IsLstsq D (fun k => a * y k + b * z k) (fun j => a * coef D y j + b * coef D z j) := by
    refine (isLstsq_iff _ _ _).mpr ⟨fun c' => ?_, fun k hk => ?_⟩
    · have e1 := p1 c'
      have e2 := q1 c'
      have : ∑ i, ctr D c' i * (ctr D (fun j => a * coef D y j + b * coef D z j) i -
          ((a * y i + b * z i) - sampleMean (fun k => a * y k + b * z k))) =
          a * (∑ i, ctr D c' i * (ctr D (coef D y) i - (y i - sampleMean y))) +
          b * (∑ i, ctr D c' i * (ctr D (coef D z) i - (z i - sampleMean z))) := by
        rw [mul_sum, mul_sum, ← sum_add_distrib]
        refine sum_congr rfl (fun i _ => ?_)
        rw [hctr, sampleMean_lin]
        ring
      rw [this, e1, e2]; ring
    · have : ∑ j, k j * (a * coef D y j + b * coef D z j) = a * (∑ j, k j * coef D y j) + b * (∑ j, k j * coef D z j) := by
        rw [mul_sum, mul_sum, ← sum_add_distrib]
        exact sum_congr rfl (fun j _ => by ring)
      rw [this, p2 k hk, q2 k hk]; ring
  unfold forecast
  rw [regressAt_of h, regressAt_of (C204_fit D y).1, regressAt_of (C204_fit D z).1, sampleMean_lin]
  have : ∀ r : Fin (d + 1) → ℝ, ∑ j, (a * coef D y j + b * coef D z j) * r j =
      a * (∑ j, coef D y j * r j) + b * (∑ j, coef D z j * r j) := by
    intro r
    rw [mul_sum, mul_sum, ← sum_add_distrib]
    exact sum_congr rfl (fun j _ => by ring)
  rw [this]
  ring

theorem forecast_const (d m : Nat) (hm : 0 < m) (lo : Int) (k : ℝ) : forecast d m lo (fun _ => k) = k := by
  have hm' : (m : ℝ) ≠ 0 := by positivity
  have hs : sampleMean (fun _ : Fin m => k) = k := by
    simp only [sampleMean, sum_const, card_univ, Fintype.card_fin, nsmul_eq_mul]
    field_simp
  have h : IsLstsq (designMatrix d m lo) (fun _ => k) (fun _ => 0) := by
    refine (isLstsq_iff _ _ _).mpr ⟨fun c' => ?_, fun k hk => by simp⟩
    have : ∀ i, ctr (designMatrix d m lo) (fun _ => 0) i = 0 := fun i => by simp [ctr]
    simp [this, hs]
  unfold forecast
  rw [regressAt_of h, hs]
  simp

/-- **C204** For every degree and number of samples, also when there are fewer samples than coefficients, the prediction is a fixed weighted
sum of the samples, the weights depending only on degree, number and position of the samples; they sum to 1, so constant samples give that
constant and adding a constant to the samples adds it to the prediction. -/
theorem C204_weights (d m : Nat) (hm : 0 < m) (lo : Int) : ∃ w : Nat → ℝ, ∑ k ∈ range m, w k = 1 ∧
    ∀ y : List ℝ, y.length = m → createModel d (fins y) lo (lo + m) = .ok (fin (∑ k ∈ range m, w k * y.getD k 0)) := by
  let f : (Fin m → ℝ) →ₗ[ℝ] ℝ :=
    { toFun := forecast d m lo
      map_add' := fun y z => by
        have := forecast_lin d m lo y z 1 1
        simp only [one_mul] at this
        exact this
      map_smul' := fun t y => by
        have := forecast_lin d m lo y y t 0
        simp only [zero_mul, add_zero] at this
        exact this }
  have hf : ∀ y, forecast d m lo y = ∑ k, f (fun j => if k = j then 1 else 0) * y k := by
    intro y
    have := f.pi_apply_eq_sum_univ y
    refine Eq.trans this (sum_congr rfl (fun k _ => ?_))
    rw [smul_eq_mul, mul_comm]
  refine ⟨fun k => if h : k < m then f (fun j => if (⟨k, h⟩ : Fin m) = j then 1 else 0) else 0, ?_, fun y hy => ?_⟩
  · rw [Finset.sum_range]
    have := hf (fun _ => 1)
    rw [forecast_const d m hm] at this
    refine Eq.trans (sum_congr rfl (fun k _ => ?_)) this.symm
    simp
  · rw [createModel_eq' d m y lo hy hm, hf, Finset.sum_range]
    congr 2
    refine sum_congr rfl (fun k _ => ?_)
    simp

/-- **C204** One sample: the prediction is that sample, for every degree. -/
theorem C204_one_sample (d : Nat) (a : ℝ) (lo : Int) : createModel d [fin a] lo (lo + 1) = .ok (fin a) := by
  obtain ⟨w, h1, h2⟩ := C204_weights d 1 one_pos lo
  have := h2 [a] rfl
  simp only [range_one, sum_singleton] at h1 this
  rw [h1] at this
  simpa [fins] using this

/-- **C204** Two samples and degree 2, the default degree: the prediction depends on where the samples lie. -/
theorem C204_two_samples (a b : ℝ) (lo : Int) : createModel 2 [fin a, fin b] lo (lo + 2) =
    .ok (fin (a + (b - a) * ((2 + 4 * (lo + 1) * (2 * lo + 1)) / (1 + (2 * lo + 1) ^ 2)))) := by
  have := createModel_eq' 2 2 [a, b] lo rfl two_pos
  rw [show fins [a, b] = [fin a, fin b] from rfl] at this
  push_cast at this
  rw [this]
  congr 2
  set s : ℝ := (b - a) / (1 + (2 * lo + 1) ^ 2) with hs
  have hp : (1 + (2 * (lo : ℝ) + 1) ^ 2) ≠ 0 := by positivity
  have hD : ∀ j, colMean (designMatrix 2 2 lo) j = ((lo : ℝ) ^ (j : ℕ) + ((lo : ℝ) + 1) ^ (j : ℕ)) / 2 := by
    intro j
    simp [colMean, designMatrix, polyFeatures, Fin.sum_univ_two]
  have hY : sampleMean (fun k : Fin 2 => [a, b].getD k 0) = (a + b) / 2 := by
    simp [sampleMean, Fin.sum_univ_two]
  have hsum : ∀ f : Fin (2 + 1) → ℝ, ∑ j, f j = f 0 + f 1 + f 2 := fun f => Fin.sum_univ_three f
  have hctr : ∀ (c : Fin (2 + 1) → ℝ), ctr (designMatrix 2 2 lo) c 0 = -(c 1 + (2 * lo + 1) * c 2) / 2 ∧
      ctr (designMatrix 2 2 lo) c 1 = (c 1 + (2 * lo + 1) * c 2) / 2 := by
    intro c
    constructor <;>
    · simp only [ctr, hsum, hD, designMatrix, polyFeatures]
      simp
      ring
  have h : IsLstsq (designMatrix 2 2 lo) (fun k : Fin 2 => [a, b].getD k 0) ![0, s, (2 * lo + 1) * s] := by
    refine (isLstsq_iff _ _ _).mpr ⟨fun c' => ?_, fun k hk => ?_⟩
    · rw [Fin.sum_univ_two, hY, (hctr c').1, (hctr c').2, (hctr _).1, (hctr _).2]
      have : s * (1 + (2 * lo + 1) ^ 2) = b - a := by rw [hs]; field_simp
      simp
      linear_combination (c' 1 + (2 * lo + 1) * c' 2) / 2 * this
    · have h1 := hk 1
      rw [(hctr k).2] at h1
      rw [hsum]
      simp
      linear_combination 2 * s * h1
  unfold forecast
  rw [regressAt_of h, hY, hsum]
  simp only [hD, polyFeatures]
  simp
  rw [hs]
  field_simp
  ring

/-- **C204** With two samples the default degree does not even continue a straight line: from `a` and `b ≠ a` it never predicts
`a + 2 (b - a)` (at a position `lo ≥ 0`), and the same two samples give another prediction one place further on. -/
theorem C204_overfit (a b : ℝ) (hab : a ≠ b) (lo : Int) (hlo : 0 ≤ lo) :
    createModel 2 [fin a, fin b] lo (lo + 2) ≠ .ok (fin (a + 2 * (b - a))) ∧
    createModel 2 [fin a, fin b] 9 11 ≠ createModel 2 [fin a, fin b] 10 12 := by
  have hlo' : (0 : ℝ) ≤ lo := by exact_mod_cast hlo
  have hba : b - a ≠ 0 := sub_ne_zero.mpr hab.symm
  constructor
  · rw [C204_two_samples]
    intro h
    injection h with h
    injection h with h
    have hp : (1 + (2 * (lo : ℝ) + 1) ^ 2) ≠ 0 := by positivity
    have h1 : (2 + 4 * ((lo : ℝ) + 1) * (2 * lo + 1)) / (1 + (2 * lo + 1) ^ 2) = 2 := by
      apply mul_left_cancel₀ hba
      linarith
    rw [div_eq_iff hp] at h1
    nlinarith
  · have h1 := C204_two_samples a b 9
    have h2 := C204_two_samples a b 10
    norm_num at h1 h2
    rw [h1, h2]
    intro h
    injection h with h
    injection h with h
    apply hba
    linarith

/-- a parabola of 40 samples with two NaN spikes, restored by the code's own regression -/
example : polynomialReplacement (createModel 2)
      ⟨1, false, (List.range 40).map (fun k : ℕ => if k = 20 ∨ k = 21 then nan else fin ((k : ℝ) ^ 2))⟩ [20, 21] 10 4 =
      .ok ((List.range 40).map (fun k => PyNum.around (fin (((k : ℕ) : ℝ) ^ 2)) 4)) := by
  have h := C125_restore 2 (createModel 2) (C204_least_squares 2) (X ^ 2) (by simp) ⟨1, false, (List.range 40).map
    (fun k : ℕ => if k = 20 ∨ k = 21 then nan else fin ((k : ℝ) ^ 2))⟩ rfl [20, 21] (by simp) (by simp) (by simp) (by simp)
    (by
      intro k hk hn
      simp only [List.length_map, List.length_range] at hk
      simp only [List.mem_cons, List.not_mem_nil, or_false] at hn
      rw [List.getElem?_map, List.getElem?_range hk]
      simp [hn]) 10 4 (by simp) (by norm_num)
  simpa using h

/-- two samples 0 and 1 at the indices 9 and 10: the default degree predicts 762/362, not 2 -/
example : createModel 2 [fin 0, fin 1] 9 11 = .ok (fin (762 / 362)) := by
  have := C204_two_samples 0 1 9
  norm_num at this ⊢
  exact this

end

end Proadv.Props
