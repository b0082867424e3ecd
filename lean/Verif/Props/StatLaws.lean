import Verif.Props.Spread
import Verif.Props.MedianMode
import Verif.Spec.Cov

/-!
# C157–C159: extremal properties of mean and median, universal bounds on standardised samples, pooled statistics
-/

set_option linter.unusedSectionVars false

namespace Proadv.Props

open Proadv Fl Descriptive Spread Moment

section ordered
variable {K : Type} [Field K] [LinearOrder K] [FloorRing K] [IsStrictOrderedRing K]

/-- `Σ (x − t)² = Σ (x − mean)² + n (mean − t)²` -/
theorem sum_sq_shift (xs : List K) (h : xs ≠ []) (t : K) :
    (xs.map (fun x => (x - t) ^ 2)).sum =
      (xs.map (fun x => (x - Spec.avg xs) ^ 2)).sum + xs.length * (Spec.avg xs - t) ^ 2 := by
  have hl : (xs.length : K) ≠ 0 := Spec.length_ne h
  have e : ∀ (l : List K) (m : K), (l.map (fun x => (x - t) ^ 2)).sum =
      (l.map (fun x => (x - m) ^ 2)).sum + 2 * (m - t) * (l.sum - l.length * m) + l.length * (m - t) ^ 2 := by
    intro l m
    induction l with
    | nil => simp
    | cons x l ih => simp only [List.map_cons, List.sum_cons, ih, List.length_cons]; push_cast; ring
  rw [e xs (Spec.avg xs)]
  have : xs.sum - xs.length * Spec.avg xs = 0 := by rw [Spec.avg, mul_div_cancel₀ _ hl, sub_self]
  rw [this]; ring

/-- **C157** `mean` is the unique least-squares centre of the data. -/
theorem C157_mean (parse : String → Option (Fl K)) (xs : List K) (h : xs ≠ []) :
    ∃ m, mean parse (.seq (xs.map (fun x => .num (fin x)))) = .ok (.val (fin m)) ∧
      ∀ t, (xs.map (fun x => (x - m) ^ 2)).sum ≤ (xs.map (fun x => (x - t) ^ 2)).sum ∧
        ((xs.map (fun x => (x - t) ^ 2)).sum = (xs.map (fun x => (x - m) ^ 2)).sum → t = m) := by
  refine ⟨_, (C02_mean_value parse xs h).1, fun t => ?_⟩
  have hs := sum_sq_shift xs h t
  have hl : (0 : K) < xs.length := by exact_mod_cast List.length_pos_iff.mpr h
  rw [show xs.sum / (xs.length : K) = Spec.avg xs from rfl, hs]
  constructor
  · have := mul_nonneg hl.le (sq_nonneg (Spec.avg xs - t)); linarith
  · intro he
    have : (xs.length : K) * (Spec.avg xs - t) ^ 2 = 0 := by linarith
    rcases mul_eq_zero.mp this with h0 | h0
    · exact absurd h0 hl.ne'
    · have := pow_eq_zero_iff (two_ne_zero) |>.mp h0; linarith

/-- moving the centre away from a point that has half of the data on the other side cannot help -/
theorem sum_abs_right (xs : List K) {m t : K} (hmt : m ≤ t) :
    (t - m) * (2 * (xs.countP (fun x => decide (x ≤ m)) : K) - xs.length) ≤
      (xs.map (fun x => |x - t|)).sum - (xs.map (fun x => |x - m|)).sum := by
  induction xs with
  | nil => simp
  | cons x l ih =>
    simp only [List.map_cons, List.sum_cons, List.countP_cons, List.length_cons]
    by_cases hx : x ≤ m
    · simp only [hx, decide_true, if_true]
      rw [abs_of_nonpos (by linarith : x - t ≤ 0), abs_of_nonpos (by linarith : x - m ≤ 0)]
      push_cast
      linarith
    · simp only [hx, decide_false, Bool.false_eq_true, if_false]
      have : |x - m| ≤ |x - t| + (t - m) := by
        calc |x - m| = |(x - t) + (t - m)| := by congr 1; ring
          _ ≤ |x - t| + |t - m| := abs_add_le _ _
          _ = _ := by rw [abs_of_nonneg (by linarith : (0 : K) ≤ t - m)]
      push_cast
      linarith

/-- … nor to the left -/
theorem sum_abs_left (xs : List K) {m t : K} (hmt : t ≤ m) :
    (m - t) * (2 * (xs.countP (fun x => decide (m ≤ x)) : K) - xs.length) ≤
      (xs.map (fun x => |x - t|)).sum - (xs.map (fun x => |x - m|)).sum := by
  induction xs with
  | nil => simp
  | cons x l ih =>
    simp only [List.map_cons, List.sum_cons, List.countP_cons, List.length_cons]
    by_cases hx : m ≤ x
    · simp only [hx, decide_true, if_true]
      rw [abs_of_nonneg (by linarith : 0 ≤ x - t), abs_of_nonneg (by linarith : 0 ≤ x - m)]
      push_cast
      linarith
    · simp only [hx, decide_false, Bool.false_eq_true, if_false]
      have : |x - m| ≤ |x - t| + (m - t) := by
        calc |x - m| = |(x - t) + (t - m)| := by congr 1; ring
          _ ≤ |x - t| + |t - m| := abs_add_le _ _
          _ = _ := by rw [abs_of_nonpos (by linarith : t - m ≤ 0)]; ring
      push_cast
      linarith

/-- **C157** `median` minimises the sum of the absolute deviations. -/
theorem C157_median (b : Bool) (xs : List K) (h : xs ≠ []) :
    ∃ m, median ⟨1, b, xs.map (fun x => .num (fin x))⟩ = .ok (fin m) ∧
      ∀ t, (xs.map (fun x => |x - m|)).sum ≤ (xs.map (fun x => |x - t|)).sum := by
  obtain ⟨m, hm, h1, h2, -, -⟩ := C04_median_halves b xs h
  refine ⟨m, hm, fun t => ?_⟩
  rcases le_total m t with hmt | hmt
  · have := sum_abs_right xs hmt
    have h1' : (xs.length : K) ≤ 2 * (xs.countP (fun x => decide (x ≤ m)) : K) := by exact_mod_cast h1
    have := mul_nonneg (sub_nonneg.mpr hmt) (sub_nonneg.mpr h1')
    linarith
  · have := sum_abs_left xs hmt
    have h2' : (xs.length : K) ≤ 2 * (xs.countP (fun x => decide (m ≤ x)) : K) := by exact_mod_cast h2
    have := mul_nonneg (sub_nonneg.mpr hmt) (sub_nonneg.mpr h2')
    linarith

/-- **C159** pooled mean: the mean of two joined series is the mean of their means weighted by length. -/
theorem C159_mean (parse : String → Option (Fl K)) (xs ys : List K) (hx : xs ≠ []) (hy : ys ≠ []) :
    ∃ a b, mean parse (.seq (xs.map (fun x => .num (fin x)))) = .ok (.val (fin a)) ∧
      mean parse (.seq (ys.map (fun x => .num (fin x)))) = .ok (.val (fin b)) ∧
      mean parse (.seq ((xs ++ ys).map (fun x => .num (fin x)))) =
        .ok (.val (fin ((xs.length * a + ys.length * b) / (xs.length + ys.length)))) := by
  refine ⟨_, _, (C02_mean_value parse xs hx).1, (C02_mean_value parse ys hy).1, ?_⟩
  rw [(C02_mean_value parse (xs ++ ys) (by simp [hx])).1]
  have h1 : (xs.length : K) ≠ 0 := Spec.length_ne hx
  have h2 : (ys.length : K) ≠ 0 := Spec.length_ne hy
  rw [mul_div_cancel₀ _ h1, mul_div_cancel₀ _ h2, List.sum_append, List.length_append, Nat.cast_add]

/-- **C159** pooled variance: the weighted mean of the variances plus the variance between the two means. -/
theorem C159_variance (b₁ b₂ b₃ : Bool) (parse : String → Option (Fl K)) (xs ys : List K) (hx : xs ≠ []) (hy : ys ≠ []) :
    ∃ v w p q, variance ⟨1, b₁, xs.map (fun x => .num (fin x))⟩ = .ok (fin v) ∧
      variance ⟨1, b₂, ys.map (fun x => .num (fin x))⟩ = .ok (fin w) ∧
      mean parse (.seq (xs.map (fun x => .num (fin x)))) = .ok (.val (fin p)) ∧
      mean parse (.seq (ys.map (fun x => .num (fin x)))) = .ok (.val (fin q)) ∧
      variance ⟨1, b₃, (xs ++ ys).map (fun x => .num (fin x))⟩ =
        .ok (fin ((xs.length * v + ys.length * w) / (xs.length + ys.length) +
          xs.length * ys.length * (p - q) ^ 2 / (xs.length + ys.length) ^ 2)) := by
  have hxy : xs ++ ys ≠ [] := by simp [hx]
  refine ⟨_, _, _, _, variance_fins b₁ xs hx, variance_fins b₂ ys hy, (C02_mean_value parse xs hx).1,
    (C02_mean_value parse ys hy).1, ?_⟩
  rw [variance_fins b₃ _ hxy]
  congr 2
  have h1 : (xs.length : K) ≠ 0 := Spec.length_ne hx
  have h2 : (ys.length : K) ≠ 0 := Spec.length_ne hy
  have h3 : (0 : K) < (xs.length : K) + ys.length := by
    have : 0 < xs.length + ys.length := by have := List.length_pos_iff.mpr hx; omega
    exact_mod_cast this
  rw [Spec.var_eq_sub hxy, Spec.var_eq_sub hx, Spec.var_eq_sub hy]
  unfold Spec.avg
  simp only [List.map_append, List.sum_append, List.length_append, List.length_map, Nat.cast_add]
  have h3' := h3.ne'
  field_simp
  ring

end ordered

/-! ## |mean − median| ≤ std -/

/-- `(Σ |d|)² ≤ n Σ d²` -/
theorem sum_abs_sq_le (xs : List ℝ) : (xs.map (fun x => |x|)).sum ^ 2 ≤ xs.length * (xs.map (fun x => x ^ 2)).sum := by
  have h := Spec.dot_sq_le (xs.map (fun x => |x|)) (List.replicate xs.length 1)
  have e1 : Spec.dot (xs.map (fun x => |x|)) (List.replicate xs.length 1) = (xs.map (fun x => |x|)).sum := by
    unfold Spec.dot
    congr 1
    apply List.ext_getElem
    · simp
    · intro i h1 h2; simp
  have e2 : Spec.dot (xs.map (fun x => |x|)) (xs.map (fun x => |x|)) = (xs.map (fun x => x ^ 2)).sum := by
    rw [Spec.dot_self, List.map_map]; congr 1; apply List.map_congr_left; intro x _; simp
  have e3 : Spec.dot (List.replicate xs.length (1 : ℝ)) (List.replicate xs.length 1) = xs.length := by
    rw [Spec.dot_self]; simp
  rw [e1, e2, e3] at h
  linarith

/-- **C157** mean and median differ by at most one standard deviation. -/
theorem C157_mean_median (b c : Bool) (parse : String → Option (Fl ℝ)) (xs : List ℝ) (h : xs ≠ []) :
    ∃ m d s, mean parse (.seq (xs.map (fun x => .num (fin x)))) = .ok (.val (fin m)) ∧
      median ⟨1, b, xs.map (fun x => .num (fin x))⟩ = .ok (fin d) ∧
      stdItems ⟨1, c, xs.map (fun x => .num (fin x))⟩ = .ok (fin s) ∧ |m - d| ≤ s := by
  obtain ⟨d, hd, hmin⟩ := C157_median b xs h
  refine ⟨_, d, _, (C02_mean_value parse xs h).1, hd, stdItems_fins c xs h, ?_⟩
  have hl : (0 : ℝ) < xs.length := by exact_mod_cast List.length_pos_iff.mpr h
  rw [show xs.sum / (xs.length : ℝ) = Spec.avg xs from rfl]
  set m := Spec.avg xs with hm
  apply Real.le_sqrt_of_sq_le
  rw [sq_abs]
  -- n |m - d| ≤ Σ |x - d| ≤ Σ |x - m|
  have h1 : xs.length * |m - d| ≤ (xs.map (fun x => |x - d|)).sum := by
    have gen : ∀ l : List ℝ, |l.sum - l.length * d| ≤ (l.map (fun x => |x - d|)).sum := by
      intro l
      induction l with
      | nil => simp
      | cons x l ih =>
        simp only [List.sum_cons, List.map_cons, List.length_cons]
        push_cast
        calc |x + l.sum - (l.length + 1) * d| = |(x - d) + (l.sum - l.length * d)| := by congr 1; ring
          _ ≤ |x - d| + |l.sum - l.length * d| := abs_add_le _ _
          _ ≤ _ := by linarith
    have := gen xs
    have e : xs.sum - xs.length * d = xs.length * (m - d) := by
      rw [hm, Spec.avg]; field_simp
    rwa [e, abs_mul, abs_of_pos hl] at this
  have h2 := hmin m
  have h3 := sum_abs_sq_le (xs.map (fun x => x - m))
  rw [List.map_map, List.map_map, List.length_map] at h3
  have e3 : (xs.map ((fun x => |x|) ∘ fun x => x - m)).sum = (xs.map (fun x => |x - m|)).sum := rfl
  have e4 : (xs.map ((fun x => x ^ 2) ∘ fun x => x - m)).sum = xs.length * Spec.var xs := by
    unfold Spec.var Spec.cmoment
    rw [Spec.avg, List.length_map, mul_div_cancel₀ _ hl.ne']; rfl
  rw [e3, e4] at h3
  have h4 : xs.length * |m - d| ≤ (xs.map (fun x => |x - m|)).sum := h1.trans h2
  have h5 : (xs.length * |m - d|) ^ 2 ≤ (xs.map (fun x => |x - m|)).sum ^ 2 :=
    pow_le_pow_left₀ (by positivity) h4 2
  have h6 : (xs.length : ℝ) ^ 2 * (m - d) ^ 2 ≤ (xs.length : ℝ) ^ 2 * Spec.var xs := by
    calc (xs.length : ℝ) ^ 2 * (m - d) ^ 2 = (xs.length * |m - d|) ^ 2 := by rw [mul_pow, sq_abs]
      _ ≤ _ := h5
      _ ≤ _ := h3
      _ = _ := by ring
  exact le_of_mul_le_mul_left h6 (by positivity)

/-! ## Samuelson's inequality and bounds on skewness and kurtosis -/

/-- sums of the deviations from the mean -/
theorem dev_sums (xs : List ℝ) (h : xs ≠ []) : (xs.map (fun x => x - Spec.avg xs)).sum = 0 ∧
    (xs.map (fun x => (x - Spec.avg xs) ^ 2)).sum = xs.length * Spec.var xs := by
  have hl : (xs.length : ℝ) ≠ 0 := Spec.length_ne h
  constructor
  · have gen : ∀ (l : List ℝ) (m : ℝ), (l.map (fun x => x - m)).sum = l.sum - l.length * m := by
      intro l m
      induction l with
      | nil => simp
      | cons x l ih => simp only [List.map_cons, List.sum_cons, ih, List.length_cons]; push_cast; ring
    rw [gen, Spec.avg]; field_simp; ring
  · unfold Spec.var Spec.cmoment
    conv_rhs => rw [Spec.avg]
    rw [List.length_map, mul_div_cancel₀ _ hl]

theorem samuelson (xs : List ℝ) (x : ℝ) (hx : x ∈ xs) :
    (x - Spec.avg xs) ^ 2 ≤ (xs.length - 1) * Spec.var xs := by
  have h : xs ≠ [] := by rintro rfl; simp at hx
  obtain ⟨s1, s2⟩ := dev_sums xs h
  set m := Spec.avg xs
  have hp := List.perm_cons_erase hx
  set ys := xs.erase x with hys
  have hlen : (xs.length : ℝ) = ys.length + 1 := by
    have := hp.length_eq; rw [List.length_cons] at this; exact_mod_cast this
  have e1 : (ys.map (fun y => y - m)).sum = -(x - m) := by
    have := (hp.map (fun y => y - m)).sum_eq
    rw [s1, List.map_cons, List.sum_cons] at this; linarith
  have e2 : (ys.map (fun y => (y - m) ^ 2)).sum = xs.length * Spec.var xs - (x - m) ^ 2 := by
    have := (hp.map (fun y => (y - m) ^ 2)).sum_eq
    rw [s2, List.map_cons, List.sum_cons] at this; linarith
  have h3 := sum_abs_sq_le (ys.map (fun y => y - m))
  rw [List.map_map, List.map_map, List.length_map] at h3
  have e3 : (ys.map ((fun x => x ^ 2) ∘ fun x => x - m)).sum = xs.length * Spec.var xs - (x - m) ^ 2 := e2
  rw [e3] at h3
  have h4 : (x - m) ^ 2 ≤ (ys.map ((fun x => |x|) ∘ fun x => x - m)).sum ^ 2 := by
    rw [← sq_abs]
    apply pow_le_pow_left₀ (abs_nonneg _)
    have gen : ∀ l : List ℝ, |(l.map (fun y => y - m)).sum| ≤ (l.map ((fun x => |x|) ∘ fun x => x - m)).sum := by
      intro l
      induction l with
      | nil => simp
      | cons y l ih =>
        simp only [List.map_cons, List.sum_cons, Function.comp]
        exact (abs_add_le _ _).trans (add_le_add_right ih _)
    have := gen ys
    rwa [e1, abs_neg] at this
  have h5 : (x - m) ^ 2 ≤ ys.length * (xs.length * Spec.var xs - (x - m) ^ 2) := h4.trans h3
  rw [hlen] at h5 ⊢
  have hl : (0 : ℝ) < (ys.length : ℝ) + 1 := by positivity
  have h6 : ((ys.length : ℝ) + 1) * (x - m) ^ 2 ≤ (ys.length + 1) * ((ys.length + 1 - 1) * Spec.var xs) := by nlinarith
  exact le_of_mul_le_mul_left h6 hl

/-- **C158** no sample is further than `√(n − 1)` standard deviations from the mean. -/
theorem C158_samuelson (b : Bool) (parse : String → Option (Fl ℝ)) (xs : List ℝ) (h : xs ≠ []) :
    ∃ m s, mean parse (.seq (xs.map (fun x => .num (fin x)))) = .ok (.val (fin m)) ∧
      stdItems ⟨1, b, xs.map (fun x => .num (fin x))⟩ = .ok (fin s) ∧
      ∀ x ∈ xs, |x - m| ≤ √(xs.length - 1) * s := by
  refine ⟨_, _, (C02_mean_value parse xs h).1, stdItems_fins b xs h, fun x hx => ?_⟩
  have hl : (1 : ℝ) ≤ xs.length := by exact_mod_cast List.length_pos_iff.mpr h
  rw [← Real.sqrt_mul (by linarith)]
  exact Real.abs_le_sqrt (samuelson xs x hx)

/-- **C158** skewness is at most `(n − 2)/√(n − 1)` and kurtosis at most `n − 1`, for every non-constant series. -/
theorem C158_moments (b c : Bool) (xs : List ℝ) (x y : ℝ) (hx : x ∈ xs) (hy : y ∈ xs) (hxy : x ≠ y) :
    ∃ g k, skewness ⟨1, b, xs.map fin⟩ = .ok (fin g) ∧ kurtosis ⟨1, c, xs.map fin⟩ = .ok (fin k) ∧
      |g| ≤ (xs.length - 2) / √(xs.length - 1) ∧ k ≤ xs.length - 1 := by
  have h : xs ≠ [] := by rintro rfl; simp at hx
  have hv : Spec.var xs ≠ 0 := fun h0 => hxy (Spec.var_eq_zero.mp h0 x hx y hy)
  have hpos : 0 < Spec.var xs := lt_of_le_of_ne (Spec.var_nonneg xs) (Ne.symm hv)
  obtain ⟨s1, s2⟩ := dev_sums xs h
  have hn : (0 : ℝ) < xs.length := by exact_mod_cast List.length_pos_iff.mpr h
  have hn1 : (0 : ℝ) < xs.length - 1 := by
    have h0 := samuelson xs x hx
    have h1 := samuelson xs y hy
    by_contra hc
    have hz : (xs.length - 1) * Spec.var xs ≤ 0 := mul_nonpos_of_nonpos_of_nonneg (not_lt.mp hc) hpos.le
    have a1 : x - Spec.avg xs = 0 := by nlinarith [sq_nonneg (x - Spec.avg xs)]
    have a2 : y - Spec.avg xs = 0 := by nlinarith [sq_nonneg (y - Spec.avg xs)]
    exact hxy (by linarith)
  refine ⟨_, _, skewness_fins b xs h hv, kurtosis_fins c xs h hv, ?_, ?_⟩
  · set σ := √(Spec.var xs) with hσ
    set M := √((xs.length : ℝ) - 1) with hM
    have σ0 : 0 < σ := Real.sqrt_pos.mpr hpos
    have M0 : 0 < M := Real.sqrt_pos.mpr hn1
    have σ2 : σ ^ 2 = Spec.var xs := Real.sq_sqrt hpos.le
    have M2 : M ^ 2 = xs.length - 1 := Real.sq_sqrt hn1.le
    set m := Spec.avg xs with hm
    have hz : ∀ z ∈ xs, |z - m| ≤ M * σ := by
      intro z hz
      rw [hM, hσ, ← Real.sqrt_mul hn1.le]
      exact Real.abs_le_sqrt (samuelson xs z hz)
    -- Σ e (z - m)³ ≤ n (M - 1/M) σ³ for e = ±1
    have key : ∀ e : ℝ, e = 1 ∨ e = -1 → e * (xs.map (fun z => (z - m) ^ 3)).sum ≤ xs.length * ((M - 1 / M) * σ ^ 3) := by
      intro e he
      have e2 : e ^ 2 = 1 := by rcases he with rfl | rfl <;> norm_num
      have ha : |e| = 1 := by rcases he with rfl | rfl <;> norm_num
      have gen : ∀ l : List ℝ, (∀ z ∈ l, |z - m| ≤ M * σ) → e * (l.map (fun z => (z - m) ^ 3)).sum ≤
          (M - 2 / M) * σ * (l.map (fun z => (z - m) ^ 2)).sum + (2 - 1 / M ^ 2) * σ ^ 2 * e * (l.map (fun z => z - m)).sum +
            l.length * (σ ^ 3 / M) := by
        intro l
        induction l with
        | nil => intro _; simp
        | cons z l ih =>
          intro hl
          have i1 := ih (fun z hz => hl z (List.mem_cons_of_mem _ hz))
          have i2 : e * (z - m) ≤ M * σ := by
            have := le_abs_self (e * (z - m))
            rw [abs_mul, ha, one_mul] at this
            exact this.trans (hl z List.mem_cons_self)
          have i3 : 0 ≤ (M * σ - e * (z - m)) * (e * (z - m) + σ / M) ^ 2 :=
            mul_nonneg (by linarith) (sq_nonneg _)
          have i4 : (M * σ - e * (z - m)) * (e * (z - m) + σ / M) ^ 2 =
              (M - 2 / M) * σ * (z - m) ^ 2 + (2 - 1 / M ^ 2) * σ ^ 2 * e * (z - m) + σ ^ 3 / M - e * (z - m) ^ 3 := by
            have : (M * σ - e * (z - m)) * (e * (z - m) + σ / M) ^ 2 =
              (M - 2 / M) * σ * (e ^ 2 * (z - m) ^ 2) + (2 - 1 / M ^ 2) * σ ^ 2 * e * (z - m) + σ ^ 3 / M - e * (e ^ 2 * (z - m) ^ 3) := by
              field_simp; ring
            rw [this, e2]; ring
          simp only [List.map_cons, List.sum_cons, List.length_cons]
          push_cast
          linarith
      have := gen xs hz
      rw [s1, s2, ← σ2, mul_zero, add_zero] at this
      refine this.trans (le_of_eq ?_)
      field_simp
      ring
    have hg : Spec.cmoment 3 xs / σ ^ 3 = (xs.map (fun z => (z - m) ^ 3)).sum / (xs.length * σ ^ 3) := by
      unfold Spec.cmoment
      conv_lhs => rw [Spec.avg]
      rw [List.length_map, div_div]
    have hb : ((xs.length : ℝ) - 2) / M = M - 1 / M := by
      rw [show (xs.length : ℝ) - 2 = M ^ 2 - 1 by rw [M2]; ring]; field_simp
    rw [hg, hb, abs_le]
    have hden : 0 < xs.length * σ ^ 3 := by positivity
    constructor
    · rw [le_div_iff₀ hden]
      have := key (-1) (.inr rfl)
      linarith
    · rw [div_le_iff₀ hden]
      have := key 1 (.inl rfl)
      linarith
  · rw [div_le_iff₀ (by positivity)]
    have gen : ∀ l : List ℝ, (∀ z ∈ l, z ∈ xs) → (l.map (fun z => (z - Spec.avg xs) ^ 4)).sum ≤
        (xs.length - 1) * Spec.var xs * (l.map (fun z => (z - Spec.avg xs) ^ 2)).sum := by
      intro l
      induction l with
      | nil => intro _; simp
      | cons z l ih =>
        intro hl
        have i1 := ih (fun z hz => hl z (List.mem_cons_of_mem _ hz))
        have i2 := samuelson xs z (hl z List.mem_cons_self)
        have i3 := mul_le_mul_of_nonneg_right i2 (sq_nonneg (z - Spec.avg xs))
        simp only [List.map_cons, List.sum_cons]
        nlinarith
    have g := gen xs (fun z hz => hz)
    rw [s2] at g
    have hk : (xs.map (fun z => (z - Spec.avg xs) ^ 4)).sum = xs.length * Spec.cmoment 4 xs := by
      unfold Spec.cmoment
      conv_rhs => rw [Spec.avg]
      rw [List.length_map, mul_div_cancel₀ _ hn.ne']
    rw [hk] at g
    have : xs.length * Spec.cmoment 4 xs ≤ xs.length * ((xs.length - 1) * Spec.var xs ^ 2) := by
      refine g.trans (le_of_eq ?_); ring
    exact le_of_mul_le_mul_left this hn

/-- **C158** the bounds on the distance from the mean and on the skewness are attained, at every length: one sample 1 and
`n` samples 0. -/
theorem C158_attained (b c : Bool) (n : Nat) (hn : 1 ≤ n) :
    skewness ⟨1, b, (1 :: List.replicate n (0 : ℝ)).map fin⟩ = .ok (fin (((n + 1 : Nat) - 2 : ℝ) / √((n + 1 : Nat) - 1))) ∧
    ∃ m s, meanOf ((1 :: List.replicate n (0 : ℝ)).map fin) = .ok (fin m) ∧
      std ⟨1, c, (1 :: List.replicate n (0 : ℝ)).map fin⟩ = .ok (fin s) ∧ 1 - m = √((n + 1 : Nat) - 1) * s := by
  set xs := 1 :: List.replicate n (0 : ℝ) with hxs
  have hne : xs ≠ [] := by simp [hxs]
  have hN : (0 : ℝ) < n := by exact_mod_cast hn
  have havg : Spec.avg xs = 1 / (n + 1) := by simp [Spec.avg, hxs]
  have hvar : Spec.var xs = n / (n + 1) ^ 2 := by
    unfold Spec.var Spec.cmoment
    rw [havg]
    simp only [hxs, Spec.avg, List.map_cons, List.sum_cons, List.map_replicate, List.sum_replicate, List.length_cons,
      List.length_replicate, nsmul_eq_mul]
    push_cast
    field_simp
    ring
  have h3 : Spec.cmoment 3 xs = n * (n - 1) / (n + 1) ^ 3 := by
    unfold Spec.cmoment
    rw [havg]
    simp only [hxs, Spec.avg, List.map_cons, List.sum_cons, List.map_replicate, List.sum_replicate, List.length_cons,
      List.length_replicate, nsmul_eq_mul]
    push_cast
    field_simp
    ring
  have hv : Spec.var xs ≠ 0 := by rw [hvar]; positivity
  have hsq : √(Spec.var xs) = √n / (n + 1) := by
    rw [hvar, Real.sqrt_div hN.le, Real.sqrt_sq (by positivity)]
  have hs : (√(n : ℝ)) ^ 2 = n := Real.sq_sqrt hN.le
  have hs0 : 0 < √(n : ℝ) := Real.sqrt_pos.mpr hN
  have hcast : (((n + 1 : Nat) : ℝ) - 1) = n := by push_cast; ring
  rw [hcast]
  constructor
  · have := skewness_fins b xs hne hv
    rw [this, h3, hsq]
    congr 2
    push_cast
    generalize √(n : ℝ) = r at *
    rw [← hs]
    field_simp
    ring
  · refine ⟨_, _, meanOf_fins xs hne, std_fins c xs hne, ?_⟩
    rw [havg, hsq]
    generalize √(n : ℝ) = r at *
    rw [← hs]
    field_simp
    ring

/-! ## The hypotheses are met -/

example : median ⟨1, false, [.num (fin 0), .num (fin 0), .num (fin (10 : ℚ))]⟩ = .ok (fin 0) ∧
    mean (fun _ => none) (.seq [.num (fin 0), .num (fin 0), .num (fin (10 : ℚ))]) = .ok (.val (fin (10 / 3))) ∧
    variance ⟨1, false, [.num (fin 0), .num (fin 0), .num (fin (10 : ℚ))]⟩ = .ok (fin (200 / 9)) ∧
    ((10 : ℚ) / 3 - 0) ^ 2 ≤ 200 / 9 := by decide +kernel

example : variance ⟨1, false, [.num (fin 0), .num (fin 2), .num (fin 5), .num (fin 5), .num (fin (8 : ℚ))]⟩ = .ok (fin (38 / 5)) ∧
    ((2 : ℚ) * 1 + 3 * 2) / 5 + 2 * 3 * (1 - 6) ^ 2 / 5 ^ 2 = 38 / 5 := by decide +kernel

end Proadv.Props
