import Verif.Lemmas.Descriptive
import Verif.Props.Descriptive

/-!
# Properties C07–C09: `statistics/spread.py`; C10–C11: `statistics/moment.py`
-/

set_option linter.unusedSectionVars false

namespace Proadv.Props

open Proadv Fl Descriptive Spread Moment

variable {K : Type} [Field K] [LinearOrder K] [FloorRing K] [IsStrictOrderedRing K]

theorem variance_fins (b : Bool) (xs : List K) (h : xs ≠ []) :
    variance ⟨1, b, xs.map (fun x => .num (fin x))⟩ = .ok (fin (Spec.var xs)) := by
  have h1 : xs.map (fun x => (Item.num (fin x) : Item (Fl K))) = numItems (fins xs) := by simp [Function.comp_def]
  unfold variance
  simp only [h1, any_isStr_numItems, filterMap_val_numItems, List.length_map, ne_eq, not_true_eq_false, if_false,
    Bool.false_eq_true]
  rw [if_neg (by simpa using h), npVar_fins xs h]

theorem stdItems_fins (b : Bool) (xs : List ℝ) (h : xs ≠ []) :
    stdItems ⟨1, b, xs.map (fun x => .num (fin x))⟩ = .ok (fin (√(Spec.var xs))) := by
  have := std_fins b xs h
  unfold std at this
  simpa [Function.comp_def] using this

/-! ## C07 -/

/-- **C07** variance: non-negative, zero exactly on constant data, equal to `mean(x²) - mean(x)²`. -/
theorem C07_variance (b : Bool) (xs : List K) (h : xs ≠ []) :
    ∃ v, variance ⟨1, b, xs.map (fun x => .num (fin x))⟩ = .ok (fin v) ∧ 0 ≤ v ∧
      (v = 0 ↔ ∀ x ∈ xs, ∀ y ∈ xs, x = y) ∧
      v = (xs.map (fun x => x ^ 2)).sum / xs.length - (xs.sum / xs.length) ^ 2 := by
  refine ⟨_, variance_fins b xs h, Spec.var_nonneg xs, Spec.var_eq_zero, ?_⟩
  rw [Spec.var_eq_sub h]; simp [Spec.avg]

/-- **C07** std: the non-negative square root of the variance. -/
theorem C07_std (b : Bool) (xs : List ℝ) (h : xs ≠ []) :
    ∃ s v, stdItems ⟨1, b, xs.map (fun x => .num (fin x))⟩ = .ok (fin s) ∧
      variance ⟨1, b, xs.map (fun x => .num (fin x))⟩ = .ok (fin v) ∧ 0 ≤ s ∧ s ^ 2 = v :=
  ⟨_, _, stdItems_fins b xs h, variance_fins b xs h, Real.sqrt_nonneg _, Real.sq_sqrt (Spec.var_nonneg xs)⟩

/-- **C07** error branches in order, for every float arithmetic; `std` and `variance` accept the same inputs. -/
theorem C07_errors {F : Type} [PyMath F] (a : Arr (Item F)) :
    (a.ndim ≠ 1 → variance a = .error .valueError ∧ stdItems a = .error .valueError) ∧
    (a.ndim = 1 → (∃ s, Item.str s ∈ a.data) → variance a = .error .typeError ∧ stdItems a = .error .typeError) ∧
    (a.ndim = 1 → a.data = [] → variance a = .error .valueError ∧ stdItems a = .error .valueError) ∧
    ((∃ v, variance a = .ok v) ↔ a.ndim = 1 ∧ (∀ s, Item.str s ∉ a.data) ∧ a.data ≠ []) ∧
    ((∃ v, stdItems a = .ok v) ↔ a.ndim = 1 ∧ (∀ s, Item.str s ∉ a.data) ∧ a.data ≠ []) := by
  obtain ⟨nd, b, d⟩ := a
  refine ⟨fun h => by simp [variance, stdItems, h], fun h hs => ?_, fun h hd => ?_, ?_⟩
  · simp only at h hs; simp [variance, stdItems, h, (any_isStr_iff d).mpr hs]
  · simp only at h hd; subst h hd; exact ⟨rfl, rfl⟩
  · simp only
    by_cases h1 : nd = 1
    · by_cases h2 : d.any Item.isStr = true
      · obtain ⟨s, hs⟩ := (any_isStr_iff d).mp h2
        simp only [variance, stdItems, h1, h2]
        simp only [ne_eq, not_true_eq_false, if_false, if_true]
        constructor
        · constructor
          · rintro ⟨v, hv⟩; cases hv
          · rintro ⟨-, h, -⟩; exact absurd hs (h s)
        · constructor
          · rintro ⟨v, hv⟩; cases hv
          · rintro ⟨-, h, -⟩; exact absurd hs (h s)
      · have h3 : ∀ s, Item.str s ∉ d := fun s hs => h2 ((any_isStr_iff d).mpr ⟨s, hs⟩)
        by_cases h4 : d = []
        · subst h4; simp [variance, stdItems]
        · simp [variance, stdItems, h1, h2, h3, h4]
    · simp [variance, stdItems, h1]

example : variance ⟨1, false, [.num (fin 1), .num (fin 2), .num (fin 6), .num (fin (3 : ℚ))]⟩ =
    .ok (fin (7 / 2)) := by decide +kernel

/-! ## C08 -/

/-- **C08** variance is shift-invariant and scales quadratically. -/
theorem C08_variance_affine (b c : Bool) (xs : List K) (h : xs ≠ []) (s t : K) :
    ∃ v, variance ⟨1, b, xs.map (fun x => .num (fin x))⟩ = .ok (fin v) ∧
      variance ⟨1, c, xs.map (fun x => .num (fin (s * x + t)))⟩ = .ok (fin (s ^ 2 * v)) := by
  refine ⟨_, variance_fins b xs h, ?_⟩
  have := variance_fins c (xs.map (fun x => s * x + t)) (by simpa using h)
  rw [List.map_map] at this
  rw [show (fun x => (Item.num (fin (s * x + t)) : Item (Fl K))) =
    (fun x => Item.num (fin x)) ∘ (fun x => s * x + t) from rfl, this]
  unfold Spec.var
  rw [Spec.cmoment_affine 2 s t h]

/-- **C08** std scales with the absolute value of the factor and ignores offsets. -/
theorem C08_std_affine (b c : Bool) (xs : List ℝ) (h : xs ≠ []) (s t : ℝ) :
    ∃ v, stdItems ⟨1, b, xs.map (fun x => .num (fin x))⟩ = .ok (fin v) ∧
      stdItems ⟨1, c, xs.map (fun x => .num (fin (s * x + t)))⟩ = .ok (fin (|s| * v)) := by
  refine ⟨_, stdItems_fins b xs h, ?_⟩
  have := stdItems_fins c (xs.map (fun x => s * x + t)) (by simpa using h)
  rw [List.map_map] at this
  rw [show (fun x => (Item.num (fin (s * x + t)) : Item (Fl ℝ))) =
    (fun x => Item.num (fin x)) ∘ (fun x => s * x + t) from rfl, this]
  unfold Spec.var
  rw [Spec.cmoment_affine 2 s t h, Real.sqrt_mul (sq_nonneg s), Real.sqrt_sq_eq_abs]

/-! ## C09 -/

/-- **C09** `std(data) ≤ (max(data) - min(data)) / 2`. -/
theorem C09_std_le_half_range (b : Bool) (xs : List ℝ) (h : xs ≠ []) :
    ∃ s lo hi, stdItems ⟨1, b, xs.map (fun x => .num (fin x))⟩ = .ok (fin s) ∧
      Descriptive.min (xs.map (fun x => .num (fin x))) = .ok (fin lo) ∧
      Descriptive.max (xs.map (fun x => .num (fin x))) = .ok (fin hi) ∧ s ≤ (hi - lo) / 2 := by
  have hs : ∀ s, Item.str s ∉ xs.map (fun x => (Item.num (fin x) : Item (Fl ℝ))) := by simp
  have hn : ∀ i ∈ xs.map (fun x => (Item.num (fin x) : Item (Fl ℝ))), i.val? ≠ some nan := by
    intro i hi; obtain ⟨x, _, rfl⟩ := List.mem_map.mp hi; simp [Item.val?]
  have hne : xs.map (fun x => (Item.num (fin x) : Item (Fl ℝ))) ≠ [] := by simpa using h
  obtain ⟨lo, hlo, ⟨i, hi, hi'⟩, hle⟩ := (C01_min _).2.2.2 hs hn hne
  obtain ⟨hi2, hhi, ⟨j, hj, hj'⟩, hge⟩ := (C01_max _).2.2.2 hs hn hne
  obtain ⟨l, hl, rfl⟩ := List.mem_map.mp hi
  obtain ⟨u, hu, rfl⟩ := List.mem_map.mp hj
  simp only [Item.val?, Option.some.injEq] at hi' hj'
  subst hi' hj'
  refine ⟨_, l, u, stdItems_fins b xs h, hlo, hhi, ?_⟩
  have hm : ∀ x ∈ xs, l ≤ x := by
    intro y hy; simpa using hle _ (List.mem_map.mpr ⟨y, hy, rfl⟩) _ rfl
  have hM : ∀ x ∈ xs, x ≤ u := by
    intro y hy; simpa using hge _ (List.mem_map.mpr ⟨y, hy, rfl⟩) _ rfl
  have h4 := Spec.var_le_range h hm hM
  have hlu : l ≤ u := hm u hu
  apply Real.sqrt_le_iff.mpr
  constructor
  · linarith
  · nlinarith

/-- the bound is attained -/
example : Spec.var [(0 : ℚ), 1] = ((1 - 0) / 2) ^ 2 := by decide +kernel

/-! ## C10, C11 -/

theorem skewness_fins (b : Bool) (xs : List ℝ) (h : xs ≠ []) (hv : Spec.var xs ≠ 0) :
    skewness ⟨1, b, fins xs⟩ = .ok (fin (Spec.cmoment 3 xs / √(Spec.var xs) ^ 3)) := by
  have hpos : 0 < Spec.var xs := lt_of_le_of_ne (Spec.var_nonneg xs) (Ne.symm hv)
  have hs : 0 < √(Spec.var xs) := Real.sqrt_pos.mpr hpos
  have hl := Spec.length_ne h
  unfold skewness firstMean
  rw [if_neg (show ¬ (1 : ℕ) = 0 by decide)]
  rw [std_fins b xs h, meanOf_fins xs h]
  simp only [bind, Except.bind, List.length_map]
  have : (fins xs).map (fun x => (x -. fin (Spec.avg xs)) ^. 3) =
      fins (xs.map (fun x => (x - Spec.avg xs) ^ 3)) := by simp [fins]
  have e : (fins xs).map (fun x => PyNum.npow (PyNum.sub x (fin (Spec.avg xs))) 3) =
      fins (xs.map (fun x => (x - Spec.avg xs) ^ 3)) := this
  rw [show (List.map (fun x => (x -. fin (Spec.avg xs)) ^. 3) (fins xs)) = _ from this]
  rw [psum_fin, ofNat_eq]
  simp only [pnpow_fin, pmul_fin]
  rw [pdiv_fin (by positivity)]
  unfold Spec.cmoment
  conv_rhs => rw [Spec.avg]
  rw [List.length_map, div_div]

theorem kurtosis_fins (b : Bool) (xs : List ℝ) (h : xs ≠ []) (hv : Spec.var xs ≠ 0) :
    kurtosis ⟨1, b, fins xs⟩ = .ok (fin (Spec.cmoment 4 xs / Spec.var xs ^ 2)) := by
  have hpos : 0 < Spec.var xs := lt_of_le_of_ne (Spec.var_nonneg xs) (Ne.symm hv)
  have hs : 0 < √(Spec.var xs) := Real.sqrt_pos.mpr hpos
  unfold kurtosis firstMean
  rw [if_neg (show ¬ (1 : ℕ) = 0 by decide)]
  rw [std_fins b xs h, meanOf_fins xs h]
  simp only [bind, Except.bind]
  have : (fins xs).map (fun x => (x -. fin (Spec.avg xs)) ^. 4) =
      fins (xs.map (fun x => (x - Spec.avg xs) ^ 4)) := by simp [fins]
  rw [this, meanOf_fins _ (by simpa using h)]
  simp only [pnpow_fin]
  rw [pdiv_fin (by positivity)]
  congr 3
  rw [show (4 : ℕ) = 2 * 2 from rfl, pow_mul, Real.sq_sqrt hpos.le]

/-- **C10** skewness is invariant under positive affine maps and changes sign under negative ones (non-constant
data). -/
theorem C10_skewness_affine (b c : Bool) (xs : List ℝ) (x y : ℝ) (hx : x ∈ xs) (hy : y ∈ xs) (hxy : x ≠ y)
    (s t : ℝ) (hs : s ≠ 0) :
    ∃ g, skewness ⟨1, b, xs.map fin⟩ = .ok (fin g) ∧
      skewness ⟨1, c, xs.map (fun x => fin (s * x + t))⟩ = .ok (fin (SignType.sign s * g)) := by
  have h : xs ≠ [] := by rintro rfl; simp at hx
  have hv : Spec.var xs ≠ 0 := fun h0 => hxy (Spec.var_eq_zero.mp h0 x hx y hy)
  have hva : Spec.var (xs.map (fun x => s * x + t)) = s ^ 2 * Spec.var xs := Spec.cmoment_affine 2 s t h
  refine ⟨_, skewness_fins b xs h hv, ?_⟩
  have := skewness_fins c (xs.map (fun x => s * x + t)) (by simpa using h) (by rw [hva]; positivity)
  unfold fins at this
  rw [List.map_map] at this
  rw [show (fun x => (fin (s * x + t) : Fl ℝ)) = fin ∘ (fun x => s * x + t) from rfl, this, hva,
    Spec.cmoment_affine 3 s t h, Real.sqrt_mul (sq_nonneg s), Real.sqrt_sq_eq_abs]
  congr 2
  have hpos : 0 < Spec.var xs := lt_of_le_of_ne (Spec.var_nonneg xs) (Ne.symm hv)
  have hsq : 0 < √(Spec.var xs) := Real.sqrt_pos.mpr hpos
  rcases lt_or_gt_of_ne hs with hneg | hpos'
  · rw [abs_of_neg hneg, sign_neg hneg]; simp only [SignType.coe_neg, SignType.coe_one]
    have : (-s) ≠ 0 := neg_ne_zero.mpr hs
    field_simp
  · rw [abs_of_pos hpos', sign_pos hpos']; simp only [SignType.coe_one]
    field_simp

/-- **C10** on constant data the result is NaN (0/0), not an exception; also for kurtosis (C11). -/
theorem C10_C11_constant (b : Bool) (c : ℝ) (n : ℕ) :
    skewness ⟨1, b, List.replicate (n + 1) (fin c)⟩ = .ok nan ∧
    kurtosis ⟨1, b, List.replicate (n + 1) (fin c)⟩ = .ok nan := by
  have hne : List.replicate (n + 1) c ≠ [] := by simp
  have hr : List.replicate (n + 1) (fin c : Fl ℝ) = fins (List.replicate (n + 1) c) := by simp [fins]
  have hc : ∀ x ∈ List.replicate (n + 1) c, x = c := fun x hx => List.eq_of_mem_replicate hx
  have hv : Spec.var (List.replicate (n + 1) c) = 0 := by
    rw [Spec.var_eq_zero]; intro x hx y hy; rw [hc x hx, hc y hy]
  have ha : Spec.avg (List.replicate (n + 1) c) = c :=
    le_antisymm (Spec.avg_le hne (fun x hx => (hc x hx).le)) (Spec.le_avg hne (fun x hx => (hc x hx).ge))
  constructor
  · unfold skewness firstMean
    rw [if_neg (show ¬ (1 : ℕ) = 0 by decide)]
    rw [hr, meanOf_fins _ hne, std_fins b _ hne, hv, ha]
    simp only [bind, Except.bind]
    have e : List.map (fun x => (x -. fin c) ^. 3) (fins (List.replicate (n + 1) c)) =
        fins (List.replicate (n + 1) 0) := by simp [fins]
    rw [e, psum_fin]
    simp only [Real.sqrt_zero, pnpow_fin, ofNat_eq, pmul_fin]
    simp [pdiv_fin', infSgn]
  · unfold kurtosis firstMean
    rw [if_neg (show ¬ (1 : ℕ) = 0 by decide)]
    rw [hr, meanOf_fins _ hne, std_fins b _ hne, hv, ha]
    simp only [bind, Except.bind]
    have e : List.map (fun x => (x -. fin c) ^. 4) (fins (List.replicate (n + 1) c)) =
        fins (List.replicate (n + 1) 0) := by simp [fins]
    rw [e, meanOf_fins _ (by simp)]
    have h0 : Spec.avg (List.replicate (n + 1) (0 : ℝ)) = 0 := by simp [Spec.avg]
    simp [pdiv_fin', infSgn, h0]

/-- **C11** kurtosis is affine-invariant (non-constant data, non-zero factor). -/
theorem C11_kurtosis_affine (b c : Bool) (xs : List ℝ) (x y : ℝ) (hx : x ∈ xs) (hy : y ∈ xs) (hxy : x ≠ y)
    (s t : ℝ) (hs : s ≠ 0) :
    ∃ g, kurtosis ⟨1, b, xs.map fin⟩ = .ok (fin g) ∧
      kurtosis ⟨1, c, xs.map (fun x => fin (s * x + t))⟩ = .ok (fin g) := by
  have h : xs ≠ [] := by rintro rfl; simp at hx
  have hv : Spec.var xs ≠ 0 := fun h0 => hxy (Spec.var_eq_zero.mp h0 x hx y hy)
  have hva : Spec.var (xs.map (fun x => s * x + t)) = s ^ 2 * Spec.var xs := Spec.cmoment_affine 2 s t h
  refine ⟨_, kurtosis_fins b xs h hv, ?_⟩
  have := kurtosis_fins c (xs.map (fun x => s * x + t)) (by simpa using h) (by rw [hva]; positivity)
  unfold fins at this
  rw [List.map_map] at this
  rw [show (fun x => (fin (s * x + t) : Fl ℝ)) = fin ∘ (fun x => s * x + t) from rfl, this, hva,
    Spec.cmoment_affine 4 s t h]
  congr 2
  field_simp

private theorem pearson (xs : List ℝ) (h : xs ≠ []) (hv : 0 < Spec.var xs) :
    Spec.var xs ^ 3 + Spec.cmoment 3 xs ^ 2 ≤ Spec.cmoment 4 xs * Spec.var xs := by
  set m := Spec.avg xs
  set v := Spec.var xs with hvd
  set c3 := Spec.cmoment 3 xs
  have key : ∀ p q : ℝ, Spec.avg (xs.map (fun x => ((x - m) ^ 2 + (p * (x - m) + q)) ^ 2)) =
      Spec.cmoment 4 xs + 2 * p * c3 + (p ^ 2 + 2 * q) * v + q ^ 2 := by
    intro p q
    have e : (fun x => ((x - m) ^ 2 + (p * (x - m) + q)) ^ 2) = fun x =>
        (x - m) ^ 4 + (2 * p * (x - m) ^ 3 + ((p ^ 2 + 2 * q) * (x - m) ^ 2 +
          ((2 * p * q) * x + (q ^ 2 - 2 * p * q * m)))) := by funext x; ring
    have l3 : Spec.avg (xs.map (fun x => 2 * p * (x - m) ^ 3)) = 2 * p * c3 := by
      have := Spec.avg_mul (2 * p) (xs.map (fun x => (x - m) ^ 3))
      rw [List.map_map] at this; exact this
    have l2 : Spec.avg (xs.map (fun x => (p ^ 2 + 2 * q) * (x - m) ^ 2)) = (p ^ 2 + 2 * q) * v := by
      have := Spec.avg_mul (p ^ 2 + 2 * q) (xs.map (fun x => (x - m) ^ 2))
      rw [List.map_map] at this; exact this
    rw [e, Spec.avg_add, Spec.avg_add, Spec.avg_add, Spec.avg_affine _ _ h, l3, l2]
    show Spec.cmoment 4 xs + _ = _
    ring
  have h1 : 0 ≤ Spec.avg (xs.map (fun x => ((x - m) ^ 2 + ((-c3 / v) * (x - m) + (-v))) ^ 2)) := by
    apply Spec.avg_nonneg
    intro y hy
    obtain ⟨x, _, rfl⟩ := List.mem_map.mp hy
    positivity
  rw [key] at h1
  have h2 : (Spec.cmoment 4 xs + 2 * (-c3 / v) * c3 + ((-c3 / v) ^ 2 + 2 * -v) * v + (-v) ^ 2) * v =
      Spec.cmoment 4 xs * v - c3 ^ 2 - v ^ 3 := by field_simp; ring
  have h3 := mul_nonneg h1 hv.le
  rw [h2] at h3
  linarith

/-- **C11** Pearson's inequality: `kurtosis ≥ skewness² + 1` for every non-constant series. -/
theorem C11_pearson (b c : Bool) (xs : List ℝ) (x y : ℝ) (hx : x ∈ xs) (hy : y ∈ xs) (hxy : x ≠ y) :
    ∃ g k, skewness ⟨1, b, xs.map fin⟩ = .ok (fin g) ∧ kurtosis ⟨1, c, xs.map fin⟩ = .ok (fin k) ∧
      g ^ 2 + 1 ≤ k := by
  have h : xs ≠ [] := by rintro rfl; simp at hx
  have hv : Spec.var xs ≠ 0 := fun h0 => hxy (Spec.var_eq_zero.mp h0 x hx y hy)
  have hpos : 0 < Spec.var xs := lt_of_le_of_ne (Spec.var_nonneg xs) (Ne.symm hv)
  refine ⟨_, _, skewness_fins b xs h hv, kurtosis_fins c xs h hv, ?_⟩
  have hp := pearson xs h hpos
  have e : (Spec.cmoment 3 xs / √(Spec.var xs) ^ 3) ^ 2 = Spec.cmoment 3 xs ^ 2 / Spec.var xs ^ 3 := by
    rw [div_pow, ← pow_mul, show 3 * 2 = 2 * 3 from rfl, pow_mul, Real.sq_sqrt hpos.le]
  rw [e, div_add_one (by positivity), div_le_div_iff₀ (by positivity) (by positivity)]
  nlinarith [mul_le_mul_of_nonneg_right hp (sq_nonneg (Spec.var xs))]

/-- **C10/C11** error behaviour, for every float arithmetic: a 0-dimensional array raises TypeError, empty or other not 1-D
data raises ValueError; everything else returns a number. -/
theorem C10_C11_errors {F : Type} [PyMath F] (a : Arr F) :
    (a.ndim = 0 → skewness a = .error .typeError ∧ kurtosis a = .error .typeError) ∧
    (a.ndim ≠ 0 → (a.ndim ≠ 1 ∨ a.data = []) → skewness a = .error .valueError ∧ kurtosis a = .error .valueError) ∧
    (a.ndim = 1 → a.data ≠ [] → (∃ g, skewness a = .ok g) ∧ (∃ k, kurtosis a = .ok k)) := by
  obtain ⟨nd, b, d⟩ := a
  refine ⟨?_, ?_, ?_⟩
  · intro h0
    simp only at h0
    simp [skewness, kurtosis, firstMean, h0, bind, Except.bind]
  · intro h0
    simp only at h0
    rintro (h | h)
    · simp only at h; simp [skewness, kurtosis, firstMean, h0, std, stdItems, h, bind, Except.bind]
    · simp only at h; subst h
      by_cases hn : nd = 1 <;> simp [skewness, kurtosis, firstMean, h0, std, stdItems, hn, bind, Except.bind]
  · intro h1 h2
    simp only at h1 h2; subst h1
    have h3 : ∀ f : F → F, d.map f ≠ [] := fun f => by simpa using h2
    simp [skewness, kurtosis, firstMean, std_eq b d h2, meanOf_eq d h2, meanOf_eq _ (h3 _), bind, Except.bind]

/-- non-vacuity: a non-constant series -/
example : ∃ xs : List ℝ, ∃ x ∈ xs, ∃ y ∈ xs, x ≠ y := ⟨[0, 1], 0, by simp, 1, by simp, by norm_num⟩

end Proadv.Props
