import Verif.Model.Normal
import Verif.Lemmas.Erf
import Verif.Lemmas.Descriptive
import Verif.Props.Spread

/-!
# C31–C35: the normal distribution
-/

set_option linter.unusedSectionVars false

namespace Proadv.Props

open Proadv Proadv.Normal Fl Real ProbabilityTheory
open MeasureTheory (measure_ne_top measure_mono measure_union)

/-- specification: the standard normal probability of `(-∞, x]` -/
noncomputable def Phi (x : ℝ) : ℝ := (gaussianReal 0 1 (Set.Iic x)).toReal

theorem Phi_eq (x : ℝ) : Phi x = 1 / 2 + 1 / 2 * erfR (x / √2) := gaussian_Iic x

theorem cdfEntry_fin (x : ℝ) : cdfEntry (fin x : Fl ℝ) = fin (Phi x) := by
  have hs : (√2 : ℝ) ≠ 0 := by positivity
  have h0 : (lit 1 : Fl ℝ) /. PyMath.sqrt (lit 2) = fin (1 / √2) := by
    rw [lit_eq, lit_eq, psqrt_fin (by norm_num)]
    rw [pdiv_fin (by simp)]
    norm_num
  unfold cdfEntry
  simp only [h0, pmul_fin, pabs_fin, plt_fin]
  have hx : x * (1 / √2) = x / √2 := by ring
  rw [hx, Phi_eq]
  split
  · simp only [perf_fin, lit_eq, pmul_fin, padd_fin]
    norm_num
  · have hlt : ((lit 0 : Fl ℝ) <. fin (x / √2)) = decide (0 < x / √2) := by rw [lit_eq, plt_fin]; simp
    by_cases hpos : 0 < x / √2
    · rw [decide_eq_true hpos] at hlt
      rw [if_pos hlt, abs_of_pos hpos]
      simp only [perfc_fin, lit_eq, pmul_fin, psub_fin]
      congr 1; push_cast; ring
    · rw [decide_eq_false hpos] at hlt
      rw [if_neg (by rw [hlt]; simp), abs_of_nonpos (not_lt.mp hpos)]
      simp only [perfc_fin, lit_eq, pmul_fin, erfR_neg]
      congr 1; push_cast; ring

theorem any_isNaN_fins (xs : List ℝ) : (xs.map fin : List (Fl ℝ)).any PyNum.isNaN = false := by
  rw [List.any_eq_false]
  intro y hy
  obtain ⟨x, _, rfl⟩ := List.mem_map.mp hy
  simp [PyNum.isNaN, Fl.isNaN]

/-- **C31** on finite float arrays (of any shape with at least one dimension) `cdf` returns the standard normal
distribution function, entry by entry. -/
theorem C31_cdf (d : Nat) (hd : d ≠ 0) (xs : List ℝ) (hx : xs ≠ []) :
    cdf (⟨d, false, xs.map fin⟩ : Arr (Fl ℝ)) =
      .ok ⟨d, false, xs.map (fun x => fin (gaussianReal 0 1 (Set.Iic x)).toReal)⟩ := by
  unfold cdf
  rw [if_neg (by simpa using hx), if_neg (by rw [any_isNaN_fins]; simp), if_neg hd]
  simp only [store, List.map_map, Bool.false_eq_true, if_false]
  congr 2
  apply List.map_congr_left
  intro x _
  exact cdfEntry_fin x

/-- **C31** the two numerical branches agree: whatever the branch taken, both formulas give the same value. -/
theorem C31_branches_agree (x : ℝ) :
    1 / 2 + 1 / 2 * erfR (x / √2) = (if 0 < x / √2 then 1 - 1 / 2 * (1 - erfR |x / √2|) else 1 / 2 * (1 - erfR |x / √2|)) := by
  split
  · rw [abs_of_pos ‹_›]; ring
  · rw [abs_of_nonpos (not_lt.mp ‹_›), erfR_neg]; ring

/-- **C32** the value computed for one sample lies strictly between 0 and 1, is monotone in the sample and symmetric. -/
theorem C32_cdf_shape (x y : ℝ) :
    ∃ a b c : ℝ, cdf (⟨1, false, [fin x, fin y, fin (-x)]⟩ : Arr (Fl ℝ)) = .ok ⟨1, false, [fin a, fin b, fin c]⟩ ∧
      0 < a ∧ a < 1 ∧ (x ≤ y → a ≤ b) ∧ c = 1 - a := by
  refine ⟨Phi x, Phi y, Phi (-x), C31_cdf 1 one_ne_zero [x, y, -x] (by simp), gaussian_Iic_pos x, gaussian_Iic_lt_one x, ?_, ?_⟩
  · intro h
    exact ENNReal.toReal_mono (measure_ne_top _ _) (measure_mono (Set.Iic_subset_Iic.mpr h))
  · rw [Phi_eq, Phi_eq, neg_div, erfR_neg]; ring

/-- **C32** strictly larger samples get strictly larger values. -/
theorem C32_cdf_strict (x y : ℝ) (h : x < y) : Phi x < Phi y := by
  unfold Phi
  have e : Set.Iic y = Set.Iic x ∪ Set.Ioc x y := by rw [Set.Iic_union_Ioc_eq_Iic h.le]
  have hd : Disjoint (Set.Iic x) (Set.Ioc x y) := by
    rw [Set.disjoint_left]; rintro z hz ⟨h1, -⟩; exact absurd hz (not_le.mpr h1)
  rw [e, measure_union hd measurableSet_Ioc, ENNReal.toReal_add (measure_ne_top _ _) (measure_ne_top _ _)]
  have : 0 < (gaussianReal 0 1 (Set.Ioc x y)).toReal := by
    apply ENNReal.toReal_pos _ (measure_ne_top _ _)
    intro h0
    have := gaussianReal_absolutelyContinuous' 0 (v := 1) one_ne_zero h0
    rw [Real.volume_Ioc, ENNReal.ofReal_eq_zero] at this
    linarith
  linarith

/-- **C32** `sf` is the complement of `cdf`; `log_cdf` and `log_sf` are the logarithms. -/
theorem C32_sf (d : Nat) (hd : d ≠ 0) (xs : List ℝ) (hx : xs ≠ []) :
    sf (⟨d, false, xs.map fin⟩ : Arr (Fl ℝ)) = .ok ⟨d, false, xs.map (fun x => fin (1 - Phi x))⟩ ∧
      logCdf (⟨d, false, xs.map fin⟩ : Arr (Fl ℝ)) = .ok ⟨d, false, xs.map (fun x => fin (Real.log (Phi x)))⟩ ∧
      logSf (⟨d, false, xs.map fin⟩ : Arr (Fl ℝ)) = .ok ⟨d, false, xs.map (fun x => fin (Real.log (1 - Phi x)))⟩ := by
  have hc := C31_cdf d hd xs hx
  have hsf : sf (⟨d, false, xs.map fin⟩ : Arr (Fl ℝ)) = .ok ⟨d, false, xs.map (fun x => fin (1 - Phi x))⟩ := by
    unfold sf
    rw [if_neg (by simpa using hx), if_neg (by rw [any_isNaN_fins]; simp), hc]
    simp only [bind, Except.bind, List.map_map]
    congr 2
    apply List.map_congr_left
    intro x _
    simp [Phi]
  refine ⟨hsf, ?_, ?_⟩
  · unfold logCdf
    rw [if_neg (by simpa using hx), if_neg (by rw [any_isNaN_fins]; simp), hc]
    simp only [bind, Except.bind, List.map_map]
    congr 2
    apply List.map_congr_left
    intro x _
    exact plog_fin (gaussian_Iic_pos x)
  · unfold logSf
    rw [hsf]
    simp only [bind, Except.bind, List.map_map]
    congr 2
    apply List.map_congr_left
    intro x _
    exact plog_fin (by have := gaussian_Iic_lt_one x; unfold Phi; linarith)

theorem pdfEntry_fin (s m x : ℝ) (hs : 0 < s) :
    pdfEntry (fin s) (fin m) (fin x : Fl ℝ) = fin (gaussianPDFReal m (s ^ 2).toNNReal x) := by
  unfold pdfEntry
  have h2pi : 0 < 2 * π := by positivity
  simp only [lit_eq, ppi, pmul_fin, psub_fin, pnpow_fin]
  rw [plog_fin (by push_cast; exact h2pi), plog_fin hs, pdiv_fin (by push_cast; positivity)]
  simp only [pmul_fin, psub_fin, pexp_fin]
  congr 1
  rw [gaussianPDFReal_def]
  simp only [Real.coe_toNNReal _ (sq_nonneg s)]
  push_cast
  rw [sub_eq_add_neg, Real.exp_add]
  have e1 : rexp (-1 / 2 * Real.log (2 * π) - Real.log s) = (√(2 * π * s ^ 2))⁻¹ := by
    rw [Real.exp_sub, Real.exp_log hs, Real.sqrt_mul h2pi.le, Real.sqrt_sq hs.le, Real.sqrt_eq_rpow,
      Real.rpow_def_of_pos h2pi, mul_inv, ← Real.exp_neg]
    rw [div_eq_mul_inv]
    congr 2; ring
  rw [e1]
  congr 2
  rw [show s * s = s ^ 2 by ring]; ring

/-- **C33** `pdf` is the density of the normal law `N(mean, std²)`; `log_pdf` its logarithm. -/
theorem C33_pdf (d : Nat) (b : Bool) (xs : List ℝ) (hx : xs ≠ []) (s m : ℝ) (hs : 0 < s) :
    pdf (⟨d, b, xs.map fin⟩ : Arr (Fl ℝ)) (fin s) (fin m) =
        .ok ⟨d, false, xs.map (fun x => fin (gaussianPDFReal m (s ^ 2).toNNReal x))⟩ ∧
      logPdf (⟨d, b, xs.map fin⟩ : Arr (Fl ℝ)) (fin s) (fin m) =
        .ok ⟨d, false, xs.map (fun x => fin (Real.log (gaussianPDFReal m (s ^ 2).toNNReal x)))⟩ := by
  have hv : ((s ^ 2).toNNReal : NNReal) ≠ 0 := by
    have : 0 < s ^ 2 := by positivity
    exact (Real.toNNReal_pos.mpr this).ne'
  have hp : pdf (⟨d, b, xs.map fin⟩ : Arr (Fl ℝ)) (fin s) (fin m) =
        .ok ⟨d, false, xs.map (fun x => fin (gaussianPDFReal m (s ^ 2).toNNReal x))⟩ := by
    unfold pdf
    rw [if_neg (by simpa using hx), if_neg (by rw [any_isNaN_fins]; simp)]
    congr 2
    rw [List.map_map]
    apply List.map_congr_left
    intro x _
    exact pdfEntry_fin s m x hs
  refine ⟨hp, ?_⟩
  unfold logPdf
  rw [if_neg (by simpa using hx), if_neg (by rw [any_isNaN_fins]; simp), hp]
  simp only [bind, Except.bind, List.map_map]
  congr 2
  apply List.map_congr_left
  intro x _
  exact plog_fin (gaussianPDFReal_pos m _ x hv)

/-- **C33** closed form, positivity, mode at the mean, symmetry. -/
theorem C33_pdf_shape (s m x t : ℝ) (hs : 0 < s) :
    ∃ p q l r : ℝ, pdf (⟨1, false, [fin x, fin m, fin (m - t), fin (m + t)]⟩ : Arr (Fl ℝ)) (fin s) (fin m) =
        .ok ⟨1, false, [fin p, fin q, fin l, fin r]⟩ ∧
      p = rexp (-(x - m) ^ 2 / (2 * s ^ 2)) / (s * √(2 * π)) ∧ 0 < p ∧ p ≤ q ∧ l = r := by
  refine ⟨_, _, _, _, (C33_pdf 1 false [x, m, m - t, m + t] (by simp) s m hs).1, ?_, ?_, ?_, ?_⟩
  · simp only [gaussianPDFReal_def, Real.coe_toNNReal _ (sq_nonneg s)]
    rw [Real.sqrt_mul (by positivity), Real.sqrt_sq hs.le]
    field_simp
  · exact gaussianPDFReal_pos m _ x (Real.toNNReal_pos.mpr (by positivity : 0 < s ^ 2)).ne'
  · simp only [gaussianPDFReal_def, Real.coe_toNNReal _ (sq_nonneg s)]
    apply mul_le_mul_of_nonneg_left _ (by positivity)
    apply Real.exp_le_exp.mpr
    have : 0 ≤ (x - m) ^ 2 / (2 * s ^ 2) := by positivity
    rw [neg_div, sub_self]
    simpa using this
  · simp only [gaussianPDFReal_def]
    congr 2; ring

/-- **C33** without a positive standard deviation every entry is NaN. -/
theorem C33_pdf_nonpos (s m x : ℝ) (hs : s ≤ 0) : pdfEntry (fin s) (fin m) (fin x : Fl ℝ) = nan := by
  have h2pi : 0 < 2 * π := by positivity
  unfold pdfEntry
  simp only [lit_eq, ppi, pmul_fin, psub_fin, pnpow_fin]
  rw [plog_fin (by push_cast; exact h2pi)]
  rcases hs.lt_or_eq with h | h
  · have : PyMath.log (fin s : Fl ℝ) = nan := by
      show (if s < 0 then nan else if s = 0 then ninf else fin (Real.log s)) = _
      rw [if_pos h]
    rw [this]; simp
  · subst h
    have : PyMath.log (fin 0 : Fl ℝ) = ninf := by
      show (if (0 : ℝ) < 0 then nan else if (0 : ℝ) = 0 then ninf else fin (Real.log 0)) = _
      simp
    rw [this, pdiv_fin']
    rw [if_pos (by simp), infSgn]
    have e1 : ∀ z : ℝ, (fin z : Fl ℝ) -. ninf = pinf := fun _ => rfl
    simp only [pmul_fin, e1]
    split
    · rfl
    · split
      · rfl
      · exfalso; rename_i h1 h2; exact h2 (lt_of_le_of_ne (sq_nonneg (x - m)) (Ne.symm h1))

section anyF
variable {F : Type} [PyMath F]

/-- **C34** empty arrays are a ValueError for all six functions, arrays with a NaN a TypeError. -/
theorem C34_errors (a : Arr F) (s m : F) :
    (a.data = [] → cdf a = .error .valueError ∧ pdf a s m = .error .valueError ∧ logPdf a s m = .error .valueError ∧
      logCdf a = .error .valueError ∧ sf a = .error .valueError ∧ logSf a = .error .valueError) ∧
    ((∃ x ∈ a.data, PyNum.isNaN x = true) → cdf a = .error .typeError ∧ pdf a s m = .error .typeError ∧
      logPdf a s m = .error .typeError ∧ logCdf a = .error .typeError ∧ sf a = .error .typeError ∧
      logSf a = .error .typeError) := by
  constructor
  · intro h
    simp [cdf, pdf, logPdf, logCdf, sf, logSf, h, bind, Except.bind]
  · intro h
    have h1 : a.data.any PyNum.isNaN = true := by simpa using h
    have h2 : a.data.length ≠ 0 := by
      obtain ⟨x, hx, _⟩ := h
      exact (List.length_pos_of_mem hx).ne'
    simp only [cdf, pdf, logPdf, logCdf, sf, logSf, h1, h2, bind, Except.bind, if_true, if_false, and_self]

/-- **C34** a scalar (0-d array) is a TypeError for `cdf`, `sf`, `log_cdf`, `log_sf`; NaN or not. -/
theorem C34_scalar (b : Bool) (x : F) :
    cdf (⟨0, b, [x]⟩ : Arr F) = .error .typeError ∧ sf (⟨0, b, [x]⟩ : Arr F) = .error .typeError ∧
      logCdf (⟨0, b, [x]⟩ : Arr F) = .error .typeError ∧ logSf (⟨0, b, [x]⟩ : Arr F) = .error .typeError := by
  have hc : cdf (⟨0, b, [x]⟩ : Arr F) = .error .typeError := by
    simp [cdf]
  have hs : sf (⟨0, b, [x]⟩ : Arr F) = .error .typeError := by
    unfold sf; rw [hc]; simp [bind, Except.bind]
  refine ⟨hc, hs, ?_, ?_⟩
  · unfold logCdf; rw [hc]; simp [bind, Except.bind]
  · unfold logSf; rw [hs]; rfl

/-- **C35** (documented: both tests return a statistic and a p-value) is false: neither returns for any input. -/
theorem C35_never_returns (data : Arr F) (alt : Alternative) :
    (∀ r, skewtest data alt ≠ .ok r) ∧ (∀ r, kurtotest data alt ≠ .ok r) := by
  have hp : ∀ z : F, ∃ e, pValue alt z = .error e := by
    intro z
    cases alt
    · exact ⟨.typeError, by simp only [pValue, pWith, (C34_scalar false _).1]; rfl⟩
    · exact ⟨.typeError, by simp only [pValue, pWith, (C34_scalar false _).1]; rfl⟩
    · exact ⟨.typeError, by simp only [pValue, pWith, (C34_scalar false _).1]; rfl⟩
    · exact ⟨.valueError, rfl⟩
  constructor
  · intro r
    unfold skewtest
    cases hs : Moment.skewness data with
    | error e => simp [bind, Except.bind]
    | ok s =>
      simp only [bind, Except.bind]
      split
      · simp
      · obtain ⟨e, he⟩ := hp (skewZ data.data.length s)
        rw [he]; simp
  · intro r
    unfold kurtotest
    simp only [bind, Except.bind]
    split
    · simp
    · cases hs : Moment.kurtosis data with
      | error e => simp
      | ok s =>
        obtain ⟨e, he⟩ := hp (kurtZ data.data.length s)
        simp only [he]; simp

/-- **C35** which exception: with enough samples and a listed alternative it is the TypeError of iterating over a
scalar; an unknown alternative or too few samples is a ValueError. -/
theorem C35_exception (xs : List F) (b : Bool) (alt : Alternative) :
    (8 ≤ xs.length → alt ≠ .other → skewtest ⟨1, b, xs⟩ alt = .error .typeError) ∧
    (5 ≤ xs.length → alt ≠ .other → kurtotest ⟨1, b, xs⟩ alt = .error .typeError) ∧
    (8 ≤ xs.length → skewtest ⟨1, b, xs⟩ .other = .error .valueError) ∧
    (5 ≤ xs.length → kurtotest ⟨1, b, xs⟩ .other = .error .valueError) ∧
    (xs.length < 8 → skewtest ⟨1, b, xs⟩ alt = .error .valueError) ∧
    (xs.length < 5 → kurtotest ⟨1, b, xs⟩ alt = .error .valueError) := by
  have hp : alt ≠ .other → ∀ z : F, pValue alt z = .error .typeError := by
    intro h z
    cases alt
    · simp only [pValue, pWith, (C34_scalar false _).1]; rfl
    · simp only [pValue, pWith, (C34_scalar false _).1]; rfl
    · simp only [pValue, pWith, (C34_scalar false _).1]; rfl
    · exact absurd rfl h
  have hq : ∀ z : F, pValue .other z = .error .valueError := fun _ => rfl
  have hne : ∀ k, 1 ≤ k → k ≤ xs.length → xs ≠ [] := by rintro k h1 h2 rfl; simp at h2; omega
  have hs : xs ≠ [] → (∃ g, Moment.skewness (⟨1, b, xs⟩ : Arr F) = .ok g) ∧ ∃ k, Moment.kurtosis (⟨1, b, xs⟩ : Arr F) = .ok k :=
    fun h => (C10_C11_errors ⟨1, b, xs⟩).2.2 rfl h
  refine ⟨?_, ?_, ?_, ?_, ?_, ?_⟩
  · intro h ha
    obtain ⟨g, hg⟩ := (hs (hne 8 (by omega) h)).1
    simp only [skewtest, hg, bind, Except.bind, hp ha]
    rw [if_neg (by omega)]
  · intro h ha
    obtain ⟨g, hg⟩ := (hs (hne 5 (by omega) h)).2
    simp only [kurtotest, hg, bind, Except.bind, hp ha]
    rw [if_neg (by omega)]
  · intro h
    obtain ⟨g, hg⟩ := (hs (hne 8 (by omega) h)).1
    simp only [skewtest, hg, bind, Except.bind, hq]
    rw [if_neg (by omega)]
  · intro h
    obtain ⟨g, hg⟩ := (hs (hne 5 (by omega) h)).2
    simp only [kurtotest, hg, bind, Except.bind, hq]
    rw [if_neg (by omega)]
  · intro h
    by_cases hx : xs = []
    · have := ((C10_C11_errors (⟨1, b, xs⟩ : Arr F)).2.1 (by simp) (.inr hx)).1
      simp only [skewtest, this, bind, Except.bind]
    · obtain ⟨g, hg⟩ := (hs hx).1
      simp only [skewtest, hg, bind, Except.bind]
      rw [if_pos h]
  · intro h
    simp only [kurtotest, bind, Except.bind]
    rw [if_pos h]

end anyF

/-- **C34** integer arrays: the probabilities are truncated when stored, so in exact arithmetic every entry is 0. -/
theorem C34_int (d : Nat) (hd : d ≠ 0) (xs : List ℤ) (hx : xs ≠ []) :
    cdf (⟨d, true, xs.map (fun z : ℤ => fin (z : ℝ))⟩ : Arr (Fl ℝ)) = .ok ⟨d, true, xs.map (fun _ => fin 0)⟩ := by
  unfold cdf
  rw [if_neg (by simpa using hx), if_neg, if_neg hd]
  · congr 2
    rw [List.map_map]
    apply List.map_congr_left
    intro z _
    simp only [Function.comp, store, if_true, cdfEntry_fin, pcast_fin]
    congr 1
    have h1 := gaussian_Iic_pos (z : ℝ)
    have h2 := gaussian_Iic_lt_one (z : ℝ)
    unfold truncK Phi
    rw [if_pos h1.le, Int.floor_eq_zero_iff.mpr ⟨h1.le, h2⟩]
    simp
  · have := any_isNaN_fins (xs.map (fun z : ℤ => (z : ℝ)))
    rw [List.map_map] at this
    rw [show (fun z : ℤ => (fin (z : ℝ) : Fl ℝ)) = fin ∘ (fun z : ℤ => (z : ℝ)) from rfl, this]
    simp

theorem Phi_neg (x : ℝ) : Phi (-x) = 1 - Phi x := by
  rw [Phi_eq, Phi_eq, neg_div, erfR_neg]; ring

theorem Phi_mono {x y : ℝ} (h : x ≤ y) : Phi x ≤ Phi y :=
  ENNReal.toReal_mono (measure_ne_top _ _) (measure_mono (Set.Iic_subset_Iic.mpr h))

theorem gaussian_Ioi (x : ℝ) : (gaussianReal 0 1 (Set.Ioi x)).toReal = 1 - Phi x := by
  have h := MeasureTheory.probReal_compl_eq_one_sub (μ := gaussianReal 0 1) (s := Set.Iic x) measurableSet_Iic
  rw [Set.compl_Iic] at h
  exact h

/-- the probability of a value at least as extreme as `a ≥ 0` on either side -/
theorem gaussian_tails (a : ℝ) (ha : 0 ≤ a) : (gaussianReal 0 1 {y : ℝ | a < |y|}).toReal = 2 * (1 - Phi a) := by
  have e : {y : ℝ | a < |y|} = Set.Ioi a ∪ Set.Iio (-a) := by
    ext y
    simp only [Set.mem_ofPred_eq, Set.mem_union, Set.mem_Ioi, Set.mem_Iio, lt_abs]
    constructor
    · rintro (h | h)
      · exact Or.inl h
      · exact Or.inr (by linarith)
    · rintro (h | h)
      · exact Or.inl h
      · exact Or.inr (by linarith)
  have hd : Disjoint (Set.Ioi a) (Set.Iio (-a)) := by
    rw [Set.disjoint_left]
    intro z hz hz'
    simp only [Set.mem_Ioi, Set.mem_Iio] at hz hz'
    linarith
  have h2 : gaussianReal 0 1 (Set.Iio (-a)) = gaussianReal 0 1 (Set.Iic (-a)) := by
    have := nullSingletonClass_gaussianReal (μ := 0) (v := 1) one_ne_zero
    have := MeasureTheory.Iio_ae_eq_Iic (μ := gaussianReal 0 1) (a := -a)
    exact MeasureTheory.measure_congr this
  rw [e, measure_union hd measurableSet_Iio, ENNReal.toReal_add (measure_ne_top _ _) (measure_ne_top _ _), gaussian_Ioi, h2]
  have : (gaussianReal 0 1 (Set.Iic (-a))).toReal = Phi (-a) := rfl
  rw [this, Phi_neg]; ring

/-- **C107** the p-value rule: with a distribution function usable on scalars, `less` gives `P(Z ≤ z)`, `greater`
`P(Z > z)`, `two-sided` `P(|Z| > |z|)`, and any other alternative a ValueError. -/
theorem C107_p_value (z : ℝ) :
    let cdf1 : Fl ℝ → Py (Fl ℝ) := fun x => .ok (cdfEntry x)
    pWith cdf1 .less (fin z) = .ok (fin (gaussianReal 0 1 (Set.Iic z)).toReal) ∧
      pWith cdf1 .greater (fin z) = .ok (fin (gaussianReal 0 1 (Set.Ioi z)).toReal) ∧
      pWith cdf1 .twoSided (fin z) = .ok (fin (gaussianReal 0 1 {y : ℝ | |z| < |y|}).toReal) ∧
      pWith cdf1 .other (fin z) = .error .valueError := by
  refine ⟨?_, ?_, ?_, rfl⟩
  · simp only [pWith, cdfEntry_fin]; rfl
  · simp only [pWith, cdfEntry_fin, bind, Except.bind, lit_eq, psub_fin]
    rw [gaussian_Ioi]; norm_num
  · simp only [pWith, pabs_fin, cdfEntry_fin, bind, Except.bind, lit_eq, psub_fin, pmul_fin]
    rw [gaussian_tails _ (abs_nonneg z)]; norm_num

/-- **C107** each p-value is a probability, the one-sided ones are complementary and the two-sided one is twice the
smaller of them. -/
theorem C107_relations (z : ℝ) :
    ∃ l g t : ℝ, pWith (fun x => .ok (cdfEntry x)) .less (fin z : Fl ℝ) = .ok (fin l) ∧
      pWith (fun x => .ok (cdfEntry x)) .greater (fin z : Fl ℝ) = .ok (fin g) ∧
      pWith (fun x => .ok (cdfEntry x)) .twoSided (fin z : Fl ℝ) = .ok (fin t) ∧
      0 < l ∧ 0 < g ∧ l + g = 1 ∧ t = 2 * min l g ∧ 0 < t ∧ t ≤ 1 := by
  obtain ⟨h1, h2, h3, -⟩ := C107_p_value z
  refine ⟨_, _, _, h1, h2, h3, ?_, ?_, ?_, ?_⟩
  · exact gaussian_Iic_pos z
  · rw [gaussian_Ioi]; linarith [gaussian_Iic_lt_one z, show Phi z = (gaussianReal 0 1 (Set.Iic z)).toReal from rfl]
  · rw [gaussian_Ioi]; show Phi z + _ = _; ring
  · have h0 : Phi 0 = 1 / 2 := by have := Phi_neg 0; rw [neg_zero] at this; linarith
    have hl : 0 < Phi z := gaussian_Iic_pos z
    have hg : Phi z < 1 := gaussian_Iic_lt_one z
    rw [gaussian_Ioi, gaussian_tails _ (abs_nonneg z)]
    show _ = 2 * min (Phi z) _ ∧ _
    rcases le_total 0 z with h | h
    · rw [abs_of_nonneg h]
      have := Phi_mono h
      rw [min_eq_right (by linarith)]
      exact ⟨rfl, by linarith, by linarith⟩
    · rw [abs_of_nonpos h, Phi_neg]
      have := Phi_mono h
      rw [min_eq_left (by linarith)]
      exact ⟨by ring, by linarith, by linarith⟩

end Proadv.Props
