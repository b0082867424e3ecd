import Verif.Props.Phase2
import Verif.Spec.Cov
import Mathlib.Analysis.SpecialFunctions.Trigonometric.Arctan
import Mathlib.Analysis.Complex.ExponentialBounds

/-!
# Properties C59 (velocity_correlation), C67, C68, C69, C104: `filtration/detection/correlation.py`
-/

set_option linter.unusedSectionVars false

namespace Proadv.Props

open Proadv Fl Detect Spread Descriptive

section generic
variable {F : Type} [PyMath F]

/-- the centred series -/
def cent (x : List F) : List F := x.map (fun u => u -. npMean x)

theorem cent_length (x : List F) : (cent x).length = x.length := by simp [cent]

theorem centred_eq (x : List F) (h : x ≠ []) : centred x = .ok (cent x) := by
  unfold centred
  rw [meanOf_eq x h]; rfl

/-- the axis coefficients of a pair of centred components -/
def pairAb (x y : List F) : F × BCoef F :=
  calculateAb (npStd x) (npStd y) (phaseAngle x y) (lambdaOf x.length)

/-- the rho array of a pair of centred components -/
def pairRho (x y : List F) : Py (List F) := calculateRho x y (phaseAngle x y) (pairAb x y).1 (pairAb x y).2

/-- the two squared axes of a pair of centred components are positive -/
def GoodAxes (x y : List F) : Prop :=
  (lit 0 <. axisA (npStd x) (npStd y) (phaseAngle x y) (lambdaOf x.length)) = true ∧
  (lit 0 <. axisB (npStd x) (npStd y) (phaseAngle x y) (lambdaOf x.length)) = true

theorem vc_eq (ui vi wi : List F) (hu : ui ≠ []) (hv : vi.length = ui.length) (hw : wi.length = ui.length) :
    velocityCorrelation ui vi wi = (do
      let r1 ← pairRho (cent ui) (cent vi)
      let r2 ← pairRho (cent ui) (cent wi)
      let r3 ← pairRho (cent vi) (cent wi)
      .ok (uniqueNat (outside r1 ++ outside r2 ++ outside r3))) := by
  have ne_of : ∀ x : List F, x.length = ui.length → x ≠ [] := by
    rintro x hx rfl
    exact hu (List.length_eq_zero_iff.mp hx.symm)
  have hc : ∀ x : List F, x ≠ [] → cent x ≠ [] := by intro x hx; simpa [cent] using hx
  have hang : ∀ x y : List F, x.length = y.length → angle x y = .ok (phaseAngle x y) := by
    intro x y h
    unfold angle
    rw [bcast_same _ h]; rfl
  have luv : (cent ui).length = (cent vi).length := by rw [cent_length, cent_length, hv]
  have luw : (cent ui).length = (cent wi).length := by rw [cent_length, cent_length, hw]
  have lvw : (cent vi).length = (cent wi).length := by rw [cent_length, cent_length, hv, hw]
  unfold velocityCorrelation
  rw [centred_eq ui hu, centred_eq vi (ne_of _ hv), centred_eq wi (ne_of _ hw)]
  simp only [bind, Except.bind, Arr.flt]
  rw [std_eq _ _ (hc _ hu), std_eq _ _ (hc _ (ne_of _ hv)), std_eq _ _ (hc _ (ne_of _ hw)), hang _ _ luv,
    hang _ _ luw, hang _ _ lvw]
  simp only
  unfold pairRho pairAb
  rw [show (lambdaOf (cent vi).length : F) = lambdaOf (cent ui).length by rw [luv]]

theorem pairRho_good (x y : List F) (h : x.length = y.length) (hg : GoodAxes x y) :
    pairRho x y = .ok (List.zipWith (rhoAt (phaseAngle x y)
      (PyMath.sqrt (axisA (npStd x) (npStd y) (phaseAngle x y) (lambdaOf x.length)))
      (PyMath.sqrt (axisB (npStd x) (npStd y) (phaseAngle x y) (lambdaOf x.length)))) x y) := by
  unfold pairRho pairAb calculateAb
  simp only
  rw [if_pos (by rw [hg.1, hg.2]; rfl)]
  exact bcast_same _ h

theorem pairAb_bad (x y : List F) (hg : ¬ GoodAxes x y) :
    (pairAb x y).2 = .pair (lit (10 ^ 10)) (lit (10 ^ 10)) := by
  unfold pairAb calculateAb
  simp only
  rw [if_neg]
  intro h
  rw [Bool.and_eq_true] at h
  exact hg h

theorem pairRho_bad (x y : List F) (h : x.length = y.length) (hn : 3 ≤ x.length) (hg : ¬ GoodAxes x y) :
    pairRho x y = .error .valueError := by
  unfold pairRho
  rw [pairAb_bad x y hg]
  simp only [calculateRho]
  rw [bcast_same _ h, bcast_same _ h]
  simp only [bind, Except.bind]
  have : bcast (fun u b => (u /. b) ^. 2) (List.zipWith (rotY (phaseAngle x y)) x y)
      [lit (10 ^ 10), (lit (10 ^ 10) : F)] = .error .valueError := by
    have hl : (List.zipWith (rotY (phaseAngle x y)) x y).length = x.length := by simp [h]
    unfold bcast
    rw [if_neg (by rw [hl]; simp; omega)]
    split
    · rename_i heq; rw [heq] at hl; simp at hl; omega
    · rename_i heq _; simp at heq
    · rfl
  rw [this]

/-! ## C68 -/

/-- **C68** (every float arithmetic) for equally long series of at least 3 samples the call succeeds iff for each of the
three pairs of centred components both squared ellipse axes compare greater than zero; otherwise it raises ValueError. -/
theorem C68_success_iff (ui vi wi : List F) (hn : 3 ≤ ui.length) (hv : vi.length = ui.length)
    (hw : wi.length = ui.length) :
    ((∃ r, velocityCorrelation ui vi wi = .ok r) ↔
      GoodAxes (cent ui) (cent vi) ∧ GoodAxes (cent ui) (cent wi) ∧ GoodAxes (cent vi) (cent wi)) ∧
    (¬ (GoodAxes (cent ui) (cent vi) ∧ GoodAxes (cent ui) (cent wi) ∧ GoodAxes (cent vi) (cent wi)) →
      velocityCorrelation ui vi wi = .error .valueError) := by
  have hu : ui ≠ [] := by rintro rfl; simp at hn
  have luv : (cent ui).length = (cent vi).length := by rw [cent_length, cent_length, hv]
  have luw : (cent ui).length = (cent wi).length := by rw [cent_length, cent_length, hw]
  have lvw : (cent vi).length = (cent wi).length := by rw [cent_length, cent_length, hv, hw]
  have n1 : 3 ≤ (cent ui).length := by rw [cent_length]; exact hn
  have n2 : 3 ≤ (cent vi).length := by omega
  have herr : ¬ (GoodAxes (cent ui) (cent vi) ∧ GoodAxes (cent ui) (cent wi) ∧ GoodAxes (cent vi) (cent wi)) →
      velocityCorrelation ui vi wi = .error .valueError := by
    intro hg
    rw [vc_eq ui vi wi hu hv hw]
    by_cases h1 : GoodAxes (cent ui) (cent vi)
    · rw [pairRho_good _ _ luv h1]
      by_cases h2 : GoodAxes (cent ui) (cent wi)
      · rw [pairRho_good _ _ luw h2, pairRho_bad _ _ lvw n2 (fun h3 => hg ⟨h1, h2, h3⟩)]; rfl
      · rw [pairRho_bad _ _ luw n1 h2]; rfl
    · rw [pairRho_bad _ _ luv n1 h1]; rfl
  refine ⟨⟨?_, ?_⟩, herr⟩
  · rintro ⟨r, hr⟩
    by_contra hg
    rw [herr hg] at hr; cases hr
  · rintro ⟨h1, h2, h3⟩
    rw [vc_eq ui vi wi hu hv hw, pairRho_good _ _ luv h1, pairRho_good _ _ luw h2, pairRho_good _ _ lvw h3]
    exact ⟨_, rfl⟩

theorem pairRho_length {x y r : List F} (h : x.length = y.length) (hn : 2 ≤ x.length) (hr : pairRho x y = .ok r) :
    r.length = x.length := by
  by_cases hg : GoodAxes x y
  · rw [pairRho_good x y h hg] at hr
    cases hr; simp [h]
  · by_cases h3 : 3 ≤ x.length
    · rw [pairRho_bad x y h h3 hg] at hr; cases hr
    · have h2 : x.length = 2 := by omega
      unfold pairRho at hr
      rw [pairAb_bad x y hg] at hr
      simp only [calculateRho] at hr
      rw [bcast_same _ h, bcast_same _ h] at hr
      simp only [bind, Except.bind] at hr
      rw [bcast_same _ (by simp; omega)] at hr
      simp only at hr
      rw [bcast_same _ (by simp; omega)] at hr
      cases hr
      simp; omega

/-- **C59** (every float arithmetic) `velocity_correlation` on at least two samples returns strictly increasing in-range
indices. -/
theorem C59_correlation (ui vi wi : List F) (r : List Nat) (hn : 2 ≤ ui.length) (hv : vi.length = ui.length)
    (hw : wi.length = ui.length) (h : velocityCorrelation ui vi wi = .ok r) :
    r.Pairwise (· < ·) ∧ ∀ i ∈ r, i < ui.length := by
  have hu : ui ≠ [] := by rintro rfl; simp at hn
  have luv : (cent ui).length = (cent vi).length := by rw [cent_length, cent_length, hv]
  have luw : (cent ui).length = (cent wi).length := by rw [cent_length, cent_length, hw]
  have lvw : (cent vi).length = (cent wi).length := by rw [cent_length, cent_length, hv, hw]
  have n1 : 2 ≤ (cent ui).length := by rw [cent_length]; exact hn
  rw [vc_eq ui vi wi hu hv hw] at h
  simp only [bind, Except.bind] at h
  split at h
  · cases h
  rename_i r1 h1
  split at h
  · cases h
  rename_i r2 h2
  split at h
  · cases h
  rename_i r3 h3
  cases h
  refine ⟨uniqueNat_sorted _, fun i hi => ?_⟩
  have k1 := pairRho_length luv n1 h1
  have k2 := pairRho_length luw n1 h2
  have k3 := pairRho_length lvw (by omega) h3
  rw [mem_uniqueNat, List.mem_append, List.mem_append] at hi
  rw [cent_length] at k1 k2 k3
  unfold outside at hi
  rcases hi with (hi | hi) | hi <;> have := whereTrue_lt hi <;> rw [List.length_map] at this <;> omega

/-- (every float arithmetic) no samples: `mean` rejects the empty array. -/
theorem C68_empty (vi wi : List F) : velocityCorrelation [] vi wi = .error .typeError := rfl

end generic

/-! ## Exact arithmetic -/

theorem cent_fins (xs : List ℝ) (h : xs ≠ []) : cent (fins xs) = (fins (Spec.dev xs) : List (Fl ℝ)) := by
  unfold cent Spec.dev
  rw [npMean_fins' xs h, fins, fins, List.map_map, List.map_map]
  rfl

theorem slope_dev (xs ys : List ℝ) (h : xs.length = ys.length) (hne : xs ≠ []) :
    slope (Spec.dev xs) (Spec.dev ys) = Spec.cov xs ys / Spec.var xs := by
  unfold slope
  rw [← Spec.dot_self, Spec.dot_dev_self _ hne, show (List.zipWith (fun x y => x * y) (Spec.dev xs) (Spec.dev ys)).sum =
    Spec.dot (Spec.dev xs) (Spec.dev ys) from rfl, Spec.dot_dev _ _ h hne]
  exact mul_div_mul_left _ _ (Spec.length_ne hne)

theorem cos_sq_arctan' (m : ℝ) : Real.cos (Real.arctan m) ^ 2 = 1 / (1 + m ^ 2) := Real.cos_sq_arctan m

theorem sin_sq_arctan' (m : ℝ) : Real.sin (Real.arctan m) ^ 2 = m ^ 2 / (1 + m ^ 2) := by
  have h := Real.sin_sq_add_cos_sq (Real.arctan m)
  have hp : 0 < 1 + m ^ 2 := by positivity
  rw [cos_sq_arctan'] at h
  have : Real.sin (Real.arctan m) ^ 2 = 1 - 1 / (1 + m ^ 2) := by linarith
  rw [this]; field_simp; ring

theorem ratio_arctan (l s1 s2 m : ℝ) :
    numA (l * s1) (l * s2) (Real.arctan m) / (Real.cos (Real.arctan m) ^ 2 - Real.sin (Real.arctan m) ^ 2) =
      l ^ 2 * (s1 ^ 2 - m ^ 2 * s2 ^ 2) / (1 - m ^ 2) := by
  have hp : 0 < 1 + m ^ 2 := by positivity
  unfold numA
  rw [cos_sq_arctan', sin_sq_arctan',
    show (l * s1) ^ 2 * (1 / (1 + m ^ 2)) - (l * s2) ^ 2 * (m ^ 2 / (1 + m ^ 2)) =
      (l ^ 2 * (s1 ^ 2 - m ^ 2 * s2 ^ 2)) / (1 + m ^ 2) by ring,
    show 1 / (1 + m ^ 2) - m ^ 2 / (1 + m ^ 2) = (1 - m ^ 2) / (1 + m ^ 2) by ring]
  rw [div_div_div_cancel_right₀ hp.ne']

/-- the axes of a pair with variances `V1 > 0`, `V2` and covariance `C` are positive iff `C² < V1·V2` and `C²·V2 < V1³` -/
theorem axesPos_cov (l s1 s2 C : ℝ) (hl : l ≠ 0) (h1 : s1 ≠ 0) (hCS : C ^ 2 ≤ s1 ^ 2 * s2 ^ 2) :
    AxesPos (l * s1) (l * s2) (Real.arctan (C / s1 ^ 2)) ↔ C ^ 2 < s1 ^ 2 * s2 ^ 2 ∧ C ^ 2 * s2 ^ 2 < (s1 ^ 2) ^ 3 := by
  unfold AxesPos
  rw [ratio_arctan, ratio_arctan]
  have hV : 0 < s1 ^ 2 := by positivity
  have hl2 : 0 < l ^ 2 := by positivity
  have hV2 : 0 ≤ s2 ^ 2 := by positivity
  generalize hV1e : s1 ^ 2 = V1 at *
  generalize hV2e : s2 ^ 2 = V2 at *
  have hm : (C / V1) ^ 2 * V1 ^ 2 = C ^ 2 := by field_simp
  set q := (C / V1) ^ 2
  have hq : 0 ≤ q := sq_nonneg _
  rw [← hm] at hCS ⊢
  have hCS' : q * V1 ≤ V2 := by
    by_contra hc
    push Not at hc
    nlinarith
  have e1 : (q * V1 ^ 2 < V1 * V2) ↔ q * V1 < V2 := by
    rw [show q * V1 ^ 2 = V1 * (q * V1) by ring]
    exact mul_lt_mul_iff_right₀ hV
  have e2 : (q * V1 ^ 2 * V2 < V1 ^ 3) ↔ q * V2 < V1 := by
    rw [show q * V1 ^ 2 * V2 = V1 ^ 2 * (q * V2) by ring, show V1 ^ 3 = V1 ^ 2 * V1 by ring]
    exact mul_lt_mul_iff_right₀ (by positivity)
  rw [e1, e2]
  constructor
  · rintro ⟨ha, hb⟩
    rcases lt_trichotomy (1 - q) 0 with h | h | h
    · exfalso
      have := (div_pos_iff_of_neg_right' h).mp hb
      nlinarith
    · rw [h, div_zero] at ha; exact absurd ha (lt_irrefl _)
    · have ha' := (div_pos_iff_of_pos_right h).mp ha
      have hb' := (div_pos_iff_of_pos_right h).mp hb
      constructor <;> nlinarith
  · rintro ⟨ha, hb⟩
    have h : 0 < 1 - q := by
      by_contra hc
      push Not at hc
      nlinarith
    exact ⟨div_pos (mul_pos hl2 (by linarith)) h, div_pos (mul_pos hl2 (by linarith)) h⟩
where
  div_pos_iff_of_neg_right' {a b : ℝ} (h : b < 0) : 0 < a / b ↔ a < 0 := by
    rw [div_pos_iff]
    constructor
    · rintro (⟨_, h'⟩ | ⟨h', _⟩)
      · exact absurd h' (not_lt.mpr h.le)
      · exact h'
    · intro h'; exact Or.inr ⟨h', h⟩

/-- Specification: the two conditions on variances and covariance under which an ellipse exists for a pair. -/
def PairOk (xs ys : List ℝ) : Prop :=
  Spec.cov xs ys ^ 2 < Spec.var xs * Spec.var ys ∧ Spec.cov xs ys ^ 2 * Spec.var ys < Spec.var xs ^ 3

theorem PairOk.var_pos {xs ys : List ℝ} (h : PairOk xs ys) : 0 < Spec.var xs := by
  rcases (Spec.var_nonneg xs).lt_or_eq with h' | h'
  · exact h'
  · have := h.1
    rw [← h', zero_mul] at this
    exact absurd this (not_lt.mpr (sq_nonneg _))

theorem goodAxes_iff (xs ys : List ℝ) (h : xs.length = ys.length) (hn : 2 ≤ xs.length) :
    GoodAxes (cent (fins xs)) (cent (fins ys) : List (Fl ℝ)) ↔ PairOk xs ys := by
  have hx : xs ≠ [] := by rintro rfl; simp at hn
  have hy : ys ≠ [] := by rintro rfl; simp at h; exact hx h
  have hdx : Spec.dev xs ≠ [] := by simpa [Spec.dev] using hx
  have hdy : Spec.dev ys ≠ [] := by simpa [Spec.dev] using hy
  have hl : √(2 * Real.log xs.length) ≠ 0 := by
    have h1 : (1 : ℝ) < xs.length := by exact_mod_cast hn
    have := Real.log_pos h1
    exact (Real.sqrt_pos.mpr (by linarith)).ne'
  unfold GoodAxes
  rw [cent_fins xs hx, cent_fins ys hy, npStd_fins _ hdx, npStd_fins _ hdy, Spec.var_dev hx, Spec.var_dev hy,
    List.length_map, Spec.length_dev, lambdaOf_fin (by omega), ← Bool.and_eq_true]
  by_cases hv : Spec.var xs = 0
  · have ht : phaseAngle (fins (Spec.dev xs)) (fins (Spec.dev ys)) = (nan : Fl ℝ) := by
      unfold phaseAngle
      rw [zipWith_fins _ (fun x y => x * y) (fun _ _ => rfl), map_fins _ (fun x => x ^ 2) (fun x => pnpow_fin x 2)]
      rw [show PyNum.sum (fins (List.zipWith (fun x y => x * y) (Spec.dev xs) (Spec.dev ys))) = (fin _ : Fl ℝ) from
          psum_fin _, show PyNum.sum (fins ((Spec.dev xs).map (fun x => x ^ 2))) = (fin _ : Fl ℝ) from psum_fin _,
        ← Spec.dot_self, Spec.dot_dev_self _ hx, show (List.zipWith (fun x y => x * y) (Spec.dev xs) (Spec.dev ys)).sum =
          Spec.dot (Spec.dev xs) (Spec.dev ys) from rfl, Spec.dot_dev _ _ h hx, hv]
      have : Spec.cov xs ys = 0 := by
        have := Spec.cov_sq_le xs ys h hx
        rw [hv, zero_mul] at this
        exact pow_eq_zero_iff two_ne_zero |>.mp (le_antisymm this (sq_nonneg _))
      rw [this]
      simp [pdiv_fin', infSgn]
    rw [ht]
    constructor
    · intro hh
      simp [axisA, npow_def, Fl.npow] at hh
    · intro hp
      exact absurd hv hp.var_pos.ne'
  · have hq : ((Spec.dev xs).map (fun x => x ^ 2)).sum ≠ 0 := by
      rw [← Spec.dot_self, Spec.dot_dev_self _ hx]
      exact mul_ne_zero (Spec.length_ne hx) hv
    rw [phaseAngle_fins _ _ hq, slope_dev _ _ h hx, axes_pos_iff]
    have s1 := Real.sq_sqrt (Spec.var_nonneg xs)
    have s2 := Real.sq_sqrt (Spec.var_nonneg ys)
    have key := axesPos_cov √(2 * Real.log xs.length) √(Spec.var xs) √(Spec.var ys) (Spec.cov xs ys) hl
      (Real.sqrt_ne_zero'.mpr (lt_of_le_of_ne (Spec.var_nonneg xs) (Ne.symm hv)))
      (by rw [s1, s2]; exact Spec.cov_sq_le xs ys h hx)
    rw [s1, s2] at key
    exact key

/-! ## C104 -/

/-- **C104** exact arithmetic: with at least 3 samples, `velocity_correlation` succeeds iff for each of the pairs (u,v),
(u,w), (v,w) one has `cov² < var x · var y` and `cov² · var y < (var x)³`; otherwise it raises ValueError. -/
theorem C104_success_iff (us vs ws : List ℝ) (hn : 3 ≤ us.length) (hv : vs.length = us.length)
    (hw : ws.length = us.length) :
    ((∃ r, velocityCorrelation (fins us) (fins vs) (fins ws : List (Fl ℝ)) = .ok r) ↔
      PairOk us vs ∧ PairOk us ws ∧ PairOk vs ws) ∧
    (¬ (PairOk us vs ∧ PairOk us ws ∧ PairOk vs ws) →
      velocityCorrelation (fins us) (fins vs) (fins ws : List (Fl ℝ)) = .error .valueError) := by
  have := C68_success_iff (fins us : List (Fl ℝ)) (fins vs) (fins ws) (by simpa using hn) (by simpa using hv)
    (by simpa using hw)
  rw [goodAxes_iff us vs hv.symm (by omega), goodAxes_iff us ws hw.symm (by omega),
    goodAxes_iff vs ws (by omega) (by omega)] at this
  exact this

/-- **C104** if the covariance of u and v is at least the variance of u in magnitude (regression slope ≥ 1), the call
raises ValueError whatever w is; so does a perfect correlation of any pair. -/
theorem C104_steep (us vs ws : List ℝ) (hn : 3 ≤ us.length) (hv : vs.length = us.length)
    (hw : ws.length = us.length) :
    (Spec.var us ≤ |Spec.cov us vs| ∨ Spec.var us ≤ |Spec.cov us ws| ∨ Spec.var vs ≤ |Spec.cov vs ws| →
      velocityCorrelation (fins us) (fins vs) (fins ws : List (Fl ℝ)) = .error .valueError) ∧
    (Spec.cov us vs ^ 2 = Spec.var us * Spec.var vs → 
      velocityCorrelation (fins us) (fins vs) (fins ws : List (Fl ℝ)) = .error .valueError) := by
  have steep : ∀ xs ys : List ℝ, Spec.var xs ≤ |Spec.cov xs ys| → ¬ PairOk xs ys := by
    intro xs ys hs hp
    have hx := hp.var_pos
    obtain ⟨h1, h2⟩ := hp
    have h3 : Spec.var xs ^ 2 ≤ Spec.cov xs ys ^ 2 := by
      rw [← sq_abs (Spec.cov xs ys)]
      exact pow_le_pow_left₀ hx.le hs 2
    have hy := Spec.var_nonneg ys
    have h4 : Spec.var xs < Spec.var ys := by
      have : Spec.var xs * Spec.var xs < Spec.var xs * Spec.var ys := by nlinarith
      exact (mul_lt_mul_iff_right₀ hx).mp this
    have h5 : Spec.var xs ^ 2 * Spec.var ys < Spec.var xs ^ 2 * Spec.var xs := by nlinarith
    have h6 := (mul_lt_mul_iff_right₀ (by positivity)).mp h5
    linarith
  have main := (C104_success_iff us vs ws hn hv hw).2
  refine ⟨?_, fun hc => main (fun h => absurd h.1.1 (by rw [hc]; exact lt_irrefl _))⟩
  rintro (h | h | h)
  · exact main (fun hp => steep _ _ h hp.1)
  · exact main (fun hp => steep _ _ h hp.2.1)
  · exact main (fun hp => steep _ _ h hp.2.2)

/-- **C104** three samples suffice: `u = (0,1,2)`, `v = (0,2,4)` is rejected for every `w`. -/
example (ws : List ℝ) (hw : ws.length = 3) :
    velocityCorrelation (fins [0, 1, 2]) (fins [0, 2, 4]) (fins ws : List (Fl ℝ)) = .error .valueError := by
  apply (C104_steep [0, 1, 2] [0, 2, 4] ws (by simp) (by simp) (by simpa using hw)).1
  left
  norm_num [Spec.var, Spec.cov, Spec.cmoment, Spec.avg]

/-- an orthogonal configuration on which the call succeeds -/
example : PairOk [1, -1, 0, 0, 0, 0] [0, 0, 1, -1, 0, 0] ∧ PairOk [1, -1, 0, 0, 0, 0] [0, 0, 0, 0, 1, -1] ∧
    PairOk [0, 0, 1, -1, 0, 0] [0, 0, 0, 0, 1, -1] := by
  norm_num [PairOk, Spec.var, Spec.cov, Spec.cmoment, Spec.avg]

/-! ## C69 -/

/-- **C69** if one of the components is constant (and there are at least 3 samples) the call raises ValueError. -/
theorem C69_constant (us vs ws : List ℝ) (hn : 3 ≤ us.length) (hv : vs.length = us.length)
    (hw : ws.length = us.length) (k : ℝ) (hc : (∀ x ∈ us, x = k) ∨ (∀ x ∈ vs, x = k) ∨ (∀ x ∈ ws, x = k)) :
    velocityCorrelation (fins us) (fins vs) (fins ws : List (Fl ℝ)) = .error .valueError := by
  have v0 : ∀ xs : List ℝ, (∀ x ∈ xs, x = k) → Spec.var xs = 0 := fun xs h =>
    Spec.var_eq_zero.mpr (fun x hx y hy => by rw [h x hx, h y hy])
  have bad : ∀ xs ys : List ℝ, Spec.var xs * Spec.var ys = 0 → ¬ PairOk xs ys := by
    intro xs ys h hp
    have := hp.1
    rw [h] at this
    exact absurd this (not_lt.mpr (sq_nonneg _))
  apply (C104_success_iff us vs ws hn hv hw).2
  rintro ⟨h1, h2, h3⟩
  rcases hc with h | h | h
  · exact bad us vs (by rw [v0 _ h, zero_mul]) h1
  · exact bad us vs (by rw [v0 _ h, mul_zero]) h1
  · exact bad us ws (by rw [v0 _ h, mul_zero]) h2

/-! ## Closed form of the flagged set -/

/-- Specification: the squared distance of the centred sample `(x, y)` in the ellipse metric of a pair with variances
`V1`, `V2` and covariance `C`, before division by `λ²`: with slope `m = C/V1`. -/
noncomputable def pairDist (V1 V2 C x y : ℝ) : ℝ :=
  (1 - (C / V1) ^ 2) / (1 + (C / V1) ^ 2) *
    ((x + C / V1 * y) ^ 2 / (V1 - (C / V1) ^ 2 * V2) + (y - C / V1 * x) ^ 2 / (V2 - (C / V1) ^ 2 * V1))

/-- Specification: sample `i` is beyond the ellipse of the pair `xs`, `ys`. -/
def Beyond (xs ys : List ℝ) (i : Nat) : Prop :=
  ∃ x y, xs[i]? = some x ∧ ys[i]? = some y ∧
    2 * Real.log xs.length <
      pairDist (Spec.var xs) (Spec.var ys) (Spec.cov xs ys) (x - Spec.avg xs) (y - Spec.avg ys)

theorem rho_pair (L V1 V2 C x y : ℝ) (hL : 0 < L)
    (hA : 0 < V1 - (C / V1) ^ 2 * V2) (hB : 0 < V2 - (C / V1) ^ 2 * V1) (hq : 0 < 1 - (C / V1) ^ 2) :
    rhoR (Real.arctan (C / V1)) √(L * (V1 - (C / V1) ^ 2 * V2) / (1 - (C / V1) ^ 2))
      √(L * (V2 - (C / V1) ^ 2 * V1) / (1 - (C / V1) ^ 2)) x y = pairDist V1 V2 C x y / L := by
  unfold rhoR pairDist
  generalize C / V1 = m at *
  have hp : 0 < 1 + m ^ 2 := by positivity
  rw [Real.cos_arctan, Real.sin_arctan, div_pow, div_pow, Real.sq_sqrt (by positivity), Real.sq_sqrt (by positivity)]
  have hs : √(1 + m ^ 2) ^ 2 = 1 + m ^ 2 := Real.sq_sqrt hp.le
  have e1 : (x * (1 / √(1 + m ^ 2)) + y * (m / √(1 + m ^ 2))) ^ 2 = (x + m * y) ^ 2 / (1 + m ^ 2) := by
    rw [← hs]; rw [← div_pow]; congr 1; rw [hs]; ring
  have e2 : (y * (1 / √(1 + m ^ 2)) - x * (m / √(1 + m ^ 2))) ^ 2 = (y - m * x) ^ 2 / (1 + m ^ 2) := by
    rw [← hs]; rw [← div_pow]; congr 1; rw [hs]; ring
  rw [e1, e2]
  field_simp

theorem pair_flag (xs ys : List ℝ) (h : xs.length = ys.length) (hn : 2 ≤ xs.length) (hp : PairOk xs ys) :
    ∃ r, pairRho (cent (fins xs)) (cent (fins ys) : List (Fl ℝ)) = .ok r ∧ ∀ i, i ∈ outside r ↔ Beyond xs ys i := by
  have hx : xs ≠ [] := by rintro rfl; simp at hn
  have hy : ys ≠ [] := by rintro rfl; simp at h; exact hx h
  have hdx : Spec.dev xs ≠ [] := by simpa [Spec.dev] using hx
  have hdy : Spec.dev ys ≠ [] := by simpa [Spec.dev] using hy
  have hV := hp.var_pos
  have hL : 0 < 2 * Real.log xs.length := by
    have h1 : (1 : ℝ) < xs.length := by exact_mod_cast hn
    have := Real.log_pos h1
    linarith
  have hg := (goodAxes_iff xs ys h hn).mpr hp
  refine ⟨_, pairRho_good _ _ (by rw [cent_length, cent_length]; simpa using h) hg, fun i => ?_⟩
  rw [mem_outside_zip]
  have hq : ((Spec.dev xs).map (fun x => x ^ 2)).sum ≠ 0 := by
    rw [← Spec.dot_self, Spec.dot_dev_self _ hx]
    exact mul_ne_zero (Spec.length_ne hx) hV.ne'
  rw [cent_fins xs hx, cent_fins ys hy, npStd_fins _ hdx, npStd_fins _ hdy, Spec.var_dev hx, Spec.var_dev hy,
    List.length_map, Spec.length_dev, lambdaOf_fin (by omega), phaseAngle_fins _ _ hq, slope_dev _ _ h hx,
    axisA_fin, axisB_fin]
  -- positivity
  have c1 : 0 < Spec.var ys - (Spec.cov xs ys / Spec.var xs) ^ 2 * Spec.var xs := by
    have e : (Spec.cov xs ys / Spec.var xs) ^ 2 * Spec.var xs = Spec.cov xs ys ^ 2 / Spec.var xs := by
      field_simp
    rw [e, sub_pos, div_lt_iff₀ hV]
    have := hp.1
    linarith [mul_comm (Spec.var xs) (Spec.var ys)]
  have c2 : 0 < Spec.var xs - (Spec.cov xs ys / Spec.var xs) ^ 2 * Spec.var ys := by
    have e : (Spec.cov xs ys / Spec.var xs) ^ 2 * Spec.var ys = Spec.cov xs ys ^ 2 * Spec.var ys / Spec.var xs ^ 2 := by
      field_simp
    rw [e, sub_pos, div_lt_iff₀ (by positivity)]
    have := hp.2
    linarith [show Spec.var xs ^ 3 = Spec.var xs * Spec.var xs ^ 2 by ring]
  have c3 : 0 < 1 - (Spec.cov xs ys / Spec.var xs) ^ 2 := by
    by_contra hc
    push Not at hc
    have hy0 := Spec.var_nonneg ys
    nlinarith
  have hfne : Real.cos (Real.arctan (Spec.cov xs ys / Spec.var xs)) ^ 2 -
      Real.sin (Real.arctan (Spec.cov xs ys / Spec.var xs)) ^ 2 ≠ 0 := by
    rw [cos_sq_arctan', sin_sq_arctan', ← sub_div]
    exact (div_pos c3 (by positivity)).ne'
  rw [pdiv_fin hfne, pdiv_fin hfne, ratio_arctan, ratio_arctan, Real.sq_sqrt hL.le, Real.sq_sqrt hV.le,
    Real.sq_sqrt (Spec.var_nonneg ys), psqrt_fin (div_pos (mul_pos hL c2) c3).le,
    psqrt_fin (div_pos (mul_pos hL c1) c3).le]
  have key : ∀ x y : ℝ, ((lit 1 : Fl ℝ) <. rhoAt (fin (Real.arctan (Spec.cov xs ys / Spec.var xs)))
      (fin √(2 * Real.log xs.length * (Spec.var xs - (Spec.cov xs ys / Spec.var xs) ^ 2 * Spec.var ys) /
        (1 - (Spec.cov xs ys / Spec.var xs) ^ 2)))
      (fin √(2 * Real.log xs.length * (Spec.var ys - (Spec.cov xs ys / Spec.var xs) ^ 2 * Spec.var xs) /
        (1 - (Spec.cov xs ys / Spec.var xs) ^ 2))) (fin x) (fin y)) = true ↔
      2 * Real.log xs.length < pairDist (Spec.var xs) (Spec.var ys) (Spec.cov xs ys) x y := by
    intro x y
    rw [rhoAt_fin _ _ _ (Real.sqrt_pos.mpr (div_pos (mul_pos hL c2) c3)).ne'
      (Real.sqrt_pos.mpr (div_pos (mul_pos hL c1) c3)).ne', rho_pair _ _ _ _ _ _ hL c2 c1 c3]
    simp only [lit_eq, plt_fin, Rat.cast_one, decide_eq_true_eq]
    rw [lt_div_iff₀ hL, one_mul]
  constructor
  · rintro ⟨a, b, ha, hb, hlt⟩
    obtain ⟨a, ha', rfl⟩ := (fins_get _ _ _).mp ha
    obtain ⟨b, hb', rfl⟩ := (fins_get _ _ _).mp hb
    rw [key] at hlt
    unfold Spec.dev at ha' hb'
    rw [List.getElem?_map, Option.map_eq_some_iff] at ha' hb'
    obtain ⟨x, hx, rfl⟩ := ha'
    obtain ⟨y, hy, rfl⟩ := hb'
    exact ⟨x, y, hx, hy, hlt⟩
  · rintro ⟨x, y, hx, hy, hlt⟩
    refine ⟨fin (x - Spec.avg xs), fin (y - Spec.avg ys), ?_, ?_, (key _ _).mpr hlt⟩
    · simp [Spec.dev, hx]
    · simp [Spec.dev, hy]

/-- **C104** the result in closed form: when the call succeeds (≥ 3 samples), sample `i` is flagged iff it is beyond the
ellipse of one of the three pairs. -/
theorem C104_flagged (us vs ws : List ℝ) (hn : 3 ≤ us.length) (hv : vs.length = us.length)
    (hw : ws.length = us.length) (h1 : PairOk us vs) (h2 : PairOk us ws) (h3 : PairOk vs ws) :
    ∃ r, velocityCorrelation (fins us) (fins vs) (fins ws : List (Fl ℝ)) = .ok r ∧ r.Pairwise (· < ·) ∧
      ∀ i, i ∈ r ↔ Beyond us vs i ∨ Beyond us ws i ∨ Beyond vs ws i := by
  have hu : fins us ≠ [] := by intro h; simp at h; rw [h] at hn; simp at hn
  obtain ⟨r1, e1, m1⟩ := pair_flag us vs hv.symm (by omega) h1
  obtain ⟨r2, e2, m2⟩ := pair_flag us ws hw.symm (by omega) h2
  obtain ⟨r3, e3, m3⟩ := pair_flag vs ws (by omega) (by omega) h3
  refine ⟨uniqueNat (outside r1 ++ outside r2 ++ outside r3), ?_, uniqueNat_sorted _, fun i => ?_⟩
  · rw [vc_eq _ _ _ hu (by simpa using hv) (by simpa using hw), e1, e2, e3]; rfl
  · rw [mem_uniqueNat, List.mem_append, List.mem_append, m1, m2, m3, or_assoc]

/-! ## Fewer than three samples -/

private theorem out_nan : outside [(nan : Fl ℝ), nan] = [] := by
  unfold outside; simp only [List.map_cons, lt_nan, List.map_nil]; decide

private theorem pair_nan (x y : List (Fl ℝ)) (h : x.length = y.length) (hn : x.length = 1 ∨ x.length = 2)
    (ht : phaseAngle x y = nan) : ∃ r, pairRho x y = .ok r ∧ outside r = [] := by
  have hg : ¬ GoodAxes x y := by
    unfold GoodAxes
    rw [ht]
    intro hh
    have := hh.1
    simp [axisA, npow_def, Fl.npow] at this
  have hX : ∀ u v : Fl ℝ, rotX nan u v = nan := by intro u v; simp [rotX]
  have hY : ∀ u v : Fl ℝ, rotY nan u v = nan := by intro u v; simp [rotY]
  have hsq : (nan : Fl ℝ) ^. 2 = nan := rfl
  have e1 : List.zipWith (rotX (nan : Fl ℝ)) x y = List.replicate x.length nan := by
    apply List.ext_getElem
    · simp [h]
    · intro i _ _; simp [hX]
  have e2 : List.zipWith (rotY (nan : Fl ℝ)) x y = List.replicate x.length nan := by
    apply List.ext_getElem
    · simp [h]
    · intro i _ _; simp [hY]
  unfold pairRho
  rw [pairAb_bad x y hg, ht]
  simp only [calculateRho]
  rw [bcast_same _ h, bcast_same _ h, e1, e2]
  rcases hn with hn | hn <;> rw [hn]
  · refine ⟨[nan, nan], ?_, ?_⟩
    · simp [bcast, bind, Except.bind, List.replicate, hsq]
    · exact out_nan
  · refine ⟨[nan, nan], ?_, ?_⟩
    · simp [bcast, bind, Except.bind, List.replicate, hsq]
    · exact out_nan

private theorem dev_two (t : ℝ) : Spec.dev [t, -t] = [t, -t] := by
  unfold Spec.dev Spec.avg; norm_num

private theorem var_two (t : ℝ) : Spec.var [t, -t] = t ^ 2 := by
  unfold Spec.var Spec.cmoment Spec.avg; norm_num

private theorem cov_two (t s : ℝ) : Spec.cov [t, -t] [s, -s] = t * s := by
  unfold Spec.cov Spec.avg; norm_num

private theorem pair_two (t s : ℝ) : ∃ r, pairRho (fins [t, -t]) (fins [s, -s] : List (Fl ℝ)) = .ok r ∧ outside r = [] := by
  have sx : PyNum.sum (List.zipWith (fun u v => u *. v) (fins [t, -t]) (fins [s, -s] : List (Fl ℝ))) = fin (2 * (t * s)) := by
    rw [zipWith_fins _ (fun x y => x * y) (fun _ _ => rfl)]
    rw [show PyNum.sum (fins (List.zipWith (fun x y => x * y) [t, -t] [s, -s])) = (fin _ : Fl ℝ) from psum_fin _]
    simp; ring
  have sy : PyNum.sum ((fins [t, -t]).map (fun u : Fl ℝ => u ^. 2)) = fin (2 * t ^ 2) := by
    rw [map_fins _ (fun x => x ^ 2) (fun x => pnpow_fin x 2)]
    rw [show PyNum.sum (fins ([t, -t].map (fun x => x ^ 2))) = (fin _ : Fl ℝ) from psum_fin _]
    simp; ring
  by_cases ht : t = 0
  · apply pair_nan _ _ (by simp) (by simp)
    unfold phaseAngle
    rw [sx, sy, ht]
    simp [pdiv_fin', infSgn]
  · have hang : phaseAngle (fins [t, -t]) (fins [s, -s]) = (fin (Real.arctan (s / t)) : Fl ℝ) := by
      unfold phaseAngle
      rw [sx, sy, pdiv_fin (by positivity), parctan_fin]
      congr 2; field_simp
    have hg : ¬ GoodAxes (fins [t, -t]) (fins [s, -s] : List (Fl ℝ)) := by
      have := goodAxes_iff [t, -t] [s, -s] (by simp) (by simp)
      rw [cent_fins _ (by simp), cent_fins _ (by simp), dev_two, dev_two] at this
      rw [this]
      rintro ⟨h1, -⟩
      rw [var_two, var_two, cov_two] at h1
      nlinarith
    obtain ⟨m, rfl⟩ : ∃ m, s = m * t := ⟨s / t, by field_simp⟩
    have hmt : m * t / t = m := by field_simp
    rw [hmt] at hang
    have hp : 0 < 1 + m ^ 2 := by positivity
    have hlog : (1 : ℝ) < 2 * Real.log 2 := by have := Real.log_two_gt_d9; linarith
    have hsq : √(1 + m ^ 2) ^ 2 = 1 + m ^ 2 := Real.sq_sqrt hp.le
    have hsp : 0 < √(1 + m ^ 2) := Real.sqrt_pos.mpr hp
    have hX : rotX (fin (Real.arctan m)) (fin t) (fin (m * t)) = (fin (t * √(1 + m ^ 2)) : Fl ℝ) := by
      simp only [rotX, pcos_fin, psin_fin, pmul_fin, padd_fin, Real.cos_arctan, Real.sin_arctan]
      congr 1; field_simp; rw [hsq]
    have hX' : rotX (fin (Real.arctan m)) (fin (-t)) (fin (-(m * t))) = (fin (-(t * √(1 + m ^ 2))) : Fl ℝ) := by
      simp only [rotX, pcos_fin, psin_fin, pmul_fin, padd_fin, Real.cos_arctan, Real.sin_arctan]
      congr 1; field_simp; rw [hsq]; ring
    have hY : rotY (fin (Real.arctan m)) (fin t) (fin (m * t)) = (fin 0 : Fl ℝ) := by
      simp only [rotY, pcos_fin, psin_fin, pmul_fin, psub_fin, Real.cos_arctan, Real.sin_arctan]
      congr 1; field_simp; ring
    have hY' : rotY (fin (Real.arctan m)) (fin (-t)) (fin (-(m * t))) = (fin 0 : Fl ℝ) := by
      simp only [rotY, pcos_fin, psin_fin, pmul_fin, psub_fin, Real.cos_arctan, Real.sin_arctan]
      congr 1; field_simp; ring
    have h10 : (((fin 0 : Fl ℝ) /. fin (10 ^ 10)) ^. 2) = fin 0 := by
      rw [pdiv_fin (by norm_num)]; simp
    have hr : ∀ a : Fl ℝ, calculateRho (fins [t, -t]) (fins [m * t, -(m * t)]) (fin (Real.arctan m)) a
        (.pair (lit (10 ^ 10)) (lit (10 ^ 10))) =
        .ok [(fin (t * √(1 + m ^ 2)) /. a) ^. 2 +. fin 0, (fin (-(t * √(1 + m ^ 2))) /. a) ^. 2 +. fin 0] := by
      intro a
      simp [calculateRho, bcast, bind, Except.bind, hX, hX', hY, hY', h10]
    unfold pairRho
    rw [pairAb_bad _ _ hg, hang, hr]
    refine ⟨_, rfl, ?_⟩
    have hno : ∀ e1 e2 : Fl ℝ, ((lit 1 : Fl ℝ) <. e1) = false → ((lit 1 : Fl ℝ) <. e2) = false → outside [e1, e2] = [] := by
      intro e1 e2 h1 h2
      unfold outside
      simp only [List.map_cons, List.map_nil, h1, h2]; decide
    have ha : (pairAb (fins [t, -t]) (fins [m * t, -(m * t)] : List (Fl ℝ))).1 = nan ∨
        (pairAb (fins [t, -t]) (fins [m * t, -(m * t)] : List (Fl ℝ))).1 =
          fin √(2 * Real.log 2 * (t ^ 2 * (1 + m ^ 2))) := by
      show PyMath.sqrt (axisA _ _ _ _) = _ ∨ PyMath.sqrt (axisA _ _ _ _) = _
      rw [hang, npStd_fins _ (by simp), npStd_fins _ (by simp), var_two, var_two,
        show (fins [t, -t] : List (Fl ℝ)).length = 2 from rfl, lambdaOf_fin (by norm_num), axisA_fin]
      by_cases hf : 1 - m ^ 2 = 0
      · left
        have hf' : Real.cos (Real.arctan m) ^ 2 - Real.sin (Real.arctan m) ^ 2 = 0 := by
          rw [cos_sq_arctan', sin_sq_arctan', ← sub_div, hf, zero_div]
        have hz : numA (√(2 * Real.log (2 : ℕ)) * √(t ^ 2)) (√(2 * Real.log (2 : ℕ)) * √((m * t) ^ 2)) (Real.arctan m) = 0 := by
          have hm : m ^ 2 = 1 := by linarith
          unfold numA
          rw [cos_sq_arctan', sin_sq_arctan', mul_pow m, hm, one_mul]
          ring
        rw [hf', hz]
        simp [pdiv_fin', infSgn]
      · right
        have hf' : Real.cos (Real.arctan m) ^ 2 - Real.sin (Real.arctan m) ^ 2 ≠ 0 := by
          rw [cos_sq_arctan', sin_sq_arctan', ← sub_div]
          exact div_ne_zero hf hp.ne'
        rw [pdiv_fin hf', ratio_arctan, Real.sq_sqrt (by push_cast; linarith), Real.sq_sqrt (by positivity), Real.sq_sqrt (by positivity)]
        have e : 2 * Real.log (2 : ℕ) * (t ^ 2 - m ^ 2 * (m * t) ^ 2) / (1 - m ^ 2) =
            2 * Real.log 2 * (t ^ 2 * (1 + m ^ 2)) := by
          push_cast
          field_simp
          ring
        rw [e, psqrt_fin]
        positivity
    rcases ha with ha | ha
    · rw [ha]
      apply hno <;> simp [npow_def, Fl.npow]
    · have hpos : 0 < 2 * Real.log 2 * (t ^ 2 * (1 + m ^ 2)) := by
        have : 0 < t ^ 2 := by positivity
        have : 0 < Real.log 2 := by linarith
        positivity
      have key : ∀ σ : ℝ, σ ^ 2 = 1 → ((lit 1 : Fl ℝ) <. (fin (σ * (t * √(1 + m ^ 2))) /.
          fin √(2 * Real.log 2 * (t ^ 2 * (1 + m ^ 2)))) ^. 2 +. fin 0) = false := by
        intro σ hσ
        rw [pdiv_fin (Real.sqrt_pos.mpr hpos).ne']
        simp only [pnpow_fin, padd_fin, lit_eq, plt_fin, decide_eq_false_iff_not, not_lt, add_zero, Rat.cast_one]
        rw [div_pow, Real.sq_sqrt hpos.le, mul_pow, mul_pow, hsq, hσ, div_le_one hpos]
        have : 0 < t ^ 2 := by positivity
        nlinarith [mul_pos this hp]
      rw [ha]
      apply hno
      · simpa using key 1 (by norm_num)
      · simpa using key (-1) (by norm_num)

/-- **C67** one or two samples: nothing is ever flagged. -/
theorem C67_small (us vs ws : List ℝ) (h1 : 1 ≤ us.length) (h2 : us.length ≤ 2) (hv : vs.length = us.length)
    (hw : ws.length = us.length) :
    velocityCorrelation (fins us) (fins vs) (fins ws : List (Fl ℝ)) = .ok [] := by
  have hpair : ∀ xs ys : List ℝ, xs.length = us.length → ys.length = us.length →
      ∃ r, pairRho (cent (fins xs)) (cent (fins ys) : List (Fl ℝ)) = .ok r ∧ outside r = [] := by
    intro xs ys hx hy
    have nx : xs ≠ [] := by rintro rfl; simp at hx; omega
    have ny : ys ≠ [] := by rintro rfl; simp at hy; omega
    rw [cent_fins xs nx, cent_fins ys ny]
    rcases Nat.lt_or_ge us.length 2 with h | h
    · have hl : us.length = 1 := by omega
      rw [hl] at hx hy
      obtain ⟨a, rfl⟩ := List.length_eq_one_iff.mp hx
      obtain ⟨b, rfl⟩ := List.length_eq_one_iff.mp hy
      have d : ∀ a : ℝ, Spec.dev [a] = [0] := by intro a; simp [Spec.dev, Spec.avg]
      rw [d, d]
      apply pair_nan _ _ (by simp) (by simp)
      unfold phaseAngle
      rw [zipWith_fins _ (fun x y => x * y) (fun _ _ => rfl), map_fins _ (fun x => x ^ 2) (fun x => pnpow_fin x 2)]
      rw [show PyNum.sum (fins (List.zipWith (fun x y : ℝ => x * y) [0] [0])) = (fin _ : Fl ℝ) from psum_fin _,
        show PyNum.sum (fins ([(0 : ℝ)].map (fun x => x ^ 2))) = (fin _ : Fl ℝ) from psum_fin _]
      simp [pdiv_fin', infSgn]
    · have hl : us.length = 2 := by omega
      rw [hl] at hx hy
      obtain ⟨a, a', rfl⟩ := List.length_eq_two.mp hx
      obtain ⟨b, b', rfl⟩ := List.length_eq_two.mp hy
      have d : ∀ a a' : ℝ, Spec.dev [a, a'] = [(a - a') / 2, -((a - a') / 2)] := by
        intro a a'
        simp only [Spec.dev, Spec.avg, List.map_cons, List.map_nil, List.sum_cons, List.sum_nil, List.length_cons,
          List.length_nil]
        norm_num
        constructor <;> ring
      rw [d, d]
      exact pair_two _ _
  have hu : fins us ≠ [] := by intro h; simp at h; rw [h] at h1; simp at h1
  obtain ⟨r1, e1, m1⟩ := hpair us vs rfl hv
  obtain ⟨r2, e2, m2⟩ := hpair us ws rfl hw
  obtain ⟨r3, e3, m3⟩ := hpair vs ws hv hw
  rw [vc_eq _ _ _ hu (by simpa using hv) (by simpa using hw), e1, e2, e3]
  simp only [bind, Except.bind, m1, m2, m3]
  rfl

/-! ## C67 -/

theorem var_affine (k o : ℝ) {xs : List ℝ} (h : xs ≠ []) : Spec.var (xs.map (fun x => k * x + o)) = k ^ 2 * Spec.var xs :=
  Spec.cmoment_affine 2 k o h

theorem cov_affine (k o o' : ℝ) {xs ys : List ℝ} (hx : xs ≠ []) (hy : ys ≠ []) :
    Spec.cov (xs.map (fun x => k * x + o)) (ys.map (fun x => k * x + o')) = k ^ 2 * Spec.cov xs ys := by
  unfold Spec.cov
  rw [Spec.avg_affine _ _ hx, Spec.avg_affine _ _ hy, List.zipWith_map, ← Spec.avg_mul (k ^ 2) (List.zipWith _ _ _), List.map_zipWith]
  congr 2
  funext x y; ring

theorem pairOk_affine (k o o' : ℝ) (hk : k ≠ 0) {xs ys : List ℝ} (hx : xs ≠ []) (hy : ys ≠ []) :
    PairOk (xs.map (fun x => k * x + o)) (ys.map (fun x => k * x + o')) ↔ PairOk xs ys := by
  unfold PairOk
  rw [var_affine _ _ hx, var_affine _ _ hy, cov_affine _ _ _ hx hy]
  have hk4 : 0 < k ^ 4 := by positivity
  have hk6 : 0 < k ^ 6 := by positivity
  rw [show (k ^ 2 * Spec.cov xs ys) ^ 2 = k ^ 4 * Spec.cov xs ys ^ 2 by ring,
    show k ^ 2 * Spec.var xs * (k ^ 2 * Spec.var ys) = k ^ 4 * (Spec.var xs * Spec.var ys) by ring,
    show k ^ 4 * Spec.cov xs ys ^ 2 * (k ^ 2 * Spec.var ys) = k ^ 6 * (Spec.cov xs ys ^ 2 * Spec.var ys) by ring,
    show (k ^ 2 * Spec.var xs) ^ 3 = k ^ 6 * Spec.var xs ^ 3 by ring, mul_lt_mul_iff_right₀ hk4,
    mul_lt_mul_iff_right₀ hk6]

theorem pairDist_scale (k V1 V2 C x y : ℝ) (hk : k ≠ 0) :
    pairDist (k ^ 2 * V1) (k ^ 2 * V2) (k ^ 2 * C) (k * x) (k * y) = pairDist V1 V2 C x y := by
  unfold pairDist
  have hk2 : k ^ 2 ≠ 0 := pow_ne_zero 2 hk
  rw [mul_div_mul_left _ _ hk2]
  generalize C / V1 = m
  rw [show k * x + m * (k * y) = k * (x + m * y) by ring, show k * y - m * (k * x) = k * (y - m * x) by ring,
    show k ^ 2 * V1 - m ^ 2 * (k ^ 2 * V2) = k ^ 2 * (V1 - m ^ 2 * V2) by ring,
    show k ^ 2 * V2 - m ^ 2 * (k ^ 2 * V1) = k ^ 2 * (V2 - m ^ 2 * V1) by ring, mul_pow, mul_pow,
    mul_div_mul_left _ _ hk2, mul_div_mul_left _ _ hk2]

theorem beyond_affine (k o o' : ℝ) (hk : k ≠ 0) {xs ys : List ℝ} (hx : xs ≠ []) (hy : ys ≠ []) (i : Nat) :
    Beyond (xs.map (fun x => k * x + o)) (ys.map (fun x => k * x + o')) i ↔ Beyond xs ys i := by
  unfold Beyond
  rw [var_affine _ _ hx, var_affine _ _ hy, cov_affine _ _ _ hx hy, Spec.avg_affine _ _ hx, Spec.avg_affine _ _ hy,
    List.length_map]
  have e : ∀ a b c : ℝ, k * a + c - (k * b + c) = k * (a - b) := by intro a b c; ring
  constructor
  · rintro ⟨x, y, h1, h2, h3⟩
    rw [List.getElem?_map, Option.map_eq_some_iff] at h1 h2
    obtain ⟨a, ha, rfl⟩ := h1
    obtain ⟨b, hb, rfl⟩ := h2
    rw [e, e, pairDist_scale _ _ _ _ _ _ hk] at h3
    exact ⟨a, b, ha, hb, h3⟩
  · rintro ⟨x, y, h1, h2, h3⟩
    refine ⟨k * x + o, k * y + o', by rw [List.getElem?_map, h1]; rfl, by rw [List.getElem?_map, h2]; rfl, ?_⟩
    rw [e, e, pairDist_scale _ _ _ _ _ _ hk]
    exact h3

/-- **C67** `velocity_correlation` is unchanged (same indices or same error) when each component gets its own constant
offset and all are multiplied by a common non-zero factor (sign flips included). -/
theorem C67_affine (us vs ws : List ℝ) (hv : vs.length = us.length) (hw : ws.length = us.length)
    (k o1 o2 o3 : ℝ) (hk : k ≠ 0) :
    velocityCorrelation (fins (us.map (fun x => k * x + o1))) (fins (vs.map (fun x => k * x + o2)))
        (fins (ws.map (fun x => k * x + o3)) : List (Fl ℝ)) =
      velocityCorrelation (fins us) (fins vs) (fins ws) := by
  rcases Nat.eq_zero_or_pos us.length with h0 | h0
  · rw [List.length_eq_zero_iff.mp h0]; rfl
  rcases Nat.lt_or_ge us.length 3 with h3 | h3
  · rw [C67_small us vs ws h0 (by omega) hv hw, C67_small _ _ _ (by simp; omega) (by simp; omega) (by simpa using hv)
      (by simpa using hw)]
  have nu : us ≠ [] := by rintro rfl; simp at h0
  have nv : vs ≠ [] := by rintro rfl; simp at hv; omega
  have nw : ws ≠ [] := by rintro rfl; simp at hw; omega
  by_cases hok : PairOk us vs ∧ PairOk us ws ∧ PairOk vs ws
  · obtain ⟨r, hr, hs, hm⟩ := C104_flagged us vs ws h3 hv hw hok.1 hok.2.1 hok.2.2
    obtain ⟨r', hr', hs', hm'⟩ := C104_flagged (us.map (fun x => k * x + o1)) (vs.map (fun x => k * x + o2))
      (ws.map (fun x => k * x + o3)) (by simpa using h3) (by simpa using hv) (by simpa using hw)
      ((pairOk_affine k o1 o2 hk nu nv).mpr hok.1) ((pairOk_affine k o1 o3 hk nu nw).mpr hok.2.1)
      ((pairOk_affine k o2 o3 hk nv nw).mpr hok.2.2)
    rw [hr, hr']
    congr 1
    apply sorted_ext hs' hs
    intro i
    rw [hm, hm', beyond_affine k o1 o2 hk nu nv, beyond_affine k o1 o3 hk nu nw, beyond_affine k o2 o3 hk nv nw]
  · rw [(C104_success_iff us vs ws h3 hv hw).2 hok]
    apply (C104_success_iff _ _ _ (by simpa using h3) (by simpa using hv) (by simpa using hw)).2
    rw [pairOk_affine k o1 o2 hk nu nv, pairOk_affine k o1 o3 hk nu nw, pairOk_affine k o2 o3 hk nv nw]
    exact hok

/-- **C59** one sample in exact arithmetic: nothing returned, so the index claim holds there as well (the fallback pair
broadcasts the single sample to two entries, both NaN). -/
theorem C59_correlation_one (u v w : ℝ) :
    velocityCorrelation (fins [u]) (fins [v]) (fins [w] : List (Fl ℝ)) = .ok [] :=
  C67_small [u] [v] [w] (by simp) (by simp) rfl rfl

end Proadv.Props
