import Verif.Props.SmoothLaws
import Verif.Py.Real
import Mathlib.Analysis.SpecialFunctions.Trigonometric.Basic
import Mathlib.Analysis.SpecialFunctions.Complex.Arg

/-!
# C211–C212: response of the moving averages to periodic signals and sinusoids
-/

set_option linter.unusedSectionVars false

namespace Proadv.Props

open Proadv Fl Descriptive Series

/-! ## Specifications -/

/-- `n` samples of a sinusoid of amplitude `A`, angular frequency `w` per sample and phase `ph` -/
noncomputable def sinusoid (A w ph : ℝ) (n : Nat) : List ℝ := (List.range n).map (fun i : Nat => A * Real.cos (w * i + ph))

theorem sinusoid_getD (A w ph : ℝ) (n i : Nat) (h : i < n) : (sinusoid A w ph n).getD i 0 = A * Real.cos (w * i + ph) := by
  unfold sinusoid
  rw [List.getD_eq_getElem?_getD, List.getElem?_map, List.getElem?_range h]; rfl

/-- amplitude factor of the exponential moving average at the angular frequency `w` -/
noncomputable def emaGain (alpha w : ℝ) : ℝ := alpha / √(alpha ^ 2 + 2 * (1 - alpha) * (1 - Real.cos w))

/-! ## Moving average -/

section exact
variable {K : Type} [Field K] [LinearOrder K] [FloorRing K] [IsStrictOrderedRing K]

/-- **C211** on a series of period `w` the moving average of window `w` is, from the first full window on, constantly the
mean over one period: a component of that period is removed entirely. -/
theorem C211_periodic (b : Bool) (xs : List K) (w : Nat) (hw : 1 ≤ w) (hwn : w ≤ xs.length)
    (hper : ∀ i, i + w < xs.length → xs.getD (i + w) 0 = xs.getD i 0) :
    ∃ out : List (Fl K), movingAverage ⟨1, b, xs.map fin⟩ (w : Int) = .ok out ∧ out.length = xs.length ∧
      ∀ i, w ≤ i + 1 → i < xs.length → out[i]? = some (fin ((xs.take w).sum / w)) := by
  refine ⟨_, C12_moving_average b xs w hw hwn, by simp, fun i h1 h2 => ?_⟩
  rw [List.getElem?_map, List.getElem?_range h2]
  have key : ∀ d, w - 1 + d < xs.length → trailingMean xs w (w - 1 + d) = (xs.take w).sum / w := by
    intro d
    induction d with
    | zero =>
      intro _
      unfold trailingMean
      rw [show w - 1 + 0 + 1 = w by omega]; simp
    | succ d ih =>
      intro hd
      rw [trailing_step xs w _ (by omega) (by omega) hd, show w - 1 + (d + 1) - 1 = w - 1 + d by omega, ih (by omega),
        show w - 1 + (d + 1) - w = d by omega]
      have := hper d (by omega)
      rw [show w - 1 + (d + 1) = d + w by omega, this]; simp
  have := key (i - (w - 1)) (by omega)
  rw [show w - 1 + (i - (w - 1)) = i by omega] at this
  rw [← this]; rfl

example : movingAverage (⟨1, false, [1, 5, 3, 1, 5, 3, 1].map fin⟩ : Arr (Fl ℚ)) 3 =
    .ok [fin 1, fin 3, fin 3, fin 3, fin 3, fin 3, fin 3] := by decide +kernel

end exact

/-- sum of equally spaced cosines -/
theorem sum_cos_arith (w ph : ℝ) (m : Nat) :
    Real.sin (w / 2) * ∑ j ∈ Finset.range m, Real.cos (w * j + ph) =
      Real.sin (m * w / 2) * Real.cos (w * ((m : ℝ) - 1) / 2 + ph) := by
  induction m with
  | zero => simp
  | succ m ih =>
    rw [Finset.sum_range_succ, mul_add, ih]
    have e : ∀ x y : ℝ, Real.sin x * Real.cos y = (Real.sin (x + y) + Real.sin (x - y)) / 2 := by
      intro x y; rw [Real.sin_add, Real.sin_sub]; ring
    rw [e, e, e]
    push_cast
    have a1 : ((m : ℝ) * w / 2 + (w * (m - 1) / 2 + ph)) = m * w - w / 2 + ph := by ring
    have a2 : ((m : ℝ) * w / 2 - (w * (m - 1) / 2 + ph)) = w / 2 - ph := by ring
    have a3 : (w / 2 + (w * m + ph)) = m * w + w / 2 + ph := by ring
    have a4 : (w / 2 - (w * m + ph)) = -(m * w - w / 2 + ph) := by ring
    have a5 : (((m : ℝ) + 1) * w / 2 + (w * (m + 1 - 1) / 2 + ph)) = m * w + w / 2 + ph := by ring
    have a6 : (((m : ℝ) + 1) * w / 2 - (w * (m + 1 - 1) / 2 + ph)) = w / 2 - ph := by ring
    rw [a1, a2, a3, a4, a5, a6, Real.sin_neg]; ring

/-- **C211** on a sinusoid the moving average of window `m` is, from the first full window on, a sinusoid of the same
frequency, delayed by `(m - 1)/2` samples, of amplitude multiplied by `sin (m w/2) / (m sin (w/2))`. -/
theorem C211_sinusoid (b : Bool) (A w ph : ℝ) (hw : Real.sin (w / 2) ≠ 0) (n m : Nat) (hm : 1 ≤ m) (hmn : m ≤ n) :
    ∃ out : List (Fl ℝ), movingAverage ⟨1, b, (sinusoid A w ph n).map fin⟩ (m : Int) = .ok out ∧ out.length = n ∧
      ∀ i, m ≤ i + 1 → i < n → out[i]? = some (fin (Real.sin (m * w / 2) / (m * Real.sin (w / 2)) *
        (A * Real.cos (w * ((i : ℝ) - ((m : ℝ) - 1) / 2) + ph)))) := by
  have hlen : (sinusoid A w ph n).length = n := by simp [sinusoid]
  refine ⟨_, C12_moving_average b _ m hm (by rw [hlen]; exact hmn), by simp [sinusoid], fun i h1 h2 => ?_⟩
  rw [List.getElem?_map, List.getElem?_range (by rw [hlen]; exact h2)]
  have hm0 : (m : ℝ) ≠ 0 := by
    have : m ≠ 0 := by omega
    exact_mod_cast this
  have key : trailingMean (sinusoid A w ph n) m i = Real.sin (m * w / 2) / (m * Real.sin (w / 2)) *
        (A * Real.cos (w * ((i : ℝ) - ((m : ℝ) - 1) / 2) + ph)) := by
    rw [trailingMean_sum _ m i (by rw [hlen]; exact h2), Nat.min_eq_right h1]
    rw [Finset.sum_congr rfl (g := fun j : Nat => A * Real.cos (w * j + (w * ((i : ℝ) + 1 - m) + ph)))]
    · rw [← Finset.mul_sum]
      have := sum_cos_arith w (w * ((i : ℝ) + 1 - m) + ph) m
      rw [show w * ((m : ℝ) - 1) / 2 + (w * ((i : ℝ) + 1 - m) + ph) = w * ((i : ℝ) - ((m : ℝ) - 1) / 2) + ph by ring] at this
      generalize Real.cos (w * ((i : ℝ) - ((m : ℝ) - 1) / 2) + ph) = C at this ⊢
      generalize (∑ j ∈ Finset.range m, Real.cos (w * (j : ℝ) + (w * ((i : ℝ) + 1 - m) + ph))) = T at this ⊢
      generalize Real.sin ((m : ℝ) * w / 2) = s at this ⊢
      generalize Real.sin (w / 2) = q at this hw ⊢
      field_simp
      linear_combination A * this
    · intro j hj
      have hj := Finset.mem_range.mp hj
      rw [sinusoid_getD _ _ _ _ _ (by omega)]
      have : ((i + 1 - m + j : Nat) : ℝ) = (i : ℝ) + 1 - m + j := by
        rw [Nat.cast_add, Nat.cast_sub h1]; push_cast; ring
      rw [this]; congr 2; ring
  simp only [Option.map_some, Option.some.injEq, fin.injEq]
  exact key

/-- a window of four on the period four: removed; the hypotheses hold for every frequency that is not a multiple of `2π` -/
example : Real.sin (Real.pi / 2 / 2) ≠ 0 ∧ Real.sin ((4 : Nat) * (Real.pi / 2) / 2) = 0 := by
  constructor
  · rw [show Real.pi / 2 / 2 = Real.pi / 4 by ring, Real.sin_pi_div_four]; positivity
  · rw [show ((4 : Nat) : ℝ) * (Real.pi / 2) / 2 = Real.pi by push_cast; ring, Real.sin_pi]

/-! ## Exponential moving average -/

theorem emaGain_den_pos {alpha : ℝ} (h0 : 0 < alpha) (h1 : alpha ≤ 1) (w : ℝ) :
    0 < alpha ^ 2 + 2 * (1 - alpha) * (1 - Real.cos w) := by
  have h2 := Real.cos_le_one w
  have h3 : 0 ≤ 2 * (1 - alpha) * (1 - Real.cos w) := by
    apply mul_nonneg <;> linarith
  have : 0 < alpha ^ 2 := by positivity
  linarith

/-- **C212** on a sinusoid the exponential moving average is a sinusoid of the same frequency, of amplitude multiplied by
`emaGain` and shifted by a phase that depends on the frequency only, plus a transient `(1 - alpha)^i` times its value at the
start. -/
theorem C212_sinusoid (alpha w : ℝ) (h0 : 0 < alpha) (h1 : alpha ≤ 1) : ∃ th : ℝ, ∀ (A ph : ℝ) (n : Nat), 1 ≤ n →
    ∃ out : List (Fl ℝ), exponentialMovingAverage ⟨1, false, (sinusoid A w ph n).map fin⟩ (fin alpha) = .ok out ∧
      out.length = n ∧ ∀ i < n, out[i]? = some (fin (emaGain alpha w * A * Real.cos (w * i + ph - th) +
        (1 - alpha) ^ i * (A * Real.cos ph - emaGain alpha w * A * Real.cos (ph - th)))) := by
  set D := alpha ^ 2 + 2 * (1 - alpha) * (1 - Real.cos w) with hD
  have hDpos : 0 < D := emaGain_den_pos h0 h1 w
  set be := 1 - alpha with hbe
  have hcs := Real.sin_sq_add_cos_sq w
  have hD' : D = (1 - be * Real.cos w) ^ 2 + (be * Real.sin w) ^ 2 := by
    rw [hD, hbe]; linear_combination (-(1 - alpha) ^ 2) * hcs
  -- the phase
  let z : ℂ := ⟨1 - be * Real.cos w, be * Real.sin w⟩
  have hz : ‖z‖ = √D := by
    rw [Complex.norm_def, Complex.normSq_mk, hD']; congr 1; ring
  have hsD : 0 < √D := Real.sqrt_pos.mpr hDpos
  have hsq : √D * √D = D := Real.mul_self_sqrt hDpos.le
  have hc : √D * Real.cos z.arg = 1 - be * Real.cos w := by rw [← hz, Complex.norm_mul_cos_arg]
  have hs : √D * Real.sin z.arg = be * Real.sin w := by rw [← hz, Complex.norm_mul_sin_arg]
  refine ⟨z.arg, fun A ph n hn => ?_⟩
  have hlen : (sinusoid A w ph n).length = n := by simp [sinusoid]
  have hne : sinusoid A w ph n ≠ [] := by
    intro h; rw [h] at hlen; simp at hlen; omega
  obtain ⟨ys, hy, hyl, hcl, -⟩ := C15_ema (sinusoid A w ph n) hne alpha h0 h1
  rw [hlen] at hyl
  refine ⟨_, hy, by rw [List.length_map, hyl], fun i hi => ?_⟩
  rw [List.getElem?_map, List.getElem?_eq_getElem (by rw [hyl]; exact hi)]
  simp only [Option.map_some, Option.some.injEq, fin.injEq]
  rw [hcl i (by rw [hyl]; exact hi)]
  set g := emaGain alpha w with hg
  have hgv : g = alpha / √D := rfl
  -- the stationary part satisfies the recursion
  have stat : ∀ k : Nat, g * A * Real.cos (w * (k + 1 : Nat) + ph - z.arg) =
      alpha * (A * Real.cos (w * (k + 1 : Nat) + ph)) + be * (g * A * Real.cos (w * k + ph - z.arg)) := by
    intro k
    set u := w * (k + 1 : Nat) + ph with hu
    have hk : w * (k : ℝ) + ph - z.arg = u - z.arg - w := by rw [hu]; push_cast; ring
    rw [hk, Real.cos_sub (u - z.arg) w, Real.sin_sub, Real.cos_sub]
    have gd : g * √D = alpha := by rw [hgv, div_mul_cancel₀ _ hsD.ne']
    have gc' : g * Real.cos z.arg * D = alpha * (1 - be * Real.cos w) := by
      linear_combination (√D * Real.cos z.arg) * gd + alpha * hc - g * Real.cos z.arg * hsq
    have gs' : g * Real.sin z.arg * D = alpha * (be * Real.sin w) := by
      linear_combination (√D * Real.sin z.arg) * gd + alpha * hs - g * Real.sin z.arg * hsq
    apply mul_right_cancel₀ hDpos.ne'
    set C := Real.cos u
    set Sn := Real.sin u
    set cz := Real.cos z.arg
    set sz := Real.sin z.arg
    set cw := Real.cos w
    set sw := Real.sin w
    rw [hD'] at gc' gs' ⊢
    linear_combination (A * C - be * A * (C * cw + Sn * sw)) * gc' + (A * Sn - be * A * (Sn * cw - C * sw)) * gs'
  have main : ∀ k < n, emaClosed alpha (fun j => (sinusoid A w ph n).getD j 0) k =
      g * A * Real.cos (w * k + ph - z.arg) + be ^ k * (A * Real.cos ph - g * A * Real.cos (ph - z.arg)) := by
    intro k
    induction k with
    | zero =>
      intro _
      have : (sinusoid A w ph n).getD 0 0 = A * Real.cos ph := by
        rw [sinusoid_getD _ _ _ _ _ (by omega)]; simp
      simp only [emaClosed, this]
      simp
    | succ k ih =>
      intro hk
      rw [emaClosed_succ, ih (by omega), stat k]
      rw [sinusoid_getD _ _ _ _ _ hk, pow_succ]; ring
  exact main i hi

/-- **C212** the amplitude factor is 1 at frequency 0, decreases strictly up to the Nyquist frequency and is
`alpha / (2 - alpha)` there. -/
theorem C212_gain (alpha : ℝ) (h0 : 0 < alpha) (h1 : alpha < 1) :
    emaGain alpha 0 = 1 ∧ emaGain alpha Real.pi = alpha / (2 - alpha) ∧
      StrictAntiOn (emaGain alpha) (Set.Icc 0 Real.pi) := by
  refine ⟨?_, ?_, ?_⟩
  · unfold emaGain
    rw [Real.cos_zero, sub_self, mul_zero, add_zero, Real.sqrt_sq h0.le, div_self h0.ne']
  · unfold emaGain
    rw [Real.cos_pi, show alpha ^ 2 + 2 * (1 - alpha) * (1 - -1) = (2 - alpha) ^ 2 by ring, Real.sqrt_sq (by linarith)]
  · intro a ha b hb hab
    have hc := Real.strictAntiOn_cos ha hb hab
    unfold emaGain
    have hd := emaGain_den_pos h0 h1.le a
    apply div_lt_div_of_pos_left h0 (Real.sqrt_pos.mpr hd)
    apply Real.sqrt_lt_sqrt hd.le
    nlinarith

/-- the bound of the oscillation around the transient: no sinusoid is amplified -/
theorem C212_no_gain (alpha w : ℝ) (h0 : 0 < alpha) (h1 : alpha ≤ 1) : 0 < emaGain alpha w ∧ emaGain alpha w ≤ 1 := by
  have hd := emaGain_den_pos h0 h1 w
  unfold emaGain
  refine ⟨div_pos h0 (Real.sqrt_pos.mpr hd), ?_⟩
  rw [div_le_one (Real.sqrt_pos.mpr hd)]
  apply Real.le_sqrt_of_sq_le
  have := Real.cos_le_one w
  nlinarith

example : emaGain (1 / 2) Real.pi = 1 / 3 := by
  rw [(C212_gain (1 / 2) (by norm_num) (by norm_num)).2.1]; norm_num

end Proadv.Props
