import Verif.Props.MovingAverage
import Verif.Props.Descriptive

/-!
# C190: the moving averages are weighted least-squares levels
-/

set_option linter.unusedSectionVars false

namespace Proadv.Props

open Proadv Fl Series

variable {K : Type} [Field K] [LinearOrder K] [FloorRing K] [IsStrictOrderedRing K]

/-- `c` is the only number with the least weighted sum of squared distances from `x j`, `j ∈ s` -/
def IsLevel (s : Finset ℕ) (w x : ℕ → K) (c : K) : Prop :=
  ∀ d, d ≠ c → ∑ j ∈ s, w j * (x j - c) ^ 2 < ∑ j ∈ s, w j * (x j - d) ^ 2

/-- the weighted mean is the level -/
theorem isLevel_of (s : Finset ℕ) (w x : ℕ → K) (c : K) (hw : 0 < ∑ j ∈ s, w j) (hc : c * ∑ j ∈ s, w j = ∑ j ∈ s, w j * x j) :
    IsLevel s w x c := by
  intro d hd
  have e : ∑ j ∈ s, w j * (x j - d) ^ 2 =
      ∑ j ∈ s, w j * (x j - c) ^ 2 + 2 * (c - d) * (∑ j ∈ s, w j * x j - c * ∑ j ∈ s, w j) + (c - d) ^ 2 * ∑ j ∈ s, w j := by
    rw [Finset.mul_sum, ← Finset.sum_sub_distrib, Finset.mul_sum, Finset.mul_sum, ← Finset.sum_add_distrib, ← Finset.sum_add_distrib]
    apply Finset.sum_congr rfl
    intro j _
    ring
  rw [e, ← hc, sub_self, mul_zero, add_zero]
  have : 0 < (c - d) ^ 2 := by
    have : c - d ≠ 0 := sub_ne_zero.mpr (Ne.symm hd)
    positivity
  have := mul_pos this hw
  linarith

/-- a window of a list as a sum over indices -/
private theorem window_sum (xs : List K) (a b : ℕ) (hab : a ≤ b) (hb : b ≤ xs.length) :
    ((xs.take b).drop a).sum = ∑ j ∈ Finset.Ico a b, xs.getD j 0 := by
  induction b, hab using Nat.le_induction with
  | base => simp
  | succ b hab ih =>
    rw [Finset.sum_Ico_succ_top hab, ← ih (by omega), List.take_add_one, List.drop_append_of_le_length (by simp; omega),
      List.sum_append]
    congr 1
    have h : b < xs.length := by omega
    simp [List.getD, h]

/-- **C190** each output of `moving_average` is the constant closest, in the sum of squares, to the samples of its trailing window. -/
theorem C190_moving_average (b : Bool) (xs : List K) (w : Nat) (hw : 1 ≤ w) (hwn : w ≤ xs.length) :
    ∃ ys : List K, movingAverage ⟨1, b, xs.map fin⟩ (w : Int) = .ok (ys.map fin) ∧ ys.length = xs.length ∧
      ∀ i (hi : i < ys.length), IsLevel (Finset.Ico (i + 1 - w) (i + 1)) (fun _ => 1) (fun j => xs.getD j 0) ys[i] := by
  refine ⟨(List.range xs.length).map (trailingMean xs w), ?_, by simp, fun i hi => ?_⟩
  · rw [C12_moving_average b xs w hw hwn]; simp [Function.comp_def]
  · have hi' : i < xs.length := by simpa using hi
    have hcard : i + 1 - (i + 1 - w) = Min.min (i + 1) w := by omega
    have hpos : (0 : K) < (Min.min (i + 1) w : ℕ) := by
      have : 0 < Min.min (i + 1) w := by omega
      exact_mod_cast this
    apply isLevel_of
    · simp only [Finset.sum_const, Nat.card_Ico, hcard, nsmul_eq_mul, mul_one]
      exact hpos
    · simp only [Finset.sum_const, Nat.card_Ico, hcard, nsmul_eq_mul, mul_one, one_mul]
      rw [← window_sum xs _ _ (by omega) (by omega)]
      simp only [List.getElem_map, List.getElem_range, trailingMean]
      rw [div_mul_cancel₀ _ hpos.ne']

/-- the weight of sample `j` in the exponential average at `i` -/
def emaWeight (alpha : K) (i j : ℕ) : K := if j = 0 then (1 - alpha) ^ i else alpha * (1 - alpha) ^ (i - j)

private theorem ema_weighted (alpha : K) (x : ℕ → K) (i : ℕ) :
    emaClosed alpha x i = ∑ j ∈ Finset.range (i + 1), emaWeight alpha i j * x j := by
  rw [Finset.range_eq_Ico, Finset.sum_eq_sum_Ico_succ_bot (by omega)]
  simp only [emaClosed, emaWeight, if_true]
  congr 1
  apply Finset.sum_congr rfl
  intro j hj
  rw [if_neg (by simp at hj; omega)]

private theorem ema_const (alpha c : K) (i : ℕ) : emaClosed alpha (fun _ => c) i = c := by
  induction i with
  | zero => simp [emaClosed]
  | succ i ih => rw [emaClosed_succ, ih]; ring

/-- **C190** each output of `exponential_moving_average` minimises the sum of squared distances from the samples so far, discounted by
`1 - alpha` for each step back. -/
theorem C190_ema (xs : List K) (hne : xs ≠ []) (alpha : K) (h0 : 0 < alpha) (h1 : alpha ≤ 1) :
    ∃ ys : List K, exponentialMovingAverage ⟨1, false, xs.map fin⟩ (fin alpha) = .ok (ys.map fin) ∧ ys.length = xs.length ∧
      ∀ i (hi : i < ys.length), IsLevel (Finset.range (i + 1)) (emaWeight alpha i) (fun j => xs.getD j 0) ys[i] := by
  obtain ⟨ys, hy, hl, hv, -⟩ := C15_ema xs hne alpha h0 h1
  refine ⟨ys, hy, hl, fun i hi => ?_⟩
  have hs : ∑ j ∈ Finset.range (i + 1), emaWeight alpha i j = 1 := by
    have := ema_const alpha 1 i
    rw [ema_weighted] at this
    simpa using this
  apply isLevel_of
  · rw [hs]; exact one_pos
  · rw [hs, mul_one, hv i hi, ema_weighted]

private theorem sum_linear (p : ℕ) : ∑ j ∈ Finset.range p, ((j : K) + 1) = ((p * (p + 1) : ℕ) / 2) := by
  induction p with
  | zero => simp
  | succ p ih => rw [Finset.sum_range_succ, ih]; push_cast; field_simp; ring

private theorem list_range_sum (f : ℕ → K) (p : ℕ) : ((List.range p).map f).sum = ∑ j ∈ Finset.range p, f j := by
  rw [Finset.sum_range]
  induction p with
  | zero => simp
  | succ p ih => rw [List.range_succ, List.map_append, List.sum_append, ih, Fin.sum_univ_castSucc]; simp

/-- **C190** each output of `weighted_moving_average` minimises the linearly weighted sum of squared distances from the `period` samples
*before* its time stamp. -/
theorem C190_wma (xs : List K) (p : Nat) (hp : 1 ≤ p) (hpn : p ≤ xs.length) :
    ∃ out, ∃ ys : List K, weightedMovingAverage (xs.map fin : List (Fl K)) (p : Int) = .ok out ∧ out.data = ys.map fin ∧
      ys.length = xs.length - p ∧
      ∀ k (hk : k < ys.length), IsLevel (Finset.range p) (fun j => (j : K) + 1) (fun j => xs.getD (k + j) 0) ys[k] := by
  refine ⟨_, (List.range (xs.length - p)).map (fun k : ℕ =>
        ((List.range p).map (fun j : ℕ => ((j : K) + 1) * xs.getD (k + j) 0)).sum / ((p * (p + 1) : ℕ) / 2)),
    C17_wma xs p hp hpn, by simp [Function.comp_def], by simp, fun k hk => ?_⟩
  have hpos : (0 : K) < ((p * (p + 1) : ℕ) / 2) := by
    have : 0 < p * (p + 1) := by positivity
    have : (0 : K) < (p * (p + 1) : ℕ) := by exact_mod_cast this
    positivity
  apply isLevel_of
  · rw [sum_linear]; exact hpos
  · rw [sum_linear]
    simp only [List.getElem_map, List.getElem_range]
    rw [div_mul_cancel₀ _ hpos.ne', list_range_sum]

example : exponentialMovingAverage (⟨1, false, [fin 1, fin 3, fin (2 : ℚ)]⟩ : Arr (Fl ℚ)) (fin (1 / 2)) =
    .ok [fin 1, fin 2, fin 2] := by decide +kernel

example : weightedMovingAverage [fin 1, fin 4, fin (2 : ℚ)] 2 = .ok ⟨false, [fin 3]⟩ := by decide +kernel

end Proadv.Props
