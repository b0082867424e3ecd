import Verif.Props.Fluid
import Mathlib.LinearAlgebra.Matrix.Determinant.Basic
import Mathlib.LinearAlgebra.Matrix.Trace
import Mathlib.LinearAlgebra.Matrix.Notation
import Mathlib.Tactic.FinCases

/-!
# C165: the Reynolds stresses transform as a tensor
-/

set_option linter.unusedSectionVars false

namespace Proadv.Props

open Proadv Fl Descriptive Signal

variable {K : Type} [Field K] [LinearOrder K] [FloorRing K] [IsStrictOrderedRing K]

/-- the stress tensor of six stresses -/
def tensor (uu vv ww uv uw vw : K) : Matrix (Fin 3) (Fin 3) K := !![uu, uv, uw; uv, vv, vw; uw, vw, ww]

/-- component `i` of the velocity series seen in the frame with axes `A` -/
def mix (A : Matrix (Fin 3) (Fin 3) K) (u v w : List K) (i : Fin 3) : List K :=
  (List.range u.length).map (fun n => A i 0 * u.getD n 0 + A i 1 * v.getD n 0 + A i 2 * w.getD n 0)

theorem avg_range (n : Nat) (f : Nat → K) : Spec.avg ((List.range n).map f) = (∑ i ∈ Finset.range n, f i) / n := by
  unfold Spec.avg
  rw [List.length_map, List.length_range, Finset.sum_range, ← List.sum_ofFn]
  congr 2
  apply List.ext_getElem
  · simp
  · intro i h1 h2; simp

theorem list_range (u : List K) : u = (List.range u.length).map (fun n => u.getD n 0) := by
  apply List.ext_getElem
  · simp
  · intro i h1 h2; simp [List.getD, h1]

theorem avg_getD (u : List K) : Spec.avg u = (∑ i ∈ Finset.range u.length, u.getD i 0) / u.length := by
  conv_lhs => rw [list_range u]
  exact avg_range _ _

theorem cov_range (n : Nat) (f g : Nat → K) : Spec.cov ((List.range n).map f) ((List.range n).map g) =
    (∑ i ∈ Finset.range n, (f i - (∑ j ∈ Finset.range n, f j) / n) * (g i - (∑ j ∈ Finset.range n, g j) / n)) / n := by
  unfold Spec.cov
  rw [avg_range, avg_range, List.zipWith_map]
  have : List.zipWith (fun a b => (f a - (∑ j ∈ Finset.range n, f j) / n) * (g b - (∑ j ∈ Finset.range n, g j) / n))
      (List.range n) (List.range n) = (List.range n).map (fun a => (f a - (∑ j ∈ Finset.range n, f j) / n) *
        (g a - (∑ j ∈ Finset.range n, g j) / n)) := by
    rw [List.zipWith_self]
  rw [this, avg_range]

/-- covariances of mixed components -/
theorem cov_mix (A : Matrix (Fin 3) (Fin 3) K) (u v w : List K) (huv : u.length = v.length) (huw : u.length = w.length)
    (i j : Fin 3) : Spec.cov (mix A u v w i) (mix A u v w j) =
      (A * tensor (Spec.var u) (Spec.var v) (Spec.var w) (Spec.cov u v) (Spec.cov u w) (Spec.cov v w) * A.transpose) i j := by
  set n := u.length with hn
  have cu : Spec.cov u u = Spec.cov ((List.range n).map (fun i => u.getD i 0)) ((List.range n).map (fun i => u.getD i 0)) := by
    rw [← list_range u]
  have ev : v = (List.range n).map (fun i => v.getD i 0) := by rw [huv]; exact list_range v
  have ew : w = (List.range n).map (fun i => w.getD i 0) := by rw [huw]; exact list_range w
  have eu : u = (List.range n).map (fun i => u.getD i 0) := list_range u
  have e1 : Spec.var u = (∑ i ∈ Finset.range n, (u.getD i 0 - (∑ j ∈ Finset.range n, u.getD j 0) / n) * (u.getD i 0 - (∑ j ∈ Finset.range n, u.getD j 0) / n)) / n := by
    rw [← Spec.cov_self]; conv_lhs => rw [eu]
    exact cov_range _ _ _
  have e2 : Spec.var v = (∑ i ∈ Finset.range n, (v.getD i 0 - (∑ j ∈ Finset.range n, v.getD j 0) / n) * (v.getD i 0 - (∑ j ∈ Finset.range n, v.getD j 0) / n)) / n := by
    rw [← Spec.cov_self]; conv_lhs => rw [ev]
    exact cov_range _ _ _
  have e3 : Spec.var w = (∑ i ∈ Finset.range n, (w.getD i 0 - (∑ j ∈ Finset.range n, w.getD j 0) / n) * (w.getD i 0 - (∑ j ∈ Finset.range n, w.getD j 0) / n)) / n := by
    rw [← Spec.cov_self]; conv_lhs => rw [ew]
    exact cov_range _ _ _
  have e4 : Spec.cov u v = (∑ i ∈ Finset.range n, (u.getD i 0 - (∑ j ∈ Finset.range n, u.getD j 0) / n) * (v.getD i 0 - (∑ j ∈ Finset.range n, v.getD j 0) / n)) / n := by
    conv_lhs => rw [eu, ev]
    exact cov_range _ _ _
  have e5 : Spec.cov u w = (∑ i ∈ Finset.range n, (u.getD i 0 - (∑ j ∈ Finset.range n, u.getD j 0) / n) * (w.getD i 0 - (∑ j ∈ Finset.range n, w.getD j 0) / n)) / n := by
    conv_lhs => rw [eu, ew]
    exact cov_range _ _ _
  have e6 : Spec.cov v w = (∑ i ∈ Finset.range n, (v.getD i 0 - (∑ j ∈ Finset.range n, v.getD j 0) / n) * (w.getD i 0 - (∑ j ∈ Finset.range n, w.getD j 0) / n)) / n := by
    conv_lhs => rw [ev, ew]
    exact cov_range _ _ _
  have e0 : Spec.cov (mix A u v w i) (mix A u v w j) = _ := cov_range n _ _
  rw [e0, e1, e2, e3, e4, e5, e6]
  have hs : ∀ i : Fin 3, (∑ m ∈ Finset.range n, (A i 0 * u.getD m 0 + A i 1 * v.getD m 0 + A i 2 * w.getD m 0)) / (n : K) =
      A i 0 * ((∑ m ∈ Finset.range n, u.getD m 0) / n) + A i 1 * ((∑ m ∈ Finset.range n, v.getD m 0) / n) +
        A i 2 * ((∑ m ∈ Finset.range n, w.getD m 0) / n) := by
    intro i
    simp only [Finset.sum_add_distrib, ← Finset.mul_sum]; ring
  rw [hs, hs]
  generalize (∑ m ∈ Finset.range n, u.getD m 0) / (n : K) = p
  generalize (∑ m ∈ Finset.range n, v.getD m 0) / (n : K) = q
  generalize (∑ m ∈ Finset.range n, w.getD m 0) / (n : K) = r
  have ht : ∀ a b c d e f : K, (A * tensor a b c d e f * A.transpose) i j = A i 0 * A j 0 * a + A i 1 * A j 1 * b + A i 2 * A j 2 * c +
      (A i 0 * A j 1 + A i 1 * A j 0) * d + (A i 0 * A j 2 + A i 2 * A j 0) * e + (A i 1 * A j 2 + A i 2 * A j 1) * f := by
    intro a b c d e f
    simp [Matrix.mul_apply, Fin.sum_univ_three, tensor]
    ring
  rw [ht]
  have hd : ∀ a b c a' b' c' : K, (∑ m ∈ Finset.range n, (a * u.getD m 0 + b * v.getD m 0 + c * w.getD m 0 - (a * p + b * q + c * r)) *
      (a' * u.getD m 0 + b' * v.getD m 0 + c' * w.getD m 0 - (a' * p + b' * q + c' * r))) =
      a * a' * (∑ m ∈ Finset.range n, (u.getD m 0 - p) * (u.getD m 0 - p)) + b * b' * (∑ m ∈ Finset.range n, (v.getD m 0 - q) * (v.getD m 0 - q)) +
      c * c' * (∑ m ∈ Finset.range n, (w.getD m 0 - r) * (w.getD m 0 - r)) +
      (a * b' + b * a') * (∑ m ∈ Finset.range n, (u.getD m 0 - p) * (v.getD m 0 - q)) +
      (a * c' + c * a') * (∑ m ∈ Finset.range n, (u.getD m 0 - p) * (w.getD m 0 - r)) +
      (b * c' + c * b') * (∑ m ∈ Finset.range n, (v.getD m 0 - q) * (w.getD m 0 - r)) := by
    intro a b c a' b' c'
    simp only [Finset.mul_sum, ← Finset.sum_add_distrib]
    apply Finset.sum_congr rfl
    intro m _
    ring
  rw [hd]
  clear hd hs ht e0 e1 e2 e3 e4 e5 e6 ev ew eu cu
  generalize (∑ m ∈ Finset.range n, (u.getD m 0 - p) * (u.getD m 0 - p)) = S0
  generalize (∑ m ∈ Finset.range n, (v.getD m 0 - q) * (v.getD m 0 - q)) = S1
  generalize (∑ m ∈ Finset.range n, (w.getD m 0 - r) * (w.getD m 0 - r)) = S2
  generalize (∑ m ∈ Finset.range n, (u.getD m 0 - p) * (v.getD m 0 - q)) = S3
  generalize (∑ m ∈ Finset.range n, (u.getD m 0 - p) * (w.getD m 0 - r)) = S4
  generalize (∑ m ∈ Finset.range n, (v.getD m 0 - q) * (w.getD m 0 - r)) = S5
  ring

/-- **C165** measured in any other frame (`A` an arbitrary matrix: rotations, reflections, changes of units per axis), the six
stresses are the entries of `A R Aᵀ`, where `R` is the stress tensor in the original frame. -/
theorem C165_tensor (A : Matrix (Fin 3) (Fin 3) K) (u v w : List K) (hu : u ≠ []) (huv : u.length = v.length)
    (huw : u.length = w.length) :
    ∃ uu vv ww uv uw vw uu' vv' ww' uv' uw' vw' : K,
      reynoldsStresses (u.map fin : List (Fl K)) (v.map fin) (w.map fin) =
        .ok ⟨fin uu, fin vv, fin ww, fin uv, fin uw, fin vw⟩ ∧
      reynoldsStresses ((mix A u v w 0).map fin : List (Fl K)) ((mix A u v w 1).map fin) ((mix A u v w 2).map fin) =
        .ok ⟨fin uu', fin vv', fin ww', fin uv', fin uw', fin vw'⟩ ∧
      tensor uu' vv' ww' uv' uw' vw' = A * tensor uu vv ww uv uw vw * A.transpose := by
  have hl : ∀ i, (mix A u v w i).length = u.length := fun i => by simp [mix]
  have hne : ∀ i, mix A u v w i ≠ [] := fun i h => hu (List.length_eq_zero_iff.mp (by rw [← hl i, h]; rfl))
  refine ⟨_, _, _, _, _, _, _, _, _, _, _, _, C25_stresses_value u v w hu huv huw,
    C25_stresses_value _ _ _ (hne 0) (by rw [hl, hl]) (by rw [hl, hl]), ?_⟩
  have hsym : ∀ i j, Spec.cov (mix A u v w i) (mix A u v w j) = Spec.cov (mix A u v w j) (mix A u v w i) := by
    intro i j
    unfold Spec.cov
    rw [List.zipWith_comm]
    congr 2
    funext x y; ring
  ext i j
  rw [← cov_mix A u v w huv huw i j]
  simp only [← Spec.cov_self]
  fin_cases i <;> fin_cases j <;> first | rfl | exact hsym _ _

/-- **C165** turning the probe arbitrarily in space (`Aᵀ A = 1`) changes neither the turbulent kinetic energy nor the invariants of
the stress tensor (trace of its square, determinant). -/
theorem C165_invariants (A : Matrix (Fin 3) (Fin 3) K) (hA : A.transpose * A = 1) (u v w : List K) (hu : u ≠ [])
    (huv : u.length = v.length) (huw : u.length = w.length) :
    kineticTurbulentEnergy ((mix A u v w 0).map fin : List (Fl K)) ((mix A u v w 1).map fin) ((mix A u v w 2).map fin) =
      kineticTurbulentEnergy (u.map fin : List (Fl K)) (v.map fin) (w.map fin) ∧
    ∃ uu vv ww uv uw vw uu' vv' ww' uv' uw' vw' : K,
      reynoldsStresses (u.map fin : List (Fl K)) (v.map fin) (w.map fin) =
        .ok ⟨fin uu, fin vv, fin ww, fin uv, fin uw, fin vw⟩ ∧
      reynoldsStresses ((mix A u v w 0).map fin : List (Fl K)) ((mix A u v w 1).map fin) ((mix A u v w 2).map fin) =
        .ok ⟨fin uu', fin vv', fin ww', fin uv', fin uw', fin vw'⟩ ∧
      uu' ^ 2 + vv' ^ 2 + ww' ^ 2 + 2 * (uv' ^ 2 + uw' ^ 2 + vw' ^ 2) = uu ^ 2 + vv ^ 2 + ww ^ 2 + 2 * (uv ^ 2 + uw ^ 2 + vw ^ 2) ∧
      (tensor uu' vv' ww' uv' uw' vw').det = (tensor uu vv ww uv uw vw).det := by
  have hl : ∀ i, (mix A u v w i).length = u.length := fun i => by simp [mix]
  have hne : ∀ i, mix A u v w i ≠ [] := fun i h => hu (List.length_eq_zero_iff.mp (by rw [← hl i, h]; rfl))
  have hv : v ≠ [] := by intro h; rw [h] at huv; exact hu (List.length_eq_zero_iff.mp huv)
  have hw : w ≠ [] := by intro h; rw [h] at huw; exact hu (List.length_eq_zero_iff.mp huw)
  obtain ⟨uu, vv, ww, uv, uw, vw, uu', vv', ww', uv', uw', vw', h1, h2, h3⟩ := C165_tensor A u v w hu huv huw
  have htr : uu' + vv' + ww' = uu + vv + ww := by
    have t1 : (tensor uu' vv' ww' uv' uw' vw').trace = uu' + vv' + ww' := by simp [Matrix.trace, Fin.sum_univ_three, tensor]
    have t2 : (tensor uu vv ww uv uw vw).trace = uu + vv + ww := by simp [Matrix.trace, Fin.sum_univ_three, tensor]
    rw [← t1, ← t2, h3, Matrix.trace_mul_comm, ← Matrix.mul_assoc, hA, Matrix.one_mul]
  constructor
  · rw [(C24_kinetic_value _ _ _ (hne 0) (hne 1) (hne 2)).1, (C24_kinetic_value u v w hu hv hw).1]
    have q1 := C25_stresses_value u v w hu huv huw
    have q2 := C25_stresses_value _ _ _ (hne 0) ((hl 0).trans (hl 1).symm) ((hl 0).trans (hl 2).symm)
    rw [h1] at q1; rw [h2] at q2
    injection q1 with q1; injection q2 with q2
    injection q1 with a1 a2 a3; injection q2 with b1 b2 b3
    injection a1 with a1; injection a2 with a2; injection a3 with a3
    injection b1 with b1; injection b2 with b2; injection b3 with b3
    rw [← a1, ← a2, ← a3, ← b1, ← b2, ← b3, htr]
  · refine ⟨uu, vv, ww, uv, uw, vw, uu', vv', ww', uv', uw', vw', h1, h2, ?_, ?_⟩
    · have t1 : ∀ a b c d e f : K, (tensor a b c d e f * tensor a b c d e f).trace = a ^ 2 + b ^ 2 + c ^ 2 + 2 * (d ^ 2 + e ^ 2 + f ^ 2) := by
        intro a b c d e f
        simp [Matrix.trace, Fin.sum_univ_three, tensor]
        ring
      rw [← t1, ← t1, h3]
      have : A * tensor uu vv ww uv uw vw * A.transpose * (A * tensor uu vv ww uv uw vw * A.transpose) =
          A * (tensor uu vv ww uv uw vw * tensor uu vv ww uv uw vw) * A.transpose := by
        simp only [Matrix.mul_assoc]
        rw [← Matrix.mul_assoc A.transpose A, hA, Matrix.one_mul]
      rw [this, Matrix.trace_mul_comm, ← Matrix.mul_assoc, hA, Matrix.one_mul]
    · rw [h3, Matrix.det_mul, Matrix.det_mul]
      have : A.transpose.det * A.det = 1 := by rw [← Matrix.det_mul, hA, Matrix.det_one]
      linear_combination (tensor uu vv ww uv uw vw).det * this

/-- **C165** the determinant of the stress tensor is non-negative (realizability). -/
theorem C165_det (u v w : List K) (hu : u ≠ []) (huv : u.length = v.length) (huw : u.length = w.length) :
    ∃ uu vv ww uv uw vw : K,
      reynoldsStresses (u.map fin : List (Fl K)) (v.map fin) (w.map fin) =
        .ok ⟨fin uu, fin vv, fin ww, fin uv, fin uw, fin vw⟩ ∧ 0 ≤ (tensor uu vv ww uv uw vw).det := by
  obtain ⟨uu, vv, ww, uv, uw, vw, h, hpsd, h1, h2, h3⟩ := C25_stresses_psd u v w hu huv huw
  refine ⟨uu, vv, ww, uv, uw, vw, h, ?_⟩
  have hdet : (tensor uu vv ww uv uw vw).det = uu * vv * ww + 2 * uv * uw * vw - uu * vw ^ 2 - vv * uw ^ 2 - ww * uv ^ 2 := by
    rw [Matrix.det_fin_three]; simp [tensor]; ring
  rw [hdet]
  have huu : 0 ≤ uu := by have := hpsd 1 0 0; simpa using this
  have hww : 0 ≤ ww := by have := hpsd 0 0 1; simpa using this
  rcases huu.eq_or_lt with h0 | h0
  · have a1 : uv = 0 := by rw [← h0, zero_mul] at h1; nlinarith [sq_nonneg uv]
    have a2 : uw = 0 := by rw [← h0, zero_mul] at h2; nlinarith [sq_nonneg uw]
    rw [← h0, a1, a2]; simp
  have hm : 0 ≤ uu * vv - uv ^ 2 := by linarith
  rcases hm.eq_or_lt with m0 | m0
  · -- the two-dimensional part is degenerate
    set d := uu * vw - uv * uw with hd
    have hq : ∀ t : K, 0 ≤ 2 * t * d + t ^ 2 * ww := by
      intro t
      have := hpsd (-uv) uu t
      have e : (-uv) ^ 2 * uu + uu ^ 2 * vv + t ^ 2 * ww + 2 * (-uv) * uu * uv + 2 * (-uv) * t * uw + 2 * uu * t * vw =
          uu * (uu * vv - uv ^ 2) + (2 * t * d + t ^ 2 * ww) := by rw [hd]; ring
      rw [e, ← m0, mul_zero, zero_add] at this
      exact this
    have hd0 : d = 0 := by
      by_contra hne
      rcases hww.eq_or_lt with w0 | w0
      · have := hq (-d); rw [← w0] at this
        have : 0 < d ^ 2 := by positivity
        nlinarith
      · have := hq (-d / ww)
        have e : 2 * (-d / ww) * d + (-d / ww) ^ 2 * ww = -(d ^ 2 / ww) := by field_simp; ring
        rw [e] at this
        have : 0 < d ^ 2 / ww := by positivity
        linarith
    have e : uu * (uu * vv * ww + 2 * uv * uw * vw - uu * vw ^ 2 - vv * uw ^ 2 - ww * uv ^ 2) =
        uu * ww * (uu * vv - uv ^ 2) - d ^ 2 - uw ^ 2 * (uu * vv - uv ^ 2) := by rw [hd]; ring
    rw [← m0, hd0] at e
    have : uu * vv * ww + 2 * uv * uw * vw - uu * vw ^ 2 - vv * uw ^ 2 - ww * uv ^ 2 = 0 := by
      have e' : uu * (uu * vv * ww + 2 * uv * uw * vw - uu * vw ^ 2 - vv * uw ^ 2 - ww * uv ^ 2) = 0 := by rw [e]; ring
      exact (mul_eq_zero.mp e').resolve_left h0.ne'
    rw [this]
  · have := hpsd (uv * vw - uw * vv) (uw * uv - uu * vw) (uu * vv - uv ^ 2)
    have e : (uv * vw - uw * vv) ^ 2 * uu + (uw * uv - uu * vw) ^ 2 * vv + (uu * vv - uv ^ 2) ^ 2 * ww +
        2 * (uv * vw - uw * vv) * (uw * uv - uu * vw) * uv + 2 * (uv * vw - uw * vv) * (uu * vv - uv ^ 2) * uw +
        2 * (uw * uv - uu * vw) * (uu * vv - uv ^ 2) * vw =
        (uu * vv - uv ^ 2) * (uu * vv * ww + 2 * uv * uw * vw - uu * vw ^ 2 - vv * uw ^ 2 - ww * uv ^ 2) := by ring
    rw [e] at this
    exact (mul_nonneg_iff_of_pos_left m0).mp this

/-! ## The hypotheses are met -/

example : (!![3 / 5, -4 / 5, 0; 4 / 5, 3 / 5, 0; 0, 0, 1] : Matrix (Fin 3) (Fin 3) ℚ).transpose *
    !![3 / 5, -4 / 5, 0; 4 / 5, 3 / 5, 0; 0, 0, 1] = 1 := by decide +kernel

example : reynoldsStresses ([1, 2, 3].map fin : List (Fl ℚ)) ([0, 0, 3].map fin) ([5, 2, 5].map fin) =
    .ok ⟨fin (2 / 3), fin 2, fin 2, fin 1, fin 0, fin 1⟩ := by decide +kernel

end Proadv.Props
