import Verif.Props.PolyRestore
import Mathlib.Algebra.BigOperators.Field
import Mathlib.Tactic.LinearCombination
import Mathlib.Algebra.Order.BigOperators.Ring.Finset

/-!
# C187, C188: the values written by `polynomial_replacement`
-/

set_option linter.unusedSectionVars false

namespace Proadv.Props

open Proadv Replace Fl Polynomial Finset

noncomputable section

theorem residual_sum (q : ℝ[X]) (y : List ℝ) (lo : Int) :
    residual q y lo = ∑ k ∈ range y.length, (q.eval ((lo : ℝ) + k) - y.getD k 0) ^ 2 := by
  unfold residual
  rw [Finset.sum_range, ← List.sum_ofFn]
  congr 1
  apply List.ext_getElem
  · simp
  · intro k h1 h2
    simp only [List.length_mapIdx] at h1
    simp

/-- the normal equations: the residuals of a least-squares fit are orthogonal to all polynomials of the degree -/
theorem normal_eq {d : Nat} {q : ℝ[X]} {y : List ℝ} {lo : Int} (hq : q.natDegree ≤ d)
    (hmin : ∀ p : ℝ[X], p.natDegree ≤ d → residual q y lo ≤ residual p y lo) (p : ℝ[X]) (hp : p.natDegree ≤ d) :
    ∑ k ∈ range y.length, (q.eval ((lo : ℝ) + k) - y.getD k 0) * p.eval ((lo : ℝ) + k) = 0 := by
  set A := ∑ k ∈ range y.length, (q.eval ((lo : ℝ) + k) - y.getD k 0) * p.eval ((lo : ℝ) + k) with hA
  set B := ∑ k ∈ range y.length, (p.eval ((lo : ℝ) + k)) ^ 2 with hB
  have hB0 : 0 ≤ B := Finset.sum_nonneg (fun k _ => sq_nonneg _)
  have key : ∀ t : ℝ, 0 ≤ 2 * t * A + t ^ 2 * B := by
    intro t
    have h := hmin (q + C t * p) (by
      refine (natDegree_add_le _ _).trans (max_le hq ?_)
      exact (natDegree_C_mul_le t p).trans hp)
    rw [residual_sum, residual_sum] at h
    have e : ∑ k ∈ range y.length, ((q + C t * p).eval ((lo : ℝ) + k) - y.getD k 0) ^ 2 =
        (∑ k ∈ range y.length, (q.eval ((lo : ℝ) + k) - y.getD k 0) ^ 2) + 2 * t * A + t ^ 2 * B := by
      rw [hA, hB, Finset.mul_sum, Finset.mul_sum, ← Finset.sum_add_distrib, ← Finset.sum_add_distrib]
      refine Finset.sum_congr rfl (fun k _ => ?_)
      simp only [eval_add, eval_mul, eval_C]
      ring
    rw [e] at h
    linarith
  have h1 := key (-A / (B + 1))
  have e1 : 2 * (-A / (B + 1)) * A + (-A / (B + 1)) ^ 2 * B = -(A ^ 2 * (B + 2) / (B + 1) ^ 2) := by
    have : B + 1 ≠ 0 := by linarith
    field_simp
    ring
  rw [e1] at h1
  have h2 : 0 ≤ A ^ 2 * (B + 2) / (B + 1) ^ 2 := by positivity
  have h3 : A ^ 2 * (B + 2) / (B + 1) ^ 2 = 0 := le_antisymm (by linarith) h2
  have h4 : A ^ 2 * (B + 2) = 0 := by
    rcases div_eq_zero_iff.mp h3 with h | h
    · exact h
    · exact absurd h (by positivity)
  rcases mul_eq_zero.mp h4 with h | h
  · exact pow_eq_zero_iff (two_ne_zero) |>.mp h
  · linarith

/-- two least-squares fits to more than `d` samples are equal -/
theorem fit_unique {d : Nat} {q q' : ℝ[X]} {y : List ℝ} {lo : Int} (hd : d < y.length) (hq : q.natDegree ≤ d) (hq' : q'.natDegree ≤ d)
    (hmin : ∀ p : ℝ[X], p.natDegree ≤ d → residual q y lo ≤ residual p y lo)
    (hmin' : ∀ p : ℝ[X], p.natDegree ≤ d → residual q' y lo ≤ residual p y lo) : q = q' := by
  have hdd : (q - q').natDegree ≤ d := (natDegree_sub_le q q').trans (max_le hq hq')
  have h1 := normal_eq hq hmin (q - q') hdd
  have h2 := normal_eq hq' hmin' (q - q') hdd
  have h3 : ∑ k ∈ range y.length, ((q - q').eval ((lo : ℝ) + k)) ^ 2 = 0 := by
    rw [← sub_eq_zero.mpr (h1.trans h2.symm), ← Finset.sum_sub_distrib]
    refine Finset.sum_congr rfl (fun k _ => ?_)
    simp only [eval_sub]
    ring
  have h4 : ∀ k ∈ range y.length, ((q - q').eval ((lo : ℝ) + k)) = 0 := fun k hk => by
    have := (Finset.sum_eq_zero_iff_of_nonneg (fun k _ => sq_nonneg _)).mp h3 k hk
    simpa using this
  have : q - q' = 0 := by
    apply eq_zero_of_natDegree_lt_card_of_eval_eq_zero' (q - q') ((Finset.range y.length).image (fun k : ℕ => (lo : ℝ) + k))
    · intro x hx
      obtain ⟨k, hk, rfl⟩ := Finset.mem_image.mp hx
      exact h4 k hk
    · rw [Finset.card_image_of_injective _ (fun a b h => by simpa using h), Finset.card_range]
      omega
  exact sub_eq_zero.mp this

/-- **C187** The regression is determined: two least-squares models of the same degree predict the same value from more samples than
the degree. -/
theorem C187_unique (degree : Nat) (f g : List (Fl ℝ) → Int → Int → Py (Fl ℝ)) (hf : LeastSquares degree f) (hg : LeastSquares degree g)
    (y : List ℝ) (lo i : Int) (hi : i = lo + y.length) (hd : degree < y.length) : f (fins y) lo i = g (fins y) lo i := by
  have hne : y ≠ [] := by rintro rfl; simp at hd
  obtain ⟨q, a1, a2, a3⟩ := hf y lo i hne hi
  obtain ⟨q', b1, b2, b3⟩ := hg y lo i hne hi
  rw [a3, b3, fit_unique hd a1 b1 a2 b2]

/-- the normal equations are sufficient -/
theorem normal_min {d : Nat} {q : ℝ[X]} {y : List ℝ} {lo : Int} (hq : q.natDegree ≤ d)
    (hn : ∀ p : ℝ[X], p.natDegree ≤ d → ∑ k ∈ range y.length, (q.eval ((lo : ℝ) + k) - y.getD k 0) * p.eval ((lo : ℝ) + k) = 0) :
    ∀ p : ℝ[X], p.natDegree ≤ d → residual q y lo ≤ residual p y lo := by
  intro p hp
  have h := hn (p - q) ((natDegree_sub_le p q).trans (max_le hp hq))
  have e : residual p y lo = residual q y lo + 2 * (∑ k ∈ range y.length, (q.eval ((lo : ℝ) + k) - y.getD k 0) * (p - q).eval ((lo : ℝ) + k)) +
      ∑ k ∈ range y.length, ((p - q).eval ((lo : ℝ) + k)) ^ 2 := by
    rw [residual_sum, residual_sum, Finset.mul_sum, ← Finset.sum_add_distrib, ← Finset.sum_add_distrib]
    refine Finset.sum_congr rfl (fun k _ => ?_)
    simp only [eval_sub]
    ring
  rw [e, h]
  have := Finset.sum_nonneg (s := range y.length) (f := fun k : ℕ => ((p - q).eval ((lo : ℝ) + k)) ^ 2) (fun k _ => sq_nonneg _)
  linarith

/-- **C187** Superposition, for every degree: the prediction from `a y + b z` is `a` times that from `y` plus `b` times that from `z`. -/
theorem C187_superposition (degree : Nat) (predict : List (Fl ℝ) → Int → Int → Py (Fl ℝ)) (hls : LeastSquares degree predict)
    (y z : List ℝ) (hl : z.length = y.length) (hd : degree < y.length) (lo i : Int) (hi : i = lo + y.length) (a b : ℝ) :
    ∃ s t, predict (fins y) lo i = .ok (fin s) ∧ predict (fins z) lo i = .ok (fin t) ∧
      predict (fins (List.zipWith (fun u v => a * u + b * v) y z)) lo i = .ok (fin (a * s + b * t)) := by
  have hlw : (List.zipWith (fun u v => a * u + b * v) y z).length = y.length := by simp [hl]
  obtain ⟨q, a1, a2, a3⟩ := hls y lo i (by rintro rfl; simp at hd) hi
  obtain ⟨r, b1, b2, b3⟩ := hls z lo i (by rintro rfl; simp at hl; simp [← hl] at hd) (by omega)
  obtain ⟨w, c1, c2, c3⟩ := hls (List.zipWith (fun u v => a * u + b * v) y z) lo i (by
    intro h0; rw [h0] at hlw; simp at hlw; omega) (by omega)
  refine ⟨q.eval (i : ℝ), r.eval (i : ℝ), a3, b3, ?_⟩
  have hdeg : (C a * q + C b * r).natDegree ≤ degree := (natDegree_add_le _ _).trans
    (max_le ((natDegree_C_mul_le a q).trans a1) ((natDegree_C_mul_le b r).trans b1))
  have hmin := normal_min (lo := lo) (y := List.zipWith (fun u v => a * u + b * v) y z) hdeg (fun p hp => by
    have e1 := normal_eq a1 a2 p hp
    have e2 := normal_eq b1 b2 p hp
    rw [hl] at e2
    rw [hlw]
    have : ∑ k ∈ range y.length, ((C a * q + C b * r).eval ((lo : ℝ) + k) - (List.zipWith (fun u v => a * u + b * v) y z).getD k 0) *
        p.eval ((lo : ℝ) + k) = a * (∑ k ∈ range y.length, (q.eval ((lo : ℝ) + k) - y.getD k 0) * p.eval ((lo : ℝ) + k)) +
        b * (∑ k ∈ range y.length, (r.eval ((lo : ℝ) + k) - z.getD k 0) * p.eval ((lo : ℝ) + k)) := by
      rw [Finset.mul_sum, Finset.mul_sum, ← Finset.sum_add_distrib]
      refine Finset.sum_congr rfl (fun k hk => ?_)
      have hk := Finset.mem_range.mp hk
      have hkz : k < z.length := by omega
      have e : (List.zipWith (fun u v => a * u + b * v) y z).getD k 0 = a * y.getD k 0 + b * z.getD k 0 := by
        simp [List.getD, hk, hkz]
      rw [e]
      simp only [eval_add, eval_mul, eval_C]
      ring
    rw [this, e1, e2]; ring)
  rw [c3, fit_unique (by omega) c1 hdeg c2 hmin]
  simp

/-- **C187** Translation, for every degree: only the position of the predicted index relative to the window matters. -/
theorem C187_translation (degree : Nat) (predict : List (Fl ℝ) → Int → Int → Py (Fl ℝ)) (hls : LeastSquares degree predict)
    (y : List ℝ) (hd : degree < y.length) (lo i s : Int) (hi : i = lo + y.length) : predict (fins y) (lo + s) (i + s) = predict (fins y) lo i := by
  have hne : y ≠ [] := by rintro rfl; simp at hd
  obtain ⟨q, a1, a2, a3⟩ := hls y lo i hne hi
  obtain ⟨r, b1, b2, b3⟩ := hls y (lo + s) (i + s) hne (by omega)
  have hdeg : (r.comp (X + C (s : ℝ))).natDegree ≤ degree := by
    rw [natDegree_comp, natDegree_X_add_C, mul_one]; exact b1
  have hmin := normal_min (lo := lo) (y := y) hdeg (fun p hp => by
    have e1 := normal_eq b1 b2 (p.comp (X - C (s : ℝ))) (by rw [natDegree_comp, natDegree_X_sub_C, mul_one]; exact hp)
    refine Eq.trans (Finset.sum_congr rfl (fun k _ => ?_)) e1
    simp only [eval_comp, eval_add, eval_sub, eval_X, eval_C]
    push_cast
    rw [show (lo : ℝ) + s + k - s = lo + k by ring, show (lo : ℝ) + k + s = lo + s + k by ring])
  rw [a3, b3, fit_unique hd a1 hdeg a2 hmin]
  simp [eval_comp]

/-- reproduction of all polynomials of degree `≤ d` from reproduction of the powers -/
theorem reproduce {d m : Nat} (W : ℝ[X]) (hrep : ∀ r ≤ d, ∑ k ∈ range m, W.eval (k : ℝ) * (k : ℝ) ^ r = (m : ℝ) ^ r)
    (p : ℝ[X]) (hp : p.natDegree ≤ d) (lo : ℝ) :
    ∑ k ∈ range m, W.eval (k : ℝ) * p.eval (lo + k) = p.eval (lo + m) := by
  have hc : (p.comp (X + C lo)).natDegree < d + 1 := by
    rw [natDegree_comp, natDegree_X_add_C, mul_one]; omega
  have he : ∀ x : ℝ, p.eval (lo + x) = ∑ r ∈ range (d + 1), (p.comp (X + C lo)).coeff r * x ^ r := by
    intro x
    rw [← eval_eq_sum_range' hc x, eval_comp]
    simp [add_comm]
  rw [he]
  simp only [he, Finset.mul_sum]
  rw [Finset.sum_comm]
  refine Finset.sum_congr rfl (fun r hr => ?_)
  rw [← hrep r (by have := Finset.mem_range.mp hr; omega), Finset.mul_sum]
  refine Finset.sum_congr rfl (fun k _ => by ring)

/-- a least-squares prediction as a weighted sum of the samples -/
theorem fit_forecast {d m : Nat} (W : ℝ[X]) (hW : W.natDegree ≤ d)
    (hrep : ∀ r ≤ d, ∑ k ∈ range m, W.eval (k : ℝ) * (k : ℝ) ^ r = (m : ℝ) ^ r)
    {y : List ℝ} (hy : y.length = m) {lo : Int} {q : ℝ[X]} (hq : q.natDegree ≤ d)
    (hmin : ∀ p : ℝ[X], p.natDegree ≤ d → residual q y lo ≤ residual p y lo) :
    q.eval ((lo : ℝ) + m) = ∑ k ∈ range m, W.eval (k : ℝ) * y.getD k 0 := by
  have hn := normal_eq hq hmin (W.comp (X - C (lo : ℝ))) (by rw [natDegree_comp, natDegree_X_sub_C, mul_one]; exact hW)
  rw [hy] at hn
  rw [← reproduce W hrep q hq (lo : ℝ)]
  rw [← sub_eq_zero, ← Finset.sum_sub_distrib]
  refine Eq.trans (Finset.sum_congr rfl (fun k _ => ?_)) hn
  simp only [eval_comp, eval_sub, eval_X, eval_C]
  rw [show (lo : ℝ) + k - lo = k by ring]
  ring

/-! ## Explicit weights -/

/-- weight of the `k`-th of `m` samples in the one-step forecast by a polynomial of degree 0, 1 or 2 -/
def forecastWeight (d m k : ℕ) : ℝ :=
  match d with
  | 0 => 1 / m
  | 1 => 2 * (3 * k - m + 1) / (m * (m - 1))
  | _ => 2 * (3 * k - m + 1) / (m * (m - 1)) +
      (30 * (k : ℝ) ^ 2 - 30 * (m - 1) * k + 5 * (m - 1) * (m - 2)) / (m * (m - 1) * (m - 2))

/-- the same weights as polynomials -/
def weightPoly (d m : ℕ) : ℝ[X] :=
  match d with
  | 0 => C (1 / (m : ℝ))
  | 1 => C (6 / ((m : ℝ) * (m - 1))) * X + C (2 * (1 - (m : ℝ)) / (m * (m - 1)))
  | _ => C (30 / ((m : ℝ) * (m - 1) * (m - 2))) * X ^ 2 + C (6 / ((m : ℝ) * (m - 1)) - 30 * (m - 1) / (m * (m - 1) * (m - 2))) * X +
      C (2 * (1 - (m : ℝ)) / (m * (m - 1)) + 5 * (m - 1) * (m - 2) / (m * (m - 1) * (m - 2)))

theorem weightPoly_eval (d m k : ℕ) : (weightPoly d m).eval (k : ℝ) = forecastWeight d m k := by
  unfold weightPoly forecastWeight
  match d with
  | 0 => simp
  | 1 => simp only [eval_add, eval_mul, eval_C, eval_X]; ring
  | d + 2 => simp only [eval_add, eval_mul, eval_C, eval_X, eval_pow]; ring

theorem weightPoly_degree (d m : ℕ) (hd : d ≤ 2) : (weightPoly d m).natDegree ≤ d := by
  unfold weightPoly
  match d, hd with
  | 0, _ => simp
  | 1, _ => exact natDegree_linear_le
  | 2, _ => exact natDegree_quadratic_le

theorem sum_pow1 (m : ℕ) : ∑ k ∈ range m, (k : ℝ) = m * (m - 1) / 2 := by
  induction m with
  | zero => simp
  | succ m ih => rw [Finset.sum_range_succ, ih]; push_cast; ring

theorem sum_pow2 (m : ℕ) : ∑ k ∈ range m, (k : ℝ) ^ 2 = m * (m - 1) * (2 * m - 1) / 6 := by
  induction m with
  | zero => simp
  | succ m ih => rw [Finset.sum_range_succ, ih]; push_cast; ring

theorem sum_pow3 (m : ℕ) : ∑ k ∈ range m, (k : ℝ) ^ 3 = (m * (m - 1) / 2) ^ 2 := by
  induction m with
  | zero => simp
  | succ m ih => rw [Finset.sum_range_succ, ih]; push_cast; ring

theorem sum_pow4 (m : ℕ) : ∑ k ∈ range m, (k : ℝ) ^ 4 = m * (m - 1) * (2 * m - 1) * (3 * m ^ 2 - 3 * m - 1) / 30 := by
  induction m with
  | zero => simp
  | succ m ih => rw [Finset.sum_range_succ, ih]; push_cast; ring

/-- moments of a quadratic weight -/
theorem quad_moment (m r : ℕ) (a b c : ℝ) :
    ∑ k ∈ range m, (a * (k : ℝ) ^ 2 + b * k + c) * (k : ℝ) ^ r =
      a * ∑ k ∈ range m, (k : ℝ) ^ (r + 2) + b * ∑ k ∈ range m, (k : ℝ) ^ (r + 1) + c * ∑ k ∈ range m, (k : ℝ) ^ r := by
  rw [Finset.mul_sum, Finset.mul_sum, Finset.mul_sum, ← Finset.sum_add_distrib, ← Finset.sum_add_distrib]
  refine Finset.sum_congr rfl (fun k _ => by ring)

theorem weight_reproduce (d m : ℕ) (hd : d ≤ 2) (hm : d < m) :
    ∀ r ≤ d, ∑ k ∈ range m, (weightPoly d m).eval (k : ℝ) * (k : ℝ) ^ r = (m : ℝ) ^ r := by
  intro r hr
  have hm0 : (m : ℝ) ≠ 0 := by
    have : m ≠ 0 := by omega
    exact_mod_cast this
  match d, hd with
  | 0, _ =>
    obtain rfl : r = 0 := by omega
    simp [weightPoly, hm0]
  | 1, _ =>
    have h1 : (m : ℝ) - 1 ≠ 0 := by
      have : (1 : ℝ) < m := by exact_mod_cast hm
      linarith
    have e : ∀ k : ℕ, (weightPoly 1 m).eval (k : ℝ) = 0 * (k : ℝ) ^ 2 + 6 / ((m : ℝ) * (m - 1)) * k + 2 * (1 - (m : ℝ)) / (m * (m - 1)) := by
      intro k; simp [weightPoly]
    simp only [e]
    rw [quad_moment]
    obtain rfl | rfl : r = 0 ∨ r = 1 := by omega
    · simp only [zero_add, pow_zero, pow_one, sum_pow1, Finset.sum_const, card_range, nsmul_eq_mul, mul_one]
      field_simp
      ring
    · simp only [pow_one, sum_pow1, show 1 + 1 = 2 from rfl, sum_pow2]
      field_simp
      ring
  | 2, _ =>
    have hm2 : (2 : ℝ) < m := by exact_mod_cast hm
    have h1 : (m : ℝ) - 1 ≠ 0 := by linarith
    have h2 : (m : ℝ) - 2 ≠ 0 := by linarith
    have e : ∀ k : ℕ, (weightPoly 2 m).eval (k : ℝ) = 30 / ((m : ℝ) * (m - 1) * (m - 2)) * (k : ℝ) ^ 2 +
        (6 / ((m : ℝ) * (m - 1)) - 30 * (m - 1) / (m * (m - 1) * (m - 2))) * k +
        (2 * (1 - (m : ℝ)) / (m * (m - 1)) + 5 * (m - 1) * (m - 2) / (m * (m - 1) * (m - 2))) := by
      intro k; simp [weightPoly]
    simp only [e]
    rw [quad_moment]
    obtain rfl | rfl | rfl : r = 0 ∨ r = 1 ∨ r = 2 := by omega
    · simp only [zero_add, pow_zero, pow_one, sum_pow1, sum_pow2, Finset.sum_const, card_range, nsmul_eq_mul, mul_one]
      field_simp
      ring
    · simp only [pow_one, sum_pow1, show 1 + 1 = 2 from rfl, show 1 + 2 = 3 from rfl, sum_pow2, sum_pow3]
      field_simp
      ring
    · simp only [show 2 + 1 = 3 from rfl, show 2 + 2 = 4 from rfl, sum_pow2, sum_pow3, sum_pow4]
      field_simp
      ring

/-- **C187** The regression of degree 0, 1 or 2 (2 is the default) on the `m` samples before an index predicts a fixed weighted sum of
them; the weights do not depend on the data nor on the position of the window. -/
theorem C187_forecast (d : ℕ) (hd : d ≤ 2) (predict : List (Fl ℝ) → Int → Int → Py (Fl ℝ)) (hls : LeastSquares d predict)
    (y : List ℝ) (hm : d < y.length) (lo : Int) :
    predict (fins y) lo (lo + y.length) = .ok (fin (∑ k ∈ range y.length, forecastWeight d y.length k * y.getD k 0)) := by
  have hne : y ≠ [] := by rintro rfl; simp at hm
  obtain ⟨q, h1, h2, h3⟩ := hls y lo (lo + y.length) hne rfl
  rw [h3]
  have := fit_forecast (weightPoly d y.length) (weightPoly_degree d _ hd) (weight_reproduce d _ hd hm) rfl h1 h2
  simp only [weightPoly_eval] at this
  rw [← this]
  push_cast
  rfl

/-- **C187** The weights sum to 1: adding a constant to the samples adds it to the forecast. -/
theorem C187_weights_sum (d m : ℕ) (hd : d ≤ 2) (hm : d < m) : ∑ k ∈ range m, forecastWeight d m k = 1 := by
  have := weight_reproduce d m hd hm 0 (Nat.zero_le _)
  simpa [weightPoly_eval] using this

/-- sum of the squared weights -/
def noiseGain (d m : ℕ) : ℝ :=
  match d with
  | 0 => 1 / m
  | 1 => 2 * (2 * m + 1) / (m * (m - 1))
  | _ => 3 * (3 * (m : ℝ) ^ 2 + 3 * m + 2) / (m * (m - 1) * (m - 2))

/-- **C188** Sum of the squared weights: 1/m, 2(2m+1)/(m(m-1)), 3(3m²+3m+2)/(m(m-1)(m-2)) for degree 0, 1, 2. -/
theorem C188_gain (d m : ℕ) (hd : d ≤ 2) (hm : d < m) : ∑ k ∈ range m, forecastWeight d m k ^ 2 = noiseGain d m := by
  have hrep := reproduce (weightPoly d m) (weight_reproduce d m hd hm) (weightPoly d m) (weightPoly_degree d m hd) 0
  simp only [zero_add, weightPoly_eval] at hrep
  rw [show (∑ k ∈ range m, forecastWeight d m k ^ 2) = forecastWeight d m m by
    rw [← hrep]; exact Finset.sum_congr rfl (fun k _ => by ring)]
  have hm0 : (m : ℝ) ≠ 0 := by
    have : m ≠ 0 := by omega
    exact_mod_cast this
  match d, hd with
  | 0, _ => rfl
  | 1, _ =>
    show 2 * (3 * (m : ℝ) - m + 1) / (m * (m - 1)) = 2 * (2 * m + 1) / (m * (m - 1))
    congr 1
    ring
  | 2, _ =>
    have hm2 : (2 : ℝ) < m := by exact_mod_cast hm
    have h1 : (m : ℝ) - 1 ≠ 0 := by linarith
    have h2 : (m : ℝ) - 2 ≠ 0 := by linarith
    unfold forecastWeight noiseGain
    field_simp
    ring

/-- **C188** Sensitivity of the forecast: a disturbance `e` of the samples changes it by at most √(gain · Σe²), and the disturbance
proportional to the weights attains the bound. -/
theorem C188_sensitivity (d : ℕ) (hd : d ≤ 2) (m : ℕ) (hm : d < m) (y e : ℕ → ℝ) :
    (∑ k ∈ range m, forecastWeight d m k * (y k + e k) - ∑ k ∈ range m, forecastWeight d m k * y k) ^ 2 ≤
        noiseGain d m * ∑ k ∈ range m, e k ^ 2 ∧
    (∑ k ∈ range m, forecastWeight d m k * (y k + forecastWeight d m k) - ∑ k ∈ range m, forecastWeight d m k * y k) ^ 2 =
        noiseGain d m * ∑ k ∈ range m, forecastWeight d m k ^ 2 := by
  have h : ∀ e : ℕ → ℝ, ∑ k ∈ range m, forecastWeight d m k * (y k + e k) - ∑ k ∈ range m, forecastWeight d m k * y k =
      ∑ k ∈ range m, forecastWeight d m k * e k := by
    intro e
    rw [← Finset.sum_sub_distrib]
    exact Finset.sum_congr rfl (fun k _ => by ring)
  constructor
  · rw [h, ← C188_gain d m hd hm]
    exact Finset.sum_mul_sq_le_sq_mul_sq _ _ _
  · rw [h, ← C188_gain d m hd hm, sq]
    congr 1 <;> exact Finset.sum_congr rfl (fun k _ => by ring)

/-- the window `lo … j-1` of finite data -/
theorem slice_fins (zs : List ℝ) (j lo : Nat) (hj : j ≤ zs.length) (hlo : lo ≤ j) :
    ∃ y : List ℝ, pySlice (fins zs) (lo : Int) (j : Int) = fins y ∧ y.length = j - lo ∧ ∀ k < j - lo, y.getD k 0 = zs.getD (lo + k) 0 := by
  refine ⟨(zs.take j).drop lo, ?_, by simp; omega, fun k hk => ?_⟩
  · unfold pySlice Proadv.slice
    rw [sliceBound_nat, sliceBound_nat]
    simp only [fins, List.length_map]
    rw [Nat.min_eq_left hj, Nat.min_eq_left (hlo.trans hj), List.map_drop, List.map_take]
  · rw [List.getD_eq_getElem?_getD, List.getD_eq_getElem?_getD, List.getElem?_drop, List.getElem?_take_of_lt (by omega)]

/-- number of samples used for index `i` -/
def fitLength (window i : ℕ) : ℕ := if i < window then i else window

/-- **C187** What `polynomial_replacement` returns for degree 0, 1 or 2 and spikes from index 11 on: unlisted samples are kept, and in
order of the indices each listed one becomes the fixed weighted sum of the (already repaired) samples before it; then all are rounded. -/
theorem C187_replacement (d : ℕ) (hd : d ≤ 2) (predict : List (Fl ℝ) → Int → Int → Py (Fl ℝ)) (hls : LeastSquares d predict)
    (xs : List ℝ) (sp : List Nat) (hs : sp.Pairwise (· < ·)) (h1 : sp.length ≠ 1) (h11 : ∀ i ∈ sp, 11 ≤ i) (hin : ∀ i ∈ sp, i < xs.length)
    (window : ℕ) (hw : d < window) (decimals : Int) :
    ∃ zs : List ℝ, polynomialReplacement predict ⟨1, false, fins xs⟩ (sp.map (fun i : Nat => (i : Int))) window decimals =
        .ok (zs.map (fun z => fin (aroundK z decimals))) ∧ zs.length = xs.length ∧ (∀ k, k ∉ sp → zs[k]? = xs[k]?) ∧
      ∀ i ∈ sp, zs[i]? = some (∑ k ∈ range (fitLength window i), forecastWeight d (fitLength window i) k *
        zs.getD (i - fitLength window i + k) 0) := by
  have key : ∀ (allsp : List Int) (rest : List Nat) (zs : List ℝ) (fl : Bool), rest.Pairwise (· < ·) →
      (∀ j ∈ rest, 11 ≤ j ∧ j < zs.length) →
      ∃ zs' : List ℝ, (rest.map (fun i : Nat => (i : Int))).foldlM (polyStep predict allsp window decimals) ⟨⟨1, false, fins zs⟩, fl⟩ =
          .ok ⟨⟨1, false, fins zs'⟩, fl⟩ ∧ zs'.length = zs.length ∧ (∀ k, k ∉ rest → zs'[k]? = zs[k]?) ∧
        ∀ i ∈ rest, zs'[i]? = some (∑ k ∈ range (fitLength window i), forecastWeight d (fitLength window i) k *
          zs'.getD (i - fitLength window i + k) 0) := by
    intro allsp rest
    induction rest with
    | nil => intro zs fl _ _; exact ⟨zs, rfl, rfl, fun _ _ => rfl, fun i hi => by cases hi⟩
    | cons j t ih =>
      intro zs fl hp hb
      obtain ⟨p1, p2⟩ := List.pairwise_cons.mp hp
      obtain ⟨hj11, hjn⟩ := hb j List.mem_cons_self
      set m := fitLength window j with hm
      have hmj : m ≤ j := by rw [hm]; unfold fitLength; split <;> omega
      have hdm : d < m := by rw [hm]; unfold fitLength; split <;> omega
      obtain ⟨y, y1, y2, y3⟩ := slice_fins zs j (j - m) hjn.le (by omega)
      set val := ∑ k ∈ range m, forecastWeight d m k * zs.getD (j - m + k) 0 with hval
      have hpred : predict (pySlice (fins zs) ((j - m : ℕ) : Int) (j : Int)) ((j - m : ℕ) : Int) (j : Int) = .ok (fin val) := by
        have hyl : y.length = m := by omega
        have := C187_forecast d hd predict hls y (by omega) ((j - m : ℕ) : Int)
        rw [show (((j - m : ℕ) : Int) + (y.length : Int)) = (j : Int) by omega, hyl] at this
        rw [y1, this, hval]
        congr 2
        refine Finset.sum_congr rfl (fun k hk => ?_)
        rw [y3 k (by have := Finset.mem_range.mp hk; omega)]
      have hset : setIdx (fins zs) (j : Int) (store false (fin val)) = .ok (fins (zs.set j val)) := by
        refine setIdx_ok.mpr ⟨j, pyIdx_nat (by simpa [fins] using hjn), ?_⟩
        simp [fins, List.map_set, store]
      have hstep : polyStep predict allsp window decimals ⟨⟨1, false, fins zs⟩, fl⟩ (j : Int) = .ok ⟨⟨1, false, fins (zs.set j val)⟩, fl⟩ := by
        unfold polyStep
        rw [if_neg (by omega), if_neg (by omega)]
        by_cases hc : (11 : Int) ≤ j ∧ (j : Int) ≤ window - 1
        · rw [if_pos hc]
          have hmm : j - m = 0 := by rw [hm]; unfold fitLength; rw [if_pos (by omega)]; omega
          rw [hmm, Nat.cast_zero] at hpred
          simp only [bind, Except.bind, hpred, hset]
        · rw [if_neg hc]
          have hlo : ((j : Int) - window) = ((j - m : ℕ) : Int) := by
            rw [hm]; unfold fitLength; rw [if_neg (by omega)]; omega
          rw [hlo]
          simp only [bind, Except.bind, hpred, hset]
      obtain ⟨zs', r1, r2, r3, r4⟩ := ih (zs.set j val) fl p2 (fun k hk => ⟨(hb k (List.mem_cons_of_mem _ hk)).1, by
        simpa using (hb k (List.mem_cons_of_mem _ hk)).2⟩)
      have hnot : ∀ k, k ≤ j → k ∉ t := fun k hk hkt => by have := p1 k hkt; omega
      refine ⟨zs', by rw [List.map_cons]; exact foldlM_cons_ok.mpr ⟨_, hstep, r1⟩, by simpa using r2, fun k hk => ?_, fun i hi => ?_⟩
      · rw [List.mem_cons, not_or] at hk
        rw [r3 k hk.2, List.getElem?_set_ne (fun h => hk.1 h.symm)]
      · rcases List.mem_cons.mp hi with rfl | hi
        · rw [r3 i (hnot i le_rfl), List.getElem?_set_self hjn, hval, ← hm]
          congr 1
          refine Finset.sum_congr rfl (fun k hk => ?_)
          have hk := Finset.mem_range.mp hk
          rw [List.getD_eq_getElem?_getD, List.getD_eq_getElem?_getD, r3 _ (hnot _ (by omega)), List.getElem?_set_ne (by omega)]
        · exact r4 i hi
  obtain ⟨zs, r1, r2, r3, r4⟩ := key (sp.map (fun i : Nat => (i : Int))) sp xs true hs (fun j hj => ⟨h11 j hj, hin j hj⟩)
  refine ⟨zs, ?_, r2, r3, r4⟩
  unfold polynomialReplacement
  rw [if_neg (by simpa using h1), r1]
  simp only [bind, Except.bind, fins, List.map_map]
  rfl

/-- the weights of a straight-line fit to three samples: the forecast is (-2 y₀ + y₁ + 4 y₂)/3 -/
example : (List.range 3).map (forecastWeight 1 3) = [-2 / 3, 1 / 3, 4 / 3] ∧
    (List.range 4).map (forecastWeight 2 4) = [3 / 4, -5 / 4, -3 / 4, 9 / 4] ∧ noiseGain 2 100 = 4 * 30302 * 3 / (4 * 970200) := by
  refine ⟨?_, ?_, ?_⟩
  · simp [List.range_succ, forecastWeight]; norm_num
  · simp [List.range_succ, forecastWeight]; norm_num
  · norm_num [noiseGain]

/-- the replacement applies: 40 samples, two adjacent spikes, default degree -/
example (predict : List (Fl ℝ) → Int → Int → Py (Fl ℝ)) (hls : LeastSquares 2 predict) :
    ∃ zs : List ℝ, polynomialReplacement predict ⟨1, false, fins (List.replicate 40 1)⟩ [20, 21] 10 4 =
      .ok (zs.map (fun z => fin (aroundK z 4))) := by
  obtain ⟨zs, h, -⟩ := C187_replacement 2 le_rfl predict hls (List.replicate 40 1) [20, 21] (by simp) (by simp) (by simp) (by simp) 10
    (by norm_num) 4
  exact ⟨zs, h⟩

end

end Proadv.Props
