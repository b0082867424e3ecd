import Verif.Spec.Stats
import Mathlib.Algebra.Order.Ring.Abs

/-! # Covariance of two lists (specification layer) -/

set_option linter.unusedSectionVars false

namespace Proadv.Spec

variable {K : Type} [Field K]

/-- deviations from the mean -/
def dev (xs : List K) : List K := xs.map (fun x => x - avg xs)

/-- population covariance -/
def cov (xs ys : List K) : K :=
  avg (List.zipWith (fun x y => (x - avg xs) * (y - avg ys)) xs ys)

/-- sum of the products of corresponding entries -/
def dot (xs ys : List K) : K := (List.zipWith (fun x y => x * y) xs ys).sum

variable [LinearOrder K] [IsStrictOrderedRing K]

theorem dot_self (xs : List K) : dot xs xs = (xs.map (fun x => x ^ 2)).sum := by
  unfold dot
  induction xs with
  | nil => rfl
  | cons x t ih => simp only [List.zipWith_cons_cons, List.sum_cons, List.map_cons, ih]; ring

theorem dot_self_nonneg (xs : List K) : 0 ≤ dot xs xs := by
  rw [dot_self]
  apply List.sum_nonneg
  intro y hy
  obtain ⟨x, _, rfl⟩ := List.mem_map.mp hy
  positivity

/-- Cauchy–Schwarz -/
theorem dot_sq_le (xs ys : List K) : dot xs ys ^ 2 ≤ dot xs xs * dot ys ys := by
  induction xs generalizing ys with
  | nil => simp [dot]
  | cons x X ih =>
    cases ys with
    | nil => simp [dot]
    | cons y Y =>
      have h := ih Y
      have hA := dot_self_nonneg X
      have hB := dot_self_nonneg Y
      have e1 : dot (x :: X) (y :: Y) = x * y + dot X Y := by simp [dot]
      have e2 : dot (x :: X) (x :: X) = x * x + dot X X := by simp [dot]
      have e3 : dot (y :: Y) (y :: Y) = y * y + dot Y Y := by simp [dot]
      rw [e1, e2, e3]
      set A := dot X X
      set B := dot Y Y
      set P := dot X Y
      have key : 2 * (x * y * P) ≤ x ^ 2 * B + y ^ 2 * A := by
        have hn : 0 ≤ x ^ 2 * B + y ^ 2 * A := by positivity
        apply le_of_sq_le_sq' hn
        nlinarith [sq_nonneg (x ^ 2 * B - y ^ 2 * A), mul_le_mul_of_nonneg_left h (by positivity : 0 ≤ (x * y) ^ 2)]
      nlinarith
where
  le_of_sq_le_sq' {a b : K} (hb : 0 ≤ b) (h : a ^ 2 ≤ b ^ 2) : a ≤ b := (abs_le_of_sq_le_sq' h hb).2

theorem length_dev (xs : List K) : (dev xs).length = xs.length := by simp [dev]

theorem dot_dev (xs ys : List K) (h : xs.length = ys.length) (hne : xs ≠ []) :
    dot (dev xs) (dev ys) = xs.length * cov xs ys := by
  unfold dot dev cov
  rw [List.zipWith_map]
  unfold avg
  rw [List.length_zipWith, ← h, min_self, mul_div_cancel₀]
  exact length_ne hne

theorem cov_self (xs : List K) : cov xs xs = var xs := by
  unfold cov var cmoment
  congr 1
  apply List.ext_getElem
  · simp
  · intro i h1 h2; simp [sq]

theorem dot_dev_self (xs : List K) (hne : xs ≠ []) : dot (dev xs) (dev xs) = xs.length * var xs := by
  rw [dot_dev _ _ rfl hne, cov_self]

theorem cov_sq_le (xs ys : List K) (h : xs.length = ys.length) (hne : xs ≠ []) :
    cov xs ys ^ 2 ≤ var xs * var ys := by
  have hy : ys ≠ [] := by rintro rfl; exact hne (List.length_eq_zero_iff.mp h)
  have := dot_sq_le (dev xs) (dev ys)
  rw [dot_dev _ _ h hne, dot_dev_self _ hne, dot_dev_self _ hy, ← h] at this
  have hp := length_pos' hne
  have h2 : (xs.length : K) ^ 2 * cov xs ys ^ 2 ≤ (xs.length : K) ^ 2 * (var xs * var ys) := by nlinarith
  exact le_of_mul_le_mul_left h2 (by positivity)

theorem avg_dev {xs : List K} (h : xs ≠ []) : avg (dev xs) = 0 := by
  have := avg_affine 1 (-avg xs) h
  simp only [one_mul] at this
  unfold dev
  simp only [sub_eq_add_neg]
  rw [this]; ring

theorem var_dev {xs : List K} (h : xs ≠ []) : var (dev xs) = var xs := by
  have := cmoment_affine 2 1 (-avg xs) h
  simp only [one_mul, one_pow] at this
  unfold dev var
  simp only [sub_eq_add_neg]
  exact this

theorem dev_affine (a b : K) {xs : List K} (h : xs ≠ []) :
    dev (xs.map (fun x => a * x + b)) = (dev xs).map (fun x => a * x) := by
  unfold dev
  rw [avg_affine a b h, List.map_map, List.map_map]
  apply List.map_congr_left
  intro x _
  simp only [Function.comp]; ring

theorem dev_const {xs : List K} (h : var xs = 0) : dev xs = xs.map (fun _ => 0) := by
  unfold dev
  apply List.map_congr_left
  intro x hx
  have hne : xs ≠ [] := by rintro rfl; simp at hx
  have h' := var_eq_zero.mp h
  have h1 : avg xs ≤ x := avg_le hne (fun z hz => (h' z hz x hx).le)
  have h2 : x ≤ avg xs := le_avg hne (fun z hz => (h' x hx z hz).le)
  rw [le_antisymm h2 h1, sub_self]

end Proadv.Spec
