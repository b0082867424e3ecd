import Mathlib.Algebra.Order.Field.Basic
import Mathlib.Algebra.BigOperators.Group.List.Basic
import Mathlib.Algebra.Order.BigOperators.Group.List
import Mathlib.Algebra.BigOperators.Ring.List
import Mathlib.Tactic.Ring
import Mathlib.Tactic.Linarith
import Mathlib.Tactic.FieldSimp
import Mathlib.Tactic.Positivity

/-!
# Textbook statistics on lists of an ordered field

Small specification layer, independent of the model of the code.
-/

set_option linter.unusedSectionVars false

namespace Proadv.Spec

variable {K : Type} [Field K]

/-- arithmetic mean -/
def avg (xs : List K) : K := xs.sum / (xs.length : K)

/-- `k`-th central moment (population) -/
def cmoment (k : Nat) (xs : List K) : K := avg (xs.map (fun x => (x - avg xs) ^ k))

/-- population variance -/
def var (xs : List K) : K := cmoment 2 xs

variable [LinearOrder K] [IsStrictOrderedRing K]

theorem length_ne {xs : List K} (h : xs ≠ []) : (xs.length : K) ≠ 0 := by simpa using h

theorem length_pos' {xs : List K} (h : xs ≠ []) : (0 : K) < (xs.length : K) := by
  have := List.length_pos_iff.mpr h
  exact_mod_cast this

theorem sum_map_affine (a b : K) (xs : List K) :
    (xs.map (fun x => a * x + b)).sum = a * xs.sum + xs.length * b := by
  induction xs with
  | nil => simp
  | cons x t ih => simp [ih]; ring

theorem avg_affine (a b : K) {xs : List K} (h : xs ≠ []) :
    avg (xs.map (fun x => a * x + b)) = a * avg xs + b := by
  have := length_ne h
  unfold avg
  rw [sum_map_affine, List.length_map]; field_simp

theorem avg_mul (a : K) (xs : List K) : avg (xs.map (fun x => a * x)) = a * avg xs := by
  unfold avg
  rw [List.sum_map_mul_left, List.length_map, List.map_id', mul_div_assoc]

theorem avg_add (f g : K → K) (xs : List K) :
    avg (xs.map (fun x => f x + g x)) = avg (xs.map f) + avg (xs.map g) := by
  unfold avg; rw [List.sum_map_add]; simp [add_div]

theorem avg_const (c : K) {xs : List K} (h : xs ≠ []) : avg (xs.map (fun _ => c)) = c := by
  have := length_ne h
  unfold avg; simp; field_simp

theorem avg_le {xs : List K} (h : xs ≠ []) {M : K} (hM : ∀ x ∈ xs, x ≤ M) : avg xs ≤ M := by
  unfold avg
  rw [div_le_iff₀ (length_pos' h)]
  have := List.sum_le_card_nsmul xs M hM
  rw [nsmul_eq_mul] at this; linarith

theorem le_avg {xs : List K} (h : xs ≠ []) {m : K} (hm : ∀ x ∈ xs, m ≤ x) : m ≤ avg xs := by
  unfold avg
  rw [le_div_iff₀ (length_pos' h)]
  have := List.card_nsmul_le_sum xs m hm
  rw [nsmul_eq_mul] at this; linarith

theorem avg_nonneg {xs : List K} (h : ∀ x ∈ xs, 0 ≤ x) : 0 ≤ avg xs := by
  unfold avg
  exact div_nonneg (List.sum_nonneg h) (by positivity)

theorem avg_eq_zero {xs : List K} (h : ∀ x ∈ xs, 0 ≤ x) : avg xs = 0 ↔ ∀ x ∈ xs, x = 0 := by
  rcases eq_or_ne xs [] with rfl | hne
  · simp [avg]
  unfold avg
  rw [div_eq_zero_iff, or_iff_left (length_ne hne)]
  constructor
  · intro h0
    clear hne
    induction xs with
    | nil => simp
    | cons x t ih =>
      have h1 : 0 ≤ x := h x (by simp)
      have h2 : 0 ≤ t.sum := List.sum_nonneg (fun y hy => h y (by simp [hy]))
      rw [List.sum_cons] at h0
      have h3 : x = 0 := by linarith
      have h4 : t.sum = 0 := by linarith
      intro y hy
      rcases List.mem_cons.mp hy with rfl | hy
      · exact h3
      · exact ih (fun z hz => h z (by simp [hz])) h4 y hy
  · intro h0; exact List.sum_eq_zero h0

theorem cmoment_affine (k : Nat) (a b : K) {xs : List K} (h : xs ≠ []) :
    cmoment k (xs.map (fun x => a * x + b)) = a ^ k * cmoment k xs := by
  unfold cmoment
  rw [avg_affine a b h, List.map_map, ← avg_mul (a ^ k), List.map_map]
  congr 1
  apply List.map_congr_left
  intro x _
  simp only [Function.comp]
  rw [← mul_pow]; ring

theorem var_nonneg (xs : List K) : 0 ≤ var xs := by
  unfold var cmoment
  apply avg_nonneg
  intro y hy
  obtain ⟨x, _, rfl⟩ := List.mem_map.mp hy
  positivity

theorem var_eq_zero {xs : List K} : var xs = 0 ↔ ∀ x ∈ xs, ∀ y ∈ xs, x = y := by
  unfold var cmoment
  rw [avg_eq_zero]
  · constructor
    · intro h x hx y hy
      have h1 := h _ (List.mem_map.mpr ⟨x, hx, rfl⟩)
      have h2 := h _ (List.mem_map.mpr ⟨y, hy, rfl⟩)
      have h1 := pow_eq_zero_iff (two_ne_zero) |>.mp h1
      have h2 := pow_eq_zero_iff (two_ne_zero) |>.mp h2
      linarith
    · intro h y hy
      obtain ⟨x, hx, rfl⟩ := List.mem_map.mp hy
      have hne : xs ≠ [] := by rintro rfl; simp at hx
      have h1 : avg xs ≤ x := avg_le hne (fun z hz => (h z hz x hx).le)
      have h2 : x ≤ avg xs := le_avg hne (fun z hz => (h x hx z hz).le)
      have : x = avg xs := le_antisymm h2 h1
      simp [← this]
  · intro y hy
    obtain ⟨x, _, rfl⟩ := List.mem_map.mp hy
    positivity

theorem var_eq_sub {xs : List K} (h : xs ≠ []) :
    var xs = avg (xs.map (fun x => x ^ 2)) - avg xs ^ 2 := by
  have : (fun x => (x - avg xs) ^ 2) =
      fun x => x ^ 2 + ((-2 * avg xs) * x + avg xs ^ 2) := by funext x; ring
  unfold var cmoment
  rw [this, avg_add, avg_affine _ _ h]; ring

/-- Popoviciu's inequality -/
theorem var_le_range {xs : List K} (h : xs ≠ []) {m M : K} (hm : ∀ x ∈ xs, m ≤ x) (hM : ∀ x ∈ xs, x ≤ M) :
    4 * var xs ≤ (M - m) ^ 2 := by
  have h1 : 0 ≤ avg (xs.map (fun x => (M - x) * (x - m))) := by
    apply avg_nonneg
    intro y hy
    obtain ⟨x, hx, rfl⟩ := List.mem_map.mp hy
    exact mul_nonneg (sub_nonneg.mpr (hM x hx)) (sub_nonneg.mpr (hm x hx))
  have h2 : (fun x => (M - x) * (x - m)) = fun x => (-1) * x ^ 2 + ((M + m) * x + (-(M * m))) := by
    funext x; ring
  have h3 : avg (xs.map (fun x => (-1 : K) * x ^ 2)) = - avg (xs.map (fun x => x ^ 2)) := by
    have := avg_mul (-1) (xs.map (fun x => x ^ 2))
    rw [List.map_map] at this
    rw [neg_one_mul] at this
    exact this
  rw [h2, avg_add, avg_affine _ _ h, h3] at h1
  rw [var_eq_sub h]
  nlinarith [sq_nonneg (2 * avg xs - (M + m))]

end Proadv.Spec
