import Verif.Py.Round
import Mathlib.Data.Int.Log
import Mathlib.Tactic.NormNum

/-!
# Rounding arithmetic: error lemmas and a binary64-like instance
-/

namespace Proadv

open Fl

variable {K : Type} [Field K] [LinearOrder K] [IsStrictOrderedRing K]

namespace Std

variable {A : Arith K} {u : K}

theorem rnd_zero (h : Std A u) : A.rnd 0 = 0 := by
  have := h.rnd 0
  simpa using this

/-- rounding `s`, which is within `e` of `t` -/
theorem rnd_near (h : Std A u) {s t e : K} (hs : |s - t| ≤ e) : |A.rnd s - t| ≤ (1 + u) * e + u * |t| := by
  have h1 := h.rnd s
  have h2 : |A.rnd s - t| ≤ |A.rnd s - s| + |s - t| := by
    have := abs_add_le (A.rnd s - s) (s - t); simpa using this
  have h3 : |s| ≤ |s - t| + |t| := by
    have := abs_add_le (s - t) t; simpa using this
  have h4 := h.nonneg
  nlinarith [mul_le_mul_of_nonneg_left h3 h4, mul_le_mul_of_nonneg_left hs h4]

/-- computed mean of the numbers `xs`, bounded by `M` -/
theorem mean_near (h : Std A u) (xs : List K) (hne : xs ≠ []) (M : K) (hM : ∀ x ∈ xs, |x| ≤ M) :
    |A.rnd (A.sum xs / xs.length) - xs.sum / xs.length| ≤ ((1 + u) ^ (xs.length + 1) - 1) * M := by
  have hn : (0 : K) < xs.length := by exact_mod_cast List.length_pos_of_ne_nil hne
  have h1 := h.sum xs
  have h2 : (xs.map (fun x => |x|)).sum ≤ xs.length * M := by
    have := List.sum_le_card_nsmul (xs.map (fun x => |x|)) M (by
      intro y hy; obtain ⟨z, hz, rfl⟩ := List.mem_map.mp hy; exact hM z hz)
    simpa using this
  have h3 : |xs.sum| ≤ xs.length * M := by
    refine le_trans ?_ h2
    clear h1 h2 hM hne hn
    induction xs with
    | nil => simp
    | cons x t ih =>
      simp only [List.sum_cons, List.map_cons]
      exact (abs_add_le _ _).trans (by linarith)
  have hP : 1 ≤ (1 + u) ^ xs.length := one_le_pow₀ (by linarith [h.nonneg])
  have h4 : |A.sum xs / xs.length - xs.sum / xs.length| ≤ ((1 + u) ^ xs.length - 1) * M := by
    rw [← sub_div, abs_div, abs_of_pos hn, div_le_iff₀ hn]
    refine h1.trans ?_
    have := mul_le_mul_of_nonneg_left h2 (sub_nonneg.mpr hP)
    linarith
  have h5 : |xs.sum / xs.length| ≤ M := by
    rw [abs_div, abs_of_pos hn, div_le_iff₀ hn]; linarith
  refine (h.rnd_near h4).trans ?_
  have := mul_le_mul_of_nonneg_left h5 h.nonneg
  rw [pow_succ]
  linarith

end Std

/-! ## Binary64 without exponent limits -/

/-- rounding to 53 significant bits, ties to even -/
def rnd53 (x : ℚ) : ℚ :=
  if x = 0 then 0 else
    let e : ℤ := Int.log 2 |x| - 52
    (Fl.rint (x / 2 ^ e) : ℚ) * 2 ^ e

/-- binary64 significands, unbounded exponents, left-to-right summation -/
def bin64 : Arith ℚ := leftArith rnd53

theorem rnd53_near (x : ℚ) : |rnd53 x - x| ≤ 1 / 2 ^ 53 * |x| := by
  unfold rnd53
  split_ifs with hx
  · simp [hx]
  · set e : ℤ := Int.log 2 |x| - 52 with he
    have hp : (0 : ℚ) < 2 ^ e := by positivity
    have h1 : ((Fl.rint (x / 2 ^ e) : ℤ) : ℚ) * 2 ^ e - x = ((Fl.rint (x / 2 ^ e) : ℚ) - x / 2 ^ e) * 2 ^ e := by
      field_simp
    rw [h1, abs_mul, abs_of_pos hp]
    have h2 := abs_rint_sub (x / 2 ^ e)
    have h3 : (2 : ℚ) ^ Int.log 2 |x| ≤ |x| := Int.zpow_log_le_self (by norm_num) (abs_pos.mpr hx)
    have h4 : (2 : ℚ) ^ Int.log 2 |x| = 2 ^ e * 2 ^ 52 := by
      rw [show Int.log 2 |x| = e + (52 : ℕ) by rw [he]; push_cast; ring, zpow_add₀ (by norm_num), zpow_natCast]
    rw [h4] at h3
    have h5 := mul_le_mul_of_nonneg_right h2 hp.le
    refine h5.trans ?_
    rw [show (1 : ℚ) / 2 * 2 ^ e = 1 / 2 ^ 53 * (2 ^ e * 2 ^ 52) by ring]
    exact mul_le_mul_of_nonneg_left h3 (by positivity)

theorem bin64_std : Std bin64 (1 / 2 ^ 53) := leftArith_std rnd53 _ (by positivity) rnd53_near

/-- integers below `2⁵³` are exact -/
theorem rnd53_int (n : ℤ) (h : |n| < 2 ^ 53) : rnd53 n = n := by
  unfold rnd53
  split_ifs with hx
  · rw [hx]
  · set e : ℤ := Int.log 2 |(n : ℚ)| - 52 with he
    have hpos : 0 < |(n : ℚ)| := abs_pos.mpr hx
    have h1 : (2 : ℚ) ^ Int.log 2 |(n : ℚ)| ≤ |(n : ℚ)| := Int.zpow_log_le_self (by norm_num) hpos
    have h2 : |(n : ℚ)| < 2 ^ (53 : ℤ) := by exact_mod_cast h
    have h3 : Int.log 2 |(n : ℚ)| < 53 := (zpow_lt_zpow_iff_right₀ (by norm_num : (1 : ℚ) < 2)).mp (h1.trans_lt h2)
    obtain ⟨k, hk⟩ : ∃ k : ℕ, e = -(k : ℤ) := ⟨(-e).toNat, by omega⟩
    show ((Fl.rint ((n : ℚ) / 2 ^ e) : ℤ) : ℚ) * 2 ^ e = n
    rw [hk, zpow_neg, zpow_natCast, div_inv_eq_mul]
    have h4 : (n : ℚ) * 2 ^ k = ((n * 2 ^ k : ℤ) : ℚ) := by push_cast; ring
    rw [h4, rint_int]
    push_cast
    field_simp

theorem rnd53_nat (n : ℕ) (h : n < 2 ^ 53) : bin64.rnd n = n := by
  have := rnd53_int n (by rw [abs_of_nonneg (by positivity)]; exact_mod_cast h)
  simpa [bin64, leftArith] using this

end Proadv
