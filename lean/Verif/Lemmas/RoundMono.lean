import Verif.Lemmas.Round
import Verif.Lemmas.FlAlg
import Verif.Lemmas.Around

/-!
# Monotone rounding
-/

namespace Proadv

/-- a rounding to nearest as far as it matters here: monotone, exact on its own results, with small relative error -/
structure Rounding {K : Type} [Field K] [LinearOrder K] (fl : K → K) (u : K) : Prop where
  mono : Monotone fl
  idem : ∀ x, fl (fl x) = fl x
  err : ∀ x, |fl x - x| ≤ u * |x|
  nonneg : 0 ≤ u
  small : u ≤ 1 / 32

section

variable {K : Type} [Field K] [LinearOrder K] [IsStrictOrderedRing K] {fl : K → K} {u : K}

theorem Rounding.pos (h : Rounding fl u) {x : K} (hx : 0 < x) : 0 < fl x := by
  have h1 := h.err x
  rw [abs_of_pos hx, abs_le] at h1
  have := h.small
  nlinarith [h1.1]

theorem Rounding.neg (h : Rounding fl u) {x : K} (hx : x < 0) : fl x < 0 := by
  have h1 := h.err x
  rw [abs_of_neg hx, abs_le] at h1
  have := h.small
  nlinarith [h1.2]

theorem Rounding.zero (h : Rounding fl u) : fl 0 = 0 := by
  have h1 := h.err 0
  simpa using h1

theorem Rounding.ne (h : Rounding fl u) {x : K} (hx : x ≠ 0) : fl x ≠ 0 := by
  rcases lt_or_gt_of_ne hx with h' | h'
  · exact (h.neg h').ne
  · exact (h.pos h').ne'

theorem Rounding.le (h : Rounding fl u) (x : K) : |fl x| ≤ (1 + u) * |x| := by
  have h1 := h.err x
  have := abs_add_le (fl x - x) x
  simp only [sub_add_cancel] at this
  linarith

theorem Rounding.ge (h : Rounding fl u) (x : K) : (1 - u) * |x| ≤ |fl x| := by
  have h1 := h.err x
  have := abs_sub_abs_le_abs_sub x (fl x)
  rw [abs_sub_comm] at h1
  linarith

end

/-! ## Binary64 -/

open Fl

theorem rnd53_neg (x : ℚ) : rnd53 (-x) = -rnd53 x := by
  unfold rnd53
  by_cases hx : x = 0
  · simp [hx]
  · rw [if_neg hx, if_neg (by simpa using hx), abs_neg]
    simp only [neg_div, rint_neg]
    push_cast; ring

/-- numbers with a significand of at most 53 bits are exact -/
theorem rnd53_rep (m : ℤ) (e : ℤ) (hm : |m| ≤ 2 ^ 53) : rnd53 (m * 2 ^ e) = m * 2 ^ e := by
  have key : ∀ (m e : ℤ), |m| < 2 ^ 53 → rnd53 (m * 2 ^ e) = m * 2 ^ e := by
    intro m e hm
    by_cases h0 : m = 0
    · simp [h0, rnd53]
    have hp : (0 : ℚ) < 2 ^ e := by positivity
    have hx : (m : ℚ) * 2 ^ e ≠ 0 := by
      have : (m : ℚ) ≠ 0 := by exact_mod_cast h0
      positivity
    unfold rnd53
    rw [if_neg hx]
    set x : ℚ := m * 2 ^ e with hxd
    have hpos : 0 < |x| := abs_pos.mpr hx
    have h1 : (2 : ℚ) ^ Int.log 2 |x| ≤ |x| := Int.zpow_log_le_self (by norm_num) hpos
    have h2 : |x| < 2 ^ (53 + e) := by
      rw [hxd, abs_mul, abs_of_pos hp, zpow_add₀ (by norm_num)]
      have : |(m : ℚ)| < 2 ^ (53 : ℤ) := by exact_mod_cast hm
      exact mul_lt_mul_of_pos_right this hp
    have h3 : Int.log 2 |x| < 53 + e := (zpow_lt_zpow_iff_right₀ (by norm_num : (1 : ℚ) < 2)).mp (h1.trans_lt h2)
    set e' : ℤ := Int.log 2 |x| - 52 with he
    obtain ⟨k, hk⟩ : ∃ k : ℕ, e = e' + k := ⟨(e - e').toNat, by omega⟩
    have h4 : x / 2 ^ e' = ((m * 2 ^ k : ℤ) : ℚ) := by
      rw [hxd, hk, zpow_add₀ (by norm_num), zpow_natCast]
      push_cast
      field_simp
    show ((rint (x / 2 ^ e') : ℤ) : ℚ) * 2 ^ e' = x
    rw [h4, rint_int, ← h4]
    field_simp
  rcases lt_or_eq_of_le hm with h | h
  · exact key m e h
  · rcases abs_eq (by positivity) |>.mp h with h | h
    · have := key (2 ^ 52) (e + 1) (by norm_num)
      rw [h]
      rw [show (((2 ^ 53 : ℤ)) : ℚ) * 2 ^ e = ((2 ^ 52 : ℤ) : ℚ) * 2 ^ (e + 1) by
        rw [zpow_add₀ (by norm_num)]; push_cast; ring]
      exact this
    · have := key (-2 ^ 52) (e + 1) (by norm_num)
      rw [h]
      rw [show (((-2 ^ 53 : ℤ)) : ℚ) * 2 ^ e = ((-2 ^ 52 : ℤ) : ℚ) * 2 ^ (e + 1) by
        rw [zpow_add₀ (by norm_num)]; push_cast; ring]
      exact this

/-- the significand of a rounded positive number, and its place -/
theorem rnd53_shape {x : ℚ} (hx : 0 < x) : ∃ m : ℤ, rnd53 x = m * 2 ^ (Int.log 2 x - 52) ∧ m = rint (x / 2 ^ (Int.log 2 x - 52)) ∧
    2 ^ 52 ≤ m ∧ m ≤ 2 ^ 53 := by
  have hp : (0 : ℚ) < 2 ^ (Int.log 2 x - 52) := by positivity
  refine ⟨_, ?_, rfl, ?_, ?_⟩
  · unfold rnd53
    rw [if_neg hx.ne', abs_of_pos hx]
  · have h1 : (2 : ℚ) ^ Int.log 2 x ≤ x := Int.zpow_log_le_self (by norm_num) hx
    have h2 : (((2 ^ 52 : ℤ)) : ℚ) ≤ x / 2 ^ (Int.log 2 x - 52) := by
      rw [le_div_iff₀ hp]
      refine le_trans (le_of_eq ?_) h1
      rw [zpow_sub₀ (by norm_num)]; push_cast; field_simp
    have := rint_mono h2
    rwa [rint_int] at this
  · have h1 : x < (2 : ℚ) ^ (Int.log 2 x + 1) := Int.lt_zpow_succ_log_self (by norm_num) x
    have h2 : x / 2 ^ (Int.log 2 x - 52) ≤ (((2 ^ 53 : ℤ)) : ℚ) := by
      rw [div_le_iff₀ hp]
      refine le_trans h1.le (le_of_eq ?_)
      rw [zpow_sub₀ (by norm_num), zpow_add₀ (by norm_num)]; push_cast; field_simp; norm_num
    have := rint_mono h2
    rwa [rint_int] at this

theorem rnd53_idem (x : ℚ) : rnd53 (rnd53 x) = rnd53 x := by
  have key : ∀ x : ℚ, 0 < x → rnd53 (rnd53 x) = rnd53 x := by
    intro x hx
    obtain ⟨m, h1, -, h2, h3⟩ := rnd53_shape hx
    rw [h1]
    exact rnd53_rep m _ (by rw [abs_of_nonneg (le_trans (by norm_num) h2)]; exact h3)
  rcases lt_trichotomy x 0 with h | h | h
  · have := key (-x) (by linarith)
    rw [rnd53_neg, rnd53_neg] at this
    linarith
  · simp [h, rnd53]
  · exact key x h

theorem rnd53_pos_mono {x y : ℚ} (hx : 0 < x) (h : x ≤ y) : rnd53 x ≤ rnd53 y := by
  have hy : 0 < y := lt_of_lt_of_le hx h
  obtain ⟨m, h1, hm, h2, h3⟩ := rnd53_shape hx
  obtain ⟨n, g1, hn, g2, g3⟩ := rnd53_shape hy
  have hl : Int.log 2 x ≤ Int.log 2 y := Int.log_mono_right hx h
  rw [h1, g1]
  rcases lt_or_eq_of_le hl with hl | hl
  · calc (m : ℚ) * 2 ^ (Int.log 2 x - 52) ≤ 2 ^ 53 * 2 ^ (Int.log 2 x - 52) := by
          apply mul_le_mul_of_nonneg_right _ (by positivity)
          exact_mod_cast h3
      _ = 2 ^ 52 * 2 ^ (Int.log 2 x + 1 - 52) := by
          rw [show Int.log 2 x + 1 - 52 = (Int.log 2 x - 52) + 1 by ring, zpow_add₀ (by norm_num : (2 : ℚ) ≠ 0) (Int.log 2 x - 52)]; ring
      _ ≤ 2 ^ 52 * 2 ^ (Int.log 2 y - 52) := by
          apply mul_le_mul_of_nonneg_left _ (by positivity)
          exact zpow_le_zpow_right₀ (by norm_num) (by omega)
      _ ≤ n * 2 ^ (Int.log 2 y - 52) := by
          apply mul_le_mul_of_nonneg_right _ (by positivity)
          exact_mod_cast g2
  · rw [hl] at hm ⊢
    apply mul_le_mul_of_nonneg_right _ (by positivity)
    rw [hm, hn]
    exact_mod_cast rint_mono (div_le_div_of_nonneg_right h (by positivity))

theorem rnd53_sign {x : ℚ} (hx : 0 < x) : 0 < rnd53 x := by
  obtain ⟨m, h1, -, h2, -⟩ := rnd53_shape hx
  rw [h1]
  have : (0 : ℚ) < m := by exact_mod_cast lt_of_lt_of_le (by norm_num) h2
  positivity

theorem rnd53_mono : Monotone rnd53 := by
  intro x y h
  rcases lt_trichotomy x 0 with hx | hx | hx
  · rcases lt_or_ge y 0 with hy | hy
    · have := rnd53_pos_mono (x := -y) (y := -x) (by linarith) (by linarith)
      rw [rnd53_neg, rnd53_neg] at this
      linarith
    · have h1 := rnd53_sign (x := -x) (by linarith)
      rw [rnd53_neg] at h1
      rcases eq_or_lt_of_le hy with hy | hy
      · rw [← hy]; simp [rnd53] at h1 ⊢; linarith
      · have := rnd53_sign hy; linarith
  · rcases eq_or_lt_of_le (hx ▸ h) with hy | hy
    · rw [hx, ← hy]
    · have := rnd53_sign hy
      rw [hx]; simp only [rnd53, if_true]; exact this.le
  · exact rnd53_pos_mono hx h

/-- binary64 (without overflow and underflow) is such a rounding -/
theorem rnd53_rounding : Rounding rnd53 (1 / 2 ^ 53) where
  mono := rnd53_mono
  idem := rnd53_idem
  err := rnd53_near
  nonneg := by positivity
  small := by norm_num

end Proadv
