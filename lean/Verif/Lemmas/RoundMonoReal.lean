import Verif.Lemmas.RoundMono
import Verif.Py.RoundReal

/-!
# 53 significant bits over the reals is a monotone rounding
-/

namespace Proadv

open Fl

theorem rnd53R_neg (x : ℝ) : rnd53R (-x) = -rnd53R x := by
  unfold rnd53R
  by_cases hx : x = 0
  · simp [hx]
  · rw [if_neg hx, if_neg (by simpa using hx), abs_neg]
    simp only [neg_div, rint_neg]
    push_cast; ring

/-- numbers with a significand of at most 53 bits are exact -/
theorem rnd53R_rep (m : ℤ) (e : ℤ) (hm : |m| ≤ 2 ^ 53) : rnd53R (m * 2 ^ e) = m * 2 ^ e := by
  have key : ∀ (m e : ℤ), |m| < 2 ^ 53 → rnd53R (m * 2 ^ e) = m * 2 ^ e := by
    intro m e hm
    by_cases h0 : m = 0
    · simp [h0, rnd53R]
    have hp : (0 : ℝ) < 2 ^ e := by positivity
    have hx : (m : ℝ) * 2 ^ e ≠ 0 := by
      have : (m : ℝ) ≠ 0 := by exact_mod_cast h0
      positivity
    unfold rnd53R
    rw [if_neg hx]
    set x : ℝ := m * 2 ^ e with hxd
    have hpos : 0 < |x| := abs_pos.mpr hx
    have h1 : (2 : ℝ) ^ Int.log 2 |x| ≤ |x| := Int.zpow_log_le_self (by norm_num) hpos
    have h2 : |x| < 2 ^ (53 + e) := by
      rw [hxd, abs_mul, abs_of_pos hp, zpow_add₀ (by norm_num)]
      have : |(m : ℝ)| < 2 ^ (53 : ℤ) := by exact_mod_cast hm
      exact mul_lt_mul_of_pos_right this hp
    have h3 : Int.log 2 |x| < 53 + e := (zpow_lt_zpow_iff_right₀ (by norm_num : (1 : ℝ) < 2)).mp (h1.trans_lt h2)
    set e' : ℤ := Int.log 2 |x| - 52 with he
    obtain ⟨k, hk⟩ : ∃ k : ℕ, e = e' + k := ⟨(e - e').toNat, by omega⟩
    have h4 : x / 2 ^ e' = ((m * 2 ^ k : ℤ) : ℝ) := by
      rw [hxd, hk, zpow_add₀ (by norm_num), zpow_natCast]
      push_cast
      field_simp
    show ((rint (x / 2 ^ e') : ℤ) : ℝ) * 2 ^ e' = x
    rw [h4, rint_int, ← h4]
    field_simp
  rcases lt_or_eq_of_le hm with h | h
  · exact key m e h
  · rcases abs_eq (by positivity) |>.mp h with h | h
    · have := key (2 ^ 52) (e + 1) (by norm_num)
      rw [h]
      rw [show (((2 ^ 53 : ℤ)) : ℝ) * 2 ^ e = ((2 ^ 52 : ℤ) : ℝ) * 2 ^ (e + 1) by
        rw [zpow_add₀ (by norm_num)]; push_cast; ring]
      exact this
    · have := key (-2 ^ 52) (e + 1) (by norm_num)
      rw [h]
      rw [show (((-2 ^ 53 : ℤ)) : ℝ) * 2 ^ e = ((-2 ^ 52 : ℤ) : ℝ) * 2 ^ (e + 1) by
        rw [zpow_add₀ (by norm_num)]; push_cast; ring]
      exact this

/-- the significand of a rounded positive number, and its place -/
theorem rnd53R_shape {x : ℝ} (hx : 0 < x) : ∃ m : ℤ, rnd53R x = m * 2 ^ (Int.log 2 x - 52) ∧ m = rint (x / 2 ^ (Int.log 2 x - 52)) ∧
    2 ^ 52 ≤ m ∧ m ≤ 2 ^ 53 := by
  have hp : (0 : ℝ) < 2 ^ (Int.log 2 x - 52) := by positivity
  refine ⟨_, ?_, rfl, ?_, ?_⟩
  · unfold rnd53R
    rw [if_neg hx.ne', abs_of_pos hx]
  · have h1 : (2 : ℝ) ^ Int.log 2 x ≤ x := Int.zpow_log_le_self (by norm_num) hx
    have h2 : (((2 ^ 52 : ℤ)) : ℝ) ≤ x / 2 ^ (Int.log 2 x - 52) := by
      rw [le_div_iff₀ hp]
      refine le_trans (le_of_eq ?_) h1
      rw [zpow_sub₀ (by norm_num)]; push_cast; field_simp; norm_num
    have := rint_mono h2
    rwa [rint_int] at this
  · have h1 : x < (2 : ℝ) ^ (Int.log 2 x + 1) := Int.lt_zpow_succ_log_self (by norm_num) x
    have h2 : x / 2 ^ (Int.log 2 x - 52) ≤ (((2 ^ 53 : ℤ)) : ℝ) := by
      rw [div_le_iff₀ hp]
      refine le_trans h1.le (le_of_eq ?_)
      rw [zpow_sub₀ (by norm_num), zpow_add₀ (by norm_num)]; push_cast; field_simp; norm_num
    have := rint_mono h2
    rwa [rint_int] at this

theorem rnd53R_idem (x : ℝ) : rnd53R (rnd53R x) = rnd53R x := by
  have key : ∀ x : ℝ, 0 < x → rnd53R (rnd53R x) = rnd53R x := by
    intro x hx
    obtain ⟨m, h1, -, h2, h3⟩ := rnd53R_shape hx
    rw [h1]
    exact rnd53R_rep m _ (by rw [abs_of_nonneg (le_trans (by norm_num) h2)]; exact h3)
  rcases lt_trichotomy x 0 with h | h | h
  · have := key (-x) (by linarith)
    rw [rnd53R_neg, rnd53R_neg] at this
    linarith
  · simp [h, rnd53R]
  · exact key x h

theorem rnd53R_pos_mono {x y : ℝ} (hx : 0 < x) (h : x ≤ y) : rnd53R x ≤ rnd53R y := by
  have hy : 0 < y := lt_of_lt_of_le hx h
  obtain ⟨m, h1, hm, h2, h3⟩ := rnd53R_shape hx
  obtain ⟨n, g1, hn, g2, g3⟩ := rnd53R_shape hy
  have hl : Int.log 2 x ≤ Int.log 2 y := Int.log_mono_right hx h
  rw [h1, g1]
  rcases lt_or_eq_of_le hl with hl | hl
  · calc (m : ℝ) * 2 ^ (Int.log 2 x - 52) ≤ 2 ^ 53 * 2 ^ (Int.log 2 x - 52) := by
          apply mul_le_mul_of_nonneg_right _ (by positivity)
          exact_mod_cast h3
      _ = 2 ^ 52 * 2 ^ (Int.log 2 x + 1 - 52) := by
          rw [show Int.log 2 x + 1 - 52 = (Int.log 2 x - 52) + 1 by ring, zpow_add₀ (by norm_num : (2 : ℝ) ≠ 0) (Int.log 2 x - 52)]; ring
      _ ≤ 2 ^ 52 * 2 ^ (Int.log 2 y - 52) := by
          apply mul_le_mul_of_nonneg_left _ (by positivity)
          exact zpow_le_zpow_right₀ (by norm_num) (by omega)
      _ ≤ n * 2 ^ (Int.log 2 y - 52) := by
          apply mul_le_mul_of_nonneg_right _ (by positivity)
          exact_mod_cast g2
  · rw [hl] at hm ⊢
    apply mul_le_mul_of_nonneg_right _ (by positivity)
    rw [hm, hn]
    exact_mod_cast rint_mono (div_le_div_of_nonneg_right h (by positivity))

theorem rnd53R_sign {x : ℝ} (hx : 0 < x) : 0 < rnd53R x := by
  obtain ⟨m, h1, -, h2, -⟩ := rnd53R_shape hx
  rw [h1]
  have : (0 : ℝ) < m := by exact_mod_cast lt_of_lt_of_le (by norm_num) h2
  positivity

theorem rnd53R_mono : Monotone rnd53R := by
  intro x y h
  rcases lt_trichotomy x 0 with hx | hx | hx
  · rcases lt_or_ge y 0 with hy | hy
    · have := rnd53R_pos_mono (x := -y) (y := -x) (by linarith) (by linarith)
      rw [rnd53R_neg, rnd53R_neg] at this
      linarith
    · have h1 := rnd53R_sign (x := -x) (by linarith)
      rw [rnd53R_neg] at h1
      rcases eq_or_lt_of_le hy with hy | hy
      · rw [← hy]; simp [rnd53R] at h1 ⊢; linarith
      · have := rnd53R_sign hy; linarith
  · rcases eq_or_lt_of_le (hx ▸ h) with hy | hy
    · rw [hx, ← hy]
    · have := rnd53R_sign hy
      rw [hx]; simp only [rnd53R, if_true]; exact this.le
  · exact rnd53R_pos_mono hx h

/-- binary64 (without overflow and underflow) is such a rounding -/
theorem rnd53R_rounding : Rounding rnd53R (1 / 2 ^ 53) where
  mono := rnd53R_mono
  idem := rnd53R_idem
  err := rnd53R_near
  nonneg := by positivity
  small := by norm_num

end Proadv
