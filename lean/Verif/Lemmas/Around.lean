import Verif.Lemmas.FlAlg

/-!
# Rounding to a number of decimals is monotone, idempotent and commutes with even steps
-/

namespace Proadv

open Fl

variable {K : Type} [Field K] [LinearOrder K] [IsStrictOrderedRing K] [FloorRing K]

theorem rint_mono {x y : K} (h : x ≤ y) : rint x ≤ rint y := by
  by_contra hc
  have h1 : rint y + 1 ≤ rint x := by omega
  have h2 : (rint y : K) + 1 ≤ rint x := by exact_mod_cast h1
  have hx := abs_le.mp (abs_rint_sub x)
  have hy := abs_le.mp (abs_rint_sub y)
  have : x = y := le_antisymm h (by linarith [hx.1, hx.2, hy.1, hy.2])
  subst this
  exact hc (le_refl _)

theorem rint_add_even (x : K) (m : ℤ) : rint (x + (2 * m : ℤ)) = rint x + 2 * m := by
  unfold rint
  rw [Int.floor_add_intCast]
  have e : x + ((2 * m : ℤ) : K) - ((⌊x⌋ + 2 * m : ℤ) : K) = x - ⌊x⌋ := by push_cast; ring
  simp only [e]
  have p : (⌊x⌋ + 2 * m) % 2 = ⌊x⌋ % 2 := by omega
  rw [p]
  split_ifs <;> ring

theorem aroundK_mono {x y : K} (h : x ≤ y) (d : Int) : aroundK x d ≤ aroundK y d := by
  unfold aroundK
  have hp : (0 : K) < 10 ^ d := zpow_pos (by norm_num) d
  exact div_le_div_of_nonneg_right (by exact_mod_cast rint_mono (mul_le_mul_of_nonneg_right h hp.le)) hp.le

theorem aroundK_idem (x : K) (d : Int) : aroundK (aroundK x d) d = aroundK x d := by
  unfold aroundK
  have hp : (10 : K) ^ d ≠ 0 := (zpow_pos (by norm_num) d).ne'
  rw [div_mul_cancel₀ _ hp, rint_int]

theorem aroundK_mul (x : K) (d : Int) : ∃ z : ℤ, aroundK x d * 10 ^ d = z :=
  ⟨rint (x * 10 ^ d), by unfold aroundK; rw [div_mul_cancel₀ _ (zpow_pos (by norm_num) d).ne']⟩

theorem aroundK_add_even (x : K) (d : Int) (m : ℤ) (o : K) (h : o * 10 ^ d = (2 * m : ℤ)) :
    aroundK (x + o) d = aroundK x d + o := by
  unfold aroundK
  have hp : (10 : K) ^ d ≠ 0 := (zpow_pos (by norm_num) d).ne'
  rw [add_mul, h, rint_add_even]
  push_cast at h ⊢
  rw [← h, add_div, mul_div_cancel_right₀ _ hp]

end Proadv
