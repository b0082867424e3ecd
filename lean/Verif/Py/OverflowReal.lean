import Verif.Py.RoundReal
import Verif.Py.Full

/-!
# Square roots and other library functions with rounding and overflow

`Ov O` over the reals, with every library function rounded once after the exact result and replaced by an infinity when it is
too large.  C258 uses only `sqrt`, of which IEEE 754 requires this.  C260 and C262 use the sign of `sqrt` and no property of the other functions.
-/

namespace Proadv

open Real

namespace Ov

noncomputable section

instance instPyMath (O : OArith ℝ) : PyMath (Ov O) where
  toPyNum := Ov.instPyNum O
  sqrt x := squash O (Fl.sqrtR x)
  log x := squash O (Fl.logR x)
  exp x := squash O (Fl.expR x)
  sin x := squash O (Fl.trig Real.sin x)
  cos x := squash O (Fl.trig Real.cos x)
  tan x := squash O (Fl.trig Real.tan x)
  arctan x := squash O (Fl.arctanR x)
  arctan2 y x := squash O (Fl.arctan2R y x)
  erf x := squash O (Fl.erfF x)
  erfc x := squash O (Fl.erfcF x)
  rpow x y := squash O (Fl.rpowR x y)
  pi := squash O (Fl.fin π)

theorem sqrt_num {O : OArith ℝ} {v : Ov O} {x : ℝ} (h : PyMath.sqrt v = fin O x) :
    ∃ a, v = fin O a ∧ 0 ≤ a ∧ x = O.rnd (√a) ∧ |x| ≤ O.top := by
  obtain ⟨y, hy, hx⟩ := squash_fin (O := O) (v := Fl.sqrtR v) h
  cases v with
  | fin a =>
    simp only [Fl.sqrtR] at hy
    split at hy
    · cases hy
    · rename_i h0
      exact ⟨a, rfl, not_lt.mp h0, Fl.fin.inj hy ▸ hx⟩
  | nan => cases hy
  | pinf => cases hy
  | ninf => cases hy

/-- the square root of what is not a number is plus infinity or NaN -/
theorem sqrt_not {O : OArith ℝ} {v : Ov O} (h : ¬ IsNum v) : PyMath.sqrt v = inf O ∨ PyMath.sqrt v = (PyNum.nan : Ov O) := by
  cases v with
  | fin a => exact absurd ⟨a, rfl⟩ h
  | nan => exact Or.inr rfl
  | pinf => exact Or.inl rfl
  | ninf => exact Or.inr rfl

theorem le_sqrt {O : OArith ℝ} {v : Ov O} {w : Rd O.toArith} (h : Le v w) : Le (PyMath.sqrt v) (PyMath.sqrt w) := by
  intro x hx
  obtain ⟨a, ha, h0, hx', _⟩ := sqrt_num hx
  rw [h a ha, Rd.sqrt_fin _ h0, hx']

end

end Ov

/-- 53 significant bits, numbers up to `(2⁵³ - 1) 2⁹⁷¹`, sums from left to right, over the reals -/
noncomputable def bin64oR : OArith ℝ := leftOArith rnd53R ((2 ^ 53 - 1) * 2 ^ 971)

theorem bin64oR_std : OStd bin64oR (1 / 2 ^ 53) :=
  leftOArith_std rnd53R _ _ (by positivity) (by norm_num) rnd53R_near

end Proadv
