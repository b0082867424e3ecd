import Verif.Spec.Spline
import Mathlib.Tactic.NormNum.BigOperators

/-!
# The value at 13 of the not-a-knot cubic spline as an explicit weighted sum of the 24 ordinates
-/

namespace Proadv.Spec

variable {K : Type} [Field K] [LinearOrder K] [IsStrictOrderedRing K]

/-- numerators of the weights of the ordinates at distance 12, 11, …, 1 from abscissa 13 -/
def splineNum : ℕ → ℤ
  | 0 => -1
  | 1 => 8
  | 2 => -37
  | 3 => 144
  | 4 => -540
  | 5 => 2016
  | 6 => -7524
  | 7 => 28080
  | 8 => -104796
  | 9 => 391104
  | 10 => -1459620
  | 11 => 3491132
  | _ => 0

/-- weight of the ordinates `k` and `23 - k` -/
def splineWeight (k : ℕ) : K := (splineNum k : K) / 4679932

/-- the spline through `y` takes at 13 the weighted sum of the ordinates; in particular its value is unique -/
theorem spline_weights {y b c d : ℕ → K} (h : IsSpline y b c d) :
    y 11 + b 11 + c 11 + d 11 = ∑ k ∈ Finset.range 12, splineWeight k * (y k + y (23 - k)) := by
  have T := tri_of_spline h
  rw [spline_value h]
  set e : ℕ → K := fun k => if k = 23 then c 22 + 3 * d 22 else c k with he
  have c11 : c 11 = e 11 := by simp [he]
  have c12 : c 12 = e 12 := by simp [he]
  rw [c11, c12]
  clear_value e
  have t0 := T.eqn 0 (by omega)
  have t1 := T.eqn 1 (by omega)
  have t2 := T.eqn 2 (by omega)
  have t3 := T.eqn 3 (by omega)
  have t4 := T.eqn 4 (by omega)
  have t5 := T.eqn 5 (by omega)
  have t6 := T.eqn 6 (by omega)
  have t7 := T.eqn 7 (by omega)
  have t8 := T.eqn 8 (by omega)
  have t9 := T.eqn 9 (by omega)
  have t10 := T.eqn 10 (by omega)
  have t11 := T.eqn 11 (by omega)
  have t12 := T.eqn 12 (by omega)
  have t13 := T.eqn 13 (by omega)
  have t14 := T.eqn 14 (by omega)
  have t15 := T.eqn 15 (by omega)
  have t16 := T.eqn 16 (by omega)
  have t17 := T.eqn 17 (by omega)
  have t18 := T.eqn 18 (by omega)
  have t19 := T.eqn 19 (by omega)
  have t20 := T.eqn 20 (by omega)
  have t21 := T.eqn 21 (by omega)
  have tl := T.left
  have tr := T.right
  norm_num [gap] at t0 t1 t2 t3 t4 t5 t6 t7 t8 t9 t10 t11 t12 t13 t14 t15 t16 t17 t18 t19 t20 t21
  simp only [Finset.sum_range_succ, Finset.sum_range_zero, splineWeight, splineNum]
  norm_num
  linear_combination (-1/14039796) * t0 + (1/2339966) * t1 + (-2/1169983) * t2 + (15/2339966) * t3 + (-28/1169983) * t4 + (209/2339966) * t5 + (-390/1169983) * t6 + (2911/2339966) * t7 + (-5432/1169983) * t8 + (40545/2339966) * t9 + (-75658/1169983) * t10 + (-75658/1169983) * t11 + (40545/2339966) * t12 + (-5432/1169983) * t13 + (2911/2339966) * t14 + (-390/1169983) * t15 + (209/2339966) * t16 + (-28/1169983) * t17 + (15/2339966) * t18 + (-2/1169983) * t19 + (1/2339966) * t20 + (-1/14039796) * t21 + (1/14039796) * tl + (1/14039796) * tr

end Proadv.Spec
