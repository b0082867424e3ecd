import Verif.Props.SphericalReverse
import Verif.Props.Spherical2

/-!
# Property C250: the rotation of `spherical_phasespace_thresholding` rounds ties (spherical.py)

The centred data is rounded to four decimals, so inner entries of its gradient are multiples of 0.00005.  `_rotation` rounds every
coordinate to four decimals again: each odd multiple is exactly half way between two results.
-/

set_option linter.unusedSectionVars false

namespace Proadv.Props

open Proadv Fl Spherical

private theorem tie_even (m : ℤ) : aroundK (((2 * m : ℤ) : ℝ) / 20000) 4 = ((2 * m : ℤ) : ℝ) / 20000 := by
  have h := around4_eq (((2 * m : ℤ) : ℝ) / 20000) m (by
    rw [show ((2 * m : ℤ) : ℝ) / 20000 - m / 10000 = 0 by push_cast; ring, abs_zero]; norm_num)
  rw [h]; push_cast; ring

private theorem tie_odd (m : ℤ) : |aroundK (((2 * m + 1 : ℤ) : ℝ) / 20000) 4 - ((2 * m + 1 : ℤ) : ℝ) / 20000| = 1 / 20000 := by
  have e : ((10 : ℝ) ^ (4 : ℤ)) = 10000 := by norm_num
  unfold aroundK
  rw [e]
  have h3 := abs_le.mp (abs_rint_sub (((2 * m + 1 : ℤ) : ℝ) / 20000 * 10000))
  generalize rint (((2 * m + 1 : ℤ) : ℝ) / 20000 * 10000) = z at *
  push_cast at h3 ⊢
  have h4 : (z : ℝ) < m + 2 := by linarith
  have h5 : (m : ℝ) - 1 < z := by linarith
  have h6 : z < m + 2 := by exact_mod_cast h4
  have h7 : m - 1 < z := by exact_mod_cast h5
  obtain rfl | rfl : z = m ∨ z = m + 1 := by omega
  · rw [show (z : ℝ) / 10000 - (2 * z + 1) / 20000 = -(1 / 20000) by ring, abs_neg, abs_of_pos (by norm_num)]
  · push_cast
    rw [show ((m : ℝ) + 1) / 10000 - (2 * m + 1) / 20000 = 1 / 20000 by ring, abs_of_pos (by norm_num)]

/-- **C250** at an inner sample the first derivative is a multiple `k` of 0.00005.  With no rotation it is used as it is; after any
rotation an even multiple is kept and an odd one is moved by exactly 0.00005, half the rounding unit. -/
theorem C250_ties (xs : List ℝ) (it : Int) (m : Fl ℝ) (dc : List (Fl ℝ))
    (hdc : npGradient (descript (fins xs) it m).1 = .ok dc) (i : ℕ) (h1 : 1 ≤ i) (h2 : i + 1 < xs.length) :
    ∃ k : ℤ, dc[i]? = some (fin ((k : ℝ) / 20000)) ∧
      ∀ t x z : ℝ, ∃ y : ℝ, (rotate (fin t) (fin x, fin ((k : ℝ) / 20000), fin z)).2.1 = fin y ∧
      (t = 0 → y = k / 20000) ∧ (t ≠ 0 → k % 2 = 0 → y = k / 20000) ∧ (t ≠ 0 → k % 2 = 1 → |y - k / 20000| = 1 / 20000) := by
  have hx : xs ≠ [] := by rintro rfl; simp at h2
  have hl : (centR xs).length = xs.length := by simp [centR]
  have hf : (descript (fins xs) it m).1 = fins (centR xs) := sphF_fins xs hx
  rw [hf, npGradient_eq _ (by simp [fins]; omega), grad_fins _ (by omega)] at hdc
  have hdc' : dc = fins (gradR (centR xs)) := by injection hdc with h; exact h.symm
  have g : ∀ j, ∃ p : ℤ, (centR xs).getD j 0 = p / 10000 := by
    intro j
    rw [List.getD_eq_getElem?_getD]
    cases hj : (centR xs)[j]? with
    | none => exact ⟨0, by simp⟩
    | some x =>
      obtain ⟨y, -, rfl⟩ := List.mem_map.mp (List.mem_of_getElem? hj)
      exact ⟨rint ((y - Spec.avg xs) * (10 : ℝ) ^ (4 : ℤ)), by simp [aroundK]; norm_num⟩
  obtain ⟨p, hp⟩ := g (i + 1)
  obtain ⟨q, hq⟩ := g (i - 1)
  have hv : (gradR (centR xs)).getD i 0 = ((p - q : ℤ) : ℝ) / 20000 := by
    rw [gradR_getD _ _ (by omega), gradAtR, if_neg (by omega), if_neg (by omega), hp, hq]
    push_cast; ring
  refine ⟨p - q, ?_, ?_⟩
  · have hi : i < (gradR (centR xs)).length := by rw [gradR_length]; omega
    rw [hdc', List.getElem?_map, List.getElem?_eq_getElem hi, ← hv, List.getD_eq_getElem?_getD, List.getElem?_eq_getElem hi]
    rfl
  · intro t x z
    have hr := C120_rotation t (x, ((p - q : ℤ) : ℝ) / 20000, z)
    refine ⟨(rotSph t (x, ((p - q : ℤ) : ℝ) / 20000, z)).2.1, ?_, ?_, ?_, ?_⟩
    · exact congrArg (fun w => w.2.1) hr
    · intro ht; rw [rotSph, if_pos ht]
    · intro ht hk
      rw [rotSph, if_neg ht]
      generalize p - q = k at *
      obtain ⟨n, rfl⟩ : ∃ n, k = 2 * n := ⟨k / 2, by omega⟩
      exact tie_even n
    · intro ht hk
      rw [rotSph, if_neg ht]
      generalize p - q = k at *
      obtain ⟨n, rfl⟩ : ∃ n, k = 2 * n + 1 := ⟨k / 2, by omega⟩
      exact tie_odd n

/-- the case of an odd multiple occurs: centred data −0.0002, 0, 0, 0.0001, 0.0001; the first derivative at sample 2 is 0.00005 -/
example : ∃ dc : List (Fl ℝ), npGradient (descript (fins [-(2 / 10000), 0, 0, 1 / 10000, 1 / 10000]) 1 (fin 0)).1 = .ok dc ∧
    dc[2]? = some (fin (((1 : ℤ) : ℝ) / 20000)) := by
  have hx : ([-(2 / 10000), 0, 0, 1 / 10000, 1 / 10000] : List ℝ) ≠ [] := by simp
  have ha : Spec.avg ([-(2 / 10000), 0, 0, 1 / 10000, 1 / 10000] : List ℝ) = 0 := by norm_num [Spec.avg]
  have hg : ∀ k : ℤ, aroundK ((k : ℝ) / 10000) 4 = (k : ℝ) / 10000 := fun k => around4_eq _ k (by simp)
  have g0 := hg 0; have g1 := hg 1; have g2 := hg (-2)
  push_cast at g0 g1 g2
  have hc : centR [-(2 / 10000), 0, 0, 1 / 10000, 1 / 10000] = [-(2 / 10000), 0, 0, 1 / 10000, 1 / 10000] := by
    unfold centR
    rw [ha]
    simp only [List.map_cons, List.map_nil, sub_zero, g1]
    rw [show (0 : ℝ) / 10000 = 0 by norm_num] at g0
    rw [g0, show -(2 / 10000 : ℝ) = -2 / 10000 by norm_num, g2]
  refine ⟨fins (gradR [-(2 / 10000), 0, 0, 1 / 10000, 1 / 10000]), ?_, ?_⟩
  · rw [show (descript (fins [-(2 / 10000), 0, 0, 1 / 10000, 1 / 10000]) 1 (fin 0)).1 = fins (centR _) from sphF_fins _ hx, hc,
      npGradient_eq _ (by simp [fins]), grad_fins _ (by simp)]
  · rw [List.getElem?_map]
    have : (gradR [-(2 / 10000), 0, 0, 1 / 10000, 1 / 10000])[2]? = some (((1 : ℤ) : ℝ) / 20000) := by
      simp [gradR, gradAtR]; norm_num
    rw [this]; rfl

end Proadv.Props
