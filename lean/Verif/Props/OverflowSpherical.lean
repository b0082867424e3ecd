import Verif.Props.OverflowPoincare
import Verif.Model.Spherical

/-!
# Property C262: overflow in spherical_phasespace_thresholding
-/

set_option linter.unusedSectionVars false
set_option exponentiation.threshold 2000

namespace Proadv.Props

open Proadv Spherical

namespace Over

variable {O : OArith ℝ}

private theorem nn_add (h : Signs O) {v w : Ov O} (hv : NN v) (hw : NN w) : NN (v +. w) := by
  rcases hv with (rfl | rfl) | ⟨x, hx, rfl⟩
  · rcases hw with (rfl | rfl) | ⟨y, hy, rfl⟩
    · exact Or.inl (Or.inl rfl)
    · exact Or.inl (Or.inr rfl)
    · exact Or.inl (Or.inl rfl)
  · exact Or.inl (Or.inr (by cases w <;> rfl))
  · rcases hw with (rfl | rfl) | ⟨y, hy, rfl⟩
    · exact Or.inl (Or.inl rfl)
    · exact Or.inl (Or.inr rfl)
    · exact squash_nn h (add_nonneg hx hy)

private theorem add_not {v w : Ov O} (h : ¬ Ov.IsNum v ∨ ¬ Ov.IsNum w) : ¬ Ov.IsNum (v +. w) := by
  rintro ⟨x, hx⟩
  obtain ⟨a, b, ha, hb, -⟩ := Ov.add_num hx
  rcases h with h | h
  · exact h ⟨a, ha⟩
  · exact h ⟨b, hb⟩

private theorem mul_not {v w : Ov O} (h : ¬ Ov.IsNum v ∨ ¬ Ov.IsNum w) : ¬ Ov.IsNum (v *. w) := by
  rintro ⟨x, hx⟩
  obtain ⟨a, b, ha, hb, -⟩ := Ov.mul_num hx
  rcases h with h | h
  · exact h ⟨a, ha⟩
  · exact h ⟨b, hb⟩

private theorem up_not {v : Ov O} (h : Up v) : ¬ Ov.IsNum v := by
  rintro ⟨x, rfl⟩
  rcases h with h | h <;> cases h

private theorem not_sq {v : Ov O} (h : ¬ Ov.IsNum v) : Up (v ^. 2) := by
  cases v with
  | fin x => exact absurd ⟨x, rfl⟩ h
  | nan => exact Or.inr rfl
  | pinf => exact Or.inl rfl
  | ninf => exact Or.inl rfl

private theorem not_div_up {v w : Ov O} (h : ¬ Ov.IsNum v) (hw : Up w) : v /. w = (PyNum.nan : Ov O) := by
  rcases hw with rfl | rfl <;> cases v with
  | fin x => exact absurd ⟨x, rfl⟩ h
  | nan => rfl
  | pinf => rfl
  | ninf => rfl

private theorem rint_nonneg' {y : ℝ} (h : 0 ≤ y) : (0 : ℝ) ≤ (Fl.rint y : ℝ) := by
  have hf : (0 : ℤ) ≤ ⌊y⌋ := Int.floor_nonneg.mpr h
  have : (0 : ℤ) ≤ Fl.rint y := by
    unfold Fl.rint
    simp only
    split_ifs <;> omega
  exact_mod_cast this

private theorem around_up {v : Ov O} (h : Up v) : Up (PyNum.around v 4) := by
  rcases h with rfl | rfl
  · exact Or.inl rfl
  · exact Or.inr rfl

private theorem around_nn (h : Signs O) {v : Ov O} (hv : NN v) : NN (PyNum.around v 4) := by
  rcases hv with hv | ⟨x, hx, rfl⟩
  · exact Or.inl (around_up hv)
  · show NN (O := O) (Ov.around O (Fl.fin x) 4)
    have h1 : NN (O := O) (Ov.squash O (Fl.fin (x * (10 : ℝ) ^ (4 : ℤ)))) := squash_nn h (by positivity)
    unfold Ov.around
    simp only
    rcases h1 with (e | e) | ⟨y, hy, e⟩
    · rw [show Ov.squash O (Fl.fin (x * (10 : ℝ) ^ (4 : ℤ))) = Fl.pinf from e]; exact Or.inl (Or.inl rfl)
    · rw [show Ov.squash O (Fl.fin (x * (10 : ℝ) ^ (4 : ℤ))) = Fl.nan from e]; exact Or.inl (Or.inr rfl)
    · rw [show Ov.squash O (Fl.fin (x * (10 : ℝ) ^ (4 : ℤ))) = Fl.fin y from e]
      exact squash_nn h (div_nonneg (rint_nonneg' hy) (by positivity))

private theorem halfAxis_up (h : Signs O) (n : Nat) (x : List (Ov O)) (hx : ¬ Ov.IsNum (npNanstd x)) : ¬ Ov.IsNum (halfAxis n x) :=
  up_not (around_up (mul_up (around_nn h (sqrt_nn h _)) (up_of_not (sqrt_nn h _) hx)))

private theorem nan_add (w : Ov O) : (PyNum.nan : Ov O) +. w = PyNum.nan := by cases w <;> rfl

private theorem nan_sub (w : Ov O) : (PyNum.nan : Ov O) -. w = PyNum.nan := by cases w <;> rfl

private theorem nan_lt (w : Ov O) : ((PyNum.nan : Ov O) <. w) = false := by cases w <;> rfl

private theorem div_zero_not (h : Signs O) (v : Ov O) : ¬ Ov.IsNum (v /. ofNat 0) := by
  have e : (ofNat 0 : Ov O) = (Fl.fin 0 : Fl ℝ) := by
    show Ov.squash O (Fl.fin (((0 : ℕ) : ℚ) : ℝ)) = _
    rw [Nat.cast_zero, Rat.cast_zero, squash_zero h]
  rw [e]
  rintro ⟨x, hx⟩
  obtain ⟨y, hy, -⟩ := Ov.squash_fin (O := O) (v := Fl.div v (Fl.fin 0)) hx
  cases v with
  | fin a =>
    simp only [Fl.div, if_true] at hy
    exact absurd hy (Ov.infSgn_ne _ _)
  | nan => cases hy
  | pinf => simp only [Fl.div] at hy; split at hy <;> cases hy
  | ninf => simp only [Fl.div] at hy; split at hy <;> cases hy

end Over

open Over

/-- **C262** an ellipsoid with a half axis that is not a number contains every point: `_spike_indices` flags nothing when one of
its three coefficients is an infinity or NaN -/
theorem C262_ellipsoid (O : OArith ℝ) (h : Signs O) (pts : List (Ov O × Ov O × Ov O)) (a b c : Ov O)
    (hn : ¬ Ov.IsNum a ∨ ¬ Ov.IsNum b ∨ ¬ Ov.IsNum c) : spikeIndices pts a b c = [] := by
  unfold spikeIndices
  have key : ∀ p : Ov O × Ov O × Ov O, beyond around4 a b c p.1 p.2.1 p.2.2 = false := by
    rintro ⟨x, y, z⟩
    have hden : Up ((a *. c *. y) ^. 2 +. b ^. 2 *. (c ^. 2 *. x ^. 2 +. a ^. 2 *. z ^. 2)) := by
      have n2 : NN (c ^. 2 *. x ^. 2 +. a ^. 2 *. z ^. 2) :=
        nn_add h (nn_mul h (sq_nn h c) (sq_nn h x)) (nn_mul h (sq_nn h a) (sq_nn h z))
      refine up_of_not (nn_add h (sq_nn h _) (nn_mul h (sq_nn h b) n2)) (add_not ?_)
      rcases hn with hn | hn | hn
      · exact Or.inl (up_not (not_sq (mul_not (Or.inl (mul_not (Or.inl hn))))))
      · exact Or.inr (up_not (up_mul (not_sq hn) n2))
      · exact Or.inl (up_not (not_sq (mul_not (Or.inl (mul_not (Or.inr hn))))))
    have hsq : Up (PyMath.sqrt ((a *. c *. y) ^. 2 +. b ^. 2 *. (c ^. 2 *. x ^. 2 +. a ^. 2 *. z ^. 2))) := by
      rcases hden with e | e
      · rw [e]; exact Or.inl rfl
      · rw [e]; exact Or.inr rfl
    have hnum : ¬ Ov.IsNum (a *. b *. c *. x) := by
      refine mul_not (Or.inl ?_)
      rcases hn with hn | hn | hn
      · exact mul_not (Or.inl (mul_not (Or.inl hn)))
      · exact mul_not (Or.inl (mul_not (Or.inr hn)))
      · exact mul_not (Or.inr hn)
    have e1 := not_div_up hnum hsq
    have e2 : around4 (PyNum.nan : Ov O) = PyNum.nan := rfl
    have e3 : (PyNum.nan : Ov O) ^. 2 = PyNum.nan := rfl
    unfold beyond
    simp only
    rw [e1, e2, e3, nan_add, nan_add, nan_sub, nan_lt]
  exact whereTrue_none _ _ (fun p _ => key p)

/-- **C262** `spherical_phasespace_thresholding` on a record whose centred version and derivatives are `f`, `dc`, `dc2` and whose angle
is `theta`: when the standard deviation of one rotated coordinate (NaN entries left out) is not a number, nothing is flagged. -/
theorem C262_spherical (O : OArith ℝ) (h : Signs O) (c : List (Ov O)) (it : Int) (cm : Ov O) (f dc dc2 : List (Ov O)) (theta : Ov O)
    (hf : f = c.map (fun x => PyNum.around (x -. npNanmean c) 4)) (h1 : npGradient f = .ok dc) (h2 : npGradient dc = .ok dc2)
    (ht : theta = PyNum.around (PyMath.arctan2 (PyNum.sum (List.zipWith (fun u v => u *. v) f dc)) (PyNum.sum (dc2.map (fun v => v ^. 2)))) 4)
    (hs : ¬ Ov.IsNum (npNanstd ((f.zip (dc.zip dc2)).map (fun p => (rotate theta p).1))) ∨
      ¬ Ov.IsNum (npNanstd ((f.zip (dc.zip dc2)).map (fun p => (rotate theta p).2.1))) ∨
      ¬ Ov.IsNum (npNanstd ((f.zip (dc.zip dc2)).map (fun p => (rotate theta p).2.2)))) :
    sphericalThresholding c it cm = .ok [] := by
  subst hf ht
  unfold sphericalThresholding
  simp only [descript]
  rw [h1]
  show (npGradient dc >>= _) = _
  rw [h2]
  show Except.ok (spikeIndices _ _ _ _) = _
  simp only [List.map_map]
  refine congrArg Except.ok (C262_ellipsoid O h _ _ _ _ ?_)
  rcases hs with hs | hs | hs
  · exact Or.inl (halfAxis_up h _ _ hs)
  · exact Or.inr (Or.inl (halfAxis_up h _ _ hs))
  · exact Or.inr (Or.inr (halfAxis_up h _ _ hs))

/-- **C262** when the angle is NaN (two products of sample and derivative overflow with opposite signs), all rotated coordinates are NaN
and nothing is flagged, whatever the samples are -/
theorem C262_angle (O : OArith ℝ) (h : Signs O) (c : List (Ov O)) (it : Int) (cm : Ov O) (f dc dc2 : List (Ov O))
    (hf : f = c.map (fun x => PyNum.around (x -. npNanmean c) 4)) (h1 : npGradient f = .ok dc) (h2 : npGradient dc = .ok dc2)
    (ht : PyNum.sum (List.zipWith (fun u v => u *. v) f dc) = (PyNum.nan : Ov O)) :
    sphericalThresholding c it cm = .ok [] := by
  refine C262_spherical O h c it cm f dc dc2 PyNum.nan hf h1 h2 (by rw [ht]; rfl) (Or.inl ?_)
  have hr : ∀ p : Ov O × Ov O × Ov O, (rotate (PyNum.nan : Ov O) p).1 = PyNum.nan := by
    rintro ⟨x, y, z⟩
    have e : ((PyNum.nan : Ov O) ==. lit 0) = false := rfl
    have e1 : x *. (PyNum.nan : Ov O) = PyNum.nan := by cases x <;> rfl
    have e2 : PyNum.around (PyMath.cos (PyNum.nan : Ov O)) 4 = PyNum.nan := rfl
    unfold rotate
    rw [e]
    simp only [Bool.false_eq_true, if_false]
    rw [e2, e1, nan_add, nan_add]
    rfl
  have hl : ((f.zip (dc.zip dc2)).map (fun p => (rotate (PyNum.nan : Ov O) p).1)).filter (fun x => !(PyNum.isNaN x)) = [] := by
    rw [List.filter_eq_nil_iff]
    intro x hx
    obtain ⟨p, -, rfl⟩ := List.mem_map.mp hx
    rw [hr]
    simp [PyNum.isNaN, PyNum.nan, Fl.isNaN]
  unfold npNanstd
  rw [hl]
  rintro ⟨x, hx⟩
  obtain ⟨a, ha, -⟩ := Ov.sqrt_num (v := npVar ([] : List (Ov O))) hx
  exact div_zero_not h _ ⟨a, ha⟩

theorem around_big (k : ℤ) (hk : |k| ≤ 16) :
    PyNum.around (Ov.fin bin64oR ((k : ℝ) * 2 ^ 600)) 4 = Ov.fin bin64oR ((k : ℝ) * 2 ^ 600) := by
  have hk' := abs_le.mp hk
  show Ov.around bin64oR (Fl.fin ((k : ℝ) * 2 ^ 600)) 4 = _
  unfold Ov.around
  have e1 : (k : ℝ) * 2 ^ 600 * (10 : ℝ) ^ (4 : ℤ) = ((k * 10000 : ℤ) : ℝ) * 2 ^ 600 := by
    push_cast; rw [show (10 : ℝ) ^ (4 : ℤ) = 10000 by norm_num]; ring
  have e2 : (Fl.rint (((k * 10000 : ℤ) : ℝ) * 2 ^ 600) : ℝ) = ((k * 10000 : ℤ) : ℝ) * 2 ^ 600 := by
    rw [show ((k * 10000 : ℤ) : ℝ) * 2 ^ 600 = ((k * 10000 * 2 ^ 600 : ℤ) : ℝ) by push_cast; ring, rint_int]
  simp only
  rw [e1, squash_big _ (k * 10000) rfl (by rw [abs_le]; constructor <;> omega)]
  simp only
  rw [e2, show ((k * 10000 : ℤ) : ℝ) * 2 ^ 600 / (10 : ℝ) ^ (4 : ℤ) = (k : ℝ) * 2 ^ 600 by
    push_cast; rw [show (10 : ℝ) ^ (4 : ℤ) = 10000 by norm_num]; ring]
  rw [squash_big _ k rfl (by rw [abs_le]; constructor <;> omega)]
  rfl

/-- the difference of two samples divided by `d` -/
private theorem slope_big (p q k d : ℤ) (hd : d = 1 ∨ d = 2) (h : p - q = k * d) (hk : |k| ≤ 16) :
    (Ov.fin bin64oR (p * 2 ^ 600) -. Ov.fin bin64oR (q * 2 ^ 600)) /. lit (d : ℚ) = Ov.fin bin64oR ((k : ℝ) * 2 ^ 600) := by
  have hk' := abs_le.mp hk
  have ld : (lit (d : ℚ) : Ov bin64oR) = Ov.fin _ (d : ℝ) := by
    have n1 := nat64 1 (by norm_num)
    have n2 := nat64 2 (by norm_num)
    rcases hd with rfl | rfl
    · rw [Ov.lit_num (by simpa using n1.1) (by simpa using n1.2)]; norm_num
    · rw [Ov.lit_num (by simpa using n2.1) (by simpa using n2.2)]; norm_num
  rw [sub_big p q (by rw [abs_le]; rcases hd with rfl | rfl <;> constructor <;> omega), ld,
    div_big (p - q) d (by rcases hd with rfl | rfl <;> norm_num) k h (by rw [abs_le]; constructor <;> omega)]

/-- the product of two samples overflows unless one is 0 -/
private theorem prod_big (p q : ℤ) (h : |p * q| ≤ 2 ^ 53) :
    (Ov.fin bin64oR (p * 2 ^ 600) *. Ov.fin bin64oR (q * 2 ^ 600)) =
      (if p * q = 0 then Fl.fin 0 else if 0 < p * q then Fl.pinf else Fl.ninf : Fl ℝ) := by
  have e : (p : ℝ) * 2 ^ 600 * (q * 2 ^ 600) = ((p * q : ℤ) : ℝ) * 2 ^ 1200 := by push_cast; ring
  have er : bin64oR.rnd (((p * q : ℤ) : ℝ) * 2 ^ 1200) = ((p * q : ℤ) : ℝ) * 2 ^ 1200 := by
    show rnd53R _ = _
    have := rnd53R_rep (p * q) 1200 h
    rw [show (2 : ℝ) ^ (1200 : ℤ) = 2 ^ 1200 by norm_cast] at this
    exact this
  show Ov.squash bin64oR (Fl.fin ((p : ℝ) * 2 ^ 600 * (q * 2 ^ 600))) = _
  rw [e]
  by_cases h0 : p * q = 0
  · rw [if_pos h0, h0, Int.cast_zero, zero_mul, squash_zero bin64oR_signs]
  · rw [if_neg h0]
    have h1 : (1 : ℝ) ≤ |((p * q : ℤ) : ℝ)| := by exact_mod_cast Int.one_le_abs h0
    have hbig : ¬ |bin64oR.rnd (((p * q : ℤ) : ℝ) * 2 ^ 1200)| ≤ bin64oR.top := by
      rw [er, abs_mul, abs_of_pos (by positivity : (0 : ℝ) < 2 ^ 1200), not_le]
      show ((2 : ℝ) ^ 53 - 1) * 2 ^ 971 < _
      calc ((2 : ℝ) ^ 53 - 1) * 2 ^ 971 < 1 * 2 ^ 1200 := by norm_num
        _ ≤ _ := mul_le_mul_of_nonneg_right h1 (by positivity)
    have e2 : Ov.squash bin64oR (Fl.fin (((p * q : ℤ) : ℝ) * 2 ^ 1200)) =
        if 0 < bin64oR.rnd (((p * q : ℤ) : ℝ) * 2 ^ 1200) then Fl.pinf else Fl.ninf := if_neg hbig
    rw [e2, er]
    by_cases h2 : 0 < p * q
    · rw [if_pos h2, if_pos (mul_pos (by exact_mod_cast h2) (by positivity))]
    · rw [if_neg h2, if_neg]
      rw [not_lt]
      refine mul_nonpos_of_nonpos_of_nonneg (by exact_mod_cast not_lt.mp h2) (by positivity)

/-- the gradient of eight multiples of `2 ^ 600` -/
theorem gradient_big : ∀ a0 a1 a2 a3 a4 a5 a6 a7 k0 k1 k2 k3 k4 k5 k6 k7 : ℤ, a1 - a0 = k0 * 1 → a2 - a0 = k1 * 2 → a3 - a1 = k2 * 2 →
    a4 - a2 = k3 * 2 → a5 - a3 = k4 * 2 → a6 - a4 = k5 * 2 → a7 - a5 = k6 * 2 → a7 - a6 = k7 * 1 → |k0| ≤ 16 → |k1| ≤ 16 → |k2| ≤ 16 →
    |k3| ≤ 16 → |k4| ≤ 16 → |k5| ≤ 16 → |k6| ≤ 16 → |k7| ≤ 16 →
    npGradient (bigs [a0, a1, a2, a3, a4, a5, a6, a7]) = .ok (bigs [k0, k1, k2, k3, k4, k5, k6, k7]) := by
  intro a0 a1 a2 a3 a4 a5 a6 a7 k0 k1 k2 k3 k4 k5 k6 k7 h0 h1 h2 h3 h4 h5 h6 h7 b0 b1 b2 b3 b4 b5 b6 b7
  have e : npGradient (bigs [a0, a1, a2, a3, a4, a5, a6, a7]) = .ok
      [(Ov.fin bin64oR (a1 * 2 ^ 600) -. Ov.fin bin64oR (a0 * 2 ^ 600)) /. lit ((1 : ℤ) : ℚ),
        (Ov.fin bin64oR (a2 * 2 ^ 600) -. Ov.fin bin64oR (a0 * 2 ^ 600)) /. lit ((2 : ℤ) : ℚ),
        (Ov.fin bin64oR (a3 * 2 ^ 600) -. Ov.fin bin64oR (a1 * 2 ^ 600)) /. lit ((2 : ℤ) : ℚ),
        (Ov.fin bin64oR (a4 * 2 ^ 600) -. Ov.fin bin64oR (a2 * 2 ^ 600)) /. lit ((2 : ℤ) : ℚ),
        (Ov.fin bin64oR (a5 * 2 ^ 600) -. Ov.fin bin64oR (a3 * 2 ^ 600)) /. lit ((2 : ℤ) : ℚ),
        (Ov.fin bin64oR (a6 * 2 ^ 600) -. Ov.fin bin64oR (a4 * 2 ^ 600)) /. lit ((2 : ℤ) : ℚ),
        (Ov.fin bin64oR (a7 * 2 ^ 600) -. Ov.fin bin64oR (a5 * 2 ^ 600)) /. lit ((2 : ℤ) : ℚ),
        (Ov.fin bin64oR (a7 * 2 ^ 600) -. Ov.fin bin64oR (a6 * 2 ^ 600)) /. lit ((1 : ℤ) : ℚ)] := by
    rw [show ((1 : ℤ) : ℚ) = 1 by norm_num, show ((2 : ℤ) : ℚ) = 2 by norm_num]
    rfl
  rw [e, slope_big _ _ _ 1 (Or.inl rfl) h0 b0, slope_big _ _ _ 2 (Or.inr rfl) h1 b1, slope_big _ _ _ 2 (Or.inr rfl) h2 b2,
    slope_big _ _ _ 2 (Or.inr rfl) h3 b3, slope_big _ _ _ 2 (Or.inr rfl) h4 b4, slope_big _ _ _ 2 (Or.inr rfl) h5 b5,
    slope_big _ _ _ 2 (Or.inr rfl) h6 b6, slope_big _ _ _ 1 (Or.inl rfl) h7 b7]
  rfl

/-- the slopes of the centred spike -/
theorem slope1 : npGradient (bigs [-1, -1, -1, -1, 7, -1, -1, -1]) = .ok (bigs [0, 0, 0, 4, 0, -4, 0, 0]) := by
  apply gradient_big <;> norm_num

/-- their slopes -/
theorem slope2 : npGradient (bigs [0, 0, 0, 4, 0, -4, 0, 0]) = .ok (bigs [0, 0, 2, 0, -4, 0, 2, 0]) := by
  apply gradient_big <;> norm_num

/-- the sum of the products of samples and slopes is NaN: one is minus infinity, one plus infinity -/
theorem product_nan : PyNum.sum (List.zipWith (fun u v => u *. v) (bigs [-1, -1, -1, -1, 7, -1, -1, -1]) (bigs [0, 0, 0, 4, 0, -4, 0, 0])) =
    (PyNum.nan : Ov bin64oR) := by
  have ez : List.zipWith (fun u v => u *. v) (bigs [-1, -1, -1, -1, 7, -1, -1, -1]) (bigs [0, 0, 0, 4, 0, -4, 0, 0]) =
      ([Fl.fin 0, Fl.fin 0, Fl.fin 0, Fl.ninf, Fl.fin 0, Fl.pinf, Fl.fin 0, Fl.fin 0] : List (Fl ℝ)) := by
    unfold bigs
    simp only [List.map_cons, List.map_nil, List.zipWith_cons_cons, List.zipWith_nil_left]
    rw [prod_big (-1) 0 (by norm_num), prod_big (-1) 4 (by norm_num), prod_big 7 0 (by norm_num), prod_big (-1) (-4) (by norm_num)]
    norm_num
    rfl
  rw [ez]
  have z : Ov.squash bin64oR (Fl.add (Fl.fin 0) (Fl.fin 0)) = Fl.fin 0 := by
    show Ov.squash bin64oR (Fl.fin (0 + 0)) = _
    rw [add_zero, squash_zero bin64oR_signs]
  show bin64oR.osum _ = Fl.nan
  rw [show bin64oR.osum = (leftOArith rnd53R ((2 ^ 53 - 1) * 2 ^ 971)).osum from rfl, leftOArith_osum]
  change Ov.squash bin64oR (Fl.add (Ov.squash bin64oR (Fl.add (Ov.squash bin64oR (Fl.add (Ov.squash bin64oR (Fl.add
    (Ov.squash bin64oR (Fl.add (Ov.squash bin64oR (Fl.add (Ov.squash bin64oR (Fl.add (Ov.squash bin64oR (Fl.add
    (Fl.fin 0) (Fl.fin 0))) (Fl.fin 0))) (Fl.fin 0))) Fl.ninf)) (Fl.fin 0))) Fl.pinf)) (Fl.fin 0))) (Fl.fin 0)) = Fl.nan
  rw [z, z, z]
  rfl

/-- **C262** binary64 witness: the spike `2 ^ 603` among zeros is not flagged, in any iteration and with any previous mean -/
theorem C262_binary64 (it : Int) (cm : Ov bin64oR) :
    sphericalThresholding (Ov.fins bin64oR [0, 0, 0, 0, 2 ^ 603, 0, 0, 0]) it cm = .ok [] := by
  have el : Ov.fins bin64oR [0, 0, 0, 0, 2 ^ 603, 0, 0, 0] = bigs [0, 0, 0, 0, 8, 0, 0, 0] := by
    unfold bigs
    congr 1
    norm_num
  have hm : npNanmean (bigs [0, 0, 0, 0, 8, 0, 0, 0]) = Ov.fin _ (((1 : ℤ) : ℝ) * 2 ^ 600) :=
    mean_big 0 0 0 0 8 0 0 0 1 (by norm_num) (by norm_num) (by norm_num) (by norm_num) (by norm_num) (by norm_num) (by norm_num)
      (by norm_num) (by norm_num)
  have hf : (bigs [0, 0, 0, 0, 8, 0, 0, 0]).map (fun x => PyNum.around (x -. npNanmean (bigs [0, 0, 0, 0, 8, 0, 0, 0])) 4) =
      bigs [-1, -1, -1, -1, 7, -1, -1, -1] := by
    rw [hm]
    unfold bigs
    simp only [List.map_cons, List.map_nil]
    rw [sub_big 0 1 (by norm_num), sub_big 8 1 (by norm_num), around_big _ (by norm_num), around_big _ (by norm_num)]
    norm_num
  rw [el]
  exact C262_angle bin64oR bin64oR_signs _ it cm _ _ _ hf.symm slope1 slope2 product_nan

end Proadv.Props
