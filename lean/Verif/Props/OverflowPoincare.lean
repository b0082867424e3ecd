import Verif.Props.OverflowDetect

/-!
# Property C260: overflow in velocity_correlation and phasespace_thresholding
-/

set_option linter.unusedSectionVars false
set_option exponentiation.threshold 2000

namespace Proadv.Props

open Proadv Descriptive Series Spread Detect

/-- rounding keeps signs and 0, and 0 is representable -/
structure Over.Signs (O : OArith ℝ) : Prop where
  nonneg : ∀ x, 0 ≤ x → 0 ≤ O.rnd x
  zero : O.rnd 0 = 0
  top : 0 ≤ O.top

namespace Over

variable {O : OArith ℝ}

/-- plus infinity or NaN -/
def Up (v : Ov O) : Prop := v = Ov.inf O ∨ v = (PyNum.nan : Ov O)

/-- minus infinity or NaN -/
def Dn (v : Ov O) : Prop := v = (Fl.ninf : Fl ℝ) ∨ v = (PyNum.nan : Ov O)

/-- not negative, or NaN -/
def NN (v : Ov O) : Prop := Up v ∨ ∃ x, 0 ≤ x ∧ v = Ov.fin O x

/-- zero or NaN -/
private def ZN (v : Ov O) : Prop := v = Ov.fin O 0 ∨ v = (PyNum.nan : Ov O)

theorem squash_nn (h : Signs O) {x : ℝ} (hx : 0 ≤ x) : NN (O := O) (Ov.squash O (Fl.fin x)) := by
  have h0 := h.nonneg x hx
  by_cases hl : |O.rnd x| ≤ O.top
  · rw [Ov.squash_ok hl]; exact Or.inr ⟨_, h0, rfl⟩
  · have e : Ov.squash O (Fl.fin x) = if 0 < O.rnd x then Fl.pinf else Fl.ninf := if_neg hl
    have h1 : 0 < O.rnd x := by
      rcases h0.lt_or_eq with h1 | h1
      · exact h1
      · exact absurd (by rw [← h1, abs_zero]; exact h.top) hl
    rw [e, if_pos h1]; exact Or.inl (Or.inl rfl)

theorem squash_zero (h : Signs O) : Ov.squash O (Fl.fin 0) = Fl.fin 0 := by
  rw [Ov.squash_ok (by rw [h.zero, abs_zero]; exact h.top), h.zero]

theorem sq_nn (h : Signs O) (v : Ov O) : NN (v ^. 2) := by
  cases v with
  | fin x => exact squash_nn h (sq_nonneg x)
  | nan => exact Or.inl (Or.inr rfl)
  | pinf => exact Or.inl (Or.inl rfl)
  | ninf => exact Or.inl (Or.inl rfl)

theorem sqrt_nn (h : Signs O) (v : Ov O) : NN (PyMath.sqrt v) := by
  cases v with
  | fin x =>
    show NN (O := O) (Ov.squash O (Fl.sqrtR (Fl.fin x)))
    simp only [Fl.sqrtR]
    split
    · exact Or.inl (Or.inr rfl)
    · exact squash_nn h (Real.sqrt_nonneg x)
  | nan => exact Or.inl (Or.inr rfl)
  | pinf => exact Or.inl (Or.inl rfl)
  | ninf => exact Or.inl (Or.inr rfl)

theorem up_of_not {v : Ov O} (h : NN v) (hn : ¬ Ov.IsNum v) : Up v := by
  rcases h with h | ⟨x, -, rfl⟩
  · exact h
  · exact absurd ⟨x, rfl⟩ hn

theorem up_sq {v : Ov O} (h : Up v) : Up (v ^. 2) := by
  rcases h with rfl | rfl
  · exact Or.inl rfl
  · exact Or.inr rfl

theorem up_mul {v w : Ov O} (h : Up v) (hw : NN w) : Up (v *. w) := by
  rcases h with rfl | rfl
  · rcases hw with (rfl | rfl) | ⟨x, hx, rfl⟩
    · exact Or.inl rfl
    · exact Or.inr rfl
    · show Up (O := O) (Ov.squash O (Fl.infSgn x))
      rcases hx.lt_or_eq with h1 | h1
      · rw [Fl.infSgn, if_neg h1.ne', if_pos h1]; exact Or.inl rfl
      · rw [Fl.infSgn, if_pos h1.symm]; exact Or.inr rfl
  · cases w <;> exact Or.inr rfl

theorem mul_up {v w : Ov O} (h : NN v) (hw : Up w) : Up (v *. w) := by
  rcases hw with rfl | rfl
  · rcases h with (rfl | rfl) | ⟨x, hx, rfl⟩
    · exact Or.inl rfl
    · exact Or.inr rfl
    · show Up (O := O) (Ov.squash O (Fl.infSgn x))
      rcases hx.lt_or_eq with h1 | h1
      · rw [Fl.infSgn, if_neg h1.ne', if_pos h1]; exact Or.inl rfl
      · rw [Fl.infSgn, if_pos h1.symm]; exact Or.inr rfl
  · cases v <;> exact Or.inr rfl

theorem nn_mul (hs : Signs O) {v w : Ov O} (h : NN v) (hw : NN w) : NN (v *. w) := by
  rcases h with h | ⟨x, hx, rfl⟩
  · exact Or.inl (up_mul h hw)
  · rcases hw with hw | ⟨y, hy, rfl⟩
    · exact Or.inl (mul_up (Or.inr ⟨x, hx, rfl⟩) hw)
    · exact squash_nn hs (mul_nonneg hx hy)

private theorem up_sub {v w : Ov O} (h : Up v) (hw : NN w) : Up (v -. w) := by
  rcases h with rfl | rfl
  · rcases hw with (rfl | rfl) | ⟨x, -, rfl⟩
    · exact Or.inr rfl
    · exact Or.inr rfl
    · exact Or.inl rfl
  · cases w <;> exact Or.inr rfl

private theorem sub_up {v w : Ov O} (h : NN v) (hw : Up w) : Dn (v -. w) := by
  rcases hw with rfl | rfl
  · rcases h with (rfl | rfl) | ⟨x, -, rfl⟩
    · exact Or.inr rfl
    · exact Or.inr rfl
    · exact Or.inl rfl
  · cases v <;> exact Or.inr rfl

private theorem up_sub_up {v w : Ov O} (h : Up v) (hw : Up w) : v -. w = (PyNum.nan : Ov O) := by
  rcases h with rfl | rfl <;> rcases hw with rfl | rfl <;> rfl

private theorem nan_pos (t : Ov O) : (t <. (PyNum.nan : Ov O)) = false := by cases t <;> rfl

theorem lit_zero (h : Signs O) : (lit 0 : Ov O) = Ov.fin O 0 := by
  show Ov.squash O (Fl.fin ((0 : ℚ) : ℝ)) = _
  rw [Rat.cast_zero, squash_zero h]; rfl

/-- opposite infinities divided by the same value are not both positive -/
private theorem not_both (h : Signs O) {p q : Ov O} (hp : Up p) (hq : Dn q) (f : Ov O) :
    ((lit 0 <. (p /. f)) && (lit 0 <. (q /. f)) : Bool) = false := by
  rw [lit_zero h]
  have nd : ∀ f : Ov O, (PyNum.nan : Ov O) /. f = PyNum.nan := fun f => by cases f <;> rfl
  rcases hp with rfl | rfl
  · rcases hq with rfl | rfl
    · cases f with
      | fin x =>
        show ((PyNum.lt (Ov.fin O 0) (Ov.squash O (if 0 ≤ x then Fl.pinf else Fl.ninf) : Ov O)) &&
          (PyNum.lt (Ov.fin O 0) (Ov.squash O (if 0 ≤ x then Fl.ninf else Fl.pinf) : Ov O))) = false
        split <;> rfl
      | nan => rfl
      | pinf => rfl
      | ninf => rfl
    · rw [nd f, nan_pos, Bool.and_false]
  · rw [nd f, nan_pos, Bool.false_and]

private theorem axes (h : Signs O) (s1 s2 theta lam : Ov O) (hl : NN lam) (h1 : Up s1 ∨ Up s2) :
    (calculateAb s1 s2 theta lam).2 = .pair (lit (10 ^ 10)) (lit (10 ^ 10)) := by
  have key : ((lit 0 <. axisA s1 s2 theta lam) && (lit 0 <. axisB s1 s2 theta lam) : Bool) = false := by
    unfold axisA axisB
    rcases h1 with h1 | h1
    · have r1 := up_sq (mul_up hl h1)
      exact not_both h (up_sub (up_mul r1 (sq_nn h _)) (nn_mul h (sq_nn h _) (sq_nn h _)))
        (sub_up (nn_mul h (sq_nn h _) (sq_nn h _)) (up_mul r1 (sq_nn h _))) _
    · have r2 := up_sq (mul_up hl h1)
      rw [Bool.and_comm]
      exact not_both h (up_sub (up_mul r2 (sq_nn h _)) (nn_mul h (sq_nn h _) (sq_nn h _)))
        (sub_up (nn_mul h (sq_nn h _) (sq_nn h _)) (up_mul r2 (sq_nn h _))) _
  unfold calculateAb
  simp only [key]
  rfl

private theorem bcast_two {α β γ : Type} (f : α → β → γ) (l : List α) (hl : 3 ≤ l.length) (b1 b2 : β) :
    bcast f l [b1, b2] = .error .valueError := by
  match l, hl with
  | a :: b :: c :: t, _ =>
    unfold bcast
    rw [if_neg (by simp)]

private theorem bcast_eq {α β γ : Type} (f : α → β → γ) (l : List α) (m : List β) (hl : l.length = m.length) :
    bcast f l m = .ok (List.zipWith f l m) := by
  unfold bcast
  rw [if_pos hl]

private theorem rho_pair (x y : List (Ov O)) (theta a b1 b2 : Ov O) (hl : x.length = y.length) (h3 : 3 ≤ x.length) :
    calculateRho x y theta a (.pair b1 b2) = .error .valueError := by
  unfold calculateRho
  rw [bcast_eq _ _ _ hl, bcast_eq _ _ _ hl]
  show (bcast _ (List.zipWith (rotY theta) x y) [b1, b2] >>= _) = _
  rw [bcast_two _ _ (by rw [List.length_zipWith]; omega)]
  rfl

private theorem rho_cases (x y : List (Ov O)) (theta a : Ov O) (b : BCoef (Ov O)) (hl : x.length = y.length) (h3 : 3 ≤ x.length) :
    (∃ r, calculateRho x y theta a b = .ok r) ∨ calculateRho x y theta a b = .error .valueError := by
  cases b with
  | scal b => exact Or.inl ⟨_, bcast_eq _ _ _ hl⟩
  | pair b1 b2 => exact Or.inr (rho_pair x y theta a b1 b2 hl h3)

private theorem div_up (h : Signs O) (v : Ov O) {w : Ov O} (hw : Up w) : ZN (v /. w) := by
  rcases hw with rfl | rfl
  · cases v with
    | fin x => left; exact squash_zero h
    | nan => exact Or.inr rfl
    | pinf => exact Or.inr rfl
    | ninf => exact Or.inr rfl
  · cases v <;> exact Or.inr rfl

private theorem zn_sq (h : Signs O) {v : Ov O} (hv : ZN v) : ZN (v ^. 2) := by
  rcases hv with rfl | rfl
  · left
    show Ov.squash O (Fl.fin ((0 : ℝ) ^ 2)) = _
    rw [zero_pow two_ne_zero]; exact squash_zero h
  · exact Or.inr rfl

private theorem zn_add (h : Signs O) {v w : Ov O} (hv : ZN v) (hw : ZN w) : ZN (v +. w) := by
  rcases hv with rfl | rfl
  · rcases hw with rfl | rfl
    · left
      show Ov.squash O (Fl.fin ((0 : ℝ) + 0)) = _
      rw [add_zero]; exact squash_zero h
    · exact Or.inr rfl
  · cases w <;> exact Or.inr rfl

private theorem one_not (h : Signs O) {v : Ov O} (hv : ZN v) : (lit 1 <. v : Bool) = false := by
  rcases hv with rfl | rfl
  · have h1 : NN (lit 1 : Ov O) := by
      show NN (O := O) (Ov.squash O (Fl.fin ((1 : ℚ) : ℝ)))
      exact squash_nn h (by norm_num)
    rcases h1 with (e | e) | ⟨x, hx, e⟩
    · rw [e]; rfl
    · rw [e]; rfl
    · rw [e]; exact decide_eq_false (not_lt.mpr hx)
  · exact nan_pos _

private theorem rho_silent (h : Signs O) (x y : List (Ov O)) (theta a b : Ov O) (ha : Up a) (hb : Up b) (hl : x.length = y.length) :
    ∃ r, calculateRho x y theta a (.scal b) = .ok r ∧ outside r = [] := by
  refine ⟨_, bcast_eq _ _ _ hl, ?_⟩
  unfold outside
  refine whereTrue_none _ _ (fun r hr => one_not h ?_)
  rw [List.mem_iff_getElem] at hr
  obtain ⟨i, hi, rfl⟩ := hr
  rw [List.getElem_zipWith]
  unfold rhoAt
  exact zn_add h (zn_sq h (div_up h _ ha)) (zn_sq h (div_up h _ hb))

theorem nan_div (f : Ov O) : (PyNum.nan : Ov O) /. f = PyNum.nan := by cases f <;> rfl

private theorem lambda_nn (h : Signs O) (n : Nat) : NN (lambdaOf n : Ov O) := sqrt_nn h _

end Over

open Over

/-- **C260** three records of the same length `n ≥ 3`: when the standard deviation of one of the centred components is not a
number, `velocity_correlation` raises ValueError.  No hypothesis on the samples. -/
theorem C260_correlation (O : OArith ℝ) (h : Signs O) (u v w : List (Ov O)) (h3 : 3 ≤ u.length) (hv : v.length = u.length)
    (hw : w.length = u.length)
    (hs : ¬ Ov.IsNum (npStd (u.map (fun x => x -. npMean u))) ∨ ¬ Ov.IsNum (npStd (v.map (fun x => x -. npMean v))) ∨
      ¬ Ov.IsNum (npStd (w.map (fun x => x -. npMean w)))) :
    velocityCorrelation u v w = .error .valueError := by
  have nu : u ≠ [] := by rintro rfl; simp at h3
  have nv : v ≠ [] := by rintro rfl; simp at hv; omega
  have nw : w ≠ [] := by rintro rfl; simp at hw; omega
  have ang : ∀ a b : List (Ov O), a.length = b.length → ∃ t, angle a b = .ok t := by
    intro a b hab
    unfold angle
    rw [bcast_eq _ _ _ hab]
    exact ⟨_, rfl⟩
  unfold velocityCorrelation centred
  rw [meanOf_eq u nu, meanOf_eq v nv, meanOf_eq w nw]
  set cu := u.map (fun x => x -. npMean u) with hcu
  set cv := v.map (fun x => x -. npMean v) with hcv
  set cw := w.map (fun x => x -. npMean w) with hcw
  have lu : cu.length = u.length := List.length_map _
  have lv : cv.length = u.length := (List.length_map _).trans hv
  have lw : cw.length = u.length := (List.length_map _).trans hw
  have su : std (Arr.flt cu) = .ok (npStd cu) := std_red false cu (by rw [← List.length_pos_iff]; omega)
  have sv : std (Arr.flt cv) = .ok (npStd cv) := std_red false cv (by rw [← List.length_pos_iff]; omega)
  have sw : std (Arr.flt cw) = .ok (npStd cw) := std_red false cw (by rw [← List.length_pos_iff]; omega)
  obtain ⟨t1, a1⟩ := ang cu cv (by omega)
  obtain ⟨t2, a2⟩ := ang cu cw (by omega)
  obtain ⟨t3, a3⟩ := ang cv cw (by omega)
  show (std (Arr.flt cu) >>= fun su => std (Arr.flt cv) >>= fun sv => std (Arr.flt cw) >>= fun sw => _) = _
  rw [su, sv, sw]
  show (angle cu cv >>= fun theta1 => angle cu cw >>= fun theta2 => angle cv cw >>= fun theta3 => _) = _
  rw [a1, a2, a3]
  show (calculateRho cu cv t1 _ _ >>= _) = _
  have hl := lambda_nn h cu.length
  have upu : ¬ Ov.IsNum (npStd cu) → Up (npStd cu) := up_of_not (sqrt_nn h _)
  have upv : ¬ Ov.IsNum (npStd cv) → Up (npStd cv) := up_of_not (sqrt_nn h _)
  have upw : ¬ Ov.IsNum (npStd cw) → Up (npStd cw) := up_of_not (sqrt_nn h _)
  by_cases c1 : Up (npStd cu) ∨ Up (npStd cv)
  · rw [axes h _ _ t1 _ hl c1, rho_pair _ _ _ _ _ _ (by omega) (by omega)]
    rfl
  · have c2 : Up (npStd cu) ∨ Up (npStd cw) := by
      rcases hs with hs | hs | hs
      · exact absurd (Or.inl (upu hs)) c1
      · exact absurd (Or.inr (upv hs)) c1
      · exact Or.inr (upw hs)
    rcases rho_cases cu cv t1 (calculateAb (npStd cu) (npStd cv) t1 (lambdaOf cu.length)).1
        (calculateAb (npStd cu) (npStd cv) t1 (lambdaOf cu.length)).2 (by omega) (by omega) with ⟨r, hr⟩ | hr
    · rw [hr]
      show (calculateRho cu cw t2 _ _ >>= _) = _
      rw [axes h _ _ t2 _ hl c2, rho_pair _ _ _ _ _ _ (by omega) (by omega)]
      rfl
    · rw [hr]; rfl

/-- **C260** when the standard deviations of the record and of its two derivatives are not numbers, `phasespace_thresholding`
flags nothing.  No hypothesis on the samples. -/
theorem C260_phasespace (O : OArith ℝ) (h : Signs O) (b : Bool) (c : List (Ov O)) (hc : c ≠ [])
    (h1 : ¬ Ov.IsNum (npStd c)) (h2 : ¬ Ov.IsNum (npStd (calculateDerivatives ⟨1, b, c⟩).1))
    (h3 : ¬ Ov.IsNum (npStd (calculateDerivatives ⟨1, b, c⟩).2)) :
    phasespaceThresholding ⟨1, b, c⟩ = .ok [] := by
  unfold phasespaceThresholding
  rw [if_neg (by simp)]
  set d1 := (calculateDerivatives (⟨1, b, c⟩ : Arr (Ov O))).1 with hd1
  set d2 := (calculateDerivatives (⟨1, b, c⟩ : Arr (Ov O))).2 with hd2
  have l1 : d1.length = c.length := by rw [hd1]; simp [calculateDerivatives, centralDiff]
  have l2 : d2.length = c.length := by rw [hd2]; simp [calculateDerivatives, centralDiff]
  have hpos := List.length_pos_of_ne_nil hc
  have u1 : Up (npStd c) := up_of_not (sqrt_nn h _) h1
  have u2 : Up (npStd d1) := up_of_not (sqrt_nn h _) h2
  have u3 : Up (npStd d2) := up_of_not (sqrt_nn h _) h3
  have hl := lambda_nn h (O := O) c.length
  unfold phaseParameters
  show ((std ⟨1, b, c⟩ >>= fun sc => std ⟨1, b, d1⟩ >>= fun sdc => std ⟨1, b, d2⟩ >>= fun sdc2 => _) >>= _) = _
  rw [std_red b c hc, std_red b d1 (by rw [← List.length_pos_iff]; omega), std_red b d2 (by rw [← List.length_pos_iff]; omega)]
  show ((angle c d2 >>= _) >>= _) = _
  unfold angle
  rw [bcast_eq _ _ _ (by omega : c.length = d2.length)]
  set T : Ov O := PyMath.arctan (PyNum.sum (List.zipWith (fun u v => u *. v) c d2) /. PyNum.sum (c.map (fun u => u ^. 2)))
  change (calculateRho c d1 (lit 0) (lambdaOf c.length *. npStd c) (.scal (lambdaOf c.length *. npStd d1)) >>= fun rho1 =>
    calculateRho d1 d2 (lit 0) (lambdaOf c.length *. npStd d1) (.scal (lambdaOf c.length *. npStd d2)) >>= fun rho2 =>
    calculateRho c d2 T
      (PyMath.sqrt ((lambdaOf c.length *. npStd c) ^. 2 *. PyMath.cos T ^. 2 -. (lambdaOf c.length *. npStd d2) ^. 2 *. PyMath.sin T ^. 2) /. fact T)
      (.scal (PyMath.sqrt ((lambdaOf c.length *. npStd d2) ^. 2 *. PyMath.cos T ^. 2 -.
        (lambdaOf c.length *. npStd c) ^. 2 *. PyMath.sin T ^. 2) /. fact T)) >>= fun rho3 =>
    .ok (uniqueNat (outside rho1 ++ outside rho2 ++ outside rho3))) = _
  have s1 := up_sq (mul_up hl u1)
  have s3 := up_sq (mul_up hl u3)
  have nn : ∀ t : Ov O, (lambdaOf c.length *. npStd c) ^. 2 *. PyMath.cos t ^. 2 -. (lambdaOf c.length *. npStd d2) ^. 2 *. PyMath.sin t ^. 2 =
      (PyNum.nan : Ov O) := fun t => up_sub_up (up_mul s1 (sq_nn h _)) (up_mul s3 (sq_nn h _))
  have nn' : ∀ t : Ov O, (lambdaOf c.length *. npStd d2) ^. 2 *. PyMath.cos t ^. 2 -. (lambdaOf c.length *. npStd c) ^. 2 *. PyMath.sin t ^. 2 =
      (PyNum.nan : Ov O) := fun t => up_sub_up (up_mul s3 (sq_nn h _)) (up_mul s1 (sq_nn h _))
  have sn : (PyMath.sqrt (PyNum.nan : Ov O)) = PyNum.nan := rfl
  obtain ⟨r1, e1, o1⟩ := rho_silent h c d1 (lit 0) _ _ (mul_up hl u1) (mul_up hl u2) l1.symm
  obtain ⟨r2, e2, o2⟩ := rho_silent h d1 d2 (lit 0) _ _ (mul_up hl u2) (mul_up hl u3) (by omega)
  obtain ⟨r3, e3, o3⟩ := rho_silent h c d2 T (PyNum.nan : Ov O) PyNum.nan (Or.inr rfl) (Or.inr rfl) l2.symm
  rw [e1, e2, nn, nn', sn, nan_div, e3]
  show Except.ok (uniqueNat (outside r1 ++ outside r2 ++ outside r3)) = _
  rw [o1, o2, o3]
  rfl

/-- **C260** the standard deviation of numbers is not a number when their variance exceeds the largest float by more than the
rounding error (C258) -/
theorem C260_std (O : OArith ℝ) (u η : ℝ) (Rep : ℝ → Prop) (h : OGrad O u η Rep) (xs : List ℝ) (hne : xs ≠ [])
    (hrep : ∀ x ∈ xs, Rep x) (hn : Nat? O xs.length) (hbig : O.top + varErr u η xs < Spec.var xs) :
    ¬ Ov.IsNum (npStd (Ov.fins O xs)) := by
  rintro ⟨s, hs⟩
  obtain ⟨a, ha, -⟩ := Ov.sqrt_num hs
  exact var_not h xs hne hrep hn hbig ⟨a, ha⟩

/-- binary64 keeps signs -/
theorem bin64oR_signs : Signs bin64oR where
  nonneg := bin64R_keeps.rnd
  zero := by
    show rnd53R 0 = 0
    unfold rnd53R; rw [if_pos rfl]
  top := by show (0 : ℝ) ≤ (2 ^ 53 - 1) * 2 ^ 971; norm_num

theorem squash_big (x : ℝ) (m : ℤ) (hx : x = m * 2 ^ 600) (h : |m| ≤ 2 ^ 53 - 1) :
    Ov.squash bin64oR (Fl.fin x) = Fl.fin x := by
  subst hx
  have e : bin64oR.rnd ((m : ℝ) * 2 ^ 600) = m * 2 ^ 600 := by
    show rnd53R _ = _
    have := rnd53R_rep m 600 (by omega)
    rw [show (2 : ℝ) ^ (600 : ℤ) = 2 ^ 600 by norm_cast] at this
    exact this
  have h1 : |(m : ℝ)| ≤ 2 ^ 53 - 1 := by exact_mod_cast h
  rw [Ov.squash_ok, e]
  rw [e, abs_mul, abs_of_pos (by positivity : (0 : ℝ) < 2 ^ 600)]
  show |(m : ℝ)| * 2 ^ 600 ≤ (2 ^ 53 - 1) * 2 ^ 971
  refine mul_le_mul h1 (by norm_num) (by positivity) (by norm_num)

theorem nat64 (n : ℕ) (hn : n < 2 ^ 53) : Nat? bin64oR n := by
  refine ⟨rnd53R_nat n hn, ?_⟩
  rw [abs_of_nonneg (by positivity)]
  have : (n : ℝ) < 2 ^ 53 := by exact_mod_cast hn
  show (n : ℝ) ≤ (2 ^ 53 - 1) * 2 ^ 971
  linarith [show (2 : ℝ) ^ 53 ≤ (2 ^ 53 - 1) * 2 ^ 971 by norm_num]

theorem add_big (p q : ℤ) (h : |p + q| ≤ 2 ^ 53 - 1) :
    (Ov.fin bin64oR (p * 2 ^ 600) +. Ov.fin bin64oR (q * 2 ^ 600)) = Ov.fin bin64oR (((p + q : ℤ) : ℝ) * 2 ^ 600) := by
  show Ov.squash bin64oR (Fl.fin _) = _
  rw [squash_big _ (p + q) (by push_cast; ring) h]
  exact congrArg Fl.fin (by push_cast; ring)

theorem sub_big (p q : ℤ) (h : |p - q| ≤ 2 ^ 53 - 1) :
    (Ov.fin bin64oR (p * 2 ^ 600) -. Ov.fin bin64oR (q * 2 ^ 600)) = Ov.fin bin64oR (((p - q : ℤ) : ℝ) * 2 ^ 600) := by
  show Ov.squash bin64oR (Fl.fin _) = _
  rw [squash_big _ (p - q) (by push_cast; ring) h]
  exact congrArg Fl.fin (by push_cast; ring)

theorem div_big (p : ℤ) (k : ℤ) (hk : k ≠ 0) (q : ℤ) (h : p = q * k) (hq : |q| ≤ 2 ^ 53 - 1) :
    (Ov.fin bin64oR (p * 2 ^ 600) /. Ov.fin bin64oR (k : ℝ)) = Ov.fin bin64oR ((q : ℝ) * 2 ^ 600) := by
  have hk' : (k : ℝ) ≠ 0 := by exact_mod_cast hk
  have e : (p : ℝ) * 2 ^ 600 / k = q * 2 ^ 600 := by rw [h]; push_cast; field_simp
  show Ov.squash bin64oR (Fl.div (Fl.fin _) (Fl.fin _)) = _
  simp only [Fl.div, hk', if_false]
  rw [e, squash_big _ q rfl hq]; rfl

/-- one entry of the derivative array for samples that are multiples of `2 ^ 600` -/
private theorem deriv_big (p q k : ℤ) (h : p - q = k * 2) (hk : |k| ≤ 8) :
    store false (PyNum.around ((Ov.fin bin64oR (p * 2 ^ 600) -. Ov.fin bin64oR (q * 2 ^ 600)) /. lit 2) 4) =
      Ov.fin bin64oR (k * 2 ^ 600) := by
  have hk' := abs_le.mp hk
  have l2 : (lit 2 : Ov bin64oR) = Ov.fin _ ((2 : ℤ) : ℝ) := by
    rw [Ov.lit_num (by simpa using (nat64 2 (by norm_num)).1) (by simpa using (nat64 2 (by norm_num)).2)]; norm_num
  rw [sub_big p q (by rw [abs_le]; constructor <;> omega), l2,
    div_big (p - q) 2 (by norm_num) k h (by rw [abs_le]; constructor <;> omega)]
  show Ov.around bin64oR (Fl.fin ((k : ℝ) * 2 ^ 600)) 4 = _
  unfold Ov.around
  have e1 : (k : ℝ) * 2 ^ 600 * (10 : ℝ) ^ (4 : ℤ) = ((k * 10000 : ℤ) : ℝ) * 2 ^ 600 := by
    push_cast; rw [show (10 : ℝ) ^ (4 : ℤ) = 10000 by norm_num]; ring
  have e2 : (Fl.rint (((k * 10000 : ℤ) : ℝ) * 2 ^ 600) : ℝ) = ((k * 10000 : ℤ) : ℝ) * 2 ^ 600 := by
    rw [show ((k * 10000 : ℤ) : ℝ) * 2 ^ 600 = ((k * 10000 * 2 ^ 600 : ℤ) : ℝ) by push_cast; ring, rint_int]
  simp only
  rw [e1, squash_big _ (k * 10000) rfl (by rw [abs_le]; constructor <;> omega)]
  simp only
  rw [e2, show ((k * 10000 : ℤ) : ℝ) * 2 ^ 600 / (10 : ℝ) ^ (4 : ℤ) = (k : ℝ) * 2 ^ 600 by
    push_cast; rw [show (10 : ℝ) ^ (4 : ℤ) = 10000 by norm_num]; ring]
  rw [squash_big _ k rfl (by rw [abs_le]; constructor <;> omega)]
  rfl

/-- the multiples of `2 ^ 600` -/
noncomputable def bigs (l : List ℤ) : List (Ov bin64oR) := Ov.fins bin64oR (l.map (fun m : ℤ => (m : ℝ) * 2 ^ 600))

/-- the mean of eight multiples of `2 ^ 600` -/
theorem mean_big (a0 a1 a2 a3 a4 a5 a6 a7 k : ℤ) (h : a0 + a1 + a2 + a3 + a4 + a5 + a6 + a7 = k * 8) (b0 : |a0| ≤ 8) (b1 : |a1| ≤ 8)
    (b2 : |a2| ≤ 8) (b3 : |a3| ≤ 8) (b4 : |a4| ≤ 8) (b5 : |a5| ≤ 8) (b6 : |a6| ≤ 8) (b7 : |a7| ≤ 8) :
    npMean (bigs [a0, a1, a2, a3, a4, a5, a6, a7]) = Ov.fin _ ((k : ℝ) * 2 ^ 600) := by
  have o8 : (ofNat 8 : Ov bin64oR) = Ov.fin _ ((8 : ℤ) : ℝ) := by
    rw [Ov.ofNat_num (nat64 8 (by norm_num)).1 (nat64 8 (by norm_num)).2]; norm_num
  have z0 : Ov.fin bin64oR 0 = Ov.fin bin64oR (((0 : ℤ) : ℝ) * 2 ^ 600) := by norm_num
  have e : (PyNum.sum (bigs [a0, a1, a2, a3, a4, a5, a6, a7]) : Ov bin64oR) =
      Ov.fin _ 0 +. Ov.fin _ ((a0 : ℝ) * 2 ^ 600) +. Ov.fin _ ((a1 : ℝ) * 2 ^ 600) +. Ov.fin _ ((a2 : ℝ) * 2 ^ 600) +.
        Ov.fin _ ((a3 : ℝ) * 2 ^ 600) +. Ov.fin _ ((a4 : ℝ) * 2 ^ 600) +. Ov.fin _ ((a5 : ℝ) * 2 ^ 600) +.
        Ov.fin _ ((a6 : ℝ) * 2 ^ 600) +. Ov.fin bin64oR ((a7 : ℝ) * 2 ^ 600) := rfl
  rw [abs_le] at b0 b1 b2 b3 b4 b5 b6 b7
  unfold npMean
  show (PyNum.sum (bigs [a0, a1, a2, a3, a4, a5, a6, a7]) /. ofNat 8 : Ov bin64oR) = _
  rw [e, o8, z0, add_big _ a0 (by rw [abs_le]; omega), add_big _ a1 (by rw [abs_le]; omega), add_big _ a2 (by rw [abs_le]; omega),
    add_big _ a3 (by rw [abs_le]; omega), add_big _ a4 (by rw [abs_le]; omega), add_big _ a5 (by rw [abs_le]; omega),
    add_big _ a6 (by rw [abs_le]; omega), add_big _ a7 (by rw [abs_le]; omega),
    div_big _ 8 (by norm_num) k (by omega) (by rw [abs_le]; omega)]

/-- **C260** binary64 witness: one sample of `2 ^ 602` among zeros makes `velocity_correlation` raise, whatever the other two
components are -/
theorem C260_correlation_binary64 (v w : List (Ov bin64oR)) (hv : v.length = 4) (hw : w.length = 4) :
    velocityCorrelation (Ov.fins bin64oR [0, 0, 0, 2 ^ 602]) v w = .error .valueError := by
  have el : Ov.fins bin64oR [0, 0, 0, 2 ^ 602] = bigs [0, 0, 0, 4] := by
    unfold bigs
    congr 1
    norm_num
  have hm : npMean (bigs [0, 0, 0, 4]) = Ov.fin _ (((1 : ℤ) : ℝ) * 2 ^ 600) := by
    have o4 : (ofNat 4 : Ov bin64oR) = Ov.fin _ ((4 : ℤ) : ℝ) := by
      rw [Ov.ofNat_num (nat64 4 (by norm_num)).1 (nat64 4 (by norm_num)).2]; norm_num
    have e : (PyNum.sum (bigs [0, 0, 0, 4]) : Ov bin64oR) = Ov.fin _ (((0 : ℤ) : ℝ) * 2 ^ 600) +. Ov.fin _ (((0 : ℤ) : ℝ) * 2 ^ 600) +.
        Ov.fin _ (((0 : ℤ) : ℝ) * 2 ^ 600) +. Ov.fin _ (((0 : ℤ) : ℝ) * 2 ^ 600) +. Ov.fin bin64oR (((4 : ℤ) : ℝ) * 2 ^ 600) := by
      rw [show ((0 : ℤ) : ℝ) * 2 ^ 600 = 0 by norm_num]
      unfold bigs
      simp only [List.map_cons, List.map_nil]
      rw [show ((0 : ℤ) : ℝ) * 2 ^ 600 = 0 by norm_num]
      rfl
    unfold npMean
    show (PyNum.sum (bigs [0, 0, 0, 4]) /. ofNat 4 : Ov bin64oR) = _
    rw [e, o4, add_big 0 0 (by norm_num), add_big (0 + 0) 0 (by norm_num), add_big (0 + 0 + 0) 0 (by norm_num),
      add_big (0 + 0 + 0 + 0) 4 (by norm_num), div_big _ 4 (by norm_num) 1 (by norm_num) (by norm_num)]
  refine C260_correlation bin64oR bin64oR_signs _ v w (by simp) (by simpa using hv) (by simpa using hw) (Or.inl ?_)
  rw [el, hm]
  have ec : (bigs [0, 0, 0, 4]).map (fun x => x -. Ov.fin _ (((1 : ℤ) : ℝ) * 2 ^ 600)) = Ov.fins bin64oR [-2 ^ 600, -2 ^ 600, -2 ^ 600, 3 * 2 ^ 600] := by
    unfold bigs
    simp only [List.map_cons, List.map_nil]
    rw [sub_big 0 1 (by norm_num), sub_big 4 1 (by norm_num)]
    norm_num
  rw [ec]
  refine C260_std bin64oR _ _ _ bin64oR_std.grad _ (by simp) (by simp) (nat64 4 (by norm_num)) ?_
  have hv : Spec.var [-2 ^ 600, -2 ^ 600, -2 ^ 600, (3 * 2 ^ 600 : ℝ)] = 3 * (2 ^ 600) ^ 2 := by
    simp only [Spec.var, Spec.cmoment, Spec.avg, List.sum_cons, List.sum_nil, List.map_cons, List.map_nil, List.length_cons, List.length_nil]
    push_cast
    ring
  have ha : Spec.avg ([-2 ^ 600, -2 ^ 600, -2 ^ 600, (3 * 2 ^ 600 : ℝ)].map (fun x => |x|)) = 3 / 2 * 2 ^ 600 := by
    norm_num [Spec.avg]
  unfold varErr meanErr
  rw [hv, ha]
  show (2 ^ 53 - 1) * 2 ^ 971 + _ < _
  norm_num

/-- the derivative of eight multiples of `2 ^ 600` -/
theorem centralDiff_big : ∀ (a0 a1 a2 a3 a4 a5 a6 a7 : ℤ) (k1 k2 k3 k4 k5 k6 : ℤ), a2 - a0 = k1 * 2 → a3 - a1 = k2 * 2 → a4 - a2 = k3 * 2 →
    a5 - a3 = k4 * 2 → a6 - a4 = k5 * 2 → a7 - a5 = k6 * 2 → |k1| ≤ 8 → |k2| ≤ 8 → |k3| ≤ 8 → |k4| ≤ 8 → |k5| ≤ 8 → |k6| ≤ 8 →
    centralDiff false (bigs [a0, a1, a2, a3, a4, a5, a6, a7]) = bigs [0, k1, k2, k3, k4, k5, k6, 0] := by
  have lz : (lit 0 : Ov bin64oR) = Ov.fin _ (((0 : ℤ) : ℝ) * 2 ^ 600) := by
    rw [Ov.lit_num (by simpa using (nat64 0 (by norm_num)).1) (by simpa using (nat64 0 (by norm_num)).2)]; norm_num
  intro a0 a1 a2 a3 a4 a5 a6 a7 k1 k2 k3 k4 k5 k6 h1 h2 h3 h4 h5 h6 b1 b2 b3 b4 b5 b6
  have e : centralDiff false (bigs [a0, a1, a2, a3, a4, a5, a6, a7]) =
      [lit 0, store false (PyNum.around ((Ov.fin bin64oR (a2 * 2 ^ 600) -. Ov.fin bin64oR (a0 * 2 ^ 600)) /. lit 2) 4),
        store false (PyNum.around ((Ov.fin bin64oR (a3 * 2 ^ 600) -. Ov.fin bin64oR (a1 * 2 ^ 600)) /. lit 2) 4),
        store false (PyNum.around ((Ov.fin bin64oR (a4 * 2 ^ 600) -. Ov.fin bin64oR (a2 * 2 ^ 600)) /. lit 2) 4),
        store false (PyNum.around ((Ov.fin bin64oR (a5 * 2 ^ 600) -. Ov.fin bin64oR (a3 * 2 ^ 600)) /. lit 2) 4),
        store false (PyNum.around ((Ov.fin bin64oR (a6 * 2 ^ 600) -. Ov.fin bin64oR (a4 * 2 ^ 600)) /. lit 2) 4),
        store false (PyNum.around ((Ov.fin bin64oR (a7 * 2 ^ 600) -. Ov.fin bin64oR (a5 * 2 ^ 600)) /. lit 2) 4), lit 0] := rfl
  rw [e, deriv_big _ _ _ h1 b1, deriv_big _ _ _ h2 b2, deriv_big _ _ _ h3 b3, deriv_big _ _ _ h4 b4, deriv_big _ _ _ h5 b5,
    deriv_big _ _ _ h6 b6, lz]
  rfl

/-- the squares of samples of this size overflow -/
theorem std_big : ∀ a b c d e f g h : ℤ, (1 / 4 : ℝ) * (2 ^ 600) ^ 2 ≤ Spec.var ([a, b, c, d, e, f, g, h].map (fun m : ℤ => (m : ℝ) * 2 ^ 600)) →
    Spec.avg (([a, b, c, d, e, f, g, h].map (fun m : ℤ => (m : ℝ) * 2 ^ 600)).map (fun x => |x|)) ≤ 8 * 2 ^ 600 →
    ¬ Ov.IsNum (npStd (bigs [a, b, c, d, e, f, g, h])) := by
  intro a b c d e f g h hv ha
  refine C260_std bin64oR _ _ _ bin64oR_std.grad _ (by simp) (by simp) (nat64 8 (by norm_num)) ?_
  set xs := [a, b, c, d, e, f, g, h].map (fun m : ℤ => (m : ℝ) * 2 ^ 600) with hxs
  have hl : xs.length = 8 := by rw [hxs]; simp
  have ha0 : 0 ≤ Spec.avg (xs.map (fun x => |x|)) := by
    unfold Spec.avg
    refine div_nonneg (List.sum_nonneg ?_) (by positivity)
    intro y hy; obtain ⟨z, -, rfl⟩ := List.mem_map.mp hy; exact abs_nonneg z
  unfold varErr meanErr
  rw [hl]
  show (2 ^ 53 - 1) * 2 ^ 971 + _ < _
  have q : (((1 + 1 / 2 ^ 53 : ℝ) ^ (8 + 1) - 1) * Spec.avg (xs.map (fun x => |x|)) + 0) ^ 2 ≤ (1 / 2 ^ 43 * (8 * 2 ^ 600)) ^ 2 := by
    rw [add_zero]
    refine pow_le_pow_left₀ (mul_nonneg (by norm_num) ha0) (mul_le_mul (by norm_num) ha ha0 (by norm_num)) 2
  have q1 : ((1 + 1 / 2 ^ 53 : ℝ) ^ (8 + 4) - 1) * Spec.var xs ≤ 1 / 2 * Spec.var xs :=
    mul_le_mul_of_nonneg_right (by norm_num) (le_trans (by positivity) hv)
  have q2 : (1 + 1 / 2 ^ 53 : ℝ) ^ (8 + 4) * (((1 + 1 / 2 ^ 53 : ℝ) ^ (8 + 1) - 1) * Spec.avg (xs.map (fun x => |x|)) + 0) ^ 2 ≤
      2 * (1 / 2 ^ 43 * (8 * 2 ^ 600)) ^ 2 :=
    mul_le_mul (by norm_num) q (sq_nonneg _) (by norm_num)
  have q3 : ((2 : ℝ) ^ 53 - 1) * 2 ^ 971 + 2 * (1 / 2 ^ 43 * (8 * 2 ^ 600)) ^ 2 < 1 / 2 * (1 / 4 * (2 ^ 600) ^ 2) := by norm_num
  linarith

/-- **C260** binary64 witness: `phasespace_thresholding` does not flag a sample of `2 ^ 602` among zeros -/
theorem C260_phasespace_binary64 :
    phasespaceThresholding ⟨1, false, Ov.fins bin64oR [0, 0, 0, 0, 2 ^ 602, 0, 0, 0]⟩ = .ok [] := by
  have el : Ov.fins bin64oR [0, 0, 0, 0, 2 ^ 602, 0, 0, 0] = bigs [0, 0, 0, 0, 4, 0, 0, 0] := by
    unfold bigs
    congr 1
    norm_num
  have d1 : centralDiff false (bigs [0, 0, 0, 0, 4, 0, 0, 0]) = bigs [0, 0, 0, 2, 0, -2, 0, 0] := by
    apply centralDiff_big <;> norm_num
  have d2 : centralDiff false (bigs [0, 0, 0, 2, 0, -2, 0, 0]) = bigs [0, 0, 1, 0, -2, 0, 1, 0] := by
    apply centralDiff_big <;> norm_num
  rw [el]
  refine C260_phasespace bin64oR bin64oR_signs false _ (by simp [bigs]) (std_big _ _ _ _ _ _ _ _ ?_ ?_) ?_ ?_
  · norm_num [Spec.var, Spec.cmoment, Spec.avg]
  · norm_num [Spec.avg]
  · show ¬ Ov.IsNum (npStd (centralDiff false (bigs [0, 0, 0, 0, 4, 0, 0, 0])))
    rw [d1]
    refine std_big _ _ _ _ _ _ _ _ ?_ ?_
    · norm_num [Spec.var, Spec.cmoment, Spec.avg]
    · norm_num [Spec.avg]
  · show ¬ Ov.IsNum (npStd (centralDiff false (centralDiff false (bigs [0, 0, 0, 0, 4, 0, 0, 0]))))
    rw [d1, d2]
    refine std_big _ _ _ _ _ _ _ _ ?_ ?_
    · norm_num [Spec.var, Spec.cmoment, Spec.avg]
    · norm_num [Spec.avg]

end Proadv.Props
