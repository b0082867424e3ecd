import Verif.Lemmas.Round

/-!
# Rounding with gradual underflow

The contract `Std A u` of `Verif/Py/Round.lean` asks every result for a *relative* error `u`, which no arithmetic with a
smallest positive number can give.  `Gradual A u η Rep` is the contract with gradual underflow: a product or quotient is off by
at most `u |x| + η` (binary64: `η = 2⁻¹⁰⁷⁵`), while sums and differences of representable numbers keep the relative bound, since
a sum of two multiples of the smallest number is again a multiple of it.  Overflow is the subject of `Verif/Py/Overflow.lean`.
-/

namespace Proadv

set_option linter.unusedSectionVars false

open Fl

variable {K : Type} [Field K] [LinearOrder K] [IsStrictOrderedRing K]

/-- standard model of floating-point arithmetic with unit roundoff `u` and underflow error `η`; `Rep` holds of the numbers that
can be stored -/
structure Gradual (A : Arith K) (u η : K) (Rep : K → Prop) : Prop where
  nonneg : 0 ≤ u
  eta : 0 ≤ η
  rep_zero : Rep 0
  rep : ∀ x, Rep (A.rnd x)
  rep_sum : ∀ xs : List K, (∀ x ∈ xs, Rep x) → Rep (A.sum xs)
  rnd : ∀ x, |A.rnd x - x| ≤ u * |x| + η
  add : ∀ x y, Rep x → Rep y → |A.rnd (x + y) - (x + y)| ≤ u * |x + y|
  sub : ∀ x y, Rep x → Rep y → |A.rnd (x - y) - (x - y)| ≤ u * |x - y|
  sum : ∀ xs : List K, (∀ x ∈ xs, Rep x) →
    |A.sum xs - xs.sum| ≤ ((1 + u) ^ xs.length - 1) * (xs.map (fun x => |x|)).sum

/-- the contract without underflow is the case `η = 0` -/
theorem Std.gradual {A : Arith K} {u : K} (h : Std A u) : Gradual A u 0 (fun _ => True) where
  nonneg := h.nonneg
  eta := le_rfl
  rep_zero := trivial
  rep _ := trivial
  rep_sum _ _ := trivial
  rnd x := by simpa using h.rnd x
  add x y _ _ := h.rnd _
  sub x y _ _ := h.rnd _
  sum xs _ := h.sum xs

namespace Gradual

variable {A : Arith K} {u η : K} {Rep : K → Prop}

theorem rnd_zero (h : Gradual A u η Rep) : A.rnd 0 = 0 := by
  have := h.add 0 0 h.rep_zero h.rep_zero
  simpa using this

/-- a relative error on top of an error `e` -/
theorem near_of_rel (h : Gradual A u η Rep) {s t e : K} (h1 : |A.rnd s - s| ≤ u * |s|) (hs : |s - t| ≤ e) :
    |A.rnd s - t| ≤ (1 + u) * e + u * |t| := by
  have h2 : |A.rnd s - t| ≤ |A.rnd s - s| + |s - t| := by
    have := abs_add_le (A.rnd s - s) (s - t); simpa using this
  have h3 : |s| ≤ |s - t| + |t| := by
    have := abs_add_le (s - t) t; simpa using this
  have h4 := h.nonneg
  nlinarith [mul_le_mul_of_nonneg_left h3 h4, mul_le_mul_of_nonneg_left hs h4]

/-- rounding `s`, which is within `e` of `t` -/
theorem rnd_near (h : Gradual A u η Rep) {s t e : K} (hs : |s - t| ≤ e) :
    |A.rnd s - t| ≤ (1 + u) * e + u * |t| + η := by
  have h1 := h.rnd s
  have h2 : |A.rnd s - t| ≤ |A.rnd s - s| + |s - t| := by
    have := abs_add_le (A.rnd s - s) (s - t); simpa using this
  have h3 : |s| ≤ |s - t| + |t| := by
    have := abs_add_le (s - t) t; simpa using this
  have h4 := h.nonneg
  nlinarith [mul_le_mul_of_nonneg_left h3 h4, mul_le_mul_of_nonneg_left hs h4]

end Gradual

/-! ## Left-to-right summation -/

/-- left-to-right summation of numbers on which additions have relative error `u` -/
theorem leftArith_gradual (rnd : K → K) (u η : K) (Rep : K → Prop) (hu : 0 ≤ u) (hη : 0 ≤ η) (h0 : Rep 0)
    (hrep : ∀ x, Rep (rnd x)) (h : ∀ x, |rnd x - x| ≤ u * |x| + η)
    (hadd : ∀ x y, Rep x → Rep y → |rnd (x + y) - (x + y)| ≤ u * |x + y|)
    (hsub : ∀ x y, Rep x → Rep y → |rnd (x - y) - (x - y)| ≤ u * |x - y|) : Gradual (leftArith rnd) u η Rep where
  nonneg := hu
  eta := hη
  rep_zero := h0
  rep := hrep
  rep_sum := by
    have key : ∀ (xs : List K) (s : K), Rep s → Rep (xs.foldl (fun s x => rnd (s + x)) s) := by
      intro xs
      induction xs with
      | nil => intro s hs; exact hs
      | cons x t ih => intro s _; exact ih _ (hrep _)
    intro xs _
    exact key xs 0 h0
  rnd := h
  add := hadd
  sub := hsub
  sum := by
    classical
    intro xs hxs
    -- the rounding that leaves alone what underflows
    set r : K → K := fun x => if |rnd x - x| ≤ u * |x| then rnd x else x with hr
    have hr1 : ∀ x, |r x - x| ≤ u * |x| := by
      intro x
      simp only [hr]
      split_ifs with hx
      · exact hx
      · simp only [sub_self, abs_zero]; positivity
    have key : ∀ (xs : List K) (s : K), (∀ x ∈ xs, Rep x) → Rep s →
        xs.foldl (fun s x => rnd (s + x)) s = xs.foldl (fun s x => r (s + x)) s := by
      intro xs
      induction xs with
      | nil => intro s _ _; rfl
      | cons x t ih =>
        intro s hx hs
        have e : r (s + x) = rnd (s + x) := by
          simp only [hr]
          rw [if_pos (hadd s x hs (hx x (by simp)))]
        simp only [List.foldl_cons, e]
        exact ih _ (fun y hy => hx y (by simp [hy])) (hrep _)
    have := (leftArith_std r u hu hr1).sum xs
    have e : (leftArith rnd).sum xs = (leftArith r).sum xs := key xs 0 hxs h0
    rw [e]; exact this

/-! ## Binary64 with subnormal numbers -/

/-- rounding to 53 significant bits, ties to even, on no finer grid than `2⁻¹⁰⁷⁴` -/
def rndSub (x : ℚ) : ℚ :=
  if x = 0 then 0 else
    let e : ℤ := Max.max (Int.log 2 |x| - 52) (-1074)
    (Fl.rint (x / 2 ^ e) : ℚ) * 2 ^ e

/-- binary64 with subnormal numbers, unbounded above, left-to-right summation -/
def bin64g : Arith ℚ := leftArith rndSub

/-- the multiples of the smallest positive number -/
def Grid (x : ℚ) : Prop := ∃ k : ℤ, x = k * 2 ^ (-1074 : ℤ)

private theorem grid_zpow (e : ℤ) (he : -1074 ≤ e) (k : ℤ) : Grid ((k : ℚ) * 2 ^ e) := by
  refine ⟨k * 2 ^ (e + 1074).toNat, ?_⟩
  push_cast
  rw [mul_assoc, ← zpow_natCast, ← zpow_add₀ (by norm_num), Int.toNat_of_nonneg (by omega)]
  congr 2
  ring

theorem rndSub_grid (x : ℚ) : Grid (rndSub x) := by
  unfold rndSub
  split_ifs with hx
  · exact ⟨0, by simp⟩
  · exact grid_zpow _ (le_max_right _ _) _

/-- above the threshold the rounding is that of `rnd53` -/
theorem rndSub_normal (x : ℚ) (h : -1074 ≤ Int.log 2 |x| - 52) : rndSub x = rnd53 x := by
  unfold rndSub rnd53
  rw [max_eq_left h]

/-- below the threshold the rounding is to the nearest multiple of `2⁻¹⁰⁷⁴` -/
theorem rndSub_small (x : ℚ) (h : Int.log 2 |x| - 52 ≤ -1074) :
    rndSub x = (Fl.rint (x / 2 ^ (-1074 : ℤ)) : ℚ) * 2 ^ (-1074 : ℤ) := by
  unfold rndSub
  split_ifs with hx
  · subst hx
    have : Fl.rint (0 : ℚ) = 0 := by have := rint_int (K := ℚ) 0; simpa using this
    simp [this]
  · rw [max_eq_right h]

theorem rndSub_near (x : ℚ) : |rndSub x - x| ≤ 1 / 2 ^ 53 * |x| + 2 ^ (-1075 : ℤ) := by
  rcases le_total (-1074) (Int.log 2 |x| - 52) with h | h
  · rw [rndSub_normal x h]
    have := rnd53_near x
    have h2 : (0 : ℚ) < 2 ^ (-1075 : ℤ) := by positivity
    linarith
  · rw [rndSub_small x h]
    have hp : (0 : ℚ) < 2 ^ (-1074 : ℤ) := by positivity
    have h1 : ((Fl.rint (x / 2 ^ (-1074 : ℤ)) : ℤ) : ℚ) * 2 ^ (-1074 : ℤ) - x =
        ((Fl.rint (x / 2 ^ (-1074 : ℤ)) : ℚ) - x / 2 ^ (-1074 : ℤ)) * 2 ^ (-1074 : ℤ) := by
      rw [sub_mul, div_mul_cancel₀ _ hp.ne']
    rw [h1, abs_mul, abs_of_pos hp]
    have h2 := mul_le_mul_of_nonneg_right (abs_rint_sub (x / 2 ^ (-1074 : ℤ))) hp.le
    refine h2.trans ?_
    have h3 : (1 : ℚ) / 2 * 2 ^ (-1074 : ℤ) = 2 ^ (-1075 : ℤ) := by
      rw [show (-1074 : ℤ) = -1075 + 1 by norm_num, zpow_add₀ (by norm_num), zpow_one]; ring
    rw [h3]
    have : 0 ≤ 1 / 2 ^ 53 * |x| := by positivity
    linarith

/-- on the grid the rounding has no underflow error -/
theorem rndSub_rel (x : ℚ) (hx : Grid x) : |rndSub x - x| ≤ 1 / 2 ^ 53 * |x| := by
  rcases le_total (-1074) (Int.log 2 |x| - 52) with h | h
  · rw [rndSub_normal x h]; exact rnd53_near x
  · obtain ⟨k, rfl⟩ := hx
    have hp : (2 : ℚ) ^ (-1074 : ℤ) ≠ 0 := by positivity
    rw [rndSub_small _ h, mul_div_cancel_right₀ _ hp, rint_int, sub_self, abs_zero]
    positivity

/-- binary64 with subnormal numbers meets the contract -/
theorem bin64g_gradual : Gradual bin64g (1 / 2 ^ 53) (2 ^ (-1075 : ℤ)) Grid :=
  leftArith_gradual rndSub _ _ Grid (by positivity) (by positivity) ⟨0, by simp⟩ rndSub_grid rndSub_near
    (fun x y ⟨k, hk⟩ ⟨l, hl⟩ => rndSub_rel _ ⟨k + l, by rw [hk, hl]; push_cast; ring⟩)
    (fun x y ⟨k, hk⟩ ⟨l, hl⟩ => rndSub_rel _ ⟨k - l, by rw [hk, hl]; push_cast; ring⟩)

/-- results below half the smallest positive number become zero -/
theorem rndSub_flush (x : ℚ) (h : |x| < 2 ^ (-1075 : ℤ)) : rndSub x = 0 := by
  rcases eq_or_ne x 0 with rfl | hx
  · simp [rndSub]
  · have hl : Int.log 2 |x| < -1075 := by
      have h1 : (2 : ℚ) ^ Int.log 2 |x| ≤ |x| := Int.zpow_log_le_self (by norm_num) (abs_pos.mpr hx)
      exact (zpow_lt_zpow_iff_right₀ (by norm_num : (1 : ℚ) < 2)).mp (h1.trans_lt h)
    rw [rndSub_small x (by omega)]
    have hp : (0 : ℚ) < 2 ^ (-1074 : ℤ) := by positivity
    have h2 : |x / 2 ^ (-1074 : ℤ)| < 1 / 2 := by
      rw [abs_div, abs_of_pos hp, div_lt_iff₀ hp]
      have h3 : (1 : ℚ) / 2 * 2 ^ (-1074 : ℤ) = 2 ^ (-1075 : ℤ) := by
        rw [show (-1074 : ℤ) = -1075 + 1 by norm_num, zpow_add₀ (by norm_num), zpow_one]; ring
      rwa [h3]
    have h4 := abs_le.mp (abs_rint_sub (x / 2 ^ (-1074 : ℤ)))
    have h5 := abs_lt.mp h2
    have h6 : Fl.rint (x / 2 ^ (-1074 : ℤ)) = 0 := by
      have a : ((Fl.rint (x / 2 ^ (-1074 : ℤ)) : ℤ) : ℚ) < ((1 : ℤ) : ℚ) := by push_cast; linarith
      have b : ((-1 : ℤ) : ℚ) < ((Fl.rint (x / 2 ^ (-1074 : ℤ)) : ℤ) : ℚ) := by push_cast; linarith
      have a := Int.cast_lt.mp a
      have b := Int.cast_lt.mp b
      omega
    rw [h6]; simp

/-- integers below `2⁵³` are exact -/
theorem rndSub_nat (n : ℕ) (h : n < 2 ^ 53) : bin64g.rnd n = n := by
  rcases Nat.eq_zero_or_pos n with rfl | hn
  · show rndSub ((0 : ℕ) : ℚ) = _
    simp [rndSub]
  · show rndSub n = n
    rw [rndSub_normal]
    · exact rnd53_nat n h
    · have : 0 ≤ Int.log 2 |(n : ℚ)| := by
        have h1 : (1 : ℚ) ≤ |(n : ℚ)| := by
          rw [abs_of_nonneg (by positivity)]; exact_mod_cast hn
        rw [Int.log_of_one_le_right _ h1]
        positivity
      omega

end Proadv
