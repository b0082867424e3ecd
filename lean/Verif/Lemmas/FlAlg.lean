import Verif.Lemmas.Descriptive

/-! # Algebra of the exact floats including the special values -/

set_option linter.unusedSectionVars false

namespace Proadv.Fl

open Proadv

variable {K : Type} [Field K] [LinearOrder K] [FloorRing K] [IsStrictOrderedRing K]

theorem add_def (a b : Fl K) : a +. b = Fl.add a b := rfl
theorem sub_def (a b : Fl K) : a -. b = Fl.sub a b := rfl
theorem mul_def (a b : Fl K) : a *. b = Fl.mul a b := rfl
theorem div_def (a b : Fl K) : a /. b = Fl.div a b := rfl
theorem neg_def (a : Fl K) : PyNum.neg a = Fl.neg a := rfl
theorem npow_def (a : Fl K) (n : Nat) : a ^. n = Fl.npow a n := rfl

theorem padd_comm (a b : Fl K) : a +. b = b +. a := by
  cases a <;> cases b <;> simp [add_def, Fl.add, add_comm]

theorem padd_assoc (a b c : Fl K) : a +. b +. c = a +. (b +. c) := by
  cases a <;> cases b <;> cases c <;> simp [add_def, Fl.add, add_assoc]

theorem pneg_neg (a : Fl K) : PyNum.neg (PyNum.neg a) = a := by
  cases a <;> simp [neg_def, Fl.neg]

theorem pneg_add (a b : Fl K) : PyNum.neg a +. PyNum.neg b = PyNum.neg (a +. b) := by
  cases a <;> cases b <;> simp [neg_def, add_def, Fl.add, Fl.neg, add_comm]

theorem pneg_sub (a b : Fl K) : PyNum.neg a -. PyNum.neg b = PyNum.neg (a -. b) := by
  cases a <;> cases b <;> simp [neg_def, sub_def, Fl.sub, Fl.add, Fl.neg]
  ring

theorem psub_swap (a b : Fl K) : b -. a = PyNum.neg (a -. b) := by
  cases a <;> cases b <;> simp [neg_def, sub_def, Fl.sub, Fl.add, Fl.neg]

theorem infSgn_neg (a : K) : infSgn (-a) = Fl.neg (infSgn a) := by
  unfold infSgn
  rcases lt_trichotomy a 0 with h | rfl | h
  · have h1 : ¬ (0 : K) < a := not_lt.mpr h.le
    simp [h.ne, h, h1, Fl.neg]
  · simp [Fl.neg]
  · have h1 : ¬ a < 0 := not_lt.mpr h.le
    simp [h.ne', h, h1, Fl.neg]

theorem pneg_mul (a b : Fl K) : PyNum.neg a *. b = PyNum.neg (a *. b) := by
  cases a <;> cases b <;> simp [neg_def, mul_def, Fl.mul, Fl.neg, infSgn_neg]
  all_goals (unfold infSgn; split_ifs <;> rfl)

theorem pmul_comm (a b : Fl K) : a *. b = b *. a := by
  cases a <;> cases b <;> simp [mul_def, Fl.mul, mul_comm]

theorem pmul_neg (a b : Fl K) : a *. PyNum.neg b = PyNum.neg (a *. b) := by
  rw [pmul_comm, pneg_mul, pmul_comm]

theorem pneg_mul_neg (a b : Fl K) : PyNum.neg a *. PyNum.neg b = a *. b := by
  rw [pneg_mul, pmul_neg, pneg_neg]

theorem pneg_div_fin (a : Fl K) {b : K} (h : b ≠ 0) : PyNum.neg a /. fin b = PyNum.neg (a /. fin b) := by
  cases a <;> simp [neg_def, div_def, Fl.div, Fl.neg, h]
  · ring
  all_goals (split_ifs <;> rfl)

theorem pneg_sq (a : Fl K) : PyNum.neg a ^. 2 = a ^. 2 := by
  cases a <;> simp [neg_def, npow_def, Fl.npow, Fl.neg]

/-- `(-a / b)² = (a / b)²` also for the special values and `b = 0` -/
theorem pneg_div_sq (a b : Fl K) : (PyNum.neg a /. b) ^. 2 = (a /. b) ^. 2 := by
  cases b with
  | fin b =>
    by_cases h : b = 0
    · subst h
      cases a with
      | fin a =>
        simp only [pneg_fin, pdiv_fin', if_pos]
        rw [infSgn_neg, ← neg_def, pneg_sq]
      | nan => rfl
      | pinf => rw [← pneg_sq]; simp [neg_def, div_def, Fl.div, Fl.neg, npow_def, Fl.npow]
      | ninf => rw [← pneg_sq]; simp [neg_def, div_def, Fl.div, Fl.neg, npow_def, Fl.npow]
    · rw [pneg_div_fin a h, pneg_sq]
  | nan => simp
  | pinf => cases a <;> simp [neg_def, div_def, Fl.div, Fl.neg]
  | ninf => cases a <;> simp [neg_def, div_def, Fl.div, Fl.neg]

/-! ## sums -/

theorem psum_cons (x : Fl K) (l : List (Fl K)) : PyNum.sum (x :: l) = x +. PyNum.sum l := by
  show (x :: l).foldl Fl.add (fin 0) = Fl.add x (l.foldl Fl.add (fin 0))
  rw [List.foldl_cons]
  have h : ∀ (l : List (Fl K)) (a b : Fl K), l.foldl Fl.add (Fl.add a b) = Fl.add a (l.foldl Fl.add b) := by
    intro l
    induction l with
    | nil => intro a b; rfl
    | cons y t ih =>
      intro a b
      rw [List.foldl_cons, List.foldl_cons]
      have : Fl.add (Fl.add a b) y = Fl.add a (Fl.add b y) := padd_assoc a b y
      rw [this, ih]
  have h0 : Fl.add (fin 0) x = Fl.add x (fin 0) := padd_comm (fin 0) x
  rw [h0, h]

theorem psum_nil : PyNum.sum ([] : List (Fl K)) = fin 0 := rfl

theorem psum_perm {l l' : List (Fl K)} (h : l.Perm l') : PyNum.sum l = PyNum.sum l' := by
  induction h with
  | nil => rfl
  | cons x _ ih => rw [psum_cons, psum_cons, ih]
  | swap x y l =>
    rw [psum_cons, psum_cons, psum_cons, psum_cons, ← padd_assoc, padd_comm y x, padd_assoc]
  | trans _ _ ih1 ih2 => rw [ih1, ih2]

theorem psum_neg (l : List (Fl K)) : PyNum.sum (l.map PyNum.neg) = PyNum.neg (PyNum.sum l) := by
  induction l with
  | nil => simp [psum_nil]
  | cons x t ih => rw [List.map_cons, psum_cons, psum_cons, ih, pneg_add]

theorem npMean_perm {l l' : List (Fl K)} (h : l.Perm l') : npMean l = npMean l' := by
  unfold npMean; rw [psum_perm h, h.length_eq]

theorem npVar_perm {l l' : List (Fl K)} (h : l.Perm l') : npVar l = npVar l' := by
  unfold npVar; simp only [npMean_perm h]; rw [psum_perm (h.map _), h.length_eq]

theorem npMean_neg {l : List (Fl K)} (hl : l ≠ []) : npMean (l.map PyNum.neg) = PyNum.neg (npMean l) := by
  unfold npMean
  rw [psum_neg, List.length_map, ofNat_eq, pneg_div_fin]
  simpa using hl

theorem npVar_neg {l : List (Fl K)} (hl : l ≠ []) : npVar (l.map PyNum.neg) = npVar l := by
  unfold npVar
  simp only [npMean_neg hl, List.map_map, List.length_map]
  congr 2
  apply List.map_congr_left
  intro x _
  simp only [Function.comp]
  rw [pneg_sub, pneg_mul_neg]

theorem npStd_perm {l l' : List (Fl ℝ)} (h : l.Perm l') : npStd l = npStd l' := by
  unfold npStd
  have := npVar_perm h
  rw [show npVar l = npVar l' from this]

theorem npStd_neg {l : List (Fl ℝ)} (hl : l ≠ []) : npStd (l.map PyNum.neg) = npStd l := by
  unfold npStd
  have := npVar_neg hl
  rw [show npVar (l.map PyNum.neg) = npVar l from this]

/-! ## rounding and truncation are odd -/

theorem rint_neg (x : K) : rint (-x) = -rint x := by
  have hfl : ∀ (y : K) (n : ℤ), (n : K) ≤ y → y < n + 1 → ⌊y⌋ = n := fun y n h1 h2 => Int.floor_eq_iff.mpr ⟨h1, h2⟩
  have h0 := Int.floor_le x
  have h1 := Int.lt_floor_add_one x
  set n := ⌊x⌋ with hn
  by_cases hx : x = n
  · have : ⌊-x⌋ = -n := by rw [hx, ← Int.cast_neg, Int.floor_intCast]
    unfold rint
    simp only [this, ← hn]
    rw [if_pos (by push_cast; linarith), if_pos (by linarith)]
  · have hlt : (n : K) < x := lt_of_le_of_ne h0 (Ne.symm hx)
    have hfn : ⌊-x⌋ = -n - 1 := hfl _ _ (by push_cast; linarith) (by push_cast; linarith)
    unfold rint
    simp only [hfn, ← hn]
    push_cast
    by_cases ha : x - n < 1 / 2
    · rw [if_pos ha, if_neg (by linarith), if_pos (by linarith)]; ring
    · by_cases hb : 1 / 2 < x - n
      · rw [if_neg ha, if_pos hb, if_pos (by linarith)]; ring
      · rw [if_neg ha, if_neg hb, if_neg (by linarith), if_neg (by linarith)]
        by_cases hp : n % 2 = 0
        · rw [if_pos hp, if_neg (by omega)]; ring
        · rw [if_neg hp, if_pos (by omega)]; ring

theorem aroundK_neg (x : K) (d : Int) : aroundK (-x) d = -aroundK x d := by
  unfold aroundK
  rw [neg_mul, rint_neg]; push_cast; rw [neg_div]

theorem aroundK_zero (d : Int) : aroundK (0 : K) d = 0 := by
  unfold aroundK
  have := rint_int (K := K) 0
  rw [zero_mul]
  have e : rint (0 : K) = 0 := by simpa using this
  rw [e]; simp

theorem paround_neg (x : Fl K) (d : Int) : PyNum.around (PyNum.neg x) d = PyNum.neg (PyNum.around x d) := by
  cases x with
  | fin a => simp [aroundK_neg]
  | nan => rfl
  | pinf => rfl
  | ninf => rfl

theorem truncK_neg (x : K) : truncK (-x) = -truncK x := by
  unfold truncK
  rcases lt_trichotomy x 0 with h | rfl | h
  · rw [if_pos (by linarith), if_neg (by linarith), Int.floor_neg]
  · simp
  · rw [if_neg (by linarith), if_pos h.le, Int.ceil_neg]

/-- storing in an integer array is odd on finite values -/
theorem store_neg (b : Bool) (x : Fl K) (h : b = true → isFin x = true) :
    store b (PyNum.neg x) = PyNum.neg (store b x) := by
  cases b with
  | false => rfl
  | true =>
    cases x with
    | fin a => simp [store, truncK_neg]
    | nan => exact absurd (h rfl) (by simp [isFin])
    | pinf => exact absurd (h rfl) (by simp [isFin])
    | ninf => exact absurd (h rfl) (by simp [isFin])

end Proadv.Fl
