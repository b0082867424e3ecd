import Verif.Props.Poincare
import Verif.Props.Acceleration

/-!
# Properties C59, C64–C66, C79, C103: `phasespace_thresholding`
-/

set_option linter.unusedSectionVars false

namespace Proadv.Props

open Proadv Fl Detect Spread

/-! ## C59, C64 for every float arithmetic -/

section generic
variable {F : Type} [PyMath F]

theorem centralDiff_length (b : Bool) (c : List F) : (centralDiff b c).length = c.length := by
  simp [centralDiff]

/-- the angle of the third plane -/
def phaseAngle (c dc2 : List F) : F :=
  PyMath.arctan (PyNum.sum (List.zipWith (fun u v => u *. v) c dc2) /. PyNum.sum (c.map (fun u => u ^. 2)))

/-- the coefficients computed for a 1-D array -/
def phaseP (b : Bool) (c : List F) : PhaseParams F :=
  phaseCoefs (npStd c) (npStd (centralDiff b c)) (npStd (centralDiff b (centralDiff b c))) (lambdaOf c.length)
    (phaseAngle c (centralDiff b (centralDiff b c)))

theorem phase_ok (b : Bool) (c : List F) (hc : c ≠ []) :
    phasespaceThresholding ⟨1, b, c⟩ = .ok (uniqueNat
      (outside (List.zipWith (rhoAt (lit 0) (phaseP b c).a1 (phaseP b c).b1) c (centralDiff b c)) ++
       outside (List.zipWith (rhoAt (lit 0) (phaseP b c).a2 (phaseP b c).b2) (centralDiff b c)
         (centralDiff b (centralDiff b c))) ++
       outside (List.zipWith (rhoAt (phaseP b c).theta (phaseP b c).a3 (phaseP b c).b3) c
         (centralDiff b (centralDiff b c))))) := by
  have l1 := centralDiff_length b c
  have l2 := centralDiff_length b (centralDiff b c)
  have h1 : centralDiff b c ≠ [] := by
    intro h; rw [h] at l1; exact hc (List.length_eq_zero_iff.mp l1.symm)
  have h2 : centralDiff b (centralDiff b c) ≠ [] := by
    intro h; rw [h] at l2; exact h1 (List.length_eq_zero_iff.mp l2.symm)
  unfold phasespaceThresholding phaseParameters calculateDerivatives angle
  simp only [calculateRho]
  rw [if_neg (by decide), std_eq b c hc, std_eq b _ h1, std_eq b _ h2]
  simp only [bind, Except.bind]
  rw [bcast_same _ (by rw [l2, l1])]
  simp only
  rw [bcast_same _ l1.symm, bcast_same _ l2.symm, bcast_same _ (by rw [l2, l1])]
  rfl

/-- **C64** errors (every float arithmetic): 0-d arrays raise TypeError, other dimensions and empty arrays ValueError. -/
theorem C64_errors (c : Arr F) :
    ((∃ r, phasespaceThresholding c = .ok r) ↔ c.ndim = 1 ∧ c.data ≠ []) ∧
    (c.ndim = 0 → phasespaceThresholding c = .error .typeError) ∧
    (2 ≤ c.ndim ∨ (c.ndim = 1 ∧ c.data = []) → phasespaceThresholding c = .error .valueError) := by
  obtain ⟨nd, b, d⟩ := c
  simp only
  have h2 : 2 ≤ nd ∨ (nd = 1 ∧ d = []) → phasespaceThresholding ⟨nd, b, d⟩ = .error .valueError := by
    rintro (h | ⟨rfl, rfl⟩)
    · have h0 : nd ≠ 0 := by omega
      have h1 : nd ≠ 1 := by omega
      simp [phasespaceThresholding, h0, phaseParameters, std, stdItems, h1, bind, Except.bind]
    · simp [phasespaceThresholding, phaseParameters, std, stdItems, bind, Except.bind]
  refine ⟨⟨?_, ?_⟩, fun h => by simp [phasespaceThresholding, h], h2⟩
  · rintro ⟨r, hr⟩
    by_contra hc
    rcases Nat.lt_or_ge nd 2 with h | h
    · interval_cases nd
      · simp [phasespaceThresholding] at hr
      · by_cases hd : d = []
        · rw [h2 (Or.inr ⟨rfl, hd⟩)] at hr; cases hr
        · exact hc ⟨rfl, hd⟩
    · rw [h2 (Or.inl h)] at hr; cases hr
  · rintro ⟨rfl, hd⟩; exact ⟨_, phase_ok b d hd⟩

theorem mem_outside {rho : List F} {i : Nat} : i ∈ outside rho ↔ ∃ r, rho[i]? = some r ∧ (lit 1 <. r) = true :=
  mem_whereTrue_map

theorem mem_outside_zip {f : F → F → F} {x y : List F} {i : Nat} :
    i ∈ outside (List.zipWith f x y) ↔ ∃ a b, x[i]? = some a ∧ y[i]? = some b ∧ (lit 1 <. f a b) = true := by
  rw [mem_outside]
  constructor
  · rintro ⟨r, hr, h⟩
    rw [List.getElem?_zipWith] at hr
    cases hx : x[i]? with
    | none => simp [hx] at hr
    | some a =>
      cases hy : y[i]? with
      | none => simp [hx, hy] at hr
      | some b =>
        simp only [hx, hy, Option.some.injEq] at hr
        subst hr
        exact ⟨a, b, rfl, rfl, h⟩
  · rintro ⟨a, b, hx, hy, h⟩
    exact ⟨f a b, by rw [List.getElem?_zipWith, hx, hy], h⟩

/-- **C64** (every float arithmetic) sample `i` is returned iff its rho exceeds 1 in one of the three planes (value,
first derivative), (first, second derivative), (value, second derivative). -/
theorem C64_char (b : Bool) (c : List F) (r : List Nat) (h : phasespaceThresholding ⟨1, b, c⟩ = .ok r) :
    r.Pairwise (· < ·) ∧ ∀ i, i ∈ r ↔ ∃ x y z, c[i]? = some x ∧ (centralDiff b c)[i]? = some y ∧
      (centralDiff b (centralDiff b c))[i]? = some z ∧
      ((lit 1 <. rhoAt (lit 0) (phaseP b c).a1 (phaseP b c).b1 x y) = true ∨
       (lit 1 <. rhoAt (lit 0) (phaseP b c).a2 (phaseP b c).b2 y z) = true ∨
       (lit 1 <. rhoAt (phaseP b c).theta (phaseP b c).a3 (phaseP b c).b3 x z) = true) := by
  have hc : c ≠ [] := ((C64_errors ⟨1, b, c⟩).1.mp ⟨r, h⟩).2
  rw [phase_ok b c hc] at h
  simp only [Except.ok.injEq] at h
  rw [← h]
  refine ⟨uniqueNat_sorted _, fun i => ?_⟩
  rw [mem_uniqueNat, List.mem_append, List.mem_append, mem_outside_zip, mem_outside_zip, mem_outside_zip]
  have l1 := centralDiff_length b c
  have l2 := centralDiff_length b (centralDiff b c)
  have hget : ∀ {l : List F} {x : F}, l[i]? = some x → i < l.length := fun hx => by
    by_contra hc; rw [List.getElem?_eq_none (by omega)] at hx; cases hx
  constructor
  · intro hor
    have hi : i < c.length := by
      rcases hor with (⟨_, _, hx, _⟩ | ⟨_, _, hx, _⟩) | ⟨_, _, hx, _⟩
      · exact hget hx
      · have := hget hx; omega
      · exact hget hx
    obtain ⟨x, hx⟩ : ∃ x, c[i]? = some x := ⟨_, List.getElem?_eq_getElem hi⟩
    obtain ⟨y, hy⟩ : ∃ y, (centralDiff b c)[i]? = some y := ⟨_, List.getElem?_eq_getElem (by omega)⟩
    obtain ⟨z, hz⟩ : ∃ z, (centralDiff b (centralDiff b c))[i]? = some z := ⟨_, List.getElem?_eq_getElem (by omega)⟩
    refine ⟨x, y, z, hx, hy, hz, ?_⟩
    rcases hor with (⟨a, d, h1, h2, h3⟩ | ⟨a, d, h1, h2, h3⟩) | ⟨a, d, h1, h2, h3⟩
    · rw [hx] at h1; rw [hy] at h2; cases h1; cases h2; exact Or.inl h3
    · rw [hy] at h1; rw [hz] at h2; cases h1; cases h2; exact Or.inr (Or.inl h3)
    · rw [hx] at h1; rw [hz] at h2; cases h1; cases h2; exact Or.inr (Or.inr h3)
  · rintro ⟨x, y, z, hx, hy, hz, h1 | h1 | h1⟩
    · exact Or.inl (Or.inl ⟨x, y, hx, hy, h1⟩)
    · exact Or.inl (Or.inr ⟨y, z, hy, hz, h1⟩)
    · exact Or.inr ⟨x, z, hx, hz, h1⟩

/-- **C59** (every float arithmetic) `phasespace_thresholding` returns strictly increasing sample positions. -/
theorem C59_phasespace (b : Bool) (c : List F) (r : List Nat) (h : phasespaceThresholding ⟨1, b, c⟩ = .ok r) :
    r.Pairwise (· < ·) ∧ ∀ i ∈ r, i < c.length := by
  obtain ⟨h1, h2⟩ := C64_char b c r h
  refine ⟨h1, fun i hi => ?_⟩
  obtain ⟨x, _, _, hx, _⟩ := (h2 i).mp hi
  by_contra hc; rw [List.getElem?_eq_none (by omega)] at hx; cases hx

end generic

/-! ## C79 central differences at exact arithmetic -/

section derivs
variable {K : Type} [Field K] [LinearOrder K] [FloorRing K] [IsStrictOrderedRing K]

/-- the value kept by an array of the given dtype -/
def storeK (b : Bool) (x : K) : K := if b then (truncK x : K) else x

theorem store_fin (b : Bool) (x : K) : store b (fin x : Fl K) = fin (storeK b x) := by cases b <;> rfl

/-- central differences of a list of numbers as the code forms them -/
def cdiff (b : Bool) (xs : List K) : List K :=
  (List.range xs.length).map (fun i =>
    if 1 ≤ i ∧ i + 1 < xs.length then storeK b (aroundK ((xs.getD (i + 1) 0 - xs.getD (i - 1) 0) / 2) 4) else 0)

theorem cdiff_length (b : Bool) (xs : List K) : (cdiff b xs).length = xs.length := by simp [cdiff]

theorem centralDiff_fins (b : Bool) (xs : List K) : centralDiff b (fins xs) = fins (cdiff b xs) := by
  unfold centralDiff cdiff
  rw [List.length_map]
  show _ = ((List.range xs.length).map _).map fin
  rw [List.map_map]
  apply List.map_congr_left
  intro i hi
  simp only [Function.comp]
  split_ifs with h
  · have e : ∀ j, j < xs.length → (fins xs).getD j PyNum.nan = (fin (xs.getD j 0) : Fl K) := by
      intro j hj; simp [List.getD, hj]
    rw [e _ h.2, e _ (by omega), psub_fin, lit_eq, pdiv_fin (by norm_num), paround_fin, store_fin]
    norm_num
  · simp

/-- **C79** phase-space first derivative: both ends are 0, and inside each entry is the central difference rounded to 4
decimals, hence within `0.00005` of it; constants shift nothing; on a line `c + m*i` every interior entry is `m` rounded. -/
theorem C79_phase (xs : List K) (i : Nat) (hi : i < xs.length) :
    ∃ d, centralDiff false (fins xs) = fins d ∧ d.length = xs.length ∧
      (i = 0 ∨ i + 1 = xs.length → d[i]? = some 0) ∧
      (∀ l r, 0 < i → xs[i - 1]? = some l → xs[i + 1]? = some r →
        ∃ v, d[i]? = some v ∧ v = aroundK ((r - l) / 2) 4 ∧ |v - (r - l) / 2| ≤ 1 / 20000) ∧
      (∀ o, centralDiff false (fins (xs.map (fun x => x + o))) = fins d) := by
  have hget : (cdiff false xs)[i]? = some (if 1 ≤ i ∧ i + 1 < xs.length then
      storeK false (aroundK ((xs.getD (i + 1) 0 - xs.getD (i - 1) 0) / 2) 4) else 0) := by
    unfold cdiff
    rw [List.getElem?_map, List.getElem?_range hi]; rfl
  refine ⟨cdiff false xs, centralDiff_fins false xs, cdiff_length _ _, ?_, ?_, ?_⟩
  · intro h
    rw [hget, if_neg (by omega)]
  · intro l r h0 hl hr
    have hr' : i + 1 < xs.length := by
      by_contra hc; rw [List.getElem?_eq_none (by omega)] at hr; cases hr
    refine ⟨_, hget, ?_, ?_⟩
    · rw [if_pos ⟨h0, hr'⟩]
      simp [storeK, List.getD_eq_getElem?_getD, hl, hr]
    · rw [if_pos ⟨h0, hr'⟩]
      simp only [storeK, List.getD_eq_getElem?_getD, hl, hr, Option.getD_some, Bool.false_eq_true, if_false]
      unfold aroundK
      have h1 := abs_rint_sub ((r - l) / 2 * (10 : K) ^ (4 : Int))
      have h10 : (10 : K) ^ (4 : Int) = 10000 := by norm_num
      rw [h10] at h1 ⊢
      rw [abs_le] at h1 ⊢
      constructor
      · rw [le_sub_iff_add_le, le_div_iff₀ (by norm_num)]; linarith [h1.1]
      · rw [sub_le_iff_le_add, div_le_iff₀ (by norm_num)]; linarith [h1.2]
  · intro o
    rw [centralDiff_fins]
    congr 1
    unfold cdiff
    rw [List.length_map]
    apply List.map_congr_left
    intro j hj
    split_ifs with h
    · congr 2
      have e : ∀ k, k < xs.length → (xs.map (fun x => x + o)).getD k 0 = xs.getD k 0 + o := by
        intro k hk; simp [List.getD, hk]
      rw [e _ h.2, e _ (by omega), add_sub_add_right_eq_sub]
    · rfl

example : centralDiff false (fins [(1 : ℚ), 2, 4, 8]) = fins [0, 3 / 2, 3, 0] := by decide +kernel

end derivs

/-! ## C65 symmetries, with NaN and infinities -/

/-- an integer array holds ordinary numbers only -/
def IntOk (b : Bool) (c : List (Fl ℝ)) : Prop := b = true → ∀ x ∈ c, isFin x = true

private theorem isFin_iff {x : Fl ℝ} : isFin x = true ↔ ∃ a, x = fin a := by
  cases x <;> simp [isFin]

private theorem allFin {c : List (Fl ℝ)} (h : ∀ x ∈ c, isFin x = true) : ∃ xs, c = fins xs := by
  induction c with
  | nil => exact ⟨[], rfl⟩
  | cons x t ih =>
    obtain ⟨a, rfl⟩ := isFin_iff.mp (h x (by simp))
    obtain ⟨xs, rfl⟩ := ih (fun y hy => h y (by simp [hy]))
    exact ⟨a :: xs, rfl⟩

theorem IntOk_centralDiff {b : Bool} {c : List (Fl ℝ)} (h : IntOk b c) : IntOk b (centralDiff b c) := by
  intro hb x hx
  obtain ⟨xs, rfl⟩ := allFin (h hb)
  rw [show centralDiff b (fins xs) = fins (cdiff b xs) from centralDiff_fins b xs] at hx
  obtain ⟨y, _, rfl⟩ := List.mem_map.mp hx
  rfl

private theorem stepFin {b : Bool} {c : List (Fl ℝ)} (h : IntOk b c) {j k : Nat} (hj : j < c.length) (hk : k < c.length) :
    b = true → isFin (PyNum.around ((c.getD j PyNum.nan -. c.getD k PyNum.nan) /. lit 2) 4 : Fl ℝ) = true := by
  intro hb
  obtain ⟨xs, rfl⟩ := allFin (h hb)
  rw [List.length_map] at hj hk
  have e : ∀ j, j < xs.length → (fins xs).getD j PyNum.nan = (fin (xs.getD j 0) : Fl ℝ) := by
    intro j hj; simp [List.getD, hj]
  rw [e _ hj, e _ hk, psub_fin, lit_eq, pdiv_fin (by norm_num)]
  rfl

private theorem getD_neg (c : List (Fl ℝ)) (j : Nat) :
    (c.map PyNum.neg).getD j PyNum.nan = PyNum.neg (c.getD j PyNum.nan) := by
  rw [List.getD_eq_getElem?_getD, List.getD_eq_getElem?_getD, List.getElem?_map]
  cases c[j]? <;> rfl

theorem centralDiff_neg {b : Bool} {c : List (Fl ℝ)} (h : IntOk b c) :
    centralDiff b (c.map PyNum.neg) = (centralDiff b c).map PyNum.neg := by
  unfold centralDiff
  rw [List.length_map, List.map_map]
  apply List.map_congr_left
  intro i hi
  have hi := List.mem_range.mp hi
  simp only [Function.comp]
  split_ifs with hc
  · rw [getD_neg, getD_neg, pneg_sub, lit_eq, pneg_div_fin _ (by norm_num), paround_neg, store_neg]
    exact stepFin h hc.2 (by omega)
  · simp

theorem centralDiff_reverse {b : Bool} {c : List (Fl ℝ)} (h : IntOk b c) :
    centralDiff b c.reverse = ((centralDiff b c).map PyNum.neg).reverse := by
  apply List.ext_getElem?
  intro i
  by_cases hi : i < c.length
  · rw [List.getElem?_reverse (by rw [List.length_map, centralDiff_length]; exact hi), List.getElem?_map,
      List.length_map, centralDiff_length]
    unfold centralDiff
    rw [List.length_reverse, List.getElem?_map, List.getElem?_map, List.getElem?_range hi,
      List.getElem?_range (show c.length - 1 - i < c.length by omega)]
    simp only [Option.map_some, Option.some.injEq]
    by_cases hc : 1 ≤ i ∧ i + 1 < c.length
    · rw [if_pos hc, if_pos (show 1 ≤ c.length - 1 - i ∧ c.length - 1 - i + 1 < c.length by omega)]
      have g : ∀ j, j < c.length → c.reverse.getD j PyNum.nan = c.getD (c.length - 1 - j) PyNum.nan := by
        intro j hj
        rw [List.getD_eq_getElem?_getD, List.getD_eq_getElem?_getD, List.getElem?_reverse hj]
      rw [g _ hc.2, g _ (by omega)]
      rw [show c.length - 1 - (i + 1) = c.length - 1 - i - 1 by omega,
        show c.length - 1 - (i - 1) = c.length - 1 - i + 1 by omega]
      rw [psub_swap, lit_eq, pneg_div_fin _ (by norm_num), paround_neg, store_neg]
      exact stepFin h (by omega) (by omega)
    · rw [if_neg hc, if_neg (show ¬ (1 ≤ c.length - 1 - i ∧ c.length - 1 - i + 1 < c.length) by omega)]
      simp
  · rw [List.getElem?_eq_none (by rw [centralDiff_length, List.length_reverse]; omega),
      List.getElem?_eq_none (by rw [List.length_reverse, List.length_map, centralDiff_length]; omega)]

private theorem rhoAt_neg (t a b x y : Fl ℝ) :
    rhoAt t a b (PyNum.neg x) (PyNum.neg y) = rhoAt t a b x y := by
  unfold rhoAt rotX rotY
  rw [pneg_mul, pneg_mul, pneg_mul, pneg_mul, pneg_add, pneg_sub, pneg_div_sq, pneg_div_sq]

private theorem zipWith_neg (f : Fl ℝ → Fl ℝ → Fl ℝ) (x y : List (Fl ℝ)) (hf : ∀ u v, f (PyNum.neg u) (PyNum.neg v) = f u v) :
    List.zipWith f (x.map PyNum.neg) (y.map PyNum.neg) = List.zipWith f x y := by
  rw [List.zipWith_map]; congr 1; funext u v; exact hf u v

theorem phaseAngle_neg (c d : List (Fl ℝ)) : phaseAngle (c.map PyNum.neg) (d.map PyNum.neg) = phaseAngle c d := by
  unfold phaseAngle
  rw [zipWith_neg _ _ _ (fun u v => pneg_mul_neg u v), List.map_map]
  congr 3
  apply List.map_congr_left
  intro u _
  exact pneg_sq u

private theorem ne_of_centralDiff {b : Bool} {c : List (Fl ℝ)} (h : c ≠ []) : centralDiff b c ≠ [] := by
  intro hc
  have := centralDiff_length b c
  rw [hc] at this
  exact h (List.length_eq_zero_iff.mp this.symm)

/-- **C65** flipping the sign of the series gives the same result (indices or error), for every array including NaN and
infinities. -/
theorem C65_sign (b : Bool) (c : List (Fl ℝ)) (h : IntOk b c) :
    phasespaceThresholding ⟨1, b, c.map PyNum.neg⟩ = phasespaceThresholding ⟨1, b, c⟩ := by
  by_cases hc : c = []
  · subst hc; rfl
  have hd := centralDiff_neg h
  have hd2 : centralDiff b (centralDiff b (c.map PyNum.neg)) = (centralDiff b (centralDiff b c)).map PyNum.neg := by
    rw [hd, centralDiff_neg (IntOk_centralDiff h)]
  have hp : phaseP b (c.map PyNum.neg) = phaseP b c := by
    unfold phaseP
    rw [hd2, hd, npStd_neg hc, npStd_neg (ne_of_centralDiff hc), npStd_neg (ne_of_centralDiff (ne_of_centralDiff hc)),
      phaseAngle_neg, List.length_map]
  rw [phase_ok b _ (by simpa using hc), phase_ok b c hc, hp, hd2, hd,
    zipWith_neg _ _ _ (fun u v => rhoAt_neg _ _ _ u v), zipWith_neg _ _ _ (fun u v => rhoAt_neg _ _ _ u v),
    zipWith_neg _ _ _ (fun u v => rhoAt_neg _ _ _ u v)]

private theorem mul_zero_neg (x : Fl ℝ) : PyNum.neg x *. fin 0 = x *. fin 0 := by
  cases x <;> simp [neg_def, mul_def, Fl.mul, Fl.neg, infSgn]

private theorem neg_mul_zero (x : Fl ℝ) : PyNum.neg (x *. fin 0) = x *. fin 0 := by
  cases x <;> simp [neg_def, mul_def, Fl.mul, Fl.neg, infSgn]

private theorem rhoAt_zero_right (a b x y : Fl ℝ) : rhoAt (lit 0) a b x (PyNum.neg y) = rhoAt (lit 0) a b x y := by
  unfold rhoAt rotX rotY
  simp only [lit_eq, Rat.cast_zero, pcos_fin, psin_fin, Real.sin_zero, Real.cos_zero]
  rw [mul_zero_neg, pneg_mul]
  have : PyNum.neg (y *. fin 1) -. x *. fin 0 = PyNum.neg (y *. fin 1 -. x *. (fin 0 : Fl ℝ)) := by
    rw [← pneg_sub, neg_mul_zero]
  rw [this, pneg_div_sq]

private theorem rhoAt_zero_left (a b x y : Fl ℝ) : rhoAt (lit 0) a b (PyNum.neg x) y = rhoAt (lit 0) a b x y := by
  have h1 := rhoAt_neg (lit 0) a b x (PyNum.neg y)
  rw [pneg_neg, rhoAt_zero_right] at h1
  exact h1

private theorem outside_reverse {n i : Nat} (l : List (Fl ℝ)) (hn : l.length = n) :
    i ∈ outside l.reverse ↔ i < n ∧ n - 1 - i ∈ outside l := by
  rw [mem_outside, mem_outside]
  constructor
  · rintro ⟨r, hr, h⟩
    have hi : i < l.length := by
      by_contra hc
      rw [List.getElem?_eq_none (by rw [List.length_reverse]; omega)] at hr; cases hr
    rw [List.getElem?_reverse hi] at hr
    exact ⟨by omega, r, by rw [← hn]; exact hr, h⟩
  · rintro ⟨hi, r, hr, h⟩
    exact ⟨r, by rw [List.getElem?_reverse (by omega), hn]; exact hr, h⟩

/-- **C65** reversing the series mirrors the indices, for every array including NaN and infinities. -/
theorem C65_reverse (b : Bool) (c : List (Fl ℝ)) (hc : c ≠ []) (h : IntOk b c) :
    ∃ r r', phasespaceThresholding ⟨1, b, c⟩ = .ok r ∧ phasespaceThresholding ⟨1, b, c.reverse⟩ = .ok r' ∧
      ∀ i, i ∈ r' ↔ i < c.length ∧ c.length - 1 - i ∈ r := by
  have hd := centralDiff_reverse h
  set d := centralDiff b c with hdd
  have hd2 : centralDiff b (centralDiff b c.reverse) = (centralDiff b d).reverse := by
    rw [hd]
    have hi : IntOk b (d.map PyNum.neg) := by
      intro hb x hx
      obtain ⟨y, hy, rfl⟩ := List.mem_map.mp hx
      obtain ⟨a, rfl⟩ := isFin_iff.mp (IntOk_centralDiff h hb y hy)
      rfl
    rw [centralDiff_reverse hi, centralDiff_neg (IntOk_centralDiff h), List.map_map]
    have : (PyNum.neg ∘ PyNum.neg : Fl ℝ → Fl ℝ) = id := by funext x; exact pneg_neg x
    rw [this, List.map_id]
  set d2 := centralDiff b d with hdd2
  have l1 : d.length = c.length := centralDiff_length b c
  have l2 : d2.length = c.length := by rw [hdd2, centralDiff_length, l1]
  have hang : phaseAngle c.reverse d2.reverse = phaseAngle c d2 := by
    unfold phaseAngle
    rw [← List.reverse_zipWith (by rw [l2]), List.map_reverse, psum_perm (List.reverse_perm _),
      psum_perm (List.reverse_perm _)]
  have hp : phaseP b c.reverse = phaseP b c := by
    unfold phaseP
    rw [hd2, hd, ← hdd, ← hdd2, npStd_perm (List.reverse_perm c), npStd_perm (List.reverse_perm d2),
      npStd_perm (List.reverse_perm _), npStd_neg (ne_of_centralDiff hc), List.length_reverse, hang]
  refine ⟨_, _, phase_ok b c hc, phase_ok b _ (by simpa using hc), fun i => ?_⟩
  rw [hp, hd2, hd, ← hdd, ← hdd2]
  set p := phaseP b c
  have e1 : List.zipWith (rhoAt (lit 0) p.a1 p.b1) c.reverse (d.map PyNum.neg).reverse =
      (List.zipWith (rhoAt (lit 0) p.a1 p.b1) c d).reverse := by
    rw [← List.reverse_zipWith (by simp [l1])]
    congr 1
    rw [List.zipWith_map_right]
    congr 1; funext u v; exact rhoAt_zero_right _ _ u v
  have e2 : List.zipWith (rhoAt (lit 0) p.a2 p.b2) (d.map PyNum.neg).reverse d2.reverse =
      (List.zipWith (rhoAt (lit 0) p.a2 p.b2) d d2).reverse := by
    rw [← List.reverse_zipWith (by simp [l1, l2])]
    congr 1
    rw [List.zipWith_map_left]
    congr 1; funext u v; exact rhoAt_zero_left _ _ u v
  have e3 : List.zipWith (rhoAt p.theta p.a3 p.b3) c.reverse d2.reverse =
      (List.zipWith (rhoAt p.theta p.a3 p.b3) c d2).reverse := by
    rw [← List.reverse_zipWith (by simp [l2])]
  rw [e1, e2, e3, mem_uniqueNat, mem_uniqueNat]
  simp only [List.mem_append]
  rw [outside_reverse (n := c.length) _ (by simp [l1]), outside_reverse (n := c.length) _ (by simp [l1, l2]),
    outside_reverse (n := c.length) _ (by simp [l2])]
  tauto

/-- both hypotheses hold for every float array, e.g. with a NaN and an infinity -/
example : IntOk false [fin 1, nan, pinf] := by intro h; cases h

end Proadv.Props
