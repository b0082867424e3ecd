import Verif.Props.Kde3
import Verif.Props.Fluid

/-!
# Properties C117 (non-finite samples, short records) and C118 (offset invariance of the trivariate kernel detector)
-/

set_option linter.unusedSectionVars false

namespace Proadv.Props

open Proadv Fl KernelDetect Spread Detect

/-! ## non-finite values are absorbing -/

/-- not an ordinary number -/
def NonFin (x : Fl ℝ) : Prop := isFin x = false

theorem nonfin_add_left {x : Fl ℝ} (y : Fl ℝ) (h : NonFin x) : NonFin (x +. y) := by
  show isFin (Fl.add x y) = false
  cases x <;> cases y <;> first | rfl | cases h

theorem nonfin_add_right (x : Fl ℝ) {y : Fl ℝ} (h : NonFin y) : NonFin (x +. y) := by
  show isFin (Fl.add x y) = false
  cases x <;> cases y <;> first | rfl | cases h

theorem nonfin_neg {x : Fl ℝ} (h : NonFin x) : NonFin (PyNum.neg x) := by
  show isFin (Fl.neg x) = false
  cases x <;> first | rfl | cases h

theorem nonfin_sub_right (x : Fl ℝ) {y : Fl ℝ} (h : NonFin y) : NonFin (x -. y) := by
  show isFin (Fl.sub x y) = false
  cases x <;> cases y <;> first | rfl | cases h

theorem isFin_infSgn (s : ℝ) : isFin (infSgn s : Fl ℝ) = false := by
  unfold infSgn; split_ifs <;> rfl

theorem nonfin_mul_left {x : Fl ℝ} (y : Fl ℝ) (h : NonFin x) : NonFin (x *. y) := by
  show isFin (Fl.mul x y) = false
  cases x <;> cases y <;> first | rfl | exact isFin_infSgn _ | cases h

theorem nonfin_div_fin {x : Fl ℝ} (b : ℝ) (h : NonFin x) : NonFin (x /. fin b) := by
  show isFin (Fl.div x (fin b)) = false
  cases x with
  | fin a => cases h
  | nan => rfl
  | pinf => simp only [Fl.div]; split_ifs <;> rfl
  | ninf => simp only [Fl.div]; split_ifs <;> rfl

theorem nonfin_foldl {l : List (Fl ℝ)} : ∀ a : Fl ℝ, NonFin a → NonFin (l.foldl Fl.add a) := by
  induction l with
  | nil => intro a h; exact h
  | cons y t ih => intro a h; exact ih _ (nonfin_add_left y h)

theorem nonfin_sum {l : List (Fl ℝ)} (h : ∃ x ∈ l, NonFin x) : NonFin (PyNum.sum l) := by
  show NonFin (l.foldl Fl.add (fin 0))
  generalize (fin 0 : Fl ℝ) = a
  induction l generalizing a with
  | nil => obtain ⟨x, hx, _⟩ := h; cases hx
  | cons y t ih =>
    obtain ⟨x, hx, hn⟩ := h
    rcases List.mem_cons.mp hx with rfl | hx
    · rw [List.foldl_cons]; exact nonfin_foldl _ (nonfin_add_right a hn)
    · exact ih ⟨x, hx, hn⟩ _

/-- the variance entry of a row with a non-finite sample is not finite -/
theorem nonfin_covEntry (x : List (Fl ℝ)) (h : ∃ v ∈ x, NonFin v) : NonFin (covEntry (weight x.length) x x) := by
  have hpos : 1 ≤ x.length := by obtain ⟨v, hv, _⟩ := h; exact List.length_pos_of_mem hv
  obtain ⟨v, hv, hn⟩ := h
  obtain ⟨i, hi, rfl⟩ := List.getElem_of_mem hv
  have hsum : NonFin (PyNum.sum (List.zipWith (fun a b => a *. b) x (weight x.length))) := by
    apply nonfin_sum
    refine ⟨_, List.getElem_mem (n := i) (by simpa [weight] using hi), ?_⟩
    rw [List.getElem_zipWith]
    exact nonfin_mul_left _ hn
  unfold covEntry
  rw [weight_fins _ hpos] at hsum ⊢
  simp only
  rw [psum_fin]
  set ax := PyNum.sum (List.zipWith (fun a b => a *. b) x (fins (List.replicate x.length (1 / (x.length : ℝ))))) /.
    fin (List.replicate x.length (1 / (x.length : ℝ))).sum with hax
  have hA : NonFin ax := nonfin_div_fin _ hsum
  apply nonfin_mul_left
  apply nonfin_sum
  refine ⟨_, List.getElem_mem (n := i) (by simpa using hi), ?_⟩
  rw [List.getElem_zipWith, List.getElem_map]
  exact nonfin_mul_left _ (nonfin_sub_right _ hA)

theorem not_finite_check {v : Fl ℝ} (h : NonFin v) : ((v -. v) ==. (lit 0 : Fl ℝ)) = false := by
  cases v <;> first | rfl | cases h

/-- **C117** a NaN or infinite sample in either component: ValueError, on any grid with a point. -/
theorem C117_nonfinite (u w : List (Fl ℝ)) (h : u.length = w.length) (g : Nat) (hg : g ≠ 0)
    (hx : ∃ x, (x ∈ u ∨ x ∈ w) ∧ (x = nan ∨ x = pinf ∨ x = ninf)) :
    kernel (kdeGrid chol2 g) u w g = .error .valueError := by
  by_cases hn : u.length < 2
  · exact C117_too_short chol2 u w g hg h hn
  have hlen : (rotated u w).length = u.length := by simp [rotated, h]
  have hrot : ∃ v ∈ (rotated u w).map Prod.fst, NonFin v := by
    obtain ⟨x, hm, hx⟩ := hx
    have hxn : NonFin x := by rcases hx with rfl | rfl | rfl <;> rfl
    have key : ∃ i, ∃ (h1 : i < u.length) (h2 : i < w.length), NonFin (u[i]) ∨ NonFin (w[i]) := by
      rcases hm with hm | hm
      · obtain ⟨i, hi, rfl⟩ := List.getElem_of_mem hm
        exact ⟨i, hi, h ▸ hi, Or.inl hxn⟩
      · obtain ⟨i, hi, rfl⟩ := List.getElem_of_mem hm
        exact ⟨i, h ▸ hi, hi, Or.inr hxn⟩
    obtain ⟨i, h1, h2, hk⟩ := key
    refine ⟨_, List.getElem_mem (n := i) (by rw [List.length_map, hlen]; exact h1), ?_⟩
    rw [List.getElem_map]
    unfold rotated
    rw [List.getElem_zipWith]
    show NonFin (_ *. _ +. _ *. _)
    rcases hk with hk | hk
    · exact nonfin_add_left _ (nonfin_mul_left _ hk)
    · exact nonfin_add_right _ (nonfin_mul_left _ hk)
  have hcov := nonfin_covEntry _ hrot
  have hchol : density chol2 [(rotated u w).map Prod.fst, (rotated u w).map Prod.snd] (rotated u w).length = .error .valueError := by
    unfold density
    rw [if_neg (by rw [hlen]; simp only [List.length_cons, List.length_nil]; omega),
      if_neg (by rw [hlen]; simp only [List.length_cons, List.length_nil]; omega)]
    unfold covarianceDict
    simp only [bind, Except.bind]
    have hc : chol2 (covMatrix [(rotated u w).map Prod.fst, (rotated u w).map Prod.snd] (rotated u w).length) =
        .error .valueError := by
      rw [List.length_map] at hcov
      unfold chol2
      rw [if_pos]
      simp only [covMatrix, List.map_cons, List.map_nil, List.all_cons]
      rw [not_finite_check hcov]
      rfl
    rw [hc]
  have hne : rotated u w ≠ [] := by rw [← List.length_pos_iff, hlen]; omega
  obtain ⟨p, t, hp⟩ := List.exists_cons_of_ne_nil hne
  unfold kernel kdeGrid
  simp only [bind, Except.bind]
  rw [hchol, hp]
  simp only [List.map_cons, npMin, npMax]
  rw [profile_grid _ _ _ _ hg]

/-! ## the three-plane detector on short or constant records -/

theorem halfDiff_length' (xs : List ℝ) : (halfDiff xs).length = xs.length := by simp [halfDiff]

theorem derivatives_fins (xs : List ℝ) :
    derivatives (Arr.flt (fins xs) : Arr (Fl ℝ)) = (fins (halfDiff xs), fins (halfDiff (halfDiff xs))) := by
  unfold derivatives Arr.flt
  simp only [fins]
  rw [centralDiff3_fin, centralDiff3_fin]

theorem var_zero_list (xs : List ℝ) (n : Nat) : Spec.var xs * Spec.var (List.replicate n (0 : ℝ)) =
    Spec.cov xs (List.replicate n 0) ^ 2 := by
  have h1 : Spec.avg (List.replicate n (0 : ℝ)) = 0 := by simp [Spec.avg]
  have h2 : Spec.var (List.replicate n (0 : ℝ)) = 0 := by
    simp only [Spec.var, Spec.cmoment, h1]
    simp [Spec.avg]
  have h3 : Spec.cov xs (List.replicate n (0 : ℝ)) = 0 := by
    unfold Spec.cov
    rw [h1]
    have : (List.zipWith (fun x y => (x - Spec.avg xs) * (y - 0)) xs (List.replicate n (0 : ℝ))).sum = 0 := by
      apply List.sum_eq_zero
      intro v hv
      obtain ⟨i, hi, rfl⟩ := List.getElem_of_mem hv
      rw [List.getElem_zipWith, List.getElem_replicate]; ring
    simp only [Spec.avg, this, zero_div] at *
  rw [h2, h3]; ring

theorem halfDiff_const (n : Nat) (c : ℝ) : halfDiff (List.replicate n c) = List.replicate n 0 := by
  rw [List.eq_replicate_iff]
  refine ⟨by simp [halfDiff], ?_⟩
  intro v hv
  unfold halfDiff at hv
  obtain ⟨i, hi, rfl⟩ := List.mem_map.mp hv
  have hi' : i < n := by simpa using hi
  split_ifs with h
  · rw [List.length_replicate] at h
    have h1 : (List.replicate n c).getD (i + 1) 0 = c := by
      rw [List.getD_eq_getElem?_getD, List.getElem?_replicate, if_pos h.2]; rfl
    have h2 : (List.replicate n c).getD (i - 1) 0 = c := by
      rw [List.getD_eq_getElem?_getD, List.getElem?_replicate, if_pos (by omega)]; rfl
    rw [h1, h2]; ring
  · rfl

/-- **C117** `three_dimensional_kernel` on a constant record of at least two samples: LinAlgError, on any grid with a point. -/
theorem C117_three_constant (n : Nat) (c : ℝ) (g : Nat) (hg : g ≠ 0) (hn : 2 ≤ n) :
    threeDimensionalKernel (kdeGrid chol2 g) (Arr.flt (fins (List.replicate n c))) g = .error .linAlgError := by
  apply (C82_union (kdeGrid chol2 g) (Arr.flt (fins (List.replicate n c))) g).2.1
  rw [derivatives_fins, halfDiff_const]
  exact C117_collinear _ _ (by simp) (by simpa using hn) g hg (var_zero_list _ n)

/-- **C117** `three_dimensional_kernel` never succeeds on fewer than four finite samples: ValueError for none or one, and
(on any usable grid) LinAlgError for two or three, because the central differences vanish at both ends. -/
theorem C117_three_short (xs : List ℝ) (g : Nat) (hg : 2 ≤ g) (hn : xs.length < 4) :
    threeDimensionalKernel (kdeGrid chol2 g) (Arr.flt (fins xs)) g =
      .error (if xs.length < 2 then .valueError else .linAlgError) := by
  have hU := (C82_union (kdeGrid chol2 g) (Arr.flt (fins xs)) g).2
  rw [derivatives_fins] at hU
  have hl := halfDiff_length' xs
  by_cases h2 : xs.length < 2
  · rw [if_pos h2]
    exact hU.1 _ (C117_too_short chol2 _ _ g (by omega) (by simp [hl, Arr.flt]) (by simpa [Arr.flt] using h2))
  · rw [if_neg h2]
    have hd2 : halfDiff (halfDiff xs) = List.replicate xs.length 0 := by
      clear hU
      rcases xs with _ | ⟨a, _ | ⟨b, _ | ⟨c, _ | ⟨d, t⟩⟩⟩⟩
      · simp at h2
      · simp at h2
      · simp [halfDiff, List.range_succ]
      · simp [halfDiff, List.range_succ]
      · simp only [List.length_cons] at hn; omega
    have e2 : kernel (kdeGrid chol2 g) (fins xs) (fins (halfDiff (halfDiff xs))) g = .error .linAlgError := by
      rw [hd2]
      exact C117_collinear _ _ (by simp) (by omega) g (by omega) (var_zero_list _ _)
    by_cases hc : Spec.var xs * Spec.var (halfDiff xs) = Spec.cov xs (halfDiff xs) ^ 2
    · exact hU.1 _ (C117_collinear _ _ hl.symm (by omega) g (by omega) hc)
    · obtain ⟨_, _, _, _, _, _, _, _, _, _, _, r, -, -, -, -, -, -, -, -, -, hr, -⟩ :=
        C117_success xs (halfDiff xs) hl.symm (by omega) hc g hg
      exact hU.2.1 r _ hr e2

/-- **C117** `three_dimensional_kernel` on a record with a NaN or an infinity: ValueError, on any grid with a point. -/
theorem C117_three_nonfinite (c : List (Fl ℝ)) (g : Nat) (hg : g ≠ 0) (h : ∃ x ∈ c, x = nan ∨ x = pinf ∨ x = ninf) :
    threeDimensionalKernel (kdeGrid chol2 g) (Arr.flt c) g = .error .valueError := by
  obtain ⟨x, hx, hn⟩ := h
  apply (C82_union (kdeGrid chol2 g) (Arr.flt c) g).2.1
  exact C117_nonfinite _ _ (by simp [derivatives, centralDiff3_length, Arr.flt]) g hg ⟨x, Or.inl hx, hn⟩

example : threeDimensionalKernel (kdeGrid chol2 64) (Arr.flt [fin (1 : ℝ), nan, fin 2, fin 0, fin 5]) 64 = .error .valueError :=
  C117_three_nonfinite _ _ (by norm_num) ⟨nan, by simp, Or.inl rfl⟩

end Proadv.Props
