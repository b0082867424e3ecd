import Verif.Props.SsaUnique

set_option linter.unusedSectionVars false

/-!
# `ssa` on a geometric signal (C253)

The trajectory matrix of `a, a q, a q², …` has rank one, so exactly one eigenvector matters: the signal is kept or erased as a whole.
-/

namespace Proadv.Props

open Proadv Series Fl Replace

/-- `1 + q² + … + q^(2(L-1))` -/
noncomputable def geoEnergy (L : Nat) (q : ℝ) : ℝ := ∑ t ∈ Finset.range L, (q ^ t) ^ 2

/-- the mobility of the normalised vector `1, q, …, q^(L-1)`: root sum of squares of the differences over `L - 1`, divided by the
root sum of squares, 1, over `L` rounded to four decimals -/
noncomputable def geoMob (L : Nat) (q : ℝ) : Fl ℝ :=
  fin (|q - 1| * √(geoEnergy (L - 1) q / geoEnergy L q) / ((L - 1 : Nat) : ℝ)) /. fin (aroundK (1 / L) 4)

private theorem geoEnergy_pos {L : Nat} (h : 1 ≤ L) (q : ℝ) : 0 < geoEnergy L q := by
  have h1 : (q ^ 0) ^ 2 ≤ geoEnergy L q :=
    Finset.single_le_sum (f := fun t => (q ^ t) ^ 2) (fun t _ => sq_nonneg _) (Finset.mem_range.mpr h)
  have : (0 : ℝ) < (q ^ 0) ^ 2 := by norm_num
  linarith

/-- **C253** For the signal `a, a q, a q², …` of any length, ratio and amplitude and every window, `ssa` returns the signal rounded to
four decimals if the mobility of the geometric vector does not exceed that of the reference sine, and zeros otherwise, whichever
orthonormal eigenvectors the solver chooses. -/
theorem C253_geometric (n : Nat) (a q : ℝ) (fs f : Fl ℝ) (L : Nat)
    (ceilInt : Fl ℝ → Py Int) (eigh : Mat (Fl ℝ) → Py (Mat (Fl ℝ))) (E : Nat → Nat → ℝ)
    (h : SsaCall ((List.range n).map (fun m => q ^ m * a)) fs f L ceilInt eigh E) (ho : OrthoCols E L)
    (he : EigenCols ((List.range n).map (fun m => q ^ m * a)) L E) :
    ssa ceilInt eigh (((List.range n).map (fun m => q ^ m * a)).map fin) fs f =
      if (geoMob L q ≤. refMob L fs f) = true then .ok ((List.range n).map (fun m => fin (aroundK (q ^ m * a) 4)))
      else .ok (List.replicate n (fin 0)) := by
  have h2 := h.two
  have hfit := h.fits
  rw [List.length_map, List.length_range] at hfit
  have hX : ∀ j < n, ((List.range n).map (fun m => q ^ m * a)).getD j 0 = q ^ j * a := by
    intro j hj
    rw [List.getD_eq_getElem?_getD, List.getElem?_map, List.getElem?_range hj]; rfl
  set S := keptSet E L (refMob L fs f) with hS
  have hW : 0 < geoEnergy L q := geoEnergy_pos (by omega) q
  set b : Nat → ℝ := fun i => ∑ t ∈ Finset.range L, q ^ t * E t i with hb
  -- a column not orthogonal to the geometric vector is a multiple of it
  have hpar : a ≠ 0 → ∀ i < L, b i ≠ 0 → ∃ k : ℝ, k ^ 2 * geoEnergy L q = 1 ∧ ∀ r < L, E r i = k * q ^ r := by
    intro ha i hi hbi
    obtain ⟨lam, hl⟩ := he
    set C : ℝ := ∑ c ∈ Finset.range (n - L + 1), (q ^ c) ^ 2 * (a * a) with hC
    have hC0 : 0 < C := by
      have h1 : (q ^ 0) ^ 2 * (a * a) ≤ C :=
        Finset.single_le_sum (f := fun c => (q ^ c) ^ 2 * (a * a)) (fun t _ => mul_nonneg (sq_nonneg _) (mul_self_nonneg a))
          (Finset.mem_range.mpr (by omega))
      have : 0 < (q ^ 0) ^ 2 * (a * a) := by rw [pow_zero, one_pow, one_mul]; exact mul_self_pos.mpr ha
      linarith
    have key : ∀ r < L, C * q ^ r * b i = lam i * E r i := by
      intro r hr
      rw [← hl r hr i hi, hb, Finset.mul_sum]
      apply Finset.sum_congr rfl
      intro t ht
      have ht := Finset.mem_range.mp ht
      rw [← mul_assoc]
      congr 1
      rw [List.length_map, List.length_range, hC, Finset.sum_mul, Finset.sum_mul]
      apply Finset.sum_congr rfl
      intro c hc
      have := Finset.mem_range.mp hc
      rw [hX _ (by omega), hX _ (by omega), pow_add, pow_add]
      ring
    have hlam : lam i ≠ 0 := by
      intro h0
      have := key 0 (by omega)
      rw [h0, zero_mul, pow_zero, mul_one] at this
      exact (mul_ne_zero hC0.ne' hbi) this
    have hE : ∀ r < L, E r i = C * b i / lam i * q ^ r := by
      intro r hr
      rw [div_mul_eq_mul_div, eq_div_iff hlam, mul_comm (E r i), ← key r hr]
      ring
    refine ⟨C * b i / lam i, ?_, hE⟩
    rw [← col_norm ho i hi, geoEnergy, Finset.mul_sum]
    apply Finset.sum_congr rfl
    intro r hr
    rw [hE r (Finset.mem_range.mp hr), mul_pow]
  -- its mobility
  have hmob : ∀ i < L, ∀ k : ℝ, k ^ 2 * geoEnergy L q = 1 → (∀ r < L, E r i = k * q ^ r) →
      (i ∈ S ↔ (geoMob L q ≤. refMob L fs f) = true) := by
    intro i hi k hk hE
    have hd : √(∑ t ∈ Finset.range (L - 1), (E (t + 1) i - E t i) ^ 2) = |q - 1| * √(geoEnergy (L - 1) q / geoEnergy L q) := by
      have e1 : ∑ t ∈ Finset.range (L - 1), (E (t + 1) i - E t i) ^ 2 = (q - 1) ^ 2 * (geoEnergy (L - 1) q / geoEnergy L q) := by
        have e2 : k ^ 2 = 1 / geoEnergy L q := by rw [eq_div_iff hW.ne']; exact hk
        have e3 : (q - 1) ^ 2 * (geoEnergy (L - 1) q / geoEnergy L q) = (q - 1) ^ 2 * k ^ 2 * geoEnergy (L - 1) q := by
          rw [e2]; ring
        rw [e3, geoEnergy, Finset.mul_sum]
        apply Finset.sum_congr rfl
        intro t ht
        have := Finset.mem_range.mp ht
        rw [hE _ (by omega), hE _ (by omega), pow_succ]
        ring
      rw [e1, Real.sqrt_mul (sq_nonneg _), Real.sqrt_sq_eq_abs]
    rw [hS, keptSet, Finset.mem_filter, Finset.mem_range, mobVal_range L h2, col_norm ho i hi, Real.sqrt_one, hd]
    exact ⟨fun hh => hh.2, fun hh => ⟨hi, hh⟩⟩
  -- the projected trajectory matrix
  have e1 : ∀ i, ∀ c < n - L + 1, ∑ t ∈ Finset.range L, E t i * (fun j => ((List.range n).map (fun m => q ^ m * a)).getD j 0) (c + t) =
      q ^ c * a * b i := by
    intro i c hc
    rw [hb, Finset.mul_sum]
    apply Finset.sum_congr rfl
    intro t ht
    have := Finset.mem_range.mp ht
    simp only
    rw [hX _ (by omega), pow_add]; ring
  rw [ssa_eq h, ← hS, List.length_map, List.length_range]
  by_cases hk : (geoMob L q ≤. refMob L fs f) = true
  · rw [if_pos hk]
    congr 1
    apply List.map_congr_left
    intro m hm
    have hm := List.mem_range.mp hm
    congr 2
    have hsub : S ⊆ Finset.range L := Finset.filter_subset _ _
    have hproj : ∀ r < L, ∀ c < n - L + 1,
        projected E L S (fun j => ((List.range n).map (fun m => q ^ m * a)).getD j 0) r c = q ^ (c + r) * a := by
      intro r hr c hc
      unfold projected
      by_cases ha : a = 0
      · rw [Finset.sum_eq_zero, ha, mul_zero]
        intro i _
        rw [e1 i c hc, ha]; ring
      · rw [Finset.sum_subset hsub (by
          intro i hi hi'
          rw [e1 i c hc]
          by_cases hbi : b i = 0
          · rw [hbi]; ring
          · obtain ⟨k, k1, k2⟩ := hpar ha i (Finset.mem_range.mp hi) hbi
            exact absurd ((hmob i (Finset.mem_range.mp hi) k k1 k2).mpr hk) hi')]
        have hx := ortho_expand ho (fun t => q ^ t) r hr
        simp only [e1 _ c hc]
        rw [pow_add, mul_right_comm, hx, Finset.mul_sum]
        apply Finset.sum_congr rfl
        intro i _
        have : b i = ∑ t ∈ Finset.range L, E t i * q ^ t := Finset.sum_congr rfl (fun t _ => mul_comm _ _)
        rw [this]; ring
    have e2 : antiDiagMean (projected E L S (fun j => ((List.range n).map (fun m => q ^ m * a)).getD j 0)) L (n - L + 1) m =
        antiDiagMean (fun r c => (fun j => q ^ j * a) (c + r)) L (n - L + 1) m := by
      unfold antiDiagMean
      congr 1
      apply Finset.sum_congr rfl
      intro p hp
      have := (Finset.mem_filter.mp hp).2
      exact hproj _ this.1 _ this.2
    rw [e2]
    exact antiDiagMean_hankel (fun j => q ^ j * a) L (n - L + 1) m (by omega) (by omega) (by omega)
  · rw [if_neg hk]
    congr 1
    rw [List.map_congr_left (g := fun _ => (fin 0 : Fl ℝ))]
    · rw [List.map_const', List.length_range]
    · intro m hm
      congr 1
      have : antiDiagMean (projected E L S (fun j => ((List.range n).map (fun m => q ^ m * a)).getD j 0)) L (n - L + 1) m = 0 := by
        unfold antiDiagMean
        rw [Finset.sum_eq_zero, zero_div]
        intro p hp
        have hp := (Finset.mem_filter.mp hp).2.2
        unfold projected
        apply Finset.sum_eq_zero
        intro i hi
        rw [e1 i _ hp]
        by_cases ha : a = 0
        · rw [ha]; ring
        by_cases hbi : b i = 0
        · rw [hbi]; ring
        · have hiL : i < L := Finset.mem_range.mp ((Finset.filter_subset _ _) hi)
          obtain ⟨k, k1, k2⟩ := hpar ha i hiL hbi
          exact absurd ((hmob i hiL k k1 k2).mp hi) hk
      rw [this, aroundK_zero]

/-- for every length, amplitude, ratio and window there is a call meeting the assumptions -/
example (n : Nat) (a q : ℝ) (L : Nat) (h2 : 2 ≤ L) (hn : L ≤ n) : ∃ ceilInt eigh E,
    SsaCall ((List.range n).map (fun m => q ^ m * a)) (fin (L * 1)) (fin 1) L ceilInt eigh E ∧ OrthoCols E L ∧
      EigenCols ((List.range n).map (fun m => q ^ m * a)) L E := by
  obtain ⟨E, lam, ho, he⟩ := C209_exists ((List.range n).map (fun m => q ^ m * a)) L
  exact ⟨fun _ => .ok L, fun _ => .ok ⟨L, L, fun r c => fin (E r c)⟩, E,
    ⟨by omega, by simpa using hn, rfl, rfl⟩, ho, lam, he⟩

end Proadv.Props
