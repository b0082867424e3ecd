import Verif.Props.Acceleration
import Verif.Props.Bivariate2

/-!
# C134: how many samples `acceleration_thresholding` can flag
-/

set_option linter.unusedSectionVars false

namespace Proadv.Props

open Proadv Fl Detect Spread

theorem sum_getD (xs : List ℝ) (g : ℝ → ℝ) : ∑ i ∈ Finset.range xs.length, g (xs.getD i 0) = (xs.map g).sum := by
  rw [← sum_range_list]
  congr 1
  apply List.ext_getElem
  · simp
  · intro i h1 h2
    have : i < xs.length := by simpa using h2
    simp [this]

/-- one-sided Chebyshev (Cantelli) inequality for a list: fewer than `n / (1 + k²)` positions exceed the mean by more than
`k` standard deviations -/
theorem cantelli (xs : List ℝ) (hne : xs ≠ []) (k : ℝ) (hk : 0 < k) (R : Finset ℕ) (hR : R.Nonempty)
    (hsub : ∀ i ∈ R, i < xs.length ∧ xs.sum / xs.length + k * √(Spec.var xs) < xs.getD i 0) :
    (R.card : ℝ) * (1 + k ^ 2) < xs.length := by
  set m := xs.sum / (xs.length : ℝ) with hm
  set s := √(Spec.var xs) with hs
  have hn : (0 : ℝ) < xs.length := by
    have := List.length_pos_iff.mpr hne
    exact_mod_cast this
  have hd1 : ∑ i ∈ Finset.range xs.length, (xs.getD i 0 - m) = 0 := by
    rw [Finset.sum_sub_distrib, sum_getD xs (fun x => x)]
    simp only [List.map_id', Finset.sum_const, Finset.card_range, nsmul_eq_mul]
    rw [hm]
    field_simp
    ring
  have hvar : ∑ i ∈ Finset.range xs.length, (xs.getD i 0 - m) ^ 2 = xs.length * Spec.var xs := by
    rw [sum_getD xs (fun x => (x - m) ^ 2)]
    have e : Spec.var xs = (xs.map (fun x => (x - m) ^ 2)).sum / xs.length := by
      unfold Spec.var Spec.cmoment Spec.avg
      rw [List.length_map]
    rw [e, mul_div_cancel₀ _ hn.ne']
  have hv0 : 0 ≤ Spec.var xs := by
    have : 0 ≤ ∑ i ∈ Finset.range xs.length, (xs.getD i 0 - m) ^ 2 := Finset.sum_nonneg (fun _ _ => sq_nonneg _)
    rw [hvar] at this
    by_contra h
    push Not at h
    nlinarith
  have hs2 : s ^ 2 = Spec.var xs := Real.sq_sqrt hv0
  have hspos : 0 < s := by
    rcases (Real.sqrt_nonneg (Spec.var xs)).lt_or_eq with h | h
    · exact h
    · exfalso
      have hz : Spec.var xs = 0 := by rw [← hs2, hs, ← h]; ring
      rw [hz, mul_zero] at hvar
      obtain ⟨i, hi⟩ := hR
      obtain ⟨h1, h2⟩ := hsub i hi
      have := (Finset.sum_eq_zero_iff_of_nonneg (fun j _ => sq_nonneg (xs.getD j 0 - m))).mp hvar i (Finset.mem_range.mpr h1)
      have h3 : xs.getD i 0 - m = 0 := by simpa using this
      have h4 : s = 0 := by rw [hs, ← h]
      rw [h4] at h2
      linarith
  have hall : ∑ i ∈ Finset.range xs.length, (k * (xs.getD i 0 - m) + s) ^ 2 = xs.length * s ^ 2 * (1 + k ^ 2) := by
    have e : ∀ i, (k * (xs.getD i 0 - m) + s) ^ 2 = k ^ 2 * (xs.getD i 0 - m) ^ 2 + 2 * k * s * (xs.getD i 0 - m) + s ^ 2 := by
      intro i; ring
    simp only [e]
    rw [Finset.sum_add_distrib, Finset.sum_add_distrib, ← Finset.mul_sum, ← Finset.mul_sum, hd1, hvar, hs2]
    simp only [Finset.sum_const, Finset.card_range, nsmul_eq_mul]
    ring
  have hlt : (R.card : ℝ) * (s * (1 + k ^ 2)) ^ 2 < ∑ i ∈ R, (k * (xs.getD i 0 - m) + s) ^ 2 := by
    rw [← nsmul_eq_mul, ← Finset.sum_const]
    apply Finset.sum_lt_sum_of_nonempty hR
    intro i hi
    have h2 := (hsub i hi).2
    have h3 : s * (1 + k ^ 2) < k * (xs.getD i 0 - m) + s := by nlinarith
    apply pow_lt_pow_left₀ h3 (by positivity) (by norm_num)
  have hle : ∑ i ∈ R, (k * (xs.getD i 0 - m) + s) ^ 2 ≤ ∑ i ∈ Finset.range xs.length, (k * (xs.getD i 0 - m) + s) ^ 2 :=
    Finset.sum_le_sum_of_subset_of_nonneg (fun i hi => Finset.mem_range.mpr (hsub i hi).1) (fun _ _ _ => sq_nonneg _)
  have hfin := lt_of_lt_of_le hlt hle
  rw [hall] at hfin
  have hc : 0 < s ^ 2 * (1 + k ^ 2) := by positivity
  have : (R.card : ℝ) * (1 + k ^ 2) * (s ^ 2 * (1 + k ^ 2)) < xs.length * (s ^ 2 * (1 + k ^ 2)) := by nlinarith
  exact lt_of_mul_lt_mul_right this hc.le

theorem up_bound {xs : List ℝ} (hne : xs ≠ []) {f g k : ℝ} (hk : 0 < k) {r : List ℕ} (hs : r.Pairwise (· < ·))
    (h : ∀ i ∈ r, UpEvent xs f g (xs.sum / xs.length + k * √(Spec.var xs)) i) (hr : r ≠ []) :
    (r.length : ℝ) * (1 + k ^ 2) < xs.length := by
  have hnd : r.Nodup := hs.imp (fun h => Nat.ne_of_lt h)
  have := cantelli xs hne k hk r.toFinset (by simpa [List.toFinset_nonempty_iff] using hr) (by
    intro i hi
    obtain ⟨x, y, -, hx, -, -, hlt⟩ := h i (List.mem_toFinset.mp hi)
    obtain ⟨hi', hx'⟩ := List.getElem?_eq_some_iff.mp hx
    refine ⟨hi', ?_⟩
    rw [List.getD_eq_getElem?_getD, hx]
    exact hlt)
  rwa [List.toFinset_card_of_nodup hnd] at this

/-- **C134** `acceleration_thresholding` with `k_sigma > 0` and `k_gravity * gravity ≥ 0` flags nothing or fewer than
`n / (1 + k_sigma²)` of the `n` samples, in each direction. -/
theorem C134_count (b : Bool) (xs : List ℝ) (hne : xs ≠ []) (f g kg ks : ℝ) (ht : 0 ≤ kg * g) (hk : 0 < ks) (tag : Int)
    (r : List Nat) (h : acceleration ⟨1, b, fins xs⟩ (fin f) tag (fin g) (fin kg) (fin ks) = .ok r) :
    r = [] ∨ (r.length : ℝ) * (1 + ks ^ 2) < xs.length := by
  by_cases hr : r = []
  · exact Or.inl hr
  refine Or.inr ?_
  rcases ((C60_errors _ _ _ _ _ _).1.mp ⟨r, h⟩).2.2 with rfl | rfl
  · obtain ⟨r', h1, h2, h3⟩ := C60_exact_up b xs hne f g kg ks ht
    rw [h] at h1
    obtain rfl := Except.ok.inj h1
    exact up_bound hne hk h2 (fun i hi => (h3 i).mp hi) hr
  · rw [C61_symmetry b b xs hne f g kg ks ht] at h
    have hne' : xs.map (fun x => -x) ≠ [] := by simpa using hne
    obtain ⟨r', h1, h2, h3⟩ := C60_exact_up b (xs.map (fun x => -x)) hne' f g kg ks ht
    rw [h] at h1
    obtain rfl := Except.ok.inj h1
    have := up_bound hne' hk h2 (fun i hi => (h3 i).mp hi) hr
    rwa [List.length_map] at this

/-- **C134** so with `k_sigma² ≥ n - 1` nothing is ever flagged, however large a spike is: a series of ten samples has no
detectable spike at `k_sigma = 3`. -/
theorem C134_blind (b : Bool) (xs : List ℝ) (hne : xs ≠ []) (f g kg ks : ℝ) (ht : 0 ≤ kg * g) (hk : 0 < ks) (tag : Int)
    (htag : tag = 1 ∨ tag = 2) (hn : (xs.length : ℝ) ≤ 1 + ks ^ 2) :
    acceleration ⟨1, b, fins xs⟩ (fin f) tag (fin g) (fin kg) (fin ks) = .ok [] := by
  obtain ⟨r, hr⟩ := (C60_errors (⟨1, b, fins xs⟩ : Arr (Fl ℝ)) (fin f) tag (fin g) (fin kg) (fin ks)).1.mpr
    ⟨rfl, by simpa using hne, htag⟩
  rw [hr]
  congr 1
  rcases C134_count b xs hne f g kg ks ht hk tag r hr with h | h
  · exact h
  · by_contra hne
    have h1 : 1 ≤ r.length := List.length_pos_iff.mpr hne
    have h2 : (1 : ℝ) ≤ r.length := by exact_mod_cast h1
    nlinarith [sq_nonneg ks]

/-- a spike of any height among ten samples is missed at `k_sigma = 3` -/
example (A : ℝ) : acceleration ⟨1, false, fins [0, 0, 0, 0, A, 0, 0, 0, 0, 0]⟩ (fin 100) 1 (fin 9.81) (fin 1) (fin 3) = .ok [] :=
  C134_blind false _ (by simp) 100 9.81 1 3 (by norm_num) (by norm_num) 1 (Or.inl rfl) (by norm_num)

/-- with eleven samples the same spike is found, so the bound is not vacuous and the length in `C134_blind` is sharp -/
example : ∃ r, acceleration ⟨1, false, fins [(0 : ℝ), 0, 0, 0, 11, 0, 0, 0, 0, 0, 0]⟩ (fin 100) 1 (fin 9.81) (fin 1) (fin 3) = .ok r ∧ 4 ∈ r := by
  obtain ⟨r, h1, -, h3⟩ := C60_exact_up false [0, 0, 0, 0, 11, 0, 0, 0, 0, 0, 0] (by simp) 100 9.81 1 3 (by norm_num)
  refine ⟨r, h1, (h3 4).mpr ⟨11, 0, by norm_num, rfl, rfl, by norm_num, ?_⟩⟩
  have hv : Spec.var [(0 : ℝ), 0, 0, 0, 11, 0, 0, 0, 0, 0, 0] = 10 := by
    norm_num [Spec.var, Spec.cmoment, Spec.avg]
  rw [hv]
  have : √(10 : ℝ) < 10 / 3 := by
    rw [Real.sqrt_lt' (by norm_num)]
    norm_num
  norm_num
  linarith

end Proadv.Props
