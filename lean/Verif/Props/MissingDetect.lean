import Verif.Props.Missing
import Verif.Props.Acceleration
import Verif.Props.Phase
import Verif.Props.Correlation

/-!
# C186: missing samples (NaN) in the despiking methods
-/

set_option linter.unusedSectionVars false

namespace Proadv.Props

open Proadv Fl Descriptive Spread Detect

theorem npStd_nan {l : List (Fl ℝ)} (h : nan ∈ l) : npStd l = (nan : Fl ℝ) := by
  have hne : l ≠ [] := by rintro rfl; simp at h
  have h1 := std_nan false l h
  rw [std_eq false l hne] at h1
  exact Except.ok.inj h1

private theorem lt_nan_none (l : List (Fl ℝ)) : whereTrue (l.map (fun x => (nan : Fl ℝ) <. x)) = [] := by
  rw [List.eq_nil_iff_forall_not_mem]
  intro i hi
  obtain ⟨x, -, h⟩ := mem_whereTrue_map.mp hi
  simp at h

private theorem nan_lt_none (l : List (Fl ℝ)) : whereTrue (l.map (fun x => x <. (nan : Fl ℝ))) = [] := by
  rw [List.eq_nil_iff_forall_not_mem]
  intro i hi
  obtain ⟨x, -, h⟩ := mem_whereTrue_map.mp hi
  simp at h

private theorem intersect_nil (a : List Nat) : intersect1d a [] = [] := by
  rw [List.eq_nil_iff_forall_not_mem]
  intro i hi
  simpa using (mem_intersect1d.mp hi).2

/-- **C186** `acceleration_thresholding`: with one missing sample the mean and the standard deviation are NaN and nothing is flagged,
whatever the other samples are. -/
theorem C186_acceleration (b : Bool) (v : List (Fl ℝ)) (h : nan ∈ v) (freq g kg ks : Fl ℝ) (tag : Int) (ht : tag = 1 ∨ tag = 2) :
    acceleration ⟨1, b, v⟩ freq tag g kg ks = .ok [] := by
  have hs := std_nan b v h
  have hm : npMean v = nan := npMean_nan h
  unfold acceleration
  rw [if_neg (by simp)]
  rcases ht with rfl | rfl
  · simp only [bind, Except.bind, hs, hm, if_true]
    rw [nan_add, lt_nan_none, intersect_nil]
  · rw [if_neg (by norm_num)]
    simp only [bind, Except.bind, hs, hm, if_true]
    rw [nan_sub, nan_lt_none, intersect_nil]

private theorem rho_nan (theta a b x y : Fl ℝ) (h : a = nan ∨ b = nan ∨ rotY theta x y /. b = nan) : rhoAt theta a b x y = nan := by
  unfold rhoAt
  rcases h with rfl | rfl | h
  · rw [div_nan, npow_nan (by norm_num), nan_add]
  · rw [div_nan, npow_nan (by norm_num), add_nan]
  · rw [h, npow_nan (by norm_num), add_nan]

/-- **C186** `phasespace_thresholding`: with one missing sample nothing is flagged, whatever the other samples are. -/
theorem C186_phasespace (c : List (Fl ℝ)) (h : nan ∈ c) : phasespaceThresholding ⟨1, false, c⟩ = .ok [] := by
  have hne : c ≠ [] := by rintro rfl; simp at h
  obtain ⟨r, hr⟩ := (C64_errors (⟨1, false, c⟩ : Arr (Fl ℝ))).1.mpr ⟨rfl, hne⟩
  obtain ⟨-, hmem⟩ := C64_char false c r hr
  rw [hr]
  congr 1
  rw [List.eq_nil_iff_forall_not_mem]
  intro i hi
  obtain ⟨x, y, z, hx, hy, hz, hor⟩ := (hmem i).mp hi
  have hsc : npStd c = nan := npStd_nan h
  have ha1 : (phaseP false c).a1 = nan := by simp [phaseP, phaseCoefs, hsc]
  have ha3 : (phaseP false c).a3 = nan := by
    simp [phaseP, phaseCoefs, hsc, npow_nan (K := ℝ) (two_ne_zero)]
  rcases hor with h1 | h2 | h3
  · rw [rho_nan _ _ _ _ _ (Or.inl ha1)] at h1
    simp at h1
  · by_cases hd : nan ∈ centralDiff false c
    · have ha2 : (phaseP false c).a2 = nan := by simp [phaseP, phaseCoefs, npStd_nan hd]
      rw [rho_nan _ _ _ _ _ (Or.inl ha2)] at h2
      simp at h2
    · -- at most three samples: the second derivative vanishes
      have hlen : c.length ≤ 3 := by
        by_contra hl
        obtain ⟨p, hp, hpv⟩ := List.mem_iff_getElem.mp h
        apply hd
        have hg : c.getD p PyNum.nan = nan := by simp [List.getD, hp, hpv]
        by_cases h2p : 2 ≤ p
        · refine List.mem_map.mpr ⟨p - 1, List.mem_range.mpr (by omega), ?_⟩
          rw [if_pos (by omega), show p - 1 + 1 = p by omega, hg, nan_sub, nan_div]
          rfl
        · refine List.mem_map.mpr ⟨p + 1, List.mem_range.mpr (by omega), ?_⟩
          rw [if_pos (by omega), show p + 1 - 1 = p by omega, hg, sub_nan, nan_div]
          rfl
      have hpos := List.length_pos_of_ne_nil hne
      have hd2 : centralDiff false (centralDiff false c) = fins (List.replicate c.length 0) := by
        apply List.ext_getElem
        · rw [centralDiff_length, centralDiff_length]; simp [fins]
        · intro k hk hk'
          rw [centralDiff_length, centralDiff_length] at hk
          simp only [centralDiff, List.getElem_map, List.getElem_range, List.length_map, List.length_range, fins, List.getElem_replicate]
          by_cases hc : 1 ≤ k ∧ k + 1 < c.length
          · obtain ⟨rfl, h3⟩ : k = 1 ∧ c.length = 3 := by omega
            rw [if_pos hc, h3]
            simp only [List.getD]
            simp [store, pdiv_fin (K := ℝ) two_ne_zero, aroundK, rint]
          · rw [if_neg hc]; simp
      have hb2 : (phaseP false c).b2 = fin 0 := by
        have hl := lambdaOf_fin hpos
        have hs2 : npStd (centralDiff false (centralDiff false c)) = fin 0 := by
          rw [hd2, npStd_fins _ (by simpa using hne)]
          simp [Spec.var, Spec.cmoment, Spec.avg]
        simp [phaseP, phaseCoefs, hs2, hl]
      have hz0 : z = fin 0 := by
        rw [hd2, fins, List.getElem?_map] at hz
        obtain ⟨q, hq, hqz⟩ := Option.map_eq_some_iff.mp hz
        rw [← hqz, List.eq_of_mem_replicate (List.mem_of_getElem? hq)]
      have hrot : rotY (lit 0) y z /. (phaseP false c).b2 = nan := by
        rw [hb2, hz0]
        unfold rotY
        have e0 : (lit 0 : Fl ℝ) = fin 0 := by simp
        rw [e0, psin_fin, pcos_fin, Real.sin_zero, Real.cos_zero, pmul_fin, zero_mul]
        cases y with
        | fin t =>
          rw [pmul_fin, psub_fin]
          show Fl.div _ _ = _
          simp [Fl.div, infSgn]
        | nan => simp
        | pinf =>
          have : (pinf : Fl ℝ) *. fin 0 = nan := by show Fl.mul _ _ = _; simp [Fl.mul, infSgn]
          rw [this, sub_nan, nan_div]
        | ninf =>
          have : (ninf : Fl ℝ) *. fin 0 = nan := by show Fl.mul _ _ = _; simp [Fl.mul, infSgn]
          rw [this, sub_nan, nan_div]
      rw [rho_nan _ _ _ _ _ (Or.inr (Or.inr hrot))] at h2
      simp at h2
  · rw [rho_nan _ _ _ _ _ (Or.inl ha3)] at h3
    simp at h3

/-- **C186** `velocity_correlation`: a missing sample in any component makes the call raise ValueError. -/
theorem C186_correlation (u v w : List (Fl ℝ)) (hn : 3 ≤ u.length) (hv : v.length = u.length) (hw : w.length = u.length)
    (h : nan ∈ u ∨ nan ∈ v ∨ nan ∈ w) : velocityCorrelation u v w = .error .valueError := by
  have hcent : ∀ x : List (Fl ℝ), nan ∈ x → npStd (cent x) = nan := by
    intro x hx
    refine npStd_nan ?_
    unfold cent
    exact List.mem_map.mpr ⟨nan, hx, by rw [nan_sub]⟩
  have bad1 : ∀ x y : List (Fl ℝ), npStd x = nan → ¬ GoodAxes x y := by
    rintro x y hx ⟨h1, -⟩
    rw [hx] at h1
    unfold axisA at h1
    rw [mul_nan, npow_nan (by norm_num), nan_mul, nan_sub, nan_div, lt_nan] at h1
    cases h1
  have bad2 : ∀ x y : List (Fl ℝ), npStd y = nan → ¬ GoodAxes x y := by
    rintro x y hx ⟨h1, -⟩
    rw [hx] at h1
    unfold axisA at h1
    rw [mul_nan, npow_nan (by norm_num), nan_mul, sub_nan, nan_div, lt_nan] at h1
    cases h1
  refine (C68_success_iff u v w hn hv hw).2 ?_
  rintro ⟨g1, g2, g3⟩
  rcases h with h | h | h
  · exact bad1 _ _ (hcent u h) g1
  · exact bad2 _ _ (hcent v h) g1
  · exact bad2 _ _ (hcent w h) g2

/-- recordings with one missing sample -/
example : acceleration ⟨1, false, [(fin 1 : Fl ℝ), fin 1000, nan, fin (-1000)]⟩ (fin 100) 1 (fin 981) (fin 1) (fin 1) = .ok [] ∧
    phasespaceThresholding ⟨1, false, [(fin 1 : Fl ℝ), fin 1000, nan, fin (-1000)]⟩ = .ok [] ∧
    velocityCorrelation [(fin 1 : Fl ℝ), fin 2, fin 4] [fin 1, fin 5, nan] [fin 1, fin 0, fin 2] = .error .valueError :=
  ⟨C186_acceleration _ _ (by simp) _ _ _ _ _ (Or.inl rfl), C186_phasespace _ (by simp),
    C186_correlation _ _ _ (by simp) (by simp) (by simp) (by simp)⟩

end Proadv.Props
