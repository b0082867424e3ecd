import Verif.Props.PipelineKernel

/-!
# C82, C149: a density estimate with a NaN has no peak
-/

set_option linter.unusedSectionVars false

namespace Proadv.Props

open Proadv Fl KernelDetect Pipeline

private theorem peakPos_nan (pdf : List (List (Fl ℝ))) (h : nan ∈ pdf.flatten) : peakPos pdf = .error .indexError := by
  have hm : npMax pdf.flatten = .ok (nan : Fl ℝ) := by
    cases hl : pdf.flatten with
    | nil => rw [hl] at h; cases h
    | cons x t =>
      unfold npMax
      simp only
      rw [if_pos]
      · rfl
      · rw [List.any_eq_true]; exact ⟨nan, hl ▸ h, rfl⟩
  unfold peakPos
  rw [hm]
  simp only [bind, Except.bind]
  have hn : (List.range pdf.length).findSome? (fun i => ((pdf.getD i []).findIdx? (fun v => v ==. (nan : Fl ℝ))).map (fun j => (i, j))) =
      none := by
    rw [List.findSome?_eq_none_iff]
    intro i _
    rw [Option.map_eq_none_iff, List.findIdx?_eq_none_iff]
    intro v _
    cases v <;> rfl
  rw [hn]

private theorem npMin_ne {l : List (Fl ℝ)} (h : l ≠ []) : ∃ m, npMin l = .ok m := by
  cases l with
  | nil => exact absurd rfl h
  | cons x t => exact ⟨_, rfl⟩

private theorem npMax_ne {l : List (Fl ℝ)} (h : l ≠ []) : ∃ m, npMax l = .ok m := by
  cases l with
  | nil => exact absurd rfl h
  | cons x t => exact ⟨_, rfl⟩

private theorem rotated_ne {u w : List (Fl ℝ)} (hu : u ≠ []) (hw : w ≠ []) : rotated u w ≠ [] := by
  cases u with
  | nil => exact absurd rfl hu
  | cons a t => cases w with
    | nil => exact absurd rfl hw
    | cons b s => simp [rotated]

/-- **C82** if the density estimate contains a NaN, `kernel` raises IndexError. -/
theorem C82_nan_density (kde : List (Fl ℝ × Fl ℝ) → List (Fl ℝ) → List (Fl ℝ) → Py (List (List (Fl ℝ))))
    (hk : ∀ p a b, ∃ pdf, kde p a b = .ok pdf ∧ nan ∈ pdf.flatten) (u w : List (Fl ℝ)) (hu : u ≠ []) (hw : w ≠ []) (g : Nat) :
    kernel kde u w g = .error .indexError := by
  have hr := rotated_ne hu hw
  have h1 : (rotated u w).map Prod.fst ≠ [] := by simpa using hr
  have h2 : (rotated u w).map Prod.snd ≠ [] := by simpa using hr
  obtain ⟨a, ha⟩ := npMin_ne h1
  obtain ⟨b, hb⟩ := npMax_ne h1
  obtain ⟨c, hc⟩ := npMin_ne h2
  obtain ⟨d, hd⟩ := npMax_ne h2
  by_cases hg : g = 0
  · rw [hg, C117_no_grid, if_neg (by simp [hu, hw])]
  unfold kernel
  simp only [ha, hb, hc, hd, bind, Except.bind]
  rw [profile_grid _ _ _ _ hg]
  simp only
  obtain ⟨pdf, e, hn⟩ := hk (rotated u w) (gridAxis a b g) (gridAxis c d g)
  rw [e]
  simp only
  unfold kernelCutoffs
  rw [peakPos_nan pdf hn]
  rfl

/-- **C149** and so does the detection of the bivariate program. -/
theorem C149_nan_density (kde : List (Fl ℝ × Fl ℝ) → List (Fl ℝ) → List (Fl ℝ) → Py (List (List (Fl ℝ))))
    (hk : ∀ p a b, ∃ pdf, kde p a b = .ok pdf ∧ nan ∈ pdf.flatten) (v : List (Fl ℝ)) (hv : v ≠ []) :
    findBivariate kde v = .error .indexError := by
  have hm : minmod v ≠ [] := by simpa [minmod] using hv
  have hr := rotated_ne hv hm
  have h1 : (rotated v (minmod v)).map Prod.fst ≠ [] := by simpa using hr
  have h2 : (rotated v (minmod v)).map Prod.snd ≠ [] := by simpa using hr
  obtain ⟨a, ha⟩ := npMin_ne h1
  obtain ⟨b, hb⟩ := npMax_ne h1
  obtain ⟨c, hc⟩ := npMin_ne h2
  obtain ⟨d, hd⟩ := npMax_ne h2
  unfold findBivariate
  simp only [ha, hb, hc, hd, bind, Except.bind]
  obtain ⟨pdf, e, hn⟩ := hk (rotated v (minmod v)) (gridAxis a b 256) (gridAxis c d 256)
  rw [e]
  simp only
  rw [peakPos_nan pdf hn]

/-- one missing value in an otherwise positive density -/
example (g : Nat) : kernel (fun _ _ _ => .ok [[fin 1, nan], [fin 2, fin 3]]) [fin (1 : ℝ), fin 2] [fin 0, fin 5] g = .error .indexError :=
  C82_nan_density _ (fun _ _ _ => ⟨_, rfl, by simp⟩) _ _ (by simp) (by simp) g

end Proadv.Props
