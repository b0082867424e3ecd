import Verif.Props.Kde2

/-!
# Property C117: `trivariatekernel.kernel` end to end
-/

set_option linter.unusedSectionVars false

namespace Proadv.Props

open Proadv Fl KernelDetect Spread Detect

/-! ## covariance of the rotated samples -/

theorem dot_lin (x y : List ℝ) (h : x.length = y.length) (p q r s : ℝ) :
    Spec.dot (List.zipWith (fun u w => u * p + w * q) x y) (List.zipWith (fun u w => u * r + w * s) x y) =
      p * r * Spec.dot x x + (p * s + q * r) * Spec.dot x y + q * s * Spec.dot y y := by
  refine zipWith_induction (P := fun x y =>
    Spec.dot (List.zipWith (fun u w => u * p + w * q) x y) (List.zipWith (fun u w => u * r + w * s) x y) =
      p * r * Spec.dot x x + (p * s + q * r) * Spec.dot x y + q * s * Spec.dot y y) ?_ ?_ x y h
  · simp [Spec.dot]
  · intro u us v vs _ ih
    simp only [Spec.dot, List.zipWith_cons_cons, List.sum_cons] at ih ⊢
    rw [ih]; ring

theorem scov_lin (x y : List ℝ) (h : x.length = y.length) (p q r s : ℝ) :
    Spec.scov (List.zipWith (fun u w => u * p + w * q) x y) (List.zipWith (fun u w => u * r + w * s) x y) =
      p * r * Spec.scov x x + (p * s + q * r) * Spec.scov x y + q * s * Spec.scov y y := by
  unfold Spec.scov
  rw [dev_rot x y h, dev_rot x y h, dot_lin _ _ (by simp [Spec.dev, h]), List.length_zipWith, ← h, min_self]
  ring

theorem rotR_fst (us ws : List ℝ) : (rotR us ws).map Prod.fst = List.zipWith (fun u w =>
    u * Real.cos (Complex.arg ⟨Spec.var us, Spec.cov us ws⟩) + w * Real.sin (Complex.arg ⟨Spec.var us, Spec.cov us ws⟩)) us ws := by
  unfold rotR; rw [List.map_zipWith]

theorem rotR_snd (us ws : List ℝ) : (rotR us ws).map Prod.snd = List.zipWith (fun u w =>
    u * (-Real.sin (Complex.arg ⟨Spec.var us, Spec.cov us ws⟩)) + w * Real.cos (Complex.arg ⟨Spec.var us, Spec.cov us ws⟩)) us ws := by
  unfold rotR; rw [List.map_zipWith]; congr 1; funext u w; simp only; ring

theorem rotR_length (us ws : List ℝ) (h : us.length = ws.length) : (rotR us ws).length = us.length := by
  simp [rotR, h]

/-- a rotation keeps the determinant of the covariance matrix -/
theorem det_rot (us ws : List ℝ) (h : us.length = ws.length) :
    Spec.scov ((rotR us ws).map Prod.fst) ((rotR us ws).map Prod.fst) *
        Spec.scov ((rotR us ws).map Prod.snd) ((rotR us ws).map Prod.snd) -
      Spec.scov ((rotR us ws).map Prod.fst) ((rotR us ws).map Prod.snd) ^ 2 =
    Spec.scov us us * Spec.scov ws ws - Spec.scov us ws ^ 2 := by
  rw [rotR_fst, rotR_snd, scov_lin _ _ h, scov_lin _ _ h, scov_lin _ _ h]
  set θ := Complex.arg ⟨Spec.var us, Spec.cov us ws⟩
  have hsc := Real.sin_sq_add_cos_sq θ
  linear_combination (Spec.scov us us * Spec.scov ws ws - Spec.scov us ws ^ 2) *
    (Real.sin θ ^ 2 + Real.cos θ ^ 2 + 1) * hsc

theorem scov_self_nonneg (x : List ℝ) (h : 2 ≤ x.length) : 0 ≤ Spec.scov x x := by
  have : (2 : ℝ) ≤ x.length := by exact_mod_cast h
  exact div_nonneg (Spec.dot_self_nonneg _) (by linarith)

/-- the determinant of the sample covariance matrix in terms of variances and covariance -/
theorem det_scov (us ws : List ℝ) (h : us.length = ws.length) (hn : 2 ≤ us.length) :
    Spec.scov us us * Spec.scov ws ws - Spec.scov us ws ^ 2 =
      ((us.length : ℝ) / ((us.length : ℝ) - 1)) ^ 2 * (Spec.var us * Spec.var ws - Spec.cov us ws ^ 2) := by
  have h2 : (2 : ℝ) ≤ us.length := by exact_mod_cast hn
  have hu : us ≠ [] := by rintro rfl; simp at hn
  have hw : ws ≠ [] := by rintro rfl; rw [h] at hn; simp at hn
  unfold Spec.scov
  rw [Spec.dot_dev_self us hu, Spec.dot_dev_self ws hw, Spec.dot_dev us ws h hu, ← h]
  ring

/-- Cauchy–Schwarz for the sample -/
theorem cov_sq_le (us ws : List ℝ) (h : us.length = ws.length) (hn : 2 ≤ us.length) :
    Spec.cov us ws ^ 2 ≤ Spec.var us * Spec.var ws := by
  have h2 : (2 : ℝ) ≤ us.length := by exact_mod_cast hn
  have hu : us ≠ [] := by rintro rfl; simp at hn
  have hw : ws ≠ [] := by rintro rfl; rw [h] at hn; simp at hn
  have := Spec.dot_sq_le (Spec.dev us) (Spec.dev ws)
  rw [Spec.dot_dev_self us hu, Spec.dot_dev_self ws hw, Spec.dot_dev us ws h hu, ← h] at this
  have hp : (0 : ℝ) < (us.length : ℝ) ^ 2 := by positivity
  have h3 : (us.length : ℝ) ^ 2 * Spec.cov us ws ^ 2 ≤ (us.length : ℝ) ^ 2 * (Spec.var us * Spec.var ws) := by nlinarith
  exact le_of_mul_le_mul_left h3 hp

/-- the rotated covariance matrix is positive definite exactly when the samples are not on one line -/
theorem posdef_rot (us ws : List ℝ) (h : us.length = ws.length) (hn : 2 ≤ us.length) :
    (0 < Spec.scov ((rotR us ws).map Prod.fst) ((rotR us ws).map Prod.fst) ∧
      0 < Spec.scov ((rotR us ws).map Prod.fst) ((rotR us ws).map Prod.fst) *
        Spec.scov ((rotR us ws).map Prod.snd) ((rotR us ws).map Prod.snd) -
      Spec.scov ((rotR us ws).map Prod.fst) ((rotR us ws).map Prod.snd) ^ 2) ↔
    Spec.var us * Spec.var ws ≠ Spec.cov us ws ^ 2 := by
  have h2 : (2 : ℝ) ≤ us.length := by exact_mod_cast hn
  have hk : 0 < ((us.length : ℝ) / ((us.length : ℝ) - 1)) ^ 2 := by
    have : 0 < (us.length : ℝ) - 1 := by linarith
    positivity
  have hcs := cov_sq_le us ws h hn
  rw [det_rot us ws h, det_scov us ws h hn]
  constructor
  · rintro ⟨-, h1⟩ he
    rw [he, sub_self, mul_zero] at h1
    exact lt_irrefl _ h1
  · intro hne
    have hd : 0 < Spec.var us * Spec.var ws - Spec.cov us ws ^ 2 := by
      rcases lt_or_eq_of_le hcs with h1 | h1
      · linarith
      · exact absurd h1.symm hne
    refine ⟨?_, mul_pos hk hd⟩
    have h0 := scov_self_nonneg ((rotR us ws).map Prod.fst) (by rw [List.length_map, rotR_length us ws h]; exact hn)
    rcases lt_or_eq_of_le h0 with h1 | h1
    · exact h1
    · exfalso
      have h3 := det_rot us ws h
      rw [← h1, det_scov us ws h hn] at h3
      nlinarith [mul_pos hk hd, sq_nonneg (Spec.scov ((rotR us ws).map Prod.fst) ((rotR us ws).map Prod.snd))]

/-! ## a finite table has a first peak -/

theorem exists_max (l : List ℝ) (hne : l ≠ []) : ∃ m ∈ l, ∀ v ∈ l, v ≤ m := by
  induction l with
  | nil => exact absurd rfl hne
  | cons a t ih =>
    by_cases ht : t = []
    · subst ht; exact ⟨a, by simp, by simp⟩
    · obtain ⟨m, hm, hle⟩ := ih ht
      rcases le_total a m with h | h
      · exact ⟨m, by simp [hm], by intro v hv; rcases List.mem_cons.mp hv with rfl | hv; exacts [h, hle v hv]⟩
      · exact ⟨a, by simp, by intro v hv; rcases List.mem_cons.mp hv with rfl | hv; exacts [le_rfl, (hle v hv).trans h]⟩

theorem exists_peak (pdf : List (List ℝ)) (hne : pdf.flatten ≠ []) : ∃ P Q m, IsPeak pdf P Q m ∧ m ∈ pdf.flatten := by
  classical
  obtain ⟨m, hm, hle⟩ := exists_max pdf.flatten hne
  have hle' : ∀ row ∈ pdf, ∀ v ∈ row, v ≤ m := fun row hr v hv => hle v (List.mem_flatten.mpr ⟨row, hr, hv⟩)
  obtain ⟨row, hrow, hmr⟩ := List.mem_flatten.mp hm
  have hP : ∃ P, m ∈ pdf.getD P [] := by
    obtain ⟨P, hP, rfl⟩ := List.getElem_of_mem hrow
    exact ⟨P, by rw [List.getD_eq_getElem?_getD, List.getElem?_eq_getElem hP]; exact hmr⟩
  have hPm := Nat.find_spec hP
  have hPlt : Nat.find hP < pdf.length := by
    by_contra hc
    rw [List.getD_eq_getElem?_getD, List.getElem?_eq_none (not_lt.mp hc)] at hPm
    simp at hPm
  have hQ : ∃ Q, (pdf.getD (Nat.find hP) [])[Q]? = some m := List.mem_iff_getElem?.mp hPm
  have hmem : ∀ i, i < pdf.length → pdf.getD i [] ∈ pdf := fun i hi => by
    rw [List.getD_eq_getElem?_getD, List.getElem?_eq_getElem hi]; exact List.getElem_mem hi
  refine ⟨Nat.find hP, Nat.find hQ, m, ⟨Nat.find_spec hQ, hPlt, hle', ?_, ?_⟩, hm⟩
  · intro i hi v hv
    refine lt_of_le_of_ne (hle' _ (hmem i (hi.trans hPlt)) v hv) ?_
    rintro rfl
    exact Nat.find_min hP hi hv
  · intro j v hj hv
    refine lt_of_le_of_ne (hle' _ (hmem _ hPlt) v (List.mem_of_getElem? hv)) ?_
    rintro rfl
    exact Nat.find_min hQ hj hv

theorem exists_min (l : List ℝ) (hne : l ≠ []) : ∃ m ∈ l, ∀ v ∈ l, m ≤ v := by
  obtain ⟨m, hm, h⟩ := exists_max (l.map (fun v => -v)) (by simpa using hne)
  obtain ⟨a, ha, rfl⟩ := List.mem_map.mp hm
  exact ⟨a, ha, fun v hv => by have := h (-v) (List.mem_map.mpr ⟨v, hv, rfl⟩); linarith⟩

/-- samples whose variance does not vanish have distinct extremes -/
theorem extremes_lt (l : List ℝ) (h : Spec.scov l l ≠ 0) (lo hi : ℝ) (hlo : ∀ v ∈ l, lo ≤ v) (hhi : ∀ v ∈ l, v ≤ hi)
    (hm : lo ∈ l) : lo < hi := by
  rcases lt_or_eq_of_le (hhi lo hm) with h1 | h1
  · exact h1
  · exfalso
    apply h
    have hc : l = List.replicate l.length lo :=
      List.eq_replicate_iff.mpr ⟨rfl, fun v hv => le_antisymm (by rw [h1]; exact hhi v hv) (hlo v hv)⟩
    have hne : l ≠ [] := List.ne_nil_of_mem hm
    have hn : (l.length : ℝ) ≠ 0 := by simpa using hne
    have havg : Spec.avg l = lo := by
      unfold Spec.avg
      rw [hc, List.sum_replicate, nsmul_eq_mul, List.length_replicate]; field_simp
    have hdev : Spec.dev l = List.replicate l.length 0 := by
      unfold Spec.dev
      rw [havg]
      rw [List.eq_replicate_iff]
      refine ⟨by simp, ?_⟩
      intro v hv
      obtain ⟨x, hx, rfl⟩ := List.mem_map.mp hv
      rw [hc] at hx
      rw [List.eq_of_mem_replicate hx, sub_self]
    unfold Spec.scov
    rw [hdev]
    simp [Spec.dot]

/-! ## C117 -/

section generic
variable {F : Type} [PyMath F]

/-- **C117** fewer than two samples: ValueError on any grid with a point (every float arithmetic). -/
theorem C117_too_short (chol : List (List F) → Py (List (List F))) (u w : List F) (g : Nat) (hg : g ≠ 0) (h : u.length = w.length)
    (hn : u.length < 2) : kernel (kdeGrid chol g) u w g = .error .valueError := by
  match u, w, h, hn with
  | [], [], _, _ => rfl
  | [a], [b], _, _ =>
    have : density chol [[(transform (rotation [a] [b]) a b).1], [(transform (rotation [a] [b]) a b).2]] 1 =
        .error .valueError := (C81_density chol _ 1).1 (Or.inr (Or.inr (by simp)))
    unfold kernel kdeGrid
    simp only [rotated, List.zipWith_cons_cons, List.zipWith_nil_left, List.map_cons, List.map_nil, npMin, npMax, bind,
      Except.bind, List.length_cons, List.length_nil, zero_add]
    rw [profile_grid _ _ _ _ hg]
    simp only
    rw [this]

end generic

/-- the setting of the finite case: extremes of the rotated samples -/
theorem rot_extremes (us ws : List ℝ) (h : us.length = ws.length) (hne : us ≠ []) :
    ∃ x0 x1 y0 y1 : ℝ,
    (x0 ∈ (rotR us ws).map Prod.fst ∧ ∀ x ∈ (rotR us ws).map Prod.fst, x0 ≤ x) ∧
    (x1 ∈ (rotR us ws).map Prod.fst ∧ ∀ x ∈ (rotR us ws).map Prod.fst, x ≤ x1) ∧
    (y0 ∈ (rotR us ws).map Prod.snd ∧ ∀ x ∈ (rotR us ws).map Prod.snd, y0 ≤ x) ∧
    (y1 ∈ (rotR us ws).map Prod.snd ∧ ∀ x ∈ (rotR us ws).map Prod.snd, x ≤ y1) := by
  have h1 : (rotR us ws).map Prod.fst ≠ [] := by
    rw [← List.length_pos_iff, List.length_map, rotR_length us ws h]; exact List.length_pos_iff.mpr hne
  have h2 : (rotR us ws).map Prod.snd ≠ [] := by
    rw [← List.length_pos_iff, List.length_map, rotR_length us ws h]; exact List.length_pos_iff.mpr hne
  obtain ⟨x0, a⟩ := exists_min _ h1
  obtain ⟨x1, b⟩ := exists_max _ h1
  obtain ⟨y0, c⟩ := exists_min _ h2
  obtain ⟨y1, d⟩ := exists_max _ h2
  exact ⟨x0, x1, y0, y1, a, b, c, d⟩

/-- `kernel` on finite data up to the density -/
theorem kernel_fins (kde : List (Fl ℝ × Fl ℝ) → List (Fl ℝ) → List (Fl ℝ) → Py (List (List (Fl ℝ)))) (us ws : List ℝ)
    (h : us.length = ws.length) (hne : us ≠ []) (g : Nat) (hg : g ≠ 0) (x0 x1 y0 y1 : ℝ)
    (hx0 : x0 ∈ (rotR us ws).map Prod.fst ∧ ∀ x ∈ (rotR us ws).map Prod.fst, x0 ≤ x)
    (hx1 : x1 ∈ (rotR us ws).map Prod.fst ∧ ∀ x ∈ (rotR us ws).map Prod.fst, x ≤ x1)
    (hy0 : y0 ∈ (rotR us ws).map Prod.snd ∧ ∀ x ∈ (rotR us ws).map Prod.snd, y0 ≤ x)
    (hy1 : y1 ∈ (rotR us ws).map Prod.snd ∧ ∀ x ∈ (rotR us ws).map Prod.snd, x ≤ y1) :
    kernel kde (fins us) (fins ws) g = (do
      let pdf ← kde (finPts (rotR us ws)) (gridAxis (fin x0) (fin x1) g) (gridAxis (fin y0) (fin y1) g)
      let (ul, uu, wl, wu) ← kernelCutoffs (fins us) (fins ws) g (gridAxis (fin x0) (fin x1) g) (gridAxis (fin y0) (fin y1) g) pdf
      .ok (outside ((finPts (rotR us ws)).map (fun p => kernelRho ul uu wl wu p.1 p.2)))) := by
  have m1 : (finPts (rotR us ws)).map Prod.fst = fins ((rotR us ws).map Prod.fst) := by simp [finPts, fins]
  have m2 : (finPts (rotR us ws)).map Prod.snd = fins ((rotR us ws).map Prod.snd) := by simp [finPts, fins]
  unfold kernel
  rw [show rotated (fins us) (fins ws) = finPts (rotR us ws) from rotated_fins us ws h hne]
  simp only [bind, Except.bind]
  rw [m1, m2, npMin_fins _ x0 hx0.1 hx0.2, npMax_fins _ x1 hx1.1 hx1.2, npMin_fins _ y0 hy0.1 hy0.2,
    npMax_fins _ y1 hy1.1 hy1.2]
  simp only
  rw [profile_grid _ _ _ _ hg]

/-- `gridAxis` on finite ends is finite -/
theorem gridAxis_all (lo hi : ℝ) (g : Nat) : ∃ l : List ℝ, l.length = g ∧ gridAxis (fin lo : Fl ℝ) (fin hi) g = fins l := by
  by_cases h : 2 ≤ g
  · exact ⟨gridR lo hi g, by simp [gridR], gridAxis_fins lo hi g h⟩
  · interval_cases g
    · exact ⟨[], rfl, rfl⟩
    · refine ⟨[lo], rfl, ?_⟩
      unfold gridAxis
      rw [if_pos rfl, ofNat_eq, ofNat_eq, pmul_fin, padd_fin]
      simp [fins]

/-- **C117** samples on one line (in particular one constant component): LinAlgError, on any grid with a point. -/
theorem C117_collinear (us ws : List ℝ) (h : us.length = ws.length) (hn : 2 ≤ us.length) (g : Nat) (hg : g ≠ 0)
    (hc : Spec.var us * Spec.var ws = Spec.cov us ws ^ 2) :
    kernel (kdeGrid chol2 g) (fins us) (fins ws) g = .error .linAlgError := by
  have hne : us ≠ [] := by rintro rfl; simp at hn
  obtain ⟨x0, x1, y0, y1, a, b, c, d⟩ := rot_extremes us ws h hne
  rw [kernel_fins _ us ws h hne g hg x0 x1 y0 y1 a b c d]
  obtain ⟨uf, hu, eu⟩ := gridAxis_all x0 x1 g
  obtain ⟨wf, hw, ew⟩ := gridAxis_all y0 y1 g
  rw [eu, ew, (C116_density (rotR us ws) (by rw [rotR_length us ws h]; exact hn) uf wf g hu hw _ _ _ _ rfl rfl rfl rfl).2
    (fun hp => (posdef_rot us ws h hn).mp hp hc)]
  rfl

/-- specification: the table of the density of the rotated samples over a grid -/
noncomputable def densityTable (us ws : List ℝ) (uf wf : List ℝ) : List (List ℝ) :=
  let u := (rotR us ws).map Prod.fst
  let w := (rotR us ws).map Prod.snd
  let h := (us.length : ℝ) ^ (-1 / 3 : ℝ)
  uf.map (fun x => wf.map (fun y =>
    Spec.kdeAt (h * Spec.scov u u) (h * Spec.scov u w) (h * Spec.scov w w) (rotR us ws) x y))

theorem kdeGrid_table (us ws : List ℝ) (h : us.length = ws.length) (hn : 2 ≤ us.length)
    (hc : Spec.var us * Spec.var ws ≠ Spec.cov us ws ^ 2) (uf wf : List ℝ) (g : Nat) (hu : uf.length = g) (hw : wf.length = g) :
    kdeGrid chol2 g (finPts (rotR us ws)) (fins uf) (fins wf) =
      .ok ((densityTable us ws uf wf).map (fun r => (fins r : List (Fl ℝ)))) := by
  rw [(C116_density (rotR us ws) (by rw [rotR_length us ws h]; exact hn) uf wf g hu hw _ _ _ _ rfl rfl rfl rfl).1
    ((posdef_rot us ws h hn).mpr hc), rotR_length us ws h]
  unfold densityTable
  rw [List.map_map]
  rfl

theorem densityTable_pos (us ws : List ℝ) (h : us.length = ws.length) (hn : 2 ≤ us.length)
    (hc : Spec.var us * Spec.var ws ≠ Spec.cov us ws ^ 2) (uf wf : List ℝ) :
    ∀ v ∈ (densityTable us ws uf wf).flatten, 0 < v := by
  intro v hv
  have hn' : (0 : ℝ) < us.length := by positivity
  have hh : 0 < (us.length : ℝ) ^ (-1 / 3 : ℝ) := Real.rpow_pos_of_pos hn' _
  obtain ⟨row, hr, hv⟩ := List.mem_flatten.mp hv
  obtain ⟨x, _, rfl⟩ := List.mem_map.mp hr
  obtain ⟨y, _, rfl⟩ := List.mem_map.mp hv
  apply C116_positive
  · have := ((posdef_rot us ws h hn).mpr hc).2
    have h2 := mul_pos (mul_pos hh hh) this
    nlinarith [h2]
  · rw [← List.length_pos_iff, rotR_length us ws h]; omega

/-- **C117** samples not on one line and at least two grid points: `kernel` succeeds.  Its cutoffs are the grid values found
along the column and the row of the first peak of the kernel density of the rotated samples, with thresholds
`√(2 ln n)·σ/√n`; when both cutoff intervals have positive width it flags exactly the samples whose rotated position lies
outside the ellipse inscribed in the cutoff rectangle. -/
theorem C117_success (us ws : List ℝ) (h : us.length = ws.length) (hn : 2 ≤ us.length)
    (hc : Spec.var us * Spec.var ws ≠ Spec.cov us ws ^ 2) (g : Nat) (hg : 2 ≤ g) :
    ∃ x0 x1 y0 y1 P Q m l u l' u' r,
      (x0 ∈ (rotR us ws).map Prod.fst ∧ ∀ x ∈ (rotR us ws).map Prod.fst, x0 ≤ x) ∧
      (x1 ∈ (rotR us ws).map Prod.fst ∧ ∀ x ∈ (rotR us ws).map Prod.fst, x ≤ x1) ∧
      (y0 ∈ (rotR us ws).map Prod.snd ∧ ∀ x ∈ (rotR us ws).map Prod.snd, y0 ≤ x) ∧
      (y1 ∈ (rotR us ws).map Prod.snd ∧ ∀ x ∈ (rotR us ws).map Prod.snd, x ≤ y1) ∧
      IsPeak (densityTable us ws (gridR x0 x1 g) (gridR y0 y1 g)) P Q m ∧
      LowerR ((densityTable us ws (gridR x0 x1 g) (gridR y0 y1 g)).map (fun row => row.getD Q 0)) (thrR us) g P l ∧
      UpperR ((densityTable us ws (gridR x0 x1 g) (gridR y0 y1 g)).map (fun row => row.getD Q 0)) (thrR us) g P u ∧
      LowerR ((densityTable us ws (gridR x0 x1 g) (gridR y0 y1 g)).getD P []) (thrR ws) g Q l' ∧
      UpperR ((densityTable us ws (gridR x0 x1 g) (gridR y0 y1 g)).getD P []) (thrR ws) g Q u' ∧
      kernel (kdeGrid chol2 g) (fins us) (fins ws) g = .ok r ∧
      (l < u → l' < u' → ∀ i, i ∈ r ↔ ∃ p, (rotR us ws)[i]? = some p ∧
        1 < ((p.1 - (x0 + (x1 - x0) * ((l : ℝ) + u) / (2 * ((g : ℝ) - 1)))) / ((x1 - x0) * ((u : ℝ) - l) / (2 * ((g : ℝ) - 1)))) ^ 2 +
          ((p.2 - (y0 + (y1 - y0) * ((l' : ℝ) + u') / (2 * ((g : ℝ) - 1)))) / ((y1 - y0) * ((u' : ℝ) - l') / (2 * ((g : ℝ) - 1)))) ^ 2) := by
  have hne : us ≠ [] := by rintro rfl; simp at hn
  obtain ⟨x0, x1, y0, y1, a, b, c, d⟩ := rot_extremes us ws h hne
  have hpd := (posdef_rot us ws h hn).mpr hc
  have hx : x0 < x1 := extremes_lt _ hpd.1.ne' x0 x1 a.2 b.2 a.1
  have hy : y0 < y1 := by
    refine extremes_lt _ ?_ y0 y1 c.2 d.2 c.1
    intro h0
    have := hpd.2
    rw [h0, mul_zero] at this
    nlinarith [sq_nonneg (Spec.scov ((rotR us ws).map Prod.fst) ((rotR us ws).map Prod.snd))]
  set T := densityTable us ws (gridR x0 x1 g) (gridR y0 y1 g) with hT
  have hrows : T.length = g := by simp [hT, densityTable, gridR]
  have hcols : ∀ r ∈ T, r.length = g := by
    intro r hr
    rw [hT] at hr
    obtain ⟨x, _, rfl⟩ := List.mem_map.mp hr
    simp [gridR]
  have hflat : T.flatten ≠ [] := by
    have h0 : 0 < T.length := by omega
    intro he
    have h1 := List.flatten_eq_nil_iff.mp he _ (List.getElem_mem h0)
    have h2 := hcols _ (List.getElem_mem h0)
    rw [h1] at h2; simp at h2; omega
  obtain ⟨P, Q, m, hpk, hm⟩ := exists_peak T hflat
  have hmp : 0 < m := densityTable_pos us ws h hn hc _ _ m hm
  obtain ⟨l, u, l', u', r, h1, h2, h3, h4, h5, h6⟩ := C82_kernel us ws h hne g hg x0 x1 y0 y1 a b c d T hrows hcols P Q m hmp hpk
    (kdeGrid chol2 g) (kdeGrid_table us ws h hn hc _ _ g (by simp [gridR]) (by simp [gridR]))
  exact ⟨x0, x1, y0, y1, P, Q, m, l, u, l', u', r, a, b, c, d, hpk, h1, h2, h3, h4, h5, fun q1 q2 => h6 q1 hx q2 hy⟩

/-- **C117** grids of fewer than two points always fail: IndexError without a point (in `_profile`) and with one (in `_cutoff`). -/
theorem C117_small_grid (us ws : List ℝ) (h : us.length = ws.length) (hn : 2 ≤ us.length)
    (hc : Spec.var us * Spec.var ws ≠ Spec.cov us ws ^ 2) :
    kernel (kdeGrid chol2 0) (fins us) (fins ws) 0 = .error .indexError ∧
    kernel (kdeGrid chol2 1) (fins us) (fins ws) 1 = .error .indexError := by
  have hne : us ≠ [] := by rintro rfl; simp at hn
  have hws : ws ≠ [] := by rintro rfl; rw [h] at hn; simp at hn
  obtain ⟨x0, x1, y0, y1, a, b, c, d⟩ := rot_extremes us ws h hne
  rw [kernel_fins _ us ws h hne 1 one_ne_zero x0 x1 y0 y1 a b c d]
  constructor
  · rw [C117_no_grid, if_neg (by simp [fins, hne, hws])]
  · obtain ⟨uf, hu, eu⟩ := gridAxis_all x0 x1 1
    obtain ⟨wf, hw, ew⟩ := gridAxis_all y0 y1 1
    rw [eu, ew, kdeGrid_table us ws h hn hc uf wf 1 hu hw]
    obtain ⟨p, rfl⟩ := List.length_eq_one_iff.mp hu
    obtain ⟨q, rfl⟩ := List.length_eq_one_iff.mp hw
    have hd : ∃ m, densityTable us ws [p] [q] = [[m]] := ⟨_, rfl⟩
    obtain ⟨m, hm⟩ := hd
    rw [hm]
    simp only [bind, Except.bind]
    have hpk : IsPeak [[m]] 0 0 m := by
      refine ⟨rfl, by simp, by simp, by intro i hi; omega, by intro j v hj; omega⟩
    have hcut : kernelCutoffs (fins us) (fins ws) 1 (fins [p]) (fins [q]) ([[m]].map (fun r => (fins r : List (Fl ℝ)))) =
        .error .indexError := by
      unfold kernelCutoffs
      rw [peakPos_fins _ 0 0 m hpk]
      simp only [bind, Except.bind]
      rw [show std (Arr.flt (fins us) : Arr (Fl ℝ)) = _ from std_fins false us hne,
        show std (Arr.flt (fins ws) : Arr (Fl ℝ)) = _ from std_fins false ws hws]
      rfl
    rw [hcut]

/-! ## C116: the second result of `kernel` -/

/-- the dictionary of `pts`, evaluated with kernels centred at other points -/
theorem evolve_other (pts pts' : List (ℝ × ℝ)) (hn : 2 ≤ pts.length) (hl : pts'.length = pts.length) (uf wf : List ℝ) (g : Nat)
    (hu : uf.length = g) (hw : wf.length = g) (a b c h : ℝ) (ha : a = Spec.scov (pts.map Prod.fst) (pts.map Prod.fst))
    (hb : b = Spec.scov (pts.map Prod.fst) (pts.map Prod.snd)) (hc : c = Spec.scov (pts.map Prod.snd) (pts.map Prod.snd))
    (hh : h = (pts.length : ℝ) ^ (-1 / 3 : ℝ)) (hpd : 0 < a ∧ 0 < a * c - b ^ 2) (e : Compute (Fl ℝ))
    (he : density chol2 [(finPts pts).map Prod.fst, (finPts pts).map Prod.snd] (finPts pts).length = .ok e) :
    reshape g (evolve (finPts pts') (positions (fins uf) (fins wf)) e) =
      uf.map (fun x => fins (wf.map (fun y => Spec.kdeAt (h * a) (h * b) (h * c) pts' x y))) := by
  obtain ⟨d1, d2⟩ := density_eq pts hn
  rw [← ha, ← hb, ← hc] at d2
  have hn' : (0 : ℝ) < pts.length := by positivity
  obtain ⟨r, s, t, hch, hr, ht, h1, h2, h3⟩ := (C115_cholesky a b c).1 hpd
  rw [d1] at he
  unfold covarianceDict at he
  rw [d2] at he
  simp only [bind, Except.bind] at he
  rw [hch] at he
  simp only [Except.ok.injEq] at he
  subst he
  rw [evolve_grid _ _ _ _ _ (by simpa using hu) (by simpa using hw)]
  obtain ⟨-, -, hnet, hfac⟩ := C81_weights pts.length 2 (by omega)
  simp only [List.length_cons, List.length_nil, zero_add, Nat.reduceAdd]
  rw [hnet, hfac]
  set f : ℝ := (pts.length : ℝ) ^ (-1 / (((2 : ℕ) : ℝ) + 4)) with hf
  have hfp : 0 < f := Real.rpow_pos_of_pos hn' _
  have hff : f * f = h := by
    rw [hf, hh, ← Real.rpow_add hn']; congr 1; push_cast; norm_num
  simp only [List.map_cons, List.map_nil, pmul_fin, transposed2, zero_mul]
  rw [weight_fins _ (by omega), ← hl]
  simp only [fins, List.map_map]
  apply List.map_congr_left
  intro x _
  simp only [Function.comp]
  apply List.map_congr_left
  intro y _
  have := gkeAt_fins (r * f) (s * f) (t * f) (by positivity) (by positivity) pts' x y
  simp only [fins] at this
  simp only [Function.comp]
  rw [this]
  have k1 : r * f * (r * f) = h * a := by rw [← hff, ← h1]; ring
  have k2 : r * f * (s * f) = h * b := by rw [← hff, ← h2]; ring
  have k3 : s * f * (s * f) + t * f * (t * f) = h * c := by rw [← hff, ← h3]; ring
  rw [k1, k2, k3]

/-- **C116** the returned `estimation`: for samples not on one line it has the grid and the bandwidth of the rotated
samples, but its kernels are centred at the samples *before* rotation. -/
theorem C116_estimation (us ws : List ℝ) (h : us.length = ws.length) (hn : 2 ≤ us.length)
    (hc : Spec.var us * Spec.var ws ≠ Spec.cov us ws ^ 2) (g : Nat) (hg : 2 ≤ g) (r : List Nat) (est : List (List (Fl ℝ)))
    (hk : kernelBoth chol2 (fins us) (fins ws) g = .ok (r, est)) :
    ∃ x0 x1 y0 y1,
      (x0 ∈ (rotR us ws).map Prod.fst ∧ ∀ x ∈ (rotR us ws).map Prod.fst, x0 ≤ x) ∧
      (x1 ∈ (rotR us ws).map Prod.fst ∧ ∀ x ∈ (rotR us ws).map Prod.fst, x ≤ x1) ∧
      (y0 ∈ (rotR us ws).map Prod.snd ∧ ∀ x ∈ (rotR us ws).map Prod.snd, y0 ≤ x) ∧
      (y1 ∈ (rotR us ws).map Prod.snd ∧ ∀ x ∈ (rotR us ws).map Prod.snd, x ≤ y1) ∧
      est = (gridR x0 x1 g).map (fun x => fins ((gridR y0 y1 g).map (fun y => Spec.kdeAt
        ((us.length : ℝ) ^ (-1 / 3 : ℝ) * Spec.scov ((rotR us ws).map Prod.fst) ((rotR us ws).map Prod.fst))
        ((us.length : ℝ) ^ (-1 / 3 : ℝ) * Spec.scov ((rotR us ws).map Prod.fst) ((rotR us ws).map Prod.snd))
        ((us.length : ℝ) ^ (-1 / 3 : ℝ) * Spec.scov ((rotR us ws).map Prod.snd) ((rotR us ws).map Prod.snd))
        (List.zip us ws) x y))) := by
  have hne : us ≠ [] := by rintro rfl; simp at hn
  obtain ⟨x0, x1, y0, y1, a, b, c, d⟩ := rot_extremes us ws h hne
  refine ⟨x0, x1, y0, y1, a, b, c, d, ?_⟩
  have m1 : (finPts (rotR us ws)).map Prod.fst = fins ((rotR us ws).map Prod.fst) := by simp [finPts, fins]
  have m2 : (finPts (rotR us ws)).map Prod.snd = fins ((rotR us ws).map Prod.snd) := by simp [finPts, fins]
  have hz : List.zip (fins us : List (Fl ℝ)) (fins ws) = finPts (List.zip us ws) := by
    simp only [fins, finPts, List.zip_map]; rfl
  have hpd := (posdef_rot us ws h hn).mpr hc
  unfold kernelBoth at hk
  rw [show rotated (fins us) (fins ws) = finPts (rotR us ws) from rotated_fins us ws h hne] at hk
  simp only [bind, Except.bind] at hk
  rw [m1, m2, npMin_fins _ x0 a.1 a.2, npMax_fins _ x1 b.1 b.2, npMin_fins _ y0 c.1 c.2, npMax_fins _ y1 d.1 d.2] at hk
  simp only at hk
  rw [profile_grid _ _ _ _ (by omega : g ≠ 0)] at hk
  simp only at hk
  rw [gridAxis_fins _ _ _ hg, gridAxis_fins _ _ _ hg, ← m1, ← m2] at hk
  cases hd : density chol2 [(finPts (rotR us ws)).map Prod.fst, (finPts (rotR us ws)).map Prod.snd] (finPts (rotR us ws)).length with
  | error e => rw [hd] at hk; cases hk
  | ok e =>
    rw [hd, hz] at hk
    simp only at hk
    have hE := evolve_other (rotR us ws) (List.zip us ws) (by rw [rotR_length us ws h]; exact hn)
      (by rw [rotR_length us ws h, List.length_zip, ← h, min_self]) (gridR x0 x1 g) (gridR y0 y1 g) g (by simp [gridR])
      (by simp [gridR]) _ _ _ _ rfl rfl rfl rfl hpd e hd
    rw [hE, rotR_length us ws h] at hk
    split at hk
    · cases hk
    · simp only [Except.ok.injEq, Prod.mk.injEq] at hk
      exact hk.2.symm

/-- three samples that are not on one line, with negative correlation: the hypotheses of C116 and C117 hold -/
example : Spec.var [0, 1, 2] * Spec.var [1, 0, (0 : ℝ)] ≠ Spec.cov [0, 1, 2] [1, 0, 0] ^ 2 := by
  norm_num [Spec.var, Spec.cmoment, Spec.cov, Spec.avg]

/-- and samples on the line `w = 2u + 1`, for which LinAlgError is raised -/
example : kernel (kdeGrid chol2 10) (fins [0, 1, (2 : ℝ)]) (fins [1, 3, 5]) 10 = .error .linAlgError :=
  C117_collinear [0, 1, 2] [1, 3, 5] rfl (by simp) 10 (by norm_num) (by norm_num [Spec.var, Spec.cmoment, Spec.cov, Spec.avg])

example : ∃ r, kernel (kdeGrid chol2 10) (fins [0, 1, (2 : ℝ)]) (fins [1, 0, 0]) 10 = .ok r := by
  obtain ⟨_, _, _, _, _, _, _, _, _, _, _, r, -, -, -, -, -, -, -, -, -, hr, -⟩ :=
    C117_success [0, 1, 2] [1, 0, 0] rfl (by simp) (by norm_num [Spec.var, Spec.cmoment, Spec.cov, Spec.avg]) 10 (by norm_num)
  exact ⟨r, hr⟩

end Proadv.Props
