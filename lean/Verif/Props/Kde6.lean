import Verif.Props.Kde5
import Verif.Props.Correlation

/-!
# Property C119: the trivariate kernel detector depends on the unit of velocity

The cutoff search compares the dimensionless ratios `f i / f peak` and `Δf·grid / peak` with `√(2 ln n)·σ/√n`, which has the
unit of the velocity.
-/

set_option linter.unusedSectionVars false

namespace Proadv.Props

open Proadv Fl KernelDetect Spread Detect

/-- change of unit -/
def scaleL (s : ℝ) (l : List ℝ) : List ℝ := l.map (fun x => s * x)

theorem scaleL_affine (s : ℝ) (l : List ℝ) : scaleL s l = l.map (fun x => s * x + 0) := by simp [scaleL]

theorem var_scale (s : ℝ) {l : List ℝ} (h : l ≠ []) : Spec.var (scaleL s l) = s ^ 2 * Spec.var l := by
  rw [scaleL_affine]; exact var_affine s 0 h

theorem cov_scale (s : ℝ) {x y : List ℝ} (hx : x ≠ []) (hy : y ≠ []) : Spec.cov (scaleL s x) (scaleL s y) = s ^ 2 * Spec.cov x y := by
  rw [scaleL_affine, scaleL_affine]; exact cov_affine s 0 0 hx hy

theorem scov_scale (s : ℝ) {x y : List ℝ} (hx : x ≠ []) (hy : y ≠ []) :
    Spec.scov (scaleL s x) (scaleL s y) = s ^ 2 * Spec.scov x y := by
  have e : ∀ l : List ℝ, l ≠ [] → Spec.dev (scaleL s l) = scaleL s (Spec.dev l) := by
    intro l hl
    have h1 : Spec.avg (scaleL s l) = s * Spec.avg l := by
      rw [scaleL_affine]
      have := Spec.avg_affine s 0 hl
      simpa using this
    unfold Spec.dev
    rw [h1]
    unfold scaleL
    rw [List.map_map, List.map_map]
    apply List.map_congr_left
    intro v _
    simp only [Function.comp]; ring
  unfold Spec.scov
  rw [e x hx, e y hy]
  have : ∀ a b : List ℝ, Spec.dot (scaleL s a) (scaleL s b) = s ^ 2 * Spec.dot a b := by
    intro a b
    unfold Spec.dot scaleL
    rw [List.zipWith_map]
    induction a generalizing b with
    | nil => simp
    | cons p t ih =>
      cases b with
      | nil => simp
      | cons q t' => rw [List.zipWith_cons_cons, List.zipWith_cons_cons, List.sum_cons, List.sum_cons, ih]; ring
  rw [this]
  simp only [scaleL, List.length_map]
  ring

theorem rotR_scale (us ws : List ℝ) (hu : us ≠ []) (hw : ws ≠ []) (s : ℝ) (hs : 0 < s) :
    rotR (scaleL s us) (scaleL s ws) = (rotR us ws).map (fun p => (s * p.1, s * p.2)) := by
  have harg : Complex.arg ⟨Spec.var (scaleL s us), Spec.cov (scaleL s us) (scaleL s ws)⟩ =
      Complex.arg ⟨Spec.var us, Spec.cov us ws⟩ := by
    rw [var_scale s hu, cov_scale s hu hw]
    have : (⟨s ^ 2 * Spec.var us, s ^ 2 * Spec.cov us ws⟩ : ℂ) = ((s ^ 2 : ℝ) : ℂ) * ⟨Spec.var us, Spec.cov us ws⟩ := by
      apply Complex.ext <;> simp [-Complex.ofReal_pow]
    rw [this]
    exact Complex.arg_real_mul _ (by positivity)
  unfold rotR
  rw [harg]
  unfold scaleL
  rw [List.zipWith_map, List.map_zipWith]
  congr 1
  funext u w
  simp only [Prod.mk.injEq]
  constructor <;> ring

theorem gridR_scale (lo hi s : ℝ) (g : Nat) : gridR (s * lo) (s * hi) g = scaleL s (gridR lo hi g) := by
  unfold gridR scaleL
  rw [List.map_map]
  apply List.map_congr_left
  intro i _
  simp only [Function.comp]; ring

theorem normal2_scale (a b c x y s : ℝ) (hs : 0 < s) :
    Spec.normal2 (s ^ 2 * a) (s ^ 2 * b) (s ^ 2 * c) (s * x) (s * y) = 1 / s ^ 2 * Spec.normal2 a b c x y := by
  unfold Spec.normal2
  have e1 : s ^ 2 * a * (s ^ 2 * c) - (s ^ 2 * b) ^ 2 = (s ^ 2) ^ 2 * (a * c - b ^ 2) := by ring
  have e2 : √((s ^ 2) ^ 2 * (a * c - b ^ 2)) = s ^ 2 * √(a * c - b ^ 2) := by
    rw [Real.sqrt_mul (by positivity), Real.sqrt_sq (by positivity)]
  have e3 : -(s ^ 2 * c * (s * x) ^ 2 - 2 * (s ^ 2 * b) * (s * x) * (s * y) + s ^ 2 * a * (s * y) ^ 2) /
      (2 * ((s ^ 2) ^ 2 * (a * c - b ^ 2))) = -(c * x ^ 2 - 2 * b * x * y + a * y ^ 2) / (2 * (a * c - b ^ 2)) := by
    rw [show -(s ^ 2 * c * (s * x) ^ 2 - 2 * (s ^ 2 * b) * (s * x) * (s * y) + s ^ 2 * a * (s * y) ^ 2) =
      (s ^ 2) ^ 2 * -(c * x ^ 2 - 2 * b * x * y + a * y ^ 2) by ring,
      show 2 * ((s ^ 2) ^ 2 * (a * c - b ^ 2)) = (s ^ 2) ^ 2 * (2 * (a * c - b ^ 2)) by ring]
    exact mul_div_mul_left _ _ (by positivity)
  rw [e1, e2, e3]
  rw [show 2 * Real.pi * (s ^ 2 * √(a * c - b ^ 2)) = s ^ 2 * (2 * Real.pi * √(a * c - b ^ 2)) by ring, one_div, div_mul_eq_div_div_swap]
  ring

/-- the table of densities is divided by the square of the scale -/
theorem densityTable_scale (us ws : List ℝ) (h : us.length = ws.length) (hu : us ≠ []) (s : ℝ) (hs : 0 < s) (uf wf : List ℝ) :
    densityTable (scaleL s us) (scaleL s ws) (scaleL s uf) (scaleL s wf) =
      (densityTable us ws uf wf).map (scaleL (1 / s ^ 2)) := by
  have hw : ws ≠ [] := by rintro rfl; simp at h; exact hu h
  have hlen : 0 < (rotR us ws).length := by rw [rotR_length us ws h]; exact List.length_pos_iff.mpr hu
  have hf : (rotR us ws).map Prod.fst ≠ [] := by rw [← List.length_pos_iff, List.length_map]; exact hlen
  have hsn : (rotR us ws).map Prod.snd ≠ [] := by rw [← List.length_pos_iff, List.length_map]; exact hlen
  have m1 : ((rotR us ws).map (fun p => (s * p.1, s * p.2))).map Prod.fst = scaleL s ((rotR us ws).map Prod.fst) := by
    simp [scaleL]
  have m2 : ((rotR us ws).map (fun p => (s * p.1, s * p.2))).map Prod.snd = scaleL s ((rotR us ws).map Prod.snd) := by
    simp [scaleL]
  unfold densityTable
  simp only
  rw [rotR_scale us ws hu hw s hs, m1, m2, scov_scale s hf hf, scov_scale s hf hsn, scov_scale s hsn hsn]
  simp only [scaleL, List.map_map, List.length_map]
  apply List.map_congr_left
  intro x _
  simp only [Function.comp, scaleL, List.map_map]
  apply List.map_congr_left
  intro y _
  simp only [Function.comp]
  unfold Spec.kdeAt
  rw [List.map_map, List.length_map, ← mul_div_assoc, ← List.sum_map_mul_left]
  congr 2
  apply List.map_congr_left
  intro p _
  simp only [Function.comp]
  rw [← normal2_scale _ _ _ _ _ s hs]
  congr 1 <;> ring

theorem getD_scale (k : ℝ) (f : List ℝ) (i : Nat) : (scaleL k f).getD i 0 = k * f.getD i 0 := by
  rw [List.getD_eq_getElem?_getD, List.getD_eq_getElem?_getD]
  unfold scaleL
  rw [List.getElem?_map]
  cases f[i]? <;> simp

theorem AcceptR_scale (k : ℝ) (hk : 0 < k) (f : List ℝ) (c : ℝ) (g p i : Nat) :
    AcceptR (scaleL k f) c g p i ↔ AcceptR f c g p i := by
  unfold AcceptR
  rw [getD_scale, getD_scale, getD_scale, mul_div_mul_left _ _ hk.ne', ← mul_sub, mul_assoc, mul_div_mul_left _ _ hk.ne']

theorem LowerR_scale (k : ℝ) (hk : 0 < k) (f : List ℝ) (c : ℝ) (g p l : Nat) :
    LowerR (scaleL k f) c g p l ↔ LowerR f c g p l := by
  unfold LowerR
  simp only [AcceptR_scale k hk]

theorem UpperR_scale (k : ℝ) (hk : 0 < k) (f : List ℝ) (c : ℝ) (g p u : Nat) :
    UpperR (scaleL k f) c g p u ↔ UpperR f c g p u := by
  unfold UpperR
  simp only [AcceptR_scale k hk]
  rw [show (scaleL k f).length = f.length by simp [scaleL]]

theorem getD_map_scale (k : ℝ) (T : List (List ℝ)) (P : Nat) : (T.map (scaleL k)).getD P [] = scaleL k (T.getD P []) := by
  rw [List.getD_eq_getElem?_getD, List.getD_eq_getElem?_getD, List.getElem?_map]
  cases T[P]? <;> rfl

theorem IsPeak_scale (k : ℝ) (hk : 0 < k) (T : List (List ℝ)) (P Q : Nat) (m : ℝ) (h : IsPeak T P Q m) :
    IsPeak (T.map (scaleL k)) P Q (k * m) := by
  obtain ⟨h1, h2, h3, h4, h5⟩ := h
  refine ⟨?_, by simpa using h2, ?_, ?_, ?_⟩
  · rw [getD_map_scale]; unfold scaleL; rw [List.getElem?_map, h1]; rfl
  · intro row hr v hv
    obtain ⟨row', hr', rfl⟩ := List.mem_map.mp hr
    obtain ⟨v', hv', rfl⟩ := List.mem_map.mp hv
    exact mul_le_mul_of_nonneg_left (h3 row' hr' v' hv') hk.le
  · intro i hi v hv
    rw [getD_map_scale] at hv
    obtain ⟨v', hv', rfl⟩ := List.mem_map.mp hv
    exact mul_lt_mul_of_pos_left (h4 i hi v' hv') hk
  · intro j v hj hv
    rw [getD_map_scale] at hv
    unfold scaleL at hv
    rw [List.getElem?_map] at hv
    cases hq : (T.getD P [])[j]? with
    | none => rw [hq] at hv; cases hv
    | some v' =>
      rw [hq] at hv
      simp only [Option.map_some, Option.some.injEq] at hv
      rw [← hv]
      exact mul_lt_mul_of_pos_left (h5 j v' hj hq) hk

theorem thrR_scale (s : ℝ) (hs : 0 < s) {l : List ℝ} (h : l ≠ []) : thrR (scaleL s l) = s * thrR l := by
  unfold thrR
  rw [var_scale s h, Real.sqrt_mul (x := s ^ 2) (by positivity), Real.sqrt_sq hs.le]
  simp only [scaleL, List.length_map]
  ring

/-- `kernel` in another unit: everything is as for the original samples except the cutoff thresholds. -/
structure ScaledRun (us ws : List ℝ) (g : Nat) (x0 x1 y0 y1 : ℝ) (P Q : Nat) (s : ℝ) (l u l' u' : Nat) (r : List Nat) : Prop where
  lower : LowerR ((densityTable us ws (gridR x0 x1 g) (gridR y0 y1 g)).map (fun row => row.getD Q 0)) (s * thrR us) g P l
  upper : UpperR ((densityTable us ws (gridR x0 x1 g) (gridR y0 y1 g)).map (fun row => row.getD Q 0)) (s * thrR us) g P u
  lower' : LowerR ((densityTable us ws (gridR x0 x1 g) (gridR y0 y1 g)).getD P []) (s * thrR ws) g Q l'
  upper' : UpperR ((densityTable us ws (gridR x0 x1 g) (gridR y0 y1 g)).getD P []) (s * thrR ws) g Q u'
  run : kernel (kdeGrid chol2 g) (fins (scaleL s us)) (fins (scaleL s ws)) g = .ok r
  flags : l < u → l' < u' → ∀ i, i ∈ r ↔ ∃ p, (rotR us ws)[i]? = some p ∧
        1 < ((p.1 - (x0 + (x1 - x0) * ((l : ℝ) + u) / (2 * ((g : ℝ) - 1)))) / ((x1 - x0) * ((u : ℝ) - l) / (2 * ((g : ℝ) - 1)))) ^ 2 +
          ((p.2 - (y0 + (y1 - y0) * ((l' : ℝ) + u') / (2 * ((g : ℝ) - 1)))) / ((y1 - y0) * ((u' : ℝ) - l') / (2 * ((g : ℝ) - 1)))) ^ 2

/-- the objects of a run that do not depend on the unit -/
structure Frame (us ws : List ℝ) (g : Nat) (x0 x1 y0 y1 : ℝ) (P Q : Nat) (m : ℝ) : Prop where
  hx0 : x0 ∈ (rotR us ws).map Prod.fst ∧ ∀ x ∈ (rotR us ws).map Prod.fst, x0 ≤ x
  hx1 : x1 ∈ (rotR us ws).map Prod.fst ∧ ∀ x ∈ (rotR us ws).map Prod.fst, x ≤ x1
  hy0 : y0 ∈ (rotR us ws).map Prod.snd ∧ ∀ x ∈ (rotR us ws).map Prod.snd, y0 ≤ x
  hy1 : y1 ∈ (rotR us ws).map Prod.snd ∧ ∀ x ∈ (rotR us ws).map Prod.snd, x ≤ y1
  peak : IsPeak (densityTable us ws (gridR x0 x1 g) (gridR y0 y1 g)) P Q m

theorem table_shape (us ws : List ℝ) (g : Nat) (x0 x1 y0 y1 : ℝ) :
    (densityTable us ws (gridR x0 x1 g) (gridR y0 y1 g)).length = g ∧
    ∀ r ∈ densityTable us ws (gridR x0 x1 g) (gridR y0 y1 g), r.length = g := by
  constructor
  · simp [densityTable, gridR]
  · intro r hr
    obtain ⟨x, _, rfl⟩ := List.mem_map.mp hr
    simp [gridR]

theorem exists_frame (us ws : List ℝ) (h : us.length = ws.length) (hn : 2 ≤ us.length) (g : Nat) (hg : 2 ≤ g) :
    ∃ x0 x1 y0 y1 P Q m, Frame us ws g x0 x1 y0 y1 P Q m := by
  have hne : us ≠ [] := by rintro rfl; simp at hn
  obtain ⟨x0, x1, y0, y1, a, b, c, d⟩ := rot_extremes us ws h hne
  obtain ⟨hrows, hcols⟩ := table_shape us ws g x0 x1 y0 y1
  have hflat : (densityTable us ws (gridR x0 x1 g) (gridR y0 y1 g)).flatten ≠ [] := by
    have h0 : 0 < (densityTable us ws (gridR x0 x1 g) (gridR y0 y1 g)).length := by omega
    intro he
    have h1 := List.flatten_eq_nil_iff.mp he _ (List.getElem_mem h0)
    have h2 := hcols _ (List.getElem_mem h0)
    rw [h1] at h2; simp at h2; omega
  obtain ⟨P, Q, m, hpk, -⟩ := exists_peak _ hflat
  exact ⟨x0, x1, y0, y1, P, Q, m, a, b, c, d, hpk⟩

/-- **C119** changing the unit (multiplying both components by `s > 0`) leaves the grid nodes, the density profile up to a
factor and its peak unchanged, and multiplies the cutoff thresholds by `s`. -/
theorem C119_scaled (us ws : List ℝ) (h : us.length = ws.length) (hn : 2 ≤ us.length)
    (hc : Spec.var us * Spec.var ws ≠ Spec.cov us ws ^ 2) (g : Nat) (hg : 2 ≤ g) (x0 x1 y0 y1 : ℝ) (P Q : Nat) (m : ℝ)
    (fr : Frame us ws g x0 x1 y0 y1 P Q m) (s : ℝ) (hs : 0 < s) :
    ∃ l u l' u' r, ScaledRun us ws g x0 x1 y0 y1 P Q s l u l' u' r := by
  have hne : us ≠ [] := by rintro rfl; simp at hn
  have hws : ws ≠ [] := by rintro rfl; rw [h] at hn; simp at hn
  have hpd := (posdef_rot us ws h hn).mpr hc
  have hx : x0 < x1 := extremes_lt _ hpd.1.ne' x0 x1 fr.hx0.2 fr.hx1.2 fr.hx0.1
  have hy : y0 < y1 := by
    refine extremes_lt _ ?_ y0 y1 fr.hy0.2 fr.hy1.2 fr.hy0.1
    intro h0
    have := hpd.2
    rw [h0, mul_zero] at this
    nlinarith [sq_nonneg (Spec.scov ((rotR us ws).map Prod.fst) ((rotR us ws).map Prod.snd))]
  obtain ⟨hrows, hcols⟩ := table_shape us ws g x0 x1 y0 y1
  set T := densityTable us ws (gridR x0 x1 g) (gridR y0 y1 g) with hT
  have hm : 0 < m := by
    refine densityTable_pos us ws h hn hc (gridR x0 x1 g) (gridR y0 y1 g) m (List.mem_flatten.mpr ⟨T.getD P [], ?_, List.mem_of_getElem? fr.peak.1⟩)
    rw [List.getD_eq_getElem?_getD, List.getElem?_eq_getElem fr.peak.2.1]; exact List.getElem_mem _
  have hls : (scaleL s us).length = (scaleL s ws).length := by simpa [scaleL] using h
  have hns : 2 ≤ (scaleL s us).length := by simpa [scaleL] using hn
  have hcs : Spec.var (scaleL s us) * Spec.var (scaleL s ws) ≠ Spec.cov (scaleL s us) (scaleL s ws) ^ 2 := by
    rw [var_scale s hne, var_scale s hws, cov_scale s hne hws]
    intro he
    apply hc
    have h4 : (0 : ℝ) < (s ^ 2) ^ 2 := by positivity
    apply mul_left_cancel₀ h4.ne'
    linear_combination he
  have hk : 0 < 1 / s ^ 2 := by positivity
  have m1 : (rotR (scaleL s us) (scaleL s ws)).map Prod.fst = scaleL s ((rotR us ws).map Prod.fst) := by
    rw [rotR_scale us ws hne hws s hs]; simp [scaleL]
  have m2 : (rotR (scaleL s us) (scaleL s ws)).map Prod.snd = scaleL s ((rotR us ws).map Prod.snd) := by
    rw [rotR_scale us ws hne hws s hs]; simp [scaleL]
  have mem : ∀ (l : List ℝ) (v : ℝ), v ∈ l → s * v ∈ scaleL s l := fun l v hv => List.mem_map.mpr ⟨v, hv, rfl⟩
  have lo : ∀ (l : List ℝ) (v : ℝ), (∀ x ∈ l, v ≤ x) → ∀ x ∈ scaleL s l, s * v ≤ x := by
    intro l v hl x hx
    obtain ⟨y, hy, rfl⟩ := List.mem_map.mp hx
    exact mul_le_mul_of_nonneg_left (hl y hy) hs.le
  have hi : ∀ (l : List ℝ) (v : ℝ), (∀ x ∈ l, x ≤ v) → ∀ x ∈ scaleL s l, x ≤ s * v := by
    intro l v hl x hx
    obtain ⟨y, hy, rfl⟩ := List.mem_map.mp hx
    exact mul_le_mul_of_nonneg_left (hl y hy) hs.le
  have hkde := kdeGrid_table (scaleL s us) (scaleL s ws) hls hns hcs (gridR (s * x0) (s * x1) g) (gridR (s * y0) (s * y1) g) g
    (by simp [gridR]) (by simp [gridR])
  rw [show densityTable (scaleL s us) (scaleL s ws) (gridR (s * x0) (s * x1) g) (gridR (s * y0) (s * y1) g) =
    T.map (scaleL (1 / s ^ 2)) by rw [gridR_scale, gridR_scale, densityTable_scale us ws h hne s hs]] at hkde
  obtain ⟨l, u, l', u', r, h1, h2, h3, h4, h5, h6⟩ := C82_kernel (scaleL s us) (scaleL s ws) hls (by simpa [scaleL] using hne) g hg
    (s * x0) (s * x1) (s * y0) (s * y1)
    (by rw [m1]; exact ⟨mem _ _ fr.hx0.1, lo _ _ fr.hx0.2⟩) (by rw [m1]; exact ⟨mem _ _ fr.hx1.1, hi _ _ fr.hx1.2⟩)
    (by rw [m2]; exact ⟨mem _ _ fr.hy0.1, lo _ _ fr.hy0.2⟩) (by rw [m2]; exact ⟨mem _ _ fr.hy1.1, hi _ _ fr.hy1.2⟩)
    (T.map (scaleL (1 / s ^ 2))) (by simpa using hrows)
    (by intro r hr; obtain ⟨r', hr', rfl⟩ := List.mem_map.mp hr; simpa [scaleL] using hcols r' hr')
    P Q (1 / s ^ 2 * m) (mul_pos hk hm) (IsPeak_scale _ hk T P Q m fr.peak) (kdeGrid chol2 g) hkde
  have hcol : (T.map (scaleL (1 / s ^ 2))).map (fun row => row.getD Q 0) = scaleL (1 / s ^ 2) (T.map (fun row => row.getD Q 0)) := by
    unfold scaleL
    rw [List.map_map, List.map_map]
    apply List.map_congr_left
    intro row _
    exact getD_scale _ _ _
  rw [hcol, LowerR_scale _ hk, thrR_scale s hs hne] at h1
  rw [hcol, UpperR_scale _ hk, thrR_scale s hs hne] at h2
  rw [getD_map_scale, LowerR_scale _ hk, thrR_scale s hs hws] at h3
  rw [getD_map_scale, UpperR_scale _ hk, thrR_scale s hs hws] at h4
  refine ⟨l, u, l', u', r, h1, h2, h3, h4, h5, ?_⟩
  intro q1 q2 i
  rw [h6 q1 (mul_lt_mul_of_pos_left hx hs) q2 (mul_lt_mul_of_pos_left hy hs) i, rotR_scale us ws hne hws s hs, List.getElem?_map]
  have sc : ∀ p a b n d : ℝ, (s * p - (s * a + (s * b - s * a) * n / d)) = s * (p - (a + (b - a) * n / d)) := by
    intro p a b n d; ring
  have sd : ∀ a b n d : ℝ, (s * b - s * a) * n / d = s * ((b - a) * n / d) := by intro a b n d; ring
  constructor
  · rintro ⟨p, hp, hlt⟩
    cases hq : (rotR us ws)[i]? with
    | none => rw [hq] at hp; cases hp
    | some q =>
      rw [hq] at hp
      simp only [Option.map_some, Option.some.injEq] at hp
      subst hp
      refine ⟨q, rfl, ?_⟩
      simp only [sc] at hlt
      rw [sd x0 x1 ((u : ℝ) - l), sd y0 y1 ((u' : ℝ) - l'), mul_div_mul_left _ _ hs.ne', mul_div_mul_left _ _ hs.ne'] at hlt
      exact hlt
  · rintro ⟨q, hq, hlt⟩
    refine ⟨(s * q.1, s * q.2), by rw [hq]; rfl, ?_⟩
    simp only [sc]
    rw [sd x0 x1 ((u : ℝ) - l), sd y0 y1 ((u' : ℝ) - l'), mul_div_mul_left _ _ hs.ne', mul_div_mul_left _ _ hs.ne']
    exact hlt

/-! ## the two extremes of the unit -/

theorem LowerR_none {f : List ℝ} {c : ℝ} {g p l : Nat} (h : LowerR f c g p l) (hp : p < g)
    (hno : ∀ j, j < g → ¬AcceptR f c g p j) : l = 1 := by
  rcases h with ⟨a, b, d, _⟩ | ⟨a, _⟩
  · exact absurd d (hno l (by omega))
  · exact a

theorem UpperR_none {f : List ℝ} {c : ℝ} {g p u : Nat} (h : UpperR f c g p u) (hf : f.length = g)
    (hno : ∀ j, j < g → ¬AcceptR f c g p j) : u = g - 1 := by
  rcases h with ⟨a, b, d, _⟩ | ⟨a, _⟩
  · exact absurd d (hno u (by omega))
  · rw [a, hf]

theorem LowerR_all {f : List ℝ} {c : ℝ} {g p l : Nat} (h : LowerR f c g p l) (hp : p < g)
    (hall : ∀ j, j < g → AcceptR f c g p j) : l = max (p - 1) 1 := by
  rcases h with ⟨a, b, _, e⟩ | ⟨a, e⟩
  · by_contra hl
    exact e (p - 1) (by omega) (by omega) (hall _ (by omega))
  · by_contra hl
    exact e (p - 1) (by omega) (by omega) (hall _ (by omega))

theorem UpperR_all {f : List ℝ} {c : ℝ} {g p u : Nat} (h : UpperR f c g p u) (hf : f.length = g) (hp : p < g)
    (hall : ∀ j, j < g → AcceptR f c g p j) : u = min (p + 1) (g - 1) := by
  rcases h with ⟨a, b, _, e⟩ | ⟨a, e⟩
  · by_contra hl
    exact e (p + 1) (by omega) (by omega) (hall _ (by omega))
  · by_contra hl
    exact e (p + 1) (by omega) (by omega) (hall _ (by omega))

/-- finitely many positive numbers have a positive lower bound -/
theorem exists_pos_lb (φ : Nat → ℝ) (g : Nat) (h : ∀ j, j < g → 0 < φ j) : ∃ ε, 0 < ε ∧ ∀ j, j < g → ε ≤ φ j := by
  induction g with
  | zero => exact ⟨1, one_pos, by intro j hj; omega⟩
  | succ g ih =>
    obtain ⟨ε, h1, h2⟩ := ih (fun j hj => h j (by omega))
    refine ⟨min ε (φ g), lt_min h1 (h g (by omega)), ?_⟩
    intro j hj
    by_cases hjg : j = g
    · subst hjg; exact min_le_right _ _
    · exact (min_le_left _ _).trans (h2 j (by omega))

theorem exists_ub (φ : Nat → ℝ) (g : Nat) : ∃ C, ∀ j, j < g → φ j ≤ C := by
  induction g with
  | zero => exact ⟨0, by intro j hj; omega⟩
  | succ g ih =>
    obtain ⟨C, h2⟩ := ih
    refine ⟨max C (φ g), ?_⟩
    intro j hj
    by_cases hjg : j = g
    · subst hjg; exact le_max_right _ _
    · exact (h2 j (by omega)).trans (le_max_left _ _)

theorem small_scale (f : List ℝ) (g p : Nat) (hf : f.length = g) (hp : p < g) (hpos : ∀ v ∈ f, 0 < v) (t : ℝ) (ht : 0 ≤ t) :
    ∃ s0, 0 < s0 ∧ ∀ s, 0 < s → s < s0 → ∀ j, j < g → ¬AcceptR f (s * t) g p j := by
  have hv : ∀ j, j < g → 0 < f.getD j 0 := by
    intro j hj
    rw [List.getD_eq_getElem?_getD, List.getElem?_eq_getElem (by omega)]
    exact hpos _ (List.getElem_mem _)
  obtain ⟨ε, h1, h2⟩ := exists_pos_lb (fun j => f.getD j 0 / f.getD p 0) g (fun j hj => div_pos (hv j hj) (hv p hp))
  refine ⟨ε / (t + 1), by positivity, ?_⟩
  intro s hs hlt j hj ha
  have h3 := (h2 j hj).trans ha.1
  rw [lt_div_iff₀ (by positivity)] at hlt
  nlinarith

theorem large_scale (f : List ℝ) (g p : Nat) (t : ℝ) (ht : 0 < t) :
    ∃ s1, 0 < s1 ∧ ∀ s, s1 < s → ∀ j, j < g → AcceptR f (s * t) g p j := by
  obtain ⟨C, hC⟩ := exists_ub (fun j => max (f.getD j 0 / f.getD p 0) |(f.getD j 0 - f.getD (j - 1) 0) * g / f.getD p 0|) g
  refine ⟨(|C| + 1) / t, by positivity, ?_⟩
  intro s hs j hj
  rw [div_lt_iff₀ ht] at hs
  have h1 := hC j hj
  have h2 := le_abs_self C
  exact ⟨((le_max_left _ _).trans h1).trans (by linarith), ((le_max_right _ _).trans h1).trans (by linarith)⟩

theorem profile_facts (us ws : List ℝ) (h : us.length = ws.length) (hn : 2 ≤ us.length)
    (hc : Spec.var us * Spec.var ws ≠ Spec.cov us ws ^ 2) (g : Nat) (x0 x1 y0 y1 : ℝ) (P Q : Nat) (m : ℝ)
    (fr : Frame us ws g x0 x1 y0 y1 P Q m) :
    P < g ∧ Q < g ∧
    ((densityTable us ws (gridR x0 x1 g) (gridR y0 y1 g)).map (fun row => row.getD Q 0)).length = g ∧
    ((densityTable us ws (gridR x0 x1 g) (gridR y0 y1 g)).getD P []).length = g ∧
    (∀ v ∈ (densityTable us ws (gridR x0 x1 g) (gridR y0 y1 g)).map (fun row => row.getD Q 0), 0 < v) ∧
    (∀ v ∈ (densityTable us ws (gridR x0 x1 g) (gridR y0 y1 g)).getD P [], 0 < v) := by
  obtain ⟨hrows, hcols⟩ := table_shape us ws g x0 x1 y0 y1
  have hpos := densityTable_pos us ws h hn hc (gridR x0 x1 g) (gridR y0 y1 g)
  have hpk := fr.peak
  set T := densityTable us ws (gridR x0 x1 g) (gridR y0 y1 g) with hT
  have hP : P < g := by rw [← hrows]; exact hpk.2.1
  have hPm : T.getD P [] ∈ T := by
    rw [List.getD_eq_getElem?_getD, List.getElem?_eq_getElem hpk.2.1]; exact List.getElem_mem _
  have hQ : Q < g := by
    by_contra hq
    have := hpk.1
    rw [List.getElem?_eq_none (by rw [hcols _ hPm]; omega)] at this
    cases this
  refine ⟨hP, hQ, by simpa using hrows, hcols _ hPm, ?_, fun v hv => hpos v (List.mem_flatten.mpr ⟨_, hPm, hv⟩)⟩
  intro v hv
  obtain ⟨row, hr, rfl⟩ := List.mem_map.mp hv
  refine hpos _ (List.mem_flatten.mpr ⟨row, hr, ?_⟩)
  have hl := hcols row hr
  rw [List.getD_eq_getElem?_getD, List.getElem?_eq_getElem (by omega)]
  exact List.getElem_mem _

theorem thrR_nonneg (l : List ℝ) : 0 ≤ thrR l := by unfold thrR; positivity

theorem thrR_pos (l : List ℝ) (hn : 2 ≤ l.length) (hv : 0 < Spec.var l) : 0 < thrR l := by
  have h2 : (2 : ℝ) ≤ l.length := by exact_mod_cast hn
  have hl : 0 < Real.log l.length := Real.log_pos (by linarith)
  unfold thrR
  positivity

/-- **C119** in a sufficiently large unit (small numbers) no grid node qualifies: both cutoff searches fall through, and the
cutoffs are the second and the last node of either axis, whatever the data. -/
theorem C119_small (us ws : List ℝ) (h : us.length = ws.length) (hn : 2 ≤ us.length)
    (hc : Spec.var us * Spec.var ws ≠ Spec.cov us ws ^ 2) (g : Nat) (hg : 2 ≤ g) (x0 x1 y0 y1 : ℝ) (P Q : Nat) (m : ℝ)
    (fr : Frame us ws g x0 x1 y0 y1 P Q m) :
    ∃ s0, 0 < s0 ∧ ∀ s, 0 < s → s < s0 → ∃ r, ScaledRun us ws g x0 x1 y0 y1 P Q s 1 (g - 1) 1 (g - 1) r := by
  obtain ⟨hP, hQ, l1, l2, p1, p2⟩ := profile_facts us ws h hn hc g x0 x1 y0 y1 P Q m fr
  obtain ⟨s0, a0, a1⟩ := small_scale _ g P l1 hP p1 (thrR us) (thrR_nonneg us)
  obtain ⟨s1, b0, b1⟩ := small_scale _ g Q l2 hQ p2 (thrR ws) (thrR_nonneg ws)
  refine ⟨min s0 s1, lt_min a0 b0, ?_⟩
  intro s hs hlt
  obtain ⟨l, u, l', u', r, run⟩ := C119_scaled us ws h hn hc g hg x0 x1 y0 y1 P Q m fr s hs
  have A := a1 s hs (hlt.trans_le (min_le_left _ _))
  have B := b1 s hs (hlt.trans_le (min_le_right _ _))
  have e1 := LowerR_none run.lower hP A
  have e2 := UpperR_none run.upper l1 A
  have e3 := LowerR_none run.lower' hQ B
  have e4 := UpperR_none run.upper' l2 B
  subst e1 e2 e3 e4
  exact ⟨r, run⟩

/-- **C119** in a sufficiently small unit (large numbers) every grid node qualifies: the cutoffs are the neighbours of the
peak node, whatever the data. -/
theorem C119_large (us ws : List ℝ) (h : us.length = ws.length) (hn : 2 ≤ us.length)
    (hc : Spec.var us * Spec.var ws ≠ Spec.cov us ws ^ 2) (g : Nat) (hg : 2 ≤ g) (x0 x1 y0 y1 : ℝ) (P Q : Nat) (m : ℝ)
    (fr : Frame us ws g x0 x1 y0 y1 P Q m) :
    ∃ s1, 0 < s1 ∧ ∀ s, s1 < s → ∃ r, ScaledRun us ws g x0 x1 y0 y1 P Q s (max (P - 1) 1) (min (P + 1) (g - 1))
      (max (Q - 1) 1) (min (Q + 1) (g - 1)) r := by
  obtain ⟨hP, hQ, l1, l2, p1, p2⟩ := profile_facts us ws h hn hc g x0 x1 y0 y1 P Q m fr
  have hcs := cov_sq_le us ws h hn
  have hprod : 0 < Spec.var us * Spec.var ws := by
    rcases lt_or_eq_of_le hcs with h1 | h1
    · exact (sq_nonneg _).trans_lt h1
    · exact absurd h1.symm hc
  have hvu : 0 ≤ Spec.var us := Spec.var_nonneg us
  have hvw : 0 ≤ Spec.var ws := Spec.var_nonneg ws
  have hu : 0 < Spec.var us := by
    rcases lt_or_eq_of_le hvu with h1 | h1
    · exact h1
    · rw [← h1, zero_mul] at hprod; exact absurd hprod (lt_irrefl _)
  have hw : 0 < Spec.var ws := by
    rcases lt_or_eq_of_le hvw with h1 | h1
    · exact h1
    · rw [← h1, mul_zero] at hprod; exact absurd hprod (lt_irrefl _)
  obtain ⟨s0, a0, a1⟩ := large_scale ((densityTable us ws (gridR x0 x1 g) (gridR y0 y1 g)).map (fun row => row.getD Q 0)) g P
    (thrR us) (thrR_pos us hn hu)
  obtain ⟨s1, b0, b1⟩ := large_scale ((densityTable us ws (gridR x0 x1 g) (gridR y0 y1 g)).getD P []) g Q
    (thrR ws) (thrR_pos ws (h ▸ hn) hw)
  refine ⟨max s0 s1, lt_max_of_lt_left a0, ?_⟩
  intro s hlt
  have hs : 0 < s := a0.trans ((le_max_left _ _).trans_lt hlt)
  obtain ⟨l, u, l', u', r, run⟩ := C119_scaled us ws h hn hc g hg x0 x1 y0 y1 P Q m fr s hs
  have A := a1 s ((le_max_left _ _).trans_lt hlt)
  have B := b1 s ((le_max_right _ _).trans_lt hlt)
  have e1 := LowerR_all run.lower hP A
  have e2 := UpperR_all run.upper l1 hP A
  have e3 := LowerR_all run.lower' hQ B
  have e4 := UpperR_all run.upper' l2 hQ B
  subst e1 e2 e3 e4
  exact ⟨r, run⟩

end Proadv.Props
