import Verif.Props.Kde4

/-!
# Property C118: the trivariate kernel detector does not see a constant offset
-/

set_option linter.unusedSectionVars false

namespace Proadv.Props

open Proadv Fl KernelDetect Spread Detect

/-- translation of points -/
def shiftPts (α β : ℝ) (l : List (ℝ × ℝ)) : List (ℝ × ℝ) := l.map (fun p => (p.1 + α, p.2 + β))

theorem scov_shift (x y : List ℝ) (α β : ℝ) (hx : x ≠ []) (hy : y ≠ []) :
    Spec.scov (x.map (fun v => v + α)) (y.map (fun v => v + β)) = Spec.scov x y := by
  have e : ∀ (l : List ℝ) (c : ℝ), l ≠ [] → Spec.dev (l.map (fun v => v + c)) = Spec.dev l := by
    intro l c hl
    have h1 : Spec.avg (l.map (fun v => v + c)) = Spec.avg l + c := by
      have := Spec.avg_affine 1 c hl
      simpa using this
    unfold Spec.dev
    rw [h1, List.map_map]
    apply List.map_congr_left
    intro v _
    simp
  unfold Spec.scov
  rw [e x α hx, e y β hy, List.length_map]

theorem shiftPts_fst (α β : ℝ) (l : List (ℝ × ℝ)) : (shiftPts α β l).map Prod.fst = (l.map Prod.fst).map (fun v => v + α) := by
  simp [shiftPts]

theorem shiftPts_snd (α β : ℝ) (l : List (ℝ × ℝ)) : (shiftPts α β l).map Prod.snd = (l.map Prod.snd).map (fun v => v + β) := by
  simp [shiftPts]

theorem kdeAt_shift (a b c α β : ℝ) (l : List (ℝ × ℝ)) (x y : ℝ) :
    Spec.kdeAt a b c (shiftPts α β l) (x + α) (y + β) = Spec.kdeAt a b c l x y := by
  unfold Spec.kdeAt shiftPts
  rw [List.map_map, List.length_map]
  congr 2
  apply List.map_congr_left
  intro p _
  simp

/-- the rotated samples move by a constant vector -/
theorem rotR_shift (us ws : List ℝ) (hu : us ≠ []) (hw : ws ≠ []) (a b : ℝ) : ∃ α β,
    rotR (us.map (fun x => x + a)) (ws.map (fun x => x + b)) = shiftPts α β (rotR us ws) := by
  set θ := Complex.arg ⟨Spec.var us, Spec.cov us ws⟩ with hθ
  refine ⟨a * Real.cos θ + b * Real.sin θ, -a * Real.sin θ + b * Real.cos θ, ?_⟩
  unfold rotR shiftPts
  rw [var_shift a us hu, cov_shift a b us ws hu hw, List.zipWith_map, List.map_zipWith, ← hθ]
  congr 1
  funext u w
  simp only [Prod.mk.injEq]
  constructor <;> ring

/-- grid axes move with the extremes -/
theorem gridAxis_shift (lo hi α : ℝ) (g : Nat) : ∃ l : List ℝ, l.length = g ∧
    gridAxis (fin lo : Fl ℝ) (fin hi) g = fins l ∧
    gridAxis (fin (lo + α) : Fl ℝ) (fin (hi + α)) g = fins (l.map (fun v => v + α)) := by
  by_cases h : 2 ≤ g
  · refine ⟨gridR lo hi g, by simp [gridR], gridAxis_fins lo hi g h, ?_⟩
    rw [gridAxis_fins _ _ g h]
    congr 1
    unfold gridR
    rw [List.map_map]
    apply List.map_congr_left
    intro i _
    simp only [Function.comp]
    ring
  · interval_cases g
    · exact ⟨[], rfl, rfl, rfl⟩
    · refine ⟨[lo], rfl, ?_, ?_⟩ <;>
      · unfold gridAxis
        rw [if_pos rfl, ofNat_eq, ofNat_eq, pmul_fin, padd_fin]
        simp [fins]

/-- the grid density is the same table -/
theorem kdeGrid_shift (pts : List (ℝ × ℝ)) (hn : 2 ≤ pts.length) (uf wf : List ℝ) (g : Nat) (hu : uf.length = g)
    (hw : wf.length = g) (α β : ℝ) :
    kdeGrid chol2 g (finPts (shiftPts α β pts)) (fins (uf.map (fun v => v + α))) (fins (wf.map (fun v => v + β))) =
      (kdeGrid chol2 g (finPts pts) (fins uf) (fins wf) : Py (List (List (Fl ℝ)))) := by
  have h1 : pts.map Prod.fst ≠ [] := by rw [← List.length_pos_iff, List.length_map]; omega
  have h2 : pts.map Prod.snd ≠ [] := by rw [← List.length_pos_iff, List.length_map]; omega
  have hl : (shiftPts α β pts).length = pts.length := by simp [shiftPts]
  have A := C116_density (shiftPts α β pts) (by rw [hl]; exact hn) (uf.map (fun v => v + α)) (wf.map (fun v => v + β)) g
    (by simpa using hu) (by simpa using hw) _ _ _ _ rfl rfl rfl rfl
  have B := C116_density pts hn uf wf g hu hw _ _ _ _ rfl rfl rfl rfl
  rw [shiftPts_fst, shiftPts_snd, scov_shift _ _ _ _ h1 h1, scov_shift _ _ _ _ h1 h2, scov_shift _ _ _ _ h2 h2, hl] at A
  by_cases hpd : 0 < Spec.scov (pts.map Prod.fst) (pts.map Prod.fst) ∧
      0 < Spec.scov (pts.map Prod.fst) (pts.map Prod.fst) * Spec.scov (pts.map Prod.snd) (pts.map Prod.snd) -
        Spec.scov (pts.map Prod.fst) (pts.map Prod.snd) ^ 2
  · rw [A.1 hpd, B.1 hpd, List.map_map]
    congr 1
    apply List.map_congr_left
    intro x _
    simp only [Function.comp, fins, List.map_map]
    apply List.map_congr_left
    intro y _
    simp only [Function.comp]
    rw [kdeAt_shift]
  · rw [A.2 hpd, B.2 hpd]

theorem getIdx_map {α β : Type} (f : α → β) (l : List α) (i : Int) : getIdx (l.map f) i = (getIdx l i).map f := by
  unfold getIdx
  rw [List.length_map]
  cases pyIdx l.length i with
  | none => rfl
  | some k =>
    simp only [List.getElem?_map]
    cases l[k]? <;> rfl

/-- the cutoffs move with the velocity axis -/
theorem cutoff_map {α : Type} (dens force : List (Fl ℝ)) (vel : List α) (c1 c2 : Fl ℝ) (p : Int) (g : Nat) :
    ∃ r : Py (α × α), ∀ f : α → Fl ℝ, cutoff dens (vel.map f) c1 c2 force p g = r.map (fun q => (f q.1, f q.2)) := by
  refine ⟨do
    let delta ← deltaForce dens force g
    let lower ← searchLoop (qualifies c1 c2 force delta p) 1 (downRange p)
    let upper ← searchLoop (qualifies c1 c2 force delta p) ((force.length : Int) - 1) (upRange p force.length)
    let lv ← getIdx vel lower
    let uv ← getIdx vel upper
    .ok (lv, uv), ?_⟩
  intro f
  unfold cutoff
  simp only [bind, Except.bind, getIdx_map]
  cases deltaForce dens force g with
  | error e => rfl
  | ok delta =>
    simp only
    cases searchLoop (qualifies c1 c2 force delta p) 1 (downRange p) with
    | error e => rfl
    | ok lower =>
      simp only
      cases searchLoop (qualifies c1 c2 force delta p) ((force.length : Int) - 1) (upRange p force.length) with
      | error e => rfl
      | ok upper =>
        simp only
        cases getIdx vel lower with
        | error e => rfl
        | ok lv => cases getIdx vel upper <;> rfl

theorem kernelRho_shift (ul uu wl wu x y α β : ℝ) :
    kernelRho (fin (ul + α)) (fin (uu + α)) (fin (wl + β)) (fin (wu + β)) (fin (x + α)) (fin (y + β)) =
      (kernelRho (fin ul) (fin uu) (fin wl) (fin wu) (fin x) (fin y) : Fl ℝ) := by
  unfold kernelRho
  simp only [lit_eq, padd_fin, pmul_fin, psub_fin]
  have e1 : ∀ p q r s : ℝ, p + s - ((1 / 2 : ℚ) : ℝ) * (q + s + (r + s)) = p - ((1 / 2 : ℚ) : ℝ) * (q + r) := by
    intro p q r s; push_cast; ring
  rw [e1, e1, e1, e1]

theorem std_shift (us : List ℝ) (a : ℝ) (h : us ≠ []) :
    std (Arr.flt (fins (us.map (fun x => x + a)))) = (std (Arr.flt (fins us)) : Py (Fl ℝ)) := by
  rw [show std (Arr.flt (fins us) : Arr (Fl ℝ)) = _ from std_fins false us h,
    show std (Arr.flt (fins (us.map (fun x => x + a))) : Arr (Fl ℝ)) = _ from std_fins false _ (by simpa using h),
    var_shift a us h]

/-- **C118** adding a constant to either component changes nothing in `kernel`: same indices, or the same exception. -/
theorem C118_kernel (us ws : List ℝ) (h : us.length = ws.length) (g : Nat) (a b : ℝ) :
    kernel (kdeGrid chol2 g) (fins (us.map (fun x => x + a))) (fins (ws.map (fun x => x + b))) g =
      (kernel (kdeGrid chol2 g) (fins us) (fins ws) g : Py (List Nat)) := by
  by_cases hg : g = 0
  · rw [hg, C117_no_grid, C117_no_grid]; simp [fins]
  by_cases hn : us.length < 2
  · rw [C117_too_short chol2 (fins us) (fins ws) g hg (by simpa using h) (by simpa using hn),
      C117_too_short chol2 _ _ g hg (by simpa using h) (by simpa using hn)]
  have hne : us ≠ [] := by rintro rfl; simp at hn
  have hws : ws ≠ [] := by rintro rfl; rw [h] at hn; simp at hn
  obtain ⟨x0, x1, y0, y1, p1, p2, p3, p4⟩ := rot_extremes us ws h hne
  obtain ⟨α, β, hs⟩ := rotR_shift us ws hne hws a b
  have mem : ∀ (l : List ℝ) (v c : ℝ), v ∈ l → v + c ∈ l.map (fun x => x + c) := fun l v c hv => List.mem_map.mpr ⟨v, hv, rfl⟩
  have lo : ∀ (l : List ℝ) (v c : ℝ), (∀ x ∈ l, v ≤ x) → ∀ x ∈ l.map (fun x => x + c), v + c ≤ x := by
    intro l v c hl x hx
    obtain ⟨y, hy, rfl⟩ := List.mem_map.mp hx
    have := hl y hy; linarith
  have hi : ∀ (l : List ℝ) (v c : ℝ), (∀ x ∈ l, x ≤ v) → ∀ x ∈ l.map (fun x => x + c), x ≤ v + c := by
    intro l v c hl x hx
    obtain ⟨y, hy, rfl⟩ := List.mem_map.mp hx
    have := hl y hy; linarith
  rw [kernel_fins _ us ws h hne g hg x0 x1 y0 y1 p1 p2 p3 p4,
    kernel_fins _ _ _ (by simpa using h) (by simpa using hne) g hg (x0 + α) (x1 + α) (y0 + β) (y1 + β)
      (by rw [hs, shiftPts_fst]; exact ⟨mem _ _ _ p1.1, lo _ _ _ p1.2⟩)
      (by rw [hs, shiftPts_fst]; exact ⟨mem _ _ _ p2.1, hi _ _ _ p2.2⟩)
      (by rw [hs, shiftPts_snd]; exact ⟨mem _ _ _ p3.1, lo _ _ _ p3.2⟩)
      (by rw [hs, shiftPts_snd]; exact ⟨mem _ _ _ p4.1, hi _ _ _ p4.2⟩), hs]
  obtain ⟨uf, lu, eu, eu'⟩ := gridAxis_shift x0 x1 α g
  obtain ⟨wf, lw, ew, ew'⟩ := gridAxis_shift y0 y1 β g
  rw [eu, eu', ew, ew', kdeGrid_shift (rotR us ws) (by rw [rotR_length us ws h]; omega) uf wf g lu lw α β]
  cases hk : kdeGrid chol2 g (finPts (rotR us ws)) (fins uf) (fins wf) with
  | error e => rfl
  | ok pdf =>
    simp only [bind, Except.bind]
    unfold kernelCutoffs
    rw [std_shift us a hne, std_shift ws b hws]
    simp only [bind, Except.bind, List.length_map]
    cases peakPos pdf with
    | error e => rfl
    | ok pk =>
      obtain ⟨peak, up, wp⟩ := pk
      simp only
      cases std (Arr.flt (fins us) : Arr (Fl ℝ)) with
      | error e => rfl
      | ok su =>
        simp only
        cases std (Arr.flt (fins ws) : Arr (Fl ℝ)) with
        | error e => rfl
        | ok sw =>
          simp only
          obtain ⟨r1, hr1⟩ := cutoff_map [peak] (pdf.map (fun r => r.getD wp PyNum.nan)) uf
            (lambdaOf us.length *. su /. PyMath.sqrt (ofNat us.length)) (lambdaOf us.length *. su /. PyMath.sqrt (ofNat us.length)) up g
          obtain ⟨r2, hr2⟩ := cutoff_map [peak] (pdf.getD up []) wf
            (lambdaOf us.length *. sw /. PyMath.sqrt (ofNat us.length)) (lambdaOf us.length *. sw /. PyMath.sqrt (ofNat us.length)) wp g
          have k1 := hr1 (fun v => fin (v + α))
          have k2 := hr2 (fun v => fin (v + β))
          have m1 : ∀ (l : List ℝ) (c : ℝ), fins (l.map (fun v => v + c)) = l.map (fun v => (fin (v + c) : Fl ℝ)) := by
            intro l c; simp [fins]
          rw [m1, m1, k1, k2, hr1 fin, hr2 fin]
          cases r1 with
          | error e => rfl
          | ok q1 =>
            simp only [Except.map]
            cases r2 with
            | error e => rfl
            | ok q2 =>
              simp only
              congr 2
              unfold finPts shiftPts
              rw [List.map_map, List.map_map, List.map_map]
              apply List.map_congr_left
              intro p _
              simp only [Function.comp]
              rw [kernelRho_shift]

/-- **C118** `three_dimensional_kernel` gives the same indices, or the same exception, whatever the mean level of the
record. -/
theorem C118_three (xs : List ℝ) (g : Nat) (a : ℝ) :
    threeDimensionalKernel (kdeGrid chol2 g) (Arr.flt (fins (xs.map (fun x => x + a)))) g =
      (threeDimensionalKernel (kdeGrid chol2 g) (Arr.flt (fins xs)) g : Py (List Nat)) := by
  have hd : halfDiff (xs.map (fun x => x + a)) = halfDiff xs := (C79_kernel_laws xs xs rfl a 0 0).2.1
  have hz : ∀ l : List ℝ, l = l.map (fun x => x + 0) := fun l => by simp
  have k1 := C118_kernel xs (halfDiff xs) (halfDiff_length' xs).symm g a 0
  have k2 := C118_kernel xs (halfDiff (halfDiff xs)) (by rw [halfDiff_length', halfDiff_length']) g a 0
  rw [← hz] at k1 k2
  unfold threeDimensionalKernel
  rw [derivatives_fins, derivatives_fins, hd]
  simp only [Arr.flt]
  rw [k1, k2]

end Proadv.Props
