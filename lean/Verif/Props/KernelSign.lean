import Verif.Props.KernelGrid
import Verif.Lemmas.FlAlg

/-!
# C257: the sign of the grid is ignored by the trivariate kernel
-/

set_option linter.unusedSectionVars false

namespace Proadv.Props

open Proadv Fl KernelDetect

section generic
variable {F : Type} [PyMath F]

private theorem lit_natCast (n : ℕ) : (lit (((n : ℤ) : ℚ)) : F) = ofNat n := by
  unfold ofNat lit; rw [Int.cast_natCast]

private theorem kernelZ_nat (kde : List (F × F) → List F → List F → Py (List (List F))) (u w : List F) (n : ℕ) :
    kernelZ kde u w (n : ℤ) = kernel kde u w n := by
  have hc : ∀ uf wf pdf, kernelCutoffsZ u w (n : ℤ) uf wf pdf = kernelCutoffs u w n uf wf pdf := by
    intro uf wf pdf
    unfold kernelCutoffsZ kernelCutoffs cutoffZ cutoff deltaForceZ deltaForce
    simp only [lit_natCast]
  unfold kernelZ kernel scaling
  simp only [hc, Int.natAbs_natCast]
  cases npMin ((rotated u w).map Prod.fst) <;> [rfl; skip]
  cases npMax ((rotated u w).map Prod.fst) <;> [rfl; skip]
  cases npMin ((rotated u w).map Prod.snd) <;> [rfl; skip]
  cases npMax ((rotated u w).map Prod.snd) <;> rfl

/-- **C257** On grids of at least 0 the signed model is `kernel` and `three_dimensional_kernel` (every float arithmetic, every
density estimate). -/
theorem C257_nonnegative (kde : List (F × F) → List F → List F → Py (List (List F))) (n : ℕ) :
    (∀ u w : List F, kernelZ kde u w (n : ℤ) = kernel kde u w n) ∧
    ∀ c : Arr F, threeDimensionalKernelZ kde c (n : ℤ) = threeDimensionalKernel kde c n := by
  refine ⟨fun u w => kernelZ_nat kde u w n, fun c => ?_⟩
  unfold threeDimensionalKernelZ threeDimensionalKernel
  simp only [kernelZ_nat]

end generic

private theorem pneg_div' (a b : Fl ℝ) : PyNum.neg a /. b = PyNum.neg (a /. b) := by
  cases b with
  | fin b =>
    by_cases h : b = 0
    · subst h
      cases a with
      | fin a => rw [pneg_fin, pdiv_fin', pdiv_fin', if_pos rfl, if_pos rfl, infSgn_neg]; rfl
      | nan => rfl
      | pinf => simp [neg_def, div_def, Fl.div, Fl.neg]
      | ninf => simp [neg_def, div_def, Fl.div, Fl.neg]
    · exact pneg_div_fin a h
  | nan => simp
  | pinf => cases a <;> simp [neg_def, div_def, Fl.div, Fl.neg]
  | ninf => cases a <;> simp [neg_def, div_def, Fl.div, Fl.neg]

private theorem lit_neg (g : ℤ) : (lit (((-g : ℤ)) : ℚ) : Fl ℝ) = PyNum.neg (lit (g : ℚ)) := by
  rw [lit_eq, lit_eq, pneg_fin]
  push_cast
  rfl

private theorem pabs_neg' (x : Fl ℝ) : PyNum.abs (PyNum.neg x) = PyNum.abs x := by
  cases x <;> simp [neg_def, Fl.neg, PyNum.abs, Fl.abs]

private theorem bcast_neg (a b : List (Fl ℝ)) : bcast (fun d q => d /. q) (a.map PyNum.neg) b =
    (bcast (fun d q => d /. q) a b).map (List.map PyNum.neg) := by
  have hz : ∀ a b : List (Fl ℝ), List.zipWith (fun d q => d /. q) (a.map PyNum.neg) b =
      (List.zipWith (fun d q => d /. q) a b).map PyNum.neg := by
    intro a b
    rw [List.zipWith_map_left, List.map_zipWith]
    simp only [pneg_div']
  have hm : ∀ (x : Fl ℝ) (b : List (Fl ℝ)), b.map (fun q => PyNum.neg x /. q) = (b.map (fun q => x /. q)).map PyNum.neg := by
    intro x b; rw [List.map_map]; simp only [pneg_div']; rfl
  have hr : ∀ (y : Fl ℝ) (a : List (Fl ℝ)), (a.map PyNum.neg).map (fun x => x /. y) = (a.map (fun x => x /. y)).map PyNum.neg := by
    intro y a; rw [List.map_map, List.map_map]
    apply List.map_congr_left
    intro x _; exact pneg_div' x y
  unfold bcast
  rw [List.length_map]
  split_ifs with h
  · exact congrArg Except.ok (hz a b)
  · rcases a with _ | ⟨x, _ | ⟨x', t⟩⟩
    · rcases b with _ | ⟨y, _ | ⟨y', s⟩⟩ <;> rfl
    · exact congrArg Except.ok (hm x b)
    · rcases b with _ | ⟨y, _ | ⟨y', s⟩⟩
      · rfl
      · exact congrArg Except.ok (hr y (x :: x' :: t))
      · rfl

private theorem getIdx_map {α β : Type} (f : α → β) (l : List α) (i : Int) : getIdx (l.map f) i = (getIdx l i).map f := by
  unfold getIdx
  rw [List.length_map]
  cases pyIdx l.length i with
  | none => rfl
  | some k =>
    simp only [List.getElem?_map]
    cases l[k]? <;> rfl

private theorem qualifies_neg (c1 c2 : Fl ℝ) (force delta : List (Fl ℝ)) (p i : Int) :
    qualifies c1 c2 force (delta.map PyNum.neg) p i = qualifies c1 c2 force delta p i := by
  unfold qualifies
  rw [getIdx_map]
  cases getIdx force i with
  | error e => rfl
  | ok a =>
    cases getIdx force p with
    | error e => rfl
    | ok b =>
      simp only [bind, Except.bind]
      split_ifs
      · cases getIdx delta i with
        | error e => rfl
        | ok d => simp only [Except.map, pabs_neg']
      · rfl

private theorem cutoffZ_neg (den vel : List (Fl ℝ)) (c1 c2 : Fl ℝ) (force : List (Fl ℝ)) (p g : Int) :
    cutoffZ den vel c1 c2 force p (-g) = cutoffZ den vel c1 c2 force p g := by
  have hd : deltaForceZ den force (-g) = (deltaForceZ den force g).map (List.map PyNum.neg) := by
    unfold deltaForceZ
    rw [← bcast_neg, List.map_map]
    congr 1
    apply List.map_congr_left
    intro d _
    rw [lit_neg]
    exact pmul_neg _ _
  unfold cutoffZ
  rw [hd]
  cases deltaForceZ den force g with
  | error e => rfl
  | ok delta =>
    have : qualifies c1 c2 force (delta.map PyNum.neg) p = qualifies c1 c2 force delta p := funext (qualifies_neg _ _ _ _ _)
    simp only [Except.map, bind, Except.bind, this]

private theorem kernelZ_neg (kde : List (Fl ℝ × Fl ℝ) → List (Fl ℝ) → List (Fl ℝ) → Py (List (List (Fl ℝ)))) (u w : List (Fl ℝ)) (g : Int) :
    kernelZ kde u w (-g) = kernelZ kde u w g := by
  unfold kernelZ kernelCutoffsZ
  simp only [Int.natAbs_neg, cutoffZ_neg]

/-- **C257** The sign of the grid is ignored: nothing rejects a negative grid, and `kernel` and `three_dimensional_kernel` return (or
raise) on `-g` what they do on `g`, for all samples (NaN and infinities included) and every density estimate. -/
theorem C257_sign (kde : List (Fl ℝ × Fl ℝ) → List (Fl ℝ) → List (Fl ℝ) → Py (List (List (Fl ℝ)))) (g : ℤ) :
    (∀ u w, kernelZ kde u w (-g) = kernelZ kde u w g) ∧
    ∀ c, threeDimensionalKernelZ kde c (-g) = threeDimensionalKernelZ kde c g := by
  refine ⟨fun u w => kernelZ_neg kde u w g, fun c => ?_⟩
  unfold threeDimensionalKernelZ
  simp only [kernelZ_neg]

/-- **C257** In particular a grid of `-g` with `g ≥ 2` succeeds on all finite samples that are not on one line. -/
theorem C257_negative_succeeds (us ws : List ℝ) (h : us.length = ws.length) (hn : 2 ≤ us.length)
    (hc : Spec.var us * Spec.var ws ≠ Spec.cov us ws ^ 2) (g : ℕ) (hg : 2 ≤ g) :
    ∃ r, kernelZ (kdeGrid chol2 g) (fins us) (fins ws) (-(g : ℤ)) = .ok r ∧
      kernel (kdeGrid chol2 g) (fins us) (fins ws : List (Fl ℝ)) g = .ok r := by
  obtain ⟨_, _, _, _, _, _, _, _, _, _, _, r, -, -, -, -, -, -, -, -, -, hr, -⟩ := C117_success us ws h hn hc g hg
  exact ⟨r, by rw [(C257_sign _ _).1, (C257_nonnegative _ _).1]; exact hr, hr⟩

/-- three samples not on one line, grid −64 -/
example : ∃ r, kernelZ (kdeGrid chol2 64) (fins [0, 1, (2 : ℝ)]) (fins [1, 0, 0]) (-64) = .ok r := by
  obtain ⟨r, h, -⟩ := C257_negative_succeeds [0, 1, 2] [1, 0, 0] rfl (by simp)
    (by norm_num [Spec.var, Spec.cmoment, Spec.cov, Spec.avg]) 64 (by norm_num)
  exact ⟨r, h⟩

end Proadv.Props
