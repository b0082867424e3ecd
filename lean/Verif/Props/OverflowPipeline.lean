import Verif.Props.OverflowSpherical
import Verif.Props.Pipeline

/-!
# Property C263: overflow in the example programs
-/

set_option linter.unusedSectionVars false
set_option exponentiation.threshold 2000

namespace Proadv.Props

open Proadv Descriptive Detect Spherical Pipeline Over

/-- Specification: `c` minus its computed mean -/
noncomputable def minusMean {O : OArith ℝ} (c : List (Ov O)) : List (Ov O) := c.map (fun x => x -. npMean c)

private theorem centred_minusMean {O : OArith ℝ} (c : List (Ov O)) (hc : c ≠ []) : centred c = .ok (minusMean c) := by
  unfold centred
  rw [meanOf_eq c hc]
  rfl

/-- **C263** phase-space.py stops in the first round and returns the data unchanged when, for each component minus its mean, the standard
deviations of the component and of both derivatives are infinities or NaN -/
theorem C263_phase_space (O : OArith ℝ) (h : Signs O) (v : Vel (Ov O))
    (hv : ∀ c ∈ [v.x, v.y, v.z], c ≠ [] ∧ ¬ Ov.IsNum (npStd (minusMean c)) ∧
      ¬ Ov.IsNum (npStd (calculateDerivatives ⟨1, false, minusMean c⟩).1) ∧
      ¬ Ov.IsNum (npStd (calculateDerivatives ⟨1, false, minusMean c⟩).2)) :
    phaseSpace v = .ok ⟨v, 0, true⟩ := by
  have key : ∀ c ∈ [v.x, v.y, v.z], phaseDet c = .ok [] := by
    intro c hc
    obtain ⟨h0, h1, h2, h3⟩ := hv c hc
    unfold phaseDet
    rw [centred_minusMean c h0]
    exact C260_phasespace O h false (minusMean c) (by unfold minusMean; simpa using h0) h1 h2 h3
  refine loop_quiet _ _ _ _ _ ?_
  rw [findPhase_eq]
  exact (union3_quiet _ _).mpr ⟨key _ (by simp), key _ (by simp), key _ (by simp)⟩

/-- **C263** phase-space-3d.py likewise, when for each component the sum of the products of centred samples and slopes is NaN -/
theorem C263_spherical (O : OArith ℝ) (h : Signs O) (v : Vel (Ov O))
    (hv : ∀ c ∈ [v.x, v.y, v.z], c ≠ [] ∧ ∃ dc dc2,
      npGradient ((minusMean c).map (fun x => PyNum.around (x -. npNanmean (minusMean c)) 4)) = .ok dc ∧ npGradient dc = .ok dc2 ∧
      PyNum.sum (List.zipWith (fun a b => a *. b) ((minusMean c).map (fun x => PyNum.around (x -. npNanmean (minusMean c)) 4)) dc) =
        (PyNum.nan : Ov O)) :
    phaseSpace3d v = .ok ⟨v, 0, true⟩ := by
  have key : ∀ c ∈ [v.x, v.y, v.z], sphDet c = .ok [] := by
    intro c hc
    obtain ⟨h0, dc, dc2, h1, h2, h3⟩ := hv c hc
    unfold sphDet
    rw [meanOf_eq c h0]
    exact C262_angle O h (minusMean c) 0 _ _ dc dc2 rfl h1 h2 h3
  refine loop_quiet _ _ _ _ _ ?_
  rw [findSpherical_eq]
  exact (union3_quiet _ _).mpr ⟨key _ (by simp), key _ (by simp), key _ (by simp)⟩

/-- **C263** correlation.py raises ValueError on components of the same length of at least 3 when the standard deviation of one of them,
centred twice (by the program and by `velocity_correlation`), is an infinity or NaN -/
theorem C263_correlation (O : OArith ℝ) (h : Signs O) (v : Vel (Ov O)) (h3 : 3 ≤ v.x.length) (hy : v.y.length = v.x.length)
    (hz : v.z.length = v.x.length) (hs : ∃ c ∈ [v.x, v.y, v.z], ¬ Ov.IsNum (npStd (minusMean (minusMean c)))) :
    correlationExample v = .error .valueError := by
  have nx : v.x ≠ [] := by rw [← List.length_pos_iff]; omega
  have ny : v.y ≠ [] := by rw [← List.length_pos_iff]; omega
  have nz : v.z ≠ [] := by rw [← List.length_pos_iff]; omega
  have hf : findCorrelation 0 v = .error .valueError := by
    unfold findCorrelation
    rw [centred_minusMean _ nx, centred_minusMean _ ny, centred_minusMean _ nz]
    have l : ∀ c : List (Ov O), (minusMean c).length = c.length := fun c => List.length_map _
    refine C260_correlation O h (minusMean v.x) (minusMean v.y) (minusMean v.z) (by rw [l]; exact h3) (by rw [l, l]; exact hy)
      (by rw [l, l]; exact hz) ?_
    obtain ⟨c, hc, hn⟩ := hs
    simp only [List.mem_cons, List.not_mem_nil, or_false] at hc
    rcases hc with rfl | rfl | rfl
    · exact Or.inl hn
    · exact Or.inr (Or.inl hn)
    · exact Or.inr (Or.inr hn)
  show (findCorrelation 0 v >>= _) = _
  rw [hf]
  rfl

private theorem below_none {O : OArith ℝ} {k s : Ov O} (hk : NN k) (h : Up s) (m x : Ov O) : (x <. (m -. k *. s)) = false := by
  have h2 : m -. k *. s = (Fl.ninf : Fl ℝ) ∨ m -. k *. s = (PyNum.nan : Ov O) := by
    rcases mul_up hk h with h1 | h1 <;> rw [h1] <;> cases m <;> first | exact Or.inl rfl | exact Or.inr rfl
  rcases h2 with h2 | h2 <;> rw [h2] <;> cases x <;> rfl

/-- **C263** acceleration.py stops in the first round and returns the data unchanged when the standard deviation of each component minus
its mean is an infinity or NaN -/
theorem C263_acceleration (O : OArith ℝ) (h : Signs O) (v : Vel (Ov O))
    (hv : ∀ c ∈ [v.x, v.y, v.z], c ≠ [] ∧ ¬ Ov.IsNum (npStd (minusMean c))) :
    accelerationExample v = .ok ⟨v, 0, true⟩ := by
  have key : ∀ c ∈ [v.x, v.y, v.z], accDet 2 c = .ok [] := by
    intro c hc
    obtain ⟨h0, hs⟩ := hv c hc
    unfold accDet
    rw [centred_minusMean c h0]
    show acceleration ⟨1, false, minusMean c⟩ _ 2 _ _ _ = _
    unfold acceleration
    rw [if_neg (by simp), if_neg (by decide), if_pos rfl, std_red false _ (by unfold minusMean; simpa using h0)]
    have hl : NN (lit 1 : Ov O) := by
      show NN (O := O) (Ov.squash O (Fl.fin ((1 : ℚ) : ℝ)))
      exact squash_nn h (by simp)
    have hw : whereTrue ((minusMean c).map (fun x => x <. (npMean (minusMean c) -. lit 1 *. npStd (minusMean c)))) = [] := by
      refine whereTrue_none _ _ (fun x _ => ?_)
      exact below_none hl (up_of_not (sqrt_nn h _) hs) _ _
    show Except.ok (intersect1d _ (whereTrue ((minusMean c).map (fun x => x <. (npMean (minusMean c) -. lit 1 *. npStd (minusMean c)))))) = _
    rw [hw]
    unfold intersect1d
    simp
    rfl
  exact (C143_clean v).2.2.1 ⟨key _ (by simp), key _ (by simp), key _ (by simp)⟩

/-- **C263** binary64 witness: the spike `2 ^ 603` in every component passes phase-space.py, phase-space-3d.py and acceleration.py unchanged and makes
correlation.py raise -/
theorem C263_binary64 (v : Vel (Ov bin64oR)) (hx : v.x = Ov.fins bin64oR [0, 0, 0, 0, 2 ^ 603, 0, 0, 0]) (hy : v.y = v.x) (hz : v.z = v.x) :
    phaseSpace v = .ok ⟨v, 0, true⟩ ∧ phaseSpace3d v = .ok ⟨v, 0, true⟩ ∧
    accelerationExample v = .ok ⟨v, 0, true⟩ ∧ correlationExample v = .error .valueError := by
  have el : Ov.fins bin64oR [0, 0, 0, 0, 2 ^ 603, 0, 0, 0] = bigs [0, 0, 0, 0, 8, 0, 0, 0] := by
    unfold bigs
    congr 1
    norm_num
  rw [el] at hx
  have hm : minusMean (bigs [0, 0, 0, 0, 8, 0, 0, 0]) = bigs [-1, -1, -1, -1, 7, -1, -1, -1] := by
    unfold minusMean
    rw [mean_big 0 0 0 0 8 0 0 0 1 (by norm_num) (by norm_num) (by norm_num) (by norm_num) (by norm_num) (by norm_num) (by norm_num)
      (by norm_num) (by norm_num)]
    unfold bigs
    simp only [List.map_cons, List.map_nil]
    rw [sub_big 0 1 (by norm_num), sub_big 8 1 (by norm_num)]
    norm_num
  have m0 : npMean (bigs [-1, -1, -1, -1, 7, -1, -1, -1]) = Ov.fin _ (((0 : ℤ) : ℝ) * 2 ^ 600) :=
    mean_big (-1) (-1) (-1) (-1) 7 (-1) (-1) (-1) 0 (by norm_num) (by norm_num) (by norm_num) (by norm_num) (by norm_num) (by norm_num)
      (by norm_num) (by norm_num) (by norm_num)
  have hm2 : minusMean (bigs [-1, -1, -1, -1, 7, -1, -1, -1]) = bigs [-1, -1, -1, -1, 7, -1, -1, -1] := by
    unfold minusMean
    rw [m0]
    unfold bigs
    simp only [List.map_cons, List.map_nil]
    rw [sub_big (-1) 0 (by norm_num), sub_big 7 0 (by norm_num)]
    norm_num
  have hr : (bigs [-1, -1, -1, -1, 7, -1, -1, -1]).map (fun x => PyNum.around (x -. npNanmean (bigs [-1, -1, -1, -1, 7, -1, -1, -1])) 4) =
      bigs [-1, -1, -1, -1, 7, -1, -1, -1] := by
    rw [show npNanmean (bigs [-1, -1, -1, -1, 7, -1, -1, -1]) = Ov.fin _ (((0 : ℤ) : ℝ) * 2 ^ 600) from m0]
    unfold bigs
    simp only [List.map_cons, List.map_nil]
    rw [sub_big (-1) 0 (by norm_num), sub_big 7 0 (by norm_num), around_big _ (by norm_num), around_big _ (by norm_num)]
    norm_num
  have hstd : ¬ Ov.IsNum (npStd (bigs [-1, -1, -1, -1, 7, -1, -1, -1])) := by
    refine std_big _ _ _ _ _ _ _ _ ?_ ?_
    · norm_num [Spec.var, Spec.cmoment, Spec.avg]
    · norm_num [Spec.avg]
  have d1 : centralDiff false (bigs [-1, -1, -1, -1, 7, -1, -1, -1]) = bigs [0, 0, 0, 4, 0, -4, 0, 0] := by
    apply centralDiff_big <;> norm_num
  have d2 : centralDiff false (bigs [0, 0, 0, 4, 0, -4, 0, 0]) = bigs [0, 0, 2, 0, -4, 0, 2, 0] := by
    apply centralDiff_big <;> norm_num
  have hc : ∀ c ∈ [v.x, v.y, v.z], c = bigs [0, 0, 0, 0, 8, 0, 0, 0] := by
    intro c hc
    simp only [List.mem_cons, List.not_mem_nil, or_false] at hc
    rcases hc with rfl | rfl | rfl
    · exact hx
    · rw [hy, hx]
    · rw [hz, hx]
  have hlen : v.x.length = 8 := by rw [hx]; simp [bigs]
  refine ⟨C263_phase_space _ bin64oR_signs v ?_, C263_spherical _ bin64oR_signs v ?_, C263_acceleration _ bin64oR_signs v ?_,
    C263_correlation _ bin64oR_signs v (by omega) (by rw [hy]) (by rw [hz]) ⟨v.x, by simp, ?_⟩⟩
  · intro c hc'
    rw [hc c hc', hm]
    refine ⟨by simp [bigs], hstd, ?_, ?_⟩
    · show ¬ Ov.IsNum (npStd (centralDiff false (bigs [-1, -1, -1, -1, 7, -1, -1, -1])))
      rw [d1]
      refine std_big _ _ _ _ _ _ _ _ ?_ ?_
      · norm_num [Spec.var, Spec.cmoment, Spec.avg]
      · norm_num [Spec.avg]
    · show ¬ Ov.IsNum (npStd (centralDiff false (centralDiff false (bigs [-1, -1, -1, -1, 7, -1, -1, -1]))))
      rw [d1, d2]
      refine std_big _ _ _ _ _ _ _ _ ?_ ?_
      · norm_num [Spec.var, Spec.cmoment, Spec.avg]
      · norm_num [Spec.avg]
  · intro c hc'
    rw [hc c hc', hm, hr]
    exact ⟨by simp [bigs], _, _, slope1, slope2, product_nan⟩
  · intro c hc'
    rw [hc c hc', hm]
    exact ⟨by simp [bigs], hstd⟩
  · rw [hx, hm, hm2]
    exact hstd

/-- the hypotheses of `C263_binary64` are met -/
example : ∃ v : Vel (Ov bin64oR), v.x = Ov.fins bin64oR [0, 0, 0, 0, 2 ^ 603, 0, 0, 0] ∧ v.y = v.x ∧ v.z = v.x :=
  ⟨⟨Ov.fins bin64oR [0, 0, 0, 0, 2 ^ 603, 0, 0, 0], Ov.fins bin64oR [0, 0, 0, 0, 2 ^ 603, 0, 0, 0],
    Ov.fins bin64oR [0, 0, 0, 0, 2 ^ 603, 0, 0, 0]⟩, rfl, rfl, rfl⟩

end Proadv.Props
