import Verif.Props.CorrelationRnd
import Verif.Props.Phase2
import Mathlib.Data.List.GetD

/-!
# Property C247: rounding and the decisions of `phasespace_thresholding` (phasespace.py)

The derivatives are rounded to four decimals, which is the only discontinuous step.  The half differences of the first derivative are
multiples of 0.00005, so every one of them is either already a multiple of 0.0001 or exactly half way between two.  In the second case
the smallest rounding error decides.
-/

set_option linter.unusedSectionVars false

namespace Proadv.Props

open Proadv Fl Detect Spread Descriptive Filter Topology

variable {𝓕 : Filter (Arith ℝ)} [Fine 𝓕]

theorem rint_of_near {z : ℝ} {m : ℤ} (h : |z - m| < 1 / 2) : rint z = m := by
  have h1 := abs_le.mp (abs_rint_sub z)
  have h2 := abs_lt.mp h
  have h3 : (rint z : ℝ) < m + 1 := by linarith
  have h4 : (m : ℝ) < rint z + 1 := by linarith
  have h5 : rint z < m + 1 := by exact_mod_cast h3
  have h6 : m < rint z + 1 := by exact_mod_cast h4
  omega

/-- Specification: `x` is not half way between two multiples of `10⁻⁴` -/
def NoTie (x : ℝ) : Prop := ∀ m : ℤ, x * 10 ^ 4 ≠ m + 1 / 2

private theorem around_lim {f : ∀ A : Arith ℝ, Rd A} {x : ℝ} (hf : Lim 𝓕 f x) (hx : NoTie x) :
    ∀ᶠ A in 𝓕, PyNum.around (f A) 4 = Rd.fin A (A.rnd (aroundK x 4)) := by
  obtain ⟨y, hy, hl⟩ := hf
  have hlt : |x * 10 ^ 4 - (rint (x * 10 ^ 4) : ℝ)| < 1 / 2 := by
    rcases (abs_rint_sub (x * 10 ^ 4)).lt_or_eq with h | h
    · rwa [abs_sub_comm]
    · exfalso
      rcases abs_eq (by norm_num : (0 : ℝ) ≤ 1 / 2) |>.mp h with h | h
      · apply hx (rint (x * 10 ^ 4) - 1)
        push_cast; linarith
      · apply hx (rint (x * 10 ^ 4))
        linarith
  have h1 : Tendsto (fun A => |A.rnd (y A * 10 ^ 4) - (rint (x * 10 ^ 4) : ℝ)|) 𝓕 (𝓝 |x * 10 ^ 4 - (rint (x * 10 ^ 4) : ℝ)|) :=
    ((tendsto_rnd (hl.mul_const _)).sub_const _).abs
  filter_upwards [hy, h1.eventually_lt_const hlt] with A e h2
  rw [e]
  show Rd.fin A (A.rnd ((rint (A.rnd (y A * (10 : ℝ) ^ (4 : ℤ))) : ℝ) / (10 : ℝ) ^ (4 : ℤ))) = _
  unfold aroundK
  have e4 : ((10 : ℝ) ^ (4 : ℤ)) = 10 ^ 4 := by norm_num
  rw [e4, rint_of_near h2]

/-- the derivatives tend to their exact values when no half difference is a tie -/
private theorem diff_lim {X : ∀ A : Arith ℝ, List (Rd A)} {xs : List ℝ} (hX : LimL 𝓕 X xs)
    (ht : ∀ i, 1 ≤ i → i + 1 < xs.length → NoTie ((xs.getD (i + 1) 0 - xs.getD (i - 1) 0) / 2)) :
    LimL 𝓕 (fun A => centralDiff false (X A)) (cdiff false xs) := by
  obtain ⟨fs, h1, h2⟩ := hX
  have hlen := h2.length_eq
  have hget : ∀ i (hi : i < fs.length), Lim 𝓕 fs[i] (xs.getD i 0) := by
    intro i hi
    have := h2.get (i := i) hi (by omega)
    rw [List.getD_eq_getElem _ _ (by omega)]
    exact this
  refine ⟨(List.range fs.length).map (fun i (A : Arith ℝ) =>
    if 1 ≤ i ∧ i + 1 < fs.length then
      PyNum.around ((fs.getD (i + 1) (fun A => (PyNum.nan : Rd A)) A -. fs.getD (i - 1) (fun A => (PyNum.nan : Rd A)) A) /. lit 2) 4
    else lit 0), ?_, ?_⟩
  · filter_upwards [h1] with A a
    rw [a]
    unfold centralDiff
    rw [List.length_map, List.map_map]
    apply List.map_congr_left
    intro i _
    simp only [Function.comp]
    split_ifs with hi
    · have e1 : (fs.map (fun f => f A)).getD (i + 1) PyNum.nan = fs.getD (i + 1) (fun A => (PyNum.nan : Rd A)) A := by
        rw [List.getD_eq_getElem _ _ (by simpa using hi.2), List.getD_eq_getElem _ _ hi.2]; simp
      have e2 : (fs.map (fun f => f A)).getD (i - 1) PyNum.nan = fs.getD (i - 1) (fun A => (PyNum.nan : Rd A)) A := by
        rw [List.getD_eq_getElem _ _ (by rw [List.length_map]; omega), List.getD_eq_getElem _ _ (by omega)]; simp
      rw [e1, e2]; rfl
    · rfl
  · unfold cdiff
    rw [hlen]
    rw [List.forall₂_map_left_iff, List.forall₂_map_right_iff, List.forall₂_same]
    intro i _
    rw [← hlen]
    by_cases hi : 1 ≤ i ∧ i + 1 < fs.length
    · simp only [hi, and_self, if_true]
      have l1 := hget (i + 1) hi.2
      have l2 := hget (i - 1) (by omega)
      have l3 := ((l1.sub l2).div (Lim.lit (𝓕 := 𝓕) 2) (by norm_num))
      have hnt := ht i hi.1 (by omega)
      push_cast at l3
      refine ⟨fun A => A.rnd (aroundK ((xs.getD (i + 1) 0 - xs.getD (i - 1) 0) / 2) 4), ?_, tendsto_rnd tendsto_const_nhds⟩
      filter_upwards [around_lim l3 hnt] with A a
      rw [List.getD_eq_getElem _ _ hi.2, List.getD_eq_getElem _ _ (by omega)]
      exact a
    · simp only [hi, if_false]
      exact Lim.zero

/-! ## The three planes -/

section
variable {F : Type} [PyMath F]

/-- the coefficients from the series and its two derivatives -/
def planeP (x d e : List F) : PhaseParams F :=
  phaseCoefs (npStd x) (npStd d) (npStd e) (lambdaOf x.length) (phaseAngle x e)

/-- what `phasespace_thresholding` returns -/
def planes (x d e : List F) : List ℕ :=
  uniqueNat (outside (List.zipWith (rhoAt (lit 0) (planeP x d e).a1 (planeP x d e).b1) x d) ++
    outside (List.zipWith (rhoAt (lit 0) (planeP x d e).a2 (planeP x d e).b2) d e) ++
    outside (List.zipWith (rhoAt (planeP x d e).theta (planeP x d e).a3 (planeP x d e).b3) x e))

theorem phase_planes (c : List F) (hc : c ≠ []) :
    phasespaceThresholding ⟨1, false, c⟩ = .ok (planes c (centralDiff false c) (centralDiff false (centralDiff false c))) :=
  phase_ok false c hc

end

/-- Specification: no decision about the series `xs` with the derivatives `ds`, `es` is a tie.  With `r₀, r₁, r₂` the expected maxima
`λσ` and `θ` the angle of the third plane: no standard deviation is zero, `θ` is not `±π/4`, the radicands of the third ellipse are
not zero, and no phase point lies on an ellipse. -/
structure PhaseClear (xs ds es : List ℝ) (r0 r1 r2 θ : ℝ) : Prop where
  v0 : 0 < Spec.var xs
  v1 : 0 < Spec.var ds
  v2 : 0 < Spec.var es
  e0 : r0 = √(2 * Real.log xs.length) * √(Spec.var xs)
  e1 : r1 = √(2 * Real.log xs.length) * √(Spec.var ds)
  e2 : r2 = √(2 * Real.log xs.length) * √(Spec.var es)
  et : θ = Real.arctan ((List.zipWith (fun x y => x * y) xs es).sum / (xs.map (fun x => x ^ 2)).sum)
  f : Real.cos θ ^ 2 - Real.sin θ ^ 2 ≠ 0
  n0 : r0 ^ 2 * Real.cos θ ^ 2 - r2 ^ 2 * Real.sin θ ^ 2 ≠ 0
  n2 : r2 ^ 2 * Real.cos θ ^ 2 - r0 ^ 2 * Real.sin θ ^ 2 ≠ 0
  p1 : ∀ r ∈ List.zipWith (fun x y => (x / r0) ^ 2 + (y / r1) ^ 2) xs ds, r ≠ 1
  p2 : ∀ r ∈ List.zipWith (fun x y => (x / r1) ^ 2 + (y / r2) ^ 2) ds es, r ≠ 1
  p3 : 0 < r0 ^ 2 * Real.cos θ ^ 2 - r2 ^ 2 * Real.sin θ ^ 2 → 0 < r2 ^ 2 * Real.cos θ ^ 2 - r0 ^ 2 * Real.sin θ ^ 2 →
    ∀ r ∈ List.zipWith (rhoR θ (phaseAxis r0 r2 θ) (phaseAxis r2 r0 θ)) xs es, r ≠ 1

private theorem outside_lim {X Y : ∀ A : Arith ℝ, List (Rd A)} {t a b : ∀ A : Arith ℝ, Rd A} {xs ys : List ℝ} {θ α β : ℝ}
    (hX : LimL 𝓕 X xs) (hY : LimL 𝓕 Y ys) (ht : Lim 𝓕 t θ) (ha : Lim 𝓕 a α) (hb : Lim 𝓕 b β) (h1 : α ≠ 0) (h2 : β ≠ 0)
    (hr : ∀ r ∈ List.zipWith (rhoR θ α β) xs ys, r ≠ 1) :
    ∀ᶠ A in 𝓕, outside (List.zipWith (rhoAt (t A) (a A) (b A)) (X A) (Y A)) =
      whereTrue ((List.zipWith (rhoR θ α β) xs ys).map (fun r => decide (1 < r))) := by
  have lR := hX.zipWith _ _ hY (fun x _ y _ f g hf hg => rho_lim ht ha hb hf hg h1 h2)
  have hd := lR.decide_map (fun A r => lit 1 <. r) (fun r => decide (1 < r)) (fun r hr' f hf => Lim.one.lt hf (hr r hr').symm)
  exact hd.mono (fun A k => congrArg whereTrue k)

/-- negative radicand: the third plane flags nothing -/
private theorem outside_nan {A : Arith ℝ} (t a b : Rd A) (x y : List (Rd A)) (h : a = Fl.nan ∨ b = Fl.nan) :
    outside (List.zipWith (rhoAt t a b) x y) = [] := by
  have key : ∀ u v : Rd A, rhoAt t a b u v = (Fl.nan : Fl ℝ) := by
    intro u v
    have hsq : ∀ z : Rd A, z = Fl.nan → z ^. 2 = (Fl.nan : Fl ℝ) := by rintro z rfl; rfl
    have hdiv : ∀ z : Rd A, z /. (Fl.nan : Fl ℝ) = (Fl.nan : Fl ℝ) := by
      intro z
      show Rd.round A (Fl.div z Fl.nan) = _
      cases z <;> rfl
    unfold rhoAt
    rcases h with rfl | rfl
    · rw [hsq _ (hdiv _)]; rfl
    · rw [hsq _ (hdiv (rotY t u v))]
      show Rd.round A (Fl.add _ Fl.nan) = _
      cases ((rotX t u v /. a) ^. 2 : Rd A) <;> rfl
  unfold outside
  have : (List.zipWith (rhoAt t a b) x y).map (fun r => (lit 1 : Rd A) <. r) =
      List.replicate (List.zipWith (rhoAt t a b) x y).length false := by
    rw [List.eq_replicate_iff]
    refine ⟨by simp, fun c hc => ?_⟩
    obtain ⟨r, hr, rfl⟩ := List.mem_map.mp hc
    rw [List.mem_iff_getElem?] at hr
    obtain ⟨i, hi⟩ := hr
    rw [List.getElem?_zipWith_eq_some] at hi
    obtain ⟨u, v, -, -, rfl⟩ := hi
    rw [key]; rfl
  rw [this]
  unfold whereTrue
  rw [List.filter_eq_nil_iff]
  intro i _
  rw [List.getD_eq_getElem?_getD, List.getElem?_replicate]
  split_ifs <;> simp

private theorem sqrt_nan {A : Arith ℝ} {x : ℝ} (h : x < 0) (z : Rd A) : (PyMath.sqrt (Rd.fin A x) /. z : Rd A) = (Fl.nan : Fl ℝ) := by
  have e : Fl.sqrtR (Fl.fin x) = Fl.nan := by simp [Fl.sqrtR, h]
  show Rd.round A (Fl.div (Rd.round A (Fl.sqrtR (Fl.fin x))) z) = _
  rw [e]
  cases z <;> rfl

private theorem rho_zero (a b : ℝ) : rhoR 0 a b = fun x y => (x / a) ^ 2 + (y / b) ^ 2 := by
  funext x y
  simp [rhoR]

private theorem planes_lim {X D E : ∀ A : Arith ℝ, List (Rd A)} {xs ds es : List ℝ} {r0 r1 r2 θ : ℝ} (hX : LimL 𝓕 X xs)
    (hD : LimL 𝓕 D ds) (hE : LimL 𝓕 E es) (hn : 2 ≤ xs.length) (hd : ds ≠ []) (he : es ≠ []) (h : PhaseClear xs ds es r0 r1 r2 θ) :
    ∃ R : List ℕ, ∀ᶠ A in 𝓕, planes (X A) (D A) (E A) = R := by
  obtain ⟨v0, v1, v2, e0, e1, e2, et, hf, n0, n2, p1, p2, p3⟩ := h
  have hx : xs ≠ [] := by rintro rfl; simp at hn
  have hL : 0 < √(2 * Real.log xs.length) := by
    have h1 : (1 : ℝ) < xs.length := by exact_mod_cast (by omega : 1 < xs.length)
    have := Real.log_pos h1
    exact Real.sqrt_pos.mpr (by linarith)
  have q0 : r0 ≠ 0 := by rw [e0]; exact (mul_pos hL (Real.sqrt_pos.mpr v0)).ne'
  have q1 : r1 ≠ 0 := by rw [e1]; exact (mul_pos hL (Real.sqrt_pos.mpr v1)).ne'
  have q2 : r2 ≠ 0 := by rw [e2]; exact (mul_pos hL (Real.sqrt_pos.mpr v2)).ne'
  have hq : (xs.map (fun x => x ^ 2)).sum ≠ 0 := by
    intro hz
    have hall : ∀ x ∈ xs, x = 0 := by
      intro x hx'
      have h1 := List.single_le_sum (l := xs.map (fun x => x ^ 2)) (by
        intro y hy; obtain ⟨z, -, rfl⟩ := List.mem_map.mp hy; positivity) (x ^ 2) (List.mem_map.mpr ⟨x, hx', rfl⟩)
      rw [hz] at h1
      exact pow_eq_zero_iff two_ne_zero |>.mp (le_antisymm h1 (sq_nonneg x))
    exact v0.ne' (Spec.var_eq_zero.mpr (fun x hx y hy => by rw [hall x hx, hall y hy]))
  have lL : Lim 𝓕 (fun A => (lambdaOf (X A).length : Rd A)) √(2 * Real.log xs.length) :=
    (lambda_lim xs.length hn).congr (by filter_upwards [hX.length] with A a; rw [a])
  have s0 := hX.std hx v0
  have s1 := hD.std hd v1
  have s2 := hE.std he v2
  have lT := angle_lim hX hE hq
  have lT' : Lim 𝓕 (fun A => phaseAngle (X A) (E A)) θ := by rw [et]; exact lT
  have lF := fact_lim lT'
  have a1 := lL.mul s0
  have b1 := lL.mul s1
  have b2 := lL.mul s2
  have nA := num_lim s0 s2 lT' lL
  have nB := num_lim s2 s0 lT' lL
  rw [← e0] at a1
  rw [← e1] at b1
  rw [← e2] at b2
  rw [← e0, ← e2] at nA nB
  have o1 := outside_lim hX hD Lim.zero a1 b1 q0 q1 (by
    rw [rho_zero]; exact p1)
  have o2 := outside_lim hD hE Lim.zero b1 b2 q1 q2 (by
    rw [rho_zero]; exact p2)
  have o3 : ∃ R3, ∀ᶠ A in 𝓕, outside (List.zipWith (rhoAt (planeP (X A) (D A) (E A)).theta (planeP (X A) (D A) (E A)).a3
      (planeP (X A) (D A) (E A)).b3) (X A) (E A)) = R3 := by
    have hnA : numA r0 r2 θ = r0 ^ 2 * Real.cos θ ^ 2 - r2 ^ 2 * Real.sin θ ^ 2 := rfl
    have hnB : numA r2 r0 θ = r2 ^ 2 * Real.cos θ ^ 2 - r0 ^ 2 * Real.sin θ ^ 2 := rfl
    rcases lt_or_gt_of_ne n0 with k | k
    · obtain ⟨y, hy, hl⟩ := nA
      refine ⟨[], ?_⟩
      filter_upwards [hy, hl.eventually_lt_const k] with A c1 c2
      apply outside_nan
      left
      show (PyMath.sqrt _ /. _ : Rd A) = _
      rw [c1]
      exact sqrt_nan c2 _
    rcases lt_or_gt_of_ne n2 with k' | k'
    · obtain ⟨y, hy, hl⟩ := nB
      refine ⟨[], ?_⟩
      filter_upwards [hy, hl.eventually_lt_const k'] with A c1 c2
      apply outside_nan
      right
      show (PyMath.sqrt _ /. _ : Rd A) = _
      rw [c1]
      exact sqrt_nan c2 _
    · have la := (nA.sqrt k).div lF hf
      have lb := (nB.sqrt k').div lF hf
      exact ⟨_, outside_lim hX hE lT' la lb (div_ne_zero (Real.sqrt_pos.mpr k).ne' hf) (div_ne_zero (Real.sqrt_pos.mpr k').ne' hf)
        (p3 k k')⟩
  obtain ⟨R3, o3⟩ := o3
  refine ⟨uniqueNat (whereTrue ((List.zipWith (rhoR 0 r0 r1) xs ds).map (fun r => decide (1 < r))) ++
    whereTrue ((List.zipWith (rhoR 0 r1 r2) ds es).map (fun r => decide (1 < r))) ++ R3), ?_⟩
  filter_upwards [o1, o2, o3] with A c1 c2 c3
  unfold planes
  rw [c3]
  exact congrArg₂ (fun a b => uniqueNat (a ++ b ++ R3)) c1 c2

/-- **C247** if no half difference of the recording or of its first derivative is a tie of the rounding to four decimals, and no
decision is a tie, then in every sufficiently accurate arithmetic `phasespace_thresholding` returns the same indices as in exact
arithmetic. -/
theorem C247_stable (xs : List ℝ) (hn : 2 ≤ xs.length) (r0 r1 r2 θ : ℝ)
    (h1 : ∀ i, 1 ≤ i → i + 1 < xs.length → NoTie ((xs.getD (i + 1) 0 - xs.getD (i - 1) 0) / 2))
    (h2 : ∀ i, 1 ≤ i → i + 1 < xs.length → NoTie (((cdiff false xs).getD (i + 1) 0 - (cdiff false xs).getD (i - 1) 0) / 2))
    (h : PhaseClear xs (cdiff false xs) (cdiff false (cdiff false xs)) r0 r1 r2 θ) :
    ∃ u0 : ℝ, 0 < u0 ∧ ∀ (A : Arith ℝ) (u : ℝ), Std A u → KeepsSign A → u ≤ u0 →
      phasespaceThresholding ⟨1, false, Rd.fins A xs⟩ = phasespaceThresholding (⟨1, false, fins xs⟩ : Arr (Fl ℝ)) := by
  have hx : xs ≠ [] := by rintro rfl; simp at hn
  have l1 := cdiff_length false xs
  have l2 := cdiff_length false (cdiff false xs)
  have hX := LimL.fins (𝓕 := fine) xs
  have hD := diff_lim hX h1
  have hE := diff_lim hD (by rw [l1]; exact h2)
  obtain ⟨R, hR⟩ := planes_lim hX hD hE hn (by rw [← List.length_pos_iff, l1]; omega)
    (by rw [← List.length_pos_iff, l2, l1]; omega) h
  have key : ∀ᶠ A in fine, phasespaceThresholding ⟨1, false, Rd.fins A xs⟩ = .ok R := by
    filter_upwards [hR] with A a
    rw [phase_planes _ (by simpa [Rd.fins] using hx), a]
  have hex := of_fine key
  have e : phasespaceThresholding (⟨1, false, fins xs⟩ : Arr (Fl ℝ)) = .ok R := by
    rw [← Rd.exact_math]
    exact hex
  rw [e]
  exact eventually_fine.mp key

private theorem log_four : Real.log ((4 : ℕ) : ℝ) = 2 * Real.log 2 := by
  rw [show ((4 : ℕ) : ℝ) = 2 ^ 2 by norm_num, Real.log_pow]; norm_num

private theorem ratio_gt (a v : ℝ) (ha : a ≠ 0) (hv : v = 3 / 16 * a ^ 2) :
    1 < (a / (√(2 * Real.log ((4 : ℕ) : ℝ)) * √v)) ^ 2 := by
  have h1 := Real.log_two_lt_d9
  have h2 := Real.log_two_gt_d9
  rw [div_pow, mul_pow, log_four, Real.sq_sqrt (by positivity), Real.sq_sqrt (by rw [hv]; positivity), hv]
  have hp : 0 < a ^ 2 := by positivity
  rw [lt_div_iff₀ (by positivity)]
  nlinarith

private theorem var_last (a : ℝ) : Spec.var [0, 0, 0, a] = 3 / 16 * a ^ 2 := by
  simp only [Spec.var, Spec.cmoment, Spec.avg, List.map_cons, List.map_nil, List.sum_cons, List.sum_nil, List.length_cons, List.length_nil]
  push_cast; ring

private theorem var_third (a : ℝ) : Spec.var [0, 0, a, 0] = 3 / 16 * a ^ 2 := by
  simp only [Spec.var, Spec.cmoment, Spec.avg, List.map_cons, List.map_nil, List.sum_cons, List.sum_nil, List.length_cons, List.length_nil]
  push_cast; ring

private theorem var_second (a : ℝ) : Spec.var [0, a, 0, 0] = 3 / 16 * a ^ 2 := by
  simp only [Spec.var, Spec.cmoment, Spec.avg, List.map_cons, List.map_nil, List.sum_cons, List.sum_nil, List.length_cons, List.length_nil]
  push_cast; ring

private theorem clear_spike (a b c : ℝ) (ha : a ≠ 0) (hb : b ≠ 0) (hc : c ≠ 0) :
    PhaseClear [0, 0, 0, a] [0, 0, b, 0] [0, c, 0, 0] (√(2 * Real.log ((4 : ℕ) : ℝ)) * √(Spec.var [0, 0, 0, a]))
      (√(2 * Real.log ((4 : ℕ) : ℝ)) * √(Spec.var [0, 0, b, 0])) (√(2 * Real.log ((4 : ℕ) : ℝ)) * √(Spec.var [0, c, 0, 0])) 0 := by
  have g0 := ratio_gt a _ ha (var_last a)
  have g1 := ratio_gt b _ hb (var_third b)
  have g2 := ratio_gt c _ hc (var_second c)
  refine ⟨by rw [var_last]; positivity, by rw [var_third]; positivity, by rw [var_second]; positivity, rfl, rfl, rfl, by simp,
    by norm_num, ?_, ?_, ?_, ?_, ?_⟩
  all_goals
    generalize √(2 * Real.log ((4 : ℕ) : ℝ)) * √(Spec.var [0, 0, 0, a]) = r0 at *
    generalize √(2 * Real.log ((4 : ℕ) : ℝ)) * √(Spec.var [0, 0, b, 0]) = r1 at *
    generalize √(2 * Real.log ((4 : ℕ) : ℝ)) * √(Spec.var [0, c, 0, 0]) = r2 at *
    have q0 : r0 ≠ 0 := by rintro rfl; norm_num at g0
    have q2 : r2 ≠ 0 := by rintro rfl; norm_num at g2
  · simpa using q0
  · simpa using q2
  · intro r hr
    simp only [List.zipWith_cons_cons, List.zipWith_nil_left, List.mem_cons, List.not_mem_nil, or_false, zero_div, ne_eq,
      OfNat.ofNat_ne_zero, not_false_eq_true, zero_pow, add_zero, zero_add] at hr
    rcases hr with rfl | rfl | rfl | rfl <;> first | exact g0.ne' | exact g1.ne' | exact g2.ne' | norm_num
  · intro r hr
    simp only [List.zipWith_cons_cons, List.zipWith_nil_left, List.mem_cons, List.not_mem_nil, or_false, zero_div, ne_eq,
      OfNat.ofNat_ne_zero, not_false_eq_true, zero_pow, add_zero, zero_add] at hr
    rcases hr with rfl | rfl | rfl | rfl <;> first | exact g0.ne' | exact g1.ne' | exact g2.ne' | norm_num
  · intro _ _ r hr
    have eA : (a / phaseAxis r0 r2 0) ^ 2 = (a / r0) ^ 2 := by
      unfold phaseAxis numA
      simp [div_pow, Real.sq_sqrt (sq_nonneg _)]
    have eC : (c / phaseAxis r2 r0 0) ^ 2 = (c / r2) ^ 2 := by
      unfold phaseAxis numA
      simp [div_pow, Real.sq_sqrt (sq_nonneg _)]
    rw [rho_zero] at hr
    simp only [List.zipWith_cons_cons, List.zipWith_nil_left, List.mem_cons, List.not_mem_nil, or_false, zero_div, ne_eq,
      OfNat.ofNat_ne_zero, not_false_eq_true, zero_pow, add_zero, zero_add] at hr
    rw [eA, eC] at hr
    rcases hr with rfl | rfl | rfl | rfl <;> first | exact g0.ne' | exact g1.ne' | exact g2.ne' | norm_num

private theorem around_int (x : ℝ) (m : ℤ) (h : x * 10 ^ 4 = m) : aroundK x 4 = x := by
  unfold aroundK
  have e4 : ((10 : ℝ) ^ (4 : ℤ)) = 10 ^ 4 := by norm_num
  rw [e4, h, rint_int, ← h]
  field_simp

/-- a recording that meets all hypotheses: 0, 0, 0, 0.0004 -/
example : ∃ u0 : ℝ, 0 < u0 ∧ ∀ (A : Arith ℝ) (u : ℝ), Std A u → KeepsSign A → u ≤ u0 →
    phasespaceThresholding ⟨1, false, Rd.fins A [0, 0, 0, 4 / 10 ^ 4]⟩ =
      phasespaceThresholding (⟨1, false, fins [0, 0, 0, 4 / 10 ^ 4]⟩ : Arr (Fl ℝ)) := by
  have a0 : aroundK (0 : ℝ) 4 = 0 := around_int 0 0 (by norm_num)
  have a1 : aroundK (1 / 10 ^ 4 : ℝ) 4 = 1 / 10 ^ 4 := around_int _ 1 (by norm_num)
  have a2 : aroundK (2 / 10 ^ 4 : ℝ) 4 = 2 / 10 ^ 4 := around_int _ 2 (by norm_num)
  have d1 : cdiff false [0, 0, 0, (4 / 10 ^ 4 : ℝ)] = [0, 0, 2 / 10 ^ 4, 0] := by
    rw [← a2]
    simp [cdiff, List.range_succ, storeK, a0]
    norm_num
  have d2 : cdiff false [0, 0, (2 / 10 ^ 4 : ℝ), 0] = [0, 1 / 10 ^ 4, 0, 0] := by
    rw [← a1]
    simp [cdiff, List.range_succ, storeK, a0]
    norm_num
  have nt : ∀ m : ℤ, NoTie (m / 10 ^ 4) := by
    intro m k h
    have h1 : (m : ℝ) * 2 = 2 * k + 1 := by linarith [show (m : ℝ) / 10 ^ 4 * 10 ^ 4 = m by ring]
    have h2 : m * 2 = 2 * k + 1 := by exact_mod_cast h1
    omega
  have nt0 : NoTie 0 := by have := nt 0; simpa using this
  apply C247_stable [0, 0, 0, 4 / 10 ^ 4] (by simp) _ _ _ _
  · intro i hi hj
    have : i < 3 := by simp at hj; omega
    interval_cases i
    · simpa using nt0
    · have e : ((4 / 10 ^ 4 : ℝ) - 0) / 2 = ((2 : ℤ) : ℝ) / 10 ^ 4 := by norm_num
      show NoTie (((4 / 10 ^ 4 : ℝ) - 0) / 2)
      rw [e]; exact nt 2
  · rw [d1]
    intro i hi hj
    have : i < 3 := by simp at hj; omega
    interval_cases i
    · have e : ((2 / 10 ^ 4 : ℝ) - 0) / 2 = ((1 : ℤ) : ℝ) / 10 ^ 4 := by norm_num
      show NoTie (((2 / 10 ^ 4 : ℝ) - 0) / 2)
      rw [e]; exact nt 1
    · simpa using nt0
  · rw [d1, d2]
    exact clear_spike _ _ _ (by norm_num) (by norm_num) (by norm_num)

/-! ## Ties of the second derivative -/

private theorem cdiff_getD (ys : List ℝ) (i : ℕ) (h1 : 1 ≤ i) (h2 : i + 1 < ys.length) :
    (cdiff false ys).getD i 0 = aroundK ((ys.getD (i + 1) 0 - ys.getD (i - 1) 0) / 2) 4 := by
  rw [List.getD_eq_getElem _ _ (by rw [cdiff_length]; omega)]
  simp only [cdiff, List.getElem_map, List.getElem_range]
  rw [if_pos ⟨h1, h2⟩]
  rfl

private theorem grid (xs : List ℝ) (i : ℕ) : ∃ k : ℤ, (cdiff false xs).getD i 0 = k / 10 ^ 4 := by
  by_cases hi : i < (cdiff false xs).length
  · by_cases h : 1 ≤ i ∧ i + 1 < xs.length
    · rw [cdiff_getD xs i h.1 h.2]
      exact ⟨rint (((xs.getD (i + 1) 0 - xs.getD (i - 1) 0) / 2) * (10 : ℝ) ^ (4 : ℤ)), by unfold aroundK; norm_num⟩
    · refine ⟨0, ?_⟩
      rw [List.getD_eq_getElem _ _ hi]
      simp only [cdiff, List.getElem_map, List.getElem_range]
      rw [if_neg h]; simp
  · rw [List.getD_eq_default _ _ (by omega)]
    exact ⟨0, by simp⟩

/-- **C247** in exact arithmetic the half difference `x` of the first derivative at an inner sample is a multiple of 0.00005; if the
multiple is even the second derivative is `x`, if it is odd `x` is half way between two multiples of 0.0001 and the second derivative
is 0.00005 above or below `x`. -/
theorem C247_ties (xs : List ℝ) (i : ℕ) (h1 : 1 ≤ i) (h2 : i + 1 < xs.length) :
    ∃ k : ℤ, ((cdiff false xs).getD (i + 1) 0 - (cdiff false xs).getD (i - 1) 0) / 2 = k / 20000 ∧
      (k % 2 = 0 → (cdiff false (cdiff false xs)).getD i 0 = k / 20000) ∧
      (k % 2 = 1 → |(cdiff false (cdiff false xs)).getD i 0 - k / 20000| = 1 / 20000) := by
  obtain ⟨p, hp⟩ := grid xs (i + 1)
  obtain ⟨q, hq⟩ := grid xs (i - 1)
  have hx : ((cdiff false xs).getD (i + 1) 0 - (cdiff false xs).getD (i - 1) 0) / 2 = ((p - q : ℤ) : ℝ) / 20000 := by
    rw [hp, hq]; push_cast; ring
  refine ⟨p - q, hx, ?_⟩
  have hd : (cdiff false (cdiff false xs)).getD i 0 = (rint (((p - q : ℤ) : ℝ) / 2) : ℝ) / 10 ^ 4 := by
    rw [cdiff_getD _ i h1 (by rw [cdiff_length]; exact h2)]
    rw [hx]
    unfold aroundK
    have e4 : ((10 : ℝ) ^ (4 : ℤ)) = 10 ^ 4 := by norm_num
    rw [e4, show ((p - q : ℤ) : ℝ) / 20000 * 10 ^ 4 = ((p - q : ℤ) : ℝ) / 2 by ring]
  rw [hd]
  generalize p - q = k
  constructor
  · intro hk
    obtain ⟨m, rfl⟩ : ∃ m, k = 2 * m := ⟨k / 2, by omega⟩
    rw [show ((2 * m : ℤ) : ℝ) / 2 = (m : ℤ) by push_cast; ring, rint_int]
    push_cast; ring
  · intro hk
    have h3 := abs_le.mp (abs_rint_sub ((k : ℝ) / 2))
    obtain ⟨m, rfl⟩ : ∃ m, k = 2 * m + 1 := ⟨k / 2, by omega⟩
    push_cast at h3 ⊢
    generalize rint ((2 * (m : ℝ) + 1) / 2) = z at *
    have h4 : (z : ℝ) < m + 2 := by linarith
    have h5 : (m : ℝ) - 1 < z := by linarith
    have h6 : z < m + 2 := by exact_mod_cast h4
    have h7 : m - 1 < z := by exact_mod_cast h5
    obtain rfl | rfl : z = m ∨ z = m + 1 := by omega
    · rw [show (z : ℝ) / 10 ^ 4 - (2 * z + 1) / 20000 = -(1 / 20000) by ring, abs_neg, abs_of_pos (by norm_num)]
    · push_cast
      rw [show ((m : ℝ) + 1) / 10 ^ 4 - (2 * m + 1) / 20000 = 1 / 20000 by ring, abs_of_pos (by norm_num)]

/-! ## A recording whose result depends on the rounding however small it is -/

/-- rounding that keeps integers and enlarges everything else by the factor `1 + u` -/
noncomputable def awayArith (u : ℝ) : Arith ℝ := ⟨fun x => if Int.fract x = 0 then x else (1 + u) * x, List.sum⟩

private theorem away_std (u : ℝ) (hu : 0 ≤ u) : Std (awayArith u) u where
  nonneg := hu
  rnd := by
    intro x
    show |(if Int.fract x = 0 then x else (1 + u) * x) - x| ≤ _
    split_ifs
    · simp; positivity
    · rw [show (1 + u) * x - x = u * x by ring, abs_mul, abs_of_nonneg hu]
  sum := by
    intro xs
    show |xs.sum - xs.sum| ≤ _
    rw [sub_self, abs_zero]
    have h9 : 1 ≤ (1 + u) ^ xs.length := one_le_pow₀ (by linarith)
    exact mul_nonneg (by linarith) (List.sum_nonneg (by
      intro y hy; obtain ⟨x, -, rfl⟩ := List.mem_map.mp hy; exact abs_nonneg x))

private theorem away_keeps (u : ℝ) (hu : 0 ≤ u) : KeepsSign (awayArith u) where
  rnd := by
    intro x hx
    show 0 ≤ (if Int.fract x = 0 then x else (1 + u) * x)
    split_ifs
    · exact hx
    · positivity
  sum := fun xs h => List.sum_nonneg h

/-- the arithmetics that are exact at 2, never round a positive number down, and round 0.0001 up -/
private def Up : Set (Arith ℝ) := {A | A.rnd 2 = 2 ∧ (∀ x, 0 ≤ x → x ≤ A.rnd x) ∧ 1 / 10 ^ 4 < A.rnd (1 / 10 ^ 4)}

private theorem away_up (u : ℝ) (hu : 0 < u) : awayArith u ∈ Up := by
  refine ⟨?_, ?_, ?_⟩
  · show (if Int.fract (2 : ℝ) = 0 then (2 : ℝ) else (1 + u) * 2) = 2
    rw [if_pos (by norm_num)]
  · intro x hx
    show x ≤ (if Int.fract x = 0 then x else (1 + u) * x)
    split_ifs
    · exact le_rfl
    · nlinarith
  · show (1 / 10 ^ 4 : ℝ) < (if Int.fract (1 / 10 ^ 4 : ℝ) = 0 then (1 / 10 ^ 4 : ℝ) else (1 + u) * (1 / 10 ^ 4))
    rw [if_neg]
    · nlinarith
    · rw [Int.fract_eq_self.mpr ⟨by norm_num, by norm_num⟩]; norm_num

private instance : Fine (fine ⊓ 𝓟 Up) := ⟨inf_le_left⟩

private theorem diff_four {F : Type} [PyMath F] (a b c d : F) :
    centralDiff false [a, b, c, d] = [lit 0, PyNum.around ((c -. a) /. lit 2) 4, PyNum.around ((d -. b) /. lit 2) 4, lit 0] := rfl

private theorem two_lim : Lim 𝓕 (fun A => (lit 2 : Rd A)) 2 := by
  have := Lim.lit (𝓕 := 𝓕) 2
  rwa [show ((2 : ℚ) : ℝ) = 2 by norm_num] at this

private theorem of_eventually {f : ∀ A : Arith ℝ, Rd A} {x : ℝ} (h : ∀ᶠ A in 𝓕, f A = Rd.fin A (A.rnd x)) : Lim 𝓕 f x :=
  ⟨fun A => A.rnd x, h, tendsto_rnd tendsto_const_nhds⟩

private theorem noTie_int (x : ℝ) (m : ℤ) (h : x * 10 ^ 4 = m) : NoTie x := by
  intro k h'
  rw [h] at h'
  have h1 : (m : ℝ) * 2 = 2 * k + 1 := by linarith
  have h2 : m * 2 = 2 * k + 1 := by exact_mod_cast h1
  omega

/-- half of 0.0001 is rounded up -/
private theorem tie_up {f : ∀ A : Arith ℝ, Rd A} (hf : ∀ᶠ A in fine ⊓ 𝓟 Up, f A = Rd.fin A (A.rnd (1 / 10 ^ 4))) :
    ∀ᶠ A in fine ⊓ 𝓟 Up, PyNum.around ((f A -. lit 0) /. lit 2 : Rd A) 4 = Rd.fin A (A.rnd (1 / 10 ^ 4)) := by
  have l1 : Lim (fine ⊓ 𝓟 Up) (fun A => (f A -. lit 0) /. lit 2) ((1 / 10 ^ 4 - 0) / 2) :=
    ((of_eventually hf).sub Lim.zero).div two_lim (by norm_num)
  obtain ⟨y, hy, hl⟩ := l1
  have hup : ∀ᶠ A in fine ⊓ 𝓟 Up, A ∈ Up := eventually_inf_principal.mpr (Eventually.of_forall fun _ h => h)
  filter_upwards [hf, hy, (tendsto_rnd (hl.mul_const (10 ^ 4))).eventually_lt_const (show ((1 : ℝ) / 10 ^ 4 - 0) / 2 * 10 ^ 4 < 1 by norm_num), hup,
    fine_std (fine ⊓ 𝓟 Up) one_pos] with A c1 c2 c3 c4 ⟨u, c5, _⟩
  obtain ⟨k1, k2, k3⟩ := c4
  rw [c2]
  have e0 : (lit 0 : Rd A) = Rd.fin A 0 := by
    show Rd.fin A (A.rnd ((0 : ℚ) : ℝ)) = _
    rw [Rat.cast_zero, c5.rnd_zero]
  have e2 : (lit 2 : Rd A) = Rd.fin A 2 := by
    show Rd.fin A (A.rnd ((2 : ℚ) : ℝ)) = _
    rw [show ((2 : ℚ) : ℝ) = 2 by norm_num, k1]
  rw [c1, e0, e2, Rd.sub_fin, Rd.div_fin A two_ne_zero, sub_zero] at c2
  have c6 : A.rnd (A.rnd (A.rnd (1 / 10 ^ 4)) / 2) = y A := by
    have : (Fl.fin (A.rnd (A.rnd (A.rnd (1 / 10 ^ 4)) / 2)) : Fl ℝ) = Fl.fin (y A) := c2
    injection this
  have p0 : (0 : ℝ) ≤ A.rnd (1 / 10 ^ 4) := by have : (0 : ℝ) < 1 / 10 ^ 4 := by norm_num
                                               linarith
  have p1 := k2 _ p0
  have p2 := k2 (A.rnd (A.rnd (1 / 10 ^ 4)) / 2) (by linarith)
  have c7 : 1 / 20000 < y A := by
    rw [← c6]
    have : (1 : ℝ) / 10 ^ 4 = 2 * (1 / 20000) := by norm_num
    linarith
  show Rd.fin A (A.rnd ((rint (A.rnd (y A * (10 : ℝ) ^ (4 : ℤ))) : ℝ) / (10 : ℝ) ^ (4 : ℤ))) = _
  have e4 : ((10 : ℝ) ^ (4 : ℤ)) = 10 ^ 4 := by norm_num
  have p3 := k2 (y A * 10 ^ 4) (by positivity)
  have p4 : |A.rnd (y A * 10 ^ 4) - ((1 : ℤ) : ℝ)| < 1 / 2 := by
    have p5 : (1 : ℝ) / 20000 * 10 ^ 4 < y A * 10 ^ 4 := mul_lt_mul_of_pos_right c7 (by norm_num)
    have p6 := lt_of_lt_of_le p5 p3
    rw [Int.cast_one, abs_lt]
    generalize A.rnd (y A * 10 ^ 4) = r at c3 p6 ⊢
    constructor
    · norm_num at p6
      linarith only [p6]
    · linarith only [c3]
  rw [e4, rint_of_near p4, Int.cast_one]

/-- **C247** the recording 0, 0, 0, 0.0002: exact arithmetic does not return the second sample, but there are arithmetics with
arbitrarily small rounding errors that do. -/
theorem C247_unstable :
    (∃ r, phasespaceThresholding (⟨1, false, fins [0, 0, 0, 2 / 10 ^ 4]⟩ : Arr (Fl ℝ)) = .ok r ∧ 1 ∉ r) ∧
    ∀ u0 : ℝ, 0 < u0 → ∃ (A : Arith ℝ) (u : ℝ) (r : List ℕ), Std A u ∧ KeepsSign A ∧ u ≤ u0 ∧
      phasespaceThresholding ⟨1, false, Rd.fins A [0, 0, 0, 2 / 10 ^ 4]⟩ = .ok r ∧ 1 ∈ r := by
  have a0 : aroundK (0 : ℝ) 4 = 0 := around_int 0 0 (by norm_num)
  have a1 : aroundK (1 / 10 ^ 4 : ℝ) 4 = 1 / 10 ^ 4 := around_int _ 1 (by norm_num)
  constructor
  · have ht : aroundK (1 / 10 ^ 4 / 2 : ℝ) 4 = 0 := by
      have : rint (1 / 10 ^ 4 / 2 * 10 ^ (4 : ℤ) : ℝ) = 0 := by
        rw [show (1 / 10 ^ 4 / 2 * 10 ^ (4 : ℤ) : ℝ) = 1 / 2 by norm_num]
        have hfl : ⌊(1 / 2 : ℝ)⌋ = 0 := by norm_num
        unfold rint
        rw [hfl]
        norm_num
      unfold aroundK
      rw [this]; norm_num
    have d1 : cdiff false [0, 0, 0, (2 / 10 ^ 4 : ℝ)] = [0, 0, 1 / 10 ^ 4, 0] := by
      rw [← a1]
      simp [cdiff, List.range_succ, storeK, a0]
      norm_num
    have d2 : cdiff false [0, 0, (1 / 10 ^ 4 : ℝ), 0] = [0, 0, 0, 0] := by
      have ht' : aroundK ((1 / 10 ^ 4 - 0) / 2 : ℝ) 4 = 0 := by rw [sub_zero, ht]
      have hz : aroundK ((0 - 0) / 2 : ℝ) 4 = 0 := by rw [sub_zero, zero_div, a0]
      show [0, aroundK ((1 / 10 ^ 4 - 0) / 2 : ℝ) 4, aroundK ((0 - 0) / 2 : ℝ) 4, 0] = _
      rw [ht', hz]
    have hne : (fins [0, 0, 0, 2 / 10 ^ 4] : List (Fl ℝ)) ≠ [] := by simp
    obtain ⟨r, hr⟩ := (C64_errors (⟨1, false, fins [0, 0, 0, 2 / 10 ^ 4]⟩ : Arr (Fl ℝ))).1.mpr ⟨rfl, hne⟩
    refine ⟨r, hr, fun hm => ?_⟩
    obtain ⟨x, y, z, hx, hy, hz, ho⟩ := ((C64_char false _ r hr).2 1).mp hm
    rw [show centralDiff false (fins [0, 0, 0, 2 / 10 ^ 4] : List (Fl ℝ)) = fins (cdiff false [0, 0, 0, 2 / 10 ^ 4]) from
      centralDiff_fins false _, d1] at hy hz
    rw [show centralDiff false (fins [0, 0, 1 / 10 ^ 4, 0] : List (Fl ℝ)) = fins (cdiff false [0, 0, 1 / 10 ^ 4, 0]) from
      centralDiff_fins false _, d2] at hz
    simp at hx hy hz
    subst hx; subst hy; subst hz
    rcases ho with ho | ho | ho <;> rw [origin_inside] at ho <;> exact Bool.noConfusion ho
  · intro u0 hu0
    set x3 : ℝ := 2 / 10 ^ 4 with hx3
    have hX := LimL.fins (𝓕 := fine ⊓ 𝓟 Up) [0, 0, 0, x3]
    -- first derivative
    have lD1 : ∀ᶠ A in fine ⊓ 𝓟 Up, PyNum.around ((Rd.fin A 0 -. Rd.fin A 0) /. lit 2 : Rd A) 4 = Rd.fin A (A.rnd 0) := by
      have := around_lim (((Lim.const (𝓕 := fine ⊓ 𝓟 Up) 0).sub (Lim.const 0)).div two_lim two_ne_zero)
        (noTie_int _ 0 (by norm_num))
      rwa [show ((0 : ℝ) - 0) / 2 = 0 by norm_num, a0] at this
    have lD2 : ∀ᶠ A in fine ⊓ 𝓟 Up, PyNum.around ((Rd.fin A x3 -. Rd.fin A 0) /. lit 2 : Rd A) 4 = Rd.fin A (A.rnd (1 / 10 ^ 4)) := by
      have := around_lim (((Lim.const (𝓕 := fine ⊓ 𝓟 Up) x3).sub (Lim.const 0)).div two_lim two_ne_zero)
        (noTie_int _ 1 (by rw [hx3]; norm_num))
      rwa [show (x3 - 0) / 2 = 1 / 10 ^ 4 by rw [hx3]; norm_num, a1] at this
    have hD : LimL (fine ⊓ 𝓟 Up) (fun A => centralDiff false (Rd.fins A [0, 0, 0, x3])) [0, 0, 1 / 10 ^ 4, 0] :=
      ⟨[fun A => lit 0, fun A => PyNum.around ((Rd.fin A 0 -. Rd.fin A 0) /. lit 2 : Rd A) 4,
        fun A => PyNum.around ((Rd.fin A x3 -. Rd.fin A 0) /. lit 2 : Rd A) 4, fun A => lit 0],
        Eventually.of_forall fun A => rfl, .cons Lim.zero (.cons (of_eventually lD1) (.cons (of_eventually lD2) (.cons Lim.zero .nil)))⟩
    -- second derivative
    have lE1 := tie_up lD2
    have lE2 := around_lim (((Lim.zero (𝓕 := fine ⊓ 𝓟 Up)).sub (of_eventually lD1)).div two_lim two_ne_zero)
      (noTie_int _ 0 (by norm_num))
    rw [show ((0 : ℝ) - 0) / 2 = 0 by norm_num, a0] at lE2
    have hE : LimL (fine ⊓ 𝓟 Up) (fun A => centralDiff false (centralDiff false (Rd.fins A [0, 0, 0, x3]))) [0, 1 / 10 ^ 4, 0, 0] :=
      ⟨[fun A => lit 0, _, _, fun A => lit 0],
        Eventually.of_forall fun A => rfl, .cons Lim.zero (.cons (of_eventually lE1) (.cons (of_eventually lE2) (.cons Lim.zero .nil)))⟩
    have s1 := hD.std (by simp) (by rw [var_third]; norm_num)
    have s2 := hE.std (by simp) (by rw [var_second]; norm_num)
    have lL := lambda_lim (𝓕 := fine ⊓ 𝓟 Up) 4 (by norm_num)
    have g1 := ratio_gt (1 / 10 ^ 4) _ (by norm_num) (var_third _)
    have g2 := ratio_gt (1 / 10 ^ 4) _ (by norm_num) (var_second _)
    have q1 : √(2 * Real.log ((4 : ℕ) : ℝ)) * √(Spec.var [0, 0, (1 / 10 ^ 4 : ℝ), 0]) ≠ 0 := by
      intro h; rw [h] at g1; norm_num at g1
    have q2 : √(2 * Real.log ((4 : ℕ) : ℝ)) * √(Spec.var [0, (1 / 10 ^ 4 : ℝ), 0, 0]) ≠ 0 := by
      intro h; rw [h] at g2; norm_num at g2
    have lr := rho_lim Lim.zero (lL.mul s1) (lL.mul s2) (of_eventually lD1) (of_eventually lE1) q1 q2
    rw [rho_zero] at lr
    beta_reduce at lr
    rw [zero_div, zero_pow two_ne_zero, zero_add] at lr
    have fin := Lim.one.lt lr g2.ne
    rw [eventually_inf_principal] at fin
    obtain ⟨u1, hu1, h⟩ := eventually_fine.mp fin
    have hu : 0 < min u0 u1 := lt_min hu0 hu1
    have hk := h (awayArith (min u0 u1)) _ (away_std _ hu.le) (away_keeps _ hu.le) (min_le_right _ _) (away_up _ hu)
    rw [decide_eq_true g2] at hk
    obtain ⟨r, hr⟩ := (C64_errors (⟨1, false, Rd.fins (awayArith (min u0 u1)) [0, 0, 0, x3]⟩ : Arr (Rd (awayArith (min u0 u1))))).1.mpr
      ⟨rfl, by simp [Rd.fins]⟩
    refine ⟨awayArith (min u0 u1), min u0 u1, r, away_std _ hu.le, away_keeps _ hu.le, min_le_left _ _, hr,
      ((C64_char false _ r hr).2 1).mpr ⟨_, _, _, rfl, rfl, rfl, Or.inr (Or.inl hk)⟩⟩

end Proadv.Props
