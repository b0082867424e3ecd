import Verif.Props.Cutoff
import Verif.Props.Phase2
import Verif.Spec.Cov
import Verif.Lemmas.Descriptive
import Mathlib.Tactic.LinearCombination
import Mathlib.Analysis.SpecialFunctions.Complex.Arg

/-!
# Properties C59, C80, C81, C82: `filtration/detection/trivariatekernel.py`
-/

set_option linter.unusedSectionVars false

namespace Proadv.Props

open Proadv Fl KernelDetect Spread Detect

/-! ## C80: rotation -/

theorem zipWith_induction {α β : Type} {P : List α → List β → Prop} (h0 : P [] [])
    (hc : ∀ a as b bs, as.length = bs.length → P as bs → P (a :: as) (b :: bs)) :
    ∀ (x : List α) (y : List β), x.length = y.length → P x y
  | [], [], _ => h0
  | a :: as, b :: bs, h => by
    have h' : as.length = bs.length := by simpa using h
    exact hc a as b bs h' (zipWith_induction h0 hc as bs h')
  | [], _ :: _, h => by simp at h
  | _ :: _, [], h => by simp at h

theorem dot_sub_const (x y : List ℝ) (h : x.length = y.length) (a b : ℝ) :
    Spec.dot (x.map (fun v => v - a)) (y.map (fun v => v - b)) =
      Spec.dot x y - b * x.sum - a * y.sum + x.length * (a * b) := by
  revert h
  refine fun h => zipWith_induction (P := fun x y => Spec.dot (x.map (fun v => v - a)) (y.map (fun v => v - b)) =
      Spec.dot x y - b * x.sum - a * y.sum + x.length * (a * b)) ?_ ?_ x y h
  · simp [Spec.dot]
  · intro u us v vs _ ih
    simp only [Spec.dot, List.map_cons, List.zipWith_cons_cons, List.sum_cons, List.length_cons] at ih ⊢
    rw [ih]; push_cast; ring

/-- `n Σxy − Σx Σy = n² cov(x, y)` -/
theorem scatter_eq (x y : List ℝ) (h : x.length = y.length) (hne : x ≠ []) :
    (x.length : ℝ) * Spec.dot x y - x.sum * y.sum = (x.length : ℝ) ^ 2 * Spec.cov x y := by
  have h1 := Spec.dot_dev x y h hne
  have hn := Spec.length_ne hne
  rw [show Spec.dev x = x.map (fun v => v - Spec.avg x) from rfl,
    show Spec.dev y = y.map (fun v => v - Spec.avg y) from rfl, dot_sub_const x y h] at h1
  have : (x.length : ℝ) ^ 2 * Spec.cov x y = x.length * (x.length * Spec.cov x y) := by ring
  rw [this, ← h1]
  unfold Spec.avg
  rw [← h]
  field_simp
  ring

/-- **C80** the angle is the argument of `(var u, cov(u, w))` in the plane. -/
theorem C80_angle (us ws : List ℝ) (h : us.length = ws.length) (hne : us ≠ []) :
    rotation (fins us) (fins ws) = (fin (Complex.arg ⟨Spec.var us, Spec.cov us ws⟩) : Fl ℝ) := by
  have hn : (0 : ℝ) < us.length := Spec.length_pos' hne
  unfold rotation
  have e1 : List.zipWith (fun x y : Fl ℝ => x *. y) (fins us) (fins ws) =
      fins (List.zipWith (fun x y => x * y) us ws) := by
    unfold fins
    rw [List.zipWith_map, List.map_zipWith]
    simp only [pmul_fin]
  have e2 : (fins us).map (fun x : Fl ℝ => x *. x) = fins (List.zipWith (fun x y => x * y) us us) := by
    unfold fins
    rw [List.zipWith_self, List.map_map, List.map_map]
    simp [Function.comp_def]
  rw [e1, e2]
  rw [show PyNum.sum (fins (List.zipWith (fun x y => x * y) us ws)) = (fin _ : Fl ℝ) from psum_fin _,
    show PyNum.sum (fins (List.zipWith (fun x y => x * y) us us)) = (fin _ : Fl ℝ) from psum_fin _,
    show PyNum.sum (fins us) = (fin _ : Fl ℝ) from psum_fin _,
    show PyNum.sum (fins ws) = (fin _ : Fl ℝ) from psum_fin _,
    show (fins us : List (Fl ℝ)).length = us.length by simp]
  rw [ofNat_eq]
  simp only [pmul_fin, psub_fin, parctan2_fin]
  congr 1
  have s1 := scatter_eq us ws h hne
  have s2 := scatter_eq us us rfl hne
  rw [Spec.cov_self] at s2
  unfold Spec.dot at s1 s2
  rw [s1, s2]
  have : (⟨(us.length : ℝ) ^ 2 * Spec.var us, (us.length : ℝ) ^ 2 * Spec.cov us ws⟩ : ℂ) =
      (((us.length : ℝ) ^ 2 : ℝ) : ℂ) * ⟨Spec.var us, Spec.cov us ws⟩ := by
    apply Complex.ext
    · rw [Complex.re_ofReal_mul]
    · rw [Complex.im_ofReal_mul]
  rw [this, Complex.arg_real_mul _ (by positivity)]

theorem var_nonneg' (us : List ℝ) : 0 ≤ Spec.var us := by
  unfold Spec.var Spec.cmoment Spec.avg
  apply div_nonneg _ (by positivity)
  apply List.sum_nonneg
  intro x hx
  obtain ⟨y, _, rfl⟩ := List.mem_map.mp hx
  positivity

/-- **C80** the angle lies in `[-π/2, π/2]`, and its tangent is the slope `cov / var`. -/
theorem C80_range (us ws : List ℝ) (h : us.length = ws.length) (hne : us ≠ []) :
    ∃ t : ℝ, rotation (fins us) (fins ws) = (fin t : Fl ℝ) ∧ |t| ≤ Real.pi / 2 ∧
      Real.tan t = Spec.cov us ws / Spec.var us ∧ (Spec.cov us ws = 0 → t = 0) := by
  refine ⟨_, C80_angle us ws h hne, ?_, ?_, ?_⟩
  · rw [Complex.abs_arg_le_pi_div_two_iff]; exact var_nonneg' us
  · rw [Complex.tan_arg]
  · intro h0
    rw [h0]
    exact Complex.arg_ofReal_of_nonneg (var_nonneg' us)

theorem sum_sq_residual (x y : List ℝ) (h : x.length = y.length) (b m : ℝ) :
    (List.zipWith (fun u w => (w - b * u + m) ^ 2) x y).sum =
      Spec.dot y y - 2 * b * Spec.dot x y + b ^ 2 * Spec.dot x x + 2 * m * (y.sum - b * x.sum) + x.length * m ^ 2 := by
  refine zipWith_induction (P := fun x y => (List.zipWith (fun u w => (w - b * u + m) ^ 2) x y).sum =
      Spec.dot y y - 2 * b * Spec.dot x y + b ^ 2 * Spec.dot x x + 2 * m * (y.sum - b * x.sum) + x.length * m ^ 2)
    ?_ ?_ x y h
  · simp [Spec.dot]
  · intro u us v vs _ ih
    simp only [Spec.dot, List.zipWith_cons_cons, List.sum_cons, List.length_cons] at ih ⊢
    rw [ih]; push_cast; ring

/-- **C80** `cov / var` is the least-squares slope: no line `w = a + b·u` has a smaller sum of squared residuals. -/
theorem C80_least_squares (us ws : List ℝ) (h : us.length = ws.length) (hv : Spec.var us ≠ 0) (a b : ℝ) :
    (List.zipWith (fun u w => (w - (Spec.avg ws + Spec.cov us ws / Spec.var us * (u - Spec.avg us))) ^ 2) us ws).sum ≤
      (List.zipWith (fun u w => (w - (a + b * u)) ^ 2) us ws).sum := by
  have hne : us ≠ [] := by rintro rfl; simp [Spec.var, Spec.cmoment, Spec.avg] at hv
  have hn : (0 : ℝ) < us.length := Spec.length_pos' hne
  have hvp : 0 < Spec.var us := lt_of_le_of_ne (var_nonneg' us) (Ne.symm hv)
  set s := Spec.cov us ws / Spec.var us with hs
  have f1 : (fun u w : ℝ => (w - (Spec.avg ws + s * (u - Spec.avg us))) ^ 2) =
      fun u w => (w - s * u + (s * Spec.avg us - Spec.avg ws)) ^ 2 := by funext u w; ring
  have f2 : (fun u w : ℝ => (w - (a + b * u)) ^ 2) = fun u w => (w - b * u + (-a)) ^ 2 := by funext u w; ring
  rw [f1, f2, sum_sq_residual _ _ h, sum_sq_residual _ _ h]
  have s1 := scatter_eq us ws h hne
  have s2 := scatter_eq us us rfl hne
  rw [Spec.cov_self] at s2
  have hc : Spec.cov us ws = s * Spec.var us := by rw [hs]; field_simp
  have e1 : us.sum = us.length * Spec.avg us := by unfold Spec.avg; field_simp
  have e2 : ws.sum = us.length * Spec.avg ws := by unfold Spec.avg; rw [← h]; field_simp
  rw [hc] at s1
  have d1 : Spec.dot us ws = us.length * (s * Spec.var us) + us.length * Spec.avg us * Spec.avg ws := by
    have := s1; rw [e1, e2] at this
    have h2 : (us.length : ℝ) * Spec.dot us ws = us.length * (us.length * (s * Spec.var us) +
      us.length * Spec.avg us * Spec.avg ws) := by linear_combination this
    exact mul_left_cancel₀ hn.ne' h2
  have d2 : Spec.dot us us = us.length * Spec.var us + us.length * Spec.avg us * Spec.avg us := by
    have := s2; rw [e1] at this
    have h2 : (us.length : ℝ) * Spec.dot us us = us.length * (us.length * Spec.var us +
      us.length * Spec.avg us * Spec.avg us) := by linear_combination this
    exact mul_left_cancel₀ hn.ne' h2
  rw [d1, d2, e1, e2]
  have key : 0 ≤ (us.length : ℝ) * ((b - s) ^ 2 * Spec.var us + (Spec.avg ws - a - b * Spec.avg us) ^ 2) := by positivity
  nlinarith [key]

/-- **C80** offsets of either component do not change the angle. -/
theorem C80_offset (us ws : List ℝ) (h : us.length = ws.length) (hne : us ≠ []) (a b : ℝ) :
    rotation (fins (us.map (fun x => x + a))) (fins (ws.map (fun x => x + b))) =
      (rotation (fins us) (fins ws) : Fl ℝ) := by
  have hw : ws ≠ [] := by rintro rfl; simp at h; exact hne h
  rw [C80_angle _ _ (by simpa using h) (by simpa using hne), C80_angle us ws h hne]
  have ea : ∀ (l : List ℝ) (c : ℝ), l ≠ [] → Spec.avg (l.map (fun x => x + c)) = Spec.avg l + c := by
    intro l c hl
    have := Spec.avg_affine 1 c hl
    simpa using this
  have ec : ∀ (x y : List ℝ) (c d : ℝ), x ≠ [] → y ≠ [] →
      Spec.cov (x.map (fun v => v + c)) (y.map (fun v => v + d)) = Spec.cov x y := by
    intro x y c d hx hy
    unfold Spec.cov
    rw [ea x c hx, ea y d hy, List.zipWith_map]
    congr 2
    funext u v; ring
  rw [ec us ws a b hne hw, ← Spec.cov_self, ec us us a a hne hne, Spec.cov_self]

/-- **C80** the transform keeps `x² + y²` and is undone by the opposite angle. -/
theorem C80_transform (t x y : ℝ) :
    ∃ p q : ℝ, transform (fin t : Fl ℝ) (fin x) (fin y) = (fin p, fin q) ∧ p ^ 2 + q ^ 2 = x ^ 2 + y ^ 2 ∧
      transform (fin (-t) : Fl ℝ) (fin p) (fin q) = (fin x, fin y) := by
  have h := Real.sin_sq_add_cos_sq t
  refine ⟨x * Real.cos t + y * Real.sin t, -x * Real.sin t + y * Real.cos t, ?_, ?_, ?_⟩
  · unfold transform; simp
  · linear_combination (x ^ 2 + y ^ 2) * h
  · unfold transform
    simp only [pcos_fin, psin_fin, pmul_fin, padd_fin, pneg_fin, Real.cos_neg, Real.sin_neg, Prod.mk.injEq, fin.injEq]
    constructor
    · linear_combination x * h
    · linear_combination y * h

theorem dot_rot (x y : List ℝ) (h : x.length = y.length) (c s : ℝ) :
    Spec.dot (List.zipWith (fun u w => u * c + w * s) x y) (List.zipWith (fun u w => -u * s + w * c) x y) =
      (c ^ 2 - s ^ 2) * Spec.dot x y + c * s * (Spec.dot y y - Spec.dot x x) := by
  refine zipWith_induction (P := fun x y =>
    Spec.dot (List.zipWith (fun u w => u * c + w * s) x y) (List.zipWith (fun u w => -u * s + w * c) x y) =
      (c ^ 2 - s ^ 2) * Spec.dot x y + c * s * (Spec.dot y y - Spec.dot x x)) ?_ ?_ x y h
  · simp [Spec.dot]
  · intro u us v vs _ ih
    simp only [Spec.dot, List.zipWith_cons_cons, List.sum_cons] at ih ⊢
    rw [ih]; ring

theorem sum_rot (x y : List ℝ) (h : x.length = y.length) (c s : ℝ) :
    (List.zipWith (fun u w => u * c + w * s) x y).sum = c * x.sum + s * y.sum := by
  refine zipWith_induction (P := fun x y => (List.zipWith (fun u w => u * c + w * s) x y).sum = c * x.sum + s * y.sum)
    ?_ ?_ x y h
  · simp
  · intro u us v vs _ ih
    simp only [List.zipWith_cons_cons, List.sum_cons, ih]; ring

theorem dev_rot (x y : List ℝ) (h : x.length = y.length) (c s : ℝ) :
    Spec.dev (List.zipWith (fun u w => u * c + w * s) x y) =
      List.zipWith (fun u w => u * c + w * s) (Spec.dev x) (Spec.dev y) := by
  have e : Spec.avg (List.zipWith (fun u w => u * c + w * s) x y) = c * Spec.avg x + s * Spec.avg y := by
    unfold Spec.avg
    rw [sum_rot x y h, List.length_zipWith, ← h, min_self]; ring
  unfold Spec.dev
  rw [e, List.zipWith_map, List.map_zipWith]
  congr 1
  funext u w; ring

/-- the rotated samples of a real series -/
noncomputable def rotR (us ws : List ℝ) : List (ℝ × ℝ) :=
  List.zipWith (fun u w =>
    (u * Real.cos (Complex.arg ⟨Spec.var us, Spec.cov us ws⟩) + w * Real.sin (Complex.arg ⟨Spec.var us, Spec.cov us ws⟩),
     -u * Real.sin (Complex.arg ⟨Spec.var us, Spec.cov us ws⟩) + w * Real.cos (Complex.arg ⟨Spec.var us, Spec.cov us ws⟩))) us ws

theorem rotated_fins (us ws : List ℝ) (h : us.length = ws.length) (hne : us ≠ []) :
    rotated (fins us) (fins ws) = (rotR us ws).map (fun p => ((fin p.1 : Fl ℝ), (fin p.2 : Fl ℝ))) := by
  unfold rotated rotR
  rw [C80_angle us ws h hne]
  unfold fins
  rw [List.zipWith_map, List.map_zipWith]
  congr 1

/-- **C80** what the rotation does *not* do: the rotated components keep the covariance `C (V W − C²) / (V² + C²)`, where
`V`, `W`, `C` are the variances and covariance of the data, so they are uncorrelated only when the data already were or
lie on a line. -/
theorem C80_residual (us ws : List ℝ) (h : us.length = ws.length) (hv : Spec.var us ≠ 0) :
    rotated (fins us) (fins ws) = (rotR us ws).map (fun p => ((fin p.1 : Fl ℝ), (fin p.2 : Fl ℝ))) ∧
    Spec.cov ((rotR us ws).map Prod.fst) ((rotR us ws).map Prod.snd) =
      Spec.cov us ws * (Spec.var us * Spec.var ws - Spec.cov us ws ^ 2) / (Spec.var us ^ 2 + Spec.cov us ws ^ 2) := by
  have hne : us ≠ [] := by rintro rfl; simp [Spec.var, Spec.cmoment, Spec.avg] at hv
  have hw : ws ≠ [] := by rintro rfl; simp at h; exact hne h
  have hn := Spec.length_ne hne
  refine ⟨rotated_fins us ws h hne, ?_⟩
  set z : ℂ := ⟨Spec.var us, Spec.cov us ws⟩ with hz
  have hz0 : z ≠ 0 := by
    intro h0; apply hv; have := congrArg Complex.re h0; simpa [hz] using this
  set c := Real.cos z.arg with hc
  set s := Real.sin z.arg with hs
  have e1 : (rotR us ws).map Prod.fst = List.zipWith (fun u w => u * c + w * s) us ws := by
    unfold rotR; rw [List.map_zipWith]
  have e2 : (rotR us ws).map Prod.snd = List.zipWith (fun u w => -u * s + w * c) us ws := by
    unfold rotR; rw [List.map_zipWith]
  have e2' : (fun u w : ℝ => -u * s + w * c) = fun u w => u * (-s) + w * c := by funext u w; ring
  have hlen : (List.zipWith (fun u w => u * c + w * s) us ws).length = us.length := by
    rw [List.length_zipWith, ← h, min_self]
  have hd : (us.length : ℝ) * Spec.cov ((rotR us ws).map Prod.fst) ((rotR us ws).map Prod.snd) =
      us.length * ((c ^ 2 - s ^ 2) * Spec.cov us ws + c * s * (Spec.var ws - Spec.var us)) := by
    have a1 := Spec.dot_dev ((rotR us ws).map Prod.fst) ((rotR us ws).map Prod.snd) (by simp)
      (by intro h0; rw [e1] at h0; rw [h0] at hlen; simp at hlen; exact hne (List.length_eq_zero_iff.mp hlen.symm))
    rw [show (((rotR us ws).map Prod.fst).length : ℝ) = us.length by rw [e1, hlen]] at a1
    rw [← a1, e1, e2, e2', dev_rot us ws h, dev_rot us ws h, ← e2' ,
      dot_rot _ _ (by simp [Spec.dev, h]), Spec.dot_dev us ws h hne, Spec.dot_dev_self us hne, Spec.dot_dev_self ws hw, ← h]
    ring
  have hd' := mul_left_cancel₀ hn hd
  rw [hd']
  have hN : Complex.normSq z = Spec.var us ^ 2 + Spec.cov us ws ^ 2 := by
    rw [Complex.normSq_apply]; ring
  have hnz : ‖z‖ ^ 2 = Spec.var us ^ 2 + Spec.cov us ws ^ 2 := by rw [← hN, Complex.normSq_eq_norm_sq]
  have hpos : 0 < ‖z‖ := norm_pos_iff.mpr hz0
  have c1 : c = Spec.var us / ‖z‖ := Complex.cos_arg hz0
  have s1 : s = Spec.cov us ws / ‖z‖ := Complex.sin_arg z
  rw [c1, s1, ← hnz]
  field_simp
  ring

/-- the covariance left behind is not zero: three points -/
theorem C80_not_decorrelated : ∃ us ws : List ℝ, us.length = ws.length ∧
    rotated (fins us) (fins ws) = (rotR us ws).map (fun p => ((fin p.1 : Fl ℝ), (fin p.2 : Fl ℝ))) ∧
    Spec.cov ((rotR us ws).map Prod.fst) ((rotR us ws).map Prod.snd) ≠ 0 := by
  refine ⟨[-1, 0, 1], [-1, 1, 0], rfl, rotated_fins _ _ rfl (by simp), ?_⟩
  have v1 : Spec.var ([-1, 0, 1] : List ℝ) = 2 / 3 := by norm_num [Spec.var, Spec.cmoment, Spec.avg]
  have v2 : Spec.var ([-1, 1, 0] : List ℝ) = 2 / 3 := by norm_num [Spec.var, Spec.cmoment, Spec.avg]
  have v3 : Spec.cov ([-1, 0, 1] : List ℝ) [-1, 1, 0] = 1 / 3 := by norm_num [Spec.cov, Spec.avg]
  rw [(C80_residual [-1, 0, 1] [-1, 1, 0] rfl (by rw [v1]; norm_num)).2, v1, v2, v3]
  norm_num

/-! ## C81: density helpers -/

/-- **C81** the weights sum to 1, the effective sample size is `n`, Scott's factor is `n^(-1/(d+4))`. -/
theorem C81_weights (n d : Nat) (hn : 1 ≤ n) :
    PyNum.sum (weight n : List (Fl ℝ)) = fin 1 ∧ (weight n : List (Fl ℝ)).length = n ∧
    (net n : Fl ℝ) = fin (n : ℝ) ∧
    factor d (fin (n : ℝ) : Fl ℝ) = fin ((n : ℝ) ^ (-1 / ((d : ℝ) + 4))) := by
  have hn' : (0 : ℝ) < n := by exact_mod_cast hn
  have hw : (weight n : List (Fl ℝ)) = fins (List.replicate n (1 / (n : ℝ))) := by
    unfold weight fins
    rw [List.map_replicate, lit_eq, ofNat_eq, pdiv_fin hn'.ne']; norm_num
  refine ⟨?_, by simp [weight], ?_, ?_⟩
  · rw [hw, show PyNum.sum (fins (List.replicate n (1 / (n : ℝ)))) = (fin _ : Fl ℝ) from psum_fin _]
    simp [hn'.ne']
  · unfold net
    rw [hw]
    have : (fins (List.replicate n (1 / (n : ℝ)))).map (fun w : Fl ℝ => w ^. 2) =
        fins (List.replicate n ((1 / (n : ℝ)) ^ 2)) := by
      simp only [fins, List.map_replicate, pnpow_fin]
    rw [this, show PyNum.sum (fins (List.replicate n ((1 / (n : ℝ)) ^ 2))) = (fin _ : Fl ℝ) from psum_fin _, lit_eq]
    have e : (List.replicate n ((1 / (n : ℝ)) ^ 2)).sum = (n : ℝ)⁻¹ := by
      rw [List.sum_replicate, nsmul_eq_mul]; field_simp
    rw [e]
    show (if ((-1 : ℚ) : ℝ) = 0 then fin 1 else if 0 < (n : ℝ)⁻¹ then fin ((n : ℝ)⁻¹ ^ ((-1 : ℚ) : ℝ)) else _) = _
    rw [if_neg (by norm_num), if_pos (by positivity)]
    congr 1
    push_cast
    rw [Real.rpow_neg_one, inv_inv]
  · unfold factor
    rw [lit_eq, ofNat_eq, pdiv_fin (by positivity)]
    show (if (_ : ℝ) = 0 then fin 1 else if 0 < (n : ℝ) then fin ((n : ℝ) ^ (_ : ℝ)) else _) = _
    rw [if_neg, if_pos hn']
    · push_cast; rfl
    · push_cast; apply div_ne_zero (by norm_num); positivity

theorem zipWith_mul_replicate (x : List ℝ) (c : ℝ) :
    List.zipWith (fun a b : Fl ℝ => a *. b) (fins x) (fins (List.replicate x.length c)) = fins (x.map (fun a => a * c)) := by
  induction x with
  | nil => rfl
  | cons a t ih =>
    simp only [fins, List.length_cons, List.replicate_succ, List.map_cons, List.zipWith_cons_cons, pmul_fin] at ih ⊢
    rw [ih]

/-- **C81** the weighted covariance is the unbiased sample covariance: `Σ (x − x̄)(y − ȳ) / (n − 1)`; with one sample it
is NaN. -/
theorem C81_covariance (x y : List ℝ) (h : x.length = y.length) :
    (2 ≤ x.length → covEntry (weight x.length) (fins x) (fins y) =
      (fin (Spec.dot (Spec.dev x) (Spec.dev y) / ((x.length : ℝ) - 1)) : Fl ℝ)) ∧
    (x.length = 1 → covEntry (weight x.length) (fins x) (fins y) = (nan : Fl ℝ)) := by
  have main : 1 ≤ x.length → covEntry (weight x.length) (fins x) (fins y) =
      (fin (Spec.dot (Spec.dev x) (Spec.dev y) / x.length) : Fl ℝ) *. ((lit 1 : Fl ℝ) /. fin (1 - 1 / (x.length : ℝ))) := by
    intro hn
    have hn' : (0 : ℝ) < x.length := by exact_mod_cast hn
    have hs := (C81_weights x.length 1 hn).1
    have hw : (weight x.length : List (Fl ℝ)) = fins (List.replicate x.length (1 / (x.length : ℝ))) := by
      unfold weight fins
      rw [List.map_replicate, lit_eq, ofNat_eq, pdiv_fin hn'.ne']; norm_num
    unfold covEntry
    simp only [hs]
    rw [hw]
    have av : ∀ l : List ℝ, l.length = x.length →
        PyNum.sum (List.zipWith (fun a b : Fl ℝ => a *. b) (fins l) (fins (List.replicate x.length (1 / (x.length : ℝ))))) /.
          (fin 1 : Fl ℝ) = fin (Spec.avg l) := by
      intro l hl
      rw [← hl, zipWith_mul_replicate,
        show PyNum.sum (fins (l.map (fun a => a * (1 / (l.length : ℝ))))) = (fin _ : Fl ℝ) from psum_fin _,
        pdiv_fin one_ne_zero]
      unfold Spec.avg
      rw [List.sum_map_mul_right, List.map_id']; congr 1; ring
    rw [av x rfl, av y h.symm]
    have d : ∀ l : List ℝ, (fins l).map (fun a : Fl ℝ => a -. fin (Spec.avg l)) = fins (Spec.dev l) := by
      intro l; simp [fins, Spec.dev, Function.comp_def]
    rw [d x, d y]
    have ly : x.length = (Spec.dev y).length := by simp [Spec.dev, h]
    have z1 : List.zipWith (fun a b : Fl ℝ => a *. b) (fins (Spec.dev y))
        (fins (List.replicate x.length (1 / (x.length : ℝ)))) = fins ((Spec.dev y).map (fun a => a * (1 / (x.length : ℝ)))) := by
      have := zipWith_mul_replicate (Spec.dev y) (1 / (x.length : ℝ))
      rw [← ly] at this
      exact this
    rw [z1]
    have z2 : List.zipWith (fun a b : Fl ℝ => a *. b) (fins (Spec.dev x))
        (fins ((Spec.dev y).map (fun a => a * (1 / (x.length : ℝ))))) =
        fins ((List.zipWith (fun a b => a * b) (Spec.dev x) (Spec.dev y)).map (fun a => a * (1 / (x.length : ℝ)))) := by
      unfold fins
      rw [List.zipWith_map, List.map_map, List.map_zipWith, List.zipWith_map_right]
      congr 1
      funext a b
      simp only [pmul_fin, Function.comp]
      congr 1; ring
    have z3 : (fins (List.replicate x.length (1 / (x.length : ℝ)))).map (fun a : Fl ℝ => a *. a) =
        fins (List.replicate x.length ((1 / (x.length : ℝ)) ^ 2)) := by
      simp only [fins, List.map_replicate, pmul_fin, sq]
    rw [z2, z3, show PyNum.sum (fins (List.replicate x.length ((1 / (x.length : ℝ)) ^ 2))) = (fin _ : Fl ℝ) from psum_fin _,
      show PyNum.sum (fins ((List.zipWith (fun a b => a * b) (Spec.dev x) (Spec.dev y)).map (fun a => a * (1 / (x.length : ℝ))))) =
        (fin _ : Fl ℝ) from psum_fin _, pdiv_fin one_ne_zero, psub_fin]
    congr 2
    · rw [List.sum_map_mul_right, List.map_id']; unfold Spec.dot; ring
    · rw [List.sum_replicate, nsmul_eq_mul]
      congr 1; field_simp
  constructor
  · intro hn
    have h2 : (2 : ℝ) ≤ x.length := by exact_mod_cast hn
    have h3 : (x.length : ℝ) - 1 ≠ 0 := by linarith
    have h4 : (x.length : ℝ) ≠ 0 := by linarith
    have h5 : (1 - 1 / (x.length : ℝ)) ≠ 0 := by
      rw [one_sub_div h4]; exact div_ne_zero h3 h4
    rw [main (by omega), lit_eq, pdiv_fin h5, pmul_fin]
    congr 1
    push_cast
    field_simp
  · intro hn
    rw [main (by omega)]
    have : Spec.dot (Spec.dev x) (Spec.dev y) = 0 := by
      obtain ⟨a, rfl⟩ := List.length_eq_one_iff.mp hn
      obtain ⟨b, rfl⟩ := List.length_eq_one_iff.mp (h ▸ hn : y.length = 1)
      simp [Spec.dot, Spec.dev, Spec.avg]
    rw [this, hn]
    norm_num
    rw [pdiv_fin', if_pos rfl]
    simp [mul_def, Fl.mul, infSgn]

/-- **C81** `_density` (every float arithmetic): empty data and data with more rows than columns are ValueErrors before
anything is computed; otherwise a failing Cholesky factorisation is passed on and a successful one yields the dictionary:
weights, effective sample size, factor, covariance times the squared factor, and the factor times the Cholesky factor. -/
theorem C81_density {F : Type} [PyMath F] (chol : List (List F) → Py (List (List F))) (rows : List (List F)) (cols : Nat) :
    (rows = [] ∨ cols = 0 ∨ cols < rows.length → density chol rows cols = .error .valueError) ∧
    (rows ≠ [] → rows.length ≤ cols → ∀ e,
      chol (rows.map (fun x => rows.map (fun y => covEntry (weight cols) x y))) = .error e →
      density chol rows cols = .error e) ∧
    (rows ≠ [] → rows.length ≤ cols → ∀ m,
      chol (rows.map (fun x => rows.map (fun y => covEntry (weight cols) x y))) = .ok m →
      ∃ c, density chol rows cols = .ok c ∧ c.weight = weight cols ∧ c.net = net cols ∧
        c.factor = factor rows.length (net cols) ∧
        c.covariance = rows.map (fun x => rows.map (fun y => covEntry (weight cols) x y *. c.factor ^. 2)) ∧
        c.cholesky = m.map (fun r => r.map (fun v => v *. c.factor)) ∧ c.log = determination c.cholesky) := by
  refine ⟨?_, ?_, ?_⟩
  · intro h
    unfold density
    by_cases h1 : rows.length * cols = 0
    · rw [if_pos h1]
    · rw [if_neg h1, if_pos]
      rcases h with rfl | h | h
      · simp at h1
      · simp [h] at h1
      · exact h
  all_goals
    intro hr hc v hv
    have h1 : rows.length * cols ≠ 0 := by
      have := List.length_pos_iff.mpr hr
      exact Nat.mul_ne_zero (by omega) (by omega)
    unfold density covarianceDict covMatrix
    rw [if_neg h1, if_neg (by omega)]
    simp only [hv, bind, Except.bind]
  refine ⟨_, rfl, rfl, rfl, rfl, ?_, rfl, rfl⟩
  simp only [List.map_map, Function.comp_def]

end Proadv.Props
