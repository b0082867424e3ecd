import Verif.Py.Libm
import Verif.Props.NormalLaws
import Verif.Props.FminRndConv
import Mathlib.Analysis.Real.Pi.Bounds
import Mathlib.Analysis.Complex.ExponentialBounds

/-!
# The normal distribution functions in rounded arithmetic (C242)
-/

set_option linter.unusedSectionVars false

namespace Proadv.Props

open Proadv Proadv.Normal Real NormalLaws

namespace NormalRnd

variable {A : Arith ℝ} {L : Libm} {u ε : ℝ}

/-- the computed `1/√2` -/
noncomputable def cR (fl : ℝ → ℝ) : ℝ := fl (1 / fl √2)

/-- the computed value for one sample -/
noncomputable def cdfR (fl : ℝ → ℝ) (L : Libm) (x : ℝ) : ℝ :=
  if |fl (x * cR fl)| < cR fl then fl (1 / 2 + fl (1 / 2 * L.erf (fl (x * cR fl))))
  else if 0 < fl (x * cR fl) then fl (1 - fl (1 / 2 * L.erfc |fl (x * cR fl)|)) else fl (1 / 2 * L.erfc |fl (x * cR fl)|)

theorem cdfEntry_rm (h : SymRounding A.rnd u) (x : ℝ) : cdfEntry (Rm.fin A L x) = Rm.fin A L (cdfR A.rnd L x) := by
  have e1 : (lit 1 : Rm A L) = Rm.fin A L 1 := by rw [Rm.lit_fin]; norm_num [h.one]
  have e2 : (lit 2 : Rm A L) = Rm.fin A L 2 := by rw [Rm.lit_fin]; norm_num [h.two]
  have e0 : (lit 0 : Rm A L) = Rm.fin A L 0 := by rw [Rm.lit_fin]; norm_num [h.toRounding.zero]
  have eh : (lit (1 / 2) : Rm A L) = Rm.fin A L (1 / 2) := by
    rw [Rm.lit_fin]
    have := h.half
    push_cast
    rw [this]
  have hs : A.rnd √2 ≠ 0 := h.toRounding.ne (by positivity)
  unfold cdfEntry cdfR cR
  simp only [e1, e2, e0, eh, Rm.sqrt_fin A L (by norm_num : (0 : ℝ) ≤ 2), Rm.div_fin A L hs, Rm.mul_fin, Rm.abs_fin, Rm.lt_fin, Rm.erf_fin,
    Rm.erfc_fin, Rm.add_fin, Rm.sub_fin, decide_eq_true_eq]
  split_ifs <;> rfl

theorem cdf_rm (h : SymRounding A.rnd u) (d : Nat) (hd : d ≠ 0) (xs : List ℝ) (hx : xs ≠ []) :
    cdf (⟨d, false, xs.map (Rm.fin A L)⟩ : Arr (Rm A L)) = .ok ⟨d, false, xs.map (fun x => Rm.fin A L (cdfR A.rnd L x))⟩ := by
  have hn : (xs.map (Rm.fin A L)).any PyNum.isNaN = false := by
    rw [List.any_eq_false]
    intro y hy
    obtain ⟨x, -, rfl⟩ := List.mem_map.mp hy
    exact Bool.false_ne_true
  unfold cdf
  rw [if_neg (by simpa using hx), hn, if_neg (by simp), if_neg hd]
  congr 2
  rw [List.map_map]
  apply List.map_congr_left
  intro x _
  exact cdfEntry_rm h x

/-! ## Real analysis -/

theorem phi_le (x : ℝ) : phi x ≤ 2 / 5 := by
  unfold phi
  have h1 : rexp (-x ^ 2 / 2) ≤ 1 := Real.exp_le_one_iff.mpr (by nlinarith [sq_nonneg x])
  have h2 : (5 / 2 : ℝ) ≤ √(2 * π) := Real.le_sqrt_of_sq_le (by nlinarith [Real.pi_gt_d2])
  rw [div_le_iff₀ (by positivity)]
  linarith

theorem mul_phi_le (x : ℝ) : |x| * phi x ≤ 2 / 5 := by
  unfold phi
  have h1 : |x| * rexp (-x ^ 2 / 2) ≤ 1 := by
    have h := Real.add_one_le_exp (x ^ 2 / 2)
    have h3 : |x| ≤ rexp (x ^ 2 / 2) := by nlinarith [sq_abs x, sq_nonneg (|x| - 1)]
    have h4 : rexp (-x ^ 2 / 2) * rexp (x ^ 2 / 2) = 1 := by
      rw [← Real.exp_add, show -x ^ 2 / 2 + x ^ 2 / 2 = 0 by ring, Real.exp_zero]
    calc |x| * rexp (-x ^ 2 / 2) ≤ rexp (x ^ 2 / 2) * rexp (-x ^ 2 / 2) := mul_le_mul_of_nonneg_right h3 (Real.exp_pos _).le
      _ = 1 := by rw [mul_comm]; exact h4
  have h2 : (5 / 2 : ℝ) ≤ √(2 * π) := Real.le_sqrt_of_sq_le (by nlinarith [Real.pi_gt_d2])
  rw [← mul_div_assoc, div_le_iff₀ (by positivity)]
  linarith

/-- mean value theorem for the distribution function -/
theorem Phi_mvt (x y : ℝ) : ∃ ξ, min x y ≤ ξ ∧ ξ ≤ max x y ∧ Phi y - Phi x = phi ξ * (y - x) := by
  rcases lt_trichotomy x y with h | h | h
  · obtain ⟨ξ, ⟨h1, h2⟩, h3⟩ := exists_hasDerivAt_eq_slope Phi phi h (fun z _ => (Phi_deriv z).continuousAt.continuousWithinAt)
      (fun z _ => Phi_deriv z)
    refine ⟨ξ, (min_le_left _ _).trans h1.le, h2.le.trans (le_max_right _ _), ?_⟩
    rw [h3, div_mul_cancel₀]; exact (sub_pos.mpr h).ne'
  · exact ⟨x, by simp [h], by simp [h], by simp [h]⟩
  · obtain ⟨ξ, ⟨h1, h2⟩, h3⟩ := exists_hasDerivAt_eq_slope Phi phi h (fun z _ => (Phi_deriv z).continuousAt.continuousWithinAt)
      (fun z _ => Phi_deriv z)
    refine ⟨ξ, (min_le_right _ _).trans h1.le, h2.le.trans (le_max_left _ _), ?_⟩
    rw [h3]
    have := (sub_pos.mpr h).ne'
    field_simp
    ring

theorem Phi_lip (x : ℝ) : |Phi x - 1 / 2| ≤ 2 / 5 * |x| := by
  obtain ⟨ξ, -, -, h⟩ := Phi_mvt 0 x
  rw [Phi_half, sub_zero] at h
  rw [h, abs_mul, abs_of_pos (phi_pos ξ)]
  exact mul_le_mul_of_nonneg_right (phi_le ξ) (abs_nonneg x)

/-- a relative change of the argument -/
theorem Phi_rel {x t : ℝ} (hu0 : 0 ≤ u) (hu : u ≤ 1 / 1024) (ht : |t - x| ≤ 4 * u * |x|) : |Phi t - Phi x| ≤ 2 * u := by
  obtain ⟨ξ, h1, h2, h⟩ := Phi_mvt x t
  rw [h, abs_mul, abs_of_pos (phi_pos ξ)]
  have hx := abs_nonneg x
  have h4 : 4 * u * |x| ≤ 4 / 1024 * |x| := mul_le_mul_of_nonneg_right (by linarith) hx
  have h5 : |x| - |ξ| ≤ 4 / 1024 * |x| := by
    have a1 : |x| - |ξ| ≤ |x - ξ| := abs_sub_abs_le_abs_sub x ξ
    have a2 : |x - ξ| ≤ |t - x| := by
      rcases le_total x t with q | q
      · rw [min_eq_left q] at h1; rw [max_eq_right q] at h2
        rw [abs_of_nonpos (by linarith), abs_of_nonneg (by linarith)]; linarith
      · rw [min_eq_right q] at h1; rw [max_eq_left q] at h2
        rw [abs_of_nonneg (by linarith), abs_of_nonpos (by linarith)]; linarith
    linarith
  have h6 := mul_phi_le ξ
  have h7 := phi_pos ξ
  have h8 : |x| * phi ξ ≤ 101 / 100 * (2 / 5) := by
    have : |x| * phi ξ ≤ 101 / 100 * |ξ| * phi ξ := mul_le_mul_of_nonneg_right (by linarith) h7.le
    nlinarith
  calc phi ξ * |t - x| ≤ phi ξ * (4 * u * |x|) := mul_le_mul_of_nonneg_left ht h7.le
    _ = 4 * u * (|x| * phi ξ) := by ring
    _ ≤ 4 * u * (101 / 100 * (2 / 5)) := mul_le_mul_of_nonneg_left h8 (by linarith)
    _ ≤ 2 * u := by nlinarith

/-- the tail under a relative change of the argument -/
theorem tail_rel {s t : ℝ} (hu0 : 0 ≤ u) (hu : u ≤ 1 / 1024) (hs : 1 ≤ s) (hsu : s ^ 2 * u ≤ 1 / 256) (ht : |t - s| ≤ 4 * u * s) :
    |(1 - Phi t) - (1 - Phi s)| ≤ 17 / 2 * s ^ 2 * u * (1 - Phi s) := by
  obtain ⟨ξ, h1, h2, h⟩ := Phi_mvt s t
  obtain ⟨t1, t2⟩ := abs_le.mp ht
  have h4 : 4 * u * s ≤ 4 / 1024 * s := mul_le_mul_of_nonneg_right (by linarith) (by linarith)
  have hξ1 : 1020 / 1024 * s ≤ ξ := le_trans (le_min (by linarith) (by linarith)) h1
  have hξ2 : ξ ≤ 1028 / 1024 * s := le_trans h2 (max_le (by linarith) (by linarith))
  have hξ0 : 0 < ξ := by linarith
  have hm := mills_lower hξ0
  have hQ : ∀ x, 0 < 1 - Phi x := fun x => by have : Phi x < 1 := gaussian_Iic_lt_one x; linarith
  have hphi : s * phi ξ ≤ 201 / 100 * s ^ 2 * (1 - Phi ξ) := by
    rw [div_lt_iff₀ (by positivity)] at hm
    have hq := hQ ξ
    have b1 : ξ * ξ ≤ 1028 / 1024 * s * ξ := mul_le_mul_of_nonneg_right hξ2 hξ0.le
    have b2 : 1 ≤ s * s := one_le_mul_of_one_le_of_one_le hs hs
    have b3 : s * (1020 / 1024 * s) ≤ s * ξ := mul_le_mul_of_nonneg_left hξ1 (by linarith)
    have b4 : s * (1 + ξ ^ 2) ≤ s * (201 / 100 * s * ξ) := mul_le_mul_of_nonneg_left (by nlinarith) (by linarith)
    have a1 : s * (1 + ξ ^ 2) ≤ 201 / 100 * s ^ 2 * ξ := by linarith
    have a2 : ξ * (s * phi ξ) ≤ ξ * (201 / 100 * s ^ 2 * (1 - Phi ξ)) := by nlinarith
    exact le_of_mul_le_mul_left a2 hξ0
  have hd : |(1 - Phi t) - (1 - Phi s)| ≤ 804 / 100 * s ^ 2 * u * (1 - Phi ξ) := by
    rw [show (1 - Phi t) - (1 - Phi s) = -(Phi t - Phi s) by ring, abs_neg, h, abs_mul, abs_of_pos (phi_pos ξ)]
    calc phi ξ * |t - s| ≤ phi ξ * (4 * u * s) := mul_le_mul_of_nonneg_left ht (phi_pos ξ).le
      _ = 4 * u * (s * phi ξ) := by ring
      _ ≤ 4 * u * (201 / 100 * s ^ 2 * (1 - Phi ξ)) := mul_le_mul_of_nonneg_left hphi (by linarith)
      _ = _ := by ring
  have hk0 : 0 ≤ 804 / 100 * s ^ 2 * u := by positivity
  rcases le_total s t with q | q
  · rw [min_eq_left q] at h1
    have := Phi_mono h1
    have a : 804 / 100 * s ^ 2 * u * (1 - Phi ξ) ≤ 804 / 100 * s ^ 2 * u * (1 - Phi s) := mul_le_mul_of_nonneg_left (by linarith) hk0
    have b : 804 / 100 * (s ^ 2 * u * (1 - Phi s)) ≤ 17 / 2 * (s ^ 2 * u * (1 - Phi s)) :=
      mul_le_mul_of_nonneg_right (by norm_num) (mul_nonneg (by positivity) (hQ s).le)
    linarith
  · rw [min_eq_right q] at h1
    have := Phi_mono h1
    have a : 804 / 100 * s ^ 2 * u * (1 - Phi ξ) ≤ 804 / 100 * s ^ 2 * u * (1 - Phi t) := mul_le_mul_of_nonneg_left (by linarith) hk0
    have hts := Phi_mono q
    have e : |(1 - Phi t) - (1 - Phi s)| = (1 - Phi t) - (1 - Phi s) := abs_of_nonneg (by linarith)
    rw [e] at hd ⊢
    set k := 804 / 100 * s ^ 2 * u with hk
    have hk1 : k ≤ 804 / 25600 := by rw [hk]; linarith
    have c : (1 - k) * (1 - Phi t) ≤ 1 - Phi s := by linarith
    have hq := hQ s
    have c' : 1 - Phi t ≤ 1033 / 1000 * (1 - Phi s) := by
      have hqt := hQ t
      nlinarith
    have : k * (1 - Phi t) ≤ k * (1033 / 1000 * (1 - Phi s)) := mul_le_mul_of_nonneg_left c' hk0
    have e2 : 17 / 2 * s ^ 2 * u = 17 / 2 / (804 / 100) * k := by rw [hk]; ring
    rw [e2]
    have : k * (1033 / 1000 * (1 - Phi s)) ≤ 17 / 2 / (804 / 100) * k * (1 - Phi s) := by
      have : 0 ≤ k * (1 - Phi s) := mul_nonneg hk0 hq.le
      nlinarith
    linarith


/-! ## The computed argument -/

theorem cR_near (h : SymRounding A.rnd u) (hu : u ≤ 1 / 1024) : 0 < cR A.rnd ∧ |cR A.rnd * √2 - 1| ≤ 202 / 100 * u := by
  have h0 := h.nonneg
  have hs : 0 < √(2 : ℝ) := by positivity
  have hr := h.err √2
  rw [abs_of_pos hs] at hr
  have hr0 : 0 < A.rnd √2 := h.toRounding.pos hs
  set r := A.rnd √2 with hrdef
  have hq : 0 < 1 / r := by positivity
  have h1 := h.err (1 / r)
  rw [abs_of_pos hq] at h1
  refine ⟨h.toRounding.pos hq, ?_⟩
  have e1 : |1 / r * √2 - 1| ≤ 1002 / 1000 * u := by
    rw [show 1 / r * √2 - 1 = (√2 - r) / r by field_simp, abs_div, abs_of_pos hr0, div_le_iff₀ hr0, abs_sub_comm]
    have : (1 - u) * √2 ≤ r := by have := (abs_le.mp hr).1; linarith
    nlinarith [mul_nonneg h0 hs.le]
  have e2 : |cR A.rnd * √2 - 1 / r * √2| ≤ u * (1 / r * √2) := by
    rw [← sub_mul, abs_mul, abs_of_pos hs, ← mul_assoc]
    exact mul_le_mul_of_nonneg_right h1 hs.le
  have e3 : 1 / r * √2 ≤ 1 + 1002 / 1000 * u := by have := (abs_le.mp e1).2; linarith
  have e4 : u * (1 / r * √2) ≤ u * (1 + 1002 / 1000 * u) := mul_le_mul_of_nonneg_left e3 h0
  have e5 := abs_add_le (cR A.rnd * √2 - 1 / r * √2) (1 / r * √2 - 1)
  rw [sub_add_sub_cancel] at e5
  nlinarith

/-- the computed argument of the error function belongs to a sample `t` close to `x` -/
theorem arg_near (h : SymRounding A.rnd u) (hu : u ≤ 1 / 1024) (x : ℝ) :
    ∃ t, A.rnd (x * cR A.rnd) = t / √2 ∧ |t - x| ≤ 4 * u * |x| := by
  obtain ⟨hc, hc2⟩ := cR_near h hu
  have h0 := h.nonneg
  have hs : 0 < √(2 : ℝ) := by positivity
  refine ⟨A.rnd (x * cR A.rnd) * √2, by field_simp, ?_⟩
  have h1 := h.err (x * cR A.rnd)
  have e1 : A.rnd (x * cR A.rnd) * √2 - x = (A.rnd (x * cR A.rnd) - x * cR A.rnd) * √2 + x * (cR A.rnd * √2 - 1) := by ring
  have e2 : |(A.rnd (x * cR A.rnd) - x * cR A.rnd) * √2| ≤ u * |x| * (cR A.rnd * √2) := by
    rw [abs_mul, abs_of_pos hs]
    rw [abs_mul, abs_of_pos hc] at h1
    have := mul_le_mul_of_nonneg_right h1 hs.le
    linarith
  have e3 : |x * (cR A.rnd * √2 - 1)| ≤ |x| * (202 / 100 * u) := by
    rw [abs_mul]; exact mul_le_mul_of_nonneg_left hc2 (abs_nonneg x)
  have e4 : cR A.rnd * √2 ≤ 101 / 100 := by have := (abs_le.mp hc2).2; linarith
  have hp : 0 ≤ u * |x| := mul_nonneg h0 (abs_nonneg x)
  have e5 : u * |x| * (cR A.rnd * √2) ≤ u * |x| * (101 / 100) := mul_le_mul_of_nonneg_left e4 hp
  rw [e1]
  have := abs_add_le ((A.rnd (x * cR A.rnd) - x * cR A.rnd) * √2) (x * (cR A.rnd * √2 - 1))
  linarith

theorem erf_Phi (t : ℝ) : erfR (t / √2) = 2 * Phi t - 1 := by rw [Phi_eq]; ring

theorem erfc_Phi (t : ℝ) : 1 - erfR |t / √2| = 2 * (1 - Phi |t|) := by
  rw [abs_div, abs_of_pos (by positivity : 0 < √(2 : ℝ)), erf_Phi]; ring

theorem tail_pos (x : ℝ) : 0 < 1 - Phi x := by have : Phi x < 1 := gaussian_Iic_lt_one x; linarith

theorem tail_half {x : ℝ} (hx : 0 ≤ x) : 1 - Phi x ≤ 1 / 2 := by have := Phi_mono hx; rw [Phi_half] at this; linarith

/-- the computed tail -/
theorem half_erfc (h : SymRounding A.rnd u) (hL : L.Acc ε) (t : ℝ) :
    |A.rnd (1 / 2 * L.erfc |t / √2|) - (1 - Phi |t|)| ≤ (ε + u * (1 + ε)) * (1 - Phi |t|) := by
  have h1 := hL.erfc |t / √2|
  rw [erfc_Phi] at h1
  set q := 1 - Phi |t| with hq
  have hq0 : 0 < q := tail_pos _
  rw [abs_of_pos (by linarith : 0 < 2 * q)] at h1
  set v := L.erfc |t / √2| with hv
  have h2 := h.err (1 / 2 * v)
  have h3 : |1 / 2 * v - q| ≤ ε * q := by
    rw [show 1 / 2 * v - q = 1 / 2 * (v - 2 * q) by ring, abs_mul, abs_of_pos (by norm_num : (0 : ℝ) < 1 / 2)]; linarith
  have h4 : |1 / 2 * v| ≤ (1 + ε) * q := by
    have := abs_add_le (1 / 2 * v - q) q
    rw [sub_add_cancel, abs_of_pos hq0] at this; linarith
  have h5 := abs_add_le (A.rnd (1 / 2 * v) - 1 / 2 * v) (1 / 2 * v - q)
  rw [sub_add_sub_cancel] at h5
  have h6 := mul_le_mul_of_nonneg_left h4 h.nonneg
  linarith

/-- the absolute error and the range -/
theorem cdfR_near (h : SymRounding A.rnd u) (hu : u ≤ 1 / 1024) (hL : L.Acc ε) (hε : ε ≤ 1 / 8) (x : ℝ) :
    |cdfR A.rnd L x - Phi x| ≤ 4 * u + ε ∧ 0 < cdfR A.rnd L x ∧ cdfR A.rnd L x ≤ 1 := by
  have h0 := h.nonneg
  have hε0 := hL.nonneg
  obtain ⟨hc, hc2⟩ := cR_near h hu
  obtain ⟨t, ht, htx⟩ := arg_near h hu x
  have hrel := Phi_rel h0 hu htx
  have hr1 : ∀ v, v ≤ 1 → A.rnd v ≤ 1 := fun v hv => by have := h.mono hv; rwa [h.one] at this
  have hs : 0 < √(2 : ℝ) := by positivity
  unfold cdfR
  rw [ht]
  split_ifs with h1 h2
  · have hsmall : |t| ≤ 101 / 100 := by
      rw [abs_div, abs_of_pos hs, div_lt_iff₀ hs] at h1
      have := (abs_le.mp hc2).2; linarith
    have hE := hL.erf (t / √2)
    rw [erf_Phi] at hE
    have hlip := Phi_lip t
    have hE1 : |2 * Phi t - 1| ≤ 81 / 100 := by
      rw [show 2 * Phi t - 1 = 2 * (Phi t - 1 / 2) by ring, abs_mul, abs_of_pos (by norm_num : (0 : ℝ) < 2)]; linarith
    have hE2 : ε * |2 * Phi t - 1| ≤ ε * (81 / 100) := mul_le_mul_of_nonneg_left hE1 hε0
    set e := L.erf (t / √2) with he
    have ha : |1 / 2 * e - (Phi t - 1 / 2)| ≤ ε * (41 / 100) := by
      rw [show 1 / 2 * e - (Phi t - 1 / 2) = 1 / 2 * (e - (2 * Phi t - 1)) by ring, abs_mul,
        abs_of_pos (by norm_num : (0 : ℝ) < 1 / 2)]; linarith
    have hb : |1 / 2 * e| ≤ 46 / 100 := by
      have := abs_add_le (1 / 2 * e - (Phi t - 1 / 2)) (Phi t - 1 / 2)
      rw [sub_add_cancel] at this; linarith
    have hc := h.err (1 / 2 * e)
    have hc' : u * |1 / 2 * e| ≤ u * (46 / 100) := mul_le_mul_of_nonneg_left hb h0
    set g := A.rnd (1 / 2 * e) with hg
    have hd : |g| ≤ 48 / 100 := by
      have := abs_add_le (g - 1 / 2 * e) (1 / 2 * e)
      rw [sub_add_cancel] at this; linarith
    obtain ⟨d1, d2⟩ := abs_le.mp hd
    have hf := h.err (1 / 2 + g)
    rw [abs_of_pos (by linarith : 0 < 1 / 2 + g)] at hf
    have hf' : u * (1 / 2 + g) ≤ u * 1 := mul_le_mul_of_nonneg_left (by linarith) h0
    refine ⟨?_, h.toRounding.pos (by linarith), hr1 _ (by linarith)⟩
    have k1 := abs_le.mp ha
    have k2 := abs_le.mp hc
    have k3 := abs_le.mp hf
    have k4 := abs_le.mp hrel
    rw [abs_le]
    constructor <;> linarith
  all_goals
    have hy := half_erfc h hL t
    have hq0 := tail_pos |t|
    have hqh := tail_half (abs_nonneg t)
    set y := A.rnd (1 / 2 * L.erfc |t / √2|) with hydef
    set q := 1 - Phi |t| with hq
    have hm : ε + u * (1 + ε) ≤ 13 / 100 := by nlinarith
    have hm0 : 0 ≤ ε + u * (1 + ε) := by positivity
    have hmq : (ε + u * (1 + ε)) * q ≤ 13 / 100 * q := mul_le_mul_of_nonneg_right hm hq0.le
    have hmh : (ε + u * (1 + ε)) * q ≤ (ε + u * (1 + ε)) * (1 / 2) := mul_le_mul_of_nonneg_left hqh hm0
    have huε : u * ε ≤ u * (1 / 8) := mul_le_mul_of_nonneg_left hε h0
    obtain ⟨y1, y2⟩ := abs_le.mp hy
    obtain ⟨k1, k2⟩ := abs_le.mp hrel
  · have htp : 0 < t := by rwa [lt_div_iff₀ hs, zero_mul] at h2
    rw [abs_of_pos htp] at hq
    have hf := h.err (1 - y)
    rw [abs_of_pos (by linarith : 0 < 1 - y)] at hf
    have hf' : u * (1 - y) ≤ u * 1 := mul_le_mul_of_nonneg_left (by linarith) h0
    refine ⟨?_, h.toRounding.pos (by linarith), hr1 _ (by linarith)⟩
    have k3 := abs_le.mp hf
    rw [abs_le]
    constructor <;> linarith
  · have htp : t ≤ 0 := by
      have := not_lt.mp h2
      rwa [div_le_iff₀ hs, zero_mul] at this
    rw [abs_of_nonpos htp, Phi_neg, sub_sub_cancel] at hq
    refine ⟨?_, by linarith, by linarith⟩
    rw [abs_le]
    constructor <;> linarith

/-- the lower tail keeps its relative accuracy -/
theorem cdfR_left (h : SymRounding A.rnd u) (hu : u ≤ 1 / 1024) (hL : L.Acc ε) (hε : ε ≤ 1 / 8) (x : ℝ) (hx : x ≤ -1)
    (hxu : x ^ 2 * u ≤ 1 / 256) : |cdfR A.rnd L x - Phi x| ≤ (2 * ε + 10 * x ^ 2 * u) * Phi x := by
  have h0 := h.nonneg
  have hε0 := hL.nonneg
  obtain ⟨hc, hc2⟩ := cR_near h hu
  obtain ⟨t, ht, htx⟩ := arg_near h hu x
  have hs : 0 < √(2 : ℝ) := by positivity
  have hneg : A.rnd (x * cR A.rnd) < 0 := h.toRounding.neg (by nlinarith)
  have hge : cR A.rnd ≤ |A.rnd (x * cR A.rnd)| := by
    rw [abs_of_neg hneg, ← h.odd]
    have h1 : cR A.rnd ≤ -(x * cR A.rnd) := by nlinarith
    have := h.mono h1
    have e : A.rnd (cR A.rnd) = cR A.rnd := h.idem _
    rwa [e] at this
  unfold cdfR
  rw [if_neg (not_lt.mpr hge), if_neg (not_lt.mpr hneg.le), ht]
  have htn : t < 0 := by
    rw [ht, div_lt_iff₀ hs, zero_mul] at hneg; exact hneg
  have hy := half_erfc h hL t
  rw [abs_of_neg htn] at hy
  rw [abs_of_neg (by linarith : x < 0)] at htx
  have htail := tail_rel (s := -x) (t := -t) h0 hu (by linarith) (by rw [neg_sq]; exact hxu) (by
    rw [show -t - -x = -(t - x) by ring, abs_neg]; exact htx)
  rw [Phi_neg, Phi_neg, sub_sub_cancel, sub_sub_cancel, neg_sq] at htail
  rw [Phi_neg, sub_sub_cancel] at hy
  have hP : 0 < Phi x := gaussian_Iic_pos x
  have hm0 : 0 ≤ ε + u * (1 + ε) := by positivity
  have hk : 17 / 2 * x ^ 2 * u ≤ 17 / 512 := by linarith
  have hPt : Phi t ≤ 104 / 100 * Phi x := by
    have a1 := (abs_le.mp htail).2
    have a2 := mul_le_mul_of_nonneg_right hk hP.le
    linarith
  have h3 : (ε + u * (1 + ε)) * Phi t ≤ (ε + u * (1 + ε)) * (104 / 100 * Phi x) := mul_le_mul_of_nonneg_left hPt hm0
  have h4 := abs_add_le (A.rnd (1 / 2 * L.erfc |t / √2|) - Phi t) (Phi t - Phi x)
  rw [sub_add_sub_cancel] at h4
  have hx2 : 1 ≤ x ^ 2 := by nlinarith
  have h5 : u ≤ x ^ 2 * u := le_mul_of_one_le_left h0 hx2
  have h6 : u * ε ≤ u * (1 / 8) := mul_le_mul_of_nonneg_left hε h0
  have h7 : (ε + u * (1 + ε)) * (104 / 100) + 17 / 2 * x ^ 2 * u ≤ 2 * ε + 10 * x ^ 2 * u := by nlinarith
  have h8 := mul_le_mul_of_nonneg_right h7 hP.le
  linarith

/-! ## 53 bits: the upper tail is lost -/

theorem rnd53R_one_sub {y : ℝ} (h0 : 0 ≤ y) (h1 : y < 1 / 2 ^ 54) : rnd53R (1 - y) = 1 := by
  rcases h0.eq_or_lt with rfl | hp
  · rw [sub_zero]; exact rnd53R_sym.one
  have hx : 0 < 1 - y := by have : (1 : ℝ) / 2 ^ 54 < 1 := by norm_num
                            linarith
  obtain ⟨m, e1, e2, -, -⟩ := rnd53R_shape hx
  have hlog : Int.log 2 (1 - y) = -1 := by
    have : (1 : ℝ) / 2 ^ 54 < 1 / 2 := by norm_num
    have a1 : (-1 : ℤ) ≤ Int.log 2 (1 - y) := by
      rw [← Int.zpow_le_iff_le_log (by norm_num) hx]; norm_num; linarith
    have a2 : Int.log 2 (1 - y) < 0 := by
      rw [← Int.lt_zpow_iff_log_lt (by norm_num) hx]; norm_num; linarith
    omega
  rw [hlog] at e1 e2
  have e3 : m = 2 ^ 53 := by
    rw [e2]
    have e4 : (1 - y) / 2 ^ ((-1 : ℤ) - 52) = ((2 ^ 53 : ℤ) : ℝ) - y * 2 ^ 53 := by
      rw [show ((-1 : ℤ) - 52) = -((53 : ℕ) : ℤ) by norm_num, zpow_neg, zpow_natCast, div_inv_eq_mul]; push_cast; ring
    have hy : y * 2 ^ 53 < 1 / 2 := by
      have := mul_lt_mul_of_pos_right h1 (by positivity : (0 : ℝ) < 2 ^ 53)
      refine this.trans_le (by norm_num)
    have hy0 : 0 < y * 2 ^ 53 := by positivity
    rw [e4]
    unfold Fl.rint
    have hf : ⌊((2 ^ 53 : ℤ) : ℝ) - y * 2 ^ 53⌋ = 2 ^ 53 - 1 := by
      rw [Int.floor_eq_iff]
      push_cast
      constructor <;> linarith
    simp only [hf]
    rw [if_neg (by push_cast; linarith), if_pos (by push_cast; linarith)]
    norm_num
  rw [e1, e3]
  norm_num

theorem tail_numeric {t : ℝ} (ht : 8.49 ≤ t) : 1 - Phi t < 1 / 2 ^ 55 := by
  have h1 := Phi_mono ht
  have h2 := mills_upper (x := 8.49) (by norm_num)
  have h3 : phi 8.49 ≤ 2 / 5 * (1 / 2 ^ 51) := by
    unfold phi
    have a1 : (5 / 2 : ℝ) ≤ √(2 * π) := Real.le_sqrt_of_sq_le (by nlinarith [Real.pi_gt_d2])
    have a2 : rexp (-(8.49 : ℝ) ^ 2 / 2) ≤ 1 / 2 ^ 51 := by
      have b1 : rexp (-(8.49 : ℝ) ^ 2 / 2) ≤ rexp (-36) := Real.exp_le_exp.mpr (by norm_num)
      have b2 : rexp 36 = rexp 1 ^ 36 := by rw [← Real.exp_nat_mul]; norm_num
      have b3 : (2 : ℝ) ^ 51 ≤ rexp 36 := by
        rw [b2]
        have := pow_le_pow_left₀ (by norm_num) Real.exp_one_gt_d9.le 36
        exact le_trans (by norm_num) this
      rw [Real.exp_neg] at b1
      refine b1.trans ?_
      rw [one_div]
      exact inv_anti₀ (by positivity) b3
    rw [div_le_iff₀ (by positivity)]
    have : (0 : ℝ) < 1 / 2 ^ 51 := by positivity
    nlinarith
  have h4 : phi 8.49 / 8.49 ≤ 2 / 5 * (1 / 2 ^ 51) / 8.49 := div_le_div_of_nonneg_right h3 (by norm_num)
  have h5 : (2 / 5 * (1 / 2 ^ 51) / 8.49 : ℝ) < 1 / 2 ^ 55 := by norm_num
  linarith

theorem cdfR_right (hL : L.Acc ε) (hε : ε ≤ 1 / 8) (x : ℝ) (hx : 17 / 2 ≤ x) : cdfR rnd53R L x = 1 := by
  have h : SymRounding bin64R.rnd (1 / 2 ^ 53) := rnd53R_sym
  have hu : (1 : ℝ) / 2 ^ 53 ≤ 1 / 1024 := by norm_num
  obtain ⟨hc, hc2⟩ := cR_near h hu
  obtain ⟨t, ht, htx⟩ := arg_near h hu x
  have hs : 0 < √(2 : ℝ) := by positivity
  have hc' : 0 < cR rnd53R := hc
  have hge : cR rnd53R ≤ rnd53R (x * cR rnd53R) := by
    have h1 : cR rnd53R ≤ x * cR rnd53R := le_mul_of_one_le_left hc'.le (by linarith)
    have := h.mono h1
    have e : rnd53R (cR rnd53R) = cR rnd53R := h.idem _
    exact e.symm.le.trans this
  have hpos : 0 < rnd53R (x * cR rnd53R) := lt_of_lt_of_le hc' hge
  rw [abs_of_pos (by linarith : 0 < x)] at htx
  have ht1 : 8.49 ≤ t := by
    have := (abs_le.mp htx).1
    norm_num at this ⊢
    linarith
  have ht' : rnd53R (x * cR rnd53R) = t / √2 := ht
  unfold cdfR
  rw [if_neg (not_lt.mpr (hge.trans (le_abs_self _))), if_pos hpos, ht']
  have hy := half_erfc h hL t
  rw [abs_of_pos (by linarith : 0 < t)] at hy
  have hq := tail_numeric ht1
  have hq0 := tail_pos t
  have hε0 := hL.nonneg
  have hm : ε + 1 / 2 ^ 53 * (1 + ε) ≤ 13 / 100 := by norm_num; linarith
  have hmq := mul_le_mul_of_nonneg_right hm hq0.le
  obtain ⟨y1, y2⟩ := abs_le.mp hy
  have e : bin64R.rnd = rnd53R := rfl
  rw [e] at y1 y2
  refine rnd53R_one_sub (by linarith) ?_
  norm_num at hq ⊢
  linarith

theorem sf_rm (h : SymRounding A.rnd u) (d : Nat) (hd : d ≠ 0) (xs : List ℝ) (hx : xs ≠ []) :
    sf (⟨d, false, xs.map (Rm.fin A L)⟩ : Arr (Rm A L)) =
      .ok ⟨d, false, xs.map (fun x => Rm.fin A L (A.rnd (1 - cdfR A.rnd L x)))⟩ := by
  have hn : (xs.map (Rm.fin A L)).any PyNum.isNaN = false := by
    rw [List.any_eq_false]
    intro y hy
    obtain ⟨x, -, rfl⟩ := List.mem_map.mp hy
    exact Bool.false_ne_true
  have e1 : (lit 1 : Rm A L) = Rm.fin A L 1 := by rw [Rm.lit_fin]; norm_num [h.one]
  unfold sf
  rw [if_neg (by simpa using hx), hn, if_neg (by simp), cdf_rm h d hd xs hx]
  simp only [bind, Except.bind, e1, List.map_map]
  rfl

end NormalRnd

open NormalRnd

variable {A : Arith ℝ} {L : Libm} {u ε : ℝ}

/-- **C242** (`cdf` with rounding, and library functions of relative error `ε`): every computed value is within `4u + ε` of the
normal distribution function and lies in `(0, 1]`; in the lower tail the relative error is at most `2ε + 10x²u`. -/
theorem C242_cdf (h : SymRounding A.rnd u) (hu : u ≤ 1 / 1024) (hL : L.Acc ε) (hε : ε ≤ 1 / 8) :
    ∃ g : ℝ → ℝ, (∀ (d : Nat) (xs : List ℝ), d ≠ 0 → xs ≠ [] →
        cdf (⟨d, false, xs.map (Rm.fin A L)⟩ : Arr (Rm A L)) = .ok ⟨d, false, xs.map (fun x => Rm.fin A L (g x))⟩) ∧
      ∀ x, |g x - Phi x| ≤ 4 * u + ε ∧ 0 < g x ∧ g x ≤ 1 ∧
        (x ≤ -1 → x ^ 2 * u ≤ 1 / 256 → |g x - Phi x| ≤ (2 * ε + 10 * x ^ 2 * u) * Phi x) := by
  refine ⟨cdfR A.rnd L, fun d xs hd hx => cdf_rm h d hd xs hx, fun x => ?_⟩
  obtain ⟨h1, h2, h3⟩ := cdfR_near h hu hL hε x
  exact ⟨h1, h2, h3, fun a b => cdfR_left h hu hL hε x a b⟩

/-- **C242** (`sf` with rounding): the absolute error is at most `5u + ε`. -/
theorem C242_sf (h : SymRounding A.rnd u) (hu : u ≤ 1 / 1024) (hL : L.Acc ε) (hε : ε ≤ 1 / 8) :
    ∃ g : ℝ → ℝ, (∀ (d : Nat) (xs : List ℝ), d ≠ 0 → xs ≠ [] →
        sf (⟨d, false, xs.map (Rm.fin A L)⟩ : Arr (Rm A L)) = .ok ⟨d, false, xs.map (fun x => Rm.fin A L (g x))⟩) ∧
      ∀ x, |g x - (1 - Phi x)| ≤ 5 * u + ε ∧ 0 ≤ g x ∧ g x ≤ 1 := by
  refine ⟨fun x => A.rnd (1 - cdfR A.rnd L x), fun d xs hd hx => sf_rm h d hd xs hx, fun x => ?_⟩
  obtain ⟨h1, h2, h3⟩ := cdfR_near h hu hL hε x
  have h0 := h.nonneg
  have h4 := h.err (1 - cdfR A.rnd L x)
  rw [abs_of_nonneg (by linarith : 0 ≤ 1 - cdfR A.rnd L x)] at h4
  have h5 : u * (1 - cdfR A.rnd L x) ≤ u * 1 := mul_le_mul_of_nonneg_left (by linarith) h0
  refine ⟨?_, ?_, ?_⟩
  · have k1 := abs_le.mp h1
    have k2 := abs_le.mp h4
    rw [abs_le]
    constructor <;> linarith
  · have := h.mono (by linarith : (0 : ℝ) ≤ 1 - cdfR A.rnd L x)
    rwa [h.toRounding.zero] at this
  · have := h.mono (by linarith : 1 - cdfR A.rnd L x ≤ 1)
    rwa [h.one] at this

/-- **C242**, a finding: with 53 bits `sf` returns exactly 0, and `log_sf` minus infinity, for all samples from 8.5 on, although
the exact value is positive; `cdf` at the mirrored sample gives it with a relative error of at most `2ε + 10x²/2⁵³`. -/
theorem C242_sf_zero (hL : L.Acc ε) (hε : ε ≤ 1 / 8) (d : Nat) (hd : d ≠ 0) (xs : List ℝ) (hne : xs ≠ []) (hx : ∀ x ∈ xs, 17 / 2 ≤ x) :
    cdf (⟨d, false, xs.map (Rm.fin bin64R L)⟩ : Arr (Rm bin64R L)) = .ok ⟨d, false, List.replicate xs.length (Rm.fin bin64R L 1)⟩ ∧
      sf (⟨d, false, xs.map (Rm.fin bin64R L)⟩ : Arr (Rm bin64R L)) = .ok ⟨d, false, List.replicate xs.length (Rm.fin bin64R L 0)⟩ ∧
      logSf (⟨d, false, xs.map (Rm.fin bin64R L)⟩ : Arr (Rm bin64R L)) = .ok ⟨d, false, List.replicate xs.length (Rm.ninf bin64R L)⟩ ∧
      ∀ x ∈ xs, 0 < 1 - Phi x ∧ ∀ v, x ≤ 2 ^ 22 →
        cdf (⟨1, false, [Rm.fin bin64R L (-x)]⟩ : Arr (Rm bin64R L)) = .ok ⟨1, false, [Rm.fin bin64R L v]⟩ →
        |v - (1 - Phi x)| ≤ (2 * ε + 10 * x ^ 2 / 2 ^ 53) * (1 - Phi x) := by
  have h : SymRounding bin64R.rnd (1 / 2 ^ 53) := rnd53R_sym
  have e1 : xs.map (fun x => Rm.fin bin64R L (cdfR bin64R.rnd L x)) = List.replicate xs.length (Rm.fin bin64R L 1) := by
    rw [List.eq_replicate_iff]
    refine ⟨by simp, fun y hy => ?_⟩
    obtain ⟨x, hm, rfl⟩ := List.mem_map.mp hy
    exact congrArg _ (cdfR_right hL hε x (hx x hm))
  have e2 : xs.map (fun x => Rm.fin bin64R L (bin64R.rnd (1 - cdfR bin64R.rnd L x))) = List.replicate xs.length (Rm.fin bin64R L 0) := by
    rw [List.eq_replicate_iff]
    refine ⟨by simp, fun y hy => ?_⟩
    obtain ⟨x, hm, rfl⟩ := List.mem_map.mp hy
    have : cdfR bin64R.rnd L x = 1 := cdfR_right hL hε x (hx x hm)
    rw [this, sub_self, h.toRounding.zero]
  refine ⟨by rw [cdf_rm h d hd xs hne, e1], by rw [sf_rm h d hd xs hne, e2], ?_, fun x hm => ⟨tail_pos x, fun v hv hc => ?_⟩⟩
  · unfold logSf
    rw [sf_rm h d hd xs hne, e2]
    simp only [bind, Except.bind, List.map_replicate, Rm.log_zero]
  · have := cdf_rm (A := bin64R) (L := L) h 1 one_ne_zero [-x] (by simp)
    simp only [List.map_cons, List.map_nil] at this
    rw [this] at hc
    have hc' : cdfR bin64R.rnd L (-x) = v := by
      simp only [Except.ok.injEq, Arr.mk.injEq, List.cons.injEq, and_true, true_and] at hc
      exact Fl.fin.inj hc
    have h17 := hx x hm
    have hb : (-x) ^ 2 * (1 / 2 ^ 53) ≤ 1 / 256 := by
      rw [neg_sq]
      have : x ^ 2 ≤ (2 ^ 22) ^ 2 := pow_le_pow_left₀ (by linarith) hv 2
      have := mul_le_mul_of_nonneg_right this (by positivity : (0 : ℝ) ≤ 1 / 2 ^ 53)
      exact this.trans (by norm_num)
    have := cdfR_left h (by norm_num) hL hε (-x) (by linarith) hb
    rw [hc', Phi_neg, neg_sq] at this
    refine this.trans (le_of_eq ?_)
    ring

/-! ## The hypotheses are met -/

/-- the exact library functions, and a library that is off by a thousandth -/
example : (⟨rexp, Real.log, erfR, fun x => 1 - erfR x⟩ : Libm).Acc 0 ∧
    (⟨rexp, Real.log, fun x => 1001 / 1000 * erfR x, fun x => 999 / 1000 * (1 - erfR x)⟩ : Libm).Acc (1 / 1000) := by
  refine ⟨⟨le_rfl, fun x => by simp, fun x _ => by simp, fun x => by simp, fun x => by simp⟩,
    ⟨by norm_num, fun x => ?_, fun x _ => ?_, fun x => ?_, fun x => ?_⟩⟩
  · show |rexp x - rexp x| ≤ _
    rw [sub_self, abs_zero]; positivity
  · show |Real.log x - Real.log x| ≤ _
    rw [sub_self, abs_zero]; positivity
  · show |1001 / 1000 * erfR x - erfR x| ≤ _
    rw [show 1001 / 1000 * erfR x - erfR x = 1 / 1000 * erfR x by ring, abs_mul]; norm_num
  · show |999 / 1000 * (1 - erfR x) - (1 - erfR x)| ≤ _
    rw [show 999 / 1000 * (1 - erfR x) - (1 - erfR x) = -(1 / 1000 * (1 - erfR x)) by ring, abs_neg, abs_mul]; norm_num

example : SymRounding bin64R.rnd (1 / 2 ^ 53) ∧ (1 : ℝ) / 2 ^ 53 ≤ 1 / 1024 := ⟨rnd53R_sym, by norm_num⟩

end Proadv.Props
