import Verif.Props.Kde6

/-!
# Property C119: a record whose flagged samples depend on the unit
-/

set_option linter.unusedSectionVars false

namespace Proadv.Props

open Proadv Fl KernelDetect Spread Detect

/-- eight samples, symmetric about both axes -/
def crossU : List ℝ := [3, -3, 0, 0, 1, -1, 0, 0]
def crossW : List ℝ := [0, 0, 3, -3, 0, 0, 1, -1]

theorem cross_var_u : Spec.var crossU = 5 / 2 := by norm_num [crossU, Spec.var, Spec.cmoment, Spec.avg]
theorem cross_var_w : Spec.var crossW = 5 / 2 := by norm_num [crossW, Spec.var, Spec.cmoment, Spec.avg]
theorem cross_cov : Spec.cov crossU crossW = 0 := by norm_num [crossU, crossW, Spec.cov, Spec.avg]

theorem cross_rot : rotR crossU crossW = [(3, 0), (-3, 0), (0, 3), (0, -3), (1, 0), (-1, 0), (0, 1), (0, -1)] := by
  have h : Complex.arg ⟨Spec.var crossU, Spec.cov crossU crossW⟩ = 0 := by
    rw [cross_var_u, cross_cov]
    exact Complex.arg_ofReal_of_nonneg (by norm_num)
  unfold rotR
  rw [h]
  simp [crossU, crossW]

theorem cross_frame {g : Nat} {x0 x1 y0 y1 : ℝ} {P Q : Nat} {m : ℝ} (fr : Frame crossU crossW g x0 x1 y0 y1 P Q m) :
    x0 = -3 ∧ x1 = 3 ∧ y0 = -3 ∧ y1 = 3 := by
  obtain ⟨h1, h2, h3, h4, -⟩ := fr
  rw [cross_rot] at h1 h2 h3 h4
  simp only [List.map_cons, List.map_nil, List.mem_cons, List.not_mem_nil, or_false, forall_eq_or_imp, forall_eq] at h1 h2 h3 h4
  refine ⟨?_, ?_, ?_, ?_⟩
  · rcases h1.1 with h | h | h | h | h | h | h | h <;> linarith [h1.2.2.1]
  · rcases h2.1 with h | h | h | h | h | h | h | h <;> linarith [h2.2.1]
  · rcases h3.1 with h | h | h | h | h | h | h | h <;> linarith [h3.2.2.2.2.1]
  · rcases h4.1 with h | h | h | h | h | h | h | h <;> linarith [h4.2.2.2.1]

/-- the kernel density of the record -/
noncomputable def crossF (x y : ℝ) : ℝ :=
  Spec.kdeAt (10 / 7) 0 (10 / 7) [(3, 0), (-3, 0), (0, 3), (0, -3), (1, 0), (-1, 0), (0, 1), (0, -1)] x y

theorem cross_table (uf wf : List ℝ) : densityTable crossU crossW uf wf = uf.map (fun x => wf.map (fun y => crossF x y)) := by
  have h8 : ((crossU.length : ℝ)) ^ (-1 / 3 : ℝ) = 1 / 2 := by
    have : (crossU.length : ℝ) = (2 : ℝ) ^ (3 : ℝ) := by norm_num [crossU]
    rw [this, ← Real.rpow_mul (by norm_num)]
    norm_num [Real.rpow_neg_one]
  unfold densityTable crossF
  simp only
  rw [h8, cross_rot]
  have e1 : (1 / 2 : ℝ) * Spec.scov [3, -3, 0, 0, 1, -1, 0, 0] [3, -3, 0, 0, 1, -1, 0, 0] = 10 / 7 := by
    norm_num [Spec.scov, Spec.dot, Spec.dev, Spec.avg]
  have e2 : (1 / 2 : ℝ) * Spec.scov [3, -3, 0, 0, 1, -1, 0, 0] [0, 0, 3, -3, 0, 0, 1, -1] = 0 := by
    norm_num [Spec.scov, Spec.dot, Spec.dev, Spec.avg]
  have e3 : (1 / 2 : ℝ) * Spec.scov [0, 0, 3, -3, 0, 0, 1, -1] [0, 0, 3, -3, 0, 0, 1, -1] = 10 / 7 := by
    norm_num [Spec.scov, Spec.dot, Spec.dev, Spec.avg]
  simp only [List.map_cons, List.map_nil]
  rw [e1, e2, e3]

theorem normal_diag (x y : ℝ) : Spec.normal2 (10 / 7) 0 (10 / 7) x y =
    Real.exp (-(7 / 20) * x ^ 2) * Real.exp (-(7 / 20) * y ^ 2) * (7 / (20 * Real.pi)) := by
  unfold Spec.normal2
  rw [← Real.exp_add]
  have e1 : √((10 / 7 : ℝ) * (10 / 7) - 0 ^ 2) = 10 / 7 := by
    rw [show (10 / 7 : ℝ) * (10 / 7) - 0 ^ 2 = (10 / 7) ^ 2 by norm_num, Real.sqrt_sq (by norm_num)]
  rw [e1]
  have e2 : -((10 / 7 : ℝ) * x ^ 2 - 2 * 0 * x * y + 10 / 7 * y ^ 2) / (2 * (10 / 7 * (10 / 7) - 0 ^ 2)) =
      -(7 / 20) * x ^ 2 + -(7 / 20) * y ^ 2 := by ring
  rw [e2]
  have hp := Real.pi_pos
  field_simp
  ring

/-- `e^(-7/20 t²)` is larger nearer to 0 -/
theorem gauss_mono {s t : ℝ} (h : s ^ 2 ≤ t ^ 2) : Real.exp (-(7 / 20) * t ^ 2) ≤ Real.exp (-(7 / 20) * s ^ 2) :=
  Real.exp_le_exp.mpr (by linarith)

/-- the sample next to the extreme one wins half a grid step inwards -/
theorem gauss_gain : Real.exp (-(7 / 20) * (0 : ℝ) ^ 2) + Real.exp (-(7 / 20) * (2 : ℝ) ^ 2) <
    Real.exp (-(7 / 20) * (1 / 2 : ℝ) ^ 2) + Real.exp (-(7 / 20) * (3 / 2 : ℝ) ^ 2) := by
  set q := Real.exp (-(7 / 80)) with hq
  have e1 : Real.exp (-(7 / 20) * (1 / 2 : ℝ) ^ 2) = q := by rw [hq]; congr 1; norm_num
  have e2 : Real.exp (-(7 / 20) * (3 / 2 : ℝ) ^ 2) = q ^ 9 := by rw [hq, ← Real.exp_nat_mul]; congr 1; norm_num
  have e3 : Real.exp (-(7 / 20) * (2 : ℝ) ^ 2) = q ^ 16 := by rw [hq, ← Real.exp_nat_mul]; congr 1; norm_num
  have e4 : Real.exp (-(7 / 20) * (0 : ℝ) ^ 2) = 1 := by norm_num
  rw [e1, e2, e3, e4]
  have h1 : 9 / 10 ≤ q := by
    have := Real.add_one_le_exp (-(7 / 80) : ℝ)
    rw [← hq] at this; linarith
  have h2 : q < 1 := by rw [hq]; exact Real.exp_lt_one_iff.mpr (by norm_num)
  have h3 : (9 / 10 : ℝ) ^ 9 ≤ q ^ 9 := pow_le_pow_left₀ (by norm_num) h1 9
  have h4 : ∀ k : ℕ, (9 / 10 : ℝ) ^ k ≤ q ^ k := fun k => pow_le_pow_left₀ (by norm_num) h1 k
  have h5 : (1 : ℝ) < q ^ 9 * (1 + q + q ^ 2 + q ^ 3 + q ^ 4 + q ^ 5 + q ^ 6) := by
    have h6 : (5 : ℝ) < 1 + q + q ^ 2 + q ^ 3 + q ^ 4 + q ^ 5 + q ^ 6 := by
      have a2 := h4 2; have a3 := h4 3; have a4 := h4 4; have a5 := h4 5; have a6 := h4 6
      norm_num at a2 a3 a4 a5 a6
      linarith
    norm_num at h3
    nlinarith
  nlinarith [mul_pos (sub_pos.mpr h2) (sub_pos.mpr h5)]

theorem crossF_eq (x y : ℝ) : crossF x y = 7 / (160 * Real.pi) *
    (Real.exp (-(7 / 20) * y ^ 2) * (Real.exp (-(7 / 20) * (x - 3) ^ 2) + Real.exp (-(7 / 20) * (x + 3) ^ 2) +
        Real.exp (-(7 / 20) * (x - 1) ^ 2) + Real.exp (-(7 / 20) * (x + 1) ^ 2)) +
      Real.exp (-(7 / 20) * x ^ 2) * (Real.exp (-(7 / 20) * (y - 3) ^ 2) + Real.exp (-(7 / 20) * (y + 3) ^ 2) +
        Real.exp (-(7 / 20) * (y - 1) ^ 2) + Real.exp (-(7 / 20) * (y + 1) ^ 2))) := by
  unfold crossF Spec.kdeAt
  simp only [List.map_cons, List.map_nil, normal_diag, List.sum_cons, List.sum_nil, List.length_cons, List.length_nil, sub_zero,
    sub_neg_eq_add]
  have hp := Real.pi_pos.ne'
  field_simp
  push_cast
  ring

theorem crossF_symm (x y : ℝ) : crossF x y = crossF y x := by
  rw [crossF_eq, crossF_eq]; ring

/-- the maximum is not on the first row -/
theorem crossF_edge (y : ℝ) : crossF (-3) y < crossF (-5 / 2) y := by
  rw [crossF_eq, crossF_eq]
  have hp : 0 < 7 / (160 * Real.pi) := by have := Real.pi_pos; positivity
  apply mul_lt_mul_of_pos_left _ hp
  apply add_lt_add_of_lt_of_le
  · apply mul_lt_mul_of_pos_left _ (Real.exp_pos _)
    have g1 : Real.exp (-(7 / 20) * ((-3 : ℝ) - 3) ^ 2) ≤ Real.exp (-(7 / 20) * ((-5 / 2 : ℝ) - 3) ^ 2) := gauss_mono (by norm_num)
    have g2 : Real.exp (-(7 / 20) * ((-3 : ℝ) - 1) ^ 2) ≤ Real.exp (-(7 / 20) * ((-5 / 2 : ℝ) - 1) ^ 2) := gauss_mono (by norm_num)
    have g3 := gauss_gain
    rw [show ((-3 : ℝ) + 3) ^ 2 = 0 ^ 2 by norm_num, show ((-3 : ℝ) + 1) ^ 2 = 2 ^ 2 by norm_num,
      show ((-5 / 2 : ℝ) + 3) ^ 2 = (1 / 2) ^ 2 by norm_num, show ((-5 / 2 : ℝ) + 1) ^ 2 = (3 / 2) ^ 2 by norm_num]
    linarith
  · exact mul_le_mul_of_nonneg_right (gauss_mono (by norm_num)) (by positivity)

theorem grid13 (i : Nat) (hi : i < 13) : (gridR (-3) 3 13)[i]? = some (-3 + (i : ℝ) / 2) := by
  unfold gridR
  rw [List.getElem?_map, List.getElem?_range hi]
  simp only [Option.map_some, Option.some.injEq]
  push_cast
  ring

theorem cross_get (i j : Nat) (hi : i < 13) (hj : j < 13) :
    ((densityTable crossU crossW (gridR (-3) 3 13) (gridR (-3) 3 13)).getD i [])[j]? =
      some (crossF (-3 + (i : ℝ) / 2) (-3 + (j : ℝ) / 2)) := by
  rw [cross_table, List.getD_eq_getElem?_getD, List.getElem?_map, grid13 i hi]
  simp only [Option.map_some, Option.getD_some]
  rw [List.getElem?_map, grid13 j hj]
  rfl

/-- the peak node is not on the first row or column -/
theorem cross_peak {P Q : Nat} {m : ℝ} (h : IsPeak (densityTable crossU crossW (gridR (-3) 3 13) (gridR (-3) 3 13)) P Q m)
    (hP : P < 13) (hQ : Q < 13) : P ≠ 0 ∧ Q ≠ 0 := by
  have hval : ∀ i j : ℕ, i < 13 → j < 13 → crossF (-3 + (i : ℝ) / 2) (-3 + (j : ℝ) / 2) ≤ m := by
    intro i j hi hj
    have hl := (table_shape crossU crossW 13 (-3) 3 (-3) 3).1
    refine h.2.2.1 ((densityTable crossU crossW (gridR (-3) 3 13) (gridR (-3) 3 13)).getD i []) ?_ _
      (List.mem_of_getElem? (cross_get i j hi hj))
    rw [List.getD_eq_getElem?_getD, List.getElem?_eq_getElem (by omega)]
    exact List.getElem_mem _
  have hm : m = crossF (-3 + (P : ℝ) / 2) (-3 + (Q : ℝ) / 2) := by
    have := h.1
    rw [cross_get P Q hP hQ] at this
    simpa using this.symm
  have e : (-3 + ((1 : ℕ) : ℝ) / 2) = -5 / 2 := by norm_num
  constructor
  · rintro rfl
    have h1 := hval 1 Q (by norm_num) hQ
    have h2 := crossF_edge (-3 + (Q : ℝ) / 2)
    rw [e] at h1
    rw [hm] at h1
    simp only [Nat.cast_zero, zero_div, add_zero] at h1
    linarith
  · rintro rfl
    have h1 := hval P 1 hP (by norm_num)
    have h2 := crossF_edge (-3 + (P : ℝ) / 2)
    rw [e] at h1
    rw [hm] at h1
    simp only [Nat.cast_zero, zero_div, add_zero] at h1
    rw [crossF_symm _ (-5 / 2), crossF_symm _ (-3)] at h1
    linarith

/-- **C119** the flagged samples depend on the unit: the same record (eight samples, grid 13) expressed in two units gives
different indices. -/
theorem C119_unit_dependent : ∃ s s' : ℝ, 0 < s ∧ 0 < s' ∧ ∃ r r' : List Nat,
    kernel (kdeGrid chol2 13) (fins (scaleL s crossU)) (fins (scaleL s crossW)) 13 = .ok r ∧
    kernel (kdeGrid chol2 13) (fins (scaleL s' crossU)) (fins (scaleL s' crossW)) 13 = .ok r' ∧
    (4 ∉ r ∧ 5 ∉ r) ∧ (4 ∈ r' ∨ 5 ∈ r') := by
  have hc : Spec.var crossU * Spec.var crossW ≠ Spec.cov crossU crossW ^ 2 := by
    rw [cross_var_u, cross_var_w, cross_cov]; norm_num
  have hlen : crossU.length = crossW.length := rfl
  have hn : 2 ≤ crossU.length := by simp [crossU]
  obtain ⟨x0, x1, y0, y1, P, Q, m, fr⟩ := exists_frame crossU crossW hlen hn 13 (by norm_num)
  obtain ⟨rfl, rfl, rfl, rfl⟩ := cross_frame fr
  obtain ⟨hP, hQ, -⟩ := profile_facts crossU crossW hlen hn hc 13 _ _ _ _ P Q m fr
  obtain ⟨hP0, hQ0⟩ := cross_peak fr.peak hP hQ
  obtain ⟨s0, a0, a1⟩ := C119_small crossU crossW hlen hn hc 13 (by norm_num) _ _ _ _ P Q m fr
  obtain ⟨s1, b0, b1⟩ := C119_large crossU crossW hlen hn hc 13 (by norm_num) _ _ _ _ P Q m fr
  obtain ⟨r, run⟩ := a1 (s0 / 2) (by linarith) (by linarith)
  obtain ⟨r', run'⟩ := b1 (s1 + 1) (by linarith)
  refine ⟨s0 / 2, s1 + 1, by linarith, by linarith, r, r', run.run, run'.run, ?_, ?_⟩
  · have hf := run.flags (by norm_num) (by norm_num)
    rw [cross_rot] at hf
    constructor
    · rw [hf 4]
      rintro ⟨p, hp, hlt⟩
      simp only [List.getElem?_cons_succ, List.getElem?_cons_zero, Option.some.injEq] at hp
      subst hp
      norm_num at hlt
    · rw [hf 5]
      rintro ⟨p, hp, hlt⟩
      simp only [List.getElem?_cons_succ, List.getElem?_cons_zero, Option.some.injEq] at hp
      subst hp
      norm_num at hlt
  · have hf := run'.flags (by omega) (by omega)
    rw [cross_rot] at hf
    by_contra hno
    rw [not_or] at hno
    obtain ⟨h4, h5⟩ := hno
    rw [hf 4] at h4
    rw [hf 5] at h5
    set l := max (P - 1) 1 with hl
    set u := min (P + 1) (13 - 1) with hu
    have hlu : l < u := by omega
    have hul : u ≤ l + 2 := by omega
    have c1 : (l : ℝ) < u := by exact_mod_cast hlu
    have c2 : (u : ℝ) ≤ l + 2 := by exact_mod_cast hul
    have i4 := not_lt.mp (fun hh => h4 ⟨(1, 0), rfl, hh⟩)
    have i5 := not_lt.mp (fun hh => h5 ⟨(-1, 0), rfl, hh⟩)
    push_cast at i4 i5
    set C : ℝ := -3 + (3 - -3) * ((l : ℝ) + u) / (2 * (13 - 1)) with hC
    set A : ℝ := (3 - -3) * ((u : ℝ) - l) / (2 * (13 - 1)) with hA
    have hA0 : 0 < A := by rw [hA]; apply div_pos <;> nlinarith
    have hA1 : A ≤ 1 / 2 := by rw [hA, div_le_iff₀ (by norm_num)]; linarith
    have j4 : ((1 - C) / A) ^ 2 ≤ 1 := by
      refine le_trans ?_ i4
      exact le_add_of_nonneg_right (sq_nonneg _)
    have j5 : ((-1 - C) / A) ^ 2 ≤ 1 := by
      refine le_trans ?_ i5
      exact le_add_of_nonneg_right (sq_nonneg _)
    rw [div_pow, div_le_one (by positivity)] at j4 j5
    have k4 := abs_le.mp (abs_le_of_sq_le_sq j4 hA0.le)
    have k5 := abs_le.mp (abs_le_of_sq_le_sq j5 hA0.le)
    linarith [k4.1, k4.2, k5.1, k5.2]

end Proadv.Props
