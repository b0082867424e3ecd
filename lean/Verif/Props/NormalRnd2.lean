import Verif.Props.NormalRnd

/-!
# The normal density in rounded arithmetic (C243)
-/

set_option linter.unusedSectionVars false

namespace Proadv.Props

open Proadv Proadv.Normal Real ProbabilityTheory

namespace NormalRnd

variable {A : Arith ℝ} {L : Libm} {u ε : ℝ}

/-- the computed exponent -/
noncomputable def expoR (fl : ℝ → ℝ) (L : Libm) (s m v : ℝ) : ℝ :=
  fl (fl (fl (-1 / 2 * L.log (fl (2 * fl π))) - L.log s) - fl (fl (fl (v - m) ^ 2) / fl (2 * fl (s * s))))

theorem pdfEntry_rm (h : SymRounding A.rnd u) (s m v : ℝ) (hs : 0 < s) :
    pdfEntry (Rm.fin A L s) (Rm.fin A L m) (Rm.fin A L v) = Rm.fin A L (L.exp (expoR A.rnd L s m v)) := by
  have e2 : (lit 2 : Rm A L) = Rm.fin A L 2 := by rw [Rm.lit_fin]; norm_num [h.two]
  have eh : (lit (-1 / 2) : Rm A L) = Rm.fin A L (-1 / 2) := by
    rw [Rm.lit_fin]
    have := h.half
    push_cast
    rw [show (-1 / 2 : ℝ) = -(1 / 2) by norm_num, h.odd, this]
  have hp : 0 < A.rnd (2 * A.rnd π) := h.toRounding.pos (mul_pos (by norm_num) (h.toRounding.pos Real.pi_pos))
  have hd : A.rnd (2 * A.rnd (s * s)) ≠ 0 :=
    h.toRounding.ne (mul_pos (by norm_num) (h.toRounding.pos (mul_pos hs hs))).ne'
  unfold pdfEntry expoR
  simp only [e2, eh, Rm.pi_fin, Rm.mul_fin, Rm.sub_fin, Rm.npow_fin, Rm.log_fin A L hp, Rm.log_fin A L hs, Rm.div_fin A L hd, Rm.exp_fin]

/-- the exact exponent -/
noncomputable def expo (s m v : ℝ) : ℝ := -1 / 2 * Real.log (2 * π) - Real.log s - (v - m) ^ 2 / (2 * (s * s))

theorem exp_expo (s m v : ℝ) (hs : 0 < s) : rexp (expo s m v) = gaussianPDFReal m (s ^ 2).toNNReal v := by
  have h := pdfEntry_fin s m v hs
  unfold pdfEntry at h
  have h2pi : 0 < 2 * π := by positivity
  simp only [Fl.lit_eq, Fl.ppi, Fl.pmul_fin, Fl.psub_fin, Fl.pnpow_fin] at h
  rw [Fl.plog_fin (by push_cast; exact h2pi), Fl.plog_fin hs, Fl.pdiv_fin (by push_cast; positivity)] at h
  simp only [Fl.pmul_fin, Fl.psub_fin, Fl.pexp_fin] at h
  have := Fl.fin.inj h
  rw [← this]
  unfold expo
  push_cast
  rfl

/-- a product of rounded factors -/
private theorem rel_mul {a b a' b' α β : ℝ} (ha : |a' - a| ≤ α * |a|) (hb : |b' - b| ≤ β * |b|) (hα : 0 ≤ α) :
    |a' * b' - a * b| ≤ (α + β + α * β) * |a * b| := by
  have e : a' * b' - a * b = (a' - a) * b' + a * (b' - b) := by ring
  have hb' : |b'| ≤ (1 + β) * |b| := by
    have := abs_add_le (b' - b) b; rw [sub_add_cancel] at this; linarith
  rw [e, abs_mul a b]
  have h1 : |(a' - a) * b'| ≤ α * |a| * ((1 + β) * |b|) := by
    rw [abs_mul]; exact mul_le_mul ha hb' (abs_nonneg _) (mul_nonneg hα (abs_nonneg _))
  have h2 : |a * (b' - b)| ≤ |a| * (β * |b|) := by
    rw [abs_mul]; exact mul_le_mul_of_nonneg_left hb (abs_nonneg _)
  have := abs_add_le ((a' - a) * b') (a * (b' - b))
  linarith

/-- rounding after an inexact value -/
private theorem rel_rnd (h : SymRounding A.rnd u) {a a' α : ℝ} (ha : |a' - a| ≤ α * |a|) :
    |A.rnd a' - a| ≤ (α + u + α * u) * |a| := by
  have h1 := h.err a'
  have h2 : |a'| ≤ (1 + α) * |a| := by
    have := abs_add_le (a' - a) a; rw [sub_add_cancel] at this; linarith
  have h3 := abs_add_le (A.rnd a' - a') (a' - a)
  rw [sub_add_sub_cancel] at h3
  have h4 := mul_le_mul_of_nonneg_left h2 h.nonneg
  linarith

private theorem rel_weaken {a a' α β : ℝ} (ha : |a' - a| ≤ α * |a|) (hl : α ≤ β) : |a' - a| ≤ β * |a| :=
  ha.trans (mul_le_mul_of_nonneg_right hl (abs_nonneg _))

/-- the quadratic part -/
private theorem quad_near (h : SymRounding A.rnd u) (hu : u ≤ 1 / 1024) (s m v : ℝ) (hs : 0 < s) :
    |A.rnd (A.rnd (A.rnd (v - m) ^ 2) / A.rnd (2 * A.rnd (s * s))) - (v - m) ^ 2 / (2 * (s * s))| ≤
      63 / 10 * u * ((v - m) ^ 2 / (2 * (s * s))) := by
  have h0 := h.nonneg
  have d1 : |A.rnd (v - m) - (v - m)| ≤ u * |v - m| := h.err _
  have d2 := rel_weaken (rel_mul d1 d1 h0) (show u + u + u * u ≤ 201 / 100 * u by nlinarith)
  have d3 := rel_weaken (rel_rnd h d2) (show 201 / 100 * u + u + 201 / 100 * u * u ≤ 302 / 100 * u by nlinarith)
  rw [← sq, ← sq] at d3
  have s1 : |A.rnd (s * s) - s * s| ≤ u * |s * s| := h.err _
  have t1 : |(2 : ℝ) - 2| ≤ 0 * |(2 : ℝ)| := by simp
  have s2 := rel_weaken (rel_rnd h (rel_mul t1 s1 le_rfl)) (show 0 + u + 0 * u + u + (0 + u + 0 * u) * u ≤ 201 / 100 * u by nlinarith)
  set q := A.rnd (2 * A.rnd (s * s)) with hq
  have hss : 0 < 2 * (s * s) := by positivity
  rw [abs_of_pos hss] at s2
  have hq0 : 0 < q := by have := (abs_le.mp s2).1; nlinarith
  have i1 : |1 / q - 1 / (2 * (s * s))| ≤ 203 / 100 * u * |1 / (2 * (s * s))| := by
    rw [abs_of_pos (by positivity : 0 < 1 / (2 * (s * s))), div_sub_div _ _ hq0.ne' hss.ne', abs_div, abs_of_pos (mul_pos hq0 hss),
      div_le_iff₀ (mul_pos hq0 hss), one_mul, mul_one, abs_sub_comm]
    have e : 203 / 100 * u * (1 / (2 * (s * s))) * (q * (2 * (s * s))) = 203 / 100 * u * q := by field_simp
    rw [e]
    have hq1 : (1 - 201 / 100 * u) * (2 * (s * s)) ≤ q := by have := (abs_le.mp s2).1; linarith
    have hq2 := mul_le_mul_of_nonneg_left hq1 (by positivity : 0 ≤ 203 / 100 * u)
    have hq3 : 201 / 100 * u ≤ 203 / 100 * u * (1 - 201 / 100 * u) := by nlinarith
    have hq4 := mul_le_mul_of_nonneg_right hq3 hss.le
    linarith
  have f1 := rel_weaken (rel_mul d3 i1 (by positivity)) (show 302 / 100 * u + 203 / 100 * u + 302 / 100 * u * (203 / 100 * u) ≤ 52 / 10 * u by nlinarith)
  have f2 := rel_weaken (rel_rnd h f1) (show 52 / 10 * u + u + 52 / 10 * u * u ≤ 63 / 10 * u by nlinarith)
  rw [← div_eq_mul_one_div, ← div_eq_mul_one_div] at f2
  rwa [abs_of_nonneg (by positivity : 0 ≤ (v - m) ^ 2 / (2 * (s * s)))] at f2

/-- the constant `-½ log 2π` -/
private theorem const_near (h : SymRounding A.rnd u) (hu : u ≤ 1 / 1024) (hL : L.Acc ε) (hε : ε ≤ 1 / 1024) :
    |A.rnd (-1 / 2 * L.log (A.rnd (2 * A.rnd π))) - -1 / 2 * Real.log (2 * π)| ≤ 22 / 10 * u + ε ∧ |-1 / 2 * Real.log (2 * π)| ≤ 95 / 100 := by
  have h0 := h.nonneg
  have hε0 := hL.nonneg
  have t1 : |(2 : ℝ) - 2| ≤ 0 * |(2 : ℝ)| := by simp
  have p1 : |A.rnd π - π| ≤ u * |π| := h.err _
  have p2 := rel_weaken (rel_rnd h (rel_mul t1 p1 le_rfl)) (show 0 + u + 0 * u + u + (0 + u + 0 * u) * u ≤ 201 / 100 * u by nlinarith)
  have h2pi : 0 < 2 * π := by positivity
  set a := A.rnd (2 * A.rnd π) with ha
  rw [abs_of_pos h2pi] at p2
  obtain ⟨p3, p4⟩ := abs_le.mp p2
  have ha0 : 0 < a := by nlinarith
  -- logarithms
  have hl : |Real.log a - Real.log (2 * π)| ≤ 203 / 100 * u := by
    rw [← Real.log_div ha0.ne' h2pi.ne']
    have hr0 : 0 < a / (2 * π) := by positivity
    have hr1 : a / (2 * π) ≤ 1 + 201 / 100 * u := by rw [div_le_iff₀ h2pi]; linarith
    have hr2 : 1 - 201 / 100 * u ≤ a / (2 * π) := by rw [le_div_iff₀ h2pi]; linarith
    have k1 := Real.log_le_sub_one_of_pos hr0
    have k2 := Real.one_sub_inv_le_log_of_pos hr0
    rw [abs_le]
    refine ⟨?_, by linarith⟩
    have k3 : (a / (2 * π))⁻¹ ≤ 1 + 203 / 100 * u := by
      rw [inv_le_comm₀ hr0 (by positivity)]
      refine le_trans ?_ hr2
      rw [inv_le_iff_one_le_mul₀ (by positivity)]
      nlinarith
    linarith
  have hbig : 0 ≤ Real.log (2 * π) ∧ Real.log (2 * π) ≤ 19 / 10 := by
    constructor
    · exact Real.log_nonneg (by nlinarith [Real.pi_gt_three])
    · rw [Real.log_le_iff_le_exp h2pi]
      have b1 : rexp (19 / 10) = rexp 1 ^ 2 / rexp (1 / 10) := by
        rw [← Real.exp_nat_mul, ← Real.exp_sub]; norm_num
      have b2 : rexp (1 / 10) ≤ 10 / 9 := by
        have h := Real.add_one_le_exp (-(1 / 10 : ℝ))
        rw [Real.exp_neg] at h
        have hp := Real.exp_pos (1 / 10)
        rw [← sub_nonneg]
        have h3 : (9 / 10 : ℝ) * rexp (1 / 10) ≤ 1 := by
          have := mul_le_mul_of_nonneg_right h hp.le
          rw [inv_mul_cancel₀ hp.ne'] at this; linarith
        linarith
      rw [b1, le_div_iff₀ (Real.exp_pos _)]
      have b3 := Real.exp_one_gt_d9
      have b4 := Real.pi_lt_d2
      have b5 : (2.718 : ℝ) ^ 2 ≤ rexp 1 ^ 2 := pow_le_pow_left₀ (by norm_num) (by linarith) 2
      have b6 : 2 * π * rexp (1 / 10) ≤ 2 * π * (10 / 9) := mul_le_mul_of_nonneg_left b2 h2pi.le
      nlinarith
  have hLa := hL.log a ha0
  set g := L.log a with hg
  have hla : |Real.log a| ≤ 191 / 100 := by
    have := abs_add_le (Real.log a - Real.log (2 * π)) (Real.log (2 * π))
    rw [sub_add_cancel, abs_of_nonneg hbig.1] at this
    linarith [hbig.2]
  have hLa' : ε * |Real.log a| ≤ ε * (191 / 100) := mul_le_mul_of_nonneg_left hla hε0
  have c1 : |-1 / 2 * g - -1 / 2 * Real.log (2 * π)| ≤ 96 / 100 * ε + 102 / 100 * u := by
    rw [← mul_sub, abs_mul, show |(-1 / 2 : ℝ)| = 1 / 2 by rw [abs_of_neg (by norm_num)]; norm_num]
    have := abs_add_le (g - Real.log a) (Real.log a - Real.log (2 * π))
    rw [sub_add_sub_cancel] at this
    linarith
  have c0 : |-1 / 2 * Real.log (2 * π)| ≤ 95 / 100 := by
    rw [abs_mul, show |(-1 / 2 : ℝ)| = 1 / 2 by rw [abs_of_neg (by norm_num)]; norm_num, abs_of_nonneg hbig.1]
    linarith [hbig.2]
  have c2 := h.err (-1 / 2 * g)
  have c3 : |-1 / 2 * g| ≤ 96 / 100 := by
    have := abs_add_le (-1 / 2 * g - -1 / 2 * Real.log (2 * π)) (-1 / 2 * Real.log (2 * π))
    rw [sub_add_cancel] at this
    linarith
  have c4 := mul_le_mul_of_nonneg_left c3 h0
  have c5 := abs_add_le (A.rnd (-1 / 2 * g) - -1 / 2 * g) (-1 / 2 * g - -1 / 2 * Real.log (2 * π))
  rw [sub_add_sub_cancel] at c5
  exact ⟨by linarith, c0⟩

/-- the error of the exponent -/
noncomputable def expoErr (u ε s z : ℝ) : ℝ := 5 * u + 2 * ε + 3 * (u + ε) * |Real.log s| + 4 * u * z ^ 2

theorem expoR_near (h : SymRounding A.rnd u) (hu : u ≤ 1 / 1024) (hL : L.Acc ε) (hε : ε ≤ 1 / 1024) (s m v : ℝ) (hs : 0 < s) :
    |expoR A.rnd L s m v - expo s m v| ≤ expoErr u ε s ((v - m) / s) := by
  have h0 := h.nonneg
  have hε0 := hL.nonneg
  obtain ⟨c1, c2⟩ := const_near h hu hL hε
  have q1 := quad_near h hu s m v hs
  have hls := hL.log s hs
  unfold expoR expo expoErr
  set a := A.rnd (-1 / 2 * L.log (A.rnd (2 * A.rnd π))) with ha
  set k := -1 / 2 * Real.log (2 * π) with hk
  set l := Real.log s with hl
  set g := L.log s with hg
  set Y := A.rnd (A.rnd (A.rnd (v - m) ^ 2) / A.rnd (2 * A.rnd (s * s))) with hY
  have hy : ((v - m) / s) ^ 2 = 2 * ((v - m) ^ 2 / (2 * (s * s))) := by field_simp
  rw [hy]
  set y := (v - m) ^ 2 / (2 * (s * s)) with hyd
  have hy0 : 0 ≤ y := by positivity
  have hl0 := abs_nonneg l
  have x1 := h.err (a - g)
  have x2 : |(a - g) - (k - l)| ≤ 22 / 10 * u + ε + ε * |l| := by
    rw [show (a - g) - (k - l) = (a - k) + -(g - l) by ring]
    have := abs_add_le (a - k) (-(g - l)); rw [abs_neg] at this; linarith
  have kl : |k - l| ≤ 95 / 100 + |l| := (abs_sub k l).trans (by linarith)
  have hεl : ε * |l| ≤ 1 / 1024 * |l| := mul_le_mul_of_nonneg_right hε hl0
  have x3 : |a - g| ≤ 96 / 100 + 1001 / 1000 * |l| := by
    have := abs_add_le ((a - g) - (k - l)) (k - l); rw [sub_add_cancel] at this; linarith
  have x4 := mul_le_mul_of_nonneg_left x3 h0
  have x5 : |A.rnd (a - g) - (k - l)| ≤ 32 / 10 * u + ε + ε * |l| + 1001 / 1000 * (u * |l|) := by
    have := abs_add_le (A.rnd (a - g) - (a - g)) ((a - g) - (k - l)); rw [sub_add_sub_cancel] at this; linarith
  set X := A.rnd (a - g) with hX
  have z1 := h.err (X - Y)
  have z2 : |(X - Y) - (k - l - y)| ≤ 32 / 10 * u + ε + ε * |l| + 1001 / 1000 * (u * |l|) + 63 / 10 * u * y := by
    rw [show (X - Y) - (k - l - y) = (X - (k - l)) + -(Y - y) by ring]
    have := abs_add_le (X - (k - l)) (-(Y - y)); rw [abs_neg] at this; linarith
  have hul : u * |l| ≤ 1 / 1024 * |l| := mul_le_mul_of_nonneg_right hu hl0
  have huy : u * y ≤ 1 / 1024 * y := mul_le_mul_of_nonneg_right hu hy0
  have z3 : |k - l - y| ≤ 95 / 100 + |l| + y := by
    have := abs_sub (k - l) y; rw [abs_of_nonneg hy0] at this; linarith
  have z4 : |X - Y| ≤ 96 / 100 + 1003 / 1000 * |l| + 101 / 100 * y := by
    have := abs_add_le ((X - Y) - (k - l - y)) (k - l - y); rw [sub_add_cancel] at this; linarith
  have z5 := mul_le_mul_of_nonneg_left z4 h0
  have z6 := abs_add_le (A.rnd (X - Y) - (X - Y)) ((X - Y) - (k - l - y))
  rw [sub_add_sub_cancel] at z6
  have n1 : 0 ≤ u * |l| := mul_nonneg h0 hl0
  have n2 : 0 ≤ u * y := mul_nonneg h0 hy0
  have n3 : 0 ≤ ε * |l| := mul_nonneg hε0 hl0
  linarith

theorem expoErr_ge (hu0 : 0 ≤ u) (hε0 : 0 ≤ ε) (s z : ℝ) : 2 * ε ≤ expoErr u ε s z := by
  unfold expoErr
  have h1 : 0 ≤ 3 * (u + ε) * |Real.log s| := by positivity
  have h2 : 0 ≤ 4 * u * z ^ 2 := by positivity
  linarith

private theorem exp_near {E e D p : ℝ} (hε0 : 0 ≤ ε) (hD : 2 * ε ≤ D) (hD2 : D ≤ 1 / 2) (hE : |E - e| ≤ D)
    (hp : |p - rexp E| ≤ ε * rexp E) : |p - rexp e| ≤ 3 * D * rexp e := by
  have h0 := Real.exp_pos e
  have e1 : rexp E = rexp e * rexp (E - e) := by rw [← Real.exp_add]; congr 1; ring
  obtain ⟨a1, a2⟩ := abs_le.mp hE
  have b1 : 1 - D ≤ rexp (E - e) := by have := Real.add_one_le_exp (E - e); linarith
  have b2 : rexp (E - e) ≤ 1 + 2 * D := by
    have c1 := Real.add_one_le_exp (-(E - e))
    have c2 := Real.exp_pos (E - e)
    rw [Real.exp_neg] at c1
    have c3 : (1 - D) * rexp (E - e) ≤ 1 := by
      have := mul_le_mul_of_nonneg_right (show 1 - D ≤ (rexp (E - e))⁻¹ by linarith) c2.le
      rwa [inv_mul_cancel₀ c2.ne'] at this
    nlinarith
  rw [e1] at hp
  set r := rexp (E - e) with hr
  have hr0 : 0 < r := Real.exp_pos _
  have k1 : |p - rexp e * r| ≤ rexp e * (ε * r) := by linarith
  have k2 : |rexp e * r - rexp e| ≤ rexp e * (2 * D) := by
    rw [show rexp e * r - rexp e = rexp e * (r - 1) by ring, abs_mul, abs_of_pos h0]
    exact mul_le_mul_of_nonneg_left (abs_le.mpr ⟨by linarith, by linarith⟩) h0.le
  have k3 := abs_add_le (p - rexp e * r) (rexp e * r - rexp e)
  rw [sub_add_sub_cancel] at k3
  have k4 : ε * r + 2 * D ≤ 3 * D := by nlinarith
  have k5 := mul_le_mul_of_nonneg_left k4 h0.le
  linarith

private theorem log_near {E p : ℝ} (hε0 : 0 ≤ ε) (hε : ε ≤ 1 / 1024) (hp : |p - rexp E| ≤ ε * rexp E) :
    0 < p ∧ |Real.log p - E| ≤ 2 * ε := by
  have h0 := Real.exp_pos E
  obtain ⟨a1, a2⟩ := abs_le.mp hp
  have hp0 : 0 < p := by nlinarith
  refine ⟨hp0, ?_⟩
  have e : Real.log p - E = Real.log (p / rexp E) := by rw [Real.log_div hp0.ne' h0.ne', Real.log_exp]
  have hr0 : 0 < p / rexp E := by positivity
  have r1 : p / rexp E ≤ 1 + ε := by rw [div_le_iff₀ h0]; linarith
  have r2 : 1 - ε ≤ p / rexp E := by rw [le_div_iff₀ h0]; linarith
  have k1 := Real.log_le_sub_one_of_pos hr0
  have k2 := Real.one_sub_inv_le_log_of_pos hr0
  rw [e, abs_le]
  refine ⟨?_, by linarith⟩
  have k3 : (p / rexp E)⁻¹ ≤ 1 + 2 * ε := by
    rw [inv_le_comm₀ hr0 (by positivity)]
    refine le_trans ?_ r2
    rw [inv_le_iff_one_le_mul₀ (by positivity)]
    nlinarith
  linarith

end NormalRnd

open NormalRnd

variable {A : Arith ℝ} {L : Libm} {u ε : ℝ}

private theorem no_nan (xs : List ℝ) : (xs.map (Rm.fin A L)).any PyNum.isNaN = false := by
  rw [List.any_eq_false]
  intro y hy
  obtain ⟨x, -, rfl⟩ := List.mem_map.mp hy
  exact Bool.false_ne_true

/-- **C243** (`pdf` and `log_pdf` with rounding, and library functions of relative error `ε`): with
`D = 5u + 2ε + 3(u + ε)|log std| + 4u z²`, `z = (v - mean)/std`, the density has relative error at most `3D` (when `D ≤ ½`), and its
logarithm absolute error at most `2D + 3ε` plus `ε` times its size. -/
theorem C243_pdf (h : SymRounding A.rnd u) (hu : u ≤ 1 / 1024) (hL : L.Acc ε) (hε : ε ≤ 1 / 1024) (s m : ℝ) (hs : 0 < s) :
    ∃ g l : ℝ → ℝ, (∀ (d : Nat) (b : Bool) (xs : List ℝ), xs ≠ [] →
        pdf (⟨d, b, xs.map (Rm.fin A L)⟩ : Arr (Rm A L)) (Rm.fin A L s) (Rm.fin A L m) =
            .ok ⟨d, false, xs.map (fun x => Rm.fin A L (g x))⟩ ∧
          logPdf (⟨d, b, xs.map (Rm.fin A L)⟩ : Arr (Rm A L)) (Rm.fin A L s) (Rm.fin A L m) =
            .ok ⟨d, false, xs.map (fun x => Rm.fin A L (l x))⟩) ∧
      ∀ v D, D = 5 * u + 2 * ε + 3 * (u + ε) * |Real.log s| + 4 * u * ((v - m) / s) ^ 2 → 0 < g v ∧
        (D ≤ 1 / 2 → |g v - gaussianPDFReal m (s ^ 2).toNNReal v| ≤ 3 * D * gaussianPDFReal m (s ^ 2).toNNReal v) ∧
        |l v - Real.log (gaussianPDFReal m (s ^ 2).toNNReal v)| ≤
          2 * D + 3 * ε + ε * |Real.log (gaussianPDFReal m (s ^ 2).toNNReal v)| := by
  have hε0 := hL.nonneg
  have hpos : ∀ v, 0 < L.exp (expoR A.rnd L s m v) := fun v => (log_near hε0 hε (hL.exp _)).1
  refine ⟨fun v => L.exp (expoR A.rnd L s m v), fun v => L.log (L.exp (expoR A.rnd L s m v)), ?_, ?_⟩
  · intro d b xs hx
    have hp : pdf (⟨d, b, xs.map (Rm.fin A L)⟩ : Arr (Rm A L)) (Rm.fin A L s) (Rm.fin A L m) =
        .ok ⟨d, false, xs.map (fun v => Rm.fin A L (L.exp (expoR A.rnd L s m v)))⟩ := by
      unfold pdf
      rw [if_neg (by simpa using hx), no_nan, if_neg (by simp)]
      congr 2
      rw [List.map_map]
      exact List.map_congr_left fun v _ => pdfEntry_rm h s m v hs
    refine ⟨hp, ?_⟩
    unfold logPdf
    rw [if_neg (by simpa using hx), no_nan, if_neg (by simp), hp]
    simp only [bind, Except.bind, List.map_map]
    congr 2
    exact List.map_congr_left fun v _ => Rm.log_fin A L (hpos v)
  · intro v D hD
    have hE := expoR_near h hu hL hε s m v hs
    have hge := expoErr_ge h.nonneg hε0 s ((v - m) / s) (u := u)
    have eD : expoErr u ε s ((v - m) / s) = D := hD.symm
    rw [eD] at hE hge
    have hx := hL.exp (expoR A.rnd L s m v)
    rw [← exp_expo s m v hs, Real.log_exp]
    refine ⟨hpos v, fun hD2 => exp_near hε0 hge hD2 hE hx, ?_⟩
    obtain ⟨hp0, hl⟩ := log_near hε0 hε hx
    have h1 := hL.log _ hp0
    set P := L.exp (expoR A.rnd L s m v) with hP
    set e := expo s m v with he
    have h2 := abs_add_le (Real.log P - expoR A.rnd L s m v) (expoR A.rnd L s m v - e)
    rw [sub_add_sub_cancel] at h2
    have h3 : |Real.log P| ≤ |e| + D + 2 * ε := by
      have := abs_add_le (Real.log P - e) e; rw [sub_add_cancel] at this; linarith
    have h4 := mul_le_mul_of_nonneg_left h3 hε0
    have h5 := abs_add_le (L.log P - Real.log P) (Real.log P - e)
    rw [sub_add_sub_cancel] at h5
    have h6 : ε * D ≤ 1 / 1024 * D := mul_le_mul_of_nonneg_right hε (by linarith)
    have h7 : ε * ε ≤ 1 / 1024 * ε := mul_le_mul_of_nonneg_right hε hε0
    show |L.log P - e| ≤ _
    linarith

/-- the hypotheses are met: binary64, exact library, unit standard deviation; at 30 standard deviations `D` is below `10⁻¹²` -/
example : SymRounding bin64R.rnd (1 / 2 ^ 53) ∧ (⟨rexp, Real.log, erfR, fun x => 1 - erfR x⟩ : Libm).Acc 0 ∧
    (5 * (1 / 2 ^ 53) + 2 * 0 + 3 * (1 / 2 ^ 53 + 0) * |Real.log 1| + 4 * (1 / 2 ^ 53) * ((30 - 0) / 1) ^ 2 : ℝ) ≤ 1 / 10 ^ 12 := by
  refine ⟨rnd53R_sym, ⟨le_rfl, fun x => by simp, fun x _ => by simp, fun x => by simp, fun x => by simp⟩, ?_⟩
  rw [Real.log_one]; norm_num

end Proadv.Props
