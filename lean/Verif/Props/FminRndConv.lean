import Verif.Props.FminRnd
import Verif.Props.FminConv
import Verif.Lemmas.RoundMonoReal

set_option linter.unusedSectionVars false

/-!
# `fminbound` in rounded arithmetic stops by itself and finds the minimum (C240)

The claims C155 and C156, with every operation of the routine rounded (`Rd A`, contract `SymRounding`).
-/

namespace Proadv.Props

open Proadv Proadv.Fmin

variable {K : Type} [Field K] [LinearOrder K] [IsStrictOrderedRing K] [FloorRing K] {fl : K → K} {u : K}

/-! ## The stopping test -/

/-- distance to the farther end -/
private theorem far_eq {l r x : K} : (r - l) / 2 + |x - (l + r) / 2| = max (x - l) (r - x) := by
  rcases le_total ((l + r) / 2) x with hm | hm
  · rw [abs_of_nonneg (by linarith), max_eq_left (by linarith)]; ring
  · rw [abs_of_nonpos (by linarith), max_eq_right (by linarith)]; ring

/-- the computed midpoint, with the tolerance well above the rounding error -/
private theorem mid_err' (h : SymRounding fl u) (hu : u ≤ 1 / 1024) {l r x T D : K} (hx : 100 * u * |x| ≤ T)
    (hD : |x - (l + r) / 2| ≤ D) :
    |fl (1 / 2 * fl (l + r)) - (l + r) / 2| ≤ 21 / 1000 * T + 2 / 1000 * D := by
  have h0 := h.nonneg
  have e1 := h.err (l + r)
  have e2 := h.err (1 / 2 * fl (l + r))
  have e3 := h.le (l + r)
  have e4 : |1 / 2 * fl (l + r)| = 1 / 2 * |fl (l + r)| := by rw [abs_mul, abs_of_pos (by norm_num : (0 : K) < 1 / 2)]
  have e5 : |l + r| = 2 * |(l + r) / 2| := by rw [abs_div, abs_of_pos (by norm_num : (0 : K) < 2)]; ring
  rw [e4] at e2
  rw [e5] at e1 e3
  set m := (l + r) / 2
  have e6 : |fl (1 / 2 * fl (l + r)) - m| ≤ |fl (1 / 2 * fl (l + r)) - 1 / 2 * fl (l + r)| + 1 / 2 * |fl (l + r) - (l + r)| := by
    have t := abs_add_le (fl (1 / 2 * fl (l + r)) - 1 / 2 * fl (l + r)) (1 / 2 * (fl (l + r) - (l + r)))
    rw [abs_mul, abs_of_pos (by norm_num : (0 : K) < 1 / 2)] at t
    have : fl (1 / 2 * fl (l + r)) - 1 / 2 * fl (l + r) + 1 / 2 * (fl (l + r) - (l + r)) = fl (1 / 2 * fl (l + r)) - m := by
      simp only [m]; ring
    rwa [this] at t
  have e7 : |m| ≤ |x| + D := by
    have t := abs_sub_abs_le_abs_sub m x
    rw [abs_sub_comm] at t
    linarith
  have hm := abs_nonneg m
  have e8 : u * (1 / 2 * |fl (l + r)|) ≤ u * ((1 + u) * |m|) := mul_le_mul_of_nonneg_left (by linarith) h0
  have e9 : u * ((1 + u) * |m|) ≤ u * (1025 / 1024 * |m|) :=
    mul_le_mul_of_nonneg_left (mul_le_mul_of_nonneg_right (by linarith) hm) h0
  have e10 : u * |m| ≤ u * |x| + u * D := by rw [← mul_add]; exact mul_le_mul_of_nonneg_left e7 h0
  have hD0 : 0 ≤ D := le_trans (abs_nonneg _) hD
  have e11 : u * D ≤ 1 / 1024 * D := mul_le_mul_of_nonneg_right hu hD0
  have hT : 0 ≤ T := le_trans (by positivity) hx
  linarith

/-- entering the loop: the end in the direction of the computed midpoint is more than `3/2` tolerances away; leaving it:
both ends are at most `21/10` tolerances away -/
private theorem stop_test (h : SymRounding fl u) (hu : u ≤ 1 / 1024) {l r x T : K} (hlx : l ≤ x) (hxr : x ≤ r) (hT : 0 < T)
    (hx : 100 * u * |x| ≤ T) :
    (fl (fl (2 * T) - fl (1 / 2 * fl (r - l))) < |fl (x - fl (1 / 2 * fl (l + r)))| →
      3 / 2 * T < max (x - l) (r - x) ∧
      (fl (1 / 2 * fl (l + r)) ≤ x → 3 / 2 * T < x - l) ∧ (x ≤ fl (1 / 2 * fl (l + r)) → 3 / 2 * T < r - x)) ∧
    (¬ fl (fl (2 * T) - fl (1 / 2 * fl (r - l))) < |fl (x - fl (1 / 2 * fl (l + r)))| →
      x - l ≤ 21 / 10 * T ∧ r - x ≤ 21 / 10 * T) := by
  have h0 := h.nonneg
  have hab : |x - (l + r) / 2| ≤ (r - l) / 2 := by rw [abs_le]; constructor <;> linarith
  rw [← far_eq]
  set D := (r - l) / 2 + |x - (l + r) / 2| with hDdef
  have hE := mid_err' h hu hx (show |x - (l + r) / 2| ≤ D by linarith)
  set E := 21 / 1000 * T + 2 / 1000 * D with hEdef
  set xc := fl (1 / 2 * fl (l + r)) with hxc
  have hw : 0 ≤ r - l := by linarith
  have hfw : 0 ≤ fl (r - l) := by have := h.mono hw; rwa [h.zero] at this
  have hhw : 0 ≤ fl (1 / 2 * fl (r - l)) := by
    have := h.mono (show 0 ≤ 1 / 2 * fl (r - l) by linarith); rwa [h.zero] at this
  have e1 := h.le (r - l)
  have e1' := h.ge (r - l)
  have e2 := h.le (1 / 2 * fl (r - l))
  have e2' := h.ge (1 / 2 * fl (r - l))
  rw [abs_of_nonneg hhw, abs_of_nonneg (by linarith : (0 : K) ≤ 1 / 2 * fl (r - l))] at e2 e2'
  rw [abs_of_nonneg hw, abs_of_nonneg hfw] at e1 e1'
  have e3 : (1 + u) * (r - l) ≤ 1025 / 1024 * (r - l) := mul_le_mul_of_nonneg_right (by linarith) hw
  have e3' : 1023 / 1024 * (r - l) ≤ (1 - u) * (r - l) := mul_le_mul_of_nonneg_right (by linarith) hw
  have e4 : (1 + u) * (1 / 2 * fl (r - l)) ≤ 1025 / 1024 * (1 / 2 * fl (r - l)) :=
    mul_le_mul_of_nonneg_right (by linarith) (by linarith)
  have e4' : 1023 / 1024 * (1 / 2 * fl (r - l)) ≤ (1 - u) * (1 / 2 * fl (r - l)) :=
    mul_le_mul_of_nonneg_right (by linarith) (by linarith)
  set hw' := fl (1 / 2 * fl (r - l))
  have e6 := h.ge (2 * T)
  have e6' := h.le (2 * T)
  have hT2 : 0 < fl (2 * T) := h.pos (by linarith)
  rw [abs_of_pos hT2, abs_of_pos (by linarith : (0 : K) < 2 * T)] at e6 e6'
  have e7 : 1023 / 1024 * (2 * T) ≤ (1 - u) * (2 * T) := mul_le_mul_of_nonneg_right (by linarith) (by linarith)
  have e7' : (1 + u) * (2 * T) ≤ 1025 / 1024 * (2 * T) := mul_le_mul_of_nonneg_right (by linarith) (by linarith)
  set T2 := fl (2 * T)
  have e8 := h.le (x - xc)
  have e8' := h.ge (x - xc)
  have e9 : (1 + u) * |x - xc| ≤ 1025 / 1024 * |x - xc| := mul_le_mul_of_nonneg_right (by linarith) (abs_nonneg _)
  have e9' : 1023 / 1024 * |x - xc| ≤ (1 - u) * |x - xc| := mul_le_mul_of_nonneg_right (by linarith) (abs_nonneg _)
  have e10 : |x - xc| ≤ |x - (l + r) / 2| + E := by
    have t := abs_sub_le x ((l + r) / 2) xc
    rw [abs_sub_comm ((l + r) / 2) xc] at t
    linarith
  have e10' : |x - (l + r) / 2| ≤ |x - xc| + E := by
    have t := abs_sub_le x xc ((l + r) / 2)
    linarith
  have hn := abs_nonneg (x - (l + r) / 2)
  constructor
  · intro hc
    have main : 19 / 10 * T ≤ D := by
      by_cases hlt : T2 < hw'
      · linarith
      · have hge : 0 ≤ T2 - hw' := by linarith
        have e11 := h.ge (T2 - hw')
        have e12 : 0 ≤ fl (T2 - hw') := by have := h.mono hge; rwa [h.zero] at this
        rw [abs_of_nonneg e12, abs_of_nonneg hge] at e11
        have e13 : 1023 / 1024 * (T2 - hw') ≤ (1 - u) * (T2 - hw') := mul_le_mul_of_nonneg_right (by linarith) hge
        linarith
    rw [abs_le] at hE
    refine ⟨by linarith, ?_, ?_⟩
    · intro hle
      rcases le_total ((l + r) / 2) x with hm | hm
      · rw [abs_of_nonneg (by linarith)] at hDdef; linarith
      · rw [abs_of_nonpos (by linarith)] at hDdef; linarith
    · intro hle
      rcases le_total ((l + r) / 2) x with hm | hm
      · rw [abs_of_nonneg (by linarith)] at hDdef; linarith
      · rw [abs_of_nonpos (by linarith)] at hDdef; linarith
  · intro hc
    have hc' := not_lt.mp hc
    have hge : 0 ≤ T2 - hw' := by
      by_contra hlt
      have := h.neg (not_le.mp hlt)
      have := abs_nonneg (fl (x - xc))
      linarith
    have e11 := h.le (T2 - hw')
    have e12 : 0 ≤ fl (T2 - hw') := by have := h.mono hge; rwa [h.zero] at this
    rw [abs_of_nonneg e12, abs_of_nonneg hge] at e11
    have e13 : (1 + u) * (T2 - hw') ≤ 1025 / 1024 * (T2 - hw') := mul_le_mul_of_nonneg_right (by linarith) hge
    have main : D ≤ 21 / 10 * T := by linarith
    rw [hDdef, far_eq, max_le_iff] at main
    exact main

/-! ## The model at `Rd A` -/

variable {A : Arith K}

/-- bounds of the computed tolerance -/
private theorem tolR_bounds (h : SymRounding A.rnd u) (hu : u ≤ 1 / 1024) {ε τ x : K} (hε : 128 * u ≤ ε) (hτ : 0 < τ) :
    100 * u * |x| ≤ tolR A ε τ x ∧ 99 / 100 * (τ / 3) ≤ tolR A ε τ x ∧ tolR A ε τ x ≤ 101 / 100 * (ε * |x| + τ / 3) := by
  have h0 := h.nonneg
  have hε0 : 0 ≤ ε := by linarith
  have p0 : 0 ≤ ε * |x| := mul_nonneg hε0 (abs_nonneg _)
  have q0 : 0 < τ / 3 := by linarith
  have p1 : 0 < A.rnd (τ / 3) := h.pos q0
  have p2 : 0 ≤ A.rnd (ε * |x|) := by have := h.mono p0; rwa [h.zero] at this
  have p3 : 0 < A.rnd (A.rnd (ε * |x|) + A.rnd (τ / 3)) := h.pos (by linarith)
  have g1 := h.ge (ε * |x|)
  have g1' := h.le (ε * |x|)
  rw [abs_of_nonneg p0, abs_of_nonneg p2] at g1 g1'
  have f1 := h.ge (τ / 3)
  have f1' := h.le (τ / 3)
  rw [abs_of_pos q0, abs_of_pos p1] at f1 f1'
  have g2 := h.ge (A.rnd (ε * |x|) + A.rnd (τ / 3))
  have g2' := h.le (A.rnd (ε * |x|) + A.rnd (τ / 3))
  rw [abs_of_pos p3, abs_of_pos (by linarith : 0 < A.rnd (ε * |x|) + A.rnd (τ / 3))] at g2 g2'
  have g3 : 1023 / 1024 * (ε * |x|) ≤ (1 - u) * (ε * |x|) := mul_le_mul_of_nonneg_right (by linarith) p0
  have g3' : (1 + u) * (ε * |x|) ≤ 1025 / 1024 * (ε * |x|) := mul_le_mul_of_nonneg_right (by linarith) p0
  have f3 : 1023 / 1024 * (τ / 3) ≤ (1 - u) * (τ / 3) := mul_le_mul_of_nonneg_right (by linarith) q0.le
  have f3' : (1 + u) * (τ / 3) ≤ 1025 / 1024 * (τ / 3) := mul_le_mul_of_nonneg_right (by linarith) q0.le
  have g4 : 1023 / 1024 * (A.rnd (ε * |x|) + A.rnd (τ / 3)) ≤ (1 - u) * (A.rnd (ε * |x|) + A.rnd (τ / 3)) :=
    mul_le_mul_of_nonneg_right (by linarith) (by linarith)
  have g4' : (1 + u) * (A.rnd (ε * |x|) + A.rnd (τ / 3)) ≤ 1025 / 1024 * (A.rnd (ε * |x|) + A.rnd (τ / 3)) :=
    mul_le_mul_of_nonneg_right (by linarith) (by linarith)
  have g5 : 128 * u * |x| ≤ ε * |x| := mul_le_mul_of_nonneg_right hε (abs_nonneg _)
  have g6 : tolR A ε τ x = A.rnd (A.rnd (ε * |x|) + A.rnd (τ / 3)) := rfl
  have g7 : 0 ≤ u * |x| := mul_nonneg h0 (abs_nonneg _)
  rw [g6]
  refine ⟨by linarith, by linarith, by linarith⟩

/-- the loop condition -/
private theorem condR (h : SymRounding A.rnd u) {a b l r x ε τ : K} {s : St (Rd A)} (hb : BrR A a b s l r x) :
    Fmin.cond (Rd.fin A ε) (Rd.fin A τ) s = true ↔
      A.rnd (A.rnd (2 * tolR A ε τ x) - A.rnd (1 / 2 * A.rnd (r - l))) < |A.rnd (x - A.rnd (1 / 2 * A.rnd (l + r)))| := by
  have hh : A.rnd (((1 / 2 : ℚ)) : K) = 1 / 2 := by push_cast; exact h.half
  rw [Fmin.cond, tol2R h hb, xcentralR h hb, hb.left, hb.right, hb.xopt, Rd.lit_fin, hh]
  simp only [Rd.sub_fin, Rd.mul_fin, rd_abs, Rd.lt_fin, decide_eq_true_eq]

/-- what the body may evaluate: `2/5` of a tolerance away from the best point and from both ends -/
private theorem next_distR (h : SymRounding A.rnd u) (hu : u ≤ 1 / 1024) {a b l r x ε γ τ : K} {s : St (Rd A)}
    (hb : BrR A a b s l r x) (hε : 128 * u ≤ ε) (hτ : 0 < τ) (hγ : 0 < γ) (hγ1 : γ ≤ 1 / 2)
    (hc : Fmin.cond (Rd.fin A ε) (Rd.fin A τ) s = true) :
    ∃ y, nextPoint (Rd.fin A ε) (Rd.fin A τ) s (chooseStep (Rd.fin A ε) (Rd.fin A γ) (Rd.fin A τ) s).2 = Rd.fin A y ∧
      A.rnd y = y ∧ 2 / 5 * tolR A ε τ x ≤ y - l ∧ 2 / 5 * tolR A ε τ x ≤ r - y ∧ 2 / 5 * tolR A ε τ x ≤ |y - x| := by
  have ht := tol1R (ε := ε) (τ := τ) h hb
  have ht2 := tol2R (ε := ε) (τ := τ) h hb
  have hxc := xcentralR h hb
  have hc' := (condR h hb).mp hc
  obtain ⟨hT8, hTl, -⟩ := tolR_bounds (x := x) h hu hε hτ
  have hTf : A.rnd (tolR A ε τ x) = tolR A ε τ x := h.idem _
  generalize tolR A ε τ x = T at *
  have hT0 : 0 < T := by linarith
  have h0 := h.nonneg
  have lx := hb.lx
  have xr := hb.xr
  obtain ⟨-, far1, far2⟩ := (stop_test h hu lx xr hT0 hT8).1 hc'
  set xc := A.rnd (1 / 2 * A.rnd (l + r)) with hxcdef
  have yerr : ∀ δ, |A.rnd (x + δ) - (x + δ)| ≤ T / 100 + |δ| / 1024 := by
    intro δ
    have e1 := h.err (x + δ)
    have e2 : u * |x + δ| ≤ u * (|x| + |δ|) := mul_le_mul_of_nonneg_left (abs_add_le _ _) h0
    have e3 : u * |δ| ≤ 1 / 1024 * |δ| := mul_le_mul_of_nonneg_right hu (abs_nonneg _)
    linarith
  -- the point reached with the step `σ`
  have red : ∀ σ : K, A.rnd σ = σ → nextPoint (Rd.fin A ε) (Rd.fin A τ) s (Rd.fin A σ) =
      Rd.fin A (A.rnd (x + (if σ < 0 then -1 else 1) * max |σ| T)) := by
    intro σ hσ
    rw [nextPoint, rd_dir h, ht, rd_abs, rd_max, hb.xopt, Rd.mul_fin, Rd.add_fin]
    congr 3
    have hm : A.rnd (max |σ| T) = max |σ| T := by
      rcases max_cases |σ| T with ⟨e, _⟩ | ⟨e, _⟩ <;> rw [e]
      · rcases abs_cases σ with ⟨e, _⟩ | ⟨e, _⟩ <;> rw [e]
        · exact hσ
        · rw [h.odd, hσ]
      · exact hTf
    split
    · rw [neg_one_mul, h.odd, hm]
    · rw [one_mul, hm]
  have left_step : ∀ m, T ≤ m → 1025 / 1024 * m + 41 / 100 * T ≤ x - l →
      2 / 5 * T ≤ A.rnd (x - m) - l ∧ 2 / 5 * T ≤ r - A.rnd (x - m) ∧ 2 / 5 * T ≤ |A.rnd (x - m) - x| := by
    intro m hm hl
    have e := yerr (-m)
    rw [abs_neg, abs_of_pos (by linarith : 0 < m), ← sub_eq_add_neg, abs_le] at e
    have hneg : A.rnd (x - m) - x ≤ -(2 / 5 * T) := by linarith [e.2]
    rw [abs_of_nonpos (by linarith)]
    refine ⟨by linarith [e.1], by linarith, by linarith⟩
  have right_step : ∀ m, T ≤ m → 1025 / 1024 * m + 41 / 100 * T ≤ r - x →
      2 / 5 * T ≤ A.rnd (x + m) - l ∧ 2 / 5 * T ≤ r - A.rnd (x + m) ∧ 2 / 5 * T ≤ |A.rnd (x + m) - x| := by
    intro m hm hl
    have e := yerr m
    rw [abs_of_pos (by linarith : 0 < m), abs_le] at e
    have hpos : 2 / 5 * T ≤ A.rnd (x + m) - x := by linarith [e.1]
    rw [abs_of_nonneg (by linarith)]
    refine ⟨by linarith, by linarith [e.2], by linarith⟩
  have fin_step : ∀ σ : K, A.rnd σ = σ → (σ < 0 → 1025 / 1024 * (-σ) + 41 / 100 * T ≤ x - l ∧ 3 / 2 * T ≤ x - l) →
      (0 ≤ σ → 1025 / 1024 * σ + 41 / 100 * T ≤ r - x ∧ 3 / 2 * T ≤ r - x) →
      ∃ y, nextPoint (Rd.fin A ε) (Rd.fin A τ) s (Rd.fin A σ) = Rd.fin A y ∧ A.rnd y = y ∧
        2 / 5 * T ≤ y - l ∧ 2 / 5 * T ≤ r - y ∧ 2 / 5 * T ≤ |y - x| := by
    intro σ hσ h1 h2
    refine ⟨_, red σ hσ, h.idem _, ?_⟩
    by_cases hs : σ < 0
    · rw [if_pos hs, abs_of_neg hs, neg_one_mul, ← sub_eq_add_neg]
      obtain ⟨k1, k2⟩ := h1 hs
      refine left_step _ (le_max_right _ _) ?_
      rcases max_cases (-σ) T with ⟨e, _⟩ | ⟨e, _⟩ <;> rw [e] <;> linarith
    · have hs' := not_lt.mp hs
      rw [if_neg hs, abs_of_nonneg hs', one_mul]
      obtain ⟨k1, k2⟩ := h2 hs'
      refine right_step _ (le_max_right _ _) ?_
      rcases max_cases σ T with ⟨e, _⟩ | ⟨e, _⟩ <;> rw [e] <;> linarith
  unfold chooseStep
  split
  · -- parabolic step
    rename_i hacc
    rw [Bool.and_eq_true] at hacc
    obtain ⟨σ, hσ, hσf⟩ := acceptedR h hb hacc.2
    show ∃ y, nextPoint (Rd.fin A ε) (Rd.fin A τ) s (parabolicStep (Rd.fin A ε) (Rd.fin A τ) s) = Rd.fin A y ∧ _
    have hps : parabolicStep (Rd.fin A ε) (Rd.fin A τ) s =
        if A.rnd (A.rnd (x + σ) - l) < A.rnd (2 * T) ∨ A.rnd (r - A.rnd (x + σ)) < A.rnd (2 * T) then
          Rd.fin A (if xc < x then -T else T) else Rd.fin A σ := by
      have : parabolicStep (Rd.fin A ε) (Rd.fin A τ) s =
          if ((s.xopt +. ((parabola s).1 /. (parabola s).2) -. s.left) <. tol2 (Rd.fin A ε) (Rd.fin A τ) s)
          || ((s.right -. (s.xopt +. ((parabola s).1 /. (parabola s).2))) <. tol2 (Rd.fin A ε) (Rd.fin A τ) s) then
          tol1 (Rd.fin A ε) (Rd.fin A τ) s *. (npSign (xcentral s -. s.xopt) +. (if xcentral s ==. s.xopt then lit 1 else lit 0))
          else (parabola s).1 /. (parabola s).2 := rfl
      rw [this, hσ, ht2, ht, hxc, hb.left, hb.right, hb.xopt]
      have hd := rd_dir h (A.rnd (xc - x))
      have hz : A.rnd (xc - x) = 0 ↔ xc = x := by
        constructor
        · intro e
          by_contra hne
          exact h.ne (sub_ne_zero.mpr hne) e
        · intro e; rw [e, sub_self, h.zero]
      have hl : A.rnd (xc - x) < 0 ↔ xc < x := by
        constructor
        · intro e
          by_contra hne
          have := h.mono (show 0 ≤ xc - x by linarith [not_lt.mp hne])
          rw [h.zero] at this
          linarith
        · intro e; exact h.neg (by linarith)
      have hd' : npSign (Rd.fin A xc -. Rd.fin A x) +. (if Rd.fin A xc ==. Rd.fin A x then lit 1 else lit 0)
          = Rd.fin A (if xc < x then -1 else 1) := by
        rw [dir] at hd
        simp only [hl, rd_eq, Rd.lit_fin, Rat.cast_zero, h.zero, hz] at hd
        simp only [Rd.sub_fin, rd_eq, Rd.lit_fin, Rat.cast_zero, h.zero]
        exact hd
      rw [hd']
      simp only [Rd.add_fin, Rd.sub_fin, Rd.lt_fin, Rd.mul_fin, Bool.or_eq_true, decide_eq_true_eq]
      congr 2
      split
      · rw [mul_neg_one, h.odd, hTf]
      · rw [mul_one, hTf]
    rw [hps]
    split
    · by_cases hm : xc < x
      · rw [if_pos hm]
        have := far1 hm.le
        exact fin_step _ (by rw [h.odd, hTf]) (fun _ => ⟨by linarith, this.le⟩) (fun h' => by linarith)
      · rw [if_neg hm]
        have := far2 (not_lt.mp hm)
        exact fin_step _ hTf (fun h' => by linarith) (fun _ => ⟨by linarith, this.le⟩)
    · rename_i hn
      push Not at hn
      obtain ⟨n1, n2⟩ := hn
      have t2 := h.ge (2 * T)
      have t2p : 0 < A.rnd (2 * T) := h.pos (by linarith)
      rw [abs_of_pos t2p, abs_of_pos (by linarith)] at t2
      have t3 : 1023 / 1024 * (2 * T) ≤ (1 - u) * (2 * T) := mul_le_mul_of_nonneg_right (by linarith) (by linarith)
      have dist : ∀ d, A.rnd (2 * T) ≤ A.rnd d → 19 / 10 * T ≤ d := by
        intro d hd
        by_contra hlt
        have k := h.mono (not_le.mp hlt).le
        have g := h.le (19 / 10 * T)
        have gp : 0 < 19 / 10 * T := by linarith
        rw [abs_of_pos gp, abs_of_pos (h.pos gp)] at g
        have g2 : (1 + u) * (19 / 10 * T) ≤ 1025 / 1024 * (19 / 10 * T) := mul_le_mul_of_nonneg_right (by linarith) gp.le
        linarith
      have d1 := dist _ n1
      have d2 := dist _ n2
      by_cases hbig : T ≤ |σ|
      · refine ⟨_, red σ hσf, h.idem _, ?_⟩
        have e : (if σ < 0 then -1 else 1) * max |σ| T = σ := by
          rw [max_eq_left hbig]
          split
          · rename_i hs; rw [abs_of_neg hs]; ring
          · rename_i hs; rw [abs_of_nonneg (not_lt.mp hs), one_mul]
        rw [e]
        refine ⟨by linarith, by linarith, ?_⟩
        have e1 := yerr σ
        have e2 := abs_sub_abs_le_abs_sub σ (-(A.rnd (x + σ) - (x + σ)))
        rw [abs_neg, show σ - -(A.rnd (x + σ) - (x + σ)) = A.rnd (x + σ) - x by ring] at e2
        linarith
      · have hbig' := not_le.mp hbig
        by_cases hs : σ < 0
        · have : A.rnd (x + σ) ≤ x := by have := h.mono (show x + σ ≤ x by linarith); rwa [hb.fl_x] at this
          rw [abs_of_neg hs] at hbig'
          exact fin_step σ hσf (fun _ => ⟨by linarith, by linarith⟩) (fun h' => by linarith)
        · have hs' := not_lt.mp hs
          have : x ≤ A.rnd (x + σ) := by have := h.mono (show x ≤ x + σ by linarith); rwa [hb.fl_x] at this
          rw [abs_of_nonneg hs'] at hbig'
          exact fin_step σ hσf (fun h' => by linarith) (fun _ => ⟨by linarith, by linarith⟩)
  · -- golden section
    show ∃ y, nextPoint (Rd.fin A ε) (Rd.fin A τ) s (Rd.fin A γ *. goldenE s) = Rd.fin A y ∧ _
    have shrink : ∀ d, 0 < d → 0 < A.rnd (γ * A.rnd d) ∧ A.rnd (γ * A.rnd d) ≤ 51 / 100 * d := by
      intro d hd
      have hp := h.pos hd
      have hp2 : 0 < γ * A.rnd d := mul_pos hγ hp
      refine ⟨h.pos hp2, ?_⟩
      have g1 := h.le d
      rw [abs_of_pos hp, abs_of_pos hd] at g1
      have g2 := h.le (γ * A.rnd d)
      rw [abs_of_pos (h.pos hp2), abs_of_pos hp2] at g2
      have g3 : γ * A.rnd d ≤ 1 / 2 * A.rnd d := mul_le_mul_of_nonneg_right hγ1 hp.le
      have g4 : (1 + u) * d ≤ 1025 / 1024 * d := mul_le_mul_of_nonneg_right (by linarith) hd.le
      have g5 : (1 + u) * (γ * A.rnd d) ≤ 1025 / 1024 * (γ * A.rnd d) := mul_le_mul_of_nonneg_right (by linarith) hp2.le
      linarith
    by_cases hm : xc ≤ x
    · have : goldenE s = Rd.fin A (A.rnd (l - x)) := by
        rw [goldenE, hxc, hb.xopt, hb.left, Rd.le_fin, if_pos (by simpa using hm), Rd.sub_fin]
      rw [this, Rd.mul_fin]
      have hf := far1 hm
      obtain ⟨s1, s2⟩ := shrink (x - l) (by linarith)
      have e : A.rnd (γ * A.rnd (l - x)) = -A.rnd (γ * A.rnd (x - l)) := by
        rw [← neg_sub x l, h.odd, mul_neg, h.odd]
      rw [e]
      exact fin_step _ (by rw [h.odd, h.idem]) (fun _ => ⟨by linarith, hf.le⟩) (fun h' => by linarith)
    · have : goldenE s = Rd.fin A (A.rnd (r - x)) := by
        rw [goldenE, hxc, hb.xopt, hb.right, Rd.le_fin, if_neg (by simpa using hm), Rd.sub_fin]
      rw [this, Rd.mul_fin]
      have hf := far2 (not_le.mp hm).le
      obtain ⟨s1, s2⟩ := shrink (r - x) (by linarith)
      exact fin_step _ (h.idem _) (fun h' => by linarith) (fun _ => ⟨by linarith, hf.le⟩)

/-- the four possible brackets after one pass, and when they are taken -/
private theorem body_casesR (h : SymRounding A.rnd u) (hu : u ≤ 1 / 1024) {a b l r x ε γ τ : K} {s : St (Rd A)}
    {target : Rd A → Rd A} (hb : BrR A a b s l r x) (hε : 128 * u ≤ ε) (hτ : 0 < τ) (hγ : 0 < γ) (hγ1 : γ ≤ 1 / 2)
    (hc : Fmin.cond (Rd.fin A ε) (Rd.fin A τ) s = true) :
    ∃ y l' r' x', BrR A a b (body target (Rd.fin A ε) (Rd.fin A γ) (Rd.fin A τ) s) l' r' x' ∧
      (body target (Rd.fin A ε) (Rd.fin A γ) (Rd.fin A τ) s).xcur = Rd.fin A y ∧ A.rnd y = y ∧
      (body target (Rd.fin A ε) (Rd.fin A γ) (Rd.fin A τ) s).ftemp = target (Rd.fin A y) ∧
      (body target (Rd.fin A ε) (Rd.fin A γ) (Rd.fin A τ) s).fopt =
        (if target (Rd.fin A y) ≤. s.fopt then target (Rd.fin A y) else s.fopt) ∧
      τ / 8 ≤ y - l ∧ τ / 8 ≤ r - y ∧ τ / 8 ≤ |y - x| ∧
      (((target (Rd.fin A y) ≤. s.fopt) = true ∧ x < y ∧ l' = x ∧ x' = y ∧ r' = r) ∨
       ((target (Rd.fin A y) ≤. s.fopt) = true ∧ y < x ∧ l' = l ∧ x' = y ∧ r' = x) ∨
       ((target (Rd.fin A y) ≤. s.fopt) = false ∧ y < x ∧ l' = y ∧ x' = x ∧ r' = r) ∨
       ((target (Rd.fin A y) ≤. s.fopt) = false ∧ x < y ∧ l' = l ∧ x' = x ∧ r' = y)) := by
  obtain ⟨y, hy, yf, y1, y2, y3⟩ := next_distR h hu hb hε hτ hγ hγ1 hc
  obtain ⟨-, hTl, -⟩ := tolR_bounds (x := x) h hu hε hτ
  have z1 : τ / 8 ≤ y - l := by linarith
  have z2 : τ / 8 ≤ r - y := by linarith
  have z3 : τ / 8 ≤ |y - x| := by linarith
  clear y1 y2 y3 hTl
  have hal := hb.al
  have hrb := hb.rb
  have hlx := hb.lx
  have hxr := hb.xr
  have hne : y ≠ x := by
    rintro rfl
    rw [sub_self, abs_zero] at z3
    linarith
  rw [body]
  simp only [hy]
  set e := (chooseStep (Rd.fin A ε) (Rd.fin A γ) (Rd.fin A τ) s).1
  set st := (chooseStep (Rd.fin A ε) (Rd.fin A γ) (Rd.fin A τ) s).2
  have hbd := update_bounds target s e st (Rd.fin A y)
  have hx := update_xopt target s e st (Rd.fin A y)
  have hfo := update_fopt target s e st (Rd.fin A y)
  have hft := update_ftemp target s e st (Rd.fin A y)
  rw [hb.xopt, hb.left, hb.right] at hbd
  rw [hb.xopt] at hx
  have hcu := update_xcur target s e st (Rd.fin A y)
  by_cases hf : (target (Rd.fin A y) ≤. s.fopt) = true
  · rw [if_pos hf] at hbd hx
    rcases lt_or_gt_of_ne hne with hlt | hlt
    · simp only [Rd.le_fin, decide_eq_true_eq, not_le.mpr hlt, if_false, Prod.mk.injEq] at hbd
      exact ⟨y, l, x, y, ⟨hbd.1, hbd.2, hx, hal, by linarith, by linarith, by linarith, hb.fl_l, hb.fl_x, yf⟩, hcu, yf, hft, hfo,
        z1, z2, z3, .inr (.inl ⟨hf, hlt, rfl, rfl, rfl⟩)⟩
    · simp only [Rd.le_fin, decide_eq_true_eq, hlt.le, if_true, Prod.mk.injEq] at hbd
      exact ⟨y, x, r, y, ⟨hbd.1, hbd.2, hx, by linarith, by linarith, by linarith, by linarith, hb.fl_x, hb.fl_r, yf⟩, hcu, yf, hft, hfo,
        z1, z2, z3, .inl ⟨hf, hlt, rfl, rfl, rfl⟩⟩
  · rw [if_neg hf] at hbd hx
    have hf' : (target (Rd.fin A y) ≤. s.fopt) = false := by simpa using hf
    rcases lt_or_gt_of_ne hne with hlt | hlt
    · simp only [Rd.lt_fin, decide_eq_true_eq, hlt, if_true, Prod.mk.injEq] at hbd
      exact ⟨y, y, r, x, ⟨hbd.1, hbd.2, hx, by linarith, by linarith, by linarith, by linarith, yf, hb.fl_r, hb.fl_x⟩, hcu, yf, hft, hfo,
        z1, z2, z3, .inr (.inr (.inl ⟨hf', hlt, rfl, rfl, rfl⟩))⟩
    · simp only [Rd.lt_fin, decide_eq_true_eq, not_lt.mpr hlt.le, if_false, Prod.mk.injEq] at hbd
      exact ⟨y, l, y, x, ⟨hbd.1, hbd.2, hx, by linarith, by linarith, by linarith, by linarith, hb.fl_l, yf, hb.fl_x⟩, hcu, yf, hft, hfo,
        z1, z2, z3, .inr (.inr (.inr ⟨hf', hlt, rfl, rfl, rfl⟩))⟩

/-- the width of the bracket goes down by `τ/8` in every pass -/
private theorem loop_stopsR (h : SymRounding A.rnd u) (hu : u ≤ 1 / 1024) {a b ε γ τ : K} {target : Rd A → Rd A}
    (hε : 128 * u ≤ ε) (hτ : 0 < τ) (hγ : 0 < γ) (hγ1 : γ ≤ 1 / 2) (limit : Int) (hlim : 8 * (b - a) ≤ limit * τ) (n : Nat) :
    ∀ (s : St (Rd A)) (l r x : K) (res : St (Rd A) × Bool), BrR A a b s l r x → τ / 8 ≤ x - l → τ / 8 ≤ r - x →
      r - l + (s.count - 1) * (τ / 8) ≤ b - a →
      loop target (Rd.fin A ε) (Rd.fin A γ) (Rd.fin A τ) limit n s = some res → res.2 = false := by
  induction n with
  | zero => intro s l r x res _ _ _ _ h; cases h
  | succ n ih =>
    intro s l r x res hB h1 h2 h3 hl
    rw [loop] at hl
    split at hl
    · rename_i hc
      simp only at hl
      obtain ⟨y, l', r', x', hB', -, -, -, -, y1, y2, y3, hcs⟩ := body_casesR (target := target) h hu hB hε hτ hγ hγ1 hc
      have hcnt : (body target (Rd.fin A ε) (Rd.fin A γ) (Rd.fin A τ) s).count = s.count + 1 := by rw [body, update_count]
      have key : τ / 8 ≤ x' - l' ∧ τ / 8 ≤ r' - x' ∧ r' - l' + τ / 8 ≤ r - l := by
        clear h3 hB hB' ih hl hc
        rcases hcs with ⟨-, hlt, rfl, rfl, rfl⟩ | ⟨-, hlt, rfl, rfl, rfl⟩ | ⟨-, hlt, rfl, rfl, rfl⟩ | ⟨-, hlt, rfl, rfl, rfl⟩
        · rw [abs_of_pos (by linarith)] at y3
          exact ⟨by linarith, by linarith, by linarith⟩
        · rw [abs_of_neg (by linarith)] at y3
          exact ⟨by linarith, by linarith, by linarith⟩
        · rw [abs_of_neg (by linarith)] at y3
          exact ⟨by linarith, by linarith, by linarith⟩
        · rw [abs_of_pos (by linarith)] at y3
          exact ⟨by linarith, by linarith, by linarith⟩
      have h3' : r' - l' + ((body target (Rd.fin A ε) (Rd.fin A γ) (Rd.fin A τ) s).count - 1) * (τ / 8) ≤ b - a := by
        rw [hcnt]; push_cast
        linarith [key.2.2]
      split at hl
      · rename_i hlc
        exfalso
        have hl' : (limit : K) ≤ ((body target (Rd.fin A ε) (Rd.fin A γ) (Rd.fin A τ) s).count : K) := by exact_mod_cast hlc
        obtain ⟨k1, k2, -⟩ := key
        generalize ((body target (Rd.fin A ε) (Rd.fin A γ) (Rd.fin A τ) s).count : K) = c at *
        have : limit * τ ≤ c * τ := mul_le_mul_of_nonneg_right hl' hτ.le
        linarith
      · exact ih _ l' r' x' res hB' key.1 key.2.1 h3' hl
    · cases hl; rfl

/-- the first point: inside the bounds, and well away from both when the loop is entered -/
private theorem startR (h : SymRounding A.rnd u) (hu : u ≤ 1 / 1024) {a b γ : K} (hγ : 1 / 3 ≤ γ) (hγ1 : γ ≤ 1 / 2) (hab : a ≤ b)
    (ha : A.rnd a = a) (hb : A.rnd b = b) {x : K} (hx : x = A.rnd (a + A.rnd (γ * A.rnd (b - a)))) :
    a ≤ x ∧ x ≤ b ∧ ∀ T, 100 * u * |x| ≤ T → 3 / 2 * T < max (x - a) (b - x) →
      31 / 100 * (b - a) ≤ x - a ∧ 47 / 100 * (b - a) ≤ b - x := by
  have h0 : 0 ≤ b - a := by linarith
  have hun := h.nonneg
  have k1 : 0 ≤ A.rnd (b - a) := by have := h.mono h0; rwa [h.zero] at this
  have k2 : 0 ≤ γ * A.rnd (b - a) := mul_nonneg (by linarith) k1
  have k3 : 0 ≤ A.rnd (γ * A.rnd (b - a)) := by have := h.mono k2; rwa [h.zero] at this
  have k4 := h.le (b - a)
  have k4' := h.ge (b - a)
  rw [abs_of_nonneg k1, abs_of_nonneg h0] at k4 k4'
  have k5 := h.le (γ * A.rnd (b - a))
  have k5' := h.ge (γ * A.rnd (b - a))
  rw [abs_of_nonneg k3, abs_of_nonneg k2] at k5 k5'
  have k6 : γ * A.rnd (b - a) ≤ 1 / 2 * A.rnd (b - a) := mul_le_mul_of_nonneg_right hγ1 k1
  have k6' : 1 / 3 * A.rnd (b - a) ≤ γ * A.rnd (b - a) := mul_le_mul_of_nonneg_right hγ k1
  have k7 : (1 + u) * (b - a) ≤ 1025 / 1024 * (b - a) := mul_le_mul_of_nonneg_right (by linarith) h0
  have k7' : 1023 / 1024 * (b - a) ≤ (1 - u) * (b - a) := mul_le_mul_of_nonneg_right (by linarith) h0
  have k8 : (1 + u) * (γ * A.rnd (b - a)) ≤ 1025 / 1024 * (γ * A.rnd (b - a)) := mul_le_mul_of_nonneg_right (by linarith) k2
  have k8' : 1023 / 1024 * (γ * A.rnd (b - a)) ≤ (1 - u) * (γ * A.rnd (b - a)) := mul_le_mul_of_nonneg_right (by linarith) k2
  have g1 : a ≤ x := by
    have := h.mono (show a ≤ a + A.rnd (γ * A.rnd (b - a)) by linarith); rwa [ha, ← hx] at this
  have g2 : x ≤ b := by
    have := h.mono (show a + A.rnd (γ * A.rnd (b - a)) ≤ b by linarith); rwa [hb, ← hx] at this
  refine ⟨g1, g2, fun T hT hm => ?_⟩
  set g := A.rnd (γ * A.rnd (b - a))
  have e1 := h.err (a + g)
  have e2 := h.ge (a + g)
  rw [← hx] at e1 e2
  have e3 : 1023 / 1024 * |a + g| ≤ (1 - u) * |a + g| := mul_le_mul_of_nonneg_right (by linarith) (abs_nonneg _)
  have e4 : u * |a + g| ≤ u * (1024 / 1023 * |x|) := mul_le_mul_of_nonneg_left (by linarith) hun
  have e5 : max (x - a) (b - x) ≤ b - a := max_le (by linarith) (by linarith)
  rw [abs_le] at e1
  constructor <;> linarith [e1.1, e1.2]

/-- **C240**: with every operation rounded and a budget of at least `8(b − a)/τ` evaluations the loop is never left by the budget:
the flag is never 1, whatever values the target returns (NaN and infinities included). -/
theorem C240_stops (h : SymRounding A.rnd u) (hu : u ≤ 1 / 1024) (target : Rd A → Rd A) (ε γ a b τ : K) (limit : Int)
    (hε : 128 * u ≤ ε) (hγ : 1 / 3 ≤ γ) (hγ1 : γ ≤ 1 / 2) (hτ : 0 < τ) (hab : a ≤ b) (ha : A.rnd a = a) (hb : A.rnd b = b)
    (hlim : 8 * (b - a) ≤ limit * τ) :
    ∃ o, optimize target (Rd.fin A ε) (Rd.fin A γ) (Rd.fin A a) (Rd.fin A b) (Rd.fin A τ) limit = .ok (some o) ∧ o.flag ≠ 1 ∧
      o.count ≤ max 2 limit := by
  have hun := h.nonneg
  obtain ⟨o, ho, -⟩ := C215_inside_bounds h hu target ε γ a b τ limit (by linarith) (by linarith) hγ1 hτ hab ha hb
  refine ⟨o, ho, ?_, (C42_budget target _ _ _ _ _ limit o ho).2.2.1⟩
  obtain ⟨-, -, -, res, hr, rfl⟩ := optimize_ok ho
  obtain ⟨g1, g2, g3⟩ := startR h hu hγ hγ1 hab ha hb (x := A.rnd (a + A.rnd (γ * A.rnd (b - a)))) rfl
  set x := A.rnd (a + A.rnd (γ * A.rnd (b - a))) with hx
  have hB : BrR A a b (initial target (Rd.fin A γ) (Rd.fin A a) (Rd.fin A b)) a b x :=
    ⟨rfl, rfl, rfl, le_refl _, g1, g2, le_refl _, ha, hb, h.idem _⟩
  have hres : res.2 = false := by
    by_cases hc : Fmin.cond (Rd.fin A ε) (Rd.fin A τ) (initial target (Rd.fin A γ) (Rd.fin A a) (Rd.fin A b)) = true
    · obtain ⟨t1, t2, -⟩ := tolR_bounds (x := x) h hu hε hτ
      have hm := ((stop_test h hu g1 g2 (by linarith) t1).1 ((condR h hB).mp hc)).1
      obtain ⟨e1, e2⟩ := g3 _ t1 hm
      have e5 : max (x - a) (b - x) ≤ b - a := max_le (by linarith) (by linarith)
      refine loop_stopsR h hu hε hτ (by linarith) hγ1 limit hlim _ _ a b x res hB (by linarith) (by linarith) ?_ hr
      show b - a + (((1 : Nat) : K) - 1) * (τ / 8) ≤ b - a
      simp
    · rw [loop, if_neg hc] at hr
      cases hr; rfl
  simp only [finish, hres]
  split <;> simp

/-- On representable points `f` falls up to `z` and rises after it, when compared at points at least `δ` apart.  (A target computed
in floating point is not strictly monotone between neighbouring floats.) -/
structure UnimodalBeyond (rep : K → Prop) (δ : K) (f : K → K) (a z b : K) : Prop where
  az : a ≤ z
  zb : z ≤ b
  falls : ∀ x y, rep x → rep y → a ≤ x → x + δ ≤ y → y ≤ z → f y < f x
  rises : ∀ x y, rep x → rep y → z ≤ x → x + δ ≤ y → y ≤ b → f x < f y

/-- **C240**: with every operation rounded, a target that is unimodal beyond the distance `τ/8` and a budget of at least `8(b − a)/τ`
evaluations: flag 0, the reported value is the value at a point within `2.2(ε|x| + τ/3)` of the minimiser, and the returned point is
within `4.4(ε|x| + τ/3)` of it. -/
theorem C240_minimum (h : SymRounding A.rnd u) (hu : u ≤ 1 / 1024) (target : Rd A → Rd A) (f : K → K) (ε γ a z b τ : K) (limit : Int)
    (hε : 128 * u ≤ ε) (hγ : 1 / 3 ≤ γ) (hγ1 : γ ≤ 1 / 2) (hτ : 0 < τ) (ha : A.rnd a = a) (hb : A.rnd b = b)
    (ht : ∀ x, A.rnd x = x → a ≤ x → x ≤ b → target (Rd.fin A x) = Rd.fin A (f x))
    (hf : UnimodalBeyond (fun x => A.rnd x = x) (τ / 8) f a z b) (hlim : 8 * (b - a) ≤ limit * τ) :
    ∃ o x y, optimize target (Rd.fin A ε) (Rd.fin A γ) (Rd.fin A a) (Rd.fin A b) (Rd.fin A τ) limit = .ok (some o) ∧ o.flag = 0 ∧
      o.fval = Rd.fin A (f x) ∧ o.x = Rd.fin A y ∧ a ≤ x ∧ x ≤ b ∧
      |x - z| ≤ 22 / 10 * (ε * |x| + τ / 3) ∧ |y - z| ≤ 44 / 10 * (ε * |x| + τ / 3) := by
  have hun := h.nonneg
  have hab : a ≤ b := hf.az.trans hf.zb
  obtain ⟨o, ho, hf1, -⟩ := C240_stops h hu target ε γ a b τ limit hε hγ hγ1 hτ hab ha hb hlim
  refine ⟨o, ?_⟩
  obtain ⟨-, -, -, res, hr, ho'⟩ := optimize_ok ho
  have key := loop_induct (fun s => ∃ l r x y, BrR A a b s l r x ∧ s.xcur = Rd.fin A y ∧ l ≤ y ∧ y ≤ r ∧ s.fopt = Rd.fin A (f x) ∧
    PyNum.isNaN s.ftemp = false ∧ l ≤ z ∧ z ≤ r) ?_ _ _ _ ?_ hr
  · obtain ⟨l, r, x, y, hB, hy, y1, y2, hfo, hnan, z1, z2⟩ := key
    have hflag : o.flag = 0 ∧ res.2 = false := by
      have hn : (PyNum.isNaN res.1.xopt || PyNum.isNaN res.1.fopt || PyNum.isNaN res.1.ftemp) = false := by
        rw [hB.xopt, hfo, hnan]; rfl
      rw [ho'] at hf1 ⊢
      simp only [finish, hn, Bool.false_eq_true, if_false] at hf1 ⊢
      cases hh : res.2
      · simp
      · rw [hh] at hf1; simp at hf1
    have hstop : ¬ Fmin.cond (Rd.fin A ε) (Rd.fin A τ) res.1 = true := by
      have hres := hflag.2
      clear hflag hf1 ho' hB hfo hy ho hnan
      revert hr
      generalize initial target (Rd.fin A γ) (Rd.fin A a) (Rd.fin A b) = s
      generalize limit.toNat + 2 = n
      induction n generalizing s with
      | zero => intro hr; cases hr
      | succ n ih =>
        intro hr
        rw [loop] at hr
        split at hr
        · simp only at hr
          split at hr
          · cases hr; cases hres
          · exact ih _ hr
        · rename_i hc
          cases hr
          exact hc
    obtain ⟨t1, t2, t3⟩ := tolR_bounds (x := x) h hu hε hτ
    have hB' := hB
    obtain ⟨n1, n2⟩ := (stop_test h hu hB.lx hB.xr (by linarith) t1).2 (mt (condR h hB).mpr hstop)
    refine ⟨x, y, ho, hflag.1, by rw [ho']; exact hfo, by rw [ho']; exact hy, hB.al.trans hB.lx, hB.xr.trans hB.rb, ?_, ?_⟩
    · rw [abs_le]; constructor <;> linarith
    · rw [abs_le]; constructor <;> linarith
  · rintro s ⟨l, r, x, y, hB, -, -, -, hfo, -, z1, z2⟩ hc
    obtain ⟨y, l', r', x', hB', hcur, yf, hft, hfo', y1, y2, y3, hcs⟩ :=
      body_casesR (target := target) h hu hB hε hτ (by linarith) hγ1 hc
    have hal := hB.al
    have hrb := hB.rb
    have hlx := hB.lx
    have hxr := hB.xr
    have xf := hB.fl_x
    have hty : target (Rd.fin A y) = Rd.fin A (f y) := ht y yf (by linarith) (by linarith)
    rw [hfo, hty, Rd.le_fin] at hfo'
    rw [hfo, hty, Rd.le_fin] at hcs
    simp only [decide_eq_true_eq, decide_eq_false_iff_not] at hcs hfo'
    refine ⟨l', r', x', y, hB', hcur, ?_⟩
    have hn : PyNum.isNaN (body target (Rd.fin A ε) (Rd.fin A γ) (Rd.fin A τ) s).ftemp = false := by rw [hft, hty]; rfl
    rcases hcs with ⟨hle, hlt, rfl, rfl, rfl⟩ | ⟨hle, hlt, rfl, rfl, rfl⟩ | ⟨hle, hlt, rfl, rfl, rfl⟩ | ⟨hle, hlt, rfl, rfl, rfl⟩
    · rw [if_pos hle] at hfo'
      rw [abs_of_pos (by linarith)] at y3
      refine ⟨hlt.le, by linarith, hfo', hn, ?_, z2⟩
      by_contra hz
      exact absurd (hf.rises _ _ xf yf (not_le.mp hz).le (by linarith) (by linarith)) (not_lt.mpr hle)
    · rw [if_pos hle] at hfo'
      rw [abs_of_neg (by linarith)] at y3
      refine ⟨by linarith, hlt.le, hfo', hn, z1, ?_⟩
      by_contra hz
      exact absurd (hf.falls _ _ yf xf (by linarith) (by linarith) (not_le.mp hz).le) (not_lt.mpr hle)
    · rw [if_neg hle] at hfo'
      rw [abs_of_neg (by linarith)] at y3
      refine ⟨le_refl _, by linarith, hfo', hn, ?_, z2⟩
      by_contra hz
      exact hle (hf.rises _ _ yf xf (not_le.mp hz).le (by linarith) (by linarith)).le
    · rw [if_neg hle] at hfo'
      rw [abs_of_pos (by linarith)] at y3
      refine ⟨by linarith, le_refl _, hfo', hn, z1, ?_⟩
      by_contra hz
      exact hle (hf.falls _ _ xf yf (by linarith) (by linarith) (not_le.mp hz).le).le
  · obtain ⟨g1, g2, -⟩ := startR h hu hγ hγ1 hab ha hb (x := A.rnd (a + A.rnd (γ * A.rnd (b - a)))) rfl
    refine ⟨a, b, _, _, ⟨rfl, rfl, rfl, le_refl _, g1, g2, le_refl _, ha, hb, h.idem _⟩, rfl, g1, g2, ?_, ?_, hf.az, hf.zb⟩
    · exact ht _ (h.idem _) g1 g2
    · show PyNum.isNaN ((lit 1 : Rd A) /. lit 0) = false
      rw [Rd.lit_fin, Rd.lit_fin, Rat.cast_one, Rat.cast_zero, h.one, h.zero]
      show Fl.isNaN (Rd.round A (Fl.div (Fl.fin 1) (Fl.fin 0))) = false
      have : Fl.div (Fl.fin (1 : K)) (Fl.fin 0) = Fl.pinf := by simp [Fl.div, Fl.infSgn]
      rw [this]; rfl

/-- **C240**: the computed parabola `(x − c)·(x − c)` is such a target: it falls and rises beyond every distance larger than
`16 u (b − a)`. -/
theorem C240_parabola (h : Rounding fl u) (hu : u ≤ 1 / 1024) (rep : K → Prop) {a c b δ : K} (hac : a ≤ c) (hcb : c ≤ b)
    (hδ : 16 * u * (b - a) < δ) : UnimodalBeyond rep δ (fun x => fl (fl (x - c) * fl (x - c))) a c b := by
  have h0 := h.nonneg
  -- the computed square grows with the distance from `c`
  have grow : ∀ p q : K, |p| ≤ b - a → |q| + δ ≤ |p| → fl (fl q * fl q) < fl (fl p * fl p) := by
    intro p q hp hq
    have hd : 0 < δ := lt_of_le_of_lt (mul_nonneg (by linarith) (by linarith)) hδ
    have hP : 0 < |p| := by linarith [abs_nonneg q]
    have e1 : 16 * u * |p| ≤ 16 * u * (b - a) := mul_le_mul_of_nonneg_left hp (by linarith)
    have e2 : |q| < (1 - 16 * u) * |p| := by linarith
    have sq : ∀ t : K, 0 ≤ fl (fl t * fl t) ∧ fl (fl t * fl t) ≤ (1 + u) ^ 3 * |t| ^ 2 ∧ (1 - u) ^ 3 * |t| ^ 2 ≤ fl (fl t * fl t) := by
      intro t
      have s0 : 0 ≤ fl t * fl t := mul_self_nonneg _
      have s1 : 0 ≤ fl (fl t * fl t) := by have := h.mono s0; rwa [h.zero] at this
      have s2 := h.le (fl t * fl t)
      have s3 := h.ge (fl t * fl t)
      rw [abs_of_nonneg s1, abs_of_nonneg s0] at s2 s3
      have s8 := abs_mul_abs_self (fl t)
      have s4 := h.le t
      have s5 := h.ge t
      have s6 : |fl t| * |fl t| ≤ ((1 + u) * |t|) * ((1 + u) * |t|) := mul_le_mul s4 s4 (abs_nonneg _) (by positivity)
      have s7 : ((1 - u) * |t|) * ((1 - u) * |t|) ≤ |fl t| * |fl t| :=
        mul_le_mul s5 s5 (mul_nonneg (by linarith) (abs_nonneg _)) (abs_nonneg _)
      refine ⟨s1, ?_, ?_⟩
      · have := mul_le_mul_of_nonneg_left s6 (show 0 ≤ 1 + u by linarith)
        rw [s8] at this
        refine (s2.trans this).trans (le_of_eq ?_)
        ring
      · have := mul_le_mul_of_nonneg_left s7 (show 0 ≤ 1 - u by linarith)
        rw [s8] at this
        refine le_trans (le_of_eq ?_) (this.trans s3)
        ring
    have e3 : |q| ^ 2 < ((1 - 16 * u) * |p|) ^ 2 := pow_lt_pow_left₀ e2 (abs_nonneg q) (by norm_num)
    have e4 : (1 + u) ^ 3 * |q| ^ 2 < (1 + u) ^ 3 * ((1 - 16 * u) * |p|) ^ 2 := mul_lt_mul_of_pos_left e3 (by positivity)
    have e5 : (1 + u) ^ 3 * (1 - 16 * u) ^ 2 ≤ (1 - u) ^ 3 := by
      have k1 : (1 + u) * (1 - 16 * u) ≤ 1 - 15 * u := by nlinarith
      have k2 : 0 ≤ (1 + u) * (1 - 16 * u) := mul_nonneg (by linarith) (by linarith)
      have k3 : ((1 + u) * (1 - 16 * u)) ^ 2 ≤ (1 - 15 * u) ^ 2 := pow_le_pow_left₀ k2 k1 2
      have k4 : (1 + u) * ((1 + u) * (1 - 16 * u)) ^ 2 ≤ (1 + u) * (1 - 15 * u) ^ 2 := mul_le_mul_of_nonneg_left k3 (by linarith)
      have k5 : (1 + u) * (1 - 15 * u) ^ 2 ≤ 1 - 15 * u := by nlinarith [mul_nonneg h0 h0]
      have k6 : 1 - 15 * u ≤ (1 - u) ^ 3 := by nlinarith [mul_nonneg h0 h0]
      calc _ = (1 + u) * ((1 + u) * (1 - 16 * u)) ^ 2 := by ring
        _ ≤ _ := by linarith
    have e6 := mul_le_mul_of_nonneg_right e5 (show 0 ≤ |p| ^ 2 by positivity)
    calc _ ≤ (1 + u) ^ 3 * |q| ^ 2 := (sq q).2.1
      _ < (1 + u) ^ 3 * ((1 - 16 * u) * |p|) ^ 2 := e4
      _ = (1 + u) ^ 3 * (1 - 16 * u) ^ 2 * |p| ^ 2 := by ring
      _ ≤ _ := e6
      _ ≤ _ := (sq p).2.2
  have hd : 0 < δ := lt_of_le_of_lt (mul_nonneg (by linarith) (by linarith)) hδ
  refine ⟨hac, hcb, fun x y _ _ h1 h2 h3 => grow _ _ ?_ ?_, fun x y _ _ h1 h2 h3 => grow _ _ ?_ ?_⟩
  · rw [abs_of_nonpos (by linarith)]; linarith
  · rw [abs_of_nonpos (by linarith), abs_of_nonpos (by linarith)]; linarith
  · rw [abs_of_nonneg (by linarith)]; linarith
  · rw [abs_of_nonneg (by linarith), abs_of_nonneg (by linarith)]; linarith

/-! ## `fminbound` with its own constants -/

/-- the constants of `fminbound`, computed with rounding -/
theorem fminbound_rounded {A : Arith ℝ} {u : ℝ} (h : SymRounding A.rnd u) (hu : u ≤ 1 / 10 ^ 10) (target : Rd A → Rd A)
    (lower upper tol : Rd A) (limit : Int) : ∃ ε γ : ℝ, 1.4e-8 ≤ ε ∧ ε ≤ 1.5e-8 ∧ 1 / 3 ≤ γ ∧ γ ≤ 1 / 2 ∧
      fminbound target lower upper tol limit = optimize target (Rd.fin A ε) (Rd.fin A γ) lower upper tol limit := by
  have h0 := h.nonneg
  have near : ∀ x : ℝ, 0 < x → 0.9999 * x ≤ A.rnd x ∧ A.rnd x ≤ 1.0001 * x ∧ 0 < A.rnd x := by
    intro x hx
    have hp := h.pos hx
    have e1 := h.le x
    have e2 := h.ge x
    rw [abs_of_pos hx, abs_of_pos hp] at e1 e2
    have e3 : (1 + u) * x ≤ 1.0001 * x := mul_le_mul_of_nonneg_right (by linarith) hx.le
    have e4 : 0.9999 * x ≤ (1 - u) * x := mul_le_mul_of_nonneg_right (by linarith) hx.le
    exact ⟨by linarith, by linarith, hp⟩
  obtain ⟨c1, c2, c3⟩ := near (22 / 10 ^ 17) (by norm_num)
  obtain ⟨f1, f2, f3⟩ := near 5 (by norm_num)
  have s1 : 1.483e-8 ≤ √(A.rnd (22 / 10 ^ 17)) := Real.le_sqrt_of_sq_le (by linarith)
  have s2 : √(A.rnd (22 / 10 ^ 17)) ≤ 1.484e-8 := by rw [Real.sqrt_le_left (by norm_num)]; linarith
  have t1 : 2.23 ≤ √(A.rnd 5) := Real.le_sqrt_of_sq_le (by linarith)
  have t2 : √(A.rnd 5) ≤ 2.24 := by rw [Real.sqrt_le_left (by norm_num)]; linarith
  obtain ⟨p1, p2, -⟩ := near (√(A.rnd (22 / 10 ^ 17))) (by linarith)
  obtain ⟨q1, q2, -⟩ := near (√(A.rnd 5)) (by linarith)
  obtain ⟨r1, r2, r3⟩ := near (3 - A.rnd (√(A.rnd 5))) (by linarith)
  obtain ⟨v1, v2, -⟩ := near (1 / 2 * A.rnd (3 - A.rnd (√(A.rnd 5)))) (by linarith)
  refine ⟨A.rnd (√(A.rnd (22 / 10 ^ 17))), A.rnd (1 / 2 * A.rnd (3 - A.rnd (√(A.rnd 5)))), by linarith, by linarith, by linarith,
    by linarith, ?_⟩
  · have hh : A.rnd (((1 / 2 : ℚ)) : ℝ) = 1 / 2 := by push_cast; exact h.half
    rw [fminbound, Rd.lit_fin, Rd.lit_fin, Rd.lit_fin, Rd.lit_fin, hh]
    push_cast
    rw [h.three, Rd.sqrt_fin A c3.le, Rd.sqrt_fin A f3.le, Rd.sub_fin, Rd.mul_fin]

/-- **C240**: `fminbound` itself, every operation rounded: inside the bounds, and stopped by its own criterion. -/
theorem C240_fminbound_stops {A : Arith ℝ} {u : ℝ} (h : SymRounding A.rnd u) (hu : u ≤ 1 / 10 ^ 10) (target : Rd A → Rd A) (a b τ : ℝ)
    (limit : Int) (hτ : 0 < τ) (hab : a ≤ b) (ha : A.rnd a = a) (hb : A.rnd b = b) (hlim : 8 * (b - a) ≤ limit * τ) :
    ∃ o, fminbound target (Rd.fin A a) (Rd.fin A b) (Rd.fin A τ) limit = .ok (some o) ∧ o.flag ≠ 1 ∧ o.count ≤ max 2 limit ∧
      (∀ p ∈ o.evals, ∃ y, p = Rd.fin A y ∧ a ≤ y ∧ y ≤ b) ∧ ∃ y, o.x = Rd.fin A y ∧ a ≤ y ∧ y ≤ b := by
  have h0 := h.nonneg
  obtain ⟨ε, γ, e1, -, g1, g2, he⟩ := fminbound_rounded h hu target (Rd.fin A a) (Rd.fin A b) (Rd.fin A τ) limit
  rw [he]
  obtain ⟨o, ho, hf, hc⟩ := C240_stops h (by linarith) target ε γ a b τ limit (by linarith) g1 g2 hτ hab ha hb hlim
  obtain ⟨o', ho', i1, i2⟩ := C215_inside_bounds h (by linarith) target ε γ a b τ limit (by linarith) (by linarith) g2 hτ hab ha hb
  rw [ho] at ho'
  cases ho'
  exact ⟨o, ho, hf, hc, i1, i2⟩

/-- **C240**: `fminbound` itself finds the minimum. -/
theorem C240_fminbound_minimum {A : Arith ℝ} {u : ℝ} (h : SymRounding A.rnd u) (hu : u ≤ 1 / 10 ^ 10) (target : Rd A → Rd A) (f : ℝ → ℝ)
    (a z b τ : ℝ) (limit : Int) (hτ : 0 < τ) (ha : A.rnd a = a) (hb : A.rnd b = b)
    (ht : ∀ x, A.rnd x = x → a ≤ x → x ≤ b → target (Rd.fin A x) = Rd.fin A (f x))
    (hf : UnimodalBeyond (fun x => A.rnd x = x) (τ / 8) f a z b) (hlim : 8 * (b - a) ≤ limit * τ) :
    ∃ o x y, fminbound target (Rd.fin A a) (Rd.fin A b) (Rd.fin A τ) limit = .ok (some o) ∧ o.flag = 0 ∧
      o.fval = Rd.fin A (f x) ∧ o.x = Rd.fin A y ∧ a ≤ x ∧ x ≤ b ∧
      |x - z| ≤ 2.2 * (1.5e-8 * |x| + τ / 3) ∧ |y - z| ≤ 4.4 * (1.5e-8 * |x| + τ / 3) := by
  have h0 := h.nonneg
  obtain ⟨ε, γ, e1, e2, g1, g2, he⟩ := fminbound_rounded h hu target (Rd.fin A a) (Rd.fin A b) (Rd.fin A τ) limit
  rw [he]
  obtain ⟨o, x, y, ho, k1, k2, k3, k4, k5, k6, k7⟩ :=
    C240_minimum h (by linarith) target f ε γ a z b τ limit (by linarith) g1 g2 hτ ha hb ht hf hlim
  have hm : ε * |x| ≤ 1.5e-8 * |x| := mul_le_mul_of_nonneg_right e2 (abs_nonneg x)
  exact ⟨o, x, y, ho, k1, k2, k3, k4, k5, by linarith, by linarith⟩

theorem rnd53R_sym : SymRounding rnd53R (1 / 2 ^ 53) where
  toRounding := rnd53R_rounding
  odd := rnd53R_neg
  half := by have := rnd53R_rep 1 (-1) (by norm_num); norm_num at this ⊢; exact this
  one := by have := rnd53R_rep 1 0 (by norm_num); norm_num at this ⊢; exact this
  two := by have := rnd53R_rep 2 0 (by norm_num); norm_num at this ⊢; exact this
  three := by have := rnd53R_rep 3 0 (by norm_num); norm_num at this ⊢; exact this

/-- **C240** in 53-bit arithmetic, for the computed parabola with a representable vertex: every tolerance larger than
`128 · 2⁻⁵³` of the width will do. -/
theorem C240_binary64 (a c b τ : ℝ) (limit : Int) (hac : a ≤ c) (hcb : c ≤ b) (hτ : 128 / 2 ^ 53 * (b - a) < τ) (ha : rnd53R a = a)
    (hb : rnd53R b = b) (hlim : 8 * (b - a) ≤ limit * τ) :
    ∃ o x y, fminbound (fun p : Rd bin64R => (p -. Rd.fin bin64R c) *. (p -. Rd.fin bin64R c)) (Rd.fin bin64R a) (Rd.fin bin64R b)
        (Rd.fin bin64R τ) limit = .ok (some o) ∧ o.flag = 0 ∧
      o.fval = Rd.fin bin64R (rnd53R (rnd53R (x - c) * rnd53R (x - c))) ∧ o.x = Rd.fin bin64R y ∧ a ≤ x ∧ x ≤ b ∧
      |x - c| ≤ 2.2 * (1.5e-8 * |x| + τ / 3) ∧ |y - c| ≤ 4.4 * (1.5e-8 * |x| + τ / 3) := by
  have hτ0 : 0 < τ := lt_of_le_of_lt (mul_nonneg (by norm_num) (by linarith)) hτ
  refine C240_fminbound_minimum (A := bin64R) (u := 1 / 2 ^ 53) rnd53R_sym (by norm_num) _
    (fun x => rnd53R (rnd53R (x - c) * rnd53R (x - c))) a c b τ limit hτ0 ha hb (fun x _ _ _ => ?_)
    (C240_parabola rnd53R_sym.toRounding (by norm_num) _ hac hcb (by linarith)) hlim
  rw [Rd.sub_fin, Rd.mul_fin]; rfl

/-! ## The hypotheses are met -/

example : rnd53R 0 = 0 ∧ rnd53R 4 = 4 ∧ (0 : ℝ) ≤ 2 ∧ (2 : ℝ) ≤ 4 ∧ (128 / 2 ^ 53 * (4 - 0) : ℝ) < 1 / 1000 ∧
    (8 * (4 - 0) : ℝ) ≤ ((32000 : ℤ) : ℝ) * (1 / 1000) := by
  refine ⟨by simp [rnd53R], ?_, by norm_num, by norm_num, by norm_num, by norm_num⟩
  have := rnd53R_rep 4 0 (by norm_num); norm_num at this ⊢; exact this

end Proadv.Props
