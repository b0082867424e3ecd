import Verif.Lemmas.RoundMono
import Verif.Lemmas.Round
import Verif.Props.Fmin

set_option linter.unusedSectionVars false

/-!
# `fminbound` in rounded arithmetic (C215)

`Rd A` evaluates the same model with every operation rounded by `A.rnd`.  The rounding is monotone, has relative error at most
`u`, and is exact on the few literals of the routine.  The claim C40 (every evaluation and the returned point lie between the
bounds) survives the rounding, because the tolerance `ε |x|` of the routine is much larger than the rounding error `u |x|`.
-/

namespace Proadv

/-- a rounding that treats positive and negative numbers alike and is exact on the literals `1/2`, `1`, `2`, `3` -/
structure SymRounding {K : Type} [Field K] [LinearOrder K] (fl : K → K) (u : K) : Prop extends Rounding fl u where
  odd : ∀ x, fl (-x) = -fl x
  half : fl (1 / 2) = 1 / 2
  one : fl 1 = 1
  two : fl 2 = 2
  three : fl 3 = 3

theorem rnd53_sym : SymRounding rnd53 (1 / 2 ^ 53) where
  toRounding := rnd53_rounding
  odd := rnd53_neg
  half := by decide +kernel
  one := by decide +kernel
  two := by decide +kernel
  three := by decide +kernel

end Proadv

namespace Proadv.Props

open Proadv Proadv.Fmin

variable {K : Type} [Field K] [LinearOrder K] [IsStrictOrderedRing K] [FloorRing K] {fl : K → K} {u : K}

/-- the computed midpoint is close to the midpoint, compared with the tolerance and with the farther end -/
theorem mid_err (h : SymRounding fl u) (hu : u ≤ 1 / 1024) {l r x T D : K} (hx : 8 * u * |x| ≤ T)
    (hD : |x - (l + r) / 2| ≤ D) :
    |fl (1 / 2 * fl (l + r)) - (l + r) / 2| ≤ 251 / 1000 * T + 2 / 1000 * D := by
  have h0 := h.nonneg
  have e1 := h.err (l + r)
  have e2 := h.err (1 / 2 * fl (l + r))
  have e3 := h.le (l + r)
  have e4 : |1 / 2 * fl (l + r)| = 1 / 2 * |fl (l + r)| := by rw [abs_mul, abs_of_pos (by norm_num : (0 : K) < 1 / 2)]
  have e5 : |l + r| = 2 * |(l + r) / 2| := by rw [abs_div, abs_of_pos (by norm_num : (0 : K) < 2)]; ring
  rw [e4] at e2
  rw [e5] at e1 e3
  set m := (l + r) / 2
  have e6 : |fl (1 / 2 * fl (l + r)) - m| ≤ |fl (1 / 2 * fl (l + r)) - 1 / 2 * fl (l + r)| + 1 / 2 * |fl (l + r) - (l + r)| := by
    have t := abs_add_le (fl (1 / 2 * fl (l + r)) - 1 / 2 * fl (l + r)) (1 / 2 * (fl (l + r) - (l + r)))
    rw [abs_mul, abs_of_pos (by norm_num : (0 : K) < 1 / 2)] at t
    have : fl (1 / 2 * fl (l + r)) - 1 / 2 * fl (l + r) + 1 / 2 * (fl (l + r) - (l + r)) = fl (1 / 2 * fl (l + r)) - m := by
      simp only [m]; ring
    rwa [this] at t
  have e7 : |m| ≤ |x| + D := by
    have t := abs_sub_abs_le_abs_sub m x
    rw [abs_sub_comm] at t
    linarith
  have hm := abs_nonneg m
  have e8 : u * (1 / 2 * |fl (l + r)|) ≤ u * ((1 + u) * |m|) := mul_le_mul_of_nonneg_left (by linarith) h0
  have e9 : u * ((1 + u) * |m|) ≤ u * (1025 / 1024 * |m|) :=
    mul_le_mul_of_nonneg_left (mul_le_mul_of_nonneg_right (by linarith) hm) h0
  have e10 : u * |m| ≤ u * |x| + u * D := by rw [← mul_add]; exact mul_le_mul_of_nonneg_left e7 h0
  have hD0 : 0 ≤ D := le_trans (abs_nonneg _) hD
  have e11 : u * D ≤ 1 / 1024 * D := mul_le_mul_of_nonneg_right hu hD0
  have hT : 0 ≤ T := le_trans (by positivity) hx
  linarith

/-- The loop is entered only when the end in the direction of the computed midpoint is more than a tolerance away. -/
theorem far_ends (h : SymRounding fl u) (hu : u ≤ 1 / 1024) {l r x T : K} (hlx : l ≤ x) (hxr : x ≤ r) (hT : 0 < T)
    (hx : 8 * u * |x| ≤ T)
    (hc : fl (fl (2 * T) - fl (1 / 2 * fl (r - l))) < |fl (x - fl (1 / 2 * fl (l + r)))|) :
    (fl (1 / 2 * fl (l + r)) ≤ x → T < x - l) ∧ (x ≤ fl (1 / 2 * fl (l + r)) → T < r - x) := by
  have h0 := h.nonneg
  have hab : |x - (l + r) / 2| ≤ (r - l) / 2 := by rw [abs_le]; constructor <;> linarith
  set D := (r - l) / 2 + |x - (l + r) / 2| with hDdef
  have hE := mid_err h hu hx (show |x - (l + r) / 2| ≤ D by linarith)
  set E := 251 / 1000 * T + 2 / 1000 * D with hEdef
  set xc := fl (1 / 2 * fl (l + r)) with hxc
  have hw : 0 ≤ r - l := by linarith
  have e1 := h.le (r - l)
  have e2 := h.le (1 / 2 * fl (r - l))
  rw [abs_mul, abs_of_pos (by norm_num : (0 : K) < 1 / 2)] at e2
  rw [abs_of_nonneg hw] at e1
  have e3 : (1 + u) * (r - l) ≤ 1025 / 1024 * (r - l) := mul_le_mul_of_nonneg_right (by linarith) hw
  have e4 : (1 + u) * (1 / 2 * |fl (r - l)|) ≤ 1025 / 1024 * (1 / 2 * |fl (r - l)|) :=
    mul_le_mul_of_nonneg_right (by linarith) (by positivity)
  have e5 := le_abs_self (fl (1 / 2 * fl (r - l)))
  set hw' := fl (1 / 2 * fl (r - l))
  have e6 := h.ge (2 * T)
  have hT2 : 0 < fl (2 * T) := h.pos (by linarith)
  rw [abs_of_pos hT2, abs_of_pos (by linarith : (0 : K) < 2 * T)] at e6
  have e7 : 1023 / 1024 * (2 * T) ≤ (1 - u) * (2 * T) := mul_le_mul_of_nonneg_right (by linarith) (by linarith)
  set T2 := fl (2 * T)
  have e8 := h.le (x - xc)
  have e9 : (1 + u) * |x - xc| ≤ 1025 / 1024 * |x - xc| := mul_le_mul_of_nonneg_right (by linarith) (abs_nonneg _)
  have e10 : |x - xc| ≤ |x - (l + r) / 2| + E := by
    have t := abs_sub_le x ((l + r) / 2) xc
    rw [abs_sub_comm ((l + r) / 2) xc] at t
    linarith
  have main : 173 / 100 * T ≤ D := by
    have hn := abs_nonneg (x - (l + r) / 2)
    by_cases hlt : T2 < hw'
    · linarith
    · have hge : 0 ≤ T2 - hw' := by linarith
      have e11 := h.ge (T2 - hw')
      have e12 : 0 ≤ fl (T2 - hw') := by have := h.mono hge; rwa [h.zero] at this
      rw [abs_of_nonneg e12, abs_of_nonneg hge] at e11
      have e13 : 1023 / 1024 * (T2 - hw') ≤ (1 - u) * (T2 - hw') := mul_le_mul_of_nonneg_right (by linarith) hge
      linarith
  rw [abs_le] at hE
  constructor
  · intro hle
    rcases le_total ((l + r) / 2) x with hm | hm
    · rw [abs_of_nonneg (by linarith)] at hDdef; linarith
    · rw [abs_of_nonpos (by linarith)] at hDdef; linarith
  · intro hle
    rcases le_total ((l + r) / 2) x with hm | hm
    · rw [abs_of_nonneg (by linarith)] at hDdef; linarith
    · rw [abs_of_nonpos (by linarith)] at hDdef; linarith

/-! ## The model at `Rd A` -/

variable {A : Arith K}

theorem rd_abs (a : K) : PyNum.abs (Rd.fin A a) = Rd.fin A |a| := rfl
theorem rd_eq (a b : K) : (Rd.fin A a ==. Rd.fin A b) = decide (a = b) := rfl

theorem rd_dir (h : SymRounding A.rnd u) (σ : K) : dir (Rd.fin A σ) = Rd.fin A (if σ < 0 then -1 else 1) := by
  have h0 : A.rnd 0 = 0 := h.zero
  have h1 := h.one
  have hm : A.rnd (-1) = -1 := by rw [h.odd, h1]
  unfold dir npSign
  simp only [Rd.lit_fin, Rat.cast_zero, Rat.cast_one, Rat.cast_neg, h0, h1, hm, Rd.lt_fin, rd_eq, decide_eq_true_eq]
  rcases lt_trichotomy σ 0 with hs | hs | hs
  · rw [if_pos hs, if_neg hs.ne, if_pos hs, Rd.add_fin, add_zero, hm]
  · rw [if_neg (by simp [hs]), if_neg (by simp [hs]), if_pos hs, if_pos hs, if_neg (by simp [hs]), Rd.add_fin, zero_add, h1]
  · rw [if_neg (not_lt.mpr hs.le), if_pos hs, if_neg hs.ne', if_neg (not_lt.mpr hs.le), Rd.add_fin, add_zero, h1]

theorem rd_max (a b : K) : npMaximum (Rd.fin A a) (Rd.fin A b) = Rd.fin A (max a b) := by
  unfold npMaximum
  rw [if_neg (show ¬ ((PyNum.isNaN (Rd.fin A a) || PyNum.isNaN (Rd.fin A b)) = true) from by
    show ¬ ((Fl.isNaN (Fl.fin a) || Fl.isNaN (Fl.fin b)) = true); simp [Fl.isNaN])]
  simp only [Rd.lt_fin, decide_eq_true_eq]
  by_cases h : b < a
  · rw [if_pos h, max_eq_left h.le]
  · rw [if_neg h, max_eq_right (not_lt.mp h)]

/-- bracket part of the loop invariant; the three points are representable -/
structure BrR (A : Arith K) (a b : K) (s : St (Rd A)) (l r x : K) : Prop where
  left : s.left = Rd.fin A l
  right : s.right = Rd.fin A r
  xopt : s.xopt = Rd.fin A x
  al : a ≤ l
  lx : l ≤ x
  xr : x ≤ r
  rb : r ≤ b
  fl_l : A.rnd l = l
  fl_r : A.rnd r = r
  fl_x : A.rnd x = x

/-- an accepted parabolic step is a number, whatever the function values are -/
theorem acceptedR (h : SymRounding A.rnd u) {a b l r x : K} {s : St (Rd A)} (hb : BrR A a b s l r x) (hacc : acceptable s = true) :
    ∃ σ, (parabola s).1 /. (parabola s).2 = Rd.fin A σ ∧ A.rnd σ = σ := by
  have hq : ∃ q0 : Fl K, (parabola s).2 = Fl.abs q0 := ⟨_, rfl⟩
  replace hacc : ((PyNum.abs (parabola s).1 <. PyNum.abs ((lit (1 / 2) *. (parabola s).2) *. s.e)) &&
    (((parabola s).2 *. (s.left -. s.xopt)) <. (parabola s).1) &&
    ((parabola s).1 <. ((parabola s).2 *. (s.right -. s.xopt)))) = true := hacc
  rw [hb.left, hb.right, hb.xopt] at hacc
  generalize (parabola s).1 = p at *
  generalize (parabola s).2 = q at *
  generalize s.e = e at *
  obtain ⟨q0, rfl⟩ := hq
  simp only [Bool.and_eq_true, Rd.sub_fin] at hacc
  obtain ⟨⟨h1, h2⟩, h3⟩ := hacc
  have inf : ∀ z : Fl K, Fl.lt Fl.pinf z = false := by intro z; cases z <;> rfl
  cases p with
  | nan => simp [PyNum.lt, PyNum.abs, Fl.lt, Fl.abs] at h1
  | pinf => exact absurd ((inf _).symm.trans h1) Bool.false_ne_true
  | ninf => exact absurd ((inf _).symm.trans h1) Bool.false_ne_true
  | fin P =>
    have key : ∀ Q : K, (Rd.fin A Q *. Rd.fin A (A.rnd (l - x)) <. Rd.fin A P) = true →
        (Rd.fin A P <. Rd.fin A Q *. Rd.fin A (A.rnd (r - x))) = true →
        ∃ σ, Rd.fin A P /. Rd.fin A Q = Rd.fin A σ ∧ A.rnd σ = σ := by
      intro Q k2 k3
      rw [Rd.mul_fin, Rd.lt_fin, decide_eq_true_eq] at k2 k3
      have hQ0 : Q ≠ 0 := by
        rintro rfl
        rw [zero_mul, h.zero] at k2 k3
        linarith
      exact ⟨_, Rd.div_fin A hQ0, h.idem _⟩
    have big : @PyNum.div (Rd A) _ (Rd.fin A P) Fl.pinf = Rd.fin A (A.rnd 0) := rfl
    have nomul : ∀ z : Fl K, Fl.mul Fl.nan z = Fl.nan := fun z => by cases z <;> rfl
    have nolt : ∀ z w : Fl K, Fl.lt (Rd.round A (Fl.mul Fl.nan z)) w = false := fun z w => by rw [nomul]; rfl
    cases q0 with
    | nan => exact absurd ((nolt _ _).symm.trans h2) Bool.false_ne_true
    | fin Q => exact key |Q| h2 h3
    | pinf => exact ⟨A.rnd 0, big, h.idem 0⟩
    | ninf => exact ⟨A.rnd 0, big, h.idem 0⟩

/-- the computed tolerance -/
def tolR (A : Arith K) (ε τ x : K) : K := A.rnd (A.rnd (ε * |x|) + A.rnd (τ / 3))

theorem tol1R (h : SymRounding A.rnd u) {a b l r x ε τ : K} {s : St (Rd A)} (hb : BrR A a b s l r x) :
    tol1 (Rd.fin A ε) (Rd.fin A τ) s = Rd.fin A (tolR A ε τ x) := by
  rw [tol1, hb.xopt, rd_abs, Rd.mul_fin, Rd.lit_fin, Rat.cast_ofNat, h.three, Rd.div_fin A (by norm_num), Rd.add_fin]; rfl

theorem tolR_pos (h : SymRounding A.rnd u) {ε τ x : K} (hε : 16 * u ≤ ε) (hτ : 0 < τ) :
    0 < tolR A ε τ x ∧ 8 * u * |x| ≤ tolR A ε τ x := by
  have h0 := h.nonneg
  have hs := h.small
  have hε0 : 0 ≤ ε := by linarith
  have p0 : 0 ≤ ε * |x| := mul_nonneg hε0 (abs_nonneg _)
  have p1 : 0 < A.rnd (τ / 3) := h.pos (by linarith)
  have p2 : 0 ≤ A.rnd (ε * |x|) := by have := h.mono p0; rwa [h.zero] at this
  have p3 : 0 < tolR A ε τ x := h.pos (by linarith)
  refine ⟨p3, ?_⟩
  have g1 := h.ge (ε * |x|)
  rw [abs_of_nonneg p0, abs_of_nonneg p2] at g1
  have g2 := h.ge (A.rnd (ε * |x|) + A.rnd (τ / 3))
  rw [abs_of_pos (show 0 < A.rnd (A.rnd (ε * |x|) + A.rnd (τ / 3)) from p3), abs_of_pos (by linarith)] at g2
  have g3 : 31 / 32 * (ε * |x|) ≤ (1 - u) * (ε * |x|) := mul_le_mul_of_nonneg_right (by linarith) p0
  have g4 : 31 / 32 * (A.rnd (ε * |x|) + A.rnd (τ / 3)) ≤ (1 - u) * (A.rnd (ε * |x|) + A.rnd (τ / 3)) :=
    mul_le_mul_of_nonneg_right (by linarith) (by linarith)
  have g5 : 16 * u * |x| ≤ ε * |x| := mul_le_mul_of_nonneg_right hε (abs_nonneg _)
  have g6 : tolR A ε τ x = A.rnd (A.rnd (ε * |x|) + A.rnd (τ / 3)) := rfl
  rw [g6]
  linarith

theorem xcentralR (h : SymRounding A.rnd u) {a b l r x : K} {s : St (Rd A)} (hb : BrR A a b s l r x) :
    xcentral s = Rd.fin A (A.rnd (1 / 2 * A.rnd (l + r))) := by
  have hh : A.rnd (((1 / 2 : ℚ)) : K) = 1 / 2 := by push_cast; exact h.half
  rw [xcentral, hb.left, hb.right, Rd.lit_fin, hh, Rd.add_fin, Rd.mul_fin]

theorem tol2R (h : SymRounding A.rnd u) {a b l r x ε τ : K} {s : St (Rd A)} (hb : BrR A a b s l r x) :
    tol2 (Rd.fin A ε) (Rd.fin A τ) s = Rd.fin A (A.rnd (2 * tolR A ε τ x)) := by
  rw [tol2, tol1R h hb, Rd.lit_fin, Rat.cast_ofNat, h.two, Rd.mul_fin]

/-- the point evaluated by the body lies in the bracket -/
theorem next_inR (h : SymRounding A.rnd u) (hu : u ≤ 1 / 1024) {a b l r x ε γ τ : K} {s : St (Rd A)} (hb : BrR A a b s l r x)
    (hε : 16 * u ≤ ε) (hτ : 0 < τ) (hγ : 0 < γ) (hγ1 : γ ≤ 1 / 2) (hc : Fmin.cond (Rd.fin A ε) (Rd.fin A τ) s = true) :
    ∃ y, nextPoint (Rd.fin A ε) (Rd.fin A τ) s (chooseStep (Rd.fin A ε) (Rd.fin A γ) (Rd.fin A τ) s).2 = Rd.fin A y ∧
      l ≤ y ∧ y ≤ r ∧ A.rnd y = y := by
  have ht := tol1R (ε := ε) (τ := τ) h hb
  have ht2 := tol2R (ε := ε) (τ := τ) h hb
  have hxc := xcentralR h hb
  obtain ⟨hT0, hT8⟩ := tolR_pos (x := x) h hε hτ
  have hTf : A.rnd (tolR A ε τ x) = tolR A ε τ x := h.idem _
  generalize tolR A ε τ x = T at *
  have h0 := h.nonneg
  have lx := hb.lx
  have xr := hb.xr
  have hh : A.rnd (((1 / 2 : ℚ)) : K) = 1 / 2 := by push_cast; exact h.half
  have hfar := far_ends h hu lx xr hT0 hT8 (by
    rw [Fmin.cond, ht2, hxc, hb.left, hb.right, hb.xopt, Rd.lit_fin, hh] at hc
    simpa only [Rd.sub_fin, Rd.mul_fin, rd_abs, Rd.lt_fin, decide_eq_true_eq] using hc)
  set xc := A.rnd (1 / 2 * A.rnd (l + r)) with hxcdef
  obtain ⟨far1, far2⟩ := hfar
  -- the point reached with the step `σ`
  have red : ∀ σ : K, A.rnd σ = σ → nextPoint (Rd.fin A ε) (Rd.fin A τ) s (Rd.fin A σ) =
      Rd.fin A (A.rnd (x + (if σ < 0 then -1 else 1) * max |σ| T)) := by
    intro σ hσ
    rw [nextPoint, rd_dir h, ht, rd_abs, rd_max, hb.xopt, Rd.mul_fin, Rd.add_fin]
    congr 3
    have hm : A.rnd (max |σ| T) = max |σ| T := by
      rcases max_cases |σ| T with ⟨e, _⟩ | ⟨e, _⟩ <;> rw [e]
      · rcases abs_cases σ with ⟨e, _⟩ | ⟨e, _⟩ <;> rw [e]
        · exact hσ
        · rw [h.odd, hσ]
      · exact hTf
    split
    · rw [neg_one_mul, h.odd, hm]
    · rw [one_mul, hm]
  have lo : ∀ z, l ≤ z → l ≤ A.rnd z := fun z hz => by have := h.mono hz; rwa [hb.fl_l] at this
  have hi : ∀ z, z ≤ r → A.rnd z ≤ r := fun z hz => by have := h.mono hz; rwa [hb.fl_r] at this
  have fin_step : ∀ σ : K, A.rnd σ = σ → (σ < 0 → l - x ≤ σ ∧ T ≤ x - l) → (0 ≤ σ → σ ≤ r - x ∧ T ≤ r - x) →
      ∃ y, nextPoint (Rd.fin A ε) (Rd.fin A τ) s (Rd.fin A σ) = Rd.fin A y ∧ l ≤ y ∧ y ≤ r ∧ A.rnd y = y := by
    intro σ hσ h1 h2
    refine ⟨_, red σ hσ, ?_⟩
    by_cases hs : σ < 0
    · rw [if_pos hs, abs_of_neg hs]
      obtain ⟨k1, k2⟩ := h1 hs
      refine ⟨lo _ ?_, hi _ ?_, h.idem _⟩ <;> rcases max_cases (-σ) T with ⟨e, _⟩ | ⟨e, _⟩ <;> rw [e] <;> linarith
    · have hs' := not_lt.mp hs
      rw [if_neg hs, abs_of_nonneg hs']
      obtain ⟨k1, k2⟩ := h2 hs'
      refine ⟨lo _ ?_, hi _ ?_, h.idem _⟩ <;> rcases max_cases σ T with ⟨e, _⟩ | ⟨e, _⟩ <;> rw [e] <;> linarith
  unfold chooseStep
  split
  · -- parabolic step
    rename_i hacc
    rw [Bool.and_eq_true] at hacc
    obtain ⟨σ, hσ, hσf⟩ := acceptedR h hb hacc.2
    show ∃ y, nextPoint (Rd.fin A ε) (Rd.fin A τ) s (parabolicStep (Rd.fin A ε) (Rd.fin A τ) s) = Rd.fin A y ∧ _
    have hps : parabolicStep (Rd.fin A ε) (Rd.fin A τ) s =
        if A.rnd (A.rnd (x + σ) - l) < A.rnd (2 * T) ∨ A.rnd (r - A.rnd (x + σ)) < A.rnd (2 * T) then
          Rd.fin A (if xc < x then -T else T) else Rd.fin A σ := by
      have : parabolicStep (Rd.fin A ε) (Rd.fin A τ) s =
          if ((s.xopt +. ((parabola s).1 /. (parabola s).2) -. s.left) <. tol2 (Rd.fin A ε) (Rd.fin A τ) s)
          || ((s.right -. (s.xopt +. ((parabola s).1 /. (parabola s).2))) <. tol2 (Rd.fin A ε) (Rd.fin A τ) s) then
          tol1 (Rd.fin A ε) (Rd.fin A τ) s *. (npSign (xcentral s -. s.xopt) +. (if xcentral s ==. s.xopt then lit 1 else lit 0))
          else (parabola s).1 /. (parabola s).2 := rfl
      rw [this, hσ, ht2, ht, hxc, hb.left, hb.right, hb.xopt]
      have hd := rd_dir h (A.rnd (xc - x))
      have hz : A.rnd (xc - x) = 0 ↔ xc = x := by
        constructor
        · intro e
          by_contra hne
          exact h.ne (sub_ne_zero.mpr hne) e
        · intro e; rw [e, sub_self, h.zero]
      have hl : A.rnd (xc - x) < 0 ↔ xc < x := by
        constructor
        · intro e
          by_contra hne
          have := h.mono (show 0 ≤ xc - x by linarith [not_lt.mp hne])
          rw [h.zero] at this
          linarith
        · intro e; exact h.neg (by linarith)
      have hd' : npSign (Rd.fin A xc -. Rd.fin A x) +. (if Rd.fin A xc ==. Rd.fin A x then lit 1 else lit 0)
          = Rd.fin A (if xc < x then -1 else 1) := by
        rw [dir] at hd
        simp only [hl, rd_eq, Rd.lit_fin, Rat.cast_zero, h.zero, hz] at hd
        simp only [Rd.sub_fin, rd_eq, Rd.lit_fin, Rat.cast_zero, h.zero]
        exact hd
      rw [hd']
      simp only [Rd.add_fin, Rd.sub_fin, Rd.lt_fin, Rd.mul_fin, Bool.or_eq_true, decide_eq_true_eq]
      congr 2
      split
      · rw [mul_neg_one, h.odd, hTf]
      · rw [mul_one, hTf]
    rw [hps]
    split
    · by_cases hm : xc < x
      · rw [if_pos hm]
        have := far1 hm.le
        exact fin_step _ (by rw [h.odd, hTf]) (fun _ => ⟨by linarith, this.le⟩) (fun h' => by linarith)
      · rw [if_neg hm]
        have := far2 (not_lt.mp hm)
        exact fin_step _ hTf (fun h' => by linarith) (fun _ => ⟨by linarith, this.le⟩)
    · rename_i hn
      push Not at hn
      obtain ⟨n1, n2⟩ := hn
      have t2 := h.ge (2 * T)
      have t2p : 0 < A.rnd (2 * T) := h.pos (by linarith)
      rw [abs_of_pos t2p, abs_of_pos (by linarith)] at t2
      have t3 : 1023 / 1024 * (2 * T) ≤ (1 - u) * (2 * T) := mul_le_mul_of_nonneg_right (by linarith) (by linarith)
      -- both ends are at least `T` from the rounded trial point
      have dist : ∀ d, A.rnd (2 * T) ≤ A.rnd d → T ≤ d := by
        intro d hd
        by_contra hlt
        have := h.mono (not_le.mp hlt).le
        have g := h.le T
        rw [abs_of_pos hT0, hTf] at g
        rw [hTf] at this
        linarith
      have d1 := dist _ n1
      have d2 := dist _ n2
      by_cases hbig : T ≤ |σ|
      · refine ⟨_, red σ hσf, ?_⟩
        have e : (if σ < 0 then -1 else 1) * max |σ| T = σ := by
          rw [max_eq_left hbig]
          split
          · rename_i hs; rw [abs_of_neg hs]; ring
          · rename_i hs; rw [abs_of_nonneg (not_lt.mp hs), one_mul]
        rw [e]
        exact ⟨by linarith, by linarith, h.idem _⟩
      · have hbig' := not_le.mp hbig
        by_cases hs : σ < 0
        · have : A.rnd (x + σ) ≤ x := by have := h.mono (show x + σ ≤ x by linarith); rwa [hb.fl_x] at this
          rw [abs_of_neg hs] at hbig'
          exact fin_step σ hσf (fun _ => ⟨by linarith, by linarith⟩) (fun h' => by linarith)
        · have hs' := not_lt.mp hs
          have : x ≤ A.rnd (x + σ) := by have := h.mono (show x ≤ x + σ by linarith); rwa [hb.fl_x] at this
          rw [abs_of_nonneg hs'] at hbig'
          exact fin_step σ hσf (fun h' => by linarith) (fun _ => ⟨by linarith, by linarith⟩)
  · -- golden section
    show ∃ y, nextPoint (Rd.fin A ε) (Rd.fin A τ) s (Rd.fin A γ *. goldenE s) = Rd.fin A y ∧ _
    have shrink : ∀ d, 0 < d → 0 < A.rnd (γ * A.rnd d) ∧ A.rnd (γ * A.rnd d) ≤ d := by
      intro d hd
      have hp := h.pos hd
      have hp2 : 0 < γ * A.rnd d := mul_pos hγ hp
      refine ⟨h.pos hp2, ?_⟩
      have g1 := h.le d
      rw [abs_of_pos hp, abs_of_pos hd] at g1
      have g2 := h.le (γ * A.rnd d)
      rw [abs_of_pos (h.pos hp2), abs_of_pos hp2] at g2
      have g3 : γ * A.rnd d ≤ 1 / 2 * A.rnd d := mul_le_mul_of_nonneg_right hγ1 hp.le
      have g4 : (1 + u) * d ≤ 1025 / 1024 * d := mul_le_mul_of_nonneg_right (by linarith) hd.le
      have g5 : (1 + u) * (γ * A.rnd d) ≤ 1025 / 1024 * (γ * A.rnd d) := mul_le_mul_of_nonneg_right (by linarith) hp2.le
      linarith
    by_cases hm : xc ≤ x
    · have : goldenE s = Rd.fin A (A.rnd (l - x)) := by
        rw [goldenE, hxc, hb.xopt, hb.left, Rd.le_fin, if_pos (by simpa using hm), Rd.sub_fin]
      rw [this, Rd.mul_fin]
      have hf := far1 hm
      obtain ⟨s1, s2⟩ := shrink (x - l) (by linarith)
      have e : A.rnd (γ * A.rnd (l - x)) = -A.rnd (γ * A.rnd (x - l)) := by
        rw [← neg_sub x l, h.odd, mul_neg, h.odd]
      rw [e]
      exact fin_step _ (by rw [h.odd, h.idem]) (fun _ => ⟨by linarith, hf.le⟩) (fun h' => by linarith)
    · have : goldenE s = Rd.fin A (A.rnd (r - x)) := by
        rw [goldenE, hxc, hb.xopt, hb.right, Rd.le_fin, if_neg (by simpa using hm), Rd.sub_fin]
      rw [this, Rd.mul_fin]
      have hf := far2 (not_le.mp hm).le
      obtain ⟨s1, s2⟩ := shrink (r - x) (by linarith)
      exact fin_step _ (h.idem _) (fun h' => by linarith) (fun _ => ⟨s2, hf.le⟩)

theorem body_bracketR (h : SymRounding A.rnd u) (hu : u ≤ 1 / 1024) {a b l r x ε γ τ : K} {s : St (Rd A)} {target : Rd A → Rd A}
    (hb : BrR A a b s l r x) (hε : 16 * u ≤ ε) (hτ : 0 < τ) (hγ : 0 < γ) (hγ1 : γ ≤ 1 / 2)
    (hc : Fmin.cond (Rd.fin A ε) (Rd.fin A τ) s = true) :
    ∃ y l' r' x', (body target (Rd.fin A ε) (Rd.fin A γ) (Rd.fin A τ) s).evals = s.evals ++ [Rd.fin A y] ∧
      (body target (Rd.fin A ε) (Rd.fin A γ) (Rd.fin A τ) s).xcur = Rd.fin A y ∧ a ≤ y ∧ y ≤ b ∧
      BrR A a b (body target (Rd.fin A ε) (Rd.fin A γ) (Rd.fin A τ) s) l' r' x' := by
  obtain ⟨y, hy, y1, y2, yf⟩ := next_inR h hu hb hε hτ hγ hγ1 hc
  have hal := hb.al
  have hrb := hb.rb
  have hlx := hb.lx
  have hxr := hb.xr
  have fl_l := hb.fl_l
  have fl_r := hb.fl_r
  have fl_x := hb.fl_x
  rw [body]
  simp only [hy]
  set e := (chooseStep (Rd.fin A ε) (Rd.fin A γ) (Rd.fin A τ) s).1
  set st := (chooseStep (Rd.fin A ε) (Rd.fin A γ) (Rd.fin A τ) s).2
  have hbd := update_bounds target s e st (Rd.fin A y)
  have hx := update_xopt target s e st (Rd.fin A y)
  rw [hb.xopt, hb.left, hb.right] at hbd
  rw [hb.xopt] at hx
  have hev := update_evals target s e st (Rd.fin A y)
  have hcu := update_xcur target s e st (Rd.fin A y)
  by_cases hf : (target (Rd.fin A y) ≤. s.fopt) = true
  · rw [if_pos hf] at hbd hx
    by_cases hle : x ≤ y
    · simp only [Rd.le_fin, decide_eq_true_eq, hle, if_true, Prod.mk.injEq] at hbd
      exact ⟨y, x, r, y, hev, hcu, by linarith, by linarith, hbd.1, hbd.2, hx, by linarith, hle, y2, hrb, fl_x, fl_r, yf⟩
    · simp only [Rd.le_fin, decide_eq_true_eq, hle, if_false, Prod.mk.injEq] at hbd
      exact ⟨y, l, x, y, hev, hcu, by linarith, by linarith, hbd.1, hbd.2, hx, hal, y1, by linarith, by linarith, fl_l, fl_x, yf⟩
  · rw [if_neg hf] at hbd hx
    by_cases hlt : y < x
    · simp only [Rd.lt_fin, decide_eq_true_eq, hlt, if_true, Prod.mk.injEq] at hbd
      exact ⟨y, y, r, x, hev, hcu, by linarith, by linarith, hbd.1, hbd.2, hx, by linarith, hlt.le, hxr, hrb, yf, fl_r, fl_x⟩
    · simp only [Rd.lt_fin, decide_eq_true_eq, hlt, if_false, Prod.mk.injEq] at hbd
      exact ⟨y, l, y, x, hev, hcu, by linarith, by linarith, hbd.1, hbd.2, hx, hal, hlx, by linarith, by linarith, fl_l, yf, fl_x⟩

/-- **C215**: with every operation rounded, `fminbound` on representable bounds `a ≤ b` and a positive tolerance always returns;
every evaluation point and the returned point are numbers of `[a, b]` — for every target (NaN and infinite values included), every
budget, every constant `ε ≥ 16 u` and every golden constant up to `1/2`. -/
theorem C215_inside_bounds (h : SymRounding A.rnd u) (hu : u ≤ 1 / 1024) (target : Rd A → Rd A) (ε γ a b τ : K) (limit : Int)
    (hε : 16 * u ≤ ε) (hγ : 0 < γ) (hγ1 : γ ≤ 1 / 2) (hτ : 0 < τ) (hab : a ≤ b) (ha : A.rnd a = a) (hb : A.rnd b = b) :
    ∃ o, optimize target (Rd.fin A ε) (Rd.fin A γ) (Rd.fin A a) (Rd.fin A b) (Rd.fin A τ) limit = .ok (some o) ∧
      (∀ p ∈ o.evals, ∃ y, p = Rd.fin A y ∧ a ≤ y ∧ y ≤ b) ∧ ∃ y, o.x = Rd.fin A y ∧ a ≤ y ∧ y ≤ b := by
  have fin_ok : ∀ z : K, npIsFinite (Rd.fin A z) = true := by
    intro z
    rw [npIsFinite, Rd.sub_fin, sub_self, Rd.lit_fin, Rat.cast_zero, rd_eq, decide_eq_true_eq]
  rcases C42_terminates target (Rd.fin A ε) (Rd.fin A γ) (Rd.fin A a) (Rd.fin A b) (Rd.fin A τ) limit with he | ⟨o, ho⟩
  · exfalso
    unfold optimize at he
    rw [fin_ok, fin_ok, if_neg (by simp), Rd.lt_fin, if_neg (by simpa using hab)] at he
    cases he
  refine ⟨o, ho, ?_⟩
  obtain ⟨-, -, -, r, hr, rfl⟩ := optimize_ok ho
  have key := loop_induct (fun s => (∃ l r x, BrR A a b s l r x) ∧ (∀ p ∈ s.evals, ∃ y, p = Rd.fin A y ∧ a ≤ y ∧ y ≤ b) ∧
    ∃ y, s.xcur = Rd.fin A y ∧ a ≤ y ∧ y ≤ b) ?_ _ _ _ ?_ hr
  · exact key.2
  · rintro s ⟨⟨l, r, x, hB⟩, h2, -⟩ hc
    obtain ⟨y, l', r', x', e1, e2, y1, y2, hB'⟩ := body_bracketR (target := target) h hu hB hε hτ hγ hγ1 hc
    refine ⟨⟨l', r', x', hB'⟩, ?_, y, e2, y1, y2⟩
    rw [e1]
    intro p hp
    rcases List.mem_append.mp hp with hp | hp
    · exact h2 p hp
    · exact ⟨y, by simpa using hp, y1, y2⟩
  · have h0 : 0 ≤ b - a := by linarith
    have hun := h.nonneg
    have k1 : 0 ≤ A.rnd (b - a) := by have := h.mono h0; rwa [h.zero] at this
    have k2 : 0 ≤ γ * A.rnd (b - a) := mul_nonneg hγ.le k1
    have k3 : 0 ≤ A.rnd (γ * A.rnd (b - a)) := by have := h.mono k2; rwa [h.zero] at this
    have k4 := h.le (b - a)
    rw [abs_of_nonneg k1, abs_of_nonneg h0] at k4
    have k5 := h.le (γ * A.rnd (b - a))
    rw [abs_of_nonneg k3, abs_of_nonneg k2] at k5
    have k6 : γ * A.rnd (b - a) ≤ 1 / 2 * A.rnd (b - a) := mul_le_mul_of_nonneg_right hγ1 k1
    have k7 : (1 + u) * (b - a) ≤ 1025 / 1024 * (b - a) := mul_le_mul_of_nonneg_right (by linarith) h0
    have k8 : (1 + u) * (γ * A.rnd (b - a)) ≤ 1025 / 1024 * (γ * A.rnd (b - a)) := mul_le_mul_of_nonneg_right (by linarith) k2
    have e : (initial target (Rd.fin A γ) (Rd.fin A a) (Rd.fin A b)).xopt = Rd.fin A (A.rnd (a + A.rnd (γ * A.rnd (b - a)))) := rfl
    have g1 : a ≤ A.rnd (a + A.rnd (γ * A.rnd (b - a))) := by
      have := h.mono (show a ≤ a + A.rnd (γ * A.rnd (b - a)) by linarith); rwa [ha] at this
    have g2 : A.rnd (a + A.rnd (γ * A.rnd (b - a))) ≤ b := by
      have := h.mono (show a + A.rnd (γ * A.rnd (b - a)) ≤ b by linarith); rwa [hb] at this
    refine ⟨⟨a, b, _, rfl, rfl, e, le_refl _, g1, g2, le_refl _, ha, hb, h.idem _⟩, ?_, _, e, g1, g2⟩
    intro p hp
    refine ⟨_, ?_, g1, g2⟩
    rw [← e]
    simpa [initial] using hp

/-- **C215** in binary64 (without overflow and underflow): the routine's own constants are about `1.48e-8` and `0.38` -/
theorem C215_binary64 (target : Rd bin64 → Rd bin64) (ε γ a b τ : ℚ) (limit : Int) (hε : 1 / 10 ^ 8 ≤ ε) (hγ : 0 < γ) (hγ1 : γ ≤ 1 / 2)
    (hτ : 0 < τ) (hab : a ≤ b) (ha : rnd53 a = a) (hb : rnd53 b = b) :
    ∃ o, optimize target (Rd.fin bin64 ε) (Rd.fin bin64 γ) (Rd.fin bin64 a) (Rd.fin bin64 b) (Rd.fin bin64 τ) limit = .ok (some o) ∧
      (∀ p ∈ o.evals, ∃ y, p = Rd.fin bin64 y ∧ a ≤ y ∧ y ≤ b) ∧ ∃ y, o.x = Rd.fin bin64 y ∧ a ≤ y ∧ y ≤ b :=
  C215_inside_bounds (A := bin64) rnd53_sym (by norm_num) target ε γ a b τ limit (le_trans (by norm_num) hε) hγ hγ1 hτ hab ha hb

/-- the hypotheses are met, and the loop runs: four evaluations of `(x - 1/3)²` on `[0, 1]` -/
example : rnd53 0 = 0 ∧ rnd53 1 = 1 ∧
    (match optimize (fun x : Rd bin64 => (x -. lit (1 / 3)) *. (x -. lit (1 / 3))) (Rd.fin bin64 (1 / 10 ^ 8)) (Rd.fin bin64 (rnd53 (38 / 100)))
      (Rd.fin bin64 0) (Rd.fin bin64 1) (Rd.fin bin64 (1 / 1000)) 4 with
    | .ok (some o) => o.evals.length == 4
    | _ => false) = true := by
  refine ⟨by decide +kernel, by decide +kernel, ?_⟩
  decide +kernel

end Proadv.Props
