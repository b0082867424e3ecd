import Verif.Py.Underflow
import Verif.Model.Fluid
import Verif.Spec.Cov
import Verif.Props.Rounding

/-!
# Property C235: `reynolds_stresses` and `kinetic_turbulent_energy` in floating-point arithmetic

The definitions of C24 and C25 evaluated with rounding and gradual underflow (`Verif/Py/Underflow.lean`); without underflow take
`η = 0` (`Std.gradual`).
-/

set_option linter.unusedSectionVars false

namespace Proadv.Props

open Proadv Descriptive Signal

variable {K : Type} [Field K] [LinearOrder K] [FloorRing K] [IsStrictOrderedRing K]

/-- bound on the error of a computed mean -/
def meanErr (u η : K) (xs : List K) : K := ((1 + u) ^ (xs.length + 1) - 1) * Spec.avg (xs.map (fun x => |x|)) + η

/-- bound on the error of a computed mean product of fluctuations: relative to the larger of the products, plus the product of the
errors of the means, plus underflow -/
def stressErr (u η : K) (xs ys : List K) : K :=
  ((1 + u) ^ (xs.length + 4) - 1) *
      ((Spec.var xs + meanErr u η xs ^ 2 + (Spec.var ys + meanErr u η ys ^ 2)) / 2) +
    meanErr u η xs * meanErr u η ys + ((1 + u) ^ (xs.length + 1) + 1) * η

private theorem abs_sum_le_f (l : List K) : |l.sum| ≤ (l.map (fun x => |x|)).sum := by
  induction l with
  | nil => simp
  | cons x t ih =>
    simp only [List.sum_cons, List.map_cons]
    exact (abs_add_le _ _).trans (by linarith)

private theorem mean_near_f (A : Arith K) (u η : K) (Rep : K → Prop) (h : Gradual A u η Rep) (xs : List K) (hne : xs ≠ [])
    (hrep : ∀ x ∈ xs, Rep x) : |A.rnd (A.sum xs / xs.length) - Spec.avg xs| ≤ meanErr u η xs := by
  have hn : (0 : K) < xs.length := by exact_mod_cast List.length_pos_of_ne_nil hne
  have h1 := h.sum xs hrep
  unfold meanErr
  set T := Spec.avg (xs.map (fun x => |x|)) with hT
  have hT' : (xs.map (fun x => |x|)).sum = xs.length * T := by
    rw [hT]; unfold Spec.avg; rw [List.length_map]; field_simp
  have h3 := abs_sum_le_f xs
  rw [hT'] at h1 h3
  have h4 : |A.sum xs / xs.length - Spec.avg xs| ≤ ((1 + u) ^ xs.length - 1) * T := by
    unfold Spec.avg
    rw [← sub_div, abs_div, abs_of_pos hn, div_le_iff₀ hn]
    linarith
  have h5 : |Spec.avg xs| ≤ T := by
    unfold Spec.avg
    rw [abs_div, abs_of_pos hn, div_le_iff₀ hn]; linarith
  refine (h.rnd_near h4).trans ?_
  have := mul_le_mul_of_nonneg_left h5 h.nonneg
  rw [pow_succ]
  linarith

/-- one product of computed fluctuations -/
private theorem prod_near (A : Arith K) (u η : K) (Rep : K → Prop) (h : Gradual A u η Rep) (x y a b : K) (hx : Rep x) (hy : Rep y)
    (ha : Rep a) (hb : Rep b) :
    |A.rnd (A.rnd (x - a) * A.rnd (y - b)) - (x - a) * (y - b)| ≤ ((1 + u) ^ 3 - 1) * |(x - a) * (y - b)| + η := by
  have hu := h.nonneg
  have h1 := h.sub x a hx ha
  have h2 := h.sub y b hy hb
  generalize x - a = s at *
  generalize y - b = t at *
  have h3 : |A.rnd t| ≤ (1 + u) * |t| := by
    have := abs_add_le (A.rnd t - t) t
    rw [sub_add_cancel] at this
    linarith
  have h4 : |A.rnd s * A.rnd t - s * t| ≤ u * (2 + u) * |s * t| := by
    have e : A.rnd s * A.rnd t - s * t = (A.rnd s - s) * A.rnd t + s * (A.rnd t - t) := by ring
    rw [e]
    refine (abs_add_le _ _).trans ?_
    rw [abs_mul, abs_mul, abs_mul]
    have h5 := mul_le_mul h1 h3 (abs_nonneg _) (by positivity)
    have h6 := mul_le_mul_of_nonneg_left h2 (abs_nonneg s)
    linarith
  refine (h.rnd_near h4).trans (le_of_eq ?_)
  ring

private theorem prods_near (A : Arith K) (u η : K) (Rep : K → Prop) (h : Gradual A u η Rep) (a b : K) (ha : Rep a) (hb : Rep b)
    (ps : List (K × K)) (hrep : ∀ p ∈ ps, Rep p.1 ∧ Rep p.2) :
    |(ps.map (fun p => A.rnd (A.rnd (p.1 - a) * A.rnd (p.2 - b)))).sum - (ps.map (fun p => (p.1 - a) * (p.2 - b))).sum| ≤
      ((1 + u) ^ 3 - 1) * (ps.map (fun p => |(p.1 - a) * (p.2 - b)|)).sum + ps.length * η ∧
    ((ps.map (fun p => A.rnd (A.rnd (p.1 - a) * A.rnd (p.2 - b)))).map (fun x => |x|)).sum ≤
      (1 + u) ^ 3 * (ps.map (fun p => |(p.1 - a) * (p.2 - b)|)).sum + ps.length * η := by
  induction ps with
  | nil => simp
  | cons p t ih =>
    obtain ⟨h1, h2⟩ := ih (fun q hq => hrep q (by simp [hq]))
    simp only [List.map_cons, List.sum_cons, List.length_cons, Nat.cast_add, Nat.cast_one]
    have h3 := prod_near A u η Rep h p.1 p.2 a b (hrep p (by simp)).1 (hrep p (by simp)).2 ha hb
    set P := A.rnd (A.rnd (p.1 - a) * A.rnd (p.2 - b))
    set D := (p.1 - a) * (p.2 - b)
    have h4 : |P| ≤ |P - D| + |D| := by
      have := abs_add_le (P - D) D
      rwa [sub_add_cancel] at this
    refine ⟨?_, by linarith⟩
    rw [add_sub_add_comm]
    refine (abs_add_le _ _).trans ?_
    linarith

/-- mean of the computed products -/
private theorem mean_prods_near (A : Arith K) (u η : K) (Rep : K → Prop) (h : Gradual A u η Rep) (a b : K) (ha : Rep a) (hb : Rep b)
    (ps : List (K × K)) (hne : ps ≠ []) (hrep : ∀ p ∈ ps, Rep p.1 ∧ Rep p.2) :
    |A.rnd (A.sum (ps.map (fun p => A.rnd (A.rnd (p.1 - a) * A.rnd (p.2 - b)))) / ps.length) -
        (ps.map (fun p => (p.1 - a) * (p.2 - b))).sum / ps.length| ≤
      ((1 + u) ^ (ps.length + 4) - 1) * ((ps.map (fun p => |(p.1 - a) * (p.2 - b)|)).sum / ps.length) +
        ((1 + u) ^ (ps.length + 1) + 1) * η := by
  have hu := h.nonneg
  have hη := h.eta
  have hpos : (0 : K) < ps.length := by exact_mod_cast List.length_pos_of_ne_nil hne
  obtain ⟨h1, h2⟩ := prods_near A u η Rep h a b ha hb ps hrep
  set Q := ps.map (fun p => A.rnd (A.rnd (p.1 - a) * A.rnd (p.2 - b))) with hQ
  have h3 := h.sum Q (by intro q hq; obtain ⟨z, -, rfl⟩ := List.mem_map.mp hq; exact h.rep _)
  have hlQ : Q.length = ps.length := by simp [hQ]
  rw [hlQ] at h3
  set D := (ps.map (fun p => (p.1 - a) * (p.2 - b))).sum with hD
  set B := (ps.map (fun p => |(p.1 - a) * (p.2 - b)|)).sum with hB
  have hDB : |D| ≤ B := by
    have := abs_sum_le_f (ps.map (fun p => (p.1 - a) * (p.2 - b)))
    rw [List.map_map] at this
    exact this
  have hP : 1 ≤ (1 + u) ^ ps.length := one_le_pow₀ (by linarith)
  have h4 : |A.sum Q - D| ≤ ((1 + u) ^ (ps.length + 3) - 1) * B + (1 + u) ^ ps.length * η * ps.length := by
    have h5 := h3.trans (mul_le_mul_of_nonneg_left h2 (sub_nonneg.mpr hP))
    refine ((abs_sub_le _ _ _).trans (add_le_add h5 h1)).trans (le_of_eq ?_)
    rw [pow_add]; ring
  have h6 : |A.sum Q / ps.length - D / ps.length| ≤ ((1 + u) ^ (ps.length + 3) - 1) * (B / ps.length) +
      (1 + u) ^ ps.length * η := by
    rw [← sub_div, abs_div, abs_of_pos hpos, div_le_iff₀ hpos, add_mul, mul_assoc, div_mul_cancel₀ _ hpos.ne']
    exact h4
  have h7 : |D / ps.length| ≤ B / ps.length := by
    rw [abs_div, abs_of_pos hpos]; exact div_le_div_of_nonneg_right hDB hpos.le
  refine (h.rnd_near h6).trans ?_
  have h8 := mul_le_mul_of_nonneg_left h7 hu
  rw [show ps.length + 4 = ps.length + 3 + 1 by omega, pow_succ _ (ps.length + 3), pow_succ _ ps.length]
  linarith

/-- sums of products about any points -/
private theorem sum_about (a b : K) : ∀ (xs ys : List K), xs.length = ys.length → ∀ s t : K,
    ((List.zip xs ys).map (fun p => (p.1 - a) * (p.2 - b))).sum =
      (List.zipWith (fun x y => (x - s) * (y - t)) xs ys).sum + (t - b) * (xs.sum - xs.length * s) +
        (s - a) * (ys.sum - xs.length * t) + xs.length * ((s - a) * (t - b)) := by
  intro xs
  induction xs with
  | nil =>
    intro ys hl s t
    have : ys = [] := by simpa using hl.symm
    subst this
    simp
  | cons x xs ih =>
    intro ys hl s t
    cases ys with
    | nil => simp at hl
    | cons y ys =>
      simp only [List.zip_cons_cons, List.map_cons, List.sum_cons, List.zipWith_cons_cons, List.length_cons, Nat.cast_add,
        Nat.cast_one]
      rw [ih ys (by simpa using hl) s t]
      ring

private theorem mean_about (xs ys : List K) (hne : xs ≠ []) (hl : xs.length = ys.length) (a b : K) :
    ((List.zip xs ys).map (fun p => (p.1 - a) * (p.2 - b))).sum / xs.length =
      Spec.cov xs ys + (a - Spec.avg xs) * (b - Spec.avg ys) := by
  have hn : (xs.length : K) ≠ 0 := Spec.length_ne hne
  rw [sum_about a b xs ys hl (Spec.avg xs) (Spec.avg ys)]
  have h1 : xs.sum - xs.length * Spec.avg xs = 0 := by unfold Spec.avg; field_simp; ring
  have h2 : ys.sum - xs.length * Spec.avg ys = 0 := by unfold Spec.avg; rw [← hl]; field_simp; ring
  rw [h1, h2]
  have h3 : Spec.cov xs ys = (List.zipWith (fun x y => (x - Spec.avg xs) * (y - Spec.avg ys)) xs ys).sum / xs.length := by
    unfold Spec.cov
    rw [show ∀ l : List K, Spec.avg l = l.sum / l.length from fun _ => rfl, List.length_zipWith, ← hl, Nat.min_self]
  rw [h3]
  field_simp
  ring

private theorem abs_about (xs ys : List K) (hne : xs ≠ []) (hl : xs.length = ys.length) (a b : K) :
    ((List.zip xs ys).map (fun p => |(p.1 - a) * (p.2 - b)|)).sum / xs.length ≤
      (Spec.var xs + (a - Spec.avg xs) ^ 2 + (Spec.var ys + (b - Spec.avg ys) ^ 2)) / 2 := by
  have hpos : (0 : K) < xs.length := by exact_mod_cast List.length_pos_of_ne_nil hne
  have hney : ys ≠ [] := by rintro rfl; simp at hl; exact hne hl
  have e1 : Spec.var xs + (a - Spec.avg xs) ^ 2 = ((List.zip xs xs).map (fun p => (p.1 - a) * (p.2 - a))).sum / xs.length := by
    rw [mean_about xs xs hne rfl a a, Spec.cov_self]; ring
  have e2 : Spec.var ys + (b - Spec.avg ys) ^ 2 = ((List.zip ys ys).map (fun p => (p.1 - b) * (p.2 - b))).sum / xs.length := by
    rw [hl, mean_about ys ys hney rfl b b, Spec.cov_self]; ring
  rw [e1, e2, ← add_div, div_div, mul_comm (xs.length : K) 2, ← div_div]
  refine div_le_div_of_nonneg_right ?_ hpos.le
  clear hpos hne hney e1 e2
  induction xs generalizing ys with
  | nil =>
    have : ys = [] := by simpa using hl.symm
    subst this
    simp
  | cons x xs ih =>
    cases ys with
    | nil => simp at hl
    | cons y ys =>
      simp only [List.zip_cons_cons, List.map_cons, List.sum_cons]
      have h1 := ih ys (by simpa using hl)
      have h2 : |(x - a) * (y - b)| ≤ ((x - a) * (x - a) + (y - b) * (y - b)) / 2 := by
        rw [abs_le]
        constructor <;> nlinarith [sq_nonneg ((x - a) + (y - b)), sq_nonneg ((x - a) - (y - b))]
      linarith

/-- the computed mean product against the covariance -/
private theorem stress_near (A : Arith K) (u η : K) (Rep : K → Prop) (h : Gradual A u η Rep) (xs ys : List K) (hne : xs ≠ [])
    (hl : xs.length = ys.length) (hx : ∀ x ∈ xs, Rep x) (hy : ∀ y ∈ ys, Rep y) :
    |A.rnd (A.sum ((List.zip xs ys).map (fun p => A.rnd (A.rnd (p.1 - A.rnd (A.sum xs / xs.length)) *
        A.rnd (p.2 - A.rnd (A.sum ys / ys.length))))) / xs.length) - Spec.cov xs ys| ≤ stressErr u η xs ys := by
  have hu := h.nonneg
  have hney : ys ≠ [] := by rintro rfl; simp at hl; exact hne hl
  have hz : (List.zip xs ys).length = xs.length := by rw [List.length_zip, ← hl, Nat.min_self]
  have hzne : List.zip xs ys ≠ [] := by
    intro h0
    rw [h0] at hz
    exact hne (List.length_eq_zero_iff.mp hz.symm)
  have h1 := mean_prods_near A u η Rep h _ _ (h.rep (A.sum xs / xs.length)) (h.rep (A.sum ys / ys.length)) (List.zip xs ys) hzne
    (fun p hp => ⟨hx _ (List.of_mem_zip hp).1, hy _ (List.of_mem_zip hp).2⟩)
  rw [hz] at h1
  have hmx := mean_near_f A u η Rep h xs hne hx
  have hmy := mean_near_f A u η Rep h ys hney hy
  set a := A.rnd (A.sum xs / xs.length) with ha
  set b := A.rnd (A.sum ys / ys.length) with hb
  rw [mean_about xs ys hne hl a b] at h1
  have h2 := abs_about xs ys hne hl a b
  have h3 : (a - Spec.avg xs) ^ 2 ≤ meanErr u η xs ^ 2 := by
    rw [← sq_abs]; exact pow_le_pow_left₀ (abs_nonneg _) hmx 2
  have h4 : (b - Spec.avg ys) ^ 2 ≤ meanErr u η ys ^ 2 := by
    rw [← sq_abs]; exact pow_le_pow_left₀ (abs_nonneg _) hmy 2
  have h5 : |(a - Spec.avg xs) * (b - Spec.avg ys)| ≤ meanErr u η xs * meanErr u η ys := by
    rw [abs_mul]; exact mul_le_mul hmx hmy (abs_nonneg _) ((abs_nonneg _).trans hmx)
  have hP : 1 ≤ (1 + u) ^ (xs.length + 4) := one_le_pow₀ (by linarith)
  have h6 : ((1 + u) ^ (xs.length + 4) - 1) * (((List.zip xs ys).map (fun p => |(p.1 - a) * (p.2 - b)|)).sum / xs.length) ≤
      ((1 + u) ^ (xs.length + 4) - 1) *
        ((Spec.var xs + meanErr u η xs ^ 2 + (Spec.var ys + meanErr u η ys ^ 2)) / 2) :=
    mul_le_mul_of_nonneg_left (h2.trans (by linarith)) (sub_nonneg.mpr hP)
  unfold stressErr
  have h7 := abs_sub_le (A.rnd (A.sum ((List.zip xs ys).map (fun p => A.rnd (A.rnd (p.1 - a) * A.rnd (p.2 - b)))) / xs.length))
    (Spec.cov xs ys + (a - Spec.avg xs) * (b - Spec.avg ys)) (Spec.cov xs ys)
  rw [add_sub_cancel_left] at h7
  linarith

/-! ## The functions -/

private theorem fluct_rd (A : Arith K) (xs : List K) (hne : xs ≠ []) (hn : A.rnd (xs.length : K) = xs.length) :
    fluctuation (Rd.fins A xs) = .ok (Rd.fins A (xs.map (fun x => A.rnd (x - A.rnd (A.sum xs / xs.length))))) := by
  unfold fluctuation
  rw [Rd.meanOf_fins A xs hne hn]
  simp only [bind, Except.bind, Rd.fins, List.map_map]
  rfl

private theorem square_rd (A : Arith K) (xs : List K) (hne : xs ≠ []) (hn : A.rnd (xs.length : K) = xs.length) :
    meanOf ((Rd.fins A (xs.map (fun x => A.rnd (x - A.rnd (A.sum xs / xs.length))))).map (fun x => x ^. 2)) =
      .ok (Rd.fin A (A.rnd (A.sum ((List.zip xs xs).map (fun p => A.rnd (A.rnd (p.1 - A.rnd (A.sum xs / xs.length)) *
        A.rnd (p.2 - A.rnd (A.sum xs / xs.length))))) / xs.length))) := by
  set a := A.rnd (A.sum xs / xs.length)
  have e : (Rd.fins A (xs.map (fun x => A.rnd (x - a)))).map (fun x => x ^. 2) =
      Rd.fins A ((List.zip xs xs).map (fun p => A.rnd (A.rnd (p.1 - a) * A.rnd (p.2 - a)))) := by
    have hz : List.zip xs xs = xs.map (fun x => (x, x)) := by
      clear hne hn
      induction xs with
      | nil => rfl
      | cons x t ih => simp [ih]
    rw [hz]
    simp only [Rd.fins, List.map_map]
    apply List.map_congr_left
    intro x _
    show (Rd.fin A (A.rnd (x - a)) : Rd A) ^. 2 = _
    have : (Rd.fin A (A.rnd (x - a)) : Rd A) ^. 2 = Rd.fin A (A.rnd (A.rnd (x - a) ^ 2)) := rfl
    rw [this, sq]; rfl
  have hl : ((List.zip xs xs).map (fun p => A.rnd (A.rnd (p.1 - a) * A.rnd (p.2 - a)))).length = xs.length := by simp
  rw [e, Rd.meanOf_fins A _ (by intro h0; rw [h0] at hl; exact hne (List.length_eq_zero_iff.mp hl.symm)) (by rw [hl]; exact hn), hl]

private theorem product_rd (A : Arith K) (xs ys : List K) (hne : xs ≠ []) (hl : xs.length = ys.length)
    (hn : A.rnd (xs.length : K) = xs.length) (a b : K) :
    ∃ p, bcast (· *. ·) (Rd.fins A (xs.map (fun x => A.rnd (x - a)))) (Rd.fins A (ys.map (fun y => A.rnd (y - b)))) = .ok p ∧
      meanOf p = .ok (Rd.fin A (A.rnd (A.sum ((List.zip xs ys).map (fun p => A.rnd (A.rnd (p.1 - a) * A.rnd (p.2 - b)))) /
        xs.length))) := by
  have e : List.zipWith (· *. ·) (Rd.fins A (xs.map (fun x => A.rnd (x - a)))) (Rd.fins A (ys.map (fun y => A.rnd (y - b)))) =
      Rd.fins A ((List.zip xs ys).map (fun p => A.rnd (A.rnd (p.1 - a) * A.rnd (p.2 - b)))) := by
    clear hne hn
    induction xs generalizing ys with
    | nil => rfl
    | cons x t ih =>
      cases ys with
      | nil => simp at hl
      | cons y ys =>
        simp only [Rd.fins, List.map_cons, List.zipWith_cons_cons, List.zip_cons_cons, Rd.mul_fin]
        exact congrArg _ (ih ys (by simpa using hl))
  refine ⟨List.zipWith (· *. ·) (Rd.fins A (xs.map (fun x => A.rnd (x - a)))) (Rd.fins A (ys.map (fun y => A.rnd (y - b)))), ?_, ?_⟩
  · unfold bcast
    rw [if_pos (by simpa using hl)]
  · have hz : ((List.zip xs ys).map (fun p => A.rnd (A.rnd (p.1 - a) * A.rnd (p.2 - b)))).length = xs.length := by
      rw [List.length_map, List.length_zip, ← hl, Nat.min_self]
    rw [e, Rd.meanOf_fins A _ (by intro h0; rw [h0] at hz; exact hne (List.length_eq_zero_iff.mp hz.symm)) (by rw [hz]; exact hn), hz]

/-- **C235** In floating-point arithmetic with unit roundoff `u` and underflow error `η` the six Reynolds stresses of three recordings
of the same length are the variances and covariances up to `stressErr`. -/
theorem C235_stresses (A : Arith K) (u η : K) (Rep : K → Prop) (h : Gradual A u η Rep) (us vs ws : List K) (hne : us ≠ [])
    (huv : us.length = vs.length) (huw : us.length = ws.length) (hu : ∀ x ∈ us, Rep x) (hv : ∀ x ∈ vs, Rep x)
    (hw : ∀ x ∈ ws, Rep x) (hn : A.rnd (us.length : K) = us.length) :
    ∃ uu vv ww uv uw vw : K, reynoldsStresses (Rd.fins A us) (Rd.fins A vs) (Rd.fins A ws) =
        .ok ⟨Rd.fin A uu, Rd.fin A vv, Rd.fin A ww, Rd.fin A uv, Rd.fin A uw, Rd.fin A vw⟩ ∧
      |uu - Spec.var us| ≤ stressErr u η us us ∧ |vv - Spec.var vs| ≤ stressErr u η vs vs ∧
      |ww - Spec.var ws| ≤ stressErr u η ws ws ∧ |uv - Spec.cov us vs| ≤ stressErr u η us vs ∧
      |uw - Spec.cov us ws| ≤ stressErr u η us ws ∧ |vw - Spec.cov vs ws| ≤ stressErr u η vs ws := by
  have hnev : vs ≠ [] := by rintro rfl; simp at huv; exact hne huv
  have hnew : ws ≠ [] := by rintro rfl; simp at huw; exact hne huw
  have hnv : A.rnd (vs.length : K) = vs.length := by rw [← huv]; exact hn
  have hnw : A.rnd (ws.length : K) = ws.length := by rw [← huw]; exact hn
  have hvw : vs.length = ws.length := huv.symm.trans huw
  obtain ⟨p1, e1, m1⟩ := product_rd A us vs hne huv hn (A.rnd (A.sum us / us.length)) (A.rnd (A.sum vs / vs.length))
  obtain ⟨p2, e2, m2⟩ := product_rd A us ws hne huw hn (A.rnd (A.sum us / us.length)) (A.rnd (A.sum ws / ws.length))
  obtain ⟨p3, e3, m3⟩ := product_rd A vs ws hnev hvw hnv (A.rnd (A.sum vs / vs.length)) (A.rnd (A.sum ws / ws.length))
  have b1 := stress_near A u η Rep h us us hne rfl hu hu
  have b2 := stress_near A u η Rep h vs vs hnev rfl hv hv
  have b3 := stress_near A u η Rep h ws ws hnew rfl hw hw
  rw [Spec.cov_self] at b1 b2 b3
  refine ⟨_, _, _, _, _, _, ?_, b1, b2, b3, stress_near A u η Rep h us vs hne huv hu hv,
    stress_near A u η Rep h us ws hne huw hu hw, stress_near A u η Rep h vs ws hnev hvw hv hw⟩
  · unfold reynoldsStresses
    simp only [fluct_rd A us hne hn, fluct_rd A vs hnev hnv, fluct_rd A ws hnew hnw, square_rd A us hne hn, square_rd A vs hnev hnv,
      square_rd A ws hnew hnw, e1, e2, e3, m1, m2, m3, bind, Except.bind]

/-- **C235** The computed turbulent kinetic energy is half the sum of the variances, up to half the sum of the errors of the stresses
and a relative error of three roundings. -/
theorem C235_energy (A : Arith K) (u η : K) (Rep : K → Prop) (h : Gradual A u η Rep) (us vs ws : List K) (hu0 : us ≠ [])
    (hv0 : vs ≠ []) (hw0 : ws ≠ []) (hu : ∀ x ∈ us, Rep x) (hv : ∀ x ∈ vs, Rep x) (hw : ∀ x ∈ ws, Rep x)
    (hnu : A.rnd (us.length : K) = us.length) (hnv : A.rnd (vs.length : K) = vs.length)
    (hnw : A.rnd (ws.length : K) = ws.length) (hhalf : A.rnd (1 / 2) = 1 / 2) :
    ∃ e : K, kineticTurbulentEnergy (Rd.fins A us) (Rd.fins A vs) (Rd.fins A ws) = .ok (Rd.fin A e) ∧
      |e - (Spec.var us + Spec.var vs + Spec.var ws) / 2| ≤
        ((1 + u) ^ 3 * (stressErr u η us us + stressErr u η vs vs + stressErr u η ws ws) +
          ((1 + u) ^ 3 - 1) * (Spec.var us + Spec.var vs + Spec.var ws)) / 2 + η := by
  have hu' := h.nonneg
  have e1 := stress_near A u η Rep h us us hu0 rfl hu hu
  have e2 := stress_near A u η Rep h vs vs hv0 rfl hv hv
  have e3 := stress_near A u η Rep h ws ws hw0 rfl hw hw
  rw [Spec.cov_self] at e1 e2 e3
  set x1 := A.rnd (A.sum ((List.zip us us).map (fun p => A.rnd (A.rnd (p.1 - A.rnd (A.sum us / us.length)) *
        A.rnd (p.2 - A.rnd (A.sum us / us.length))))) / us.length) with hx1
  set x2 := A.rnd (A.sum ((List.zip vs vs).map (fun p => A.rnd (A.rnd (p.1 - A.rnd (A.sum vs / vs.length)) *
        A.rnd (p.2 - A.rnd (A.sum vs / vs.length))))) / vs.length) with hx2
  set x3 := A.rnd (A.sum ((List.zip ws ws).map (fun p => A.rnd (A.rnd (p.1 - A.rnd (A.sum ws / ws.length)) *
        A.rnd (p.2 - A.rnd (A.sum ws / ws.length))))) / ws.length) with hx3
  refine ⟨A.rnd (1 / 2 * A.rnd (A.rnd (x1 + x2) + x3)), ?_, ?_⟩
  · have hh : (lit (1 / 2) : Rd A) = Rd.fin A (1 / 2) := by
      rw [Rd.lit_fin]
      have : ((1 / 2 : ℚ) : K) = 1 / 2 := by push_cast; rfl
      rw [this, hhalf]
    unfold kineticTurbulentEnergy
    simp only [fluct_rd A us hu0 hnu, fluct_rd A vs hv0 hnv, fluct_rd A ws hw0 hnw, square_rd A us hu0 hnu, square_rd A vs hv0 hnv,
      square_rd A ws hw0 hnw, bind, Except.bind]
    rw [← hx1, ← hx2, ← hx3, Rd.add_fin, Rd.add_fin, hh, Rd.mul_fin]
  · have v1 : 0 ≤ Spec.var us := Spec.var_nonneg us
    have v2 : 0 ≤ Spec.var vs := Spec.var_nonneg vs
    have v3 : 0 ≤ Spec.var ws := Spec.var_nonneg ws
    set E1 := stressErr u η us us
    set E2 := stressErr u η vs vs
    set E3 := stressErr u η ws ws
    have E1n : 0 ≤ E1 := (abs_nonneg _).trans e1
    have E2n : 0 ≤ E2 := (abs_nonneg _).trans e2
    have E3n : 0 ≤ E3 := (abs_nonneg _).trans e3
    set V1 := Spec.var us
    set V2 := Spec.var vs
    set V3 := Spec.var ws
    have a1 : |x1 + x2 - (V1 + V2)| ≤ E1 + E2 := by
      rw [add_sub_add_comm]; exact (abs_add_le _ _).trans (add_le_add e1 e2)
    have a2 := h.near_of_rel (h.add x1 x2 (h.rep _) (h.rep _)) a1
    rw [abs_of_nonneg (by linarith : 0 ≤ V1 + V2)] at a2
    have a3 : |A.rnd (x1 + x2) + x3 - (V1 + V2 + V3)| ≤ (1 + u) * (E1 + E2) + u * (V1 + V2) + E3 := by
      rw [add_sub_add_comm]; exact (abs_add_le _ _).trans (add_le_add a2 e3)
    have a4 := h.near_of_rel (h.add (A.rnd (x1 + x2)) x3 (h.rep _) (h.rep _)) a3
    rw [abs_of_nonneg (by linarith : 0 ≤ V1 + V2 + V3)] at a4
    have a5 : |1 / 2 * A.rnd (A.rnd (x1 + x2) + x3) - (V1 + V2 + V3) / 2| ≤
        ((1 + u) * ((1 + u) * (E1 + E2) + u * (V1 + V2) + E3) + u * (V1 + V2 + V3)) / 2 := by
      have e : 1 / 2 * A.rnd (A.rnd (x1 + x2) + x3) - (V1 + V2 + V3) / 2 = (A.rnd (A.rnd (x1 + x2) + x3) - (V1 + V2 + V3)) / 2 := by
        ring
      rw [e, abs_div, abs_of_pos (by norm_num : (0 : K) < 2)]
      exact div_le_div_of_nonneg_right a4 (by norm_num)
    have a6 := h.rnd_near a5
    rw [abs_of_nonneg (by linarith : 0 ≤ (V1 + V2 + V3) / 2)] at a6
    refine a6.trans ?_
    have b1 : 0 ≤ u * E3 := mul_nonneg hu' E3n
    have b2 : 0 ≤ u * (u * E3) := mul_nonneg hu' b1
    have b3 : 0 ≤ u * V3 := mul_nonneg hu' v3
    have b4 : 0 ≤ u * (u * V3) := mul_nonneg hu' b3
    have b5 : 0 ≤ u * (u * (u * E3)) := mul_nonneg hu' b2
    have b6 : 0 ≤ u * (u * (u * V3)) := mul_nonneg hu' b4
    nlinarith

/-- the hypotheses of C235 hold in binary64 with subnormal numbers -/
example : Gradual bin64g (1 / 2 ^ 53) (2 ^ (-1075 : ℤ)) Grid ∧ (∀ n : ℕ, n < 2 ^ 53 → bin64g.rnd n = n) ∧
    bin64g.rnd (1 / 2) = 1 / 2 ∧ ∀ x ∈ ([0, rndSub (1 / 10), rndSub 3] : List ℚ), Grid x := by
  refine ⟨bin64g_gradual, rndSub_nat, ?_, ?_⟩
  · show rndSub (1 / 2) = 1 / 2
    decide +kernel
  · intro x hx
    simp only [List.mem_cons, List.not_mem_nil, or_false] at hx
    rcases hx with rfl | rfl | rfl
    · exact ⟨0, by simp⟩
    · exact rndSub_grid _
    · exact rndSub_grid _

end Proadv.Props
