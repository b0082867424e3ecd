import Verif.Props.Correlation
import Verif.Py.Fine

/-!
# Property C246: rounding and the decisions of `velocity_correlation` (correlation.py)

Every quantity of `velocity_correlation` is a continuous function of the samples except where a square root or a quotient breaks down
or a comparison is a tie.  So apart from these exceptional recordings the set of flagged samples (or the ValueError) is the same in
every sufficiently accurate arithmetic as in exact arithmetic.
-/

set_option linter.unusedSectionVars false

namespace Proadv.Props

open Proadv Detect Spread Descriptive Filter Topology

/-- Specification: no decision about the pair `xs`, `ys` is a tie: the components are not perfectly correlated, the condition for the
ellipse to exist is not an equality, and (if it exists) no sample lies on the ellipse. -/
def Clear (xs ys : List ℝ) : Prop :=
  Spec.cov xs ys ^ 2 < Spec.var xs * Spec.var ys ∧ Spec.cov xs ys ^ 2 * Spec.var ys ≠ Spec.var xs ^ 3 ∧
  (PairOk xs ys → ∀ (i : ℕ) (x y : ℝ), xs[i]? = some x → ys[i]? = some y →
    pairDist (Spec.var xs) (Spec.var ys) (Spec.cov xs ys) (x - Spec.avg xs) (y - Spec.avg ys) ≠ 2 * Real.log xs.length)

variable {𝓕 : Filter (Arith ℝ)} [Fine 𝓕]

private theorem cent_lim (xs : List ℝ) (hx : xs ≠ []) : LimL 𝓕 (fun A => cent (Rd.fins A xs)) (Spec.dev xs) :=
  (LimL.fins xs).dev hx

theorem lambda_lim (n : ℕ) (hn : 2 ≤ n) : Lim 𝓕 (fun A => (lambdaOf n : Rd A)) √(2 * Real.log n) := by
  have h1 : (1 : ℝ) < n := by exact_mod_cast hn
  have := Real.log_pos h1
  have h2 := ((Lim.lit (𝓕 := 𝓕) 2).mul ((Lim.nat n).log (by linarith))).sqrt (by push_cast; linarith)
  push_cast at h2
  exact h2

theorem angle_lim {X Y : ∀ A : Arith ℝ, List (Rd A)} {xs ys : List ℝ} (hX : LimL 𝓕 X xs) (hY : LimL 𝓕 Y ys)
    (h0 : (xs.map (fun x => x ^ 2)).sum ≠ 0) : Lim 𝓕 (fun A => phaseAngle (X A) (Y A)) (Real.arctan (slope xs ys)) :=
  ((hX.zipWith (fun _ u v => u *. v) (fun u v => u * v) hY (fun _ _ _ _ _ _ a b => a.mul b)).sum.div
    (hX.map (fun _ u => u ^. 2) (fun u => u ^ 2) (fun _ _ _ a => a.npow 2)).sum h0).arctan

theorem num_lim {s1 s2 t l : ∀ A : Arith ℝ, Rd A} {a b θ c : ℝ} (h1 : Lim 𝓕 s1 a) (h2 : Lim 𝓕 s2 b) (ht : Lim 𝓕 t θ) (hl : Lim 𝓕 l c) :
    Lim 𝓕 (fun A => (l A *. s1 A) ^. 2 *. PyMath.cos (t A) ^. 2 -. (l A *. s2 A) ^. 2 *. PyMath.sin (t A) ^. 2)
      (numA (c * a) (c * b) θ) :=
  (((hl.mul h1).npow 2).mul (ht.cos.npow 2)).sub (((hl.mul h2).npow 2).mul (ht.sin.npow 2))

theorem fact_lim {t : ∀ A : Arith ℝ, Rd A} {θ : ℝ} (ht : Lim 𝓕 t θ) :
    Lim 𝓕 (fun A => fact (t A)) (Real.cos θ ^ 2 - Real.sin θ ^ 2) := by
  have h := (ht.cos.npow 4).sub (ht.sin.npow 4)
  rwa [show Real.cos θ ^ 4 - Real.sin θ ^ 4 = (Real.cos θ ^ 2 - Real.sin θ ^ 2) * (Real.sin θ ^ 2 + Real.cos θ ^ 2) by ring,
    Real.sin_sq_add_cos_sq, mul_one] at h

theorem rho_lim {t a b x y : ∀ A : Arith ℝ, Rd A} {θ α β ξ η : ℝ} (ht : Lim 𝓕 t θ) (ha : Lim 𝓕 a α) (hb : Lim 𝓕 b β)
    (hx : Lim 𝓕 x ξ) (hy : Lim 𝓕 y η) (h1 : α ≠ 0) (h2 : β ≠ 0) :
    Lim 𝓕 (fun A => rhoAt (t A) (a A) (b A) (x A) (y A)) (rhoR θ α β ξ η) :=
  ((((hx.mul ht.cos).add (hy.mul ht.sin)).div ha h1).npow 2).add ((((hy.mul ht.cos).sub (hx.mul ht.sin)).div hb h2).npow 2)

private theorem rnd_neg {A : Arith ℝ} {u x : ℝ} (h : Std A u) (hu : u ≤ 1) (hx : x < 0) : A.rnd x ≤ 0 := by
  have := h.rnd x
  have h1 : u * |x| ≤ |x| := by have := abs_nonneg x; nlinarith
  rw [abs_of_neg hx] at this h1
  have := abs_le.mp this
  linarith

/-- two quotients whose numerators have opposite signs are not both positive -/
private theorem opposite {f g h : ∀ A : Arith ℝ, Rd A} {x y z : ℝ} (hf : Lim 𝓕 f x) (hg : Lim 𝓕 g y) (hh : Lim 𝓕 h z) (hx : x < 0)
    (hy : 0 < y) : ∀ᶠ A in 𝓕, ¬ ((lit 0 <. f A /. h A) = true ∧ (lit 0 <. g A /. h A) = true) := by
  obtain ⟨a, ha, ha'⟩ := hf
  obtain ⟨b, hb, hb'⟩ := hg
  obtain ⟨c, hc, -⟩ := hh
  have hk := fine_std 𝓕 one_pos
  filter_upwards [ha, hb, hc, ha'.eventually_lt_const hx, hb'.eventually_const_lt hy, hk] with A e1 e2 e3 h1 h2 ⟨u, h3, h4⟩
  rw [e1, e2, e3]
  have e0 : (lit 0 : Rd A) = Rd.fin A 0 := by
    show Rd.fin A (A.rnd ((0 : ℚ) : ℝ)) = _
    rw [Rat.cast_zero, h3.rnd_zero]
  rw [e0]
  rintro ⟨k1, k2⟩
  by_cases h5 : c A = 0
  · rw [h5] at k1
    have k3 : Fl.lt (Fl.fin 0) (Rd.round A (Fl.div (Fl.fin (a A)) (Fl.fin (0 : ℝ)))) = true := k1
    have k4 : Fl.div (Fl.fin (a A)) (Fl.fin (0 : ℝ)) = Fl.ninf := by
      simp [Fl.div, Fl.infSgn, h1.ne, h1.not_gt]
    rw [k4] at k3
    exact Bool.noConfusion k3
  · rw [Rd.div_fin A h5, Rd.lt_fin, decide_eq_true_eq] at k1 k2
    rcases lt_or_gt_of_ne h5 with h6 | h6
    · exact absurd (rnd_neg h3 h4 (div_neg_of_pos_of_neg h2 h6)) (not_le.mpr k2)
    · exact absurd (rnd_neg h3 h4 (div_neg_of_neg_of_pos h1 h6)) (not_le.mpr k1)

private theorem pair_stable (xs ys : List ℝ) (h : xs.length = ys.length) (hn : 3 ≤ xs.length) (hc : Clear xs ys) :
    ∃ R : Py (List ℕ), ∀ᶠ A in fine, (pairRho (cent (Rd.fins A xs)) (cent (Rd.fins A ys))).map outside = R := by
  have hx : xs ≠ [] := by rintro rfl; simp at hn
  have hy : ys ≠ [] := by rintro rfl; simp at h; exact hx h
  have hdx : Spec.dev xs ≠ [] := by simpa [Spec.dev] using hx
  have hdy : Spec.dev ys ≠ [] := by simpa [Spec.dev] using hy
  obtain ⟨hc1, hc2, hc3⟩ := hc
  have hV1 : 0 < Spec.var xs := by
    rcases (Spec.var_nonneg xs).lt_or_eq with h' | h'
    · exact h'
    · rw [← h', zero_mul] at hc1
      exact absurd hc1 (not_lt.mpr (sq_nonneg _))
  have hV2 : 0 < Spec.var ys := by
    rcases (Spec.var_nonneg ys).lt_or_eq with h' | h'
    · exact h'
    · rw [← h', mul_zero] at hc1
      exact absurd hc1 (not_lt.mpr (sq_nonneg _))
  have hL : 0 < 2 * Real.log xs.length := by
    have h1 : (1 : ℝ) < xs.length := by exact_mod_cast (by omega : 1 < xs.length)
    have := Real.log_pos h1
    linarith
  have hq : ((Spec.dev xs).map (fun x => x ^ 2)).sum ≠ 0 := by
    rw [← Spec.dot_self, Spec.dot_dev_self _ hx]
    exact mul_ne_zero (Spec.length_ne hx) hV1.ne'
  have len : ∀ (A : Arith ℝ) (zs : List ℝ), (cent (Rd.fins A zs)).length = zs.length := by
    intro A zs; rw [cent_length]; simp [Rd.fins]
  have lX := cent_lim (𝓕 := fine) xs hx
  have lY := cent_lim (𝓕 := fine) ys hy
  have lS1 := lX.std hdx (by rw [Spec.var_dev hx]; exact hV1)
  have lS2 := lY.std hdy (by rw [Spec.var_dev hy]; exact hV2)
  rw [Spec.var_dev hx] at lS1
  rw [Spec.var_dev hy] at lS2
  have lT := angle_lim lX lY hq
  rw [slope_dev _ _ h hx] at lT
  have lL := lambda_lim (𝓕 := fine) xs.length (by omega)
  have lA := num_lim lS1 lS2 lT lL
  have lB := num_lim lS2 lS1 lT lL
  have lF := fact_lim lT
  set C := Spec.cov xs ys
  set V1 := Spec.var xs
  set V2 := Spec.var ys
  have s1 := Real.sq_sqrt hV1.le
  have s2 := Real.sq_sqrt hV2.le
  have s3 := Real.sq_sqrt hL.le
  have numEq : ∀ p q : ℝ, numA (√(2 * Real.log xs.length) * p) (√(2 * Real.log xs.length) * q) (Real.arctan (C / V1)) =
      2 * Real.log xs.length * (p ^ 2 - (C / V1) ^ 2 * q ^ 2) / (1 + (C / V1) ^ 2) := by
    intro p q
    unfold numA
    rw [cos_sq_arctan', sin_sq_arctan', mul_pow, mul_pow, s3]
    ring
  have c1 : 0 < V2 - (C / V1) ^ 2 * V1 := by
    have e : (C / V1) ^ 2 * V1 = C ^ 2 / V1 := by field_simp
    rw [e, sub_pos, div_lt_iff₀ hV1]
    linarith [mul_comm V1 V2]
  have e2 : (C / V1) ^ 2 * V2 = C ^ 2 * V2 / V1 ^ 2 := by field_simp
  have e3 : V1 ^ 3 = V1 * V1 ^ 2 := by ring
  rcases lt_or_gt_of_ne hc2 with hlt | hgt
  · -- the ellipse exists
    have hp : PairOk xs ys := ⟨hc1, hlt⟩
    have hne := hc3 hp
    have c2 : 0 < V1 - (C / V1) ^ 2 * V2 := by
      rw [e2, sub_pos, div_lt_iff₀ (by positivity)]
      linarith
    have c3 : 0 < 1 - (C / V1) ^ 2 := by
      by_contra hc
      push Not at hc
      nlinarith
    have hfne : Real.cos (Real.arctan (C / V1)) ^ 2 - Real.sin (Real.arctan (C / V1)) ^ 2 ≠ 0 := by
      rw [cos_sq_arctan', sin_sq_arctan', ← sub_div]
      exact (div_pos c3 (by positivity)).ne'
    have lA' := lA.div lF hfne
    have lB' := lB.div lF hfne
    rw [ratio_arctan, s1, s2, s3] at lA' lB'
    have pA : 0 < 2 * Real.log xs.length * (V1 - (C / V1) ^ 2 * V2) / (1 - (C / V1) ^ 2) := div_pos (mul_pos hL c2) c3
    have pB : 0 < 2 * Real.log xs.length * (V2 - (C / V1) ^ 2 * V1) / (1 - (C / V1) ^ 2) := div_pos (mul_pos hL c1) c3
    have l0 := Lim.zero (𝓕 := fine)
    have l1 := Lim.one (𝓕 := fine)
    have gA := l0.lt lA' pA.ne
    have gB := l0.lt lB' pB.ne
    have lR := lX.zipWith _ _ lY (fun x _ y _ f g hf hg =>
      rho_lim lT (lA'.sqrt pA) (lB'.sqrt pB) hf hg (Real.sqrt_pos.mpr pA).ne' (Real.sqrt_pos.mpr pB).ne')
    have hd := lR.decide_map (fun A r => lit 1 <. r) (fun r => decide (1 < r)) (fun r hr f hf => l1.lt hf (by
      intro h1
      rw [List.mem_iff_getElem?] at hr
      obtain ⟨i, hi⟩ := hr
      rw [List.getElem?_zipWith_eq_some] at hi
      obtain ⟨x, y, hx', hy', rfl⟩ := hi
      unfold Spec.dev at hx' hy'
      rw [List.getElem?_map, Option.map_eq_some_iff] at hx' hy'
      obtain ⟨x, hx', rfl⟩ := hx'
      obtain ⟨y, hy', rfl⟩ := hy'
      rw [rho_pair _ _ _ _ _ _ hL c2 c1 c3, eq_div_iff hL.ne', one_mul] at h1
      exact hne i x y hx' hy' h1.symm))
    have hd' := hd.mono (fun A k => congrArg (fun z => (Except.ok (whereTrue z) : Py (List ℕ))) k)
    refine ⟨?_, (hd'.and (gA.and gB)).mono ?_⟩
    rotate_left
    · rintro A ⟨k1, k2, k3⟩
      rw [decide_eq_true pA] at k2
      rw [decide_eq_true pB] at k3
      have hg : GoodAxes (cent (Rd.fins A xs)) (cent (Rd.fins A ys)) := by
        unfold GoodAxes
        rw [len]
        exact ⟨k2, k3⟩
      rw [pairRho_good _ _ (by rw [len, len]; exact h) hg, len]
      exact k1
  · -- no ellipse
    have c2 : V1 - (C / V1) ^ 2 * V2 < 0 := by
      rw [e2, sub_neg, lt_div_iff₀ (by positivity)]
      linarith
    rw [numEq, s1, s2] at lA lB
    have pp : 0 < 1 + (C / V1) ^ 2 := by positivity
    have := opposite lA lB lF (div_neg_of_neg_of_pos (mul_neg_of_pos_of_neg hL c2) pp) (div_pos (mul_pos hL c1) pp)
    refine ⟨.error .valueError, ?_⟩
    filter_upwards [this] with A k
    rw [pairRho_bad _ _ (by rw [len, len]; exact h) (by rw [len]; exact hn) (by
      unfold GoodAxes
      rw [len]
      exact k)]
    rfl

/-- **C246** if no decision about the three pairs of components is a tie, then in every sufficiently accurate arithmetic
`velocity_correlation` returns the same indices, or the same error, as in exact arithmetic. -/
theorem C246_stable (us vs ws : List ℝ) (hn : 3 ≤ us.length) (hv : vs.length = us.length) (hw : ws.length = us.length)
    (h1 : Clear us vs) (h2 : Clear us ws) (h3 : Clear vs ws) :
    ∃ u0 : ℝ, 0 < u0 ∧ ∀ (A : Arith ℝ) (u : ℝ), Std A u → KeepsSign A → u ≤ u0 →
      velocityCorrelation (Rd.fins A us) (Rd.fins A vs) (Rd.fins A ws) =
        velocityCorrelation (fins us) (fins vs) (fins ws : List (Fl ℝ)) := by
  obtain ⟨r1, k1⟩ := pair_stable us vs hv.symm hn h1
  obtain ⟨r2, k2⟩ := pair_stable us ws hw.symm hn h2
  obtain ⟨r3, k3⟩ := pair_stable vs ws (by omega) (by omega) h3
  have hu : us ≠ [] := by rintro rfl; simp at hn
  have key : ∀ᶠ A in fine, velocityCorrelation (Rd.fins A us) (Rd.fins A vs) (Rd.fins A ws) =
      r1.bind (fun a => r2.bind (fun b => r3.bind (fun c => .ok (uniqueNat (a ++ b ++ c))))) := by
    filter_upwards [k1, k2, k3] with A e1 e2 e3
    rw [vc_eq _ _ _ (by simpa [Rd.fins] using hu) (by simpa [Rd.fins] using hv) (by simpa [Rd.fins] using hw), ← e1, ← e2, ← e3]
    simp only [Bind.bind]
    cases pairRho (cent (Rd.fins A us)) (cent (Rd.fins A vs)) with
    | error e => rfl
    | ok a =>
      cases pairRho (cent (Rd.fins A us)) (cent (Rd.fins A ws)) with
      | error e => rfl
      | ok b =>
        cases pairRho (cent (Rd.fins A vs)) (cent (Rd.fins A ws)) with
        | error e => rfl
        | ok c => rfl
  have hex := of_fine key
  have e : velocityCorrelation (fins us) (fins vs) (fins ws : List (Fl ℝ)) =
      r1.bind (fun a => r2.bind (fun b => r3.bind (fun c => .ok (uniqueNat (a ++ b ++ c))))) := by
    rw [← Rd.exact_math]
    exact hex
  rw [e]
  exact eventually_fine.mp key

private theorem clear_orth (xs ys : List ℝ) (h1 : xs.length = 6) (hx : Spec.avg xs = 0) (hy : Spec.avg ys = 0)
    (h2 : Spec.var xs = 1 / 3) (h3 : Spec.var ys = 1 / 3) (h4 : Spec.cov xs ys = 0)
    (h6 : ∀ (i : ℕ) (x y : ℝ), xs[i]? = some x → ys[i]? = some y → x ^ 2 + y ^ 2 ≤ 1) : Clear xs ys := by
  refine ⟨by rw [h2, h3, h4]; norm_num, by rw [h2, h3, h4]; norm_num, fun _ i x y hi hj => ?_⟩
  rw [h1, h2, h3, h4, hx, hy]
  have l2 := Real.log_two_gt_d9
  have l3 : 1 < Real.log 3 := by
    rw [Real.lt_log_iff_exp_lt (by norm_num)]
    have := Real.exp_one_lt_d9
    linarith
  have l6 : Real.log ((6 : ℕ) : ℝ) = Real.log 2 + Real.log 3 := by
    rw [← Real.log_mul (by norm_num) (by norm_num)]; norm_num
  rw [l6]
  have := h6 i x y hi hj
  unfold pairDist
  simp only [zero_div, sub_zero, zero_mul, add_zero, ne_eq]
  intro h
  have e : (1 - (0 : ℝ) ^ 2) / (1 + 0 ^ 2) * (x ^ 2 / (1 / 3 - 0 ^ 2 * (1 / 3)) + y ^ 2 / (1 / 3 - 0 ^ 2 * (1 / 3))) = 3 * (x ^ 2 + y ^ 2) := by
    norm_num; ring
  rw [e] at h
  linarith

/-- three uncorrelated components: the hypotheses hold (and the call succeeds) -/
example : ∃ u0 : ℝ, 0 < u0 ∧ ∀ (A : Arith ℝ) (u : ℝ), Std A u → KeepsSign A → u ≤ u0 →
    velocityCorrelation (Rd.fins A [1, -1, 0, 0, 0, 0]) (Rd.fins A [0, 0, 1, -1, 0, 0]) (Rd.fins A [0, 0, 0, 0, 1, -1]) =
      velocityCorrelation (fins [1, -1, 0, 0, 0, 0]) (fins [0, 0, 1, -1, 0, 0]) (fins [0, 0, 0, 0, 1, -1] : List (Fl ℝ)) := by
  apply C246_stable _ _ _ (by simp) (by simp) (by simp)
  all_goals
    apply clear_orth
    · rfl
    · norm_num [Spec.avg]
    · norm_num [Spec.avg]
    · norm_num [Spec.var, Spec.cmoment, Spec.avg]
    · norm_num [Spec.var, Spec.cmoment, Spec.avg]
    · norm_num [Spec.cov, Spec.avg]
    · intro i x y hx hy
      have hi : i < 6 := by
        have := List.getElem?_eq_some_iff.mp hx
        obtain ⟨h, -⟩ := this
        simpa using h
      interval_cases i <;> simp at hx hy <;> subst hx <;> subst hy <;> norm_num

end Proadv.Props
