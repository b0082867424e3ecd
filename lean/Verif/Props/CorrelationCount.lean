import Verif.Props.CorrelationSpike

/-!
# C198, C199 How many samples `velocity_correlation` can flag
-/

set_option linter.unusedSectionVars false

namespace Proadv.Props

open Proadv Proadv.Detect Proadv.Fl Finset

/-! ## C199 an upper bound -/

/-- Specification: mean of the squared elliptical distance of a pair of components, in terms of their variances `V1`, `V2`
and the regression slope `m`. -/
noncomputable def meanDist (V1 V2 m : ℝ) : ℝ :=
  (1 - m ^ 2) / (1 + m ^ 2) * (1 + (V1 * (1 + 2 * m ^ 2) + m ^ 2 * V2) / (V1 - m ^ 2 * V2))

private theorem sum_dev_mul (xs ys : List ℝ) (h : xs.length = ys.length) (h0 : 0 < xs.length) :
    ∑ k ∈ range xs.length, (xs.getD k 0 - Spec.avg xs) * (ys.getD k 0 - Spec.avg ys) = xs.length * Spec.cov xs ys := by
  have hn : (xs.length : ℝ) ≠ 0 := by positivity
  rw [cov_sum xs ys h, mul_div_cancel₀ _ hn]
  simp only [mul_sub, sum_sub_distrib, ← sum_mul]
  have : ∑ k ∈ range xs.length, xs.getD k 0 - ∑ k ∈ range xs.length, Spec.avg xs = 0 := by
    rw [sum_const, card_range, nsmul_eq_mul, avg_getD]
    field_simp; ring
  rw [this, zero_mul, sub_zero]

theorem sum_pairDist (xs ys : List ℝ) (h : xs.length = ys.length) (h0 : 0 < xs.length) (hp : PairOk xs ys) :
    ∑ k ∈ range xs.length, pairDist (Spec.var xs) (Spec.var ys) (Spec.cov xs ys) (xs.getD k 0 - Spec.avg xs)
      (ys.getD k 0 - Spec.avg ys) =
      xs.length * meanDist (Spec.var xs) (Spec.var ys) (Spec.cov xs ys / Spec.var xs) := by
  have hV := hp.var_pos
  have s1 := sum_dev_mul xs xs rfl h0
  have s2 := sum_dev_mul ys ys rfl (h ▸ h0)
  have s3 := sum_dev_mul xs ys h h0
  rw [Spec.cov_self] at s1 s2
  rw [← h] at s2
  unfold pairDist meanDist
  set V := Spec.var xs
  set W := Spec.var ys
  set C := Spec.cov xs ys
  set m := C / V with hm
  have hC : C = m * V := by rw [hm]; field_simp
  have hB : 0 < W - m ^ 2 * V := by
    have : W - m ^ 2 * V = (V * W - C ^ 2) / V := by rw [hm]; field_simp
    rw [this]; exact div_pos (by linarith [hp.1]) hV
  set n : ℝ := (xs.length : ℝ)
  have e : ∀ k ∈ range xs.length, (1 - m ^ 2) / (1 + m ^ 2) *
      ((xs.getD k 0 - Spec.avg xs + m * (ys.getD k 0 - Spec.avg ys)) ^ 2 / (V - m ^ 2 * W) +
        (ys.getD k 0 - Spec.avg ys - m * (xs.getD k 0 - Spec.avg xs)) ^ 2 / (W - m ^ 2 * V)) =
      (1 - m ^ 2) / (1 + m ^ 2) * (1 / (V - m ^ 2 * W) + m ^ 2 / (W - m ^ 2 * V)) *
        ((xs.getD k 0 - Spec.avg xs) * (xs.getD k 0 - Spec.avg xs)) +
      (1 - m ^ 2) / (1 + m ^ 2) * (2 * m / (V - m ^ 2 * W) - 2 * m / (W - m ^ 2 * V)) *
        ((xs.getD k 0 - Spec.avg xs) * (ys.getD k 0 - Spec.avg ys)) +
      (1 - m ^ 2) / (1 + m ^ 2) * (m ^ 2 / (V - m ^ 2 * W) + 1 / (W - m ^ 2 * V)) *
        ((ys.getD k 0 - Spec.avg ys) * (ys.getD k 0 - Spec.avg ys)) := fun k _ => by ring
  rw [sum_congr rfl e, sum_add_distrib, sum_add_distrib, ← mul_sum, ← mul_sum, ← mul_sum, s1, s2, s3, hC]
  have hBne := hB.ne'
  have key : (1 : ℝ) = (W - m ^ 2 * V) / (W - m ^ 2 * V) := (div_self hBne).symm
  rw [show (1 + (V * (1 + 2 * m ^ 2) + m ^ 2 * W) / (V - m ^ 2 * W)) =
    (W - m ^ 2 * V) / (W - m ^ 2 * V) + (V * (1 + 2 * m ^ 2) + m ^ 2 * W) / (V - m ^ 2 * W) by rw [← key]]
  ring

private theorem beyond_count (xs ys : List ℝ) (h : xs.length = ys.length) (h0 : 0 < xs.length) (hp : PairOk xs ys)
    (hq : 0 ≤ 1 - (Spec.cov xs ys / Spec.var xs) ^ 2) (S : Finset ℕ) (hS : ∀ i ∈ S, Beyond xs ys i) :
    S.card * (2 * Real.log xs.length) ≤
      xs.length * meanDist (Spec.var xs) (Spec.var ys) (Spec.cov xs ys / Spec.var xs) := by
  have hV := hp.var_pos
  have hW := Spec.var_nonneg ys
  set m := Spec.cov xs ys / Spec.var xs with hm
  have hA : 0 < Spec.var xs - m ^ 2 * Spec.var ys := by
    have : Spec.var xs - m ^ 2 * Spec.var ys = (Spec.var xs ^ 3 - Spec.cov xs ys ^ 2 * Spec.var ys) / Spec.var xs ^ 2 := by
      rw [hm]; field_simp
    rw [this]; exact div_pos (by linarith [hp.2]) (by positivity)
  have hB : 0 < Spec.var ys - m ^ 2 * Spec.var xs := by
    have : Spec.var ys - m ^ 2 * Spec.var xs = (Spec.var xs * Spec.var ys - Spec.cov xs ys ^ 2) / Spec.var xs := by
      rw [hm]; field_simp
    rw [this]; exact div_pos (by linarith [hp.1]) hV
  have nn : ∀ x y, 0 ≤ pairDist (Spec.var xs) (Spec.var ys) (Spec.cov xs ys) x y := fun x y => by
    unfold pairDist
    rw [← hm]
    exact mul_nonneg (div_nonneg hq (by positivity))
      (add_nonneg (div_nonneg (sq_nonneg _) hA.le) (div_nonneg (sq_nonneg _) hB.le))
  rw [← sum_pairDist xs ys h h0 hp]
  have hsub : S ⊆ range xs.length := fun i hi => by
    obtain ⟨x, _, hx, _⟩ := hS i hi
    rw [mem_range]
    by_contra hc
    rw [List.getElem?_eq_none (by omega)] at hx; cases hx
  refine le_trans ?_ (sum_le_sum_of_subset_of_nonneg hsub (fun _ _ _ => nn _ _))
  rw [← nsmul_eq_mul, ← sum_const]
  refine sum_le_sum (fun i hi => ?_)
  obtain ⟨x, y, hx, hy, hlt⟩ := hS i hi
  rw [List.getD, List.getD, hx, hy]
  exact hlt.le

/-- slope of a pair -/
noncomputable def pairSlope (xs ys : List ℝ) : ℝ := Spec.cov xs ys / Spec.var xs

/-- the mean squared distance of a pair -/
noncomputable def pairMean (xs ys : List ℝ) : ℝ := meanDist (Spec.var xs) (Spec.var ys) (pairSlope xs ys)

private theorem slope_le (xs ys : List ℝ) (hp : PairOk xs ys) : 0 ≤ 1 - pairSlope xs ys ^ 2 := by
  have hV := hp.var_pos
  have hW := Spec.var_nonneg ys
  unfold pairSlope
  rw [div_pow, sub_nonneg, div_le_one (by positivity)]
  by_contra hc
  push Not at hc
  obtain ⟨h1, h2⟩ := hp
  have h4 : Spec.var xs < Spec.var ys := by
    have : Spec.var xs * Spec.var xs < Spec.var xs * Spec.var ys := by nlinarith
    exact (mul_lt_mul_iff_right₀ hV).mp this
  have h5 : Spec.var xs ^ 2 * Spec.var ys < Spec.var xs ^ 2 * Spec.var xs := by nlinarith
  have h6 := (mul_lt_mul_iff_right₀ (by positivity)).mp h5
  linarith

/-- **C199** the number of flagged samples is at most `n / (2 ln n)` times the sum of the mean squared distances of the
three pairs. -/
theorem C199_count (us vs ws : List ℝ) (hn : 3 ≤ us.length) (hv : vs.length = us.length) (hw : ws.length = us.length)
    (r : List Nat) (hr : velocityCorrelation (fins us) (fins vs) (fins ws : List (Fl ℝ)) = .ok r) :
    r.length * (2 * Real.log us.length) ≤ us.length * (pairMean us vs + pairMean us ws + pairMean vs ws) := by
  classical
  obtain ⟨p1, p2, p3⟩ := (C104_success_iff us vs ws hn hv hw).1.mp ⟨r, hr⟩
  obtain ⟨r', hr', hsorted, hm⟩ := C104_flagged us vs ws hn hv hw p1 p2 p3
  rw [hr] at hr'
  obtain rfl := Except.ok.inj hr'
  have hnd : r.Nodup := hsorted.imp (fun h => Nat.ne_of_lt h)
  set S1 := r.toFinset.filter (fun i => Beyond us vs i) with hS1
  set S2 := r.toFinset.filter (fun i => Beyond us ws i) with hS2
  set S3 := r.toFinset.filter (fun i => Beyond vs ws i) with hS3
  have c1 := beyond_count us vs hv.symm (by omega) p1 (slope_le us vs p1) S1 (fun i hi => (mem_filter.mp hi).2)
  have c2 := beyond_count us ws hw.symm (by omega) p2 (slope_le us ws p2) S2 (fun i hi => (mem_filter.mp hi).2)
  have c3 := beyond_count vs ws (by omega) (by omega) p3 (slope_le vs ws p3) S3 (fun i hi => (mem_filter.mp hi).2)
  rw [hv] at c3
  have hcard : r.length ≤ S1.card + S2.card + S3.card := by
    rw [← List.toFinset_card_of_nodup hnd]
    refine le_trans (card_le_card (t := S1 ∪ S2 ∪ S3) (fun i hi => ?_))
      (le_trans (card_union_le _ _) (Nat.add_le_add_right (card_union_le _ _) _))
    have := (hm i).mp (List.mem_toFinset.mp hi)
    simp only [hS1, hS2, hS3, mem_union, mem_filter]
    tauto
  have hL : 0 ≤ 2 * Real.log us.length := by
    have : (1 : ℝ) ≤ us.length := by exact_mod_cast (by omega : 1 ≤ us.length)
    have := Real.log_nonneg this
    linarith
  have hc' : (r.length : ℝ) ≤ S1.card + S2.card + S3.card := by exact_mod_cast hcard
  have := mul_le_mul_of_nonneg_right hc' hL
  have e1 : pairMean us vs = meanDist (Spec.var us) (Spec.var vs) (Spec.cov us vs / Spec.var us) := rfl
  have e2 : pairMean us ws = meanDist (Spec.var us) (Spec.var ws) (Spec.cov us ws / Spec.var us) := rfl
  have e3 : pairMean vs ws = meanDist (Spec.var vs) (Spec.var ws) (Spec.cov vs ws / Spec.var vs) := rfl
  rw [e1, e2, e3, mul_add, mul_add]
  rw [add_mul, add_mul] at this
  linarith

/-- **C199** for pairwise uncorrelated components at most `3 n / ln n` samples are flagged. -/
theorem C199_uncorrelated (us vs ws : List ℝ) (hn : 3 ≤ us.length) (hv : vs.length = us.length)
    (hw : ws.length = us.length) (h1 : Spec.cov us vs = 0) (h2 : Spec.cov us ws = 0) (h3 : Spec.cov vs ws = 0)
    (r : List Nat) (hr : velocityCorrelation (fins us) (fins vs) (fins ws : List (Fl ℝ)) = .ok r) :
    r.length * Real.log us.length ≤ 3 * us.length := by
  obtain ⟨p1, p2, p3⟩ := (C104_success_iff us vs ws hn hv hw).1.mp ⟨r, hr⟩
  have := C199_count us vs ws hn hv hw r hr
  have k : ∀ V W : ℝ, 0 < V → meanDist V W 0 = 2 := fun V W hV => by
    unfold meanDist; norm_num; rw [div_self hV.ne']; norm_num
  unfold pairMean pairSlope at this
  rw [h1, h2, h3, zero_div, zero_div, k _ _ p1.var_pos, k _ _ p2.var_pos, k _ _ p3.var_pos] at this
  linarith

/-- hypotheses of `C199_uncorrelated` -/
example : Spec.cov [1, -1, 0, 0, 0, 0] [0, 0, 1, -1, 0, 0] = (0 : ℝ) ∧ Spec.cov [1, -1, 0, 0, 0, 0] [0, 0, 0, 0, 1, -1] = (0 : ℝ) ∧
    Spec.cov [0, 0, 1, -1, 0, 0] [0, 0, 0, 0, 1, -1] = (0 : ℝ) := by
  norm_num [Spec.cov, Spec.avg]

/-! ## C198 a recording without spikes of which every sample is flagged -/

/-- Specification: the block `b` repeated `k` times. -/
def rep {α : Type} (k : Nat) (b : List α) : List α := (List.replicate k b).flatten

private theorem rep_length {α : Type} (k : Nat) (b : List α) : (rep k b).length = k * b.length := by
  simp [rep]

private theorem rep_map {α β : Type} (f : α → β) (k : Nat) (b : List α) : (rep k b).map f = rep k (b.map f) := by
  simp [rep, List.map_flatten]

private theorem rep_sum (k : Nat) (b : List ℝ) : (rep k b).sum = k * b.sum := by
  simp [rep, List.sum_flatten]

private theorem rep_zip {α β γ : Type} (f : α → β → γ) (k : Nat) (a : List α) (b : List β) (h : a.length = b.length) :
    List.zipWith f (rep k a) (rep k b) = rep k (List.zipWith f a b) := by
  unfold rep
  induction k with
  | zero => simp
  | succ k ih => rw [List.replicate_succ, List.replicate_succ, List.replicate_succ, List.flatten_cons, List.flatten_cons,
      List.flatten_cons, List.zipWith_append h, ih]

private theorem rep_avg (k : Nat) (hk : 0 < k) (b : List ℝ) : Spec.avg (rep k b) = Spec.avg b := by
  unfold Spec.avg
  rw [rep_sum, rep_length, Nat.cast_mul]
  exact mul_div_mul_left _ _ (by positivity)

private theorem rep_cov (k : Nat) (hk : 0 < k) (a b : List ℝ) (h : a.length = b.length) :
    Spec.cov (rep k a) (rep k b) = Spec.cov a b := by
  unfold Spec.cov
  rw [rep_avg k hk, rep_avg k hk, rep_zip _ _ _ _ h, rep_avg k hk]

private theorem rep_var (k : Nat) (hk : 0 < k) (a : List ℝ) : Spec.var (rep k a) = Spec.var a := by
  rw [← Spec.cov_self, rep_cov k hk _ _ rfl, Spec.cov_self]

private theorem rep_get (k : Nat) (a b : List ℝ) (h : a.length = b.length) (i : Nat) (hi : i < k * a.length) :
    ∃ x y, (rep k a)[i]? = some x ∧ (rep k b)[i]? = some y ∧ (x, y) ∈ List.zip a b := by
  have ha : i < (rep k a).length := by rw [rep_length]; exact hi
  have hb : i < (rep k b).length := by rw [rep_length, ← h]; exact hi
  refine ⟨(rep k a)[i], (rep k b)[i], List.getElem?_eq_getElem ha, List.getElem?_eq_getElem hb, ?_⟩
  have hz : List.zip (rep k a) (rep k b) = rep k (List.zip a b) := rep_zip Prod.mk k a b h
  have hm : ((rep k a)[i], (rep k b)[i]) ∈ List.zip (rep k a) (rep k b) := by
    rw [List.mem_iff_getElem]
    exact ⟨i, by simp [ha, hb], by simp⟩
  rw [hz] at hm
  unfold rep at hm
  rw [List.mem_flatten] at hm
  obtain ⟨l, hl, hm⟩ := hm
  rwa [List.eq_of_mem_replicate hl] at hm

/-- **C198** for arbitrarily long recordings (any multiple of four samples) there are three components of mean 0 and
variance at least 1 with all values between -5/2 and 5/2 for which every single sample is flagged. -/
theorem C198_flags_all (k : Nat) (hk : 0 < k) :
    ∃ us vs ws : List ℝ, us.length = 4 * k ∧ vs.length = 4 * k ∧ ws.length = 4 * k ∧
      (∀ l ∈ [us, vs, ws], Spec.avg l = 0 ∧ 1 ≤ Spec.var l ∧ ∀ x ∈ l, |x| ≤ 5 / 2) ∧
      ∃ r, velocityCorrelation (fins us) (fins vs) (fins ws : List (Fl ℝ)) = .ok r ∧ ∀ i, i ∈ r ↔ i < 4 * k := by
  have hk1 : (1 : ℝ) ≤ k := by exact_mod_cast hk
  set n : ℝ := 4 * k with hn
  have hn4 : 4 ≤ n := by linarith
  set ε : ℝ := 1 / (50 * n) with hε
  have hε0 : 0 < ε := by positivity
  have hε1 : ε ≤ 1 / 200 := by
    rw [hε]; apply one_div_le_one_div_of_le (by norm_num); linarith
  obtain ⟨q, hq0, hq2⟩ : ∃ q : ℝ, 0 ≤ q ∧ q ^ 2 = 15 / 4 - 4 * ε :=
    ⟨√(15 / 4 - 4 * ε), Real.sqrt_nonneg _, Real.sq_sqrt (by linarith)⟩
  have hq194 : q ≤ 1.94 := by
    by_contra hc; push Not at hc; nlinarith
  have hq1 : 1 ≤ q := by
    by_contra hc; push Not at hc; nlinarith
  set U : List ℝ := [1, 1, -1, -1] with hU
  set V : List ℝ := [1 / 2 + q, 1 / 2 - q, -(1 / 2) + q, -(1 / 2) - q] with hV
  set W : List ℝ := [1, -1, -1, 1] with hW
  have aU : Spec.avg U = 0 := by simp [Spec.avg, hU]
  have aV : Spec.avg V = 0 := by simp [Spec.avg, hV]; ring
  have aW : Spec.avg W = 0 := by simp [Spec.avg, hW]
  have vU : Spec.var U = 1 := by norm_num [Spec.var, Spec.cmoment, Spec.avg, hU]
  have vW : Spec.var W = 1 := by norm_num [Spec.var, Spec.cmoment, Spec.avg, hW]
  have vV : Spec.var V = 4 - 4 * ε := by
    unfold Spec.var Spec.cmoment
    rw [aV]
    simp only [Spec.avg, hV, List.map_cons, List.map_nil, List.sum_cons, List.sum_nil, List.length_cons, List.length_nil]
    push_cast
    nlinarith [hq2]
  have cUV : Spec.cov U V = 1 / 2 := by
    unfold Spec.cov
    rw [aU, aV]
    simp only [Spec.avg, hU, hV, List.zipWith_cons_cons, List.zipWith_nil_right, List.sum_cons, List.sum_nil,
      List.length_cons, List.length_nil]
    push_cast; ring
  have cUW : Spec.cov U W = 0 := by norm_num [Spec.cov, Spec.avg, hU, hW]
  have cVW : Spec.cov V W = 0 := by
    unfold Spec.cov
    rw [aV, aW]
    simp only [Spec.avg, hV, hW, List.zipWith_cons_cons, List.zipWith_nil_right, List.sum_cons, List.sum_nil,
      List.length_cons, List.length_nil]
    push_cast; ring
  have lU : (rep k U).length = 4 * k := by rw [rep_length]; simp [hU, mul_comm]
  have lV : (rep k V).length = 4 * k := by rw [rep_length]; simp [hV, mul_comm]
  have lW : (rep k W).length = 4 * k := by rw [rep_length]; simp [hW, mul_comm]
  have p1 : PairOk (rep k U) (rep k V) := by
    unfold PairOk
    rw [rep_cov k hk U V rfl, rep_var k hk, rep_var k hk, vU, vV, cUV]
    constructor <;> nlinarith
  have p2 : PairOk (rep k U) (rep k W) := by
    unfold PairOk
    rw [rep_cov k hk U W rfl, rep_var k hk, rep_var k hk, vU, vW, cUW]
    norm_num
  have p3 : PairOk (rep k V) (rep k W) := by
    unfold PairOk
    rw [rep_cov k hk V W rfl, rep_var k hk, rep_var k hk, vV, vW, cVW]
    have : 0 < 4 - 4 * ε := by linarith
    constructor
    · linarith
    · have := pow_pos this 3
      linarith
  obtain ⟨r, hr, hs, hm⟩ := C104_flagged (rep k U) (rep k V) (rep k W) (by omega) (by omega) (by omega) p1 p2 p3
  have hmem : ∀ {b : List ℝ} {x : ℝ}, x ∈ rep k b → x ∈ b := fun {b x} hx => by
    unfold rep at hx
    rw [List.mem_flatten] at hx
    obtain ⟨l, hl, hx⟩ := hx
    rwa [List.eq_of_mem_replicate hl] at hx
  refine ⟨rep k U, rep k V, rep k W, lU, lV, lW, ?_, r, hr, fun i => ⟨fun hi => ?_, fun hi => ?_⟩⟩
  · intro l hl
    simp only [List.mem_cons, List.not_mem_nil, or_false] at hl
    rcases hl with rfl | rfl | rfl
    · refine ⟨by rw [rep_avg k hk, aU], by rw [rep_var k hk, vU], fun x hx => ?_⟩
      have := hmem hx
      simp only [hU, List.mem_cons, List.not_mem_nil, or_false] at this
      rcases this with rfl | rfl | rfl | rfl <;> norm_num
    · refine ⟨by rw [rep_avg k hk, aV], by rw [rep_var k hk, vV]; linarith, fun x hx => ?_⟩
      have := hmem hx
      simp only [hV, List.mem_cons, List.not_mem_nil, or_false] at this
      rcases this with rfl | rfl | rfl | rfl <;> rw [abs_le] <;> constructor <;> linarith
    · refine ⟨by rw [rep_avg k hk, aW], by rw [rep_var k hk, vW], fun x hx => ?_⟩
      have := hmem hx
      simp only [hW, List.mem_cons, List.not_mem_nil, or_false] at this
      rcases this with rfl | rfl | rfl | rfl <;> norm_num
  · have := (C59_correlation _ _ _ r (by rw [show (fins (rep k U) : List (Fl ℝ)).length = (rep k U).length by simp]; omega)
      (by simp [lU, lV]) (by simp [lU, lW]) hr).2 i hi
    simpa [lU] using this
  · refine (hm i).mpr (Or.inl ?_)
    obtain ⟨x, y, hx, hy, hxy⟩ := rep_get k U V rfl i (by rw [← rep_length, lU]; exact hi)
    refine ⟨x, y, hx, hy, ?_⟩
    rw [rep_avg k hk, rep_avg k hk, aU, aV, sub_zero, sub_zero, rep_var k hk, rep_var k hk, rep_cov k hk U V rfl, vU, vV,
      cUV, lU]
    have hlog : 2 * Real.log ((4 * k : ℕ) : ℝ) ≤ 2 * n := by
      push_cast
      rw [← hn]
      have := Real.log_le_sub_one_of_pos (by linarith : 0 < n)
      linarith
    have hsq : 0.0784 ≤ (x + y / 2) ^ 2 := by
      simp only [hU, hV, List.zip_cons_cons, List.zip_nil_right, List.mem_cons, Prod.mk.injEq, List.not_mem_nil, or_false] at hxy
      rcases hxy with ⟨rfl, rfl⟩ | ⟨rfl, rfl⟩ | ⟨rfl, rfl⟩ | ⟨rfl, rfl⟩ <;> nlinarith
    unfold pairDist
    have hden : (1 : ℝ) - (1 / 2 / 1) ^ 2 * (4 - 4 * ε) = ε := by ring
    rw [hden]
    have h2 : 0 ≤ (y - 1 / 2 / 1 * x) ^ 2 / (4 - 4 * ε - (1 / 2 / 1) ^ 2 * 1) :=
      div_nonneg (sq_nonneg _) (by norm_num; linarith)
    have h1 : 0.0784 * (50 * n) ≤ (x + 1 / 2 / 1 * y) ^ 2 / ε := by
      rw [hε, div_div_eq_mul_div, div_one, show x + 1 / 2 / 1 * y = x + y / 2 by ring]
      exact mul_le_mul_of_nonneg_right hsq (by positivity)
    norm_num at h1 h2 ⊢
    norm_num at hlog
    nlinarith

end Proadv.Props
