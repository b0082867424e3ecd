import Verif.Props.Correlation

/-!
# C227: the order of the components in `velocity_correlation`
-/

set_option linter.unusedSectionVars false

namespace Proadv.Props

open Proadv Fl Detect

/-- Specification: two components for which the regression of either on the other gives the same picture: they are uncorrelated or have
equal variance. -/
def Balanced (xs ys : List ℝ) : Prop := Spec.cov xs ys = 0 ∨ Spec.var xs = Spec.var ys

theorem cov_comm' (xs ys : List ℝ) : Spec.cov xs ys = Spec.cov ys xs := by
  unfold Spec.cov
  rw [List.zipWith_comm]
  congr 2
  funext x y; ring

theorem Balanced.symm {xs ys : List ℝ} (h : Balanced xs ys) : Balanced ys xs := by
  rcases h with h | h
  · exact Or.inl (by rw [cov_comm', h])
  · exact Or.inr h.symm

theorem pairOk_swap {xs ys : List ℝ} (h : Balanced xs ys) (hp : PairOk xs ys) : PairOk ys xs := by
  have hx := hp.var_pos
  obtain ⟨h1, h2⟩ := hp
  have hy : 0 < Spec.var ys := by
    by_contra hc
    have : Spec.var ys = 0 := le_antisymm (not_lt.mp hc) (Spec.var_nonneg ys)
    rw [this, mul_zero] at h1
    exact absurd h1 (not_lt.mpr (sq_nonneg _))
  unfold PairOk
  rw [cov_comm' ys xs]
  rcases h with h | h
  · rw [h, zero_pow two_ne_zero, zero_mul]
    exact ⟨by positivity, by positivity⟩
  · rw [h] at h1 h2 ⊢
    exact ⟨h1, h2⟩

theorem pairDist_swap {V1 V2 C : ℝ} (x y : ℝ) (h : C = 0 ∨ V1 = V2) (hV : 0 < V1) (hC : C ^ 2 < V1 * V2) :
    pairDist V1 V2 C x y = pairDist V2 V1 C y x := by
  unfold pairDist
  rcases h with rfl | rfl
  · simp [add_comm]
  · have hq : 0 < 1 - (C / V1) ^ 2 := by
      rw [div_pow, sub_pos, div_lt_one (by positivity)]
      linarith [sq V1]
    generalize C / V1 = m at *
    congr 1
    have h0 : V1 - m ^ 2 * V1 ≠ 0 := by
      rw [show V1 - m ^ 2 * V1 = V1 * (1 - m ^ 2) by ring]; exact (mul_pos hV hq).ne'
    rw [← add_div, ← add_div]
    congr 1
    ring

theorem beyond_swap {xs ys : List ℝ} (hl : xs.length = ys.length) (h : Balanced xs ys) (hp : PairOk xs ys) (i : Nat) :
    Beyond xs ys i ↔ Beyond ys xs i := by
  unfold Beyond
  rw [cov_comm' ys xs, ← hl]
  constructor
  · rintro ⟨x, y, e1, e2, e3⟩
    refine ⟨y, x, e2, e1, ?_⟩
    rw [← pairDist_swap _ _ h hp.var_pos hp.1]; exact e3
  · rintro ⟨y, x, e2, e1, e3⟩
    refine ⟨x, y, e1, e2, ?_⟩
    rw [pairDist_swap _ _ h hp.var_pos hp.1]; exact e3

private theorem vc_congr (us vs ws us' vs' ws' : List ℝ) (hv : vs.length = us.length) (hw : ws.length = us.length)
    (hu' : us'.length = us.length) (hv' : vs'.length = us.length) (hw' : ws'.length = us.length)
    (h1 : (PairOk us vs ∧ PairOk us ws ∧ PairOk vs ws) ↔ (PairOk us' vs' ∧ PairOk us' ws' ∧ PairOk vs' ws'))
    (h2 : PairOk us vs → PairOk us ws → PairOk vs ws → ∀ i, (Beyond us vs i ∨ Beyond us ws i ∨ Beyond vs ws i) ↔
      (Beyond us' vs' i ∨ Beyond us' ws' i ∨ Beyond vs' ws' i)) :
    velocityCorrelation (fins us) (fins vs) (fins ws : List (Fl ℝ)) = velocityCorrelation (fins us') (fins vs') (fins ws') := by
  rcases Nat.eq_zero_or_pos us.length with h0 | h0
  · rw [List.length_eq_zero_iff.mp h0, List.length_eq_zero_iff.mp (hu'.trans h0)]; rfl
  rcases Nat.lt_or_ge us.length 3 with h3 | h3
  · rw [C67_small us vs ws h0 (by omega) hv hw, C67_small us' vs' ws' (by omega) (by omega) (by omega) (by omega)]
  by_cases hok : PairOk us vs ∧ PairOk us ws ∧ PairOk vs ws
  · obtain ⟨r, hr, hs, hm⟩ := C104_flagged us vs ws h3 hv hw hok.1 hok.2.1 hok.2.2
    obtain ⟨a, b, c⟩ := h1.mp hok
    obtain ⟨r', hr', hs', hm'⟩ := C104_flagged us' vs' ws' (by omega) (by omega) (by omega) a b c
    rw [hr, hr']
    congr 1
    apply List.Perm.eq_of_pairwise (le := fun a b : Nat => a < b) _ hs hs'
    · apply (List.perm_ext_iff_of_nodup (hs.imp Nat.ne_of_lt) (hs'.imp Nat.ne_of_lt)).mpr
      intro i; rw [hm, hm', h2 hok.1 hok.2.1 hok.2.2]
    · intro a b _ _ h h'; omega
  · rw [(C104_success_iff us vs ws h3 hv hw).2 hok,
      (C104_success_iff us' vs' ws' (by omega) (by omega) (by omega)).2 (fun h => hok (h1.mpr h))]

/-- **C227** if the first two components are uncorrelated or have equal variances, exchanging them does not change the result (same
indices or same error); likewise for the last two. -/
theorem C227_exchange (us vs ws : List ℝ) (hv : vs.length = us.length) (hw : ws.length = us.length) :
    (Balanced us vs →
      velocityCorrelation (fins vs) (fins us) (fins ws : List (Fl ℝ)) = velocityCorrelation (fins us) (fins vs) (fins ws)) ∧
    (Balanced vs ws →
      velocityCorrelation (fins us) (fins ws) (fins vs : List (Fl ℝ)) = velocityCorrelation (fins us) (fins vs) (fins ws)) := by
  constructor
  · intro h1
    refine (vc_congr us vs ws vs us ws hv hw hv rfl hw ⟨fun ⟨a, b, c⟩ => ⟨pairOk_swap h1 a, c, b⟩,
      fun ⟨a, c, b⟩ => ⟨pairOk_swap h1.symm a, b, c⟩⟩ ?_).symm
    intro a b c i
    rw [beyond_swap hv.symm h1 a]; tauto
  · intro h3
    refine (vc_congr us vs ws us ws vs hv hw rfl hw hv ⟨fun ⟨a, b, c⟩ => ⟨b, a, pairOk_swap h3 c⟩,
      fun ⟨b, a, c⟩ => ⟨a, b, pairOk_swap h3.symm c⟩⟩ ?_).symm
    intro a b c i
    rw [beyond_swap (by omega) h3 c]; tauto

/-- **C227** so if every pair is uncorrelated or has equal variances, no order of the components changes the result -/
theorem C227_any_order (us vs ws : List ℝ) (hv : vs.length = us.length) (hw : ws.length = us.length)
    (h1 : Balanced us vs) (h2 : Balanced us ws) (h3 : Balanced vs ws) (xs ys zs : List ℝ) (hp : [xs, ys, zs].Perm [us, vs, ws]) :
    velocityCorrelation (fins xs) (fins ys) (fins zs : List (Fl ℝ)) = velocityCorrelation (fins us) (fins vs) (fins ws) := by
  have a1 := (C227_exchange us vs ws hv hw).1 h1
  have a2 := (C227_exchange us vs ws hv hw).2 h3
  have a3 := (C227_exchange us ws vs hw hv).1 h2
  have a4 := (C227_exchange vs us ws hv.symm (by omega)).2 h2
  have a5 := (C227_exchange vs ws us (by omega) hv.symm).1 h3
  have hm := List.mem_permutations.mpr hp
  simp only [List.permutations, List.permutationsAux, List.permutationsAux.rec, List.permutationsAux2, List.foldr, id, List.mem_cons,
    List.cons.injEq, and_true, List.not_mem_nil, or_false] at hm
  rcases hm with ⟨rfl, rfl, rfl⟩ | ⟨rfl, rfl, rfl⟩ | ⟨rfl, rfl, rfl⟩ | ⟨rfl, rfl, rfl⟩ | ⟨rfl, rfl, rfl⟩ | ⟨rfl, rfl, rfl⟩
  all_goals first | rfl | exact a1 | exact a2 | exact a3.trans a2 | exact a4.trans a1 | exact (a5.trans a4).trans a1

/-- **C227** in general the order matters: let `v` be correlated with `u` (not perfectly) and not with `w`, and let the ellipse of `u`,
`w` exist.  When the second component is the weak one (`k v` with small `k`), the recording is accepted in the order `u, kv, w` and
raises ValueError in the order `kv, u, w`. -/
theorem C227_order (us vs ws : List ℝ) (hn : 3 ≤ us.length) (hv : vs.length = us.length) (hw : ws.length = us.length)
    (hc : Spec.cov us vs ≠ 0) (hp : Spec.cov us vs ^ 2 < Spec.var us * Spec.var vs) (huw : PairOk us ws)
    (hvw : Spec.cov vs ws = 0) :
    ∃ k0 : ℝ, 0 < k0 ∧ ∀ k : ℝ, 0 < k → k ≤ k0 →
      (∃ r, velocityCorrelation (fins us) (fins (vs.map (fun x => k * x))) (fins ws : List (Fl ℝ)) = .ok r) ∧
      velocityCorrelation (fins (vs.map (fun x => k * x))) (fins us) (fins ws : List (Fl ℝ)) = .error .valueError := by
  have nu : us ≠ [] := by rintro rfl; simp at hn
  have nv : vs ≠ [] := by rintro rfl; simp at hv; omega
  have hU := huw.var_pos
  have hV : 0 < Spec.var vs := by
    by_contra h
    have : Spec.var vs = 0 := le_antisymm (not_lt.mp h) (Spec.var_nonneg vs)
    rw [this, mul_zero] at hp
    exact absurd hp (not_lt.mpr (sq_nonneg _))
  have hW : 0 < Spec.var ws := by
    by_contra h
    have : Spec.var ws = 0 := le_antisymm (not_lt.mp h) (Spec.var_nonneg ws)
    have h' := huw.1
    rw [this, mul_zero] at h'
    exact absurd h' (not_lt.mpr (sq_nonneg _))
  have ev : ∀ k : ℝ, Spec.var (vs.map (fun x => k * x)) = k ^ 2 * Spec.var vs := fun k => by
    have := var_affine k 0 nv; simpa using this
  have ec : ∀ (k : ℝ) (zs : List ℝ), Spec.cov (vs.map (fun x => k * x)) zs = k * Spec.cov vs zs := fun k zs => by
    have h1 : Spec.avg (vs.map (fun x => k * x)) = k * Spec.avg vs := Spec.avg_mul k vs
    unfold Spec.cov
    rw [h1, List.zipWith_map_left, ← Spec.avg_mul k (List.zipWith _ _ _), List.map_zipWith]
    congr 2
    funext x y; ring
  have hm : 0 < |Spec.cov us vs| := abs_pos.mpr hc
  set U := Spec.var us
  set V := Spec.var vs
  set C := Spec.cov us vs with hC
  refine ⟨min (|C| / V) (U / |C|) / 2, by positivity, fun k hk hk0 => ?_⟩
  have k1 : k < |C| / V := lt_of_le_of_lt hk0 (by
    have := min_le_left (|C| / V) (U / |C|)
    have : 0 < min (|C| / V) (U / |C|) := by positivity
    linarith)
  have k2 : k < U / |C| := lt_of_le_of_lt hk0 (by
    have := min_le_right (|C| / V) (U / |C|)
    have : 0 < min (|C| / V) (U / |C|) := by positivity
    linarith)
  rw [lt_div_iff₀ hV] at k1
  rw [lt_div_iff₀ hm] at k2
  have lk : (vs.map (fun x => k * x)).length = us.length := by rw [List.length_map, hv]
  constructor
  · apply (C104_success_iff us _ ws hn lk hw).1.mpr
    refine ⟨?_, huw, ?_⟩
    · unfold PairOk
      rw [cov_comm', ec, ev, cov_comm', ← hC]
      constructor
      · nlinarith [mul_pos hk hk]
      · have a1 : (k * C) ^ 2 < U ^ 2 := by
          rw [← sq_abs, abs_mul, abs_of_pos hk]
          exact pow_lt_pow_left₀ k2 (by positivity) two_ne_zero
        have a2 : k ^ 2 * V < U := by nlinarith
        calc (k * C) ^ 2 * (k ^ 2 * V) ≤ U ^ 2 * (k ^ 2 * V) := mul_le_mul_of_nonneg_right a1.le (by positivity)
          _ < U ^ 2 * U := mul_lt_mul_of_pos_left a2 (by positivity)
          _ = U ^ 3 := by ring
    · unfold PairOk
      rw [ec, ev, hvw, mul_zero, zero_pow two_ne_zero, zero_mul]
      exact ⟨by positivity, by positivity⟩
  · refine (C104_steep _ us ws (by omega) lk.symm (by omega)).1 (Or.inl ?_)
    rw [ec, ev, cov_comm', ← hC, abs_mul, abs_of_pos hk]
    nlinarith

/-- the hypotheses of `C227_exchange` and of `C227_order` hold of concrete recordings -/
example : Balanced [3, 1, -1, -3] [1, -3, 3, -1] ∧ Balanced [3, 1, -1, -3] [1, -1, -1, 1] ∧ Balanced [1, -3, 3, -1] [1, -1, -1, 1] ∧
    PairOk [3, 1, -1, -3] [1, -3, 3, -1] ∧ PairOk [3, 1, -1, -3] [1, -1, -1, 1] ∧ PairOk [1, -3, 3, -1] [1, -1, -1, 1] := by
  norm_num [Balanced, PairOk, Spec.cov, Spec.var, Spec.cmoment, Spec.avg]

example : Spec.cov [1, 1, -1, -1] [2, 0, 0, -2] ≠ (0 : ℝ) ∧
    Spec.cov [1, 1, -1, -1] [2, 0, 0, -2] ^ 2 < (Spec.var [1, 1, -1, -1] * Spec.var [2, 0, 0, -2] : ℝ) ∧
    PairOk [1, 1, -1, -1] [1, -1, -1, 1] ∧ Spec.cov [2, 0, 0, -2] [1, -1, -1, 1] = (0 : ℝ) := by
  norm_num [PairOk, Spec.cov, Spec.var, Spec.cmoment, Spec.avg]

end Proadv.Props
