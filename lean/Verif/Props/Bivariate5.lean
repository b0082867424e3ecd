import Verif.Props.Bivariate3
import Mathlib.Analysis.SpecialFunctions.Exp
import Mathlib.Analysis.SpecialFunctions.Pow.Continuity
import Mathlib.Analysis.SpecialFunctions.Pow.Real
import Mathlib.Analysis.Real.Pi.Bounds
import Mathlib.Topology.Order.IntermediateValue

/-!
# Property C222: what the bandwidth search of `bivariate_kernel` looks for
-/

set_option linter.unusedSectionVars false

namespace Proadv.Props

open Proadv Fl Bivariate

namespace Biv5

/-- absolute value of `_psi` at time `τ` -/
noncomputable def psiR (s0 s1 n : Nat) (c : Nat → Nat → ℝ) (τ : ℝ) : ℝ :=
  (∑ j ∈ Finset.range n, (∑ i ∈ Finset.range n, BSpec.wt τ i * ((i : ℝ) ^ 2) ^ s1 * c i j) *
    (BSpec.wt τ j * ((j : ℝ) ^ 2) ^ s0)) * Real.pi ^ (2 * (s0 + s1))

theorem wt_pos (τ : ℝ) (i : Nat) : 0 < BSpec.wt τ i := by unfold BSpec.wt; split <;> positivity

theorem wt_anti {τ τ' : ℝ} (h : τ ≤ τ') (i : Nat) : BSpec.wt τ' i ≤ BSpec.wt τ i := by
  unfold BSpec.wt
  refine mul_le_mul_of_nonneg_right (Real.exp_le_exp.mpr ?_) (by split <;> norm_num)
  have : 0 ≤ (i : ℝ) ^ 2 * Real.pi ^ 2 := by positivity
  nlinarith

theorem wt_strict {τ τ' : ℝ} (h : τ < τ') {i : Nat} (hi : 0 < i) : BSpec.wt τ' i < BSpec.wt τ i := by
  unfold BSpec.wt
  have hi' : (0 : ℝ) < i := by exact_mod_cast hi
  refine mul_lt_mul_of_pos_right (Real.exp_lt_exp.mpr ?_) (by split <;> norm_num)
  have : 0 < (i : ℝ) ^ 2 * Real.pi ^ 2 := by positivity
  nlinarith

theorem wt_cont (i : Nat) : Continuous fun τ => BSpec.wt τ i := by
  unfold BSpec.wt; fun_prop

theorem psiR_sum (s0 s1 n : Nat) (c : Nat → Nat → ℝ) (τ : ℝ) : psiR s0 s1 n c τ =
    (∑ j ∈ Finset.range n, ∑ i ∈ Finset.range n, (BSpec.wt τ i * BSpec.wt τ j) * (((i : ℝ) ^ 2) ^ s1 * ((j : ℝ) ^ 2) ^ s0 * c i j)) *
      Real.pi ^ (2 * (s0 + s1)) := by
  unfold psiR
  congr 1
  refine Finset.sum_congr rfl fun j _ => ?_
  rw [Finset.sum_mul]
  exact Finset.sum_congr rfl fun i _ => by ring

theorem psiR_cont (s0 s1 n : Nat) (c : Nat → Nat → ℝ) : Continuous (psiR s0 s1 n c) := by
  have h := wt_cont
  unfold psiR
  refine Continuous.mul ?_ continuous_const
  refine continuous_finsetSum _ fun j _ => ?_
  refine Continuous.mul (continuous_finsetSum _ fun i _ => ?_) ((h j).mul continuous_const)
  exact ((h i).mul continuous_const).mul continuous_const

theorem psiR_strict (s0 s1 n : Nat) (c : Nat → Nat → ℝ) (hc : BSpec.Charged n c) : StrictAnti (psiR s0 s1 n c) := by
  obtain ⟨hnn, i, j, hi, hin, hj, hjn, hp⟩ := hc
  intro τ τ' h
  rw [psiR_sum, psiR_sum]
  refine mul_lt_mul_of_pos_right ?_ (by positivity)
  have hle : ∀ j < n, ∀ i < n, (BSpec.wt τ' i * BSpec.wt τ' j) * (((i : ℝ) ^ 2) ^ s1 * ((j : ℝ) ^ 2) ^ s0 * c i j) ≤
      (BSpec.wt τ i * BSpec.wt τ j) * (((i : ℝ) ^ 2) ^ s1 * ((j : ℝ) ^ 2) ^ s0 * c i j) := by
    intro j hj i hi
    have := hnn i hi j hj
    exact mul_le_mul_of_nonneg_right (mul_le_mul (wt_anti h.le i) (wt_anti h.le j) (wt_pos _ _).le (wt_pos _ _).le) (by positivity)
  refine Finset.sum_lt_sum (fun j hj => Finset.sum_le_sum fun i hi => hle j (Finset.mem_range.mp hj) i (Finset.mem_range.mp hi))
    ⟨j, Finset.mem_range.mpr hjn, ?_⟩
  refine Finset.sum_lt_sum (fun i hi => hle j hjn i (Finset.mem_range.mp hi)) ⟨i, Finset.mem_range.mpr hin, ?_⟩
  have hj' : (0 : ℝ) < j := by exact_mod_cast hj
  have hi' : (0 : ℝ) < i := by exact_mod_cast hi
  exact mul_lt_mul_of_pos_right (mul_lt_mul'' (wt_strict h hi) (wt_strict h hj) (wt_pos _ _).le (wt_pos _ _).le) (by positivity)

theorem psi_eq (s0 s1 n : Nat) (hn : 0 < n) (c : Nat → Nat → ℝ) (τ : ℝ) :
    psi s0 s1 (fin τ) (freqSq n) (matOf n n c) = fin ((-1) ^ (s0 + s1) * psiR s0 s1 n c τ) := by
  rw [C90_psi s0 s1 n hn, mul_assoc]; rfl

theorem psiR_pos (s0 s1 n : Nat) (c : Nat → Nat → ℝ) (hc : BSpec.Charged n c) (τ : ℝ) : 0 < psiR s0 s1 n c τ := by
  have hn : 0 < n := by obtain ⟨_, i, _, _, h, _⟩ := hc; omega
  obtain ⟨P, hP, e⟩ := psi_sign s0 s1 n τ c hc
  rw [psi_eq s0 s1 n hn] at e
  have e' := Fl.fin.inj e
  have hsne : ((-1 : ℝ) ^ (s0 + s1)) ≠ 0 := pow_ne_zero _ (by norm_num)
  rw [mul_left_cancel₀ hsne e']; exact hP

/-- every functional is, up to its sign, a positive, continuous, strictly decreasing function of the guess -/
theorem func_real (n N : Nat) (hN : 0 < N) (c : Nat → Nat → ℝ) (hc : BSpec.Charged n c) : ∀ d s0 s1 : Nat, 5 - (s0 + s1) ≤ d →
    ∃ P : ℝ → ℝ, (∀ t, 0 < P t) ∧ Continuous P ∧ StrictAnti P ∧
      (∀ t, func s0 s1 (fin t) N (freqSq n) (matOf n n c) = fin ((-1) ^ (s0 + s1) * P t)) ∧ ∀ t, 0 ≤ t → P t ≤ psiR s0 s1 n c 0 := by
  have hN' : (0 : ℝ) < N := by exact_mod_cast hN
  have hn : 0 < n := by obtain ⟨_, i, _, _, h, _⟩ := hc; omega
  have hbase : ∀ s0 s1, 4 < s0 + s1 → ∃ P : ℝ → ℝ, (∀ t, 0 < P t) ∧ Continuous P ∧ StrictAnti P ∧
      (∀ t, func s0 s1 (fin t) N (freqSq n) (matOf n n c) = fin ((-1) ^ (s0 + s1) * P t)) ∧ ∀ t, 0 ≤ t → P t ≤ psiR s0 s1 n c 0 := fun s0 s1 h =>
    ⟨psiR s0 s1 n c, psiR_pos s0 s1 n c hc, psiR_cont s0 s1 n c, psiR_strict s0 s1 n c hc,
      fun t => by rw [C90_base s0 s1 h, psi_eq s0 s1 n hn],
      fun t ht => (psiR_strict s0 s1 n c hc).antitone ht⟩
  intro d
  induction d with
  | zero => intro s0 s1 h; exact hbase s0 s1 (by omega)
  | succ d ih =>
    intro s0 s1 h
    by_cases hs : s0 + s1 ≤ 4
    · obtain ⟨P, hP, cP, aP, eP, uP⟩ := ih (s0 + 1) s1 (by omega)
      obtain ⟨Q, hQ, cQ, aQ, eQ, uQ⟩ := ih s0 (s1 + 1) (by omega)
      have hr : 0 < Real.sqrt (2 * Real.pi) := Real.sqrt_pos.mpr (by positivity)
      have hd0 : (0 : ℝ) < ((Nat.doubleFactorial (2 * s0 - 1) : ℕ) : ℝ) := by exact_mod_cast Nat.doubleFactorial_pos _
      have hd1 : (0 : ℝ) < ((Nat.doubleFactorial (2 * s1 - 1) : ℕ) : ℝ) := by exact_mod_cast Nat.doubleFactorial_pos _
      have h2 : (((2 ^ (s0 + s1 + 1) : ℕ) : ℝ)) ≠ 0 := by positivity
      have he : (0 : ℝ) < (((2 + (s0 + s1) : ℕ) : ℝ)) := by positivity
      generalize hC : 2 * ((1 + 1 / ((2 ^ (s0 + s1 + 1) : ℕ) : ℝ)) / 3) *
              (((Nat.doubleFactorial (2 * s0 - 1) : ℕ) : ℝ) / Real.sqrt (2 * Real.pi)) *
              (((Nat.doubleFactorial (2 * s1 - 1) : ℕ) : ℝ) / Real.sqrt (2 * Real.pi)) / N = C
      have hC0 : 0 < C := by rw [← hC]; positivity
      have hPQ : ∀ t, 0 < P t + Q t := fun t => add_pos (hP t) (hQ t)
      generalize hex : 1 / (((2 + (s0 + s1) : ℕ) : ℝ)) = e
      have he0 : 0 < e := by rw [← hex]; positivity
      have htime : ∀ t, func s0 s1 (fin t) N (freqSq n) (matOf n n c) =
          psi s0 s1 (fin ((C / (P t + Q t)) ^ e)) (freqSq n) (matOf n n c) := by
        intro t
        rw [func, if_pos hs]
        simp only
        rw [eP, eQ, padd_fin, C86_k, C86_k]
        have hsum : ((-1 : ℝ) ^ (s0 + 1 + s1) * P t + (-1) ^ (s0 + (s1 + 1)) * Q t) = -((-1) ^ (s0 + s1) * (P t + Q t)) := by
          rw [show s0 + 1 + s1 = s0 + s1 + 1 by omega, show s0 + (s1 + 1) = s0 + s1 + 1 by omega, pow_succ]; ring
        have hsgn : ((-1 : ℝ) ^ (s0 + s1)) * (-1) ^ (s0 + s1) = 1 := by rw [← mul_pow]; norm_num
        have hsne : ((-1 : ℝ) ^ (s0 + s1)) ≠ 0 := by intro hc; rw [hc] at hsgn; norm_num at hsgn
        have hne : -((-1 : ℝ) ^ (s0 + s1) * (P t + Q t)) ≠ 0 := neg_ne_zero.mpr (mul_ne_zero hsne (hPQ t).ne')
        rw [hsum]
        simp only [lit_eq, ofNat_eq]
        rw [pdiv_fin h2, padd_fin, pdiv_fin (by norm_num), pmul_fin, pmul_fin, pmul_fin, pdiv_fin hN'.ne', pdiv_fin hne,
          pdiv_fin he.ne']
        generalize hb : (((-2 : ℚ) : ℝ) * ((((1 : ℚ) : ℝ) + ((1 : ℚ) : ℝ) / ((2 ^ (s0 + s1 + 1) : ℕ) : ℝ)) / ((3 : ℚ) : ℝ)) *
          ((-1) ^ s0 * ((Nat.doubleFactorial (2 * s0 - 1) : ℕ) : ℝ) / Real.sqrt (2 * Real.pi)) *
          ((-1) ^ s1 * ((Nat.doubleFactorial (2 * s1 - 1) : ℕ) : ℝ) / Real.sqrt (2 * Real.pi)) / (N : ℝ) /
          (-((-1) ^ (s0 + s1) * (P t + Q t)))) = base
        have hbe : base = C / (P t + Q t) := by
          rw [← hb, ← hC, div_eq_div_iff hne (hPQ t).ne']
          push_cast
          rw [pow_add]
          ring
        have hpos : 0 < base := by rw [hbe]; exact div_pos hC0 (hPQ t)
        have hee : ((1 : ℚ) : ℝ) / ((2 + (s0 + s1) : ℕ) : ℝ) = e := by rw [← hex]; push_cast; rfl
        rw [hee]
        have hrp : (PyMath.rpow (fin base) (fin e) : Fl ℝ) = fin (base ^ e) := by
          show rpowR _ _ = _
          simp only [rpowR]
          rw [if_neg he0.ne', if_pos hpos]
        rw [hrp, hbe]
      refine ⟨fun t => psiR s0 s1 n c ((C / (P t + Q t)) ^ e), fun t => psiR_pos s0 s1 n c hc _, ?_, ?_, fun t => ?_, fun t _ => ?_⟩
      · refine (psiR_cont s0 s1 n c).comp ?_
        refine Continuous.rpow_const (continuous_const.div (cP.add cQ) fun t => (hPQ t).ne') fun t => Or.inr he0.le
      · intro t t' htt
        refine psiR_strict s0 s1 n c hc ?_
        refine Real.rpow_lt_rpow (div_pos hC0 (hPQ t)).le ?_ he0
        exact div_lt_div_of_pos_left hC0 (hPQ t') (add_lt_add (aP htt) (aQ htt))
      · rw [htime t, psi_eq s0 s1 n hn]
      · exact (psiR_strict s0 s1 n c hc).antitone (Real.rpow_nonneg (div_pos hC0 (hPQ t)).le _)
    · exact hbase s0 s1 (by omega)

end Biv5

/-- the function whose zero `bivariate_kernel` asks `root` for, bivariate.py:400 -/
noncomputable def BSpec.target (N n : Nat) (c : Nat → Nat → ℝ) (t : ℝ) : Fl ℝ :=
  fin t -. (evolve (fin t) N (freqSq n) (matOf n n c)).1

/-- roughness `Σ w_i w_j (i² + j²)² c_ij` of the squared coefficients, with `w_0 = 1` and `w_i = 1/2` otherwise -/
noncomputable def BSpec.rough (n : Nat) (c : Nat → Nat → ℝ) : ℝ :=
  ∑ j ∈ Finset.range n, ∑ i ∈ Finset.range n, ((if i = 0 then 1 else 1 / 2) * (if j = 0 then 1 else 1 / 2)) *
    (((i : ℝ) ^ 2 + (j : ℝ) ^ 2) ^ 2 * c i j)

theorem Biv5.rough_eq (n : Nat) (c : Nat → Nat → ℝ) :
    psiR 0 2 n c 0 + psiR 2 0 n c 0 + 2 * psiR 1 1 n c 0 = Real.pi ^ 4 * BSpec.rough n c := by
  rw [psiR_sum, psiR_sum, psiR_sum]
  unfold BSpec.rough
  simp only [show 1 + 1 = 2 from rfl, show 2 * 2 = 4 from rfl]
  rw [← mul_assoc, ← add_mul, ← add_mul, mul_comm (Real.pi ^ 4), Finset.mul_sum, ← Finset.sum_add_distrib, ← Finset.sum_add_distrib]
  congr 1
  refine Finset.sum_congr rfl fun j _ => ?_
  rw [Finset.mul_sum, ← Finset.sum_add_distrib, ← Finset.sum_add_distrib]
  refine Finset.sum_congr rfl fun i _ => ?_
  have : ∀ k : Nat, BSpec.wt 0 k = if k = 0 then 1 else 1 / 2 := by
    intro k; unfold BSpec.wt; simp
  rw [this, this]
  ring

/-- **C222.** the stationary time of `_evolve` is a positive, continuous, strictly increasing function of the guess, and the
searched function is `1 + t - t / a(t)`: it is `1` at `0`, it vanishes exactly where `a(t) = t / (1 + t)`, and at a fixed point
`a(t) = t` of the improved Sheather–Jones iteration it is `t`, not `0`; its zero lies strictly beyond every fixed point crossing:
there `a(t) < t`.  The stationary time is never below a bound given by the roughness of the data. -/
theorem C222_target (n N : Nat) (hN : 0 < N) (c : Nat → Nat → ℝ) (hc : BSpec.Charged n c) :
    ∃ a : ℝ → ℝ, (∀ t, 0 < a t) ∧ Continuous a ∧ StrictMono a ∧
      (∀ t, evolve (fin t) N (freqSq n) (matOf n n c) = (fin ((t - a t) / a t), fin (a t))) ∧
      (∀ t, BSpec.target N n c t = fin (1 + t - t / a t)) ∧
      (BSpec.target N n c 0 = fin 1) ∧
      (∀ t, 0 ≤ t → (BSpec.target N n c t = fin 0 ↔ a t = t / (1 + t))) ∧
      (∀ t, a t = t → BSpec.target N n c t = fin t) ∧
      (∀ t, 0 ≤ t → BSpec.target N n c t = fin 0 → a t < t) ∧
      (∀ t, 0 ≤ t → (2 * Real.pi ^ 5 * N * BSpec.rough n c) ^ (-1 / 3 : ℝ) ≤ a t) := by
  have hN' : (0 : ℝ) < N := by exact_mod_cast hN
  obtain ⟨P, hP, cP, aP, eP, uP⟩ := Biv5.func_real n N hN c hc 5 0 2 (by omega)
  obtain ⟨Q, hQ, cQ, aQ, eQ, uQ⟩ := Biv5.func_real n N hN c hc 5 2 0 (by omega)
  obtain ⟨R, hR, cR, aR, eR, uR⟩ := Biv5.func_real n N hN c hc 5 1 1 (by omega)
  have hpos : ∀ t, 0 < 2 * Real.pi * N * (P t + Q t + 2 * R t) := fun t => by
    have := hP t; have := hQ t; have := hR t; positivity
  let a : ℝ → ℝ := fun t => (2 * Real.pi * N * (P t + Q t + 2 * R t)) ^ (-1 / 3 : ℝ)
  have ha : ∀ t, 0 < a t := fun t => Real.rpow_pos_of_pos (hpos t) _
  have hev : ∀ t, evolve (fin t) N (freqSq n) (matOf n n c) = (fin ((t - a t) / a t), fin (a t)) := by
    intro t
    have hac : (PyMath.rpow (lit 2 *. PyMath.pi *. ofNat N *. (func 0 2 (fin t) N (freqSq n) (matOf n n c) +.
        func 2 0 (fin t) N (freqSq n) (matOf n n c) +. lit 2 *. func 1 1 (fin t) N (freqSq n) (matOf n n c))) (lit (-1) /. lit 3) : Fl ℝ)
        = fin (a t) := by
      rw [eP, eQ, eR]
      show (PyMath.rpow (lit 2 *. fin Real.pi *. ofNat N *. _) _ : Fl ℝ) = _
      simp only [lit_eq, ofNat_eq, pmul_fin, padd_fin]
      rw [pdiv_fin (by norm_num)]
      show rpowR _ _ = _
      have e : ((2 : ℚ) : ℝ) * Real.pi * (N : ℝ) * ((-1) ^ (0 + 2) * P t + (-1) ^ (2 + 0) * Q t + ((2 : ℚ) : ℝ) * ((-1) ^ (1 + 1) * R t)) =
          2 * Real.pi * N * (P t + Q t + 2 * R t) := by norm_num
      rw [e]
      simp only [rpowR]
      rw [if_neg (by norm_num), if_pos (hpos t)]
      show fin (_ ^ _) = fin (_ ^ _)
      push_cast; rfl
    unfold Bivariate.evolve
    simp only
    rw [hac, psub_fin, pdiv_fin (ha t).ne']
  have htg : ∀ t, BSpec.target N n c t = fin (1 + t - t / a t) := by
    intro t
    unfold BSpec.target
    rw [hev t, psub_fin, sub_div, div_self (ha t).ne']
    congr 1; ring
  have hz : ∀ t, 0 ≤ t → (BSpec.target N n c t = fin 0 ↔ a t = t / (1 + t)) := by
    intro t ht
    have h1 : 1 + t ≠ 0 := by positivity
    rw [htg t]
    constructor
    · intro h
      have h' : 1 + t - t / a t = 0 := Fl.fin.inj h
      have h2 : 1 + t = t / a t := by linarith
      rw [eq_div_iff (ha t).ne'] at h2
      rw [eq_div_iff h1]; linarith
    · intro h
      rw [eq_div_iff h1] at h
      have : t / a t = 1 + t := by rw [div_eq_iff (ha t).ne']; linarith
      rw [this, sub_self]
  refine ⟨a, ha, ?_, ?_, hev, htg, ?_, hz, ?_, ?_, ?_⟩
  · refine Continuous.rpow_const ?_ fun t => Or.inl (hpos t).ne'
    exact continuous_const.mul ((cP.add cQ).add (continuous_const.mul cR))
  · intro t t' h
    refine Real.rpow_lt_rpow_of_neg (hpos t') ?_ (by norm_num)
    refine mul_lt_mul_of_pos_left ?_ (by positivity)
    have := aP h; have := aQ h; have := aR h
    linarith
  · rw [htg 0]; simp
  · intro t h
    rw [htg t, h, div_self (h ▸ (ha t).ne')]
    congr 1; ring
  · intro t ht h
    have e := (hz t ht).mp h
    have hp := ha t
    have ht0 : 0 < t := by
      rcases ht.lt_or_eq with h | h
      · exact h
      · rw [e, ← h] at hp; simp at hp
    rw [e]
    exact div_lt_self ht0 (by linarith)
  · intro t ht
    refine Real.rpow_le_rpow_of_nonpos (hpos t) ?_ (by norm_num)
    have h := Biv5.rough_eq n c
    have := uP t ht; have := uQ t ht; have := uR t ht
    have hpi : 0 ≤ 2 * Real.pi * N := by positivity
    calc 2 * Real.pi * N * (P t + Q t + 2 * R t) ≤ 2 * Real.pi * N * (Real.pi ^ 4 * BSpec.rough n c) :=
          mul_le_mul_of_nonneg_left (by linarith) hpi
      _ = 2 * Real.pi ^ 5 * N * BSpec.rough n c := by ring

/-- what scipy documents for `brentq` on `[0, b]` when the function is positive at `0`: ValueError if it is still positive at `b`,
a value otherwise -/
def BSpec.Bracketing (g : ℝ → Fl ℝ) (brent : Fl ℝ → Py (Fl ℝ)) : Prop :=
  ∀ b x : ℝ, 0 < b → g b = fin x → if 0 < x then brent (fin b) = .error .valueError else ∃ t, brent (fin b) = .ok t

/-- **C222.** hence `root` uses `brentq` exactly when one of the tried brackets `b` has `a(b) ≤ b / (1 + b)`, the first such bracket
contains a zero of the searched function, and otherwise it falls back to `fminbound` -/
theorem C222_root (n N : Nat) (hN : 0 < N) (c : Nat → Nat → ℝ) (hc : BSpec.Charged n c) (a : ℝ → ℝ)
    (ha : ∀ t, (evolve (fin t) N (freqSq n) (matOf n n c)).2 = fin (a t)) (brent : Fl ℝ → Py (Fl ℝ)) (fmin : Py (Fl ℝ))
    (hb : BSpec.Bracketing (BSpec.target N n c) brent) (m : Int) :
    ∃ b₀ : ℝ, 0 < b₀ ∧ (tol0 m : Fl ℝ) = fin b₀ ∧
      ((∃ k : Nat, b₀ * 2 ^ k < 1 / 10 ∧ a (b₀ * 2 ^ k) ≤ b₀ * 2 ^ k / (1 + b₀ * 2 ^ k) ∧
          (∀ j < k, b₀ * 2 ^ j / (1 + b₀ * 2 ^ j) < a (b₀ * 2 ^ j)) ∧ root brent fmin 37 m = some (brent (fin (b₀ * 2 ^ k))) ∧
          ∃ z, 0 < z ∧ z ≤ b₀ * 2 ^ k ∧ BSpec.target N n c z = fin 0) ∨
       (root brent fmin 37 m = some fmin ∧ ∀ k : Nat, b₀ * 2 ^ k < 1 / 10 → b₀ * 2 ^ k / (1 + b₀ * 2 ^ k) < a (b₀ * 2 ^ k))) := by
  obtain ⟨a', hp, hcont, _, hev, htg, h0, _⟩ := C222_target n N hN c hc
  have haa : a = a' := by
    funext t
    have := ha t
    rw [hev t] at this
    exact (Fl.fin.inj this).symm
  subst haa
  obtain ⟨r, hr, _⟩ := C87_terminates brent fmin m
  obtain ⟨b₀, hb₀, hres⟩ := C87_result brent fmin m r hr
  have hb0 : 0 < b₀ := by
    obtain ⟨x, hx, h1, _⟩ := tol0_eq m
    rw [hb₀] at hx
    rw [Fl.fin.inj hx]
    exact lt_of_lt_of_le (by positivity) h1
  have hbk : ∀ k : Nat, 0 < b₀ * 2 ^ k := fun k => by positivity
  have hsign : ∀ b : ℝ, 0 < b → (0 < 1 + b - b / a b ↔ b / (1 + b) < a b) := by
    intro b hb
    have h1 : 0 < 1 + b := by linarith
    rw [sub_pos, div_lt_iff₀ (hp b), div_lt_iff₀ h1, mul_comm]
  have herr : ∀ b : ℝ, 0 < b → brent (fin b) = .error .valueError → b / (1 + b) < a b := by
    intro b hb' he
    have := hb b _ hb' (htg b)
    by_contra hn
    rw [if_neg (fun h => hn ((hsign b hb').mp h))] at this
    obtain ⟨t, ht⟩ := this
    rw [he] at ht; cases ht
  have hok : ∀ b : ℝ, 0 < b → brent (fin b) ≠ .error .valueError → a b ≤ b / (1 + b) := by
    intro b hb' he
    by_contra hn
    have := hb b _ hb' (htg b)
    rw [if_pos ((hsign b hb').mpr (not_le.mp hn))] at this
    exact he this
  refine ⟨b₀, hb0, hb₀, ?_⟩
  rcases hres with ⟨k, hk, hj, hbr, hne⟩ | ⟨hrf, hall⟩
  · left
    refine ⟨k, hk, hok _ (hbk k) (hbr ▸ hne), fun j hjk => herr _ (hbk j) (hj j hjk), by rw [hr, hbr], ?_⟩
    have hle : 1 + b₀ * 2 ^ k - b₀ * 2 ^ k / a (b₀ * 2 ^ k) ≤ 0 := by
      rw [← not_lt, hsign _ (hbk k), not_lt]
      exact hok _ (hbk k) (hbr ▸ hne)
    have hcg : ContinuousOn (fun t => 1 + t - t / a t) (Set.Icc 0 (b₀ * 2 ^ k)) :=
      ((continuous_const.add continuous_id).sub (continuous_id.div hcont fun t => (hp t).ne')).continuousOn
    obtain ⟨z, hz, hz0⟩ := intermediate_value_Icc' (hbk k).le hcg (show (0 : ℝ) ∈ Set.Icc _ _ from ⟨hle, by simp⟩)
    refine ⟨z, ?_, hz.2, by rw [htg z]; exact congrArg fin hz0⟩
    rcases hz.1.lt_or_eq with h | h
    · exact h
    · simp [← h] at hz0
  · right
    exact ⟨by rw [hr, hrf], fun k hk => herr _ (hbk k) (hall k hk)⟩

/-- **C222.** if the coefficients are smooth enough, no bracket works and `root` always returns the result of `fminbound` -/
theorem C222_fallback (n N : Nat) (hN : 0 < N) (c : Nat → Nat → ℝ) (hc : BSpec.Charged n c)
    (hs : 2 * Real.pi ^ 5 * N * BSpec.rough n c ≤ 11 ^ 3) (brent : Fl ℝ → Py (Fl ℝ)) (fmin : Py (Fl ℝ))
    (hb : BSpec.Bracketing (BSpec.target N n c) brent) (m : Int) : root brent fmin 37 m = some fmin := by
  obtain ⟨a', hp, _, hmono, hev, _, _, _, _, _, hlow⟩ := C222_target n N hN c hc
  have hrp : 0 < 2 * Real.pi ^ 5 * N * BSpec.rough n c := by
    have h := Biv5.rough_eq n c
    have := Biv5.psiR_pos 0 2 n c hc 0; have := Biv5.psiR_pos 2 0 n c hc 0; have := Biv5.psiR_pos 1 1 n c hc 0
    have hr : 0 < Real.pi ^ 4 * BSpec.rough n c := by rw [← h]; linarith
    have hr' : 0 < BSpec.rough n c := pos_of_mul_pos_right hr (by positivity)
    have hN' : (0 : ℝ) < N := by exact_mod_cast hN
    positivity
  have h11 : 1 / 11 ≤ a' 0 := by
    refine le_trans ?_ (hlow 0 le_rfl)
    have e : (1 / 11 : ℝ) = ((11 : ℝ) ^ 3) ^ (-1 / 3 : ℝ) := by
      rw [← Real.rpow_natCast, ← Real.rpow_mul (by norm_num)]
      norm_num
    rw [e]
    exact Real.rpow_le_rpow_of_nonpos hrp hs (by norm_num)
  obtain ⟨b₀, hb0, _, h⟩ := C222_root n N hN c hc a' (fun t => by rw [hev t]) brent fmin hb m
  rcases h with ⟨k, hk, hle, _⟩ | h
  · exfalso
    have hbk : 0 < b₀ * 2 ^ k := by positivity
    have h1 := hmono hbk
    have h2 : b₀ * 2 ^ k / (1 + b₀ * 2 ^ k) < 1 / 11 := by
      rw [div_lt_iff₀ (by linarith)]; linarith
    linarith
  · exact h.1

/-- the hypotheses are met: four samples, a 2x2 matrix of coefficients and a search that follows scipy's contract -/
example : BSpec.Charged 2 (fun i j => if i = 1 ∧ j = 1 then 1 / 4 else 0) ∧
    2 * Real.pi ^ 5 * (4 : Nat) * BSpec.rough 2 (fun i j => if i = 1 ∧ j = 1 then 1 / 4 else 0) ≤ 11 ^ 3 ∧
    ∀ g, ∃ brent, BSpec.Bracketing g brent := by
  refine ⟨⟨fun i _ j _ => by dsimp only; split <;> norm_num, 1, 1, by norm_num⟩, ?_, fun g => ?_⟩
  · have : Real.pi ^ 5 ≤ 3.15 ^ 5 := pow_le_pow_left₀ Real.pi_pos.le (le_of_lt Real.pi_lt_d2) 5
    simp only [BSpec.rough, Finset.sum_range_succ, Finset.sum_range_zero]
    norm_num at this ⊢
    linarith
  · classical
    refine ⟨fun b => match b with
      | fin b => if ∃ x, g b = fin x ∧ 0 < x then .error .valueError else .ok (fin 0)
      | _ => .ok (fin 0), fun b x _ hx => ?_⟩
    by_cases h : 0 < x
    · rw [if_pos h]
      exact if_pos ⟨x, hx, h⟩
    · rw [if_neg h]
      refine ⟨fin 0, if_neg ?_⟩
      rintro ⟨y, hy, hy0⟩
      rw [hx] at hy
      exact h (Fl.fin.inj hy ▸ hy0)

end Proadv.Props
