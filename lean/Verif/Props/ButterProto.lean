import Verif.Props.Butter
import Mathlib.FieldTheory.KummerExtension
import Mathlib.RingTheory.RootsOfUnity.Complex
import Mathlib.Tactic.Linarith

/-! # The Butterworth prototype `buttap`: C97, C98 -/

namespace Proadv

open Proadv.Butter Complex Spec

set_option linter.unusedSectionVars false

noncomputable section

/-- the `k`-th pole of the model, for the proofs -/
def bpole (n k : Nat) : ℂ := -Complex.exp (I * (Real.pi : ℂ) * ((-(n : ℤ) + 1 + 2 * (k : ℤ) : ℤ) : ℂ) / (2 * ((n : ℤ) : ℂ)))

theorem pyInt_nat (n : Nat) : pyInt (n : ℝ) = n := by
  unfold pyInt; rw [if_pos (by positivity)]; simp

theorem buttap_nat (n : Nat) : buttap (n : ℝ) = .ok ⟨[], (List.range n).map (bpole n), 1⟩ := by
  unfold buttap
  rw [pyInt_nat, if_neg (by simp)]
  have : (((n : ℤ) - (-(n : ℤ) + 1) + 2 - 1) / 2).toNat = n := by omega
  simp only [arange, this, List.map_map]
  rfl

theorem buttap_err {q : ℝ} (h : ∀ n : Nat, q ≠ n) : buttap q = .error .valueError := by
  unfold buttap
  rw [if_pos]
  intro hq
  apply h (|pyInt q|).toNat
  have h0 : (0 : ℤ) ≤ |pyInt q| := abs_nonneg _
  have : (((|pyInt q|).toNat : ℤ) : ℝ) = ((|pyInt q| : ℤ) : ℝ) := by rw [Int.toNat_of_nonneg h0]
  rw [← Int.cast_natCast, this]
  exact hq.symm

theorem bpole_eq (n k : Nat) : bpole n k = -Complex.exp (((Real.pi * (2 * k + 1 - n) / (2 * n) : ℝ) : ℂ) * I) := by
  unfold bpole
  congr 2
  push_cast
  ring

theorem bpole_norm (n k : Nat) : ‖bpole n k‖ = 1 := by
  rw [bpole_eq, norm_neg, Complex.norm_exp_ofReal_mul_I]

theorem bpole_re {n k : Nat} (h : k < n) : (bpole n k).re < 0 := by
  rw [bpole_eq, Complex.neg_re, Complex.exp_ofReal_mul_I_re, neg_lt_zero]
  have hn : (0 : ℝ) < n := by exact_mod_cast (show 0 < n by omega)
  have hk : (k : ℝ) + 1 ≤ n := by exact_mod_cast h
  have hk0 : (0 : ℝ) ≤ k := by positivity
  have hpi := Real.pi_pos
  apply Real.cos_pos_of_mem_Ioo
  constructor
  · rw [lt_div_iff₀ (by positivity)]; nlinarith
  · rw [div_lt_iff₀ (by positivity)]; nlinarith

theorem bpole_conj {n k : Nat} (h : k < n) : starRingEnd ℂ (bpole n k) = bpole n (n - 1 - k) := by
  rw [bpole_eq, bpole_eq, map_neg, ← Complex.exp_conj, map_mul, Complex.conj_I, Complex.conj_ofReal]
  congr 2
  have : ((n - 1 - k : Nat) : ℝ) = n - 1 - k := by
    rw [Nat.cast_sub (by omega), Nat.cast_sub (by omega)]; simp
  rw [this]; push_cast; ring

theorem bpoles_conj (n : Nat) : ((List.range n).map (bpole n)).map (starRingEnd ℂ) = ((List.range n).map (bpole n)).reverse := by
  apply List.ext_getElem (by simp)
  intro i h1 h2
  have hi : i < n := by simpa using h1
  simp only [List.getElem_map, List.getElem_range, List.getElem_reverse, List.length_map, List.length_range]
  exact bpole_conj hi

theorem bpoles_closed (n : Nat) : ConjClosed ((List.range n).map (bpole n)) := by
  unfold ConjClosed
  rw [bpoles_conj]; exact (List.reverse_perm _).symm

/-- **C97.** the prototype of order `n` -/
theorem C97_prototype (n : Nat) : ∃ f, buttap (n : ℝ) = .ok f ∧ f.z = [] ∧ f.p.length = n ∧ f.k = 1 ∧
    (∀ p ∈ f.p, ‖p‖ = 1 ∧ p.re < 0) ∧ ConjClosed f.p := by
  refine ⟨_, buttap_nat n, rfl, by simp, rfl, ?_, bpoles_closed n⟩
  intro p hp
  obtain ⟨k, hk, rfl⟩ := List.mem_map.mp hp
  exact ⟨bpole_norm n k, bpole_re (List.mem_range.mp hk)⟩

/-- **C97.** every other order, negative or fractional, is rejected -/
theorem C97_rejects (q : ℝ) : buttap q = .error .valueError ↔ ∀ n : Nat, q ≠ n := by
  refine ⟨fun h n hn => ?_, buttap_err⟩
  rw [hn, buttap_nat] at h; simp at h

theorem list_prod_range (f : Nat → ℂ) (n : Nat) : ((List.range n).map f).prod = ∏ i ∈ Finset.range n, f i := by
  induction n with
  | zero => simp
  | succ n ih => rw [List.range_succ, List.map_append, List.prod_append, ih, Finset.prod_range_succ]; simp

/-- the poles are the left-half-plane roots of `1 + (-1)^n s^(2n)` -/
theorem bpoles_prod {n : Nat} (hn : 0 < n) (s : ℂ) :
    ((List.range n).map (fun k => s - bpole n k)).prod * ((List.range n).map (fun k => -s - bpole n k)).prod
      = 1 + (-1) ^ n * s ^ (2 * n) := by
  have hn0 : (n : ℂ) ≠ 0 := by exact_mod_cast hn.ne'
  set ζ : ℂ := Complex.exp (2 * Real.pi * I / n) with hζ
  have hprim : IsPrimitiveRoot ζ n := Complex.isPrimitiveRoot_exp n hn.ne'
  set α : ℂ := Complex.exp ((Real.pi * (1 - n) / n : ℂ) * I) with hα
  have hαn : α ^ n = -(-1) ^ n := by
    rw [hα, ← Complex.exp_nat_mul]
    have : (n : ℂ) * ((Real.pi * (1 - n) / n : ℂ) * I) = Real.pi * I - n * (Real.pi * I) := by field_simp
    rw [this, Complex.exp_sub, Complex.exp_nat_mul, Complex.exp_pi_mul_I]
    rcases Nat.even_or_odd n with h | h
    · simp [h.neg_one_pow]
    · simp [h.neg_one_pow]
  have hk : ∀ k, bpole n k ^ 2 = ζ ^ k * α := by
    intro k
    rw [bpole_eq, hζ, hα, neg_sq, ← Complex.exp_nat_mul, ← Complex.exp_nat_mul, ← Complex.exp_add]
    congr 1
    push_cast
    field_simp
    ring
  have hX := congrArg (Polynomial.eval (s ^ 2)) (X_pow_sub_C_eq_prod hprim hn hαn)
  rw [Polynomial.eval_prod] at hX
  simp only [Polynomial.eval_sub, Polynomial.eval_pow, Polynomial.eval_X, Polynomial.eval_C] at hX
  rw [← prod_map_mul']
  have : (List.range n).map (fun k => (s - bpole n k) * (-s - bpole n k))
      = (List.range n).map (fun k => (-1) * (s ^ 2 - ζ ^ k * α)) :=
    List.map_congr_left fun k _ => by rw [← hk]; ring
  rw [this, prod_map_mul', prod_map_const', list_prod_range, ← hX, List.length_range]
  have h1 : ((-1 : ℂ) ^ n) * (-1) ^ n = 1 := by rw [← mul_pow]; simp
  rw [pow_mul]
  linear_combination h1

/-- **C98.** maximal flatness, as a statement on the squared modulus of the prototype on the imaginary axis -/
theorem C98_max_flat (n : Nat) (hn : 0 < n) : ∃ f, buttap (n : ℝ) = .ok f ∧
    ∀ w : ℝ, ‖H f (I * w)‖ ^ 2 = 1 / (1 + w ^ (2 * n)) := by
  refine ⟨_, buttap_nat n, fun w => ?_⟩
  simp only [H, List.map_nil, List.prod_nil, List.map_map, Complex.ofReal_one, mul_one]
  set P := (List.map ((fun p => I * (w : ℂ) - p) ∘ bpole n) (List.range n)).prod with hP
  have hc : starRingEnd ℂ P = ((List.range n).map (fun k => -(I * (w : ℂ)) - bpole n k)).prod := by
    rw [hP, map_list_prod, List.map_map]
    have e1 : List.map ((starRingEnd ℂ) ∘ (fun p => I * (w : ℂ) - p) ∘ bpole n) (List.range n)
        = (((List.range n).map (bpole n)).map (starRingEnd ℂ)).map (fun p => -(I * (w : ℂ)) - p) := by
      rw [List.map_map, List.map_map]
      exact List.map_congr_left fun k _ => by simp
    rw [e1, bpoles_conj, List.map_reverse, List.prod_reverse, List.map_map]; rfl
  have hPP : P * starRingEnd ℂ P = 1 + (-1) ^ n * (I * (w : ℂ)) ^ (2 * n) := by
    rw [hc]; exact bpoles_prod hn _
  have hI : ((-1 : ℂ)) ^ n * (I * (w : ℂ)) ^ (2 * n) = (w : ℂ) ^ (2 * n) := by
    have h1 : ((-1 : ℂ) ^ n) * (-1) ^ n = 1 := by rw [← mul_pow]; simp
    rw [mul_pow, pow_mul I, I_sq, ← mul_assoc, h1, one_mul]
  have hsq : ‖P‖ ^ 2 = 1 + w ^ (2 * n) := by
    have := Complex.mul_conj P
    rw [hPP, hI, Complex.normSq_eq_norm_sq] at this
    exact_mod_cast this.symm
  rw [norm_div, div_pow, hsq]; simp

/-- **C98.** order 0 is accepted and gives the constant filter 1, for which the formula fails -/
theorem C98_order_zero : ∃ f, buttap 0 = .ok f ∧ (∀ s, H f s = 1) ∧ ¬ ∀ w : ℝ, ‖H f (I * w)‖ ^ 2 = 1 / (1 + w ^ (2 * 0)) := by
  have := buttap_nat 0
  simp only [Nat.cast_zero] at this
  refine ⟨_, this, fun s => by simp [H], fun h => ?_⟩
  have := h 0
  norm_num [H] at this

/-- **C98.** the response is monotone decreasing in `|w|`, is 1 at 0 and 1/2 at 1 -/
theorem C98_shape (n : Nat) (hn : 0 < n) : ∃ f, buttap (n : ℝ) = .ok f ∧ H f 0 = 1 ∧ ‖H f I‖ ^ 2 = 1 / 2 ∧
    ∀ a b : ℝ, |a| < |b| → ‖H f (I * b)‖ ^ 2 < ‖H f (I * a)‖ ^ 2 := by
  obtain ⟨f, hf, h⟩ := C98_max_flat n hn
  refine ⟨f, hf, ?_, ?_, ?_⟩
  · have e : f = ⟨[], (List.range n).map (bpole n), 1⟩ := by rw [buttap_nat] at hf; exact (Except.ok.inj hf).symm
    -- conjugate pairs of modulus 1 in the left half plane
    have hprod : ((List.range n).map (fun k => 0 - bpole n k)).prod = 1 := by
      have hb := bpoles_prod hn 0
      simp only [neg_zero, zero_pow (show 2 * n ≠ 0 by omega), mul_zero, add_zero] at hb
      have hs : ((List.range n).map (fun k => 0 - bpole n k)).prod
          = Complex.exp (((List.range n).map (fun k : Nat => ((Real.pi * (2 * k + 1 - n) / (2 * n) : ℝ) : ℂ) * I)).sum) := by
        rw [Complex.exp_list_sum, List.map_map]
        exact prod_map_congr fun k _ => by rw [bpole_eq]; simp
      have hsum : ((List.range n).map (fun k : Nat => ((Real.pi * (2 * k + 1 - n) / (2 * n) : ℝ) : ℂ) * I)).sum = 0 := by
        have hm : ∀ m : Nat, ((List.range m).map (fun k : Nat => ((Real.pi * (2 * k + 1 - n) / (2 * n) : ℝ) : ℂ) * I)).sum
            = ((Real.pi * (m * (m - n)) / (2 * n) : ℝ) : ℂ) * I := by
          intro m
          induction m with
          | zero => simp
          | succ m ih =>
            rw [List.range_succ, List.map_append, List.sum_append, ih]
            simp only [List.map_cons, List.map_nil, List.sum_cons, List.sum_nil, add_zero]
            push_cast; ring
        rw [hm]; simp
      rw [hs, hsum, Complex.exp_zero]
    rw [e]
    simp only [H, List.map_nil, List.prod_nil, List.map_map, Complex.ofReal_one, mul_one]
    have : (List.map ((fun p => (0 : ℂ) - p) ∘ bpole n) (List.range n)).prod = 1 := hprod
    rw [this]; simp
  · have := h 1
    norm_num at this
    norm_num [this]
  · intro a b hab
    rw [h, h]
    have e : ∀ x : ℝ, x ^ (2 * n) = |x| ^ (2 * n) := fun x => by rw [pow_mul, pow_mul, sq_abs]
    rw [e a, e b]
    apply one_div_lt_one_div_of_lt (by positivity)
    have := pow_lt_pow_left₀ hab (abs_nonneg a) (show 2 * n ≠ 0 by omega)
    linarith

end

end Proadv
