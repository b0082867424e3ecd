import Verif.Props.SsaLaws
import Mathlib.Analysis.Matrix.Spectrum
import Mathlib.Analysis.Real.Pi.Bounds

/-!
# C209–C210: which signals `ssa` is well defined for, and that it is a low-pass filter

`np.linalg.eigh` only promises *some* orthonormal eigenvectors.  Such vectors exist for every signal (`C209_exists`).  When
the non-zero eigenvalues of the lag-covariance matrix are simple the result of `ssa` does not depend on the choice
(`C209_solver_independent`); with a repeated eigenvalue it does (`C209_ambiguous`).
-/

set_option linter.unusedSectionVars false

namespace Proadv.Props

open Proadv Series Fl Replace

/-! ## Specifications -/

/-- entry `(r, t)` of the lag-covariance matrix of `x`: the sum over the windows of the products of samples `r` and `t` -/
noncomputable def lagCov (x : List ℝ) (L r t : Nat) : ℝ :=
  ∑ c ∈ Finset.range (x.length - L + 1), x.getD (c + r) 0 * x.getD (c + t) 0

/-- column `i` of `E` is an eigenvector of the lag-covariance matrix for the eigenvalue `lam i` -/
def EigenPairs (x : List ℝ) (L : Nat) (E : Nat → Nat → ℝ) (lam : Nat → ℝ) : Prop :=
  ∀ r < L, ∀ i < L, ∑ t ∈ Finset.range L, lagCov x L r t * E t i = lam i * E r i

theorem eigenCols_iff (x : List ℝ) (L : Nat) (E : Nat → Nat → ℝ) : EigenCols x L E ↔ ∃ lam, EigenPairs x L E lam := Iff.rfl

theorem lagCov_symm (x : List ℝ) (L r t : Nat) : lagCov x L r t = lagCov x L t r :=
  Finset.sum_congr rfl (fun _ _ => mul_comm _ _)

/-! ## Existence -/

/-- **C209** the contract of `eigh` can be met for every signal and every window: an orthonormal matrix of eigenvectors of
the lag-covariance matrix exists. -/
theorem C209_exists (x : List ℝ) (L : Nat) : ∃ E lam, OrthoCols E L ∧ EigenPairs x L E lam := by
  let A : Matrix (Fin L) (Fin L) ℝ := Matrix.of (fun r t => lagCov x L r t)
  have hA : A.IsHermitian := by
    ext r t
    simp [A, lagCov_symm x L t r]
  refine ⟨fun r i => if h : r < L ∧ i < L then hA.eigenvectorBasis ⟨i, h.2⟩ ⟨r, h.1⟩ else 0,
    fun i => if h : i < L then hA.eigenvalues ⟨i, h⟩ else 0, ?_, ?_⟩
  · intro i hi j hj
    have o := orthonormal_iff_ite.mp hA.eigenvectorBasis.orthonormal ⟨i, hi⟩ ⟨j, hj⟩
    rw [PiLp.inner_apply] at o
    rw [Finset.sum_range]
    simp only [Fin.is_lt, true_and, hi, hj, dite_true, Fin.eta]
    simp only [Fin.mk.injEq] at o
    rw [← o]
    exact Finset.sum_congr rfl (fun r _ => by simp [mul_comm])
  · intro r hr i hi
    have m := congrFun (hA.mulVec_eigenvectorBasis ⟨i, hi⟩) ⟨r, hr⟩
    rw [Finset.sum_range]
    simp only [Fin.is_lt, hi, hr, dite_true, Fin.eta, and_self]
    exact m

/-! ## Linear algebra -/

theorem eig_orth {G : Nat → Nat → ℝ} (hG : ∀ r t, G r t = G t r) {L : Nat} {E E' : Nat → Nat → ℝ} {lam lam' : Nat → ℝ}
    (h : ∀ r < L, ∀ i < L, ∑ t ∈ Finset.range L, G r t * E t i = lam i * E r i)
    (h' : ∀ r < L, ∀ i < L, ∑ t ∈ Finset.range L, G r t * E' t i = lam' i * E' r i) {i j : Nat} (hi : i < L) (hj : j < L) :
    (lam i - lam' j) * ∑ r ∈ Finset.range L, E r i * E' r j = 0 := by
  have a : lam i * ∑ r ∈ Finset.range L, E r i * E' r j =
      ∑ r ∈ Finset.range L, ∑ t ∈ Finset.range L, G r t * E t i * E' r j := by
    rw [Finset.mul_sum]
    refine Finset.sum_congr rfl (fun r hr => ?_)
    rw [← mul_assoc, ← h r (Finset.mem_range.mp hr) i hi, Finset.sum_mul]
  have b : lam' j * ∑ r ∈ Finset.range L, E r i * E' r j =
      ∑ r ∈ Finset.range L, ∑ t ∈ Finset.range L, G r t * E t i * E' r j := by
    rw [Finset.mul_sum, Finset.sum_comm]
    refine Finset.sum_congr rfl (fun t ht => ?_)
    rw [show lam' j * (E t i * E' t j) = E t i * (lam' j * E' t j) by ring, ← h' t (Finset.mem_range.mp ht) j hj,
      Finset.mul_sum]
    refine Finset.sum_congr rfl (fun r _ => ?_)
    rw [hG r t]; ring
  rw [sub_mul, a, b, sub_self]

/-- expansion of a vector in an orthonormal basis -/
theorem ortho_expand {E : Nat → Nat → ℝ} {L : Nat} (ho : OrthoCols E L) (v : Nat → ℝ) (r : Nat) (hr : r < L) :
    v r = ∑ i ∈ Finset.range L, E r i * ∑ t ∈ Finset.range L, E t i * v t := by
  have hrow := rows_of_cols ho
  simp only [Finset.mul_sum]
  rw [Finset.sum_comm]
  have : ∀ t ∈ Finset.range L, ∑ i ∈ Finset.range L, E r i * (E t i * v t) = if r = t then v t else 0 := by
    intro t ht
    have := hrow r hr t (Finset.mem_range.mp ht)
    rw [Finset.sum_congr rfl (fun i _ => (mul_assoc (E r i) (E t i) (v t)).symm), ← Finset.sum_mul, this]
    split_ifs <;> ring
  rw [Finset.sum_congr rfl this, Finset.sum_ite_eq, if_pos (Finset.mem_range.mpr hr)]

/-- the energy of the trajectory matrix along an eigenvector is its eigenvalue -/
theorem eig_energy {x : List ℝ} {L : Nat} {E : Nat → Nat → ℝ} {lam : Nat → ℝ} (ho : OrthoCols E L)
    (he : EigenPairs x L E lam) {i : Nat} (hi : i < L) :
    ∑ c ∈ Finset.range (x.length - L + 1), (∑ t ∈ Finset.range L, E t i * x.getD (c + t) 0) ^ 2 = lam i := by
  have e : ∀ c, (∑ t ∈ Finset.range L, E t i * x.getD (c + t) 0) ^ 2 =
      ∑ r ∈ Finset.range L, ∑ t ∈ Finset.range L, E r i * (x.getD (c + r) 0 * x.getD (c + t) 0 * E t i) := by
    intro c
    rw [sq, Finset.sum_mul_sum]
    refine Finset.sum_congr rfl (fun s _ => Finset.sum_congr rfl (fun t _ => by ring))
  simp only [e]
  rw [Finset.sum_comm]
  have : ∀ r ∈ Finset.range L, ∑ c ∈ Finset.range (x.length - L + 1), ∑ t ∈ Finset.range L,
      E r i * (x.getD (c + r) 0 * x.getD (c + t) 0 * E t i) = lam i * E r i ^ 2 := by
    intro r hr
    rw [Finset.sum_comm]
    have hh := he r (Finset.mem_range.mp hr) i hi
    rw [sq, ← mul_assoc, ← hh, Finset.sum_mul]
    refine Finset.sum_congr rfl (fun t _ => ?_)
    unfold lagCov
    rw [Finset.sum_mul, Finset.sum_mul]
    exact Finset.sum_congr rfl (fun c _ => by ring)
  rw [Finset.sum_congr rfl this, ← Finset.mul_sum, col_norm ho i hi, mul_one]

/-- two eigenvector columns that are not orthogonal, for a simple non-zero eigenvalue, agree up to the sign -/
theorem eig_parallel {x : List ℝ} {L : Nat} {E E' : Nat → Nat → ℝ} {lam lam' : Nat → ℝ} (ho : OrthoCols E L)
    (ho' : OrthoCols E' L) (he : EigenPairs x L E lam) (he' : EigenPairs x L E' lam')
    (hs : ∀ i < L, ∀ j < L, i ≠ j → lam i = lam j → lam i = 0) {i j : Nat} (hi : i < L) (hj : j < L)
    (hne : ∑ r ∈ Finset.range L, E r i * E' r j ≠ 0) (h0 : lam i ≠ 0 ∨ lam' j ≠ 0) :
    lam' j = lam i ∧ ∃ s : ℝ, s ^ 2 = 1 ∧ ∀ r < L, E' r j = s * E r i := by
  have hl : lam' j = lam i := by
    have := eig_orth (lagCov_symm x L) he he' hi hj
    rcases mul_eq_zero.mp this with h | h
    · linarith
    · exact absurd h hne
  have hl0 : lam i ≠ 0 := by
    rcases h0 with h | h
    · exact h
    · rwa [hl] at h
  have hoth : ∀ i' ∈ Finset.range L, i' ≠ i → ∑ r ∈ Finset.range L, E r i' * E' r j = 0 := by
    intro i' hi' hn
    have := eig_orth (lagCov_symm x L) he he' (Finset.mem_range.mp hi') hj
    rcases mul_eq_zero.mp this with h | h
    · exact absurd (hs i hi i' (Finset.mem_range.mp hi') hn.symm (by linarith)) hl0
    · exact h
  refine ⟨hl, ∑ r ∈ Finset.range L, E r i * E' r j, ?_, ?_⟩
  · have p := ssa_parseval ho (fun r => E' r j)
    rw [Finset.sum_eq_single i (fun i' hi' hn => by rw [hoth i' hi' hn]; ring)
      (fun h => absurd (Finset.mem_range.mpr hi) h), col_norm ho' j hj] at p
    exact p
  · intro r hr
    rw [ortho_expand ho (fun r => E' r j) r hr, Finset.sum_eq_single i
      (fun i' hi' hn => by rw [hoth i' hi' hn]; ring) (fun h => absurd (Finset.mem_range.mpr hi) h), mul_comm]

/-- a column is not orthogonal to every column of an orthonormal matrix -/
theorem ortho_meets {E : Nat → Nat → ℝ} {L : Nat} (ho : OrthoCols E L) (v : Nat → ℝ)
    (hv : ∑ t ∈ Finset.range L, v t ^ 2 = 1) : ∃ i < L, ∑ r ∈ Finset.range L, E r i * v r ≠ 0 := by
  by_contra hc
  push Not at hc
  have p := ssa_parseval ho v
  rw [hv, Finset.sum_eq_zero (fun i hi => by rw [hc i (Finset.mem_range.mp hi)]; norm_num)] at p
  norm_num at p

/-- the mobility does not see the sign -/
theorem mob_sign {L : Nat} (h2 : 2 ≤ L) {u v : Nat → ℝ} {s : ℝ} (hs : s ^ 2 = 1) (huv : ∀ r < L, v r = s * u r) :
    mobVal ((List.range L).map (fun r => (fin (v r) : Fl ℝ))) = mobVal ((List.range L).map (fun r => (fin (u r) : Fl ℝ))) := by
  rw [mobVal_range L h2, mobVal_range L h2]
  have e1 : ∑ t ∈ Finset.range (L - 1), (v (t + 1) - v t) ^ 2 = ∑ t ∈ Finset.range (L - 1), (u (t + 1) - u t) ^ 2 := by
    apply Finset.sum_congr rfl
    intro t ht
    have := Finset.mem_range.mp ht
    rw [huv _ (by omega), huv _ (by omega), ← mul_sub, mul_pow, hs, one_mul]
  have e2 : ∑ t ∈ Finset.range L, v t ^ 2 = ∑ t ∈ Finset.range L, u t ^ 2 := by
    apply Finset.sum_congr rfl
    intro t ht
    rw [huv _ (Finset.mem_range.mp ht), mul_pow, hs, one_mul]
  rw [e1, e2]

/-- **C209** when no two eigenvectors share a non-zero eigenvalue of the lag-covariance matrix, `ssa` returns the same
values for every orthonormal matrix of eigenvectors the solver may choose. -/
theorem C209_solver_independent (x : List ℝ) (fs f : Fl ℝ) (L : Nat) (ceilInt : Fl ℝ → Py Int)
    (eigh eigh' : Mat (Fl ℝ) → Py (Mat (Fl ℝ))) (E E' : Nat → Nat → ℝ) (lam lam' : Nat → ℝ)
    (h : SsaCall x fs f L ceilInt eigh E) (h' : SsaCall x fs f L ceilInt eigh' E')
    (ho : OrthoCols E L) (ho' : OrthoCols E' L) (he : EigenPairs x L E lam) (he' : EigenPairs x L E' lam')
    (hs : ∀ i < L, ∀ j < L, i ≠ j → lam i = lam j → lam i = 0) :
    ssa ceilInt eigh' (x.map fin) fs f = ssa ceilInt eigh (x.map fin) fs f := by
  rw [ssa_eq h, ssa_eq h']
  congr 1
  apply List.map_congr_left
  intro m _
  congr 2
  have h2 := h.two
  set X : Nat → ℝ := fun j => x.getD j 0 with hX
  set k := x.length - L + 1 with hk
  set th := refMob L fs f
  -- columns with eigenvalue 0 do not contribute
  have null : ∀ (E : Nat → Nat → ℝ) (lam : Nat → ℝ), OrthoCols E L → EigenPairs x L E lam → ∀ i < L, lam i = 0 → ∀ c < k,
      ∑ t ∈ Finset.range L, E t i * X (c + t) = 0 := by
    intro E lam ho he i hi h0 c hc
    have := eig_energy ho he hi
    rw [h0] at this
    have := (Finset.sum_eq_zero_iff_of_nonneg (fun c _ => sq_nonneg _)).mp this c (Finset.mem_range.mpr hc)
    exact pow_eq_zero_iff (two_ne_zero) |>.mp this
  have cut : ∀ (E : Nat → Nat → ℝ) (lam : Nat → ℝ), OrthoCols E L → EigenPairs x L E lam → ∀ r, ∀ c < k,
      projected E L (keptSet E L th) X r c =
        ∑ i ∈ (keptSet E L th).filter (fun i => lam i ≠ 0), E r i * ∑ t ∈ Finset.range L, E t i * X (c + t) := by
    intro E lam ho he r c hc
    unfold projected
    rw [Finset.sum_filter]
    apply Finset.sum_congr rfl
    intro i hi
    have hil : i < L := by
      simp only [keptSet, Finset.mem_filter, Finset.mem_range] at hi
      exact hi.1
    by_cases h0 : lam i = 0
    · rw [null E lam ho he i hil h0 c hc, if_neg (by simpa using h0), mul_zero]
    · rw [if_pos h0]
  -- matching of the columns with non-zero eigenvalue
  have match' : ∀ j < L, lam' j ≠ 0 → ∃ i < L, lam i ≠ 0 ∧ lam' j = lam i ∧ ∃ s : ℝ, s ^ 2 = 1 ∧ ∀ r < L, E' r j = s * E r i := by
    intro j hj h0
    obtain ⟨i, hi, hne⟩ := ortho_meets ho (fun r => E' r j) (col_norm ho' j hj)
    obtain ⟨hl, s, hs2, hr⟩ := eig_parallel ho ho' he he' hs hi hj hne (Or.inr h0)
    exact ⟨i, hi, by rwa [← hl], hl, s, hs2, hr⟩
  choose! φ hφ using match'
  have pr : ∀ r < L, ∀ c < k, projected E' L (keptSet E' L th) X r c = projected E L (keptSet E L th) X r c := by
    intro r hr c hc
    rw [cut E lam ho he r c hc, cut E' lam' ho' he' r c hc]
    have memE' : ∀ j, j ∈ (keptSet E' L th).filter (fun i => lam' i ≠ 0) ↔ (j < L ∧
        (mobVal ((List.range L).map (fun r => (fin (E' r j) : Fl ℝ))) ≤. th) = true) ∧ lam' j ≠ 0 := by
      intro j; simp only [keptSet, Finset.mem_filter, Finset.mem_range]
    have memE : ∀ j, j ∈ (keptSet E L th).filter (fun i => lam i ≠ 0) ↔ (j < L ∧
        (mobVal ((List.range L).map (fun r => (fin (E r j) : Fl ℝ))) ≤. th) = true) ∧ lam j ≠ 0 := by
      intro j; simp only [keptSet, Finset.mem_filter, Finset.mem_range]
    apply Finset.sum_bij (fun j _ => φ j)
    · intro j hj
      rw [memE'] at hj
      obtain ⟨hi, h0, -, s, hs2, hr⟩ := hφ j hj.1.1 hj.2
      rw [memE]
      exact ⟨⟨hi, by rw [← mob_sign h2 hs2 hr]; exact hj.1.2⟩, h0⟩
    · intro a ha b hb hab
      rw [memE'] at ha hb
      obtain ⟨hi, -, -, s, hs2, hsr⟩ := hφ a ha.1.1 ha.2
      obtain ⟨-, -, -, s', hs2', hsr'⟩ := hφ b hb.1.1 hb.2
      by_contra hn
      have o := ho' a ha.1.1 b hb.1.1
      rw [if_neg hn] at o
      have : ∑ r ∈ Finset.range L, E' r a * E' r b = s * s' := by
        rw [Finset.sum_congr rfl (g := fun r => s * s' * E r (φ a) ^ 2), ← Finset.mul_sum, col_norm ho _ hi, mul_one]
        intro r hr
        have hr := Finset.mem_range.mp hr
        rw [hsr r hr, hsr' r hr, ← hab]; ring
      rw [this] at o
      have : (s * s') ^ 2 = 1 := by rw [mul_pow, hs2, hs2', one_mul]
      rw [o] at this
      norm_num at this
    · intro i hi
      rw [memE] at hi
      obtain ⟨j, hj, hne⟩ := ortho_meets ho' (fun r => E r i) (col_norm ho i hi.1.1)
      have hne' : ∑ r ∈ Finset.range L, E r i * E' r j ≠ 0 := by
        rw [Finset.sum_congr rfl (fun r _ => mul_comm (E r i) (E' r j))]; exact hne
      obtain ⟨hl, s, hs2, hsr⟩ := eig_parallel ho ho' he he' hs hi.1.1 hj hne' (Or.inl hi.2)
      have hj0 : lam' j ≠ 0 := by rw [hl]; exact hi.2
      refine ⟨j, ?_, ?_⟩
      · rw [memE']
        exact ⟨⟨hj, by rw [mob_sign h2 hs2 hsr]; exact hi.1.2⟩, hj0⟩
      · obtain ⟨hi', h0', hl', -⟩ := hφ j hj hj0
        by_contra hn
        exact h0' (hs _ hi' i hi.1.1 hn (by rw [← hl', hl]))
    · intro j hj
      rw [memE'] at hj
      obtain ⟨-, -, -, s, hs2, hsr⟩ := hφ j hj.1.1 hj.2
      have : ∑ t ∈ Finset.range L, E' t j * X (c + t) = s * ∑ t ∈ Finset.range L, E t (φ j) * X (c + t) := by
        rw [Finset.mul_sum]
        apply Finset.sum_congr rfl
        intro t ht
        rw [hsr t (Finset.mem_range.mp ht)]; ring
      rw [this, hsr r hr]
      generalize ∑ t ∈ Finset.range L, E t (φ j) * X (c + t) = T
      calc s * E r (φ j) * (s * T) = s ^ 2 * (E r (φ j) * T) := by ring
        _ = _ := by rw [hs2, one_mul]
  unfold antiDiagMean
  congr 1
  apply Finset.sum_congr rfl
  intro p hp
  exact pr _ (Finset.mem_filter.mp hp).2.1 _ (Finset.mem_filter.mp hp).2.2

/-- the rotation by 45° -/
noncomputable def rot2 (r i : Nat) : ℝ := (if r = 1 ∧ i = 1 then -1 else 1) / √2

theorem rot2_ortho : OrthoCols rot2 2 := by
  have h2 : (√2 : ℝ) * √2 = 2 := Real.mul_self_sqrt (by norm_num)
  have h0 : (√2 : ℝ) ≠ 0 := by positivity
  intro i hi j hj
  interval_cases i <;> interval_cases j <;> simp [Finset.sum_range_succ, rot2] <;> field_simp <;> rw [sq, h2] <;> norm_num

theorem id2_ortho : OrthoCols (fun r i => if r = i then 1 else 0) 2 := by
  intro i hi j hj
  interval_cases i <;> interval_cases j <;> norm_num [Finset.sum_range_succ]

/-- a signal whose lag-covariance matrix `[[5, 4], [4, 5]]` has the simple eigenvalues 9 and 1 -/
example : EigenPairs [1, 2, 1] 2 rot2 (fun i => if i = 0 then 9 else 1) ∧
    ∀ i < 2, ∀ j < 2, i ≠ j → (if i = 0 then (9 : ℝ) else 1) = (if j = 0 then 9 else 1) → (if i = 0 then (9 : ℝ) else 1) = 0 := by
  constructor
  · intro r hr i hi
    interval_cases r <;> interval_cases i <;> norm_num [Finset.sum_range_succ, rot2, lagCov] <;> ring
  · intro i hi j hj
    interval_cases i <;> interval_cases j <;> norm_num

/-! ## A repeated eigenvalue -/

theorem aroundK_half_exact : aroundK (1 / 2 : ℝ) 4 = 1 / 2 := by
  unfold aroundK
  have : (1 / 2 : ℝ) * 10 ^ (4 : ℤ) = ((5000 : ℤ) : ℝ) := by norm_num
  rw [this, rint_int]; norm_num

/-- the reference mobility of a window of two samples at 1.5 samples per period -/
theorem refMob_two : refMob 2 (fin (3 / 2)) (fin 1) = fin (√3 / 2 / (433 / 1000)) := by
  unfold refMob
  have hpi : (PyMath.pi : Fl ℝ) = fin Real.pi := rfl
  have hsin : Real.sin (4 * Real.pi / 3) = -(√3 / 2) := by
    rw [show 4 * Real.pi / 3 = Real.pi / 3 + Real.pi by ring, Real.sin_add_pi, Real.sin_pi_div_three]
  have e : (List.range 2).map (fun t => PyMath.sin (lit 2 *. PyMath.pi *. ofNat t *. fin 1 /. fin (3 / 2))) =
      (List.range 2).map (fun t : Nat => (fin (if t = 0 then 0 else -(√3 / 2)) : Fl ℝ)) := by
    apply List.map_congr_left
    intro t ht
    have ht := List.mem_range.mp ht
    rw [hpi]
    simp only [lit_eq, ofNat_eq, pmul_fin]
    rw [pdiv_fin (by norm_num)]
    show fin (Real.sin _) = _
    congr 1
    interval_cases t
    · simp
    · rw [if_neg (by norm_num), ← hsin]
      congr 1
      push_cast
      ring
  have h3 : (√3 / 2 : ℝ) ^ 2 = 3 / 4 := by rw [div_pow, Real.sq_sqrt (by norm_num)]; norm_num
  have hs : √(3 / 4 : ℝ) = √3 / 2 := by rw [← h3, Real.sqrt_sq (by positivity)]
  have hl : (1.732 : ℝ) < √3 := Real.lt_sqrt_of_sq_lt (by norm_num)
  have har : aroundK (√3 / 2 / 2) 4 = 433 / 1000 := by
    unfold aroundK
    have hr : rint (√3 / 2 / 2 * 10 ^ (4 : ℤ)) = 4330 := by
      have hb := abs_le.mp (abs_rint_sub (√3 / 2 / 2 * 10 ^ (4 : ℤ)))
      have hv : √3 / 2 / 2 * 10 ^ (4 : ℤ) = 2500 * √3 := by
        have : (10 : ℝ) ^ (4 : ℤ) = 10000 := by norm_num
        rw [this]; ring
      rw [hv] at hb ⊢
      have h2 : (4329 : ℝ) < (rint (2500 * √3) : ℝ) := by linarith [hb.1]
      have h2' : 4330 ≤ rint (2500 * √3) := by
        have : (4329 : ℤ) < rint (2500 * √3) := by exact_mod_cast h2
        omega
      have hu2 : √3 < (1.7321 : ℝ) := (Real.sqrt_lt' (by norm_num)).mpr (by norm_num)
      have h4 : (rint (2500 * √3) : ℝ) < 4331 := by linarith [hb.2]
      have : rint (2500 * √3) < 4331 := by exact_mod_cast h4
      omega
    rw [hr]; norm_num
  rw [e, mobVal_range 2 le_rfl (fun t => if t = 0 then 0 else -(√3 / 2))]
  simp only [Finset.sum_range_succ, Finset.sum_range_zero]
  norm_num [hs]
  rw [show (√3 / 2) ^ 2 = (3 / 4 : ℝ) from h3, hs, har, pdiv_fin (by norm_num)]

theorem kept_id2 : keptSet (fun r i => if r = i then 1 else 0) 2 (refMob 2 (fin (3 / 2)) (fin 1)) = {0, 1} := by
  have hl : (1.732 : ℝ) < √3 := Real.lt_sqrt_of_sq_lt (by norm_num)
  have hle : (2 : ℝ) ≤ √3 / 2 / (433 / 1000) := by
    rw [le_div_iff₀ (by norm_num)]; linarith
  ext i
  simp only [keptSet, Finset.mem_filter, Finset.mem_range, Finset.mem_insert, Finset.mem_singleton, refMob_two]
  constructor
  · intro h
    omega
  · intro h
    refine ⟨by omega, ?_⟩
    rw [mobVal_range 2 le_rfl]
    have e : ((fin (√(∑ t ∈ Finset.range (2 - 1), ((if t + 1 = i then (1 : ℝ) else 0) - if t = i then 1 else 0) ^ 2) /
        ((2 - 1 : Nat) : ℝ)) : Fl ℝ) /. fin (aroundK (√(∑ t ∈ Finset.range 2, (if t = i then (1 : ℝ) else 0) ^ 2) / (2 : Nat)) 4)) =
        fin 2 := by
      rcases h with rfl | rfl <;>
      · norm_num [Finset.sum_range_succ]
        rw [aroundK_half_exact, pdiv_fin (by norm_num)]
        norm_num
    rw [e]
    exact decide_eq_true hle

theorem kept_rot2 : keptSet rot2 2 (refMob 2 (fin (3 / 2)) (fin 1)) = {0} := by
  have hu : √3 < (1.7321 : ℝ) := (Real.sqrt_lt' (by norm_num)).mpr (by norm_num)
  have hl2 : (1.41 : ℝ) < √2 := Real.lt_sqrt_of_sq_lt (by norm_num)
  have hgt : √3 / 2 / (433 / 1000) < √2 / (1 / 2) := by
    rw [div_lt_div_iff₀ (by norm_num) (by norm_num)]; linarith
  have hge : 0 ≤ √3 / 2 / (433 / 1000) := by positivity
  have hsq : (√2 : ℝ) ^ 2 = 2 := Real.sq_sqrt (by norm_num)
  have h0 : (√2 : ℝ) ≠ 0 := by positivity
  have e0 : mobVal ((List.range 2).map (fun r => (fin (rot2 r 0) : Fl ℝ))) = fin 0 := by
    rw [mobVal_range 2 le_rfl (fun r => rot2 r 0), col_norm rot2_ortho 0 (by norm_num)]
    norm_num [Finset.sum_range_succ, rot2]
    rw [aroundK_half_exact, pdiv_fin (by norm_num)]
    norm_num
  have e1 : mobVal ((List.range 2).map (fun r => (fin (rot2 r 1) : Fl ℝ))) = fin (√2 / (1 / 2)) := by
    rw [mobVal_range 2 le_rfl (fun r => rot2 r 1), col_norm rot2_ortho 1 (by norm_num)]
    have : ∑ t ∈ Finset.range (2 - 1), (rot2 (t + 1) 1 - rot2 t 1) ^ 2 = 2 := by
      norm_num [Finset.sum_range_succ, rot2]
      rw [show (-1 / √2 - (√2)⁻¹ : ℝ) ^ 2 = 4 / √2 ^ 2 by field_simp; ring, hsq]
      norm_num
    rw [this, Real.sqrt_one]
    norm_num
    rw [aroundK_half_exact, pdiv_fin (by norm_num)]
  ext i
  simp only [keptSet, Finset.mem_filter, Finset.mem_range, Finset.mem_singleton, refMob_two]
  constructor
  · rintro ⟨hi, hm⟩
    by_contra hne
    have : i = 1 := by omega
    subst this
    rw [e1] at hm
    have : √2 / (1 / 2) ≤ √3 / 2 / (433 / 1000) := of_decide_eq_true hm
    linarith
  · rintro rfl
    rw [e0]
    exact ⟨by norm_num, decide_eq_true hge⟩

/-- `ssa` of `[1, 0, 1]` with the eigenvectors of the rotation by 45° -/
theorem ssa_rot2 : ssa (fun _ => .ok 2) (fun _ => .ok ⟨2, 2, fun r c => fin (rot2 r c)⟩) [fin 1, fin 0, fin 1] (fin (3 / 2)) (fin 1) =
    .ok [fin (1 / 2), fin (1 / 2), fin (1 / 2)] := by
  have hsq : (√2 : ℝ) ^ 2 = 2 := Real.sq_sqrt (by norm_num)
  have h0 : (√2 : ℝ) ≠ 0 := by positivity
  have hc' : SsaCall [1, 0, 1] (fin (3 / 2)) (fin 1) 2 (fun _ => .ok 2)
      (fun _ => .ok ⟨2, 2, fun r c => fin (rot2 r c)⟩) rot2 := ⟨le_rfl, by norm_num, rfl, rfl⟩
  have := ssa_eq hc'
  rw [kept_rot2] at this
  rw [show ([fin 1, fin 0, fin 1] : List (Fl ℝ)) = ([1, 0, 1] : List ℝ).map fin from rfl, this]
  have e : ∀ r < 2, ∀ c < 2, projected rot2 2 {0} (fun j => [(1 : ℝ), 0, 1].getD j 0) r c = 1 / 2 := by
    intro r hr c hc
    interval_cases r <;> interval_cases c <;> simp [projected, Finset.sum_range_succ, rot2] <;> field_simp <;> rw [hsq]
  have am : ∀ m < 3, antiDiagMean (projected rot2 2 {0} (fun j => [(1 : ℝ), 0, 1].getD j 0)) 2 2 m = 1 / 2 := by
    intro m hm
    rw [← antiDiagMean_hankel (fun _ => (1 / 2 : ℝ)) 2 2 m (by norm_num) (by norm_num) (by omega)]
    unfold antiDiagMean
    congr 1
    exact Finset.sum_congr rfl (fun p hp => e _ (Finset.mem_filter.mp hp).2.1 _ (Finset.mem_filter.mp hp).2.2)
  have hr3 : List.range ([1, 0, 1] : List ℝ).length = [0, 1, 2] := rfl
  rw [hr3]
  simp only [List.map_cons, List.map_nil, List.length_cons, List.length_nil]
  rw [show 0 + 1 + 1 + 1 - 2 + 1 = 2 from rfl, am 0 (by norm_num), am 1 (by norm_num), am 2 (by norm_num),
    aroundK_half_exact]

/-- **C209** (a repeated eigenvalue) the lag-covariance matrix of the signal `[1, 0, 1]` with a window of two samples is the
identity.  The identity and the rotation by 45° are both orthonormal matrices of eigenvectors, and `ssa` returns the signal
itself with the one and three values 1/2 with the other. -/
theorem C209_ambiguous : ∃ (ceilInt : Fl ℝ → Py Int) (eigh eigh' : Mat (Fl ℝ) → Py (Mat (Fl ℝ))) (E E' : Nat → Nat → ℝ),
    SsaCall [1, 0, 1] (fin (3 / 2)) (fin 1) 2 ceilInt eigh E ∧ SsaCall [1, 0, 1] (fin (3 / 2)) (fin 1) 2 ceilInt eigh' E' ∧
    OrthoCols E 2 ∧ OrthoCols E' 2 ∧ EigenPairs [1, 0, 1] 2 E (fun _ => 1) ∧ EigenPairs [1, 0, 1] 2 E' (fun _ => 1) ∧
    ssa ceilInt eigh [fin 1, fin 0, fin 1] (fin (3 / 2)) (fin 1) = .ok [fin 1, fin 0, fin 1] ∧
    ssa ceilInt eigh' [fin 1, fin 0, fin 1] (fin (3 / 2)) (fin 1) = .ok [fin (1 / 2), fin (1 / 2), fin (1 / 2)] := by
  have hc : SsaCall [1, 0, 1] (fin (3 / 2)) (fin 1) 2 (fun _ => .ok 2)
      (fun _ => .ok ⟨2, 2, fun r c => fin (if r = c then (1 : ℝ) else 0)⟩) (fun r c => if r = c then 1 else 0) :=
    ⟨le_rfl, by norm_num, rfl, rfl⟩
  have hc' : SsaCall [1, 0, 1] (fin (3 / 2)) (fin 1) 2 (fun _ => .ok 2)
      (fun _ => .ok ⟨2, 2, fun r c => fin (rot2 r c)⟩) rot2 := ⟨le_rfl, by norm_num, rfl, rfl⟩
  refine ⟨_, _, _, _, _, hc, hc', id2_ortho, rot2_ortho, ?_, ?_, ?_, ?_⟩
  · intro r hr i hi
    interval_cases r <;> interval_cases i <;> norm_num [Finset.sum_range_succ, lagCov]
  · intro r hr i hi
    interval_cases r <;> interval_cases i <;> norm_num [Finset.sum_range_succ, rot2, lagCov]
  · have := ssa_eq hc
    rw [kept_id2] at this
    rw [show ([fin 1, fin 0, fin 1] : List (Fl ℝ)) = ([1, 0, 1] : List ℝ).map fin from rfl, this]
    have e : ∀ r < 2, ∀ c, projected (fun r i => if r = i then (1 : ℝ) else 0) 2 {0, 1} (fun j => [(1 : ℝ), 0, 1].getD j 0) r c =
        (fun j => [(1 : ℝ), 0, 1].getD j 0) (c + r) := by
      intro r hr c
      interval_cases r <;> simp [projected]
    have am : ∀ m < 3, antiDiagMean (projected (fun r i => if r = i then (1 : ℝ) else 0) 2 {0, 1}
        (fun j => [(1 : ℝ), 0, 1].getD j 0)) 2 2 m = [(1 : ℝ), 0, 1].getD m 0 := by
      intro m hm
      rw [← antiDiagMean_hankel (fun j => [(1 : ℝ), 0, 1].getD j 0) 2 2 m (by norm_num) (by norm_num) (by omega)]
      unfold antiDiagMean
      congr 1
      exact Finset.sum_congr rfl (fun p hp => e _ (Finset.mem_filter.mp hp).2.1 _)
    have a1 : aroundK (1 : ℝ) 4 = 1 := by
      have := aroundK_half_exact
      unfold aroundK
      have : (1 : ℝ) * 10 ^ (4 : ℤ) = ((10000 : ℤ) : ℝ) := by norm_num
      rw [this, rint_int]; norm_num
    have hr3 : List.range ([1, 0, 1] : List ℝ).length = [0, 1, 2] := rfl
    rw [hr3]
    simp only [List.map_cons, List.map_nil, List.length_cons, List.length_nil]
    rw [show 0 + 1 + 1 + 1 - 2 + 1 = 2 from rfl, am 0 (by norm_num), am 1 (by norm_num), am 2 (by norm_num)]
    simp [a1, aroundK_zero]
  · exact ssa_rot2

/-! ## The alternating signal -/

/-- the reference mobility, written out -/
theorem refMob_eq (L : Nat) (h3 : 3 ≤ L) (f : ℝ) (hf : f ≠ 0) :
    refMob L (fin (L * f)) (fin f) =
      (fin (√(∑ t ∈ Finset.range (L - 1), (Real.sin (2 * Real.pi * (t + 1 : Nat) / L) - Real.sin (2 * Real.pi * t / L)) ^ 2) /
        ((L - 1 : Nat) : ℝ)) : Fl ℝ) /. fin (aroundK (√((L : ℝ) / 2) / L) 4) := by
  have hL0 : (0 : ℝ) < L := by
    have : 0 < L := by omega
    exact_mod_cast this
  unfold refMob
  have e : (List.range L).map (fun t => PyMath.sin (lit 2 *. PyMath.pi *. ofNat t *. fin f /. fin (L * f))) =
      (List.range L).map (fun t : Nat => (fin (Real.sin (2 * Real.pi * t / L)) : Fl ℝ)) := by
    apply List.map_congr_left
    intro t _
    have hpi : (PyMath.pi : Fl ℝ) = fin Real.pi := rfl
    rw [hpi]
    simp only [lit_eq, ofNat_eq, pmul_fin]
    rw [pdiv_fin (mul_ne_zero hL0.ne' hf)]
    show fin (Real.sin _) = _
    congr 2
    push_cast
    field_simp
  rw [e, mobVal_range L (by omega) (fun t => Real.sin (2 * Real.pi * t / L)), sum_sin_sq L h3]

theorem aroundK_near (y : ℝ) : |aroundK y 4 - y| ≤ 1 / 20000 := by
  unfold aroundK
  have hp : (10 : ℝ) ^ (4 : ℤ) = 10000 := by norm_num
  rw [hp]
  have := abs_le.mp (abs_rint_sub (y * 10000))
  rw [abs_le]
  constructor
  · rw [neg_le_sub_iff_le_add, ← sub_le_iff_le_add, le_div_iff₀ (by norm_num)]
    linarith [this.1]
  · rw [sub_le_iff_le_add, div_le_iff₀ (by norm_num)]
    linarith [this.2]

/-- **C210** `ssa` erases the fastest oscillation: the alternating signal `a, -a, a, …` becomes zero, for every window of 5 to
10⁸ samples and whichever eigenvectors the solver chooses (a constant signal is kept, `C152_constant`). -/
theorem C210_alternating_erased (n : Nat) (a f : ℝ) (hf : f ≠ 0) (L : Nat) (h5 : 5 ≤ L) (hL : L ≤ 100000000)
    (ceilInt : Fl ℝ → Py Int) (eigh : Mat (Fl ℝ) → Py (Mat (Fl ℝ))) (E : Nat → Nat → ℝ)
    (h : SsaCall ((List.range n).map (fun m => (-1) ^ m * a)) (fin (L * f)) (fin f) L ceilInt eigh E) (ho : OrthoCols E L)
    (he : EigenCols ((List.range n).map (fun m => (-1) ^ m * a)) L E) :
    ssa ceilInt eigh (((List.range n).map (fun m => (-1) ^ m * a)).map fin) (fin (L * f)) (fin f) =
      .ok (List.replicate n (fin 0)) := by
  by_cases hbig : 20000 ≤ L
  · have := C152_long_window _ f hf L hbig hL ceilInt eigh E h ho
    rw [this, List.length_map, List.length_range]
  push Not at hbig
  have hfit := h.fits
  rw [List.length_map, List.length_range] at hfit
  have hX : ∀ j < n, ((List.range n).map (fun m => (-1 : ℝ) ^ m * a)).getD j 0 = (-1) ^ j * a := by
    intro j hj
    rw [List.getD_eq_getElem?_getD, List.getElem?_map, List.getElem?_range hj]; rfl
  set S := keptSet E L (refMob L (fin (L * f)) (fin f)) with hS
  have hL0 : (0 : ℝ) < L := by
    have : 0 < L := by omega
    exact_mod_cast this
  have hL5 : (5 : ℝ) ≤ L := by exact_mod_cast h5
  have hlt : (L : ℝ) < 20000 := by exact_mod_cast hbig
  have hm1 : ∀ m : Nat, ((-1 : ℝ) ^ m) * (-1) ^ m = 1 := by
    intro m; rw [← mul_pow]; norm_num
  -- a column not orthogonal to the alternating vector alternates, hence is not kept
  have hdrop : a ≠ 0 → ∀ i ∈ S, ∑ t ∈ Finset.range L, (-1) ^ t * E t i = 0 := by
    intro ha i hiS
    by_contra hb
    rw [hS, keptSet, Finset.mem_filter, Finset.mem_range] at hiS
    obtain ⟨hi, hm⟩ := hiS
    obtain ⟨lam, hl⟩ := he
    have key : ∀ r < L, ((n - L + 1 : Nat) : ℝ) * (a * a) * (-1) ^ r * ∑ t ∈ Finset.range L, (-1) ^ t * E t i = lam i * E r i := by
      intro r hr
      rw [← hl r hr i hi, Finset.mul_sum]
      apply Finset.sum_congr rfl
      intro t ht
      have ht := Finset.mem_range.mp ht
      rw [← mul_assoc]
      congr 1
      rw [List.length_map, List.length_range, Finset.sum_congr rfl (g := fun _ => a * a * (-1) ^ r * (-1) ^ t)]
      · rw [Finset.sum_const, Finset.card_range, nsmul_eq_mul]; ring
      · intro c hc
        have := Finset.mem_range.mp hc
        rw [hX _ (by omega), hX _ (by omega), pow_add, pow_add]
        calc (-1 : ℝ) ^ c * (-1) ^ r * a * ((-1) ^ c * (-1) ^ t * a) =
              ((-1) ^ c * (-1) ^ c) * (a * a * (-1) ^ r * (-1) ^ t) := by ring
          _ = _ := by rw [hm1, one_mul]
    have hk0 : ((n - L + 1 : Nat) : ℝ) ≠ 0 := by
      have : n - L + 1 ≠ 0 := by omega
      exact_mod_cast this
    have hlam : lam i ≠ 0 := by
      intro h0
      have := key 0 (by omega)
      rw [h0, zero_mul, pow_zero, mul_one] at this
      exact (mul_ne_zero (mul_ne_zero hk0 (mul_ne_zero ha ha)) hb) this
    have halt : ∀ r < L, E r i = (-1) ^ r * E 0 i := by
      intro r hr
      apply mul_left_cancel₀ hlam
      rw [← key r hr, show lam i * ((-1) ^ r * E 0 i) = (-1) ^ r * (lam i * E 0 i) by ring, ← key 0 (by omega)]
      ring
    have hnorm : (L : ℝ) * E 0 i ^ 2 = 1 := by
      rw [← col_norm ho i hi, Finset.sum_congr rfl (g := fun _ => E 0 i ^ 2)]
      · rw [Finset.sum_const, Finset.card_range, nsmul_eq_mul]
      · intro r hr
        rw [halt r (Finset.mem_range.mp hr), mul_pow, ← pow_mul, mul_comm r 2, pow_mul]; norm_num
    have hdiff : ∑ t ∈ Finset.range (L - 1), (E (t + 1) i - E t i) ^ 2 = ((L - 1 : Nat) : ℝ) * (4 / L) := by
      rw [Finset.sum_congr rfl (g := fun _ => 4 * E 0 i ^ 2)]
      · rw [Finset.sum_const, Finset.card_range, nsmul_eq_mul]
        congr 1
        rw [eq_div_iff hL0.ne']; linarith
      · intro t ht
        have := Finset.mem_range.mp ht
        rw [halt (t + 1) (by omega), halt t (by omega), pow_succ]
        calc ((-1 : ℝ) ^ t * -1 * E 0 i - (-1) ^ t * E 0 i) ^ 2 = ((-1) ^ t * (-1) ^ t) * (4 * E 0 i ^ 2) := by ring
          _ = _ := by rw [hm1, one_mul]
    -- the two mobilities
    have hA1 := abs_le.mp (aroundK_near (1 / (L : ℝ)))
    have hA1pos : 0 < aroundK (1 / (L : ℝ)) 4 := aroundK_above (one_div_lt_one_div_of_lt hL0 hlt)
    set s := √(L : ℝ) with hs
    have hs2 : s ^ 2 = L := Real.sq_sqrt hL0.le
    have hs0 : 0 < s := Real.sqrt_pos.mpr hL0
    have hs142 : s < 142 := (Real.sqrt_lt' (by norm_num)).mpr (by linarith)
    have hhalf : 0.7071 * s ≤ √((L : ℝ) / 2) := by
      apply Real.le_sqrt_of_sq_le
      rw [mul_pow, hs2]; linarith
    have hA2 := abs_le.mp (aroundK_near (√((L : ℝ) / 2) / L))
    have hA2l : 0.7071 / s - 1 / 20000 ≤ aroundK (√((L : ℝ) / 2) / L) 4 := by
      have : 0.7071 / s ≤ √((L : ℝ) / 2) / L := by
        rw [div_le_div_iff₀ hs0 hL0]
        calc 0.7071 * (L : ℝ) = (0.7071 * s) * s := by rw [← hs2]; ring
          _ ≤ _ := mul_le_mul_of_nonneg_right hhalf hs0.le
      linarith [hA2.1]
    have hA2s : 0.7 ≤ s * aroundK (√((L : ℝ) / 2) / L) 4 := by
      have := mul_le_mul_of_nonneg_left hA2l hs0.le
      rw [mul_sub, mul_div_cancel₀ _ hs0.ne'] at this
      linarith
    have hA2pos : 0 < aroundK (√((L : ℝ) / 2) / L) 4 := by
      by_contra hc
      push Not at hc
      have := mul_nonpos_of_nonneg_of_nonpos hs0.le hc
      linarith
    rw [mobVal_range L (by omega), col_norm ho i hi, Real.sqrt_one, pdiv_fin hA1pos.ne', refMob_eq L (by omega) f hf,
      pdiv_fin hA2pos.ne', hdiff] at hm
    have hm := of_decide_eq_true hm
    have href : ∑ t ∈ Finset.range (L - 1), (Real.sin (2 * Real.pi * (t + 1 : Nat) / L) - Real.sin (2 * Real.pi * t / L)) ^ 2 ≤
        ((L - 1 : Nat) : ℝ) * (2 * Real.pi / L) ^ 2 := by
      have : ∀ t ∈ Finset.range (L - 1), (Real.sin (2 * Real.pi * (t + 1 : Nat) / L) - Real.sin (2 * Real.pi * t / L)) ^ 2 ≤
          (2 * Real.pi / L) ^ 2 := by
        intro t _
        have hb := Real.abs_sin_sub_sin_le (2 * Real.pi * (t + 1 : Nat) / L) (2 * Real.pi * t / L)
        have hd : 2 * Real.pi * (t + 1 : Nat) / L - 2 * Real.pi * t / L = 2 * Real.pi / L := by push_cast; ring
        rw [hd, abs_of_pos (show (0 : ℝ) < 2 * Real.pi / L by positivity)] at hb
        exact sq_le_sq' (abs_le.mp hb).1 (abs_le.mp hb).2
      have := Finset.sum_le_sum this
      rwa [Finset.sum_const, Finset.card_range, nsmul_eq_mul] at this
    set w : ℝ := ((L - 1 : Nat) : ℝ) with hw
    have hw0 : 0 < w := by
      have : 0 < L - 1 := by omega
      rw [hw]; exact_mod_cast this
    set A1 := aroundK (1 / (L : ℝ)) 4
    set A2 := aroundK (√((L : ℝ) / 2) / L) 4
    have hup : √(∑ t ∈ Finset.range (L - 1), (Real.sin (2 * Real.pi * (t + 1 : Nat) / L) - Real.sin (2 * Real.pi * t / L)) ^ 2) ≤
        √w * (2 * Real.pi / L) := by
      refine (Real.sqrt_le_sqrt href).trans (le_of_eq ?_)
      rw [Real.sqrt_mul hw0.le, Real.sqrt_sq (by positivity)]
    have hlo : √(w * (4 / L)) = √w * (2 / s) := by
      rw [Real.sqrt_mul hw0.le, show (4 / L : ℝ) = (2 / s) ^ 2 by rw [div_pow, hs2]; norm_num, Real.sqrt_sq (by positivity)]
    have hm2 : √w * (2 / s) / w / A1 ≤ √w * (2 * Real.pi / L) / w / A2 := by
      rw [← hlo]
      exact hm.trans (by gcongr)
    have hsw : 0 < √w := Real.sqrt_pos.mpr hw0
    have hm3 : s * A2 ≤ Real.pi * A1 := by
      have e1 : √w * (2 / s) / w / A1 = (√w * 2 / w) * (1 / (s * A1)) := by field_simp
      have e2 : √w * (2 * Real.pi / L) / w / A2 = (√w * 2 / w) * (Real.pi / (L * A2)) := by field_simp
      rw [e1, e2] at hm2
      have := le_of_mul_le_mul_left hm2 (by positivity)
      rw [div_le_div_iff₀ (by positivity) (by positivity), one_mul, ← hs2] at this
      have : s * (s * A2) ≤ s * (Real.pi * A1) := by linarith
      exact le_of_mul_le_mul_left this hs0
    have hA1u : A1 ≤ 1 / 5 + 1 / 20000 := by
      have : 1 / (L : ℝ) ≤ 1 / 5 := one_div_le_one_div_of_le (by norm_num) hL5
      linarith [hA1.2]
    have : Real.pi * A1 ≤ 3.15 * (1 / 5 + 1 / 20000) :=
      mul_le_mul Real.pi_lt_d2.le hA1u hA1pos.le (by norm_num)
    linarith
  have hproj : ∀ r, ∀ c < n - L + 1, projected E L S (fun j => ((List.range n).map (fun m => (-1 : ℝ) ^ m * a)).getD j 0) r c = 0 := by
    intro r c hc
    unfold projected
    apply Finset.sum_eq_zero
    intro i hi
    have e1 : ∑ t ∈ Finset.range L, E t i * (fun j => ((List.range n).map (fun m => (-1 : ℝ) ^ m * a)).getD j 0) (c + t) =
        (-1) ^ c * a * ∑ t ∈ Finset.range L, (-1) ^ t * E t i := by
      rw [Finset.mul_sum]
      apply Finset.sum_congr rfl
      intro t ht
      have := Finset.mem_range.mp ht
      simp only
      rw [hX _ (by omega), pow_add]; ring
    rw [e1]
    by_cases ha : a = 0
    · rw [ha]; ring
    · rw [hdrop ha i hi]; ring
  rw [ssa_eq h, ← hS]
  congr 1
  rw [List.length_map, List.length_range, List.map_congr_left (g := fun _ => (fin 0 : Fl ℝ))]
  · rw [List.map_const', List.length_range]
  · intro m hm
    congr 1
    have : antiDiagMean (projected E L S (fun j => ((List.range n).map (fun m => (-1 : ℝ) ^ m * a)).getD j 0)) L (n - L + 1) m = 0 := by
      unfold antiDiagMean
      rw [Finset.sum_eq_zero, zero_div]
      intro p hp
      exact hproj _ _ (Finset.mem_filter.mp hp).2.2
    rw [this, aroundK_zero]

/-- for every length, amplitude and window there is a call meeting the assumptions -/
example (n : Nat) (a : ℝ) (L : Nat) (h5 : 5 ≤ L) (hn : L ≤ n) : ∃ ceilInt eigh E,
    SsaCall ((List.range n).map (fun m => (-1) ^ m * a)) (fin (L * 1)) (fin 1) L ceilInt eigh E ∧ OrthoCols E L ∧
      EigenCols ((List.range n).map (fun m => (-1) ^ m * a)) L E := by
  obtain ⟨E, lam, ho, he⟩ := C209_exists ((List.range n).map (fun m => (-1) ^ m * a)) L
  exact ⟨fun _ => .ok L, fun _ => .ok ⟨L, L, fun r c => fin (E r c)⟩, E,
    ⟨by omega, by simpa using hn, rfl, rfl⟩, ho, lam, he⟩

end Proadv.Props
