import Verif.Props.SsaUnique

set_option linter.unusedSectionVars false

/-!
# C218: how far the result of `ssa` is from its input
-/

namespace Proadv.Props

open Proadv Series Fl Replace

/-- energy of the windows of length `L` along column `i` of `E`; for an eigenvector of the lag matrix this is its eigenvalue -/
noncomputable def colEnergy (E : Nat → Nat → ℝ) (L k : Nat) (x : Nat → ℝ) (i : Nat) : ℝ :=
  ∑ c ∈ Finset.range k, (∑ t ∈ Finset.range L, E t i * x (c + t)) ^ 2

/-- energy of a projected window -/
theorem projected_energy {E : Nat → Nat → ℝ} {L : Nat} (h : OrthoCols E L) {S : Finset Nat} (hS : S ⊆ Finset.range L)
    (x : Nat → ℝ) (c : Nat) :
    ∑ r ∈ Finset.range L, projected E L S x r c ^ 2 = ∑ i ∈ S, (∑ t ∈ Finset.range L, E t i * x (c + t)) ^ 2 := by
  set a : Nat → ℝ := fun i => ∑ t ∈ Finset.range L, E t i * x (c + t) with ha
  have e1 : ∀ r, projected E L S x r c ^ 2 = ∑ i ∈ S, ∑ j ∈ S, a i * a j * (E r i * E r j) := by
    intro r
    unfold projected
    rw [sq, Finset.sum_mul_sum]
    refine Finset.sum_congr rfl (fun s _ => Finset.sum_congr rfl (fun t _ => by ring))
  simp only [e1]
  rw [Finset.sum_comm]
  apply Finset.sum_congr rfl
  intro i hi
  rw [Finset.sum_comm]
  have : ∀ j ∈ S, ∑ r ∈ Finset.range L, a i * a j * (E r i * E r j) = if i = j then a i * a j else 0 := by
    intro j hj
    rw [← Finset.mul_sum, h i (Finset.mem_range.mp (hS hi)) j (Finset.mem_range.mp (hS hj))]
    split_ifs <;> ring
  rw [Finset.sum_congr rfl this, Finset.sum_ite_eq, if_pos hi]
  ring

/-- the averaged projection on the columns of `S` has at most the energy of these columns -/
theorem antiDiag_energy {E : Nat → Nat → ℝ} {L k : Nat} (hk : 1 ≤ k) (hL : 1 ≤ L) (ho : OrthoCols E L) {S : Finset Nat}
    (hS : S ⊆ Finset.range L) (X : Nat → ℝ) :
    ∑ m ∈ Finset.range (L + k - 1), (windowsAt L (L + k - 1) m : ℝ) * antiDiagMean (projected E L S X) L k m ^ 2 ≤
      ∑ i ∈ S, colEnergy E L k X i := by
  have wl : ∀ m ∈ Finset.range (L + k - 1), (windowsAt L (L + k - 1) m : ℝ) * antiDiagMean (projected E L S X) L k m ^ 2 ≤
      ∑ p ∈ (Finset.antidiagonal m).filter (fun p => p.1 < L ∧ p.2 < k), projected E L S X p.1 p.2 ^ 2 := by
    intro m hm
    rw [windowsAt_eq L k m (by omega)]
    unfold antiDiagMean
    set A := (Finset.antidiagonal m).filter (fun p => p.1 < L ∧ p.2 < k)
    have hc : 0 < A.card := by
      have hcard : A.card = _ := antiDiag_card L k m
      have := Finset.mem_range.mp hm
      omega
    have hc' : (0 : ℝ) < A.card := by exact_mod_cast hc
    have cs := sq_sum_le_card_mul_sum_sq (s := A) (f := fun p => projected E L S X p.1 p.2)
    have e2 : (A.card : ℝ) * ((∑ p ∈ A, projected E L S X p.1 p.2) / A.card) ^ 2 =
        (∑ p ∈ A, projected E L S X p.1 p.2) ^ 2 / A.card := by
      generalize (∑ p ∈ A, projected E L S X p.1 p.2) = T
      generalize (A.card : ℝ) = a at hc'
      rw [div_pow, sq a]
      field_simp
    rw [e2, div_le_iff₀ hc']
    linarith
  refine le_trans (Finset.sum_le_sum wl) ?_
  rw [sum_antidiag (fun p => projected E L S X p.1 p.2 ^ 2), Finset.sum_comm]
  apply le_of_eq
  unfold colEnergy
  rw [Finset.sum_comm (s := S)]
  apply Finset.sum_congr rfl
  intro c _
  exact projected_energy ho hS X c

theorem antiDiagMean_sub (f g : Nat → Nat → ℝ) (L k m : Nat) :
    antiDiagMean (fun r c => f r c - g r c) L k m = antiDiagMean f L k m - antiDiagMean g L k m := by
  unfold antiDiagMean
  rw [Finset.sum_sub_distrib, sub_div]

/-- the part of a window outside the kept columns -/
theorem projected_compl {E : Nat → Nat → ℝ} {L : Nat} (h : OrthoCols E L) {S : Finset Nat} (hS : S ⊆ Finset.range L)
    (x : Nat → ℝ) {r : Nat} (hr : r < L) (c : Nat) :
    projected E L (Finset.range L \ S) x r c = x (c + r) - projected E L S x r c := by
  have e : projected E L (Finset.range L) x r c = x (c + r) := by
    unfold projected
    simp only [Finset.mul_sum]
    rw [Finset.sum_comm]
    have : ∀ t ∈ Finset.range L, ∑ i ∈ Finset.range L, E r i * (E t i * x (c + t)) = if r = t then x (c + t) else 0 := by
      intro t ht
      have e1 : ∀ i ∈ Finset.range L, E r i * (E t i * x (c + t)) = (E r i * E t i) * x (c + t) := fun i _ => by ring
      rw [Finset.sum_congr rfl e1, ← Finset.sum_mul, rows_of_cols h r hr t (Finset.mem_range.mp ht)]
      split_ifs <;> ring
    rw [Finset.sum_congr rfl this, Finset.sum_ite_eq, if_pos (Finset.mem_range.mpr hr)]
  rw [← e]
  unfold projected
  rw [← Finset.sum_sdiff hS]
  ring

/-- the error in terms of the energy along the dropped columns, for any orthonormal columns -/
theorem ssa_error (x : List ℝ) (fs f : Fl ℝ) (L : Nat) (ceilInt : Fl ℝ → Py Int) (eigh : Mat (Fl ℝ) → Py (Mat (Fl ℝ)))
    (E : Nat → Nat → ℝ) (h : SsaCall x fs f L ceilInt eigh E) (ho : OrthoCols E L) :
    ∃ y : Nat → ℝ, ssa ceilInt eigh (x.map fin) fs f = .ok ((List.range x.length).map (fun m => fin (aroundK (y m) 4))) ∧
      ∑ m ∈ Finset.range x.length, (windowsAt L x.length m : ℝ) * (x.getD m 0 - y m) ^ 2 ≤
        ∑ i ∈ Finset.range L \ keptSet E L (refMob L fs f), colEnergy E L (x.length - L + 1) (fun j => x.getD j 0) i := by
  refine ⟨_, ssa_eq h, ?_⟩
  have h2 := h.two
  have hf := h.fits
  set k := x.length - L + 1 with hk
  have e : x.length = L + k - 1 := by omega
  set X : Nat → ℝ := fun j => x.getD j 0 with hX
  set S := keptSet E L (refMob L fs f) with hS
  have hsub : S ⊆ Finset.range L := Finset.filter_subset _ _
  rw [e]
  refine le_trans (le_of_eq ?_) (antiDiag_energy (k := k) (by omega) (by omega) ho Finset.sdiff_subset X)
  apply Finset.sum_congr rfl
  intro m hm
  have hm' := Finset.mem_range.mp hm
  have e1 : antiDiagMean (projected E L (Finset.range L \ S) X) L k m =
      antiDiagMean (fun r c => X (c + r) - projected E L S X r c) L k m := by
    unfold antiDiagMean
    congr 1
    apply Finset.sum_congr rfl
    intro p hp
    exact projected_compl ho hsub X (Finset.mem_filter.mp hp).2.1 _
  rw [e1, antiDiagMean_sub, antiDiagMean_hankel X L k m (by omega) (by omega) hm']

/-- **C218** What `ssa` removes: with `y` the filtered signal before the final rounding and the squares weighted by the number of windows
a sample lies in, `∑ w (x - y)²` is at most the sum of the eigenvalues of the lag-covariance matrix whose eigenvectors are dropped. -/
theorem C218_error (x : List ℝ) (fs f : Fl ℝ) (L : Nat) (ceilInt : Fl ℝ → Py Int) (eigh : Mat (Fl ℝ) → Py (Mat (Fl ℝ)))
    (E : Nat → Nat → ℝ) (lam : Nat → ℝ) (h : SsaCall x fs f L ceilInt eigh E) (ho : OrthoCols E L) (he : EigenPairs x L E lam) :
    ∃ y : Nat → ℝ, ssa ceilInt eigh (x.map fin) fs f = .ok ((List.range x.length).map (fun m => fin (aroundK (y m) 4))) ∧
      ∑ m ∈ Finset.range x.length, (windowsAt L x.length m : ℝ) * (x.getD m 0 - y m) ^ 2 ≤
        ∑ i ∈ Finset.range L \ keptSet E L (refMob L fs f), lam i := by
  obtain ⟨y, h1, h2⟩ := ssa_error x fs f L ceilInt eigh E h ho
  refine ⟨y, h1, h2.trans (le_of_eq (Finset.sum_congr rfl (fun i hi => ?_)))⟩
  exact eig_energy ho he (Finset.mem_range.mp (Finset.mem_sdiff.mp hi).1)

/-- **C218** A signal is left alone, up to the final rounding to four decimals, when every window is orthogonal to every eigenvector that
is dropped. -/
theorem C218_fixed (x : List ℝ) (fs f : Fl ℝ) (L : Nat) (ceilInt : Fl ℝ → Py Int) (eigh : Mat (Fl ℝ) → Py (Mat (Fl ℝ)))
    (E : Nat → Nat → ℝ) (h : SsaCall x fs f L ceilInt eigh E) (ho : OrthoCols E L)
    (hd : ∀ i < L, i ∉ keptSet E L (refMob L fs f) → ∀ c < x.length - L + 1, ∑ t ∈ Finset.range L, E t i * x.getD (c + t) 0 = 0) :
    ssa ceilInt eigh (x.map fin) fs f = .ok (x.map (fun v => fin (aroundK v 4))) := by
  have h2 := h.two
  have hf := h.fits
  obtain ⟨y, h1, hy⟩ := ssa_error x fs f L ceilInt eigh E h ho
  rw [h1]
  have hz : ∑ i ∈ Finset.range L \ keptSet E L (refMob L fs f), colEnergy E L (x.length - L + 1) (fun j => x.getD j 0) i = 0 := by
    apply Finset.sum_eq_zero
    intro i hi
    have hi' := Finset.mem_sdiff.mp hi
    unfold colEnergy
    apply Finset.sum_eq_zero
    intro c hc
    rw [hd i (Finset.mem_range.mp hi'.1) hi'.2 c (Finset.mem_range.mp hc)]
    ring
  rw [hz] at hy
  have hnn : ∀ m ∈ Finset.range x.length, 0 ≤ (windowsAt L x.length m : ℝ) * (x.getD m 0 - y m) ^ 2 := fun m _ => by positivity
  have hall := (Finset.sum_eq_zero_iff_of_nonneg hnn).mp (le_antisymm hy (Finset.sum_nonneg hnn))
  congr 1
  apply List.ext_getElem
  · simp
  · intro m m1 m2
    have hm : m < x.length := by simpa using m2
    have := hall m (Finset.mem_range.mpr hm)
    have hw : (windowsAt L x.length m : ℝ) ≠ 0 := by
      have e : x.length = L + (x.length - L + 1) - 1 := by omega
      rw [e, windowsAt_eq L _ m (by omega)]
      have hcard := antiDiag_card L (x.length - L + 1) m
      have : 0 < ((Finset.antidiagonal m).filter (fun p => p.1 < L ∧ p.2 < x.length - L + 1)).card := by omega
      exact_mod_cast this.ne'
    rcases mul_eq_zero.mp this with h' | h'
    · exact absurd h' hw
    · have : y m = x.getD m 0 := by
        have := pow_eq_zero_iff (two_ne_zero) |>.mp h'
        linarith
      have hx : x.getD m 0 = x[m] := by simp [List.getD_eq_getElem?_getD, hm]
      simp only [List.getElem_map, List.getElem_range, this, hx]

/-- **C218** an eigenvector with eigenvalue 0 can be dropped without a trace: when every dropped eigenvalue is 0 the signal is returned
rounded to four decimals. -/
theorem C218_lossless (x : List ℝ) (fs f : Fl ℝ) (L : Nat) (ceilInt : Fl ℝ → Py Int) (eigh : Mat (Fl ℝ) → Py (Mat (Fl ℝ)))
    (E : Nat → Nat → ℝ) (lam : Nat → ℝ) (h : SsaCall x fs f L ceilInt eigh E) (ho : OrthoCols E L) (he : EigenPairs x L E lam)
    (hz : ∀ i < L, i ∉ keptSet E L (refMob L fs f) → lam i = 0) :
    ssa ceilInt eigh (x.map fin) fs f = .ok (x.map (fun v => fin (aroundK v 4))) := by
  refine C218_fixed x fs f L ceilInt eigh E h ho (fun i hi hd c hc => ?_)
  have e := eig_energy ho he hi
  rw [hz i hi hd] at e
  have := (Finset.sum_eq_zero_iff_of_nonneg (fun c _ => sq_nonneg _)).mp e c (Finset.mem_range.mpr hc)
  exact pow_eq_zero_iff two_ne_zero |>.mp this

/-- the hypotheses of `C218_lossless`: a constant signal, the eigenvector `(1, -1)/√2` is dropped -/
example (a : ℝ) : ∃ ceilInt eigh, SsaCall [a, a, a] (fin (3 / 2)) (fin 1) 2 ceilInt eigh rot2 ∧ OrthoCols rot2 2 ∧
    EigenPairs [a, a, a] 2 rot2 (fun i => if i = 0 then 4 * a ^ 2 else 0) ∧
    keptSet rot2 2 (refMob 2 (fin (3 / 2)) (fin 1)) = {0} := by
  refine ⟨fun _ => .ok 2, fun _ => .ok ⟨2, 2, fun r c => fin (rot2 r c)⟩, ⟨le_rfl, by norm_num, rfl, rfl⟩, rot2_ortho, ?_, kept_rot2⟩
  intro r hr i hi
  interval_cases r <;> interval_cases i <;> norm_num [Finset.sum_range_succ, rot2, lagCov] <;> ring

/-- **C218** (the bound is attained) for `[1, 0, 1]` with two samples per window `ssa` returns three values 1/2, drops the eigenvalue 1,
and `1·(1/2)² + 2·(1/2)² + 1·(1/2)² = 1`. -/
theorem C218_attained : ∃ (ceilInt : Fl ℝ → Py Int) (eigh : Mat (Fl ℝ) → Py (Mat (Fl ℝ))),
    SsaCall [1, 0, 1] (fin (3 / 2)) (fin 1) 2 ceilInt eigh rot2 ∧ OrthoCols rot2 2 ∧ EigenPairs [1, 0, 1] 2 rot2 (fun _ => 1) ∧
    ssa ceilInt eigh [fin 1, fin 0, fin 1] (fin (3 / 2)) (fin 1) = .ok [fin (1 / 2), fin (1 / 2), fin (1 / 2)] ∧
    ∑ m ∈ Finset.range 3, (windowsAt 2 3 m : ℝ) * (([1, 0, 1] : List ℝ).getD m 0 - 1 / 2) ^ 2 =
      ∑ _i ∈ Finset.range 2 \ keptSet rot2 2 (refMob 2 (fin (3 / 2)) (fin 1)), (1 : ℝ) := by
  refine ⟨fun _ => .ok 2, fun _ => .ok ⟨2, 2, fun r c => fin (rot2 r c)⟩, ⟨le_rfl, by norm_num, rfl, rfl⟩, rot2_ortho, ?_, ssa_rot2, ?_⟩
  · intro r hr i hi
    interval_cases r <;> interval_cases i <;> norm_num [Finset.sum_range_succ, rot2, lagCov]
  · rw [kept_rot2]
    have w : windowsAt 2 3 0 = 1 ∧ windowsAt 2 3 1 = 2 ∧ windowsAt 2 3 2 = 1 := by decide
    simp only [Finset.sum_range_succ, Finset.sum_range_zero, w.1, w.2.1, w.2.2]
    have : Finset.range 2 \ {0} = {1} := by decide
    rw [this]
    norm_num

end Proadv.Props
