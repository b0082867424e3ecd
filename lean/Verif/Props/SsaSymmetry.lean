import Verif.Props.SsaUnique

/-!
# C230: singular spectrum analysis under scaling and reversal of time
-/

set_option linter.unusedSectionVars false

namespace Proadv.Props

open Proadv Series Fl Replace

theorem getD_reverse (x : List ℝ) (j : Nat) (h : j < x.length) : x.reverse.getD j 0 = x.getD (x.length - 1 - j) 0 := by
  rw [List.getD_eq_getElem?_getD, List.getD_eq_getElem?_getD, List.getElem?_reverse h]

theorem getD_scale_ssa (k : ℝ) (x : List ℝ) (j : Nat) : (x.map (fun v => k * v)).getD j 0 = k * x.getD j 0 := by
  rw [List.getD_eq_getElem?_getD, List.getD_eq_getElem?_getD, List.getElem?_map]
  cases x[j]? <;> simp

/-! ## Reversal -/

theorem lagCov_reverse (x : List ℝ) (L : Nat) (hL : L ≤ x.length) (r t : Nat) (hr : r < L) (ht : t < L) :
    lagCov x.reverse L r t = lagCov x L (L - 1 - r) (L - 1 - t) := by
  unfold lagCov
  rw [List.length_reverse, ← Finset.sum_range_reflect]
  apply Finset.sum_congr rfl
  intro c hc
  have := Finset.mem_range.mp hc
  rw [getD_reverse x _ (by omega), getD_reverse x _ (by omega)]
  congr 2 <;> omega

theorem eigen_reverse {x : List ℝ} {L : Nat} (hL : L ≤ x.length) {E : Nat → Nat → ℝ} {lam : Nat → ℝ}
    (he : EigenPairs x L E lam) : EigenPairs x.reverse L (fun r i => E (L - 1 - r) i) lam := by
  intro r hr i hi
  rw [← he (L - 1 - r) (by omega) i hi, ← Finset.sum_range_reflect]
  apply Finset.sum_congr rfl
  intro t ht
  have := Finset.mem_range.mp ht
  rw [lagCov_reverse x L hL r _ hr (by omega)]
  simp only
  rw [show L - 1 - (L - 1 - t) = t by omega]

theorem ortho_reverse {L : Nat} {E : Nat → Nat → ℝ} (ho : OrthoCols E L) : OrthoCols (fun r i => E (L - 1 - r) i) L := by
  intro i hi j hj
  rw [← ho i hi j hj]
  exact Finset.sum_range_reflect (fun r => E r i * E r j) L

theorem mob_reverse {L : Nat} (h2 : 2 ≤ L) (v : Nat → ℝ) :
    mobVal ((List.range L).map (fun r => (fin (v (L - 1 - r)) : Fl ℝ))) = mobVal ((List.range L).map (fun r => (fin (v r) : Fl ℝ))) := by
  rw [mobVal_range L h2, mobVal_range L h2, Finset.sum_range_reflect (fun r => v r ^ 2) L]
  have : ∑ t ∈ Finset.range (L - 1), (v (L - 1 - (t + 1)) - v (L - 1 - t)) ^ 2 = ∑ t ∈ Finset.range (L - 1), (v (t + 1) - v t) ^ 2 := by
    rw [← Finset.sum_range_reflect (fun t => (v (t + 1) - v t) ^ 2)]
    apply Finset.sum_congr rfl
    intro t ht
    have := Finset.mem_range.mp ht
    rw [show L - 1 - (t + 1) = L - 1 - 1 - t by omega, show L - 1 - 1 - t + 1 = L - 1 - t by omega]
    ring
  rw [this]

theorem keptSet_reverse {L : Nat} (h2 : 2 ≤ L) (E : Nat → Nat → ℝ) (th : Fl ℝ) :
    keptSet (fun r i => E (L - 1 - r) i) L th = keptSet E L th := by
  unfold keptSet
  congr 1
  funext i
  rw [mob_reverse h2 (fun r => E r i)]

theorem projected_reverse {x : List ℝ} {L : Nat} (hL : L ≤ x.length) (E : Nat → Nat → ℝ) (S : Finset Nat) (r c : Nat)
    (hc : c < x.length - L + 1) :
    projected (fun r i => E (L - 1 - r) i) L S (fun j => x.reverse.getD j 0) r c =
      projected E L S (fun j => x.getD j 0) (L - 1 - r) (x.length - L - c) := by
  unfold projected
  apply Finset.sum_congr rfl
  intro i _
  congr 1
  rw [← Finset.sum_range_reflect (fun t => E t i * x.getD (x.length - L - c + t) 0)]
  apply Finset.sum_congr rfl
  intro t ht
  have := Finset.mem_range.mp ht
  simp only
  rw [getD_reverse x _ (by omega)]
  congr 2
  omega

theorem antiDiagMean_reverse (M M' : Nat → Nat → ℝ) (a b m : Nat) (ha : 1 ≤ a) (hb : 1 ≤ b) (hm : m ≤ a + b - 2)
    (h : ∀ r < a, ∀ c < b, M' r c = M (a - 1 - r) (b - 1 - c)) :
    antiDiagMean M' a b m = antiDiagMean M a b (a + b - 2 - m) := by
  unfold antiDiagMean
  congr 1
  · apply Finset.sum_bij' (fun p _ => (a - 1 - p.1, b - 1 - p.2)) (fun p _ => (a - 1 - p.1, b - 1 - p.2))
    · rintro ⟨p, q⟩ hp
      simp only [Finset.mem_filter, Finset.mem_antidiagonal] at hp ⊢
      omega
    · rintro ⟨p, q⟩ hp
      simp only [Finset.mem_filter, Finset.mem_antidiagonal] at hp ⊢
      omega
    · rintro ⟨p, q⟩ hp
      simp only [Finset.mem_filter, Finset.mem_antidiagonal] at hp
      simp only [Prod.mk.injEq]
      omega
    · rintro ⟨p, q⟩ hp
      simp only [Finset.mem_filter, Finset.mem_antidiagonal] at hp
      simp only [Prod.mk.injEq]
      omega
    · rintro ⟨p, q⟩ hp
      simp only [Finset.mem_filter, Finset.mem_antidiagonal] at hp
      exact h p hp.2.1 q hp.2.2
  · congr 1
    apply Finset.card_bij' (fun p _ => (a - 1 - p.1, b - 1 - p.2)) (fun p _ => (a - 1 - p.1, b - 1 - p.2))
    · rintro ⟨p, q⟩ hp
      simp only [Finset.mem_filter, Finset.mem_antidiagonal] at hp ⊢
      omega
    · rintro ⟨p, q⟩ hp
      simp only [Finset.mem_filter, Finset.mem_antidiagonal] at hp ⊢
      omega
    · rintro ⟨p, q⟩ hp
      simp only [Finset.mem_filter, Finset.mem_antidiagonal] at hp
      simp only [Prod.mk.injEq]
      omega
    · rintro ⟨p, q⟩ hp
      simp only [Finset.mem_filter, Finset.mem_antidiagonal] at hp
      simp only [Prod.mk.injEq]
      omega

/-- **C230** the filter has no direction: whatever orthonormal eigenvectors the solver chooses for a recording and for the
reversed recording, `ssa` of the reversed recording is the reversed result, provided no two eigenvectors share a non-zero
eigenvalue. -/
theorem C230_reversal (x : List ℝ) (fs f : Fl ℝ) (L : Nat) (ceilInt : Fl ℝ → Py Int)
    (eigh eigh' : Mat (Fl ℝ) → Py (Mat (Fl ℝ))) (E E' : Nat → Nat → ℝ) (lam lam' : Nat → ℝ)
    (h : SsaCall x fs f L ceilInt eigh E) (h' : SsaCall x.reverse fs f L ceilInt eigh' E')
    (ho : OrthoCols E L) (ho' : OrthoCols E' L) (he : EigenPairs x L E lam) (he' : EigenPairs x.reverse L E' lam')
    (hs : ∀ i < L, ∀ j < L, i ≠ j → lam i = lam j → lam i = 0) :
    ∃ out, ssa ceilInt eigh (x.map fin) fs f = .ok out ∧ ssa ceilInt eigh' (x.reverse.map fin) fs f = .ok out.reverse := by
  refine ⟨_, ssa_eq h, ?_⟩
  have hL := h.fits
  have h2 := h.two
  have hc : SsaCall x.reverse fs f L ceilInt (fun _ => .ok ⟨L, L, fun r c => fin (E (L - 1 - r) c)⟩)
      (fun r i => E (L - 1 - r) i) := ⟨h2, by rw [List.length_reverse]; exact hL, h.ceil, rfl⟩
  rw [C209_solver_independent x.reverse fs f L ceilInt _ eigh' _ E' lam lam' hc h' (ortho_reverse ho) ho'
    (eigen_reverse hL he) he' hs, ssa_eq hc, keptSet_reverse h2]
  congr 1
  apply List.ext_getElem
  · simp
  · intro m h1 _
    have hm : m < x.length := by simpa using h1
    simp only [List.getElem_map, List.getElem_range, List.getElem_reverse, List.length_map, List.length_range,
      List.length_reverse]
    congr 2
    rw [antiDiagMean_reverse (projected E L (keptSet E L (refMob L fs f)) (fun j => x.getD j 0)) _ L (x.length - L + 1) m
      (by omega) (by omega) (by omega) (fun r hr c hc => by
        rw [projected_reverse hL E _ r c hc]
        congr 1)]
    congr 1
    omega

/-! ## Scaling -/

theorem eigen_scale {x : List ℝ} {L : Nat} {E : Nat → Nat → ℝ} {lam : Nat → ℝ} (k : ℝ) (he : EigenPairs x L E lam) :
    EigenPairs (x.map (fun v => k * v)) L E (fun i => k ^ 2 * lam i) := by
  intro r hr i hi
  rw [mul_assoc, ← he r hr i hi, Finset.mul_sum]
  apply Finset.sum_congr rfl
  intro t _
  unfold lagCov
  rw [List.length_map, ← mul_assoc, Finset.mul_sum]
  congr 1
  apply Finset.sum_congr rfl
  intro c _
  rw [getD_scale_ssa, getD_scale_ssa]; ring

/-- **C230** up to the rounding of the result to four decimals `ssa` commutes with a change of unit: there are numbers `y`
such that the call returns them rounded, and the call on `k` times the recording returns `k y` rounded. -/
theorem C230_unit (k : ℝ) (hk : k ≠ 0) (x : List ℝ) (fs f : Fl ℝ) (L : Nat) (ceilInt : Fl ℝ → Py Int)
    (eigh eigh' : Mat (Fl ℝ) → Py (Mat (Fl ℝ))) (E E' : Nat → Nat → ℝ) (lam lam' : Nat → ℝ)
    (h : SsaCall x fs f L ceilInt eigh E) (h' : SsaCall (x.map (fun v => k * v)) fs f L ceilInt eigh' E')
    (ho : OrthoCols E L) (ho' : OrthoCols E' L) (he : EigenPairs x L E lam)
    (he' : EigenPairs (x.map (fun v => k * v)) L E' lam')
    (hs : ∀ i < L, ∀ j < L, i ≠ j → lam i = lam j → lam i = 0) :
    ∃ y : Nat → ℝ,
      ssa ceilInt eigh (x.map fin) fs f = .ok ((List.range x.length).map (fun m => fin (aroundK (y m) 4))) ∧
      ssa ceilInt eigh' ((x.map (fun v => k * v)).map fin) fs f =
        .ok ((List.range x.length).map (fun m => fin (aroundK (k * y m) 4))) := by
  refine ⟨_, ssa_eq h, ?_⟩
  have hc : SsaCall (x.map (fun v => k * v)) fs f L ceilInt (fun _ => .ok ⟨L, L, fun r c => fin (E r c)⟩) E :=
    ⟨h.two, by rw [List.length_map]; exact h.fits, h.ceil, rfl⟩
  rw [C209_solver_independent _ fs f L ceilInt _ eigh' E E' _ lam' hc h' ho ho' (eigen_scale k he) he'
    (fun i hi j hj hij hl => by
      have : lam i = lam j := mul_left_cancel₀ (pow_ne_zero 2 hk) hl
      rw [hs i hi j hj hij this, mul_zero]), ssa_eq hc, List.length_map]
  congr 1
  apply List.map_congr_left
  intro m _
  congr 2
  unfold antiDiagMean
  rw [← mul_div_assoc, Finset.mul_sum]
  congr 1
  apply Finset.sum_congr rfl
  intro p _
  unfold projected
  rw [Finset.mul_sum]
  apply Finset.sum_congr rfl
  intro i _
  rw [mul_left_comm k]
  congr 1
  rw [Finset.mul_sum]
  apply Finset.sum_congr rfl
  intro t _
  simp only
  rw [getD_scale_ssa]; ring

/-- **C230** changing the sign of the recording changes the sign of the result, exactly. -/
theorem C230_sign (x : List ℝ) (fs f : Fl ℝ) (L : Nat) (ceilInt : Fl ℝ → Py Int)
    (eigh eigh' : Mat (Fl ℝ) → Py (Mat (Fl ℝ))) (E E' : Nat → Nat → ℝ) (lam lam' : Nat → ℝ)
    (h : SsaCall x fs f L ceilInt eigh E) (h' : SsaCall (x.map (fun v => -1 * v)) fs f L ceilInt eigh' E')
    (ho : OrthoCols E L) (ho' : OrthoCols E' L) (he : EigenPairs x L E lam)
    (he' : EigenPairs (x.map (fun v => -1 * v)) L E' lam')
    (hs : ∀ i < L, ∀ j < L, i ≠ j → lam i = lam j → lam i = 0) :
    ∃ out : List ℝ, ssa ceilInt eigh (x.map fin) fs f = .ok (out.map fin) ∧
      ssa ceilInt eigh' ((x.map (fun v => -1 * v)).map fin) fs f = .ok ((out.map (fun v => -v)).map fin) := by
  obtain ⟨y, h1, h2⟩ := C230_unit (-1) (by norm_num) x fs f L ceilInt eigh eigh' E E' lam lam' h h' ho ho' he he' hs
  refine ⟨(List.range x.length).map (fun m => aroundK (y m) 4), ?_, ?_⟩
  · rw [h1, List.map_map]; rfl
  · rw [h2, List.map_map, List.map_map]
    congr 1
    apply List.map_congr_left
    intro m _
    simp only [Function.comp, neg_one_mul, aroundK_neg]

/-- an orthonormal matrix with the direction (1, 2) as its first column -/
noncomputable def dir2 (r i : Nat) : ℝ := (if i = 0 then (if r = 0 then 1 else 2) else (if r = 0 then 2 else -1)) / √5

/-- the recording 1, 2, 4 and its reverse: the eigenvalues 25 and 0 are distinct, the eigenvectors are those of the theorem -/
example : OrthoCols dir2 2 ∧ EigenPairs [1, 2, 4] 2 dir2 (fun i => if i = 0 then 25 else 0) ∧
    EigenPairs [4, 2, 1] 2 (fun r i => dir2 (2 - 1 - r) i) (fun i => if i = 0 then 25 else 0) ∧
    ∀ i < 2, ∀ j < 2, i ≠ j → (if i = 0 then (25 : ℝ) else 0) = (if j = 0 then 25 else 0) → (if i = 0 then (25 : ℝ) else 0) = 0 := by
  have h5 : (√5 : ℝ) ^ 2 = 5 := Real.sq_sqrt (by norm_num)
  have h0 : (√5 : ℝ) ≠ 0 := by positivity
  have he : EigenPairs [1, 2, 4] 2 dir2 (fun i => if i = 0 then 25 else 0) := by
    intro r hr i hi
    interval_cases r <;> interval_cases i <;> norm_num [Finset.sum_range_succ, dir2, lagCov] <;> ring
  refine ⟨?_, he, eigen_reverse (x := [1, 2, 4]) (by norm_num) he, ?_⟩
  · intro i hi j hj
    interval_cases i <;> interval_cases j <;> simp [Finset.sum_range_succ, dir2] <;> field_simp <;> rw [h5] <;> norm_num
  · intro i hi j hj
    interval_cases i <;> interval_cases j <;> norm_num

end Proadv.Props
