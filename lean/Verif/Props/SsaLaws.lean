import Verif.Props.Ssa
import Verif.Props.Replace
import Verif.Props.SpectrumLaws
import Verif.Lemmas.Around
import Mathlib.LinearAlgebra.Matrix.NonsingularInverse
import Mathlib.Algebra.Order.Chebyshev

/-!
# C150–C153: what singular spectrum analysis does to a signal

`np.linalg.eigh` enters through its contract: orthonormal columns (`OrthoCols`), where needed eigenvectors.
-/

set_option linter.unusedSectionVars false

namespace Proadv.Props

open Proadv Series Fl Replace

/-! ## Specifications -/

/-- the columns of the `L × L` matrix `E` are orthonormal -/
def OrthoCols (E : Nat → Nat → ℝ) (L : Nat) : Prop :=
  ∀ i < L, ∀ j < L, ∑ r ∈ Finset.range L, E r i * E r j = if i = j then 1 else 0

/-- number of windows of length `L` in a record of length `n` that contain sample `m` -/
def windowsAt (L n m : Nat) : Nat := ((Finset.range (n - L + 1)).filter (fun c => c ≤ m ∧ m < c + L)).card

/-- all the assumptions on one call `ssa(x, fs, f)`: `L` is the window length, `E` the matrix returned by `eigh` -/
structure SsaCall (x : List ℝ) (fs f : Fl ℝ) (L : Nat) (ceilInt : Fl ℝ → Py Int) (eigh : Mat (Fl ℝ) → Py (Mat (Fl ℝ)))
    (E : Nat → Nat → ℝ) : Prop where
  two : 2 ≤ L
  fits : L ≤ x.length
  ceil : ceilInt (fs /. f) = .ok (L : Int)
  eig : eigh ((trajectory (x.map fin) L (x.length - L + 1)).mul (trajectory (x.map fin) L (x.length - L + 1)).tr) =
    .ok ⟨L, L, fun r c => fin (E r c)⟩

/-- mobility of the reference sine -/
noncomputable def refMob (L : Nat) (fs f : Fl ℝ) : Fl ℝ :=
  mobVal ((List.range L).map (fun t => PyMath.sin (lit 2 *. PyMath.pi *. ofNat t *. f /. fs)))

/-- the kept columns as a finite set -/
noncomputable def keptSet (E : Nat → Nat → ℝ) (L : Nat) (thresh : Fl ℝ) : Finset Nat :=
  (Finset.range L).filter (fun i => (mobVal ((List.range L).map (fun r => (fin (E r i) : Fl ℝ))) ≤. thresh) = true)

/-- the trajectory matrix projected on the span of the columns in `S` -/
noncomputable def projected (E : Nat → Nat → ℝ) (L : Nat) (S : Finset Nat) (x : Nat → ℝ) (r c : Nat) : ℝ :=
  ∑ i ∈ S, E r i * ∑ t ∈ Finset.range L, E t i * x (c + t)

theorem sum_filter_range (p : Nat → Bool) (g : Nat → ℝ) (L : Nat) :
    (((List.range L).filter p).map g).sum = ∑ i ∈ (Finset.range L).filter (fun i => p i = true), g i := by
  induction L with
  | zero => simp
  | succ L ih =>
    rw [List.range_succ, List.filter_append, List.map_append, List.sum_append, ih, Finset.range_add_one, Finset.filter_insert]
    by_cases h : p L = true
    · rw [if_pos h, Finset.sum_insert (by simp), List.filter_cons_of_pos h]
      simp [add_comm]
    · rw [if_neg h, List.filter_cons_of_neg h]
      simp

/-- what `ssa` returns: the rounded anti-diagonal means of the projected trajectory matrix -/
theorem ssa_eq {x : List ℝ} {fs f : Fl ℝ} {L : Nat} {ceilInt : Fl ℝ → Py Int} {eigh : Mat (Fl ℝ) → Py (Mat (Fl ℝ))}
    {E : Nat → Nat → ℝ} (h : SsaCall x fs f L ceilInt eigh E) :
    ssa ceilInt eigh (x.map fin) fs f = .ok ((List.range x.length).map (fun m => fin (aroundK (antiDiagMean
      (projected E L (keptSet E L (refMob L fs f)) (fun j => x.getD j 0)) L (x.length - L + 1) m) 4))) := by
  rw [C22_ssa_projection x fs f (refMob L fs f) L h.two h.fits ceilInt eigh E h.ceil h.eig rfl]
  congr 1
  apply List.map_congr_left
  intro m _
  congr 3
  funext r c
  unfold projected keptSet kept
  simp only [sum_filter_range]
  simp only [Finset.sum_mul, Finset.mul_sum]
  rw [Finset.sum_comm]
  apply Finset.sum_congr rfl
  intro i _
  apply Finset.sum_congr rfl
  intro t _
  ring

/-! ## Linear algebra -/

theorem rows_of_cols {E : Nat → Nat → ℝ} {L : Nat} (h : OrthoCols E L) :
    ∀ r < L, ∀ t < L, ∑ i ∈ Finset.range L, E r i * E t i = if r = t then 1 else 0 := by
  let M : Matrix (Fin L) (Fin L) ℝ := Matrix.of (fun r i => E r i)
  have h1 : M.transpose * M = 1 := by
    ext i j
    rw [Matrix.mul_apply, Matrix.one_apply]
    have := h i i.2 j j.2
    rw [Finset.sum_range] at this
    simp only [Matrix.transpose_apply, M, Matrix.of_apply, this, Fin.ext_iff]
  have h2 : M * M.transpose = 1 := mul_eq_one_comm.mp h1
  intro r hr t ht
  have := congrFun (congrFun h2 ⟨r, hr⟩) ⟨t, ht⟩
  rw [Matrix.mul_apply, Matrix.one_apply] at this
  rw [Finset.sum_range]
  simpa [M, Matrix.transpose_apply, Fin.ext_iff] using this

/-- Parseval for the columns -/
theorem ssa_parseval {E : Nat → Nat → ℝ} {L : Nat} (h : OrthoCols E L) (v : Nat → ℝ) :
    ∑ i ∈ Finset.range L, (∑ t ∈ Finset.range L, E t i * v t) ^ 2 = ∑ t ∈ Finset.range L, v t ^ 2 := by
  have hr := rows_of_cols h
  have e : ∀ i, (∑ t ∈ Finset.range L, E t i * v t) ^ 2 =
      ∑ s ∈ Finset.range L, ∑ t ∈ Finset.range L, v s * v t * (E s i * E t i) := by
    intro i
    rw [sq, Finset.sum_mul_sum]
    refine Finset.sum_congr rfl (fun s _ => Finset.sum_congr rfl (fun t _ => by ring))
  simp only [e]
  rw [Finset.sum_comm]
  apply Finset.sum_congr rfl
  intro s hs
  rw [Finset.sum_comm]
  have : ∀ t ∈ Finset.range L, ∑ i ∈ Finset.range L, v s * v t * (E s i * E t i) = if s = t then v s * v t else 0 := by
    intro t ht
    rw [← Finset.mul_sum, hr s (Finset.mem_range.mp hs) t (Finset.mem_range.mp ht)]
    split_ifs <;> ring
  rw [Finset.sum_congr rfl this, Finset.sum_ite_eq, if_pos hs]
  ring

/-- the projection does not lengthen a window -/
theorem projected_le {E : Nat → Nat → ℝ} {L : Nat} (h : OrthoCols E L) {S : Finset Nat} (hS : S ⊆ Finset.range L)
    (x : Nat → ℝ) (c : Nat) :
    ∑ r ∈ Finset.range L, projected E L S x r c ^ 2 ≤ ∑ t ∈ Finset.range L, x (c + t) ^ 2 := by
  rw [← ssa_parseval h (fun t => x (c + t))]
  set a : Nat → ℝ := fun i => ∑ t ∈ Finset.range L, E t i * x (c + t) with ha
  have e : ∑ r ∈ Finset.range L, projected E L S x r c ^ 2 = ∑ i ∈ S, a i ^ 2 := by
    have e1 : ∀ r, projected E L S x r c ^ 2 = ∑ i ∈ S, ∑ j ∈ S, a i * a j * (E r i * E r j) := by
      intro r
      unfold projected
      rw [sq, Finset.sum_mul_sum]
      refine Finset.sum_congr rfl (fun s _ => Finset.sum_congr rfl (fun t _ => by ring))
    simp only [e1]
    rw [Finset.sum_comm]
    apply Finset.sum_congr rfl
    intro i hi
    rw [Finset.sum_comm]
    have : ∀ j ∈ S, ∑ r ∈ Finset.range L, a i * a j * (E r i * E r j) = if i = j then a i * a j else 0 := by
      intro j hj
      rw [← Finset.mul_sum, h i (Finset.mem_range.mp (hS hi)) j (Finset.mem_range.mp (hS hj))]
      split_ifs <;> ring
    rw [Finset.sum_congr rfl this, Finset.sum_ite_eq, if_pos hi]
    ring
  rw [e]
  exact Finset.sum_le_sum_of_subset_of_nonneg hS (fun i _ _ => sq_nonneg _)

/-- the anti-diagonals partition the matrix -/
theorem sum_antidiag (f : Nat × Nat → ℝ) (L k : Nat) :
    ∑ m ∈ Finset.range (L + k - 1), ∑ p ∈ (Finset.antidiagonal m).filter (fun p => p.1 < L ∧ p.2 < k), f p =
      ∑ r ∈ Finset.range L, ∑ c ∈ Finset.range k, f (r, c) := by
  rw [← Finset.sum_product']
  rw [← Finset.sum_fiberwise_of_maps_to (s := Finset.range L ×ˢ Finset.range k) (t := Finset.range (L + k - 1))
    (g := fun p => p.1 + p.2)]
  · apply Finset.sum_congr rfl
    intro m _
    apply Finset.sum_congr _ (fun _ _ => rfl)
    ext p
    simp only [Finset.mem_filter, Finset.mem_antidiagonal, Finset.mem_product, Finset.mem_range]
    tauto
  · intro p hp
    simp only [Finset.mem_product, Finset.mem_range] at hp ⊢
    omega

theorem windowsAt_eq (L k m : Nat) (hk : 1 ≤ k) :
    windowsAt L (L + k - 1) m = ((Finset.antidiagonal m).filter (fun p => p.1 < L ∧ p.2 < k)).card := by
  unfold windowsAt
  rw [show L + k - 1 - L + 1 = k by omega]
  apply Finset.card_bij (fun c _ => (m - c, c))
  · intro c hc
    simp only [Finset.mem_filter, Finset.mem_range, Finset.mem_antidiagonal] at hc ⊢
    omega
  · intro a _ b _ h
    exact (Prod.mk.inj h).2
  · rintro ⟨r, c⟩ h
    simp only [Finset.mem_filter, Finset.mem_antidiagonal] at h
    refine ⟨c, ?_, ?_⟩
    · simp only [Finset.mem_filter, Finset.mem_range]; omega
    · simp only [Prod.mk.injEq, and_true]; omega

/-- **C150** `ssa` never increases the energy of the signal, counted with the number of windows each sample lies in: with
`y` the filtered signal before the final rounding to four decimals, `∑ w·y² ≤ ∑ w·x²`. -/
theorem C150_energy (x : List ℝ) (fs f : Fl ℝ) (L : Nat) (ceilInt : Fl ℝ → Py Int) (eigh : Mat (Fl ℝ) → Py (Mat (Fl ℝ)))
    (E : Nat → Nat → ℝ) (h : SsaCall x fs f L ceilInt eigh E) (ho : OrthoCols E L) :
    ∃ y : Nat → ℝ, ssa ceilInt eigh (x.map fin) fs f = .ok ((List.range x.length).map (fun m => fin (aroundK (y m) 4))) ∧
      ∑ m ∈ Finset.range x.length, (windowsAt L x.length m : ℝ) * y m ^ 2 ≤
        ∑ m ∈ Finset.range x.length, (windowsAt L x.length m : ℝ) * x.getD m 0 ^ 2 := by
  refine ⟨_, ssa_eq h, ?_⟩
  have h2 := h.two
  have hf := h.fits
  set k := x.length - L + 1 with hk
  have e : x.length = L + k - 1 := by omega
  set X : Nat → ℝ := fun j => x.getD j 0
  set S := keptSet E L (refMob L fs f) with hS
  have hsub : S ⊆ Finset.range L := Finset.filter_subset _ _
  rw [e]
  have wl : ∀ m ∈ Finset.range (L + k - 1), (windowsAt L (L + k - 1) m : ℝ) * antiDiagMean (projected E L S X) L k m ^ 2 ≤
      ∑ p ∈ (Finset.antidiagonal m).filter (fun p => p.1 < L ∧ p.2 < k), projected E L S X p.1 p.2 ^ 2 := by
    intro m hm
    rw [windowsAt_eq L k m (by omega)]
    unfold antiDiagMean
    set A := (Finset.antidiagonal m).filter (fun p => p.1 < L ∧ p.2 < k)
    have hc : 0 < A.card := by
      have hcard : A.card = _ := antiDiag_card L k m
      have := Finset.mem_range.mp hm
      omega
    have hc' : (0 : ℝ) < A.card := by exact_mod_cast hc
    have cs := sq_sum_le_card_mul_sum_sq (s := A) (f := fun p => projected E L S X p.1 p.2)
    have e2 : (A.card : ℝ) * ((∑ p ∈ A, projected E L S X p.1 p.2) / A.card) ^ 2 =
        (∑ p ∈ A, projected E L S X p.1 p.2) ^ 2 / A.card := by
      generalize (∑ p ∈ A, projected E L S X p.1 p.2) = T
      generalize (A.card : ℝ) = a at hc'
      rw [div_pow, sq a]
      field_simp
    rw [e2, div_le_iff₀ hc']
    linarith
  have wr : ∀ m ∈ Finset.range (L + k - 1), (windowsAt L (L + k - 1) m : ℝ) * X m ^ 2 =
      ∑ p ∈ (Finset.antidiagonal m).filter (fun p => p.1 < L ∧ p.2 < k), X (p.2 + p.1) ^ 2 := by
    intro m _
    rw [windowsAt_eq L k m (by omega), Finset.sum_congr rfl (g := fun _ => X m ^ 2)]
    · rw [Finset.sum_const, nsmul_eq_mul]
    · intro p hp
      have := Finset.mem_antidiagonal.mp (Finset.mem_filter.mp hp).1
      rw [show p.2 + p.1 = m by omega]
  refine le_trans (Finset.sum_le_sum wl) ?_
  rw [show ∑ m ∈ Finset.range (L + k - 1), (windowsAt L (L + k - 1) m : ℝ) * x.getD m 0 ^ 2 = _ from Finset.sum_congr rfl wr,
    sum_antidiag (fun p => projected E L S X p.1 p.2 ^ 2), sum_antidiag (fun p => X (p.2 + p.1) ^ 2),
    Finset.sum_comm, Finset.sum_comm (s := Finset.range L)]
  apply Finset.sum_le_sum
  intro c _
  exact projected_le ho hsub X c

/-- **C150** no filtered value exceeds `√L` times the largest absolute value of the signal (before rounding). -/
theorem C150_bound (x : List ℝ) (fs f : Fl ℝ) (L : Nat) (ceilInt : Fl ℝ → Py Int) (eigh : Mat (Fl ℝ) → Py (Mat (Fl ℝ)))
    (E : Nat → Nat → ℝ) (h : SsaCall x fs f L ceilInt eigh E) (ho : OrthoCols E L) (B : ℝ) (hB : ∀ v ∈ x, |v| ≤ B) :
    ∃ y : Nat → ℝ, ssa ceilInt eigh (x.map fin) fs f = .ok ((List.range x.length).map (fun m => fin (aroundK (y m) 4))) ∧
      ∀ m < x.length, |y m| ≤ √L * B := by
  refine ⟨_, ssa_eq h, ?_⟩
  have h2 := h.two
  have hf := h.fits
  intro m hm
  set k := x.length - L + 1 with hk
  set X : Nat → ℝ := fun j => x.getD j 0 with hX
  set S := keptSet E L (refMob L fs f) with hS
  have hsub : S ⊆ Finset.range L := Finset.filter_subset _ _
  have hx : ∀ j < x.length, |X j| ≤ B := by
    intro j hj
    simp only [hX, List.getD_eq_getElem?_getD, List.getElem?_eq_getElem hj]
    exact hB _ (List.getElem_mem hj)
  have hB0 : 0 ≤ B := (abs_nonneg _).trans (hx m hm)
  have ent : ∀ r < L, ∀ c < k, |projected E L S X r c| ≤ √L * B := by
    intro r hr c hc
    have s1 : projected E L S X r c ^ 2 ≤ ∑ r ∈ Finset.range L, projected E L S X r c ^ 2 :=
      Finset.single_le_sum (f := fun r => projected E L S X r c ^ 2) (fun i _ => sq_nonneg _) (Finset.mem_range.mpr hr)
    have s2 := projected_le ho hsub X c
    have s3 : ∑ t ∈ Finset.range L, X (c + t) ^ 2 ≤ L * B ^ 2 := by
      have : ∀ t ∈ Finset.range L, X (c + t) ^ 2 ≤ B ^ 2 := by
        intro t ht
        have := Finset.mem_range.mp ht
        exact sq_le_sq' (abs_le.mp (hx (c + t) (by omega))).1 (abs_le.mp (hx (c + t) (by omega))).2
      have := Finset.sum_le_sum this
      rwa [Finset.sum_const, Finset.card_range, nsmul_eq_mul] at this
    apply abs_le_of_sq_le_sq _ (by positivity)
    rw [mul_pow, Real.sq_sqrt (Nat.cast_nonneg L)]
    linarith
  unfold antiDiagMean
  set A := (Finset.antidiagonal m).filter (fun p => p.1 < L ∧ p.2 < k) with hA
  have hc : 0 < A.card := by
    have hcard : A.card = _ := antiDiag_card L k m
    omega
  have hc' : (0 : ℝ) < A.card := by exact_mod_cast hc
  rw [abs_div, abs_of_pos hc', div_le_iff₀ hc']
  refine (Finset.abs_sum_le_sum_abs _ _).trans ?_
  have : ∀ p ∈ A, |projected E L S X p.1 p.2| ≤ √L * B := by
    intro p hp
    have := (Finset.mem_filter.mp hp).2
    exact ent _ this.1 _ this.2
  have := Finset.sum_le_sum this
  rw [Finset.sum_const, nsmul_eq_mul] at this
  linarith

/-! ## Mobility on real vectors -/

theorem norm2_range (n : Nat) (v : Nat → ℝ) :
    norm2 ((List.range n).map (fun t => (fin (v t) : Fl ℝ))) = fin (√(∑ t ∈ Finset.range n, v t ^ 2)) := by
  unfold norm2
  rw [List.map_map, List.map_congr_left (g := fun t => (fin (v t ^ 2) : Fl ℝ)), psum_range,
    psqrt_fin (Finset.sum_nonneg (fun _ _ => sq_nonneg _))]
  intro t _
  simp only [Function.comp, pmul_fin, sq]

theorem diff_range (n : Nat) (v : Nat → ℝ) :
    diff ((List.range n).map (fun t => (fin (v t) : Fl ℝ))) =
      (List.range (n - 1)).map (fun t => (fin (v (t + 1) - v t) : Fl ℝ)) := by
  unfold diff
  apply List.ext_getElem
  · simp
  · intro i h1 h2
    simp

/-- the mobility of a real vector, as a quotient of two numbers -/
theorem mobVal_range (L : Nat) (h2 : 2 ≤ L) (v : Nat → ℝ) :
    mobVal ((List.range L).map (fun t => (fin (v t) : Fl ℝ))) =
      (fin (√(∑ t ∈ Finset.range (L - 1), (v (t + 1) - v t) ^ 2) / ((L - 1 : Nat) : ℝ)) : Fl ℝ) /.
        fin (aroundK (√(∑ t ∈ Finset.range L, v t ^ 2) / L) 4) := by
  have h1 : ((L - 1 : Nat) : ℝ) ≠ 0 := by
    have : L - 1 ≠ 0 := by omega
    exact_mod_cast this
  have h0 : (L : ℝ) ≠ 0 := by
    have : L ≠ 0 := by omega
    exact_mod_cast this
  unfold mobVal
  rw [diff_range, norm2_range, norm2_range]
  simp only [List.length_map, List.length_range, ofNat_eq]
  rw [pdiv_fin h1, pdiv_fin h0]
  rfl

/-- **C151** LAPACK's freedom in the eigenvectors does not show: changing the signs of columns and reordering them leaves
the result of `ssa` as it is. -/
theorem C151_signs_order (x : List ℝ) (fs f : Fl ℝ) (L : Nat) (ceilInt : Fl ℝ → Py Int)
    (eigh eigh' : Mat (Fl ℝ) → Py (Mat (Fl ℝ))) (E E' : Nat → Nat → ℝ)
    (h : SsaCall x fs f L ceilInt eigh E) (h' : SsaCall x fs f L ceilInt eigh' E')
    (σ : Equiv.Perm Nat) (hσ : ∀ i, σ i < L ↔ i < L) (s : Nat → ℝ) (hs : ∀ i, s i = 1 ∨ s i = -1)
    (hE : ∀ r < L, ∀ i < L, E' r i = s i * E r (σ i)) :
    ssa ceilInt eigh' (x.map fin) fs f = ssa ceilInt eigh (x.map fin) fs f := by
  rw [ssa_eq h, ssa_eq h']
  congr 1
  apply List.map_congr_left
  intro m _
  congr 2
  have h2 := h.two
  have hs2 : ∀ i, s i ^ 2 = 1 := by
    intro i; rcases hs i with h | h <;> rw [h] <;> norm_num
  have mob : ∀ i < L, mobVal ((List.range L).map (fun r => (fin (E' r i) : Fl ℝ))) =
      mobVal ((List.range L).map (fun r => (fin (E r (σ i)) : Fl ℝ))) := by
    intro i hi
    rw [mobVal_range L h2, mobVal_range L h2]
    have e1 : ∑ t ∈ Finset.range (L - 1), (E' (t + 1) i - E' t i) ^ 2 =
        ∑ t ∈ Finset.range (L - 1), (E (t + 1) (σ i) - E t (σ i)) ^ 2 := by
      apply Finset.sum_congr rfl
      intro t ht
      have := Finset.mem_range.mp ht
      rw [hE _ (by omega) i hi, hE _ (by omega) i hi, ← mul_sub, mul_pow, hs2, one_mul]
    have e2 : ∑ t ∈ Finset.range L, E' t i ^ 2 = ∑ t ∈ Finset.range L, E t (σ i) ^ 2 := by
      apply Finset.sum_congr rfl
      intro t ht
      have := Finset.mem_range.mp ht
      rw [hE _ (by omega) i hi, mul_pow, hs2, one_mul]
    rw [e1, e2]
  have pr : ∀ r < L, ∀ c, projected E' L (keptSet E' L (refMob L fs f)) (fun j => x.getD j 0) r c =
      projected E L (keptSet E L (refMob L fs f)) (fun j => x.getD j 0) r c := by
    intro r hr c
    unfold projected
    apply Finset.sum_bij (fun i _ => σ i)
    · intro i hi
      simp only [keptSet, Finset.mem_filter, Finset.mem_range] at hi ⊢
      exact ⟨(hσ i).mpr hi.1, by rw [← mob i hi.1]; exact hi.2⟩
    · intro a _ b _ hab
      exact σ.injective hab
    · intro j hj
      simp only [keptSet, Finset.mem_filter, Finset.mem_range] at hj
      have hl : σ.symm j < L := by rw [← hσ, Equiv.apply_symm_apply]; exact hj.1
      refine ⟨σ.symm j, ?_, σ.apply_symm_apply j⟩
      simp only [keptSet, Finset.mem_filter, Finset.mem_range]
      refine ⟨hl, ?_⟩
      rw [mob _ hl, Equiv.apply_symm_apply]
      exact hj.2
    · intro i hi
      simp only [keptSet, Finset.mem_filter, Finset.mem_range] at hi
      have : ∑ t ∈ Finset.range L, E' t i * (fun j => x.getD j 0) (c + t) =
          s i * ∑ t ∈ Finset.range L, E t (σ i) * (fun j => x.getD j 0) (c + t) := by
        rw [Finset.mul_sum]
        apply Finset.sum_congr rfl
        intro t ht
        rw [hE t (Finset.mem_range.mp ht) i hi.1]; ring
      rw [this, hE r hr i hi.1]
      have := hs2 i
      rw [sq] at this
      generalize ∑ t ∈ Finset.range L, E t (σ i) * (fun j => x.getD j 0) (c + t) = T
      calc s i * E r (σ i) * (s i * T) = (s i * s i) * (E r (σ i) * T) := by ring
        _ = _ := by rw [this, one_mul]
  unfold antiDiagMean
  congr 1
  apply Finset.sum_congr rfl
  intro p hp
  exact pr _ (Finset.mem_filter.mp hp).2.1 _

/-! ## The rounding inside `_mobility` -/

theorem aroundK_tick : aroundK (1 / 10000 : ℝ) 4 = 1 / 10000 := by
  unfold aroundK
  have : (1 / 10000 : ℝ) * 10 ^ (4 : ℤ) = ((1 : ℤ) : ℝ) := by norm_num
  rw [this, rint_int]; norm_num

theorem aroundK_half : aroundK (1 / 20000 : ℝ) 4 = 0 := by
  unfold aroundK
  have : (1 / 20000 : ℝ) * 10 ^ (4 : ℤ) = 1 / 2 := by norm_num
  rw [this]
  have : rint (1 / 2 : ℝ) = 0 := by
    unfold rint
    have : ⌊(1 / 2 : ℝ)⌋ = 0 := by rw [Int.floor_eq_iff]; norm_num
    rw [this]; norm_num
  rw [this]; norm_num

theorem aroundK_above {y : ℝ} (h : 1 / 20000 < y) : 0 < aroundK y 4 := by
  unfold aroundK
  have hp : (0 : ℝ) < 10 ^ (4 : ℤ) := by norm_num
  apply div_pos _ hp
  have h1 : (1 / 2 : ℝ) < y * 10 ^ (4 : ℤ) := by
    have : (10 : ℝ) ^ (4 : ℤ) = 10000 := by norm_num
    rw [this]; linarith
  generalize y * 10 ^ (4 : ℤ) = w at h1
  have := abs_le.mp (abs_rint_sub w)
  linarith [this.1]

/-- the sine of the reference frequency has mean square one half -/
theorem sum_sin_sq (L : Nat) (h : 3 ≤ L) :
    ∑ t ∈ Finset.range L, Real.sin (2 * Real.pi * t / L) ^ 2 = (L : ℝ) / 2 := by
  have h0 := cos_orth (N := L) (m := 2) (l := 0) (by omega) (by omega) (by omega)
  have e : ∀ t ∈ Finset.range L, Real.sin (2 * Real.pi * t / L) ^ 2 =
      1 / 2 - Real.cos (2 * Real.pi * (t * (2 : Nat)) / L - 2 * Real.pi * (t * (0 : Nat)) / L) / 2 := by
    intro t _
    rw [Real.sin_sq_eq_half_sub]
    congr 3
    push_cast
    ring
  rw [Finset.sum_congr rfl e, Finset.sum_sub_distrib, ← Finset.sum_div, ← Finset.sum_div, h0, Finset.sum_const, Finset.card_range]
  simp

/-- the reference mobility is a non-negative number -/
theorem refMob_fin (L : Nat) (h3 : 3 ≤ L) (hL : L ≤ 100000000) (f : ℝ) (hf : f ≠ 0) :
    ∃ q : ℝ, 0 ≤ q ∧ refMob L (fin (L * f)) (fin f) = fin q := by
  have hL0 : (0 : ℝ) < L := by
    have : 0 < L := by omega
    exact_mod_cast this
  unfold refMob
  have e : (List.range L).map (fun t => PyMath.sin (lit 2 *. PyMath.pi *. ofNat t *. fin f /. fin (L * f))) =
      (List.range L).map (fun t : Nat => (fin (Real.sin (2 * Real.pi * t / L)) : Fl ℝ)) := by
    apply List.map_congr_left
    intro t _
    have hpi : (PyMath.pi : Fl ℝ) = fin Real.pi := rfl
    rw [hpi]
    simp only [lit_eq, ofNat_eq, pmul_fin]
    rw [pdiv_fin (mul_ne_zero hL0.ne' hf)]
    show fin (Real.sin _) = _
    congr 2
    push_cast
    field_simp
  rw [e, mobVal_range L (by omega) (fun t => Real.sin (2 * Real.pi * t / L)), sum_sin_sq L h3]
  have hy : (1 : ℝ) / 20000 < √((L : ℝ) / 2) / L := by
    rw [lt_div_iff₀ hL0]
    apply Real.lt_sqrt_of_sq_lt
    have : (L : ℝ) ≤ 100000000 := by exact_mod_cast hL
    nlinarith
  have hpos := aroundK_above hy
  rw [pdiv_fin hpos.ne']
  exact ⟨_, by positivity, rfl⟩

/-- a call with a window of exactly `L` periods of sampling per period of `f` -/
theorem col_norm {E : Nat → Nat → ℝ} {L : Nat} (ho : OrthoCols E L) (i : Nat) (hi : i < L) :
    ∑ r ∈ Finset.range L, E r i ^ 2 = 1 := by
  have := ho i hi i hi
  rw [if_pos rfl] at this
  rw [← this]
  exact Finset.sum_congr rfl (fun r _ => by ring)

/-- **C152** a window of 20000 samples or more erases the signal: the norm of a unit eigenvector divided by its length is
rounded to four decimals, gives 0, and every mobility becomes infinite or NaN, so no eigenvector is kept and `ssa` returns
zeros, whatever the signal. -/
theorem C152_long_window (x : List ℝ) (f : ℝ) (hf : f ≠ 0) (L : Nat) (hl : 20000 ≤ L) (hL : L ≤ 100000000)
    (ceilInt : Fl ℝ → Py Int) (eigh : Mat (Fl ℝ) → Py (Mat (Fl ℝ)))
    (E : Nat → Nat → ℝ) (h : SsaCall x (fin (L * f)) (fin f) L ceilInt eigh E) (ho : OrthoCols E L) :
    ssa ceilInt eigh (x.map fin) (fin (L * f)) (fin f) = .ok (List.replicate x.length (fin 0)) := by
  obtain ⟨q, -, hq⟩ := refMob_fin L (by omega) hL f hf
  have hS : keptSet E L (refMob L (fin (L * f)) (fin f)) = ∅ := by
    unfold keptSet
    rw [Finset.filter_eq_empty_iff]
    intro i hi
    rw [hq, mobVal_range L (by omega), col_norm ho i (Finset.mem_range.mp hi), Real.sqrt_one]
    have hz : aroundK (1 / (L : ℝ)) 4 = 0 := by
      apply le_antisymm
      · rw [← aroundK_half]
        apply aroundK_mono
        apply one_div_le_one_div_of_le (by norm_num)
        exact_mod_cast hl
      · rw [← aroundK_zero (4 : Int)]
        exact aroundK_mono (by positivity) 4
    rw [hz, pdiv_fin', if_pos rfl]
    have hd : 0 ≤ √(∑ t ∈ Finset.range (L - 1), (E (t + 1) i - E t i) ^ 2) / ((L - 1 : Nat) : ℝ) := by positivity
    generalize √(∑ t ∈ Finset.range (L - 1), (E (t + 1) i - E t i) ^ 2) / ((L - 1 : Nat) : ℝ) = d at hd
    unfold infSgn
    intro hle
    split_ifs at hle with h1 h2
    · cases hle
    · cases hle
    · exact h2 (lt_of_le_of_ne hd (Ne.symm h1))
  have this : projected E L ∅ (fun j => x.getD j 0) = fun _ _ => 0 := by
    funext r c; simp [projected]
  rw [ssa_eq h, hS, this]
  congr 1
  simp only [antiDiagMean, Finset.sum_const_zero, zero_div, aroundK_zero, List.map_const', List.length_range]

/-- such a call exists for every signal of at least 20000 samples: the identity matrix is orthonormal -/
example (x : List ℝ) (hx : 20000 ≤ x.length) : ∃ ceilInt eigh E,
    SsaCall x (fin ((20000 : Nat) * 1)) (fin 1) 20000 ceilInt eigh E ∧ OrthoCols E 20000 :=
  ⟨fun _ => .ok 20000, fun _ => .ok ⟨20000, 20000, fun r c => fin (if r = c then 1 else 0)⟩,
    fun r c => if r = c then 1 else 0, ⟨by norm_num, hx, rfl, rfl⟩, by
      intro i hi j hj
      simp only [ite_mul, one_mul, zero_mul]
      rw [Finset.sum_ite_eq' (Finset.range 20000) i, if_pos (Finset.mem_range.mpr hi)]⟩

/-- specification: the columns of `E` are eigenvectors of the lag-covariance matrix of `x` -/
def EigenCols (x : List ℝ) (L : Nat) (E : Nat → Nat → ℝ) : Prop :=
  ∃ lam : Nat → ℝ, ∀ r < L, ∀ i < L, ∑ t ∈ Finset.range L,
    (∑ c ∈ Finset.range (x.length - L + 1), x.getD (c + r) 0 * x.getD (c + t) 0) * E t i = lam i * E r i

/-- **C152** with a window of 3 to 19999 samples a constant signal is kept (and rounded to four decimals). -/
theorem C152_constant (n : Nat) (a f : ℝ) (hf : f ≠ 0) (L : Nat) (h3 : 3 ≤ L) (hL : L < 20000)
    (ceilInt : Fl ℝ → Py Int) (eigh : Mat (Fl ℝ) → Py (Mat (Fl ℝ)))
    (E : Nat → Nat → ℝ) (h : SsaCall (List.replicate n a) (fin (L * f)) (fin f) L ceilInt eigh E) (ho : OrthoCols E L)
    (he : EigenCols (List.replicate n a) L E) :
    ssa ceilInt eigh ((List.replicate n a).map fin) (fin (L * f)) (fin f) = .ok (List.replicate n (fin (aroundK a 4))) := by
  obtain ⟨q, hq0, hq⟩ := refMob_fin L h3 (by omega) f hf
  have hfit := h.fits
  rw [List.length_replicate] at hfit
  have hX : ∀ j < n, (List.replicate n a).getD j 0 = a := by
    intro j hj
    rw [List.getD_eq_getElem?_getD, List.getElem?_replicate, if_pos hj]; rfl
  set S := keptSet E L (refMob L (fin (L * f)) (fin f)) with hS
  have hL0 : (0 : ℝ) < L := by
    have : 0 < L := by omega
    exact_mod_cast this
  have hlt : (L : ℝ) < 20000 := by exact_mod_cast hL
  -- a column not orthogonal to the constants is constant, hence kept
  have hkeep : a ≠ 0 → ∀ i < L, ∑ t ∈ Finset.range L, E t i ≠ 0 → i ∈ S := by
    intro ha i hi hb
    obtain ⟨lam, hl⟩ := he
    have key : ∀ r < L, ((n - L + 1 : Nat) : ℝ) * (a * a) * ∑ t ∈ Finset.range L, E t i = lam i * E r i := by
      intro r hr
      rw [← hl r hr i hi, Finset.mul_sum]
      apply Finset.sum_congr rfl
      intro t ht
      have ht := Finset.mem_range.mp ht
      congr 1
      rw [List.length_replicate, Finset.sum_congr rfl (g := fun _ => a * a)]
      · rw [Finset.sum_const, Finset.card_range, nsmul_eq_mul]
      · intro c hc
        have := Finset.mem_range.mp hc
        rw [hX _ (by omega), hX _ (by omega)]
    have hk0 : ((n - L + 1 : Nat) : ℝ) ≠ 0 := by
      have : n - L + 1 ≠ 0 := by omega
      exact_mod_cast this
    have hlam : lam i ≠ 0 := by
      intro h0
      have := key 0 (by omega)
      rw [h0, zero_mul] at this
      exact (mul_ne_zero (mul_ne_zero hk0 (mul_ne_zero ha ha)) hb) this
    have hconst : ∀ r < L, ∀ r' < L, E r i = E r' i := fun r hr r' hr' =>
      mul_left_cancel₀ hlam ((key r hr).symm.trans (key r' hr'))
    rw [hS, keptSet, Finset.mem_filter, Finset.mem_range]
    refine ⟨hi, ?_⟩
    rw [hq, mobVal_range L (by omega), col_norm ho i hi, Real.sqrt_one]
    have hd : ∑ t ∈ Finset.range (L - 1), (E (t + 1) i - E t i) ^ 2 = 0 := by
      apply Finset.sum_eq_zero
      intro t ht
      have := Finset.mem_range.mp ht
      rw [hconst (t + 1) (by omega) t (by omega), sub_self]; norm_num
    have hpos : 0 < aroundK (1 / (L : ℝ)) 4 :=
      aroundK_above (one_div_lt_one_div_of_lt hL0 hlt)
    rw [hd, Real.sqrt_zero, zero_div, pdiv_fin hpos.ne', zero_div]
    show decide ((0 : ℝ) ≤ q) = true
    exact decide_eq_true hq0
  have hsub : S ⊆ Finset.range L := Finset.filter_subset _ _
  have hproj : ∀ r < L, ∀ c < n - L + 1, projected E L S (fun j => (List.replicate n a).getD j 0) r c = a := by
    intro r hr c hc
    have e1 : ∀ i, ∑ t ∈ Finset.range L, E t i * (fun j => (List.replicate n a).getD j 0) (c + t) =
        (∑ t ∈ Finset.range L, E t i) * a := by
      intro i
      rw [Finset.sum_mul]
      apply Finset.sum_congr rfl
      intro t ht
      have := Finset.mem_range.mp ht
      simp only
      rw [hX _ (by omega)]
    unfold projected
    simp only [e1]
    by_cases ha : a = 0
    · subst ha; simp
    · rw [Finset.sum_subset hsub (by
        intro i hi hi'
        have : ∑ t ∈ Finset.range L, E t i = 0 := by
          by_contra hb
          exact hi' (hkeep ha i (Finset.mem_range.mp hi) hb)
        rw [this]; ring)]
      have hrow := rows_of_cols ho
      have e2 : ∀ i, E r i * ((∑ t ∈ Finset.range L, E t i) * a) = ∑ t ∈ Finset.range L, E r i * E t i * a := by
        intro i
        rw [Finset.sum_mul, Finset.mul_sum]
        exact Finset.sum_congr rfl (fun t _ => by ring)
      simp only [e2]
      rw [Finset.sum_comm]
      have e3 : ∀ t ∈ Finset.range L, ∑ i ∈ Finset.range L, E r i * E t i * a = if r = t then a else 0 := by
        intro t ht
        rw [← Finset.sum_mul, hrow r hr t (Finset.mem_range.mp ht)]
        split_ifs <;> ring
      rw [Finset.sum_congr rfl e3, Finset.sum_ite_eq, if_pos (Finset.mem_range.mpr hr)]
  rw [ssa_eq h, ← hS]
  congr 1
  rw [List.length_replicate]
  rw [List.map_congr_left (g := fun _ => (fin (aroundK a 4) : Fl ℝ))]
  · rw [List.map_const', List.length_range]
  · intro m hm
    have hm := List.mem_range.mp hm
    congr 2
    have : antiDiagMean (projected E L S (fun j => (List.replicate n a).getD j 0)) L (n - L + 1) m =
        antiDiagMean (fun r c => (fun _ => a) (c + r)) L (n - L + 1) m := by
      unfold antiDiagMean
      congr 1
      apply Finset.sum_congr rfl
      intro p hp
      have := (Finset.mem_filter.mp hp).2
      exact hproj _ this.1 _ this.2
    rw [this, antiDiagMean_hankel (fun _ => a) L (n - L + 1) m (by omega) (by omega) (by omega)]

/-- half the Hadamard matrix of order four -/
noncomputable def hada (r i : Nat) : ℝ := 
  ((([[1, 1, 1, 1], [1, -1, 1, -1], [1, 1, -1, -1], [1, -1, -1, 1]] : List (List ℝ)).getD r []).getD i 0) / 2

/-- a call meeting the assumptions: window of four samples, five constant samples, Hadamard eigenvectors -/
example (a : ℝ) : ∃ ceilInt eigh E, SsaCall (List.replicate 5 a) (fin ((4 : Nat) * 1)) (fin 1) 4 ceilInt eigh E ∧
    OrthoCols E 4 ∧ EigenCols (List.replicate 5 a) 4 E := by
  refine ⟨fun _ => .ok 4, fun _ => .ok ⟨4, 4, fun r c => fin (hada r c)⟩, hada,
    ⟨by norm_num, by norm_num, rfl, rfl⟩, ?_, fun i => if i = 0 then 8 * a ^ 2 else 0, ?_⟩
  · intro i hi j hj
    interval_cases i <;> interval_cases j <;> norm_num [Finset.sum_range_succ, hada]
  · intro r hr i hi
    interval_cases r <;> interval_cases i <;>
      norm_num [Finset.sum_range_succ, hada, List.replicate] <;> ring

/-! ## The replacement -/

/-- **C153** `ssa` as a replacement: with the filtered signal `xf` (rounded to four decimals) every spike takes its value of
`xf` (truncated in an integer array) and the other samples keep theirs; the call fails exactly as the filter fails, or with
IndexError for a spike outside the signal. -/
theorem C153_replacement {F : Type} [PyMath F] (ceilInt : F → Py Int) (eigh : Mat F → Py (Mat F)) (v : Arr F)
    (sp : List Nat) (fs f : F) :
    (∀ e, ssa ceilInt eigh v.data fs f = .error e →
      ssaReplacement ceilInt eigh v (sp.map (fun i : Nat => (i : Int))) fs f = .error e) ∧
    ∀ xf, ssa ceilInt eigh v.data fs f = .ok xf → xf.length = v.data.length →
      ((∃ i ∈ sp, v.data.length ≤ i) →
        ssaReplacement ceilInt eigh v (sp.map (fun i : Nat => (i : Int))) fs f = .error .indexError) ∧
      ((∀ i ∈ sp, i < v.data.length) →
        ∃ out, ssaReplacement ceilInt eigh v (sp.map (fun i : Nat => (i : Int))) fs f = .ok out ∧
          out.length = v.data.length ∧ (∀ k ∈ sp, out[k]? = (xf[k]?).map (store v.isInt)) ∧
          ∀ k, k ∉ sp → out[k]? = v.data[k]?) := by
  constructor
  · intro e he
    unfold ssaReplacement
    simp only [he, bind, Except.bind]
  · intro xf hx hlen
    have e : ssaReplacement ceilInt eigh v (sp.map (fun i : Nat => (i : Int))) fs f =
        setFromStore v.isInt v.data (sp.map (fun i : Nat => (i : Int))) xf := by
      unfold ssaReplacement
      simp only [hx, bind, Except.bind]
    rw [e]
    refine ⟨fun ⟨i, hi, hn⟩ => setFromStore_error _ _ _ _ ⟨i, hi, by omega⟩, fun hin => ?_⟩
    obtain ⟨out, ho⟩ := setFromStore_total v.isInt v.data xf sp (fun i hi => ⟨hin i hi, by rw [hlen]; exact hin i hi⟩)
    obtain ⟨h1, h2⟩ := setFromStore_frame ho
    refine ⟨out, ho, h1, fun k hk => ?_, fun k hk => h2 k (fun hh => hk ((hits_nat hin k).mp hh))⟩
    obtain ⟨y, hy1, hy2⟩ := setFromStore_value ho k hk
    rw [hy1, hy2]; rfl

end Proadv.Props
