import Verif.Lemmas.Ssa
import Verif.Lemmas.Lists
import Verif.Py.Real
import Mathlib.Tactic.IntervalCases
import Mathlib.Tactic.NormNum

/-!
# C21–C23: singular spectrum analysis
-/

set_option linter.unusedSectionVars false

namespace Proadv.Props

open Proadv Series Fl

section exact
variable {K : Type} [Field K] [LinearOrder K] [FloorRing K] [IsStrictOrderedRing K]

/-- **C21** `_diagonal_average` returns the anti-diagonal means rounded to four decimals. -/
theorem C21_diagonal_average (M : Nat → Nat → K) (L k : Nat) (hL : 1 ≤ L) (hk : 1 ≤ k) :
    diagonalAverage (⟨L, k, fun r c => fin (M r c)⟩ : Mat (Fl K)) L (L + k - 1) =
      .ok ((List.range (L + k - 1)).map (fun m => fin (aroundK (antiDiagMean M L k m) 4))) :=
  diagonalAverage_fin _ M L k hL hk rfl rfl (fun _ _ _ _ => rfl)

-- non-vacuous: a 2 × 3 matrix, both orientations
example : diagonalAverage (⟨2, 3, fun r c => fin ((3 * r + c * c : Nat) : ℚ)⟩ : Mat (Fl ℚ)) 2 4 =
    .ok [fin 0, fin 2, fin 4, fin 7] := by decide +kernel
example : diagonalAverage (⟨3, 2, fun c r => fin ((3 * r + c * c : Nat) : ℚ)⟩ : Mat (Fl ℚ)) 3 4 =
    .ok [fin 0, fin 2, fin 4, fin 7] := by decide +kernel

theorem antiDiagMean_hankel (x : Nat → K) (L k m : Nat) (hL : 1 ≤ L) (hk : 1 ≤ k) (hm : m < L + k - 1) :
    antiDiagMean (fun r c => x (c + r)) L k m = x m := by
  unfold antiDiagMean
  have hc := antiDiag_card L k m
  have hpos : 0 < ((Finset.antidiagonal m).filter (fun p => p.1 < L ∧ p.2 < k)).card := by rw [hc]; omega
  rw [Finset.sum_congr rfl (g := fun _ => x m)]
  · rw [Finset.sum_const, nsmul_eq_mul]
    have : (((Finset.antidiagonal m).filter (fun p => p.1 < L ∧ p.2 < k)).card : K) ≠ 0 := by exact_mod_cast hpos.ne'
    field_simp
  · intro p hp
    have := (Finset.mem_antidiagonal.mp (Finset.mem_filter.mp hp).1)
    show x (p.2 + p.1) = x m
    congr 1; omega

/-- **C22** the trajectory matrix followed by diagonal averaging gives the signal back, rounded to four decimals. -/
theorem C22_embed_reconstruct (x : List K) (L : Nat) (hL : 1 ≤ L) (hn : L ≤ x.length) :
    diagonalAverage (trajectory (x.map fin : List (Fl K)) L (x.length - L + 1)) L x.length =
      .ok (x.map (fun v => fin (aroundK v 4))) := by
  have e : x.length = L + (x.length - L + 1) - 1 := by omega
  set k := x.length - L + 1 with hk
  have h := diagonalAverage_fin (trajectory (x.map fin : List (Fl K)) L k) (fun r c => x.getD (c + r) 0) L k hL (by omega)
    rfl rfl (fun r hr s hs => by
      simp only [trajectory]
      rw [List.getD_eq_getElem?_getD, List.getElem?_map, List.getD_eq_getElem?_getD,
        List.getElem?_eq_getElem (show s + r < x.length by omega)]
      rfl)
  rw [← e] at h
  rw [h]
  congr 1
  apply List.ext_getElem (by simp)
  intro i hi hi2
  simp only [List.length_map, List.length_range] at hi
  rw [List.getElem_map, List.getElem_map, List.getElem_range, antiDiagMean_hankel (fun j => x.getD j 0) L k i hL (by omega)
    (by omega), List.getD_eq_getElem?_getD, List.getElem?_eq_getElem (by omega)]
  rfl

end exact

/-- the mobility of a vector of at least two values -/
def mobVal {F : Type} [PyMath F] (x : List F) : F :=
  norm2 (diff x) /. ofNat (x.length - 1) /. PyNum.around (norm2 x /. ofNat x.length) 4

/-- the columns kept by `ssa`: those whose mobility does not exceed that of the reference sine -/
noncomputable def kept (E : Nat → Nat → ℝ) (L : Nat) (thresh : Fl ℝ) : List Nat :=
  (List.range L).filter (fun i => mobVal ((List.range L).map (fun r => (fin (E r i) : Fl ℝ))) ≤. thresh)

theorem mobility_ok {F : Type} [PyMath F] (x : List F) (h : 2 ≤ x.length) : mobility x = .ok (mobVal x) := by
  unfold mobility
  simp only
  rw [if_neg (by omega)]
  rfl

theorem mobility_err {F : Type} [PyMath F] (x : List F) (h : x.length < 2) : mobility x = .error .valueError := by
  unfold mobility
  simp only
  rw [if_pos h]

theorem mobs_ok {F : Type} [PyMath F] (e : Mat F) (L : Nat) (h : 2 ≤ L) :
    (List.range L).mapM (fun i => mobility ((List.range L).map (fun r => e.get r i))) =
      .ok ((List.range L).map (fun i => mobVal ((List.range L).map (fun r => e.get r i)))) := by
  apply mapM_ok
  intro i _
  exact mobility_ok _ (by simpa using h)

theorem psum_range (n : Nat) (f : Nat → ℝ) :
    PyNum.sum ((List.range n).map (fun i => (fin (f i) : Fl ℝ))) = fin (∑ i ∈ Finset.range n, f i) := by
  have := psum_fin ((List.range n).map f)
  rw [fins, List.map_map] at this
  rw [show (List.range n).map (fun i => (fin (f i) : Fl ℝ)) = (List.range n).map (fin ∘ f) from rfl, this, sum_range_map]

/-- **C22** (what `ssa` computes) the signal is embedded, projected on the kept eigenvectors `S` and averaged over the
anti-diagonals: value `m` is the rounded mean over `r + c = m` of `∑ t, (∑ i ∈ S, E r i * E t i) * x (c + t)`. -/
theorem C22_ssa_projection (x : List ℝ) (fs f thresh : Fl ℝ) (L : Nat) (h2 : 2 ≤ L) (hn : L ≤ x.length)
    (ceilInt : Fl ℝ → Py Int) (eigh : Mat (Fl ℝ) → Py (Mat (Fl ℝ))) (E : Nat → Nat → ℝ)
    (hceil : ceilInt (fs /. f) = .ok (L : Int))
    (heig : eigh ((trajectory (x.map fin) L (x.length - L + 1)).mul (trajectory (x.map fin) L (x.length - L + 1)).tr) =
      .ok ⟨L, L, fun r c => fin (E r c)⟩)
    (hth : thresh = mobVal ((List.range L).map (fun t => PyMath.sin (lit 2 *. PyMath.pi *. ofNat t *. f /. fs)))) :
    ssa ceilInt eigh (x.map fin) fs f = .ok ((List.range x.length).map (fun m => fin (aroundK (antiDiagMean (fun r c =>
      ∑ t ∈ Finset.range L, (((kept E L thresh).map (fun i => E r i * E t i)).sum) * x.getD (c + t) 0)
        L (x.length - L + 1) m) 4))) := by
  have hk : ((x.length : Int) - (L : Int) + 1) = ((x.length - L + 1 : Nat) : Int) := by omega
  unfold ssa
  simp only [bind, Except.bind, hceil, List.length_map, hk, Int.toNat_natCast]
  rw [if_neg (by omega), heig]
  simp only
  rw [mobs_ok (⟨L, L, fun r c => fin (E r c)⟩ : Mat (Fl ℝ)) L h2, mobility_ok _ (by simpa using h2), ← hth]
  simp only [List.map_map]
  rw [show ((fun m => m ≤. thresh) ∘ fun i => mobVal ((List.range L).map fun r => (fin (E r i) : Fl ℝ))) =
    (fun i => mobVal ((List.range L).map fun r => (fin (E r i) : Fl ℝ)) ≤. thresh) from rfl, whereTrue_map_range]
  have hS : (List.range L).filter (fun i => mobVal ((List.range L).map fun r => (fin (E r i) : Fl ℝ)) ≤. thresh) =
    kept E L thresh := rfl
  rw [hS]
  set S := kept E L thresh with hSdef
  set k := x.length - L + 1 with hkdef
  have e : x.length = L + k - 1 := by omega
  have hsel : ∀ r t, PyNum.sum ((List.range S.length).map (fun u => (fin (E r (S.getD u 0)) : Fl ℝ) *. fin (E t (S.getD u 0)))) =
      fin ((S.map (fun i => E r i * E t i)).sum) := by
    intro r t
    have : (List.range S.length).map (fun u => (fin (E r (S.getD u 0)) : Fl ℝ) *. fin (E t (S.getD u 0))) =
        fins (S.map (fun i => E r i * E t i)) := by
      apply List.ext_getElem (by simp)
      intro u hu hu2
      simp only [List.length_map, List.length_range] at hu
      simp [List.getElem?_eq_getElem hu]
    rw [this, psum_fin]
  have h := diagonalAverage_fin (((Mat.colsAt (⟨L, L, fun r c => fin (E r c)⟩ : Mat (Fl ℝ)) S).mul
      (Mat.colsAt (⟨L, L, fun r c => fin (E r c)⟩ : Mat (Fl ℝ)) S).tr).mul (trajectory (x.map fin) L k))
    (fun r c => ∑ t ∈ Finset.range L, ((S.map (fun i => E r i * E t i)).sum) * x.getD (c + t) 0) L k (by omega) (by omega)
    rfl rfl (fun r hr s hs => by
      simp only [Mat.mul, Mat.colsAt, Mat.tr, trajectory, hsel]
      rw [List.map_congr_left (g := fun t => (fin ((S.map (fun i => E r i * E t i)).sum * x.getD (s + t) 0) : Fl ℝ)),
        psum_range]
      intro t ht
      have ht := List.mem_range.mp ht
      rw [List.getD_eq_getElem?_getD, List.getElem?_map, List.getD_eq_getElem?_getD,
        List.getElem?_eq_getElem (show s + t < x.length by omega)]
      simp)
  rw [← e] at h
  exact h

/-- **C22** when every eigenvector is kept and the eigenvector matrix is orthogonal, `ssa` returns the signal rounded to
four decimals. -/
theorem C22_ssa_identity (x : List ℝ) (fs f thresh : Fl ℝ) (L : Nat) (h2 : 2 ≤ L) (hn : L ≤ x.length)
    (ceilInt : Fl ℝ → Py Int) (eigh : Mat (Fl ℝ) → Py (Mat (Fl ℝ))) (E : Nat → Nat → ℝ)
    (hceil : ceilInt (fs /. f) = .ok (L : Int))
    (heig : eigh ((trajectory (x.map fin) L (x.length - L + 1)).mul (trajectory (x.map fin) L (x.length - L + 1)).tr) =
      .ok ⟨L, L, fun r c => fin (E r c)⟩)
    (hth : thresh = mobVal ((List.range L).map (fun t => PyMath.sin (lit 2 *. PyMath.pi *. ofNat t *. f /. fs))))
    (horth : ∀ r < L, ∀ t < L, ∑ i ∈ Finset.range L, E r i * E t i = if r = t then 1 else 0)
    (hkeep : ∀ i < L, (mobVal ((List.range L).map (fun r => (fin (E r i) : Fl ℝ))) ≤. thresh) = true) :
    ssa ceilInt eigh (x.map fin) fs f = .ok (x.map (fun v => fin (aroundK v 4))) := by
  rw [C22_ssa_projection x fs f thresh L h2 hn ceilInt eigh E hceil heig hth]
  have hS : kept E L thresh = List.range L := by
    unfold kept
    rw [List.filter_eq_self]
    intro i hi
    exact hkeep i (List.mem_range.mp hi)
  rw [hS]
  congr 1
  apply List.ext_getElem (by simp)
  intro m hm hm2
  simp only [List.length_map, List.length_range] at hm
  rw [List.getElem_map, List.getElem_map, List.getElem_range]
  have : antiDiagMean (fun r c => ∑ t ∈ Finset.range L, (((List.range L).map (fun i => E r i * E t i)).sum) * x.getD (c + t) 0)
      L (x.length - L + 1) m = antiDiagMean (fun r c => x.getD (c + r) 0) L (x.length - L + 1) m := by
    unfold antiDiagMean
    congr 1
    apply Finset.sum_congr rfl
    intro p hp
    have hp := (Finset.mem_filter.mp hp).2
    show ∑ t ∈ Finset.range L, (((List.range L).map (fun i => E p.1 i * E t i)).sum) * x.getD (p.2 + t) 0 = x.getD (p.2 + p.1) 0
    rw [Finset.sum_congr rfl (g := fun t => if p.1 = t then x.getD (p.2 + t) 0 else 0)]
    · rw [Finset.sum_ite_eq, if_pos (Finset.mem_range.mpr hp.1)]
    · intro t ht
      rw [sum_range_map, horth _ hp.1 _ (Finset.mem_range.mp ht)]
      split <;> simp
  rw [this, antiDiagMean_hankel (fun j => x.getD j 0) L _ m (by omega) (by omega) (by omega),
    List.getD_eq_getElem?_getD, List.getElem?_eq_getElem (by omega)]
  rfl

section anyF
variable {F : Type} [PyMath F]

/-- **C23** a window of one sample or less, or longer than the signal, always raises. -/
theorem C23_ssa_rejects (ceilInt : F → Py Int) (eigh : Mat F → Py (Mat F)) (x : List F) (fs f : F) (l : Int)
    (hceil : ceilInt (fs /. f) = .ok l) (h : l < 2 ∨ (x.length : Int) < l) :
    ∃ e, ssa ceilInt eigh x fs f = .error e := by
  unfold ssa
  simp only [bind, Except.bind, hceil]
  by_cases h1 : l < 0 ∨ (x.length : Int) - l + 1 < 0
  · exact ⟨_, by rw [if_pos h1]⟩
  rw [if_neg h1]
  cases he : eigh ((trajectory x l.toNat ((x.length : Int) - l + 1).toNat).mul
      (trajectory x l.toNat ((x.length : Int) - l + 1).toNat).tr) with
  | error e => exact ⟨e, rfl⟩
  | ok e =>
    simp only
    by_cases h2 : l < 2
    · obtain rfl | rfl : l = 0 ∨ l = 1 := by omega
      · exact ⟨.valueError, rfl⟩
      · exact ⟨.valueError, rfl⟩
    · rw [mobs_ok e l.toNat (by omega)]
      have hm := mobility_ok ((List.range l.toNat).map (fun t => PyMath.sin (lit 2 *. PyMath.pi *. ofNat t *. f /. fs)))
        (by simp; omega)
      rw [hm]
      simp only
      have : l.toNat = x.length + 1 := by omega
      rw [this]
      exact diagonalAverage_k0 _ _

/-- **C23** otherwise `ssa` returns a signal of the length of the input in which every value is rounded to four
decimals. -/
theorem C23_ssa_length (ceilInt : F → Py Int) (eigh : Mat F → Py (Mat F)) (x : List F) (fs f : F) (l : Int)
    (hceil : ceilInt (fs /. f) = .ok l) (h2 : 2 ≤ l) (hn : l ≤ x.length) (E : Mat F) (hrows : E.rows = l.toNat)
    (heig : ∀ c, c.rows = l.toNat → c.cols = l.toNat → eigh c = .ok E) :
    ∃ raw : List F, raw.length = x.length ∧ ssa ceilInt eigh x fs f = .ok (raw.map (fun v => PyNum.around v 4)) := by
  obtain ⟨L, rfl⟩ : ∃ L : Nat, l = (L : Int) := ⟨l.toNat, by omega⟩
  rw [Int.toNat_natCast] at hrows heig
  have hk : ((x.length : Int) - (L : Int) + 1) = ((x.length - L + 1 : Nat) : Int) := by omega
  unfold ssa
  simp only [bind, Except.bind, hceil, hk, Int.toNat_natCast]
  rw [if_neg (by omega), heig _ rfl rfl]
  simp only
  rw [mobs_ok E L (by omega)]
  have hm := mobility_ok ((List.range L).map (fun t => PyMath.sin (lit 2 *. PyMath.pi *. ofNat t *. f /. fs)))
    (by simp; omega)
  rw [hm]
  simp only
  have e : x.length = L + (x.length - L + 1) - 1 := by omega
  have hd : ∀ M : Mat F, M.rows = L → M.cols = x.length - L + 1 → ∃ raw : List F, raw.length = x.length ∧
      diagonalAverage M L x.length = .ok (raw.map (fun v => PyNum.around v 4)) := by
    intro M h1 h2
    have := diagonalAverage_eq M L (x.length - L + 1) (by omega) (by omega) h1 h2
    rw [← e] at this
    refine ⟨(List.range x.length).map (dval (if L < x.length - L + 1 then M else M.tr) (Nat.min L (x.length - L + 1))
      (Nat.max L (x.length - L + 1))), by simp, ?_⟩
    rw [this, List.map_map]; rfl
  exact hd _ (by simpa [Mat.mul, Mat.colsAt] using hrows) rfl

end anyF

/-! ## The hypotheses of C22 and C23 are met by a concrete case -/

/-- the window of two samples of `[1, 0]`: covariance `diag(1, 0)`, eigenvectors (ascending eigenvalues) `e₂, e₁`;
`fs = 4`, `f = 3`: the reference sine is `[0, sin (3π/2)] = [0, -1]`, mobility `2`, as is that of both eigenvectors. -/
example : ssa (fun _ => .ok 2) (fun _ => .ok ⟨2, 2, fun r c => fin (if r = c then (0 : ℝ) else 1)⟩)
    ([1, 0].map fin) (fin 4) (fin 3) = .ok ([1, 0].map (fun v => fin (aroundK v 4))) := by
  have hs : Real.sin (2 * Real.pi * 1 * 3 / 4) = -1 := by
    rw [show 2 * Real.pi * 1 * 3 / 4 = Real.pi / 2 + Real.pi by ring, Real.sin_add_pi, Real.sin_pi_div_two]
  have hr : aroundK (1 / 2 : ℝ) 4 = 1 / 2 := by
    unfold aroundK
    rw [show (1 / 2 : ℝ) * 10 ^ (4 : ℤ) = ((5000 : ℤ) : ℝ) by norm_num, rint_int]
    norm_num
  have hm : ∀ a b : ℝ, a * a + b * b = 1 → (b - a) * (b - a) = 1 → mobVal ([fin a, fin b] : List (Fl ℝ)) = fin 2 := by
    intro a b h1 h2
    have e1 : norm2 ([fin a, fin b] : List (Fl ℝ)) = fin 1 := by
      simp only [norm2, List.map_cons, List.map_nil, pmul_fin]
      rw [show ([fin (a * a), fin (b * b)] : List (Fl ℝ)) = fins [a * a, b * b] from rfl, psum_fin, psqrt_fin]
      · simp [h1]
      · simp [h1]
    have e2 : norm2 (diff ([fin a, fin b] : List (Fl ℝ))) = fin 1 := by
      rw [show diff ([fin a, fin b] : List (Fl ℝ)) = [fin (b - a)] from rfl]
      simp only [norm2, List.map_cons, List.map_nil, pmul_fin]
      rw [show ([fin ((b - a) * (b - a))] : List (Fl ℝ)) = fins [(b - a) * (b - a)] from rfl, psum_fin, psqrt_fin]
      · simp [h2]
      · simp [h2]
    simp only [mobVal, e1, e2, List.length_cons, List.length_nil, ofNat_eq]
    rw [pdiv_fin (by norm_num), pdiv_fin (by norm_num)]
    norm_num
    rw [hr, pdiv_fin (by norm_num)]
    norm_num
  apply C22_ssa_identity [1, 0] (fin 4) (fin 3) (fin 2) 2 (by decide) (by decide) (fun _ => .ok 2)
    (fun _ => .ok ⟨2, 2, fun r c => fin (if r = c then (0 : ℝ) else 1)⟩) (fun r c => if r = c then (0 : ℝ) else 1) rfl rfl
  · have : (List.range 2).map (fun t => PyMath.sin (lit 2 *. PyMath.pi *. ofNat t *. (fin 3) /. (fin 4))) =
        ([fin 0, fin (-1)] : List (Fl ℝ)) := by
      simp only [List.range_succ, List.range_zero, List.nil_append, List.cons_append, List.map_cons, List.map_nil, lit_eq,
        ppi, ofNat_eq, pmul_fin]
      rw [pdiv_fin (by norm_num), pdiv_fin (by norm_num)]
      simp only [psin_fin]
      norm_num
      norm_num at hs
      exact hs
    rw [this, hm 0 (-1) (by norm_num) (by norm_num)]
  · intro r hr t ht
    interval_cases r <;> interval_cases t <;> simp [Finset.sum_range_succ]
  · intro i hi
    interval_cases i
    · rw [show (List.range 2).map (fun r => (fin (if r = 0 then (0 : ℝ) else 1) : Fl ℝ)) = [fin 0, fin 1] by
        simp [List.range_succ], hm 0 1 (by norm_num) (by norm_num)]
      simp
    · rw [show (List.range 2).map (fun r => (fin (if r = 1 then (0 : ℝ) else 1) : Fl ℝ)) = [fin 1, fin 0] by
        simp [List.range_succ], hm 1 0 (by norm_num) (by norm_num)]
      simp

end Proadv.Props
