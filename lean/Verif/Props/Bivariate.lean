import Verif.Model.Bivariate
import Verif.Props.Kernel2
import Mathlib.Data.Nat.Factorial.DoubleFactorial
import Mathlib.Algebra.Order.Floor.Semiring
import Mathlib.Algebra.BigOperators.Intervals

/-!
# Properties C83–C87: binning, scaling, constants and the root search of `kernel/bivariate.py`
-/

set_option linter.unusedSectionVars false

namespace Proadv.Props

open Proadv Fl Bivariate KernelDetect

/-! ## C84 -/

theorem countP_range_lt (x : ℝ) (n : Nat) : (List.range n).countP (fun i : Nat => decide ((i : ℝ) < x)) = Min.min n ⌈x⌉₊ := by
  induction n with
  | zero => simp
  | succ n ih =>
    rw [List.range_succ, List.countP_append, ih]
    by_cases h : (n : ℝ) < x
    · have := Nat.lt_ceil.mpr h
      simp [h]; omega
    · have : ⌈x⌉₊ ≤ n := by
        by_contra hc; exact h (Nat.lt_ceil.mp (by omega))
      simp [h]; omega

theorem edges_fins (g : Nat) (hg : 0 < g) : (edges g : List (Fl ℝ)) = fins ((List.range (g + 1)).map (fun i : Nat => (i : ℝ) / g)) := by
  have hg' : (g : ℝ) ≠ 0 := by exact_mod_cast hg.ne'
  unfold edges fins
  rw [List.map_map]
  refine List.map_congr_left fun i _ => ?_
  by_cases h : i = g
  · rw [if_pos ⟨h, hg⟩, h]
    simp [div_self hg']
  · rw [if_neg (by tauto)]
    simp [pdiv_fin hg', div_eq_mul_inv]

namespace BSpec

/-- the cell of a coordinate on a grid of `g` cells -/
noncomputable def cell (g : Nat) (t : ℝ) : Nat := Min.min ⌈(g : ℝ) * t⌉₊ (g - 1)

end BSpec

/-- **C84.** cell `min(ceil(g t), g - 1)` for every finite coordinate, on every grid -/
theorem C84_binning (g : Nat) (hg : 0 < g) (t : ℝ) : bin g (fin t : Fl ℝ) = Min.min ⌈(g : ℝ) * t⌉₊ (g - 1) := by
  have hg' : (0 : ℝ) < g := by exact_mod_cast hg
  unfold bin
  rw [edges_fins g hg]
  have : (fins ((List.range (g + 1)).map (fun i : Nat => (i : ℝ) / g)) : List (Fl ℝ)).countP
      (fun e => PyNum.isNaN (fin t : Fl ℝ) || (e <. (fin t : Fl ℝ))) = Min.min (g + 1) ⌈(g : ℝ) * t⌉₊ := by
    rw [← countP_range_lt]
    unfold fins
    rw [List.map_map, List.countP_map]
    congr 1
    funext i
    simp only [Function.comp, isNaN_fin, Bool.false_or, plt_fin]
    congr 1
    rw [div_lt_iff₀ hg', mul_comm]
  rw [this]; omega

/-- **C84.** NaN goes to the last cell -/
theorem C84_nan (g : Nat) : bin g (nan : Fl ℝ) = g - 1 := by
  unfold bin
  have : (edges g : List (Fl ℝ)).countP (fun e => PyNum.isNaN (nan : Fl ℝ) || (e <. (nan : Fl ℝ))) = g + 1 := by
    have h : (fun e : Fl ℝ => PyNum.isNaN (nan : Fl ℝ) || (e <. (nan : Fl ℝ))) = fun _ => true := by
      funext e; rfl
    rw [h, List.countP_true]; simp [edges]
  rw [this]; omega

/-- **C84.** cells are in range; on two or more cells, cell 0 holds exactly the coordinates `≤ 0` -/
theorem C84_first_cell (g : Nat) (hg : 2 ≤ g) (t : ℝ) : (bin g (fin t : Fl ℝ) < g) ∧ (bin g (fin t : Fl ℝ) = 0 ↔ t ≤ 0) := by
  have hg' : (0 : ℝ) < g := by exact_mod_cast (show 0 < g by omega)
  rw [C84_binning g (by omega)]
  refine ⟨by omega, ?_⟩
  have h : ⌈(g : ℝ) * t⌉₊ = 0 ↔ t ≤ 0 := by
    rw [Nat.ceil_eq_zero]
    constructor
    · intro h; by_contra hc; nlinarith [not_le.mp hc]
    · intro h; nlinarith
  rw [← h]; omega

/-- **C84.** a coordinate of cell `c`, `0 < c < g - 1`, lies in `((c-1)/g, c/g]` -/
theorem C84_interval (g c : Nat) (t : ℝ) (hc : 0 < c) (hg : c + 1 < g) :
    bin g (fin t : Fl ℝ) = c ↔ ((c : ℝ) - 1) / g < t ∧ t ≤ (c : ℝ) / g := by
  have hg' : (0 : ℝ) < g := by exact_mod_cast (show 0 < g by omega)
  rw [C84_binning g (by omega)]
  have h1 : Min.min ⌈(g : ℝ) * t⌉₊ (g - 1) = c ↔ ⌈(g : ℝ) * t⌉₊ = c := by omega
  rw [h1, Nat.ceil_eq_iff hc.ne', div_lt_iff₀ hg', le_div_iff₀ hg', mul_comm t, Nat.cast_sub (by omega)]
  simp

/-! ## C83 -/

/-- a matrix given by its entries -/
def matOf (n m : Nat) (c : Nat → Nat → ℝ) : List (List (Fl ℝ)) :=
  (List.range n).map (fun i => (List.range m).map (fun j => (fin (c i j) : Fl ℝ)))

theorem matOf_congr {n m : Nat} {c d : Nat → Nat → ℝ} (h : ∀ i < n, ∀ j < m, c i j = d i j) : matOf n m c = matOf n m d := by
  unfold matOf
  refine List.map_congr_left fun i hi => ?_
  refine List.map_congr_left fun j hj => ?_
  rw [h i (List.mem_range.mp hi) j (List.mem_range.mp hj)]

theorem addAt_matOf (n m : Nat) (c : Nat → Nat → ℝ) (a b : Nat) (v : ℝ) :
    addAt (matOf n m c) a b (fin v) = matOf n m (fun i j => if i = a ∧ j = b then c i j + v else c i j) := by
  unfold addAt matOf
  apply List.ext_getElem (by simp)
  intro i h1 h2
  rw [List.getElem_modify]
  simp only [List.getElem_map, List.getElem_range]
  by_cases hi : a = i
  · rw [if_pos hi]
    apply List.ext_getElem (by simp)
    intro j h3 h4
    rw [List.getElem_modify]
    simp only [List.getElem_map, List.getElem_range]
    by_cases hj : b = j
    · rw [if_pos hj, if_pos ⟨hi.symm, hj.symm⟩]; simp
    · rw [if_neg hj, if_neg (by tauto)]
  · rw [if_neg hi]
    refine List.map_congr_left fun j _ => ?_
    rw [if_neg (by tauto)]

theorem accumarray_count (subs : List (Nat × Nat)) (n m : Nat) :
    accumarray subs (List.replicate subs.length (lit 1 : Fl ℝ)) n m = matOf n m (fun i j => (subs.count (i, j) : ℝ)) := by
  unfold accumarray
  have h0 : (List.replicate n (List.replicate m (lit 0)) : List (List (Fl ℝ))) = matOf n m (fun _ _ => 0) := by
    unfold matOf
    simp [List.map_const']
  rw [h0]
  have key : ∀ (subs : List (Nat × Nat)) (c : Nat → Nat → ℝ),
      (List.zip subs (List.replicate subs.length (lit 1 : Fl ℝ))).foldl (fun acc sv => addAt acc sv.1.1 sv.1.2 sv.2) (matOf n m c)
        = matOf n m (fun i j => c i j + (subs.count (i, j) : ℝ)) := by
    intro subs
    induction subs with
    | nil => intro c; simp
    | cons s t ih =>
      intro c
      rw [List.length_cons, List.replicate_succ, List.zip_cons_cons, List.foldl_cons,
        show (lit 1 : Fl ℝ) = fin 1 by simp, addAt_matOf]
      have := ih (fun i j => if i = s.1 ∧ j = s.2 then c i j + 1 else c i j)
      rw [show (lit 1 : Fl ℝ) = fin 1 by simp] at this
      rw [this]
      apply matOf_congr
      intro i _ j _
      rw [List.count_cons]
      by_cases h : i = s.1 ∧ j = s.2
      · rw [if_pos h]
        have : (s == (i, j)) = true := by rw [h.1, h.2]; simp
        rw [this]; push_cast; simp; ring
      · rw [if_neg h]
        have : (s == (i, j)) = false := by
          rw [beq_eq_false_iff_ne]; rintro rfl; exact h ⟨rfl, rfl⟩
        rw [this]; simp
  rw [key]
  exact matOf_congr fun i _ j _ => by simp

theorem count_total (subs : List (Nat × Nat)) (n m : Nat) (h : ∀ s ∈ subs, s.1 < n ∧ s.2 < m) :
    ((List.range n).map (fun i => ((List.range m).map (fun j => (subs.count (i, j) : ℝ))).sum)).sum = subs.length := by
  have hs : ∀ (k : Nat) (f : Nat → ℝ), ((List.range k).map f).sum = ∑ i ∈ Finset.range k, f i := by
    intro k f
    induction k with
    | zero => simp
    | succ k ih => rw [List.range_succ, List.map_append, List.sum_append, ih, Finset.sum_range_succ]; simp
  simp only [hs]
  induction subs with
  | nil => simp
  | cons s t ih =>
    have ih' := ih fun x hx => h x (by simp [hx])
    obtain ⟨h1, h2⟩ := h s (by simp)
    have e : ∀ i j, ((List.count (i, j) (s :: t) : ℕ) : ℝ) = (t.count (i, j) : ℝ) + if i = s.1 then (if j = s.2 then 1 else 0) else 0 := by
      intro i j
      rw [List.count_cons]
      by_cases hi : i = s.1 <;> by_cases hj : j = s.2
      · have : (s == (i, j)) = true := by rw [hi, hj]; simp
        simp [hi, hj]
      · have : (s == (i, j)) = false := by rw [beq_eq_false_iff_ne]; rintro rfl; exact hj rfl
        simp [this, hj]
      · have : (s == (i, j)) = false := by rw [beq_eq_false_iff_ne]; rintro rfl; exact hi rfl
        simp [this, hi]
      · have : (s == (i, j)) = false := by rw [beq_eq_false_iff_ne]; rintro rfl; exact hi rfl
        simp [this, hi]
    simp only [e, Finset.sum_add_distrib, ih', List.length_cons]
    have h3 : ∀ i, (∑ j ∈ Finset.range m, if i = s.1 then (if j = s.2 then (1 : ℝ) else 0) else 0) = if i = s.1 then 1 else 0 := by
      intro i
      by_cases hi : i = s.1
      · simp [hi, h2]
      · simp [hi]
    simp only [h3]
    rw [Finset.sum_ite_eq' (Finset.range n) s.1 (fun _ => (1 : ℝ)), if_pos (Finset.mem_range.mpr h1)]
    push_cast; ring

/-- the histogram in closed form -/
theorem histogram_eq (tx ty : List ℝ) (g : Nat) (hg : 0 < g) (hl : tx.length = ty.length) (hne : tx ≠ []) :
    histogram (fins tx) (fins ty) g = .ok (matOf g g (fun i j =>
      ((List.zip (tx.map (BSpec.cell g)) (ty.map (BSpec.cell g))).count (i, j) : ℝ) / tx.length)) := by
  unfold histogram
  rw [if_neg hg.ne']
  have hb : ∀ l : List ℝ, (fins l : List (Fl ℝ)).map (bin g) = l.map (BSpec.cell g) := by
    intro l
    unfold fins
    rw [List.map_map]
    exact List.map_congr_left fun t _ => C84_binning g hg t
  rw [hb, hb]
  simp only
  rw [accumarray_count]
  have hlen : (List.zip (tx.map (BSpec.cell g)) (ty.map (BSpec.cell g))).length = tx.length := by simp [hl]
  have hn0 : (tx.length : ℝ) ≠ 0 := by
    have : tx.length ≠ 0 := by simpa using hne
    exact_mod_cast this
  rw [hlen]
  congr 1
  unfold matOf
  rw [List.map_map]
  refine List.map_congr_left fun i _ => ?_
  simp only [Function.comp, List.map_map]
  refine List.map_congr_left fun j _ => ?_
  simp only [Function.comp, ofNat_eq, pdiv_fin hn0]

/-- **C83.** the histogram of `n ≥ 1` samples: entry `(i, j)` is the fraction of samples in cell `(i, j)`; the entries are
non-negative and sum to 1 -/
theorem C83_histogram (tx ty : List ℝ) (g : Nat) (hg : 0 < g) (hl : tx.length = ty.length) (hne : tx ≠ []) :
    ∃ c : Nat → Nat → ℝ, histogram (fins tx) (fins ty) g = .ok (matOf g g c) ∧
      (∀ i j, c i j = ((List.range tx.length).countP (fun k =>
        decide (bin g (fin (tx.getD k 0) : Fl ℝ) = i) && decide (bin g (fin (ty.getD k 0) : Fl ℝ) = j)) : ℝ) / tx.length) ∧
      (∀ i j, 0 ≤ c i j) ∧
      ((List.range g).map (fun i => ((List.range g).map (fun j => c i j)).sum)).sum = 1 := by
  refine ⟨_, histogram_eq tx ty g hg hl hne, ?_, ?_, ?_⟩
  · intro i j
    congr 2
    rw [List.count, ]
    have : List.zip (tx.map (BSpec.cell g)) (ty.map (BSpec.cell g))
        = (List.range tx.length).map (fun k => (BSpec.cell g (tx.getD k 0), BSpec.cell g (ty.getD k 0))) := by
      apply List.ext_getElem (by simp [hl])
      intro k h1 h2
      have hk : k < tx.length := by simpa using h2
      have hk' : k < ty.length := hl ▸ hk
      simp [List.getElem?_eq_getElem hk, List.getElem?_eq_getElem hk']
    rw [this, List.countP_map]
    congr 1
    funext k
    simp only [Function.comp, C84_binning g hg]
    unfold BSpec.cell
    rw [Bool.eq_iff_iff]; simp
  · intro i j; positivity
  · have hcell : ∀ s ∈ List.zip (tx.map (BSpec.cell g)) (ty.map (BSpec.cell g)), s.1 < g ∧ s.2 < g := by
      intro s hs
      have h1 := List.of_mem_zip (a := s.1) (b := s.2) hs
      obtain ⟨a, -, ha⟩ := List.mem_map.mp h1.1
      obtain ⟨b, -, hb⟩ := List.mem_map.mp h1.2
      rw [← ha, ← hb]; unfold BSpec.cell; omega
    have hn0 : (tx.length : ℝ) ≠ 0 := by
      have : tx.length ≠ 0 := by simpa using hne
      exact_mod_cast this
    have ht := count_total _ g g hcell
    have hdiv : ∀ (l : List ℝ) (d : ℝ), (l.map (fun x => x / d)).sum = l.sum / d := by
      intro l d
      induction l with
      | nil => simp
      | cons a t ih => simp only [List.map_cons, List.sum_cons, ih]; ring
    have e : ((List.range g).map (fun i => ((List.range g).map (fun j =>
        ((List.zip (tx.map (BSpec.cell g)) (ty.map (BSpec.cell g))).count (i, j) : ℝ) / tx.length)).sum)).sum
        = (((List.range g).map (fun i => ((List.range g).map (fun j =>
          ((List.zip (tx.map (BSpec.cell g)) (ty.map (BSpec.cell g))).count (i, j) : ℝ))).sum)).sum) / tx.length := by
      rw [← hdiv, List.map_map]
      congr 1
      refine List.map_congr_left fun i _ => ?_
      simp only [Function.comp]
      rw [← hdiv, List.map_map]; rfl
    rw [e, ht]
    have : (List.zip (tx.map (BSpec.cell g)) (ty.map (BSpec.cell g))).length = tx.length := by simp [hl]
    rw [this, div_self hn0]

/-- **C83.** a grid without cells raises IndexError -/
theorem C83_no_grid (tx ty : List (Fl ℝ)) : histogram tx ty 0 = .error .indexError := rfl

/-! ## C85 -/

/-- **C85.** for a non-constant row with minimum `lo` and maximum `hi`: the transformed row is in `[0, 1]`, `lo` goes to 0,
`hi` to 1, and the order (strict and equality) is preserved -/
theorem C85_scaling (xs : List ℝ) (lo hi : ℝ) (hlo : lo ∈ xs ∧ ∀ x ∈ xs, lo ≤ x) (hhi : hi ∈ xs ∧ ∀ x ∈ xs, x ≤ hi) :
    scaling (fins xs) = .ok ((fin hi, fin lo, fin (hi - lo)) : Fl ℝ × Fl ℝ × Fl ℝ) ∧
    (lo < hi → ∃ f : ℝ → ℝ, transform1 (fins xs) (fin lo) (fin (hi - lo)) = fins (xs.map f) ∧ f lo = 0 ∧ f hi = 1 ∧
      (∀ x ∈ xs, 0 ≤ f x ∧ f x ≤ 1) ∧ ∀ x y, (x < y ↔ f x < f y)) := by
  constructor
  · unfold scaling
    rw [npMax_fins xs hi hhi.1 hhi.2, npMin_fins xs lo hlo.1 hlo.2]
    simp [bind, Except.bind]
  · intro h
    have hd : 0 < hi - lo := sub_pos.mpr h
    refine ⟨fun x => (x - lo) / (hi - lo), ?_, by simp, div_self hd.ne', ?_, ?_⟩
    · unfold transform1 fins
      rw [List.map_map, List.map_map]
      exact List.map_congr_left fun x _ => by simp [pdiv_fin hd.ne']
    · intro x hx
      have h1 := hlo.2 x hx; have h2 := hhi.2 x hx
      exact ⟨div_nonneg (by linarith) hd.le, by rw [div_le_one hd]; linarith⟩
    · intro x y
      rw [div_lt_div_iff_of_pos_right hd]
      constructor <;> intro h <;> linarith

/-- **C85.** a constant row is transformed to NaNs -/
theorem C85_constant (n : Nat) (c : ℝ) : transform1 (fins (List.replicate n c)) (fin c : Fl ℝ) (fin (c - c)) = List.replicate n nan := by
  simp [transform1, fins, pdiv_fin', infSgn]

/-! ## C86 -/

/-- **C86.** -/
theorem C86_k (s : Nat) :
    (kVal s : Fl ℝ) = fin ((-1) ^ s * ((Nat.doubleFactorial (2 * s - 1) : ℕ) : ℝ) / Real.sqrt (2 * Real.pi)) := by
  unfold kVal
  have hceil : ⌈((2 * (s : ℚ) - 1 + 1 / 10 * 2) - 1) / 2⌉.toNat = s := by
    have : ⌈((2 * (s : ℚ) - 1 + 1 / 10 * 2) - 1) / 2⌉ = (s : ℤ) := by
      rw [Int.ceil_eq_iff]
      constructor <;> push_cast <;> linarith
    rw [this]; simp
  have hfold : ∀ n : Nat, ((List.range n).map (fun i : Nat => (1 : ℚ) + i * 2)).foldl (fun (a : Fl ℝ) q => a *. lit q) (lit 1)
      = fin ((Nat.doubleFactorial (2 * n - 1) : ℕ) : ℝ) := by
    intro n
    induction n with
    | zero => simp
    | succ n ih =>
      rw [List.range_succ, List.map_append, List.foldl_append, ih]
      have hdf : Nat.doubleFactorial (2 * (n + 1) - 1) = (2 * n + 1) * Nat.doubleFactorial (2 * n - 1) := by
        rcases n with _ | n
        · rfl
        · have : 2 * (n + 1 + 1) - 1 = (2 * (n + 1) - 1) + 2 := by omega
          rw [this, Nat.doubleFactorial_add_two]
          congr 1
      rw [hdf]
      simp only [List.map_cons, List.map_nil, List.foldl_cons, List.foldl_nil, lit_eq, pmul_fin]
      congr 1
      push_cast; ring
  unfold arangeQ
  rw [hceil, hfold]
  have hpi : (0 : ℝ) ≤ 2 * Real.pi := by positivity
  have hs : Real.sqrt (2 * Real.pi) ≠ 0 := (Real.sqrt_pos.mpr (by positivity)).ne'
  have e : (lit 2 *. PyMath.pi : Fl ℝ) = fin (2 * Real.pi) := by
    simp only [lit_eq]; show (fin _ *. fin Real.pi : Fl ℝ) = _; rw [pmul_fin]; norm_num
  rw [e, psqrt_fin hpi, lit_eq, pmul_fin, pdiv_fin hs]
  push_cast; rfl

/-! ## C87 -/

section root

/-- the bracket after `k` doublings -/
theorem clampN_bounds (n : Int) : 50 ≤ clampN n ∧ clampN n ≤ 1050 := by
  unfold clampN
  split <;> split <;> split <;> omega

theorem tol0_eq (n : Int) : ∃ a : ℝ, (tol0 n : Fl ℝ) = fin a ∧ (1 / 10 ^ 12 : ℝ) ≤ a ∧ a < 1 / 10 := by
  refine ⟨1 / 10 ^ 12 + 1 / 100 * ((clampN n - 50 : Int) : ℝ) / 1000, ?_, ?_, ?_⟩
  · unfold tol0
    simp only [lit_eq, pmul_fin]
    rw [pdiv_fin (by norm_num), padd_fin]
    push_cast; rfl
  · obtain ⟨h, -⟩ := clampN_bounds n
    have : (0 : ℝ) ≤ ((clampN n - 50 : Int) : ℝ) := by exact_mod_cast (by omega)
    have : 0 ≤ 1 / 100 * ((clampN n - 50 : Int) : ℝ) / 1000 := by positivity
    linarith
  · obtain ⟨-, h⟩ := clampN_bounds n
    have : ((clampN n - 50 : Int) : ℝ) ≤ 1000 := by exact_mod_cast (by omega)
    have e : 1 / 100 * ((clampN n - 50 : Int) : ℝ) / 1000 ≤ 1 / 100 := by linarith
    have : (1 / 10 ^ 12 : ℝ) < 1 / 100 := by norm_num
    linarith

/-- one unfolding with a finite bracket below 0.1 -/
theorem rootLoop_step (brent : Fl ℝ → Py (Fl ℝ)) (fmin : Py (Fl ℝ)) (fuel : Nat) (a : ℝ) (ha : a < 1 / 10) :
    rootLoop brent fmin (fuel + 1) (fin a) =
      match brent (fin a) with
      | .ok t => some (.ok t)
      | .error .valueError => if a * 2 < 1 / 10 then rootLoop brent fmin fuel (fin (a * 2)) else some fmin
      | .error e => some (.error e) := by
  have hl : (lit (1 / 10) : Fl ℝ) = fin (1 / 10) := by rw [lit_eq]; norm_num
  have h2 : (fin a *. lit 2 : Fl ℝ) = fin (a * 2) := by rw [lit_eq, pmul_fin]; norm_num
  rw [rootLoop]
  cases hb : brent (fin a) with
  | ok t =>
    simp only
    rw [hl, ple_fin, if_neg (by simpa using ha)]
  | error e =>
    cases e <;> simp only
    rw [hl, h2, plt_fin]
    by_cases h : a * 2 < 1 / 10
    · have e : (if decide ((1 : ℝ) / 10 < a * 2) = true then (fin (1 / 10) : Fl ℝ) else fin (a * 2)) = fin (a * 2) :=
        if_neg (by simpa using h.le)
      rw [if_pos h, e, ple_fin, if_neg (by simpa using h)]
    · rw [if_neg h]
      by_cases h' : 1 / 10 < a * 2
      · have e : (if decide ((1 : ℝ) / 10 < a * 2) = true then (fin (1 / 10) : Fl ℝ) else fin (a * 2)) = fin (1 / 10) :=
          if_pos (by simpa using h')
        rw [e, ple_fin, if_pos (by simp)]
      · have e : (if decide ((1 : ℝ) / 10 < a * 2) = true then (fin (1 / 10) : Fl ℝ) else fin (a * 2)) = fin (a * 2) :=
          if_neg (by simpa using h')
        rw [e, ple_fin, if_pos (by simpa using h)]

/-- **C87.** for every oracle (every function) and sample size, 37 attempts suffice -/
theorem C87_terminates (brent : Fl ℝ → Py (Fl ℝ)) (fmin : Py (Fl ℝ)) (n : Int) :
    ∃ r, root brent fmin 37 n = some r ∧ ∀ fuel, 37 ≤ fuel → root brent fmin fuel n = some r := by
  have key : ∀ (k : Nat) (a : ℝ), a < 1 / 10 → 1 / 10 ≤ a * 2 ^ k → 0 < k →
      ∃ r, ∀ fuel, k ≤ fuel → rootLoop brent fmin fuel (fin a) = some r := by
    intro k
    induction k with
    | zero => intro a _ _ h; omega
    | succ k ih =>
      intro a ha hk _
      cases hb : brent (fin a) with
      | ok t =>
        refine ⟨.ok t, fun fuel hf => ?_⟩
        obtain ⟨f, rfl⟩ : ∃ f, fuel = f + 1 := ⟨fuel - 1, by omega⟩
        rw [rootLoop_step _ _ _ _ ha, hb]
      | error e =>
        by_cases he : e = .valueError
        · subst he
          by_cases h2 : a * 2 < 1 / 10
          · have hk0 : 0 < k := by
              rcases k with _ | k
              · norm_num at hk h2; linarith
              · omega
            obtain ⟨r, hr⟩ := ih (a * 2) h2 (by rw [pow_succ] at hk; linarith) hk0
            refine ⟨r, fun fuel hf => ?_⟩
            obtain ⟨f, rfl⟩ : ∃ f, fuel = f + 1 := ⟨fuel - 1, by omega⟩
            rw [rootLoop_step _ _ _ _ ha, hb]
            simp only
            rw [if_pos h2]
            exact hr f (by omega)
          · refine ⟨fmin, fun fuel hf => ?_⟩
            obtain ⟨f, rfl⟩ : ∃ f, fuel = f + 1 := ⟨fuel - 1, by omega⟩
            rw [rootLoop_step _ _ _ _ ha, hb]
            simp only
            rw [if_neg h2]
        · refine ⟨.error e, fun fuel hf => ?_⟩
          obtain ⟨f, rfl⟩ : ∃ f, fuel = f + 1 := ⟨fuel - 1, by omega⟩
          rw [rootLoop_step _ _ _ _ ha, hb]
          cases e <;> first | rfl | exact absurd rfl he
  obtain ⟨a, ha, h1, h2⟩ := tol0_eq n
  obtain ⟨r, hr⟩ := key 37 a h2 (by nlinarith) (by norm_num)
  refine ⟨r, ?_, fun fuel hf => ?_⟩
  · unfold root; rw [ha]; exact hr 37 le_rfl
  · unfold root; rw [ha]; exact hr fuel hf

/-- **C87.** the bound is sharp: if `brentq` never brackets a root, a sample of at most 50 needs all 37 attempts -/
theorem C87_sharp (fmin : Py (Fl ℝ)) (n : Int) (hn : n ≤ 50) :
    root (fun _ => .error .valueError) fmin 36 n = none ∧ root (fun _ => .error .valueError) fmin 37 n = some fmin := by
  have ht : (tol0 n : Fl ℝ) = fin (1 / 10 ^ 12) := by
    have hc : clampN n = 50 := by unfold clampN; split <;> split <;> split <;> omega
    unfold tol0
    rw [hc]
    simp only [lit_eq, pmul_fin]
    rw [pdiv_fin (by norm_num), padd_fin]
    norm_num
  have none_of : ∀ (k : Nat) (a : ℝ), 0 < a → a * 2 ^ k < 1 / 10 →
      rootLoop (fun _ => .error .valueError) fmin k (fin a) = none := by
    intro k
    induction k with
    | zero => intro a _ _; rfl
    | succ k ih =>
      intro a h0 hk
      have h1 : (1 : ℝ) ≤ 2 ^ k := one_le_pow₀ (by norm_num)
      have h2 : a * 2 < 1 / 10 := by rw [pow_succ] at hk; nlinarith
      rw [rootLoop_step _ _ _ _ (by linarith)]
      simp only
      rw [if_pos h2]
      exact ih _ (by linarith) (by rw [pow_succ] at hk; linarith)
  have some_of : ∀ (k : Nat) (a : ℝ), 0 < a → a * 2 ^ k < 1 / 10 → 1 / 10 ≤ a * 2 ^ (k + 1) →
      rootLoop (fun _ => .error .valueError) fmin (k + 1) (fin a) = some fmin := by
    intro k
    induction k with
    | zero =>
      intro a h0 h1 h2
      rw [rootLoop_step _ _ _ _ (by simpa using h1)]
      simp only
      rw [if_neg (by norm_num at h2 ⊢; linarith)]
    | succ k ih =>
      intro a h0 h1 h2
      have h3 : (1 : ℝ) ≤ 2 ^ k := one_le_pow₀ (by norm_num)
      have h4 : a * 2 < 1 / 10 := by rw [pow_succ] at h1; nlinarith
      rw [rootLoop_step _ _ _ _ (by linarith)]
      simp only
      rw [if_pos h4]
      exact ih _ (by linarith) (by rw [pow_succ] at h1; linarith) (by rw [pow_succ] at h2; linarith)
  unfold root
  rw [ht]
  exact ⟨none_of 36 _ (by norm_num) (by norm_num), some_of 36 _ (by norm_num) (by norm_num) (by norm_num)⟩

/-- **C87.** which value is returned: `brentq` is tried on `[0, a], [0, 2a], [0, 4a], …` below 0.1 until it does not raise
ValueError; its value or other exception is the result.  If all attempts raise ValueError the result is `fminbound`'s. -/
theorem C87_result (brent : Fl ℝ → Py (Fl ℝ)) (fmin : Py (Fl ℝ)) (n : Int) (r : Py (Fl ℝ)) (h : root brent fmin 37 n = some r) :
    ∃ a : ℝ, (tol0 n : Fl ℝ) = fin a ∧
      ((∃ k : Nat, a * 2 ^ k < 1 / 10 ∧ (∀ j < k, brent (fin (a * 2 ^ j)) = .error .valueError) ∧
          brent (fin (a * 2 ^ k)) = r ∧ r ≠ .error .valueError) ∨
       (r = fmin ∧ ∀ k : Nat, a * 2 ^ k < 1 / 10 → brent (fin (a * 2 ^ k)) = .error .valueError)) := by
  have key : ∀ (fuel : Nat) (a : ℝ), 0 < a → a < 1 / 10 → rootLoop brent fmin fuel (fin a) = some r →
      ((∃ k : Nat, a * 2 ^ k < 1 / 10 ∧ (∀ j < k, brent (fin (a * 2 ^ j)) = .error .valueError) ∧
          brent (fin (a * 2 ^ k)) = r ∧ r ≠ .error .valueError) ∨
       (r = fmin ∧ ∀ k : Nat, a * 2 ^ k < 1 / 10 → brent (fin (a * 2 ^ k)) = .error .valueError)) := by
    intro fuel
    induction fuel with
    | zero => intro a _ _ h; cases h
    | succ fuel ih =>
      intro a h0 ha hr
      rw [rootLoop_step _ _ _ _ ha] at hr
      cases hb : brent (fin a) with
      | ok t =>
        rw [hb] at hr
        have : r = .ok t := (Option.some.inj hr).symm
        exact Or.inl ⟨0, by simpa using ha, by simp, by rw [pow_zero, mul_one, hb, this], by rw [this]; simp⟩
      | error e =>
        rw [hb] at hr
        by_cases he : e = .valueError
        · subst he
          simp only at hr
          by_cases h2 : a * 2 < 1 / 10
          · rw [if_pos h2] at hr
            have hpw : ∀ j : Nat, a * 2 * 2 ^ j = a * 2 ^ (j + 1) := fun j => by rw [pow_succ]; ring
            rcases ih (a * 2) (by linarith) h2 hr with ⟨k, hk, hj, hv, hne⟩ | ⟨hf, hall⟩
            · refine Or.inl ⟨k + 1, by rw [← hpw]; exact hk, ?_, by rw [← hpw]; exact hv, hne⟩
              intro j hj'
              rcases j with _ | j
              · simpa using hb
              · rw [← hpw]; exact hj j (by omega)
            · refine Or.inr ⟨hf, fun k hk => ?_⟩
              rcases k with _ | k
              · simpa using hb
              · rw [← hpw] at hk ⊢; exact hall k hk
          · rw [if_neg h2] at hr
            refine Or.inr ⟨(Option.some.inj hr).symm, fun k hk => ?_⟩
            rcases k with _ | k
            · simpa using hb
            · exfalso
              have h1 : (1 : ℝ) ≤ 2 ^ k := one_le_pow₀ (by norm_num)
              rw [pow_succ] at hk; nlinarith
        · have : r = .error e := by
            cases e <;> first | exact (Option.some.inj hr).symm | exact absurd rfl he
          refine Or.inl ⟨0, by simpa using ha, by simp, by rw [pow_zero, mul_one, hb, this], ?_⟩
          rw [this]; intro hc; exact he (Except.error.inj hc)
  obtain ⟨a, ha, h1, h2⟩ := tol0_eq n
  refine ⟨a, ha, key 37 a (lt_of_lt_of_le (by norm_num) h1) h2 ?_⟩
  unfold root at h; rw [ha] at h; exact h

/-- **C87.** hence a returned value lies in `[0, 0.1]`, if the two library searches stay within their intervals -/
theorem C87_range (brent : Fl ℝ → Py (Fl ℝ)) (fmin : Py (Fl ℝ)) (n : Int)
    (hb : ∀ (b : ℝ) (t : Fl ℝ), brent (fin b) = .ok t → ∃ x : ℝ, t = fin x ∧ 0 ≤ x ∧ x ≤ b)
    (hf : ∀ t, fmin = .ok t → ∃ x : ℝ, t = fin x ∧ 0 ≤ x ∧ x ≤ 1 / 10) (t : Fl ℝ) (h : root brent fmin 37 n = some (.ok t)) :
    ∃ x : ℝ, t = fin x ∧ 0 ≤ x ∧ x ≤ 1 / 10 := by
  obtain ⟨a, -, ⟨k, hk, -, hv, -⟩ | ⟨hv, -⟩⟩ := C87_result brent fmin n _ h
  · obtain ⟨x, hx, h0, h1⟩ := hb _ _ hv
    exact ⟨x, hx, h0, by linarith⟩
  · exact hf t hv.symm

end root

/-- concrete cases: three samples on a grid of 4, a root found on the second bracket -/
theorem bivariate_witness : bin 4 (fin (1 / 2) : Fl ℝ) = 2 ∧ bin 4 (fin 1 : Fl ℝ) = 3 ∧ bin 4 (fin 0 : Fl ℝ) = 0 ∧
    (kVal 2 : Fl ℝ) = fin (3 / Real.sqrt (2 * Real.pi)) := by
  refine ⟨?_, ?_, ?_, ?_⟩
  · rw [C84_binning 4 (by norm_num)]; norm_num
  · rw [C84_binning 4 (by norm_num)]; norm_num
  · rw [C84_binning 4 (by norm_num)]; norm_num
  · rw [C86_k]; norm_num [Nat.doubleFactorial]

end Proadv.Props
