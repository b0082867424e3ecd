import Verif.Model.KernelGrid
import Verif.Props.Kde3
import Mathlib.Analysis.SpecialFunctions.Pow.Asymptotics

/-!
# C256: the mesh and the bandwidth of the trivariate kernel
-/

set_option linter.unusedSectionVars false

namespace Proadv.Props

open Proadv Fl KernelDetect

section generic
variable {F : Type} [PyMath F]

/-- **C256** (every float arithmetic) `_profile` of a mesh without nodes is an IndexError, whichever axis is empty -/
theorem C256_no_nodes (uf wf : List F) (h : uf = [] ∨ wf = []) : profile (meshX uf wf) (meshY uf wf) = .error .indexError := by
  rcases h with rfl | rfl
  · rfl
  · cases uf <;> rfl

example : profile (meshX [lit 1, lit 2] ([] : List F)) (meshY [lit 1, lit 2] []) = .error .indexError :=
  C256_no_nodes _ _ (Or.inr rfl)

/-- **C256** (every float arithmetic) `_profile` returns the two axes of a mesh, `_position` lists its nodes row by row — node
`i * g + j` is `(uf[i], wf[j])` — and reshaping the values at the nodes puts the value at `(uf[i], wf[j])` in row `i`, column `j`. -/
theorem C256_mesh (uf wf : List F) (h1 : uf ≠ []) (h2 : wf ≠ []) :
    profile (meshX uf wf) (meshY uf wf) = .ok (uf, wf) ∧ position (meshX uf wf) (meshY uf wf) = positions uf wf ∧
    (∀ (i j : ℕ) x y, uf[i]? = some x → wf[j]? = some y → (position (meshX uf wf) (meshY uf wf))[i * wf.length + j]? = some [x, y]) ∧
    ∀ (f : List F → F) (i j : ℕ) x y, wf.length = uf.length → uf[i]? = some x → wf[j]? = some y →
      ((reshape wf.length ((position (meshX uf wf) (meshY uf wf)).map f))[i]?.bind (fun row => row[j]?)) = some (f [x, y]) := by
  have hpos : position (meshX uf wf) (meshY uf wf) = positions uf wf := by
    unfold position meshX meshY positions
    clear h1
    induction uf with
    | nil => rfl
    | cons a as ih =>
      rw [List.map_cons, List.map_cons, List.flatten_cons, List.flatten_cons, List.flatMap_cons,
        List.zipWith_append (by simp), ih, List.zipWith_map_left]
      congr 1
      clear ih h2
      induction wf with
      | nil => rfl
      | cons b bs ih => rw [List.zipWith_cons_cons, List.map_cons, ih]
  have hnode : ∀ (i j : ℕ) x y, uf[i]? = some x → wf[j]? = some y → (positions uf wf)[i * wf.length + j]? = some [x, y] := by
    unfold positions
    clear h1 hpos
    induction uf with
    | nil => intro i j x y h; simp at h
    | cons a as ih =>
      intro i j x y hx hy
      have hj := (List.getElem?_eq_some_iff.mp hy).1
      rw [List.flatMap_cons]
      cases i with
      | zero =>
        rw [List.getElem?_append_left (by simpa using hj), Nat.zero_mul, Nat.zero_add, List.getElem?_map, hy]
        simp only [List.getElem?_cons_zero, Option.some.injEq] at hx
        rw [hx]; rfl
      | succ i =>
        rw [List.getElem?_append_right (by simp; ring_nf; omega)]
        have : (i + 1) * wf.length + j - (wf.map (fun y => [a, y])).length = i * wf.length + j := by
          rw [List.length_map, Nat.add_mul]; omega
        rw [this]
        exact ih i j x y (by simpa using hx) hy
  refine ⟨profile_mesh h1 h2, hpos, by rw [hpos]; exact hnode, ?_⟩
  intro f i j x y hl hx hy
  have hi := (List.getElem?_eq_some_iff.mp hx).1
  have hj := (List.getElem?_eq_some_iff.mp hy).1
  rw [hpos]
  unfold reshape
  rw [List.getElem?_map, List.getElem?_range (by omega)]
  simp only [Option.map_some, Option.bind_some]
  rw [List.getElem?_take, if_pos hj, List.getElem?_drop, List.getElem?_map, hnode i j x y hx hy]
  rfl

/-- **C256** (every float arithmetic) the axes and nodes used by `kernel` are those of `_scaling`, `_profile` and `_position`: on any
grid with a point `_scaling` fails exactly on an empty component, with ValueError. -/
theorem C256_scaling (x y : List F) (g : Nat) (hg : g ≠ 0) :
    ((x = [] ∨ y = []) → scaling x y g = .error .valueError) ∧
    (x ≠ [] → y ≠ [] → ∃ x0 x1 y0 y1, npMin x = .ok x0 ∧ npMax x = .ok x1 ∧ npMin y = .ok y0 ∧ npMax y = .ok y1 ∧
      ∃ mx my, scaling x y g = .ok (mx, my) ∧ profile mx my = .ok (gridAxis x0 x1 g, gridAxis y0 y1 g) ∧
        position mx my = positions (gridAxis x0 x1 g) (gridAxis y0 y1 g)) := by
  cases x with
  | nil => exact ⟨fun _ => rfl, fun h => absurd rfl h⟩
  | cons a as =>
    cases y with
    | nil => exact ⟨fun _ => rfl, fun _ h => absurd rfl h⟩
    | cons b bs =>
      refine ⟨fun h => by simp at h, fun _ _ => ⟨_, _, _, _, rfl, rfl, rfl, rfl, _, _, rfl, ?_⟩⟩
      have := fun a b c d : F => C256_mesh (gridAxis a b g) (gridAxis c d g) (gridAxis_ne _ _ hg) (gridAxis_ne _ _ hg)
      exact ⟨(this _ _ _ _).1, (this _ _ _ _).2.1⟩

end generic

private theorem cover_aux (lo h v : ℝ) (g : ℕ) (hg : 2 ≤ g) (h0 : lo ≤ v) (h1 : v ≤ lo + h * ((g : ℝ) - 1)) (hh : 0 ≤ h) :
    ∃ i < g, |v - (lo + h * i)| ≤ h / 2 := by
  rcases hh.eq_or_lt with rfl | hh
  · refine ⟨0, by omega, ?_⟩
    have : v = lo := by linarith
    rw [this]; simp
  have ht0 : 0 ≤ (v - lo) / h := div_nonneg (by linarith) hh.le
  have ht1 : (v - lo) / h ≤ (g : ℝ) - 1 := by rw [div_le_iff₀ hh]; linarith
  have hv : v = lo + h * ((v - lo) / h) := by field_simp; ring
  generalize (v - lo) / h = t at *
  have hr := abs_le.mp (abs_sub_round t)
  have hr0 : 0 ≤ round t := by
    have : (-1 : ℝ) < round t := by linarith [hr.2]
    have : (-1 : ℤ) < round t := by exact_mod_cast this
    omega
  have hr1 : round t < g := by
    have : (round t : ℝ) < g := by linarith [hr.1]
    exact_mod_cast this
  obtain ⟨n, hn⟩ := Int.eq_ofNat_of_zero_le hr0
  rw [hn] at hr hr1
  refine ⟨n, by exact_mod_cast hr1, ?_⟩
  rw [hv, show lo + h * t - (lo + h * n) = h * (t - n) by ring, abs_mul, abs_of_pos hh]
  have : |t - n| ≤ 1 / 2 := by
    rw [abs_le]
    push_cast at hr
    exact ⟨by linarith [hr.1], hr.2⟩
  nlinarith

/-- **C256** The mesh covers the samples: for finite samples and `g ≥ 2` points the axis built by `_scaling` has `g` points, starts at
the smallest and ends at the largest sample, has equal steps, and every sample is within half a step of one of its points. -/
theorem C256_cover (xs : List ℝ) (hne : xs ≠ []) (g : ℕ) (hg : 2 ≤ g) :
    ∃ (lo hi : ℝ) (ax : List ℝ), (lo ∈ xs ∧ ∀ x ∈ xs, lo ≤ x) ∧ (hi ∈ xs ∧ ∀ x ∈ xs, x ≤ hi) ∧
      (npMin (fins xs) >>= fun a => npMax (fins xs) >>= fun b => .ok (gridAxis a b g)) = (.ok (fins ax) : Py (List (Fl ℝ))) ∧
      ax.length = g ∧ ax[0]? = some lo ∧ ax[g - 1]? = some hi ∧
      (∀ i a b, ax[i]? = some a → ax[i + 1]? = some b → b - a = (hi - lo) / ((g : ℝ) - 1)) ∧
      ∀ x ∈ xs, ∃ a ∈ ax, |x - a| ≤ (hi - lo) / (2 * ((g : ℝ) - 1)) := by
  obtain ⟨lo, l1, l2⟩ := exists_min xs hne
  obtain ⟨hi, m1, m2⟩ := exists_max xs hne
  have h2 : (2 : ℝ) ≤ g := by exact_mod_cast hg
  have hg1 : (g : ℝ) - 1 ≠ 0 := by linarith
  have hget : ∀ i < g, (gridR lo hi g)[i]? = some (lo + (hi - lo) * i / ((g : ℝ) - 1)) := by
    intro i h
    unfold gridR
    rw [List.getElem?_map, List.getElem?_range h]; rfl
  refine ⟨lo, hi, gridR lo hi g, ⟨l1, l2⟩, ⟨m1, m2⟩, ?_, by simp [gridR], ?_, ?_, ?_, ?_⟩
  · rw [npMin_fins xs lo l1 l2, npMax_fins xs hi m1 m2]
    exact congrArg Except.ok (gridAxis_fins lo hi g hg)
  · rw [hget 0 (by omega)]; simp
  · rw [hget (g - 1) (by omega), Nat.cast_sub (by omega)]
    congr 1
    push_cast
    field_simp
    ring
  · intro i a b ha hb
    have hi' : i + 1 < g := by
      have := (List.getElem?_eq_some_iff.mp hb).1
      simpa [gridR] using this
    rw [hget i (by omega)] at ha
    rw [hget (i + 1) hi'] at hb
    rw [← Option.some.inj ha, ← Option.some.inj hb]
    push_cast
    field_simp
    ring
  · intro x hx
    have hd : 0 ≤ (hi - lo) / ((g : ℝ) - 1) := div_nonneg (by linarith [l2 hi m1]) (by linarith)
    obtain ⟨i, hi', hc⟩ := cover_aux lo ((hi - lo) / ((g : ℝ) - 1)) x g hg (l2 x hx)
      (by rw [div_mul_cancel₀ _ hg1]; linarith [m2 x hx]) hd
    refine ⟨_, List.mem_of_getElem? (hget i hi'), ?_⟩
    rw [show (hi - lo) * (i : ℝ) / ((g : ℝ) - 1) = (hi - lo) / ((g : ℝ) - 1) * i by ring]
    refine hc.trans (le_of_eq ?_)
    field_simp

/-- half a step cannot be improved: the middle sample of `0, 1, 2` on a grid of two points -/
example : ∀ a ∈ gridR 0 2 2, (2 - 0) / (2 * ((2 : ℕ) - 1 : ℝ)) ≤ |(1 : ℝ) - a| := by
  intro a ha
  simp only [gridR, List.range_succ, List.range_zero, List.nil_append, List.cons_append, List.map_cons, List.map_nil,
    List.mem_cons, List.not_mem_nil, or_false] at ha
  rcases ha with rfl | rfl <;> norm_num

/-- **C256** `_factor` is positive, 1 for a single sample, strictly smaller for more samples (so the bandwidth shrinks), strictly larger
for more rows, and below any `ε > 0` for all sufficiently long records. -/
theorem C256_factor (d : ℕ) :
    ∃ f : ℕ → ℕ → ℝ, (∀ d n : ℕ, 1 ≤ n → factor d (fin (n : ℝ) : Fl ℝ) = fin (f d n)) ∧ f d 1 = 1 ∧ (∀ n, 1 ≤ n → 0 < f d n) ∧
      (∀ m n, 1 ≤ m → m < n → f d n < f d m) ∧ (∀ n, 2 ≤ n → f d n < f (d + 1) n) ∧
      ∀ ε > 0, ∃ N, ∀ n, N ≤ n → f d n < ε := by
  have hd : ∀ d : ℕ, -1 / ((d : ℝ) + 4) < 0 := fun d => div_neg_of_neg_of_pos (by norm_num) (by positivity)
  refine ⟨fun d n => (n : ℝ) ^ (-1 / ((d : ℝ) + 4)), fun d n hn => (C81_weights n d hn).2.2.2, by simp, ?_, ?_, ?_, ?_⟩
  · intro n hn
    have : (0 : ℝ) < n := by exact_mod_cast hn
    positivity
  · intro m n hm hmn
    exact Real.rpow_lt_rpow_of_neg (by exact_mod_cast hm) (by exact_mod_cast hmn) (hd d)
  · intro n hn
    apply Real.rpow_lt_rpow_of_exponent_lt (by exact_mod_cast hn)
    have h4 : (0 : ℝ) < (d : ℝ) + 4 := by positivity
    have h5 : (0 : ℝ) < ((d + 1 : ℕ) : ℝ) + 4 := by positivity
    rw [div_lt_div_iff₀ h4 h5]
    push_cast
    linarith
  · intro ε hε
    have h4 : (0 : ℝ) < 1 / ((d : ℝ) + 4) := by positivity
    have ht := (tendsto_rpow_neg_atTop h4).comp tendsto_natCast_atTop_atTop
    obtain ⟨N, hN⟩ := Filter.eventually_atTop.mp (ht.eventually (gt_mem_nhds hε))
    refine ⟨N, fun n hn => ?_⟩
    have := hN n hn
    show (n : ℝ) ^ (-1 / ((d : ℝ) + 4)) < ε
    rw [neg_div]
    exact this

/-- five samples on a grid of four points -/
example : ∃ (lo hi : ℝ) (ax : List ℝ), (lo ∈ [3, 1, 4, 1, (5 : ℝ)] ∧ ∀ x ∈ [3, 1, 4, 1, (5 : ℝ)], lo ≤ x) ∧
    (hi ∈ [3, 1, 4, 1, (5 : ℝ)] ∧ ∀ x ∈ [3, 1, 4, 1, (5 : ℝ)], x ≤ hi) ∧ ax.length = 4 := by
  obtain ⟨lo, hi, ax, h1, h2, -, h3, -⟩ := C256_cover [3, 1, 4, 1, 5] (by simp) 4 (by norm_num)
  exact ⟨lo, hi, ax, h1, h2, h3⟩

end Proadv.Props
