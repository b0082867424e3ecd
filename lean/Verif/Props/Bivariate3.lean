import Verif.Props.Bivariate2

/-!
# Properties C89, C110: `bivariate_kernel`
-/

set_option linter.unusedSectionVars false

namespace Proadv.Props

open Proadv Fl Bivariate KernelDetect

/-! ## Axes -/

/-- **C89.** one axis: `np.arange(lo, hi + 0.1 step, step)` with `step = (hi - lo)/(g - 1)` -/
theorem C89_axis (lo hi : ℝ) (h : lo < hi) (g : Nat) (hg : 2 ≤ g) :
    arangeFl (fin lo : Fl ℝ) (fin hi +. lit (1 / 10) *. (fin (hi - lo) /. lit ((g : ℚ) - 1))) (fin (hi - lo) /. lit ((g : ℚ) - 1))
      = .ok (fins ((List.range g).map (fun j : Nat => lo + j * ((hi - lo) / ((g : ℝ) - 1))))) := by
  have hg1 : (0 : ℝ) < (g : ℝ) - 1 := by
    have : (2 : ℝ) ≤ g := by exact_mod_cast hg
    linarith
  have hd : 0 < hi - lo := sub_pos.mpr h
  have hl : (lit ((g : ℚ) - 1) : Fl ℝ) = fin ((g : ℝ) - 1) := by rw [lit_eq]; push_cast; rfl
  have hst : (fin (hi - lo) /. lit ((g : ℚ) - 1) : Fl ℝ) = fin ((hi - lo) / ((g : ℝ) - 1)) := by
    rw [hl, pdiv_fin hg1.ne']
  have hs0 : 0 < (hi - lo) / ((g : ℝ) - 1) := div_pos hd hg1
  rw [hst]
  unfold arangeFl
  have hq : ((fin hi +. lit (1 / 10) *. fin ((hi - lo) / ((g : ℝ) - 1))) -. fin lo) /. fin ((hi - lo) / ((g : ℝ) - 1))
      = (fin ((g : ℝ) - 1 + 1 / 10) : Fl ℝ) := by
    rw [lit_eq, pmul_fin, padd_fin, psub_fin, pdiv_fin hs0.ne']
    congr 1
    push_cast
    field_simp
    ring
  rw [hq]
  simp only
  have hc : ⌈(g : ℝ) - 1 + 1 / 10⌉ = (g : ℤ) := by
    rw [Int.ceil_eq_iff]; constructor <;> push_cast <;> linarith
  rw [hc]
  congr 1
  unfold fins
  rw [List.map_map, Int.toNat_natCast]
  refine List.map_congr_left fun j _ => ?_
  simp only [Function.comp, ofNat_eq, pmul_fin, padd_fin]

/-- the axis ends at the maximum -/
theorem C89_axis_end (lo hi : ℝ) (g : Nat) (hg : 2 ≤ g) : lo + ((g - 1 : ℕ) : ℝ) * ((hi - lo) / ((g : ℝ) - 1)) = hi := by
  have hg1 : (g : ℝ) - 1 ≠ 0 := by
    have : (2 : ℝ) ≤ g := by exact_mod_cast hg
    intro hc; linarith
  rw [Nat.cast_sub (by omega)]
  push_cast
  field_simp
  ring

/-! ## The estimator -/

namespace BSpec

/-- two-dimensional transform as computed -/
noncomputable def step2 (n : Nat) (c : Nat → Nat → ℝ) (i j : Nat) : ℝ := step n (fun a b => step n c b a) j i

/-- Gaussian damping of the coefficients -/
noncomputable def damp (hx hy : ℝ) (c : Nat → Nat → ℝ) (i j : Nat) : ℝ :=
  Real.exp (-(i : ℝ) ^ 2 * Real.pi ^ 2 * hx ^ 2 / 2) * Real.exp (-(j : ℝ) ^ 2 * Real.pi ^ 2 * hy ^ 2 / 2) * c i j

/-- fraction of samples in a cell -/
noncomputable def hist (g : Nat) (tx ty : List ℝ) (i j : Nat) : ℝ :=
  ((List.zip (tx.map (cell g)) (ty.map (cell g))).count (i, j) : ℝ) / tx.length

/-- the estimate before clipping -/
noncomputable def est (g : Nat) (tx ty : List ℝ) (hx hy sx sy : ℝ) (i j : Nat) : ℝ :=
  step2 g (damp hx hy (step2 g (hist g tx ty))) i j * ((g * g : ℕ) / (sx * sy))

end BSpec

theorem smooth_eq (g : Nat) (h : ℝ) : smooth g (fin h ^. 2 : Fl ℝ) =
    (List.range g).map (fun i : Nat => (fin (Real.exp (-(i : ℝ) ^ 2 * Real.pi ^ 2 * h ^ 2 / 2)) : Fl ℝ)) := by
  unfold smooth
  refine List.map_congr_left fun i _ => ?_
  have hp : (PyMath.pi ^. 2 : Fl ℝ) = fin (Real.pi ^ 2) := by
    show (fin Real.pi ^. 2 : Fl ℝ) = _; rw [pnpow_fin]
  rw [hp, lit_eq]
  simp only [ofNat_eq, pnpow_fin, pneg_fin, pmul_fin]
  rw [pdiv_fin (by norm_num), pexp_fin]
  push_cast; rfl

theorem adjusted_eq (g : Nat) (hx hy : ℝ) (c : Nat → Nat → ℝ) (hg : 2 ≤ g) :
    adjusted (smooth g (fin hx ^. 2 : Fl ℝ)) (smooth g (fin hy ^. 2)) (matOf g g c) = matOf g g (BSpec.damp hx hy c) := by
  rw [smooth_eq, smooth_eq]
  unfold adjusted matOf
  rw [mapIdx_range]
  refine List.map_congr_left fun i hi => ?_
  rw [mapIdx_range]
  refine List.map_congr_left fun j hj => ?_
  have hi' := List.mem_range.mp hi
  have hj' := List.mem_range.mp hj
  have hb : ∀ k, bidx g k = k := fun k => by unfold bidx; rw [if_neg (by omega)]
  simp only [List.length_map, List.length_range, hb]
  rw [List.getD_eq_getElem?_getD (l := _), List.getD_eq_getElem?_getD (l := _)]
  simp only [List.getElem?_map, List.getElem?_range hi', List.getElem?_range hj', Option.map_some, Option.getD_some, pmul_fin]
  rfl

theorem clip_eq (n m : Nat) (c : Nat → Nat → ℝ) : clip (matOf n m c) = matOf n m (fun i j => if c i j < 0 then 1 / 2 ^ 52 else c i j) := by
  unfold clip matOf
  rw [List.map_map]
  refine List.map_congr_left fun i _ => ?_
  simp only [Function.comp, List.map_map]
  refine List.map_congr_left fun j _ => ?_
  show (if (fin (c i j) <. (lit 0 : Fl ℝ)) = true then (lit (1 / 2 ^ 52) : Fl ℝ) else fin (c i j)) = _
  have e : (fin (c i j) <. (lit 0 : Fl ℝ)) = decide (c i j < 0) := by rw [lit_eq, plt_fin]; norm_num
  by_cases h : c i j < 0
  · rw [if_pos h, if_pos (by rw [e]; simpa using h), lit_eq]; push_cast; rfl
  · rw [if_neg h, if_neg (by rw [e]; simpa using h)]

theorem size_eq (n m : Nat) (c : Nat → Nat → ℝ) : ((matOf n m c).map List.length).sum = n * m := by
  unfold matOf
  rw [List.map_map]
  simp [Function.comp_def, List.map_const']

/-- **C89.** finite data of equal lengths, both rows non-constant, even grid, library searches that raise at most ValueError
(`brentq`) and return (`fminbound`): the call succeeds, the axes are the `g` equidistant points from the minimum to the maximum,
and the density is the doubly transformed damped histogram with negative values replaced by `2^-52`, transposed -/
theorem C89_kernel (brent : (Fl ℝ → Fl ℝ) → Fl ℝ → Py (Fl ℝ)) (fmin : (Fl ℝ → Fl ℝ) → Py (Fl ℝ))
    (hb : ∀ f b e, brent f b = .error e → e = .valueError) (hf : ∀ f, ∃ t, fmin f = .ok t) (fuel : Nat) (hfuel : 37 ≤ fuel)
    (xs ys : List ℝ) (hl : xs.length = ys.length) (lx hx' ly hy' : ℝ)
    (hlx : lx ∈ xs ∧ ∀ x ∈ xs, lx ≤ x) (hhx : hx' ∈ xs ∧ ∀ x ∈ xs, x ≤ hx') (hly : ly ∈ ys ∧ ∀ y ∈ ys, ly ≤ y)
    (hhy : hy' ∈ ys ∧ ∀ y ∈ ys, y ≤ hy') (hx0 : lx < hx') (hy0 : ly < hy') (hx hy : ℝ) (g : Nat) (hg : 2 ≤ g) (hev : g % 2 = 0) :
    bivariateKernel brent fmin arangeFl fuel (fins xs) (fins ys) (fin hx) (fin hy) g =
      some (.ok (matOf g g (fun i j =>
          let e := BSpec.est g (xs.map (fun x => (x - lx) / (hx' - lx))) (ys.map (fun y => (y - ly) / (hy' - ly))) hx hy
            (hx' - lx) (hy' - ly) j i
          if e < 0 then 1 / 2 ^ 52 else e),
        matOf g g (fun _ j => lx + j * ((hx' - lx) / ((g : ℝ) - 1))),
        matOf g g (fun i _ => ly + i * ((hy' - ly) / ((g : ℝ) - 1))))) := by
  have hdx : 0 < hx' - lx := sub_pos.mpr hx0
  have hdy : 0 < hy' - ly := sub_pos.mpr hy0
  have htr : ∀ (zs : List ℝ) (lo hi : ℝ), 0 < hi - lo →
      transform1 (fins zs) (fin lo : Fl ℝ) (fin (hi - lo)) = fins (zs.map (fun x => (x - lo) / (hi - lo))) := by
    intro zs lo hi h
    unfold transform1 fins
    rw [List.map_map, List.map_map]
    exact List.map_congr_left fun x _ => by simp [pdiv_fin h.ne']
  have hne : xs.map (fun x => (x - lx) / (hx' - lx)) ≠ [] := by
    intro hc
    have : xs = [] := by simpa using hc
    rw [this] at hlx; simp at hlx
  unfold bivariateKernel
  rw [(C85_scaling xs lx hx' hlx hhx).1, (C85_scaling ys ly hy' hly hhy).1]
  simp only [bind, Except.bind]
  rw [htr xs lx hx' hdx, htr ys ly hy' hdy, histogram_eq _ _ g (by omega) (by simp [hl]) hne]
  simp only
  rw [C88_even g (by omega) hev]
  simp only
  generalize hfun : (fun t : Fl ℝ => t -. (evolve t (List.length (fins xs) + List.length (fins ys)) _ _).1) = f
  obtain ⟨r, hr, hr'⟩ := C87_terminates (brent f) (fmin f) ((((fins xs).length + (fins ys).length : ℕ)) : ℤ)
  rw [hr' fuel hfuel]
  have hrok : ∃ t, r = .ok t := by
    obtain ⟨a, -, ⟨k, -, -, hv, hne⟩ | ⟨hv, -⟩⟩ := C87_result _ _ _ _ hr
    · cases r with
      | ok t => exact ⟨t, rfl⟩
      | error e => exact absurd (by rw [hb _ _ _ hv]) hne
    · rw [hv]; exact hf f
  obtain ⟨t, rfl⟩ := hrok
  simp only
  rw [show (fun i j => BSpec.step g (fun a b => BSpec.step g (fun i j => ((List.zip
      ((xs.map (fun x => (x - lx) / (hx' - lx))).map (BSpec.cell g)) ((ys.map (fun x => (x - ly) / (hy' - ly))).map (BSpec.cell g))).count
      (i, j) : ℝ) / (xs.map (fun x => (x - lx) / (hx' - lx))).length) b a) j i)
      = BSpec.step2 g (BSpec.hist g (xs.map (fun x => (x - lx) / (hx' - lx))) (ys.map (fun x => (x - ly) / (hy' - ly)))) from rfl]
  rw [adjusted_eq g hx hy _ hg, C88_even g (by omega) hev]
  simp only
  rw [C89_axis lx hx' hx0 g hg]
  simp only
  rw [C89_axis ly hy' hy0 g hg]
  simp only
  have hsz : ∀ c : Nat → Nat → ℝ, (ofNat ((matOf g g c).map List.length).sum /. (fin (hx' - lx) *. fin (hy' - ly)) : Fl ℝ)
      = fin (((g * g : ℕ) : ℝ) / ((hx' - lx) * (hy' - ly))) := by
    intro c
    rw [size_eq, ofNat_eq, pmul_fin, pdiv_fin (mul_pos hdx hdy).ne']
  rw [hsz]
  have hmul : ∀ (c : Nat → Nat → ℝ) (v : ℝ), (matOf g g c).map (fun r => r.map (fun x => x *. (fin v : Fl ℝ))) = matOf g g (fun i j => c i j * v) := by
    intro c v
    unfold matOf
    rw [List.map_map]
    refine List.map_congr_left fun i _ => ?_
    simp only [Function.comp, List.map_map]
    exact List.map_congr_left fun j _ => by simp
  rw [hmul, clip_eq, transpose_matOf g g (by omega)]
  congr 3
  refine Prod.ext ?_ ?_
  · simp only
    unfold fins matOf
    rw [List.map_map, List.map_map]
    refine List.map_congr_left fun i _ => ?_
    simp only [Function.comp, List.map_map]
    rfl
  · simp only
    unfold fins matOf
    rw [List.map_map, List.map_map]
    refine List.map_congr_left fun i _ => ?_
    simp only [Function.comp, List.map_map]
    rfl

/-- what a successful call must have done, over any number type -/
theorem kernel_inv {F : Type} [PyMath F] (brent : (F → F) → F → Py F) (fmin : (F → F) → Py F) (arange : F → F → F → Py (List F))
    (fuel : Nat) (xs ys : List F) (hx hy : F) (grid : Nat) (r : List (List F) × List (List F) × List (List F))
    (h : bivariateKernel brent fmin arange fuel xs ys hx hy grid = some (.ok r)) :
    ∃ (sx sy : F × F × F) (m : List (List F)) (xv yv : List F), scaling xs = .ok sx ∧ scaling ys = .ok sy ∧
      arange sx.2.1 (sx.1 +. lit (1 / 10) *. (sx.2.2 /. lit ((grid : ℚ) - 1))) (sx.2.2 /. lit ((grid : ℚ) - 1)) = .ok xv ∧
      arange sy.2.1 (sy.1 +. lit (1 / 10) *. (sy.2.2 /. lit ((grid : ℚ) - 1))) (sy.2.2 /. lit ((grid : ℚ) - 1)) = .ok yv ∧
      r = (transpose (clip m), yv.map (fun _ => xv), yv.map (fun y => xv.map (fun _ => y))) := by
  unfold bivariateKernel at h
  cases h1 : scaling xs with
  | error e => rw [h1] at h; simp [bind, Except.bind] at h
  | ok sx =>
  cases h2 : scaling ys with
  | error e => rw [h1, h2] at h; simp [bind, Except.bind] at h
  | ok sy =>
  rw [h1, h2] at h
  simp only [bind, Except.bind] at h
  cases h3 : histogram (transform1 xs sx.2.1 sx.2.2) (transform1 ys sy.2.1 sy.2.2) grid with
  | error e => rw [h3] at h; simp at h
  | ok hm =>
  rw [h3] at h
  simp only at h
  cases h4 : dct2 hm with
  | error e => rw [h4] at h; simp at h
  | ok d =>
  rw [h4] at h
  simp only at h
  generalize root (F := F) _ _ _ _ = rt at h
  match rt, h with
  | none, h => simp at h
  | some (.error e), h => simp at h
  | some (.ok t), h =>
    simp only at h
    cases h5 : dct2 (adjusted (smooth grid (hx ^. 2)) (smooth grid (hy ^. 2)) d) with
    | error e => rw [h5] at h; simp at h
    | ok q =>
    rw [h5] at h
    simp only at h
    cases h6 : arange sx.2.1 (sx.1 +. lit (1 / 10) *. (sx.2.2 /. lit ((grid : ℚ) - 1))) (sx.2.2 /. lit ((grid : ℚ) - 1)) with
    | error e => rw [h6] at h; simp at h
    | ok xv =>
    rw [h6] at h
    simp only at h
    cases h7 : arange sy.2.1 (sy.1 +. lit (1 / 10) *. (sy.2.2 /. lit ((grid : ℚ) - 1))) (sy.2.2 /. lit ((grid : ℚ) - 1)) with
    | error e => rw [h7] at h; simp at h
    | ok yv =>
    rw [h7] at h
    simp only [Option.some.injEq, Except.ok.injEq] at h
    exact ⟨sx, sy, _, xv, yv, rfl, rfl, h6, h7, h.symm⟩

/-- **C89.** whatever the data (also with NaN or infinite entries), no returned density value is negative -/
theorem C89_nonneg (brent : (Fl ℝ → Fl ℝ) → Fl ℝ → Py (Fl ℝ)) (fmin : (Fl ℝ → Fl ℝ) → Py (Fl ℝ))
    (arange : Fl ℝ → Fl ℝ → Fl ℝ → Py (List (Fl ℝ))) (fuel : Nat) (xs ys : List (Fl ℝ)) (hx hy : Fl ℝ) (grid : Nat)
    (r : List (List (Fl ℝ)) × List (List (Fl ℝ)) × List (List (Fl ℝ)))
    (h : bivariateKernel brent fmin arange fuel xs ys hx hy grid = some (.ok r)) :
    ∀ row ∈ r.1, ∀ d ∈ row, (d <. lit 0) = false := by
  obtain ⟨sx, sy, m, xv, yv, -, -, -, -, rfl⟩ := kernel_inv brent fmin arange fuel xs ys hx hy grid r h
  have hclip : ∀ row ∈ clip m, ∀ d ∈ row, (d <. (lit 0 : Fl ℝ)) = false := by
    intro row hr d hd
    obtain ⟨r0, -, rfl⟩ := List.mem_map.mp hr
    obtain ⟨d0, -, rfl⟩ := List.mem_map.mp hd
    cases hneg : (d0 <. (lit 0 : Fl ℝ)) with
    | true =>
      rw [if_pos rfl, lit_eq, lit_eq, plt_fin]
      rw [decide_eq_false_iff_not, not_lt]; norm_num
    | false => rw [if_neg (by simp)]; exact hneg
  intro row hr d hd
  obtain ⟨j, -, rfl⟩ := List.mem_map.mp hr
  obtain ⟨r0, h0, rfl⟩ := List.mem_map.mp hd
  rw [List.getD_eq_getElem?_getD (l := r0)]
  cases hg : r0[j]? with
  | none => rfl
  | some d => exact hclip r0 h0 d (List.mem_of_getElem? hg)

theorem scaling_nil {F : Type} [PyMath F] : scaling ([] : List F) = .error .valueError := rfl

/-- **C89.** an odd grid of 3 or more raises ValueError, over any number type and for all data whose rows have a
maximum and minimum (non-empty rows) -/
theorem C89_odd_grid {F : Type} [PyMath F] (brent : (F → F) → F → Py F) (fmin : (F → F) → Py F) (arange : F → F → F → Py (List F))
    (fuel : Nat) (xs ys : List F) (hx hy : F) (grid : Nat) (ho : grid % 2 = 1) (h3 : 3 ≤ grid)
    (sx sy : F × F × F) (h1 : scaling xs = .ok sx) (h2 : scaling ys = .ok sy) :
    bivariateKernel brent fmin arange fuel xs ys hx hy grid = some (.error .valueError) := by
  unfold bivariateKernel
  rw [h1, h2]
  simp only [bind, Except.bind]
  have hh : ∃ m : List (List F), histogram (transform1 xs sx.2.1 sx.2.2) (transform1 ys sy.2.1 sy.2.2) grid = .ok m ∧ m.length = grid := by
    unfold histogram
    rw [if_neg (by omega)]
    refine ⟨_, rfl, ?_⟩
    rw [List.length_map]
    unfold accumarray
    have : ∀ (l : List ((Nat × Nat) × F)) (m : List (List F)), (l.foldl (fun acc sv => addAt acc sv.1.1 sv.1.2 sv.2) m).length = m.length := by
      intro l
      induction l with
      | nil => intro m; rfl
      | cons a t ih => intro m; rw [List.foldl_cons, ih]; simp [addAt]
    rw [this, List.length_replicate]
  obtain ⟨m, hm, hlen⟩ := hh
  rw [hm]
  simp only
  rw [C88_odd m (by omega) (by omega)]

/-- **C89.** empty data raise ValueError -/
theorem C89_empty {F : Type} [PyMath F] (brent : (F → F) → F → Py F) (fmin : (F → F) → Py F) (arange : F → F → F → Py (List F))
    (fuel : Nat) (ys : List F) (hx hy : F) (grid : Nat) :
    bivariateKernel brent fmin arange fuel [] ys hx hy grid = some (.error .valueError) := rfl

/-- **C89.** no grid: IndexError -/
theorem C89_no_grid {F : Type} [PyMath F] (brent : (F → F) → F → Py F) (fmin : (F → F) → Py F) (arange : F → F → F → Py (List F))
    (fuel : Nat) (xs ys : List F) (hx hy : F) (sx sy : F × F × F) (h1 : scaling xs = .ok sx) (h2 : scaling ys = .ok sy) :
    bivariateKernel brent fmin arange fuel xs ys hx hy 0 = some (.error .indexError) := by
  unfold bivariateKernel
  rw [h1, h2]; rfl

/-- **C89.** a constant row or a grid of one cell never gives a result -/
theorem C89_degenerate (brent : (Fl ℝ → Fl ℝ) → Fl ℝ → Py (Fl ℝ)) (fmin : (Fl ℝ → Fl ℝ) → Py (Fl ℝ)) (fuel : Nat)
    (xs ys : List ℝ) (hx hy : Fl ℝ) (lo hi : ℝ) (hlo : lo ∈ xs ∧ ∀ x ∈ xs, lo ≤ x) (hhi : hi ∈ xs ∧ ∀ x ∈ xs, x ≤ hi)
    (g : Nat) (h : lo = hi ∨ g = 1) : ∀ r, bivariateKernel brent fmin arangeFl fuel (fins xs) (fins ys) hx hy g ≠ some (.ok r) := by
  intro r hr
  obtain ⟨sx, sy, m, xv, yv, h1, -, h3, -, -⟩ := kernel_inv brent fmin arangeFl fuel _ _ hx hy g r hr
  rw [(C85_scaling xs lo hi hlo hhi).1] at h1
  have : sx = (fin hi, fin lo, fin (hi - lo)) := (Except.ok.inj h1).symm
  subst this
  simp only [lit_eq] at h3
  by_cases hg : ((g : ℚ) - 1) = 0
  · rw [hg] at h3
    have hnn : 0 ≤ hi - lo := sub_nonneg.mpr (hlo.2 hi hhi.1)
    rcases hnn.eq_or_lt with h0 | h0
    · rw [← h0] at h3
      have : (fin 0 /. fin ((0 : ℚ) : ℝ) : Fl ℝ) = nan := by rw [pdiv_fin']; simp [infSgn]
      rw [this] at h3
      cases h3
    · have : (fin (hi - lo) /. fin ((0 : ℚ) : ℝ) : Fl ℝ) = pinf := by
        rw [pdiv_fin']
        simp [infSgn, h0, h0.ne']
      rw [this] at h3
      have e : (fin ((1 / 10 : ℚ) : ℝ) *. pinf : Fl ℝ) = pinf := by
        show Fl.mul (fin _) pinf = _
        simp [Fl.mul, infSgn]
      rw [e] at h3
      cases h3
  · have hl : lo = hi := by
      rcases h with h | h
      · exact h
      · exfalso; apply hg; rw [h]; norm_num
    subst hl
    have hg' : (((g : ℚ) - 1 : ℚ) : ℝ) ≠ 0 := by exact_mod_cast hg
    rw [sub_self, pdiv_fin hg', zero_div, pmul_fin, padd_fin] at h3
    unfold arangeFl at h3
    rw [psub_fin, pdiv_fin'] at h3
    simp [infSgn] at h3

/-! ## C110: normalisation -/

/-- **C110.** the returned density is not normalised: for the two samples (0,0), (1,1), bandwidths 0 and a grid of 2, the sum of
the four density values times the cell area 1/4 is larger than 8 (it would be 1 for a density) -/
theorem C110_not_normalised (brent : (Fl ℝ → Fl ℝ) → Fl ℝ → Py (Fl ℝ)) (fmin : (Fl ℝ → Fl ℝ) → Py (Fl ℝ))
    (hb : ∀ f b e, brent f b = .error e → e = .valueError) (hf : ∀ f, ∃ t, fmin f = .ok t) :
    ∃ (d : Nat → Nat → ℝ) (X Y : List (List (Fl ℝ))),
      bivariateKernel brent fmin arangeFl 37 (fins [0, 1]) (fins [0, 1]) (fin 0) (fin 0) 2 = some (.ok (matOf 2 2 d, X, Y)) ∧
      8 < (d 0 0 + d 0 1 + d 1 0 + d 1 1) / 4 := by
  have hk := C89_kernel brent fmin hb hf 37 le_rfl [0, 1] [0, 1] rfl 0 1 0 1
    (by simp) (by simp) (by simp) (by simp) (by norm_num) (by norm_num) 0 0 2 le_rfl (by norm_num)
  refine ⟨_, _, _, hk, ?_⟩
  have hc0 : BSpec.cell 2 0 = 0 := by simp [BSpec.cell]
  have hc1 : BSpec.cell 2 1 = 1 := by simp [BSpec.cell]
  have hhist : ∀ i j, BSpec.hist 2 [0, 1] [0, 1] i j = if (i = 0 ∧ j = 0) ∨ (i = 1 ∧ j = 1) then 1 / 2 else 0 := by
    intro i j
    unfold BSpec.hist
    simp only [List.map_cons, List.map_nil, hc0, hc1, List.zip_cons_cons, List.zip_nil_left, List.count_cons, List.count_nil]
    by_cases h1 : i = 0 ∧ j = 0
    · obtain ⟨rfl, rfl⟩ := h1; simp
    · by_cases h2 : i = 1 ∧ j = 1
      · obtain ⟨rfl, rfl⟩ := h2; simp
      · rw [if_neg (not_or.mpr ⟨h1, h2⟩)]
        have e1 : ((0, 0) == (i, j)) = false := by rw [beq_eq_false_iff_ne]; rintro ⟨⟩; exact h1 ⟨rfl, rfl⟩
        have e2 : ((1, 1) == (i, j)) = false := by rw [beq_eq_false_iff_ne]; rintro ⟨⟩; exact h2 ⟨rfl, rfl⟩
        rw [e1, e2]; simp
  have hdamp : ∀ c, BSpec.damp 0 0 c = c := by intro c; funext i j; simp [BSpec.damp]
  have c4 : Real.cos (Real.pi * ((1 : ℕ) : ℝ) / (2 * ((2 : ℕ) : ℝ)) + 2 * Real.pi * (((0 : ℕ) : ℝ) * ((0 : ℕ) : ℝ)) / ((2 : ℕ) : ℝ)) = Real.sqrt 2 / 2 := by
    rw [← Real.cos_pi_div_four]; congr 1; push_cast; ring
  have c4' : Real.cos (Real.pi * ((1 : ℕ) : ℝ) / (2 * ((2 : ℕ) : ℝ)) + 2 * Real.pi * (((1 : ℕ) : ℝ) * ((0 : ℕ) : ℝ)) / ((2 : ℕ) : ℝ)) = Real.sqrt 2 / 2 := by
    rw [← Real.cos_pi_div_four]; congr 1; push_cast; ring
  have c4'' : Real.cos (Real.pi * ((1 : ℕ) : ℝ) / (2 * ((2 : ℕ) : ℝ)) + 2 * Real.pi * (((0 : ℕ) : ℝ) * ((1 : ℕ) : ℝ)) / ((2 : ℕ) : ℝ)) = Real.sqrt 2 / 2 := by
    rw [← Real.cos_pi_div_four]; congr 1; push_cast; ring
  have c5 : Real.cos (Real.pi * ((1 : ℕ) : ℝ) / (2 * ((2 : ℕ) : ℝ)) + 2 * Real.pi * (((1 : ℕ) : ℝ) * ((1 : ℕ) : ℝ)) / ((2 : ℕ) : ℝ)) = -(Real.sqrt 2 / 2) := by
    rw [← Real.cos_pi_div_four, ← Real.cos_add_pi]; congr 1; push_cast; ring
  have s0 : ∀ c j, BSpec.step 2 c 0 j = c 0 0 + c 0 1 * Real.cos (Real.pi * j) := by
    intro c j
    simp [BSpec.step, BSpec.w, BSpec.src, Finset.sum_range_succ]
    left; ring_nf
  have s00 : ∀ c, BSpec.step 2 c 0 0 = c 0 0 + c 0 1 := by intro c; rw [s0]; simp
  have s01 : ∀ c, BSpec.step 2 c 0 1 = c 0 0 - c 0 1 := by intro c; rw [s0]; simp; ring
  have s10 : ∀ c, BSpec.step 2 c 1 0 = Real.sqrt 2 * (c 1 0 + c 1 1) := by
    intro c
    unfold BSpec.step
    rw [Finset.sum_range_succ, Finset.sum_range_succ, Finset.sum_range_zero, c4, c4'']
    simp [BSpec.w, BSpec.src]; ring
  have s11 : ∀ c, BSpec.step 2 c 1 1 = Real.sqrt 2 * (c 1 0 - c 1 1) := by
    intro c
    unfold BSpec.step
    rw [Finset.sum_range_succ, Finset.sum_range_succ, Finset.sum_range_zero, c4', c5]
    simp [BSpec.w, BSpec.src]; ring
  have hsq : Real.sqrt 2 * Real.sqrt 2 = 2 := Real.mul_self_sqrt (by norm_num)
  have hs1 : (1.4 : ℝ) < Real.sqrt 2 := by
    rw [Real.lt_sqrt (by norm_num)]; norm_num
  have hmap : ([0, 1] : List ℝ).map (fun x => (x - 0) / (1 - 0)) = [0, 1] := by norm_num
  simp only [hmap]
  have hest : ∀ i j, BSpec.est 2 [0, 1] [0, 1] 0 0 (1 - 0) (1 - 0) i j = 4 * BSpec.step2 2 (BSpec.step2 2 (BSpec.hist 2 [0, 1] [0, 1])) i j := by
    intro i j
    unfold BSpec.est; rw [hdamp]; norm_num; ring
  have t00 : ∀ c, BSpec.step2 2 c 0 0 = (c 0 0 + c 0 1) + Real.sqrt 2 * (c 1 0 + c 1 1) := by
    intro c; unfold BSpec.step2; rw [s00, s00, s10]
  have t01 : ∀ c, BSpec.step2 2 c 0 1 = Real.sqrt 2 * ((c 0 0 - c 0 1) + Real.sqrt 2 * (c 1 0 - c 1 1)) := by
    intro c; unfold BSpec.step2; rw [s10, s01, s11]
  have t10 : ∀ c, BSpec.step2 2 c 1 0 = (c 0 0 + c 0 1) - Real.sqrt 2 * (c 1 0 + c 1 1) := by
    intro c; unfold BSpec.step2; rw [s01, s00, s10]
  have t11 : ∀ c, BSpec.step2 2 c 1 1 = Real.sqrt 2 * ((c 0 0 - c 0 1) - Real.sqrt 2 * (c 1 0 - c 1 1)) := by
    intro c; unfold BSpec.step2; rw [s11, s01, s11]
  have u00 : BSpec.step2 2 (BSpec.hist 2 [0, 1] [0, 1]) 0 0 = (1 + Real.sqrt 2) / 2 := by
    rw [t00]; simp only [hhist]; norm_num; ring
  have u01 : BSpec.step2 2 (BSpec.hist 2 [0, 1] [0, 1]) 0 1 = (Real.sqrt 2 - 2) / 2 := by
    rw [t01]; simp only [hhist]; norm_num; linear_combination (-1 / 2 : ℝ) * hsq
  have u10 : BSpec.step2 2 (BSpec.hist 2 [0, 1] [0, 1]) 1 0 = (1 - Real.sqrt 2) / 2 := by
    rw [t10]; simp only [hhist]; norm_num; ring
  have u11 : BSpec.step2 2 (BSpec.hist 2 [0, 1] [0, 1]) 1 1 = (Real.sqrt 2 + 2) / 2 := by
    rw [t11]; simp only [hhist]; norm_num; linear_combination (1 / 2 : ℝ) * hsq
  have v00 : BSpec.est 2 [0, 1] [0, 1] 0 0 (1 - 0) (1 - 0) 0 0 = 2 * (5 * Real.sqrt 2 - 1) := by
    rw [hest, t00, u00, u01, u10, u11]; ring
  have v11 : BSpec.est 2 [0, 1] [0, 1] 0 0 (1 - 0) (1 - 0) 1 1 = 2 * (2 + 7 * Real.sqrt 2) := by
    rw [hest, t11, u00, u01, u10, u11]; linear_combination (2 + 4 * Real.sqrt 2) * hsq
  have hnn : ∀ x : ℝ, 0 ≤ (if x < 0 then (1 : ℝ) / 2 ^ 52 else x) := by
    intro x; split
    · positivity
    · linarith
  have hge : ∀ x : ℝ, x ≤ (if x < 0 then (1 : ℝ) / 2 ^ 52 else x) := by
    intro x; split
    · have : (0 : ℝ) < 1 / 2 ^ 52 := by positivity
      linarith
    · exact le_rfl
  have a1 := hge (BSpec.est 2 [0, 1] [0, 1] 0 0 (1 - 0) (1 - 0) 0 0)
  have a2 := hge (BSpec.est 2 [0, 1] [0, 1] 0 0 (1 - 0) (1 - 0) 1 1)
  have a3 := hnn (BSpec.est 2 [0, 1] [0, 1] 0 0 (1 - 0) (1 - 0) 1 0)
  have a4 := hnn (BSpec.est 2 [0, 1] [0, 1] 0 0 (1 - 0) (1 - 0) 0 1)
  rw [v00] at a1
  rw [v11] at a2
  simp only [v00, v11]
  linarith

/-- concrete cases: the hypotheses of C89/C110 are met by searches that always fail to bracket; those of C90 by the transform of
the two samples above -/
theorem bivariate3_witness :
    (∃ (d : Nat → Nat → ℝ) (X Y : List (List (Fl ℝ))),
      bivariateKernel (fun _ _ => .error .valueError) (fun _ => .ok (fin 0)) arangeFl 37 (fins [0, 1]) (fins [0, 1]) (fin 0) (fin 0) 2
        = some (.ok (matOf 2 2 d, X, Y)) ∧ 8 < (d 0 0 + d 0 1 + d 1 0 + d 1 1) / 4) ∧
    BSpec.Charged 2 (fun i j => if i = 1 ∧ j = 1 then 3 else 0) := by
  refine ⟨C110_not_normalised _ _ ?_ ?_, ?_, 1, 1, by norm_num, by norm_num, by norm_num, by norm_num, by simp⟩
  · intro f b e h; exact (Except.error.inj h).symm
  · intro f; exact ⟨_, rfl⟩
  · intro i _ j _; dsimp only; split <;> norm_num

end Proadv.Props
