import Verif.Props.Bivariate3
import Mathlib.Analysis.SpecialFunctions.Exp
import Mathlib.Topology.Algebra.Monoid
import Mathlib.Analysis.SpecialFunctions.Trigonometric.Basic

/-!
# Properties C173, C174: symmetries of `bivariate_kernel` and its limit of large bandwidths
-/

set_option linter.unusedSectionVars false

namespace Proadv.Props

open Proadv Fl Bivariate KernelDetect

namespace BSpec

/-- smallest and largest element of a row -/
def Range (xs : List ℝ) (lo hi : ℝ) : Prop := (lo ∈ xs ∧ ∀ x ∈ xs, lo ≤ x) ∧ (hi ∈ xs ∧ ∀ x ∈ xs, x ≤ hi)

/-- negative density values replaced by machine epsilon -/
noncomputable def clipped (x : ℝ) : ℝ := if x < 0 then 1 / 2 ^ 52 else x

/-- library searches as assumed throughout: `brentq` raises at most ValueError, `fminbound` returns -/
def Searches (brent : (Fl ℝ → Fl ℝ) → Fl ℝ → Py (Fl ℝ)) (fmin : (Fl ℝ → Fl ℝ) → Py (Fl ℝ)) : Prop :=
  (∀ f b e, brent f b = .error e → e = .valueError) ∧ ∀ f, ∃ t, fmin f = .ok t

end BSpec

open BSpec

namespace Biv4

theorem hist_congr {g : Nat} {tx ty tx' ty' : List ℝ} (hx : tx.length = ty.length) (hx' : tx'.length = ty'.length)
    (h : (List.zip tx ty).Perm (List.zip tx' ty')) : hist g tx ty = hist g tx' ty' := by
  funext i j
  have hl : tx.length = tx'.length := by
    have := h.length_eq
    simpa [List.length_zip, ← hx, ← hx'] using this
  unfold hist
  rw [hl]
  congr 2
  rw [List.zip_map, List.zip_map]
  exact (h.map _).count_eq _

theorem zip_map_perm {xs ys xs' ys' : List ℝ} (f k : ℝ → ℝ) (h : (List.zip xs ys).Perm (List.zip xs' ys')) :
    (List.zip (xs.map f) (ys.map k)).Perm (List.zip (xs'.map f) (ys'.map k)) := by
  rw [List.zip_map, List.zip_map]; exact h.map _

theorem perm_fst {xs ys xs' ys' : List ℝ} (hl : xs.length = ys.length) (hl' : xs'.length = ys'.length)
    (h : (List.zip xs ys).Perm (List.zip xs' ys')) : xs.Perm xs' ∧ ys.Perm ys' := by
  have a := h.map Prod.fst
  have b := h.map Prod.snd
  rw [List.map_fst_zip (by omega), List.map_fst_zip (by omega)] at a
  rw [List.map_snd_zip (by omega), List.map_snd_zip (by omega)] at b
  exact ⟨a, b⟩

theorem range_perm {xs xs' : List ℝ} {lo hi : ℝ} (h : xs.Perm xs') (hr : Range xs lo hi) : Range xs' lo hi := by
  obtain ⟨⟨a, b⟩, c, d⟩ := hr
  exact ⟨⟨h.mem_iff.mp a, fun x hx => b x (h.mem_iff.mpr hx)⟩, h.mem_iff.mp c, fun x hx => d x (h.mem_iff.mpr hx)⟩

theorem range_affine {xs : List ℝ} {lo hi a : ℝ} (b : ℝ) (ha : 0 < a) (hr : Range xs lo hi) :
    Range (xs.map (fun x => a * x + b)) (a * lo + b) (a * hi + b) := by
  obtain ⟨⟨h1, h2⟩, h3, h4⟩ := hr
  refine ⟨⟨List.mem_map_of_mem h1, ?_⟩, List.mem_map_of_mem h3, ?_⟩
  · intro x hx
    obtain ⟨y, hy, rfl⟩ := List.mem_map.mp hx
    nlinarith [h2 y hy]
  · intro x hx
    obtain ⟨y, hy, rfl⟩ := List.mem_map.mp hx
    nlinarith [h4 y hy]

theorem scaled_affine (xs : List ℝ) (lo hi a b : ℝ) (ha : 0 < a) :
    (xs.map (fun x => a * x + b)).map (fun x => (x - (a * lo + b)) / (a * hi + b - (a * lo + b))) =
      xs.map (fun x => (x - lo) / (hi - lo)) := by
  rw [List.map_map]
  refine List.map_congr_left fun x _ => ?_
  simp only [Function.comp]
  rw [show a * x + b - (a * lo + b) = a * (x - lo) by ring, show a * hi + b - (a * lo + b) = a * (hi - lo) by ring,
    mul_div_mul_left _ _ ha.ne']

/-- C89 in the shape used below -/
theorem kernel (brent : (Fl ℝ → Fl ℝ) → Fl ℝ → Py (Fl ℝ)) (fmin : (Fl ℝ → Fl ℝ) → Py (Fl ℝ)) (hs : Searches brent fmin)
    (xs ys : List ℝ) (hl : xs.length = ys.length) {lx ux ly uy : ℝ} (hx : Range xs lx ux) (hy : Range ys ly uy) (hx0 : lx < ux)
    (hy0 : ly < uy) (bx by' : ℝ) (g : Nat) (hg : 2 ≤ g) (hev : g % 2 = 0) :
    bivariateKernel brent fmin arangeFl 37 (fins xs) (fins ys) (fin bx) (fin by') g =
      some (.ok (matOf g g (fun i j => clipped (est g (xs.map (fun x => (x - lx) / (ux - lx))) (ys.map (fun y => (y - ly) / (uy - ly)))
            bx by' (ux - lx) (uy - ly) j i)),
        matOf g g (fun _ j => lx + j * ((ux - lx) / ((g : ℝ) - 1))),
        matOf g g (fun i _ => ly + i * ((uy - ly) / ((g : ℝ) - 1))))) :=
  C89_kernel brent fmin hs.1 hs.2 37 le_rfl xs ys hl lx ux ly uy hx.1 hx.2 hy.1 hy.2 hx0 hy0 bx by' g hg hev

theorem src_zero (n k : Nat) (hk : k < n) : src n k = 0 ↔ k = 0 := by
  unfold src; split <;> omega

theorem step2_corner (n : Nat) (hn : 0 < n) (s : ℝ) (i j : Nat) :
    step2 n (fun a b => if a = 0 ∧ b = 0 then s else 0) i j = w j * Real.cos (Real.pi * j / (2 * n)) * s := by
  have h1 : ∀ k < n, ∀ m, step n (fun a b => if a = 0 ∧ b = 0 then s else 0) k m = if k = 0 then s else 0 := by
    intro k hk m
    unfold step
    by_cases h0 : k = 0
    · subst h0
      rw [if_pos rfl, Finset.sum_eq_single 0]
      · simp [w, (src_zero n 0 hk).mpr rfl]
      · intro b _ hb; simp [hb]
      · intro h; exact absurd (Finset.mem_range.mpr hn) h
    · rw [if_neg h0, Finset.sum_eq_zero, mul_zero]
      intro b _
      have : ¬ (src n k = 0 ∧ b = 0) := fun h => h0 ((src_zero n k hk).mp h.1)
      simp only [if_neg this, zero_mul]
  unfold step2
  rw [step]
  rw [Finset.sum_eq_single 0]
  · rw [h1 0 hn, if_pos rfl]; simp; ring
  · intro b hb hb0; rw [h1 b (Finset.mem_range.mp hb), if_neg hb0, zero_mul]
  · intro h; exact absurd (Finset.mem_range.mpr hn) h

open Filter Topology

theorem damp_factor (i : Nat) :
    Tendsto (fun h : ℝ => Real.exp (-(i : ℝ) ^ 2 * Real.pi ^ 2 * h ^ 2 / 2)) atTop (𝓝 (if i = 0 then 1 else 0)) := by
  by_cases h : i = 0
  · subst h; simp
  · rw [if_neg h]
    have hi : (0 : ℝ) < (i : ℝ) ^ 2 * Real.pi ^ 2 / 2 := by
      have : (0 : ℝ) < i := by exact_mod_cast Nat.pos_of_ne_zero h
      positivity
    refine Real.tendsto_exp_atBot.comp ?_
    have : (fun h : ℝ => -(i : ℝ) ^ 2 * Real.pi ^ 2 * h ^ 2 / 2) = fun h => -((i : ℝ) ^ 2 * Real.pi ^ 2 / 2 * h ^ 2) := by
      funext h; ring
    rw [this]
    exact tendsto_neg_atTop_atBot.comp ((tendsto_pow_atTop (by norm_num)).const_mul_atTop hi)

theorem damp_limit (c : Nat → Nat → ℝ) (i j : Nat) :
    Tendsto (fun p : ℝ × ℝ => damp p.1 p.2 c i j) (atTop ×ˢ atTop) (𝓝 (if i = 0 ∧ j = 0 then c 0 0 else 0)) := by
  have h := (((damp_factor i).comp (tendsto_fst (f := atTop) (g := (atTop : Filter ℝ)))).mul
    ((damp_factor j).comp (tendsto_snd (f := (atTop : Filter ℝ)) (g := atTop)))).mul_const (c i j)
  have e : (if i = 0 ∧ j = 0 then c 0 0 else 0) = ((if i = 0 then 1 else 0) * if j = 0 then 1 else 0) * c i j := by
    by_cases hi : i = 0
    · by_cases hj : j = 0
      · simp [hi, hj]
      · simp [hj]
    · simp [hi]
  rw [e]; exact h

theorem step_limit {n : Nat} {l : Filter (ℝ × ℝ)} {c : ℝ × ℝ → Nat → Nat → ℝ} {d : Nat → Nat → ℝ}
    (h : ∀ i j, Tendsto (fun p => c p i j) l (𝓝 (d i j))) (i j : Nat) : Tendsto (fun p => step n (c p) i j) l (𝓝 (step n d i j)) := by
  unfold step
  exact (tendsto_finsetSum _ fun k _ => (h _ k).mul_const _).const_mul _

theorem step2_limit {n : Nat} {l : Filter (ℝ × ℝ)} {c : ℝ × ℝ → Nat → Nat → ℝ} {d : Nat → Nat → ℝ}
    (h : ∀ i j, Tendsto (fun p => c p i j) l (𝓝 (d i j))) (i j : Nat) : Tendsto (fun p => step2 n (c p) i j) l (𝓝 (step2 n d i j)) := by
  unfold step2
  exact step_limit (c := fun p a b => step n (c p) b a) (fun a b => step_limit h b a) j i

theorem cos_pos {n i : Nat} (hi : i < n) : 0 < Real.cos (Real.pi * i / (2 * n)) := by
  have hn : (0 : ℝ) < n := by exact_mod_cast (by omega : 0 < n)
  apply Real.cos_pos_of_mem_Ioo
  constructor
  · have : 0 ≤ Real.pi * i / (2 * n) := by positivity
    linarith [Real.pi_pos]
  · rw [div_lt_div_iff₀ (by positivity) (by norm_num)]
    have : (i : ℝ) < n := by exact_mod_cast hi
    nlinarith [Real.pi_pos]

theorem w_pos (i : Nat) : 0 < w i := by unfold w; split <;> norm_num

theorem corner_pos (g : Nat) (hg : 2 ≤ g) (hev : g % 2 = 0) (tx ty : List ℝ) (hl : tx.length = ty.length) (hne : tx ≠ []) :
    0 < step2 g (hist g tx ty) 0 0 := by
  obtain ⟨c, hc, -, hnn, hsum⟩ := C83_histogram tx ty g (by omega) hl hne
  have hnn' : ∀ i j, 0 ≤ hist g tx ty i j := fun i j => by unfold hist; positivity
  -- the sample with the first cells
  obtain ⟨a, as, rfl⟩ := List.exists_cons_of_ne_nil hne
  obtain ⟨b, bs, rfl⟩ : ∃ b bs, ty = b :: bs := by
    cases ty with
    | nil => simp at hl
    | cons b bs => exact ⟨b, bs, rfl⟩
  have hcell : ∀ t, cell g t < g := fun t => by unfold cell; omega
  have hpos : 0 < hist g (a :: as) (b :: bs) (cell g a) (cell g b) := by
    unfold hist
    have : 0 < (List.zip ((a :: as).map (cell g)) ((b :: bs).map (cell g))).count (cell g a, cell g b) := by
      simp
    have h1 : (0 : ℝ) < ((List.zip ((a :: as).map (cell g)) ((b :: bs).map (cell g))).count (cell g a, cell g b) : ℕ) := by exact_mod_cast this
    have h2 : (0 : ℝ) < ((a :: as).length : ℕ) := by simp; positivity
    exact div_pos h1 h2
  have hsrc : ∃ k < g, src g k = cell g a := by
    by_cases he : cell g a % 2 = 0
    · refine ⟨cell g a / 2, by have := hcell a; omega, ?_⟩
      have := hcell a
      unfold src; rw [if_pos (by omega)]; omega
    · refine ⟨(2 * g - 1 - cell g a) / 2, by have := hcell a; omega, ?_⟩
      have := hcell a
      unfold src; rw [if_neg (by omega)]; omega
  obtain ⟨k, hk, hks⟩ := hsrc
  have hterm : ∀ m < g, 0 ≤ step g (hist g (a :: as) (b :: bs)) m 0 := by
    intro m hm
    unfold step
    refine mul_nonneg (w_pos m).le (Finset.sum_nonneg fun l _ => mul_nonneg (hnn' _ _) ?_)
    have := (cos_pos hm).le
    simpa using this
  have hkpos : 0 < step g (hist g (a :: as) (b :: bs)) k 0 := by
    unfold step
    refine mul_pos (w_pos k) (Finset.sum_pos' (fun l _ => mul_nonneg (hnn' _ _) ?_) ⟨cell g b, Finset.mem_range.mpr (hcell b), ?_⟩)
    · simpa using (cos_pos hk).le
    · rw [hks]
      exact mul_pos hpos (by simpa using cos_pos hk)
  unfold step2
  rw [step]
  have hs0 : src g 0 = 0 := (src_zero g 0 (by omega)).mpr rfl
  rw [hs0]
  refine mul_pos (w_pos 0) (Finset.sum_pos' (fun l hl => ?_) ⟨k, Finset.mem_range.mpr hk, ?_⟩)
  · simpa using hterm l (Finset.mem_range.mp hl)
  · simpa using hkpos

end Biv4

open Biv4

/-! ## C173: symmetries -/

/-- **C173.** the result does not depend on the order of the samples -/
theorem C173_order (brent : (Fl ℝ → Fl ℝ) → Fl ℝ → Py (Fl ℝ)) (fmin : (Fl ℝ → Fl ℝ) → Py (Fl ℝ)) (hs : Searches brent fmin)
    (xs ys xs' ys' : List ℝ) (hl : xs.length = ys.length) (hl' : xs'.length = ys'.length)
    (hp : (List.zip xs ys).Perm (List.zip xs' ys')) (lx ux ly uy : ℝ) (hx : Range xs lx ux) (hy : Range ys ly uy) (hx0 : lx < ux)
    (hy0 : ly < uy) (bx by' : ℝ) (g : Nat) (hg : 2 ≤ g) (hev : g % 2 = 0) :
    bivariateKernel brent fmin arangeFl 37 (fins xs') (fins ys') (fin bx) (fin by') g =
      bivariateKernel brent fmin arangeFl 37 (fins xs) (fins ys) (fin bx) (fin by') g := by
  obtain ⟨p1, p2⟩ := perm_fst hl hl' hp
  rw [kernel brent fmin hs xs ys hl hx hy hx0 hy0 bx by' g hg hev,
    kernel brent fmin hs xs' ys' hl' (range_perm p1 hx) (range_perm p2 hy) hx0 hy0 bx by' g hg hev]
  unfold est
  rw [hist_congr (by simp [hl]) (by simp [hl']) (zip_map_perm (fun x => (x - lx) / (ux - lx)) (fun y => (y - ly) / (uy - ly)) hp)]

/-- **C173.** measuring every sample twice changes nothing: the bandwidths are the caller's, not adapted to the sample size -/
theorem C173_repeat (brent : (Fl ℝ → Fl ℝ) → Fl ℝ → Py (Fl ℝ)) (fmin : (Fl ℝ → Fl ℝ) → Py (Fl ℝ)) (hs : Searches brent fmin)
    (xs ys : List ℝ) (hl : xs.length = ys.length) (lx ux ly uy : ℝ) (hx : Range xs lx ux) (hy : Range ys ly uy) (hx0 : lx < ux)
    (hy0 : ly < uy) (bx by' : ℝ) (g : Nat) (hg : 2 ≤ g) (hev : g % 2 = 0) :
    bivariateKernel brent fmin arangeFl 37 (fins (xs ++ xs)) (fins (ys ++ ys)) (fin bx) (fin by') g =
      bivariateKernel brent fmin arangeFl 37 (fins xs) (fins ys) (fin bx) (fin by') g := by
  have hr : ∀ {zs : List ℝ} {lo hi}, Range zs lo hi → Range (zs ++ zs) lo hi := by
    rintro zs lo hi ⟨⟨a, b⟩, c, d⟩
    exact ⟨⟨by simp [a], fun x h => b x (by simpa using h)⟩, by simp [c], fun x h => d x (by simpa using h)⟩
  rw [kernel brent fmin hs xs ys hl hx hy hx0 hy0 bx by' g hg hev,
    kernel brent fmin hs (xs ++ xs) (ys ++ ys) (by simp [hl]) (hr hx) (hr hy) hx0 hy0 bx by' g hg hev]
  have hh : ∀ tx ty : List ℝ, tx.length = ty.length → hist g (tx ++ tx) (ty ++ ty) = hist g tx ty := by
    intro tx ty h
    funext i j
    unfold hist
    rw [List.map_append, List.map_append, List.zip_append (by simp [h]), List.count_append, List.length_append]
    push_cast
    rcases Nat.eq_zero_or_pos tx.length with h0 | h0
    · have h1 : tx = [] := List.length_eq_zero_iff.mp h0
      simp [h1]
    · have : (0 : ℝ) < tx.length := by exact_mod_cast h0
      rw [← two_mul, ← two_mul, mul_div_mul_left _ _ two_ne_zero]
  unfold est
  rw [List.map_append, List.map_append, hh _ _ (by simp [hl])]

/-- **C173.** change of units and of origin of both components: the axes follow, the density is divided by the product of the
factors — except that values below zero are replaced by the same `2^-52` in all units -/
theorem C173_units (brent : (Fl ℝ → Fl ℝ) → Fl ℝ → Py (Fl ℝ)) (fmin : (Fl ℝ → Fl ℝ) → Py (Fl ℝ)) (hs : Searches brent fmin)
    (xs ys : List ℝ) (hl : xs.length = ys.length) (lx ux ly uy : ℝ) (hx : Range xs lx ux) (hy : Range ys ly uy) (hx0 : lx < ux)
    (hy0 : ly < uy) (bx by' : ℝ) (g : Nat) (hg : 2 ≤ g) (hev : g % 2 = 0) (a b c d : ℝ) (ha : 0 < a) (hc : 0 < c) :
    ∃ e X Y : Nat → Nat → ℝ,
      bivariateKernel brent fmin arangeFl 37 (fins xs) (fins ys) (fin bx) (fin by') g =
        some (.ok (matOf g g (fun i j => clipped (e i j)), matOf g g X, matOf g g Y)) ∧
      bivariateKernel brent fmin arangeFl 37 (fins (xs.map (fun x => a * x + b))) (fins (ys.map (fun y => c * y + d))) (fin bx) (fin by') g =
        some (.ok (matOf g g (fun i j => clipped (e i j / (a * c))), matOf g g (fun i j => a * X i j + b),
          matOf g g (fun i j => c * Y i j + d))) := by
  refine ⟨_, _, _, kernel brent fmin hs xs ys hl hx hy hx0 hy0 bx by' g hg hev, ?_⟩
  rw [kernel brent fmin hs _ _ (by simp [hl]) (range_affine b ha hx) (range_affine d hc hy) (by nlinarith) (by nlinarith) bx by' g hg hev]
  rw [scaled_affine xs lx ux a b ha, scaled_affine ys ly uy c d hc]
  have hg1 : (g : ℝ) - 1 ≠ 0 := by
    have : (2 : ℝ) ≤ g := by exact_mod_cast hg
    linarith
  have hdx : ux - lx ≠ 0 := (sub_pos.mpr hx0).ne'
  have hdy : uy - ly ≠ 0 := (sub_pos.mpr hy0).ne'
  congr 2
  refine Prod.ext (matOf_congr fun i _ j _ => ?_) (Prod.ext (matOf_congr fun i _ j _ => ?_) (matOf_congr fun i _ j _ => ?_))
  · congr 1
    unfold est
    rw [mul_div_assoc, show a * ux + b - (a * lx + b) = a * (ux - lx) by ring, show c * uy + d - (c * ly + d) = c * (uy - ly) by ring]
    congr 1
    field_simp
  · field_simp; ring
  · field_simp; ring

/-- **C173.** the bandwidths enter only through their squares -/
theorem C173_bandwidth_sign {F : Type} [PyMath F] (brent : (F → F) → F → Py F) (fmin : (F → F) → Py F)
    (arange : F → F → F → Py (List F)) (fuel : Nat) (xs ys : List F) (hx hy kx ky : F) (g : Nat) (h1 : hx ^. 2 = kx ^. 2)
    (h2 : hy ^. 2 = ky ^. 2) :
    bivariateKernel brent fmin arange fuel xs ys hx hy g = bivariateKernel brent fmin arange fuel xs ys kx ky g := by
  unfold bivariateKernel; rw [h1, h2]

example : ((fin (-3) : Fl ℝ) ^. 2) = (fin 3 : Fl ℝ) ^. 2 := by rw [pnpow_fin, pnpow_fin]; norm_num

/-! ## C174: large bandwidths -/

open Filter Topology in
/-- **C174.** as both bandwidths grow the density tends to a profile that is constant along the x-axis but varies along the y-axis
as `1, 2 cos(π i / 2g), …` -/
theorem C174_limit (brent : (Fl ℝ → Fl ℝ) → Fl ℝ → Py (Fl ℝ)) (fmin : (Fl ℝ → Fl ℝ) → Py (Fl ℝ)) (hs : Searches brent fmin)
    (xs ys : List ℝ) (hl : xs.length = ys.length) (lx ux ly uy : ℝ) (hx : Range xs lx ux) (hy : Range ys ly uy) (hx0 : lx < ux)
    (hy0 : ly < uy) (g : Nat) (hg : 2 ≤ g) (hev : g % 2 = 0) :
    ∃ (D : ℝ × ℝ → Nat → Nat → ℝ) (X Y : List (List (Fl ℝ))) (S : ℝ), 0 < S ∧
      (∀ p : ℝ × ℝ, bivariateKernel brent fmin arangeFl 37 (fins xs) (fins ys) (fin p.1) (fin p.2) g = some (.ok (matOf g g (D p), X, Y))) ∧
      ∀ i < g, ∀ j < g, Tendsto (fun p => D p i j) (atTop ×ˢ atTop) (𝓝 ((if i = 0 then 1 else 2 * Real.cos (Real.pi * i / (2 * g))) * S)) := by
  have hdx : 0 < ux - lx := sub_pos.mpr hx0
  have hdy : 0 < uy - ly := sub_pos.mpr hy0
  have hg0 : (0 : ℝ) < g := by exact_mod_cast (by omega : 0 < g)
  have hne : xs.map (fun x => (x - lx) / (ux - lx)) ≠ [] := by
    intro h
    have h0 : xs = [] := by simpa using h
    have := hx.1.1
    rw [h0] at this; simp at this
  have hc := corner_pos g hg hev (xs.map (fun x => (x - lx) / (ux - lx))) (ys.map (fun y => (y - ly) / (uy - ly))) (by simp [hl]) hne
  refine ⟨_, _, _, step2 g (hist g (xs.map (fun x => (x - lx) / (ux - lx))) (ys.map (fun y => (y - ly) / (uy - ly)))) 0 0 *
    ((g * g : ℕ) / ((ux - lx) * (uy - ly))), ?_, fun p => kernel brent fmin hs xs ys hl hx hy hx0 hy0 p.1 p.2 g hg hev, ?_⟩
  · have : (0 : ℝ) < (g * g : ℕ) := by push_cast; positivity
    positivity
  · intro i hi j hj
    have hlim := (step2_limit (n := g) (l := atTop ×ˢ atTop)
      (fun a b => damp_limit (step2 g (hist g (xs.map (fun x => (x - lx) / (ux - lx))) (ys.map (fun y => (y - ly) / (uy - ly))))) a b) j i).mul_const
      (((g * g : ℕ) : ℝ) / ((ux - lx) * (uy - ly)))
    rw [step2_corner g (by omega)] at hlim
    have hw : w i * Real.cos (Real.pi * i / (2 * g)) = if i = 0 then 1 else 2 * Real.cos (Real.pi * i / (2 * g)) := by
      unfold w; split
      · next h => simp [h]
      · rfl
    rw [hw, mul_assoc] at hlim
    have hpos : 0 < (if i = 0 then 1 else 2 * Real.cos (Real.pi * i / (2 * g))) *
        (step2 g (hist g (xs.map (fun x => (x - lx) / (ux - lx))) (ys.map (fun y => (y - ly) / (uy - ly)))) 0 0 *
        (((g * g : ℕ) : ℝ) / ((ux - lx) * (uy - ly)))) := by
      have h1 : (0 : ℝ) < if i = 0 then 1 else 2 * Real.cos (Real.pi * i / (2 * g)) := by
        split
        · norm_num
        · have := cos_pos hi; linarith
      have : (0 : ℝ) < (g * g : ℕ) := by push_cast; positivity
      positivity
    refine hlim.congr' ?_
    filter_upwards [hlim.eventually (lt_mem_nhds hpos)] with p hp
    exact (if_neg (not_lt.mpr hp.le)).symm

open Filter Topology in
/-- **C174.** hence unlimited smoothing does not give a uniform density: on every grid, for all bandwidths large enough, each value of
the second row exceeds the value of the first row in the same column -/
theorem C174_not_uniform (brent : (Fl ℝ → Fl ℝ) → Fl ℝ → Py (Fl ℝ)) (fmin : (Fl ℝ → Fl ℝ) → Py (Fl ℝ)) (hs : Searches brent fmin)
    (xs ys : List ℝ) (hl : xs.length = ys.length) (lx ux ly uy : ℝ) (hx : Range xs lx ux) (hy : Range ys ly uy) (hx0 : lx < ux)
    (hy0 : ly < uy) (g : Nat) (hg : 2 ≤ g) (hev : g % 2 = 0) :
    ∃ h₀ : ℝ, ∀ hx ≥ h₀, ∀ hy ≥ h₀, ∃ (d : Nat → Nat → ℝ) (X Y : List (List (Fl ℝ))),
      bivariateKernel brent fmin arangeFl 37 (fins xs) (fins ys) (fin hx) (fin hy) g = some (.ok (matOf g g d, X, Y)) ∧
      ∀ j < g, d 0 j < d 1 j := by
  obtain ⟨D, X, Y, S, hS, hk, hlim⟩ := C174_limit brent fmin hs xs ys hl lx ux ly uy hx hy hx0 hy0 g hg hev
  have hg' : (2 : ℝ) ≤ g := by exact_mod_cast hg
  have hcos : 1 < 2 * Real.cos (Real.pi * (1 : ℕ) / (2 * g)) := by
    have h : Real.cos (Real.pi / 3) < Real.cos (Real.pi * (1 : ℕ) / (2 * g)) := by
      apply Real.cos_lt_cos_of_nonneg_of_le_pi (by positivity) (by linarith [Real.pi_pos])
      rw [div_lt_div_iff₀ (by positivity) (by norm_num)]
      push_cast
      nlinarith [Real.pi_pos]
    rw [Real.cos_pi_div_three] at h; linarith
  have hev' : ∀ᶠ p in (atTop ×ˢ atTop : Filter (ℝ × ℝ)), ∀ j ∈ Finset.range g, D p 0 j < D p 1 j := by
    rw [Finset.eventually_all]
    intro j hj
    have hj' := Finset.mem_range.mp hj
    refine (hlim 0 (by omega) j hj').eventually_lt (hlim 1 (by omega) j hj') ?_
    rw [if_pos rfl, if_neg (by norm_num)]
    exact mul_lt_mul_of_pos_right hcos hS
  rw [Filter.prod_atTop_atTop_eq, Filter.eventually_atTop] at hev'
  obtain ⟨⟨a, b⟩, hab⟩ := hev'
  refine ⟨max a b, fun hx h1 hy h2 => ⟨_, X, Y, hk (hx, hy), fun j hj => ?_⟩⟩
  exact hab (hx, hy) ⟨(le_max_left a b).trans h1, (le_max_right a b).trans h2⟩ j (Finset.mem_range.mpr hj)

/-! ## C173: exchange of the components -/

/-- **C173.** exchanging the components does not transpose the density: for the samples (0,1) and (1,0) — a set that is its own mirror
image — with zero bandwidths and a grid of 2 the density matrix is not symmetric -/
theorem C173_exchange (brent : (Fl ℝ → Fl ℝ) → Fl ℝ → Py (Fl ℝ)) (fmin : (Fl ℝ → Fl ℝ) → Py (Fl ℝ)) (hs : Searches brent fmin) :
    ∃ (d : Nat → Nat → ℝ) (X Y : List (List (Fl ℝ))),
      bivariateKernel brent fmin arangeFl 37 (fins [0, 1]) (fins [1, 0]) (fin 0) (fin 0) 2 = some (.ok (matOf 2 2 d, X, Y)) ∧
      d 0 1 ≠ d 1 0 := by
  have hk := kernel brent fmin hs [0, 1] [1, 0] rfl (lx := 0) (ux := 1) (ly := 0) (uy := 1)
    (by constructor <;> simp) (by constructor <;> simp) (by norm_num) (by norm_num) 0 0 2 le_rfl (by norm_num)
  refine ⟨_, _, _, hk, ?_⟩
  have hc0 : cell 2 0 = 0 := by simp [cell]
  have hc1 : cell 2 1 = 1 := by simp [cell]
  have h00 : hist 2 [0, 1] [1, 0] 0 0 = 0 := by simp [hist, hc0, hc1]
  have h01 : hist 2 [0, 1] [1, 0] 0 1 = 1 / 2 := by simp [hist, hc0, hc1]
  have h10 : hist 2 [0, 1] [1, 0] 1 0 = 1 / 2 := by simp [hist, hc0, hc1]
  have h11 : hist 2 [0, 1] [1, 0] 1 1 = 0 := by simp [hist, hc0, hc1]
  have hdamp : ∀ c, damp 0 0 c = c := by intro c; funext i j; simp [damp]
  have hsq : Real.sqrt 2 * Real.sqrt 2 = 2 := Real.mul_self_sqrt (by norm_num)
  have c4 : Real.cos (Real.pi / 4) = Real.sqrt 2 / 2 := Real.cos_pi_div_four
  have c4' : Real.cos (Real.pi / 4 + Real.pi) = -(Real.sqrt 2 / 2) := by rw [Real.cos_add_pi, c4]
  have s0 : ∀ c j, step 2 c 0 j = c 0 0 + c 0 1 * Real.cos (Real.pi * j) := by
    intro c j
    simp [step, w, src, Finset.sum_range_succ]
    left; ring_nf
  have s00 : ∀ c, step 2 c 0 0 = c 0 0 + c 0 1 := by intro c; rw [s0]; simp
  have s01 : ∀ c, step 2 c 0 1 = c 0 0 - c 0 1 := by intro c; rw [s0]; simp; ring
  have s10 : ∀ c, step 2 c 1 0 = Real.sqrt 2 * (c 1 0 + c 1 1) := by
    intro c
    have e : ∀ k : ℕ, Real.pi * ((1 : ℕ) : ℝ) / (2 * ((2 : ℕ) : ℝ)) + 2 * Real.pi * (((0 : ℕ) : ℝ) * (k : ℝ)) / ((2 : ℕ) : ℝ) = Real.pi / 4 := by
      intro k; push_cast; ring
    unfold step
    simp only [Finset.sum_range_succ, Finset.sum_range_zero, e, c4]
    simp [w, src]; ring
  have s11 : ∀ c, step 2 c 1 1 = Real.sqrt 2 * (c 1 0 - c 1 1) := by
    intro c
    have e0 : Real.pi * ((1 : ℕ) : ℝ) / (2 * ((2 : ℕ) : ℝ)) + 2 * Real.pi * (((1 : ℕ) : ℝ) * ((0 : ℕ) : ℝ)) / ((2 : ℕ) : ℝ) = Real.pi / 4 := by
      push_cast; ring
    have e1 : Real.pi * ((1 : ℕ) : ℝ) / (2 * ((2 : ℕ) : ℝ)) + 2 * Real.pi * (((1 : ℕ) : ℝ) * ((1 : ℕ) : ℝ)) / ((2 : ℕ) : ℝ) = Real.pi / 4 + Real.pi := by
      push_cast; ring
    unfold step
    rw [Finset.sum_range_succ, Finset.sum_range_succ, Finset.sum_range_zero, e0, e1, c4, c4']
    simp [w, src]; ring
  have t00 : ∀ c, step2 2 c 0 0 = (c 0 0 + c 0 1) + Real.sqrt 2 * (c 1 0 + c 1 1) := by
    intro c; unfold step2; rw [s00, s00, s10]
  have t01 : ∀ c, step2 2 c 0 1 = Real.sqrt 2 * ((c 0 0 - c 0 1) + Real.sqrt 2 * (c 1 0 - c 1 1)) := by
    intro c; unfold step2; rw [s10, s01, s11]
  have t10 : ∀ c, step2 2 c 1 0 = (c 0 0 + c 0 1) - Real.sqrt 2 * (c 1 0 + c 1 1) := by
    intro c; unfold step2; rw [s01, s00, s10]
  have t11 : ∀ c, step2 2 c 1 1 = Real.sqrt 2 * ((c 0 0 - c 0 1) - Real.sqrt 2 * (c 1 0 - c 1 1)) := by
    intro c; unfold step2; rw [s11, s01, s11]
  have hmap : ([0, 1] : List ℝ).map (fun x => (x - 0) / (1 - 0)) = [0, 1] := by norm_num
  have hmap' : ([1, 0] : List ℝ).map (fun x => (x - 0) / (1 - 0)) = [1, 0] := by norm_num
  simp only [hmap, hmap']
  have v01 : est 2 [0, 1] [1, 0] 0 0 (1 - 0) (1 - 0) 0 1 = 4 * (5 - Real.sqrt 2 / 2) := by
    unfold est; rw [hdamp, t01, t00, t01, t10, t11, h00, h01, h10, h11]; norm_num
    linear_combination (10 - 2 * Real.sqrt 2 + 2 * Real.sqrt 2 ^ 2) * hsq
  have v10 : est 2 [0, 1] [1, 0] 0 0 (1 - 0) (1 - 0) 1 0 = 4 * (7 / 2 + Real.sqrt 2 / 2) := by
    unfold est; rw [hdamp, t10, t00, t01, t10, t11, h00, h01, h10, h11]; norm_num
    linear_combination (6 + 2 * Real.sqrt 2) * hsq
  have hs1 : (1.4 : ℝ) < Real.sqrt 2 := by rw [Real.lt_sqrt (by norm_num)]; norm_num
  have hs2 : Real.sqrt 2 < (1.42 : ℝ) := by rw [Real.sqrt_lt' (by norm_num)]; norm_num
  rw [v01, v10]
  unfold clipped
  rw [if_neg (by linarith), if_neg (by linarith)]
  intro h
  linarith

/-- the hypotheses are met: searches that always fail to bracket, and the four corners of the unit square in some order -/
example : Searches (fun _ _ => .error .valueError) (fun _ => .ok (fin 0)) ∧ Range [0, 0, 1, 1] 0 1 ∧ Range [0, 1, 0, 1] 0 1 ∧
    (List.zip [0, 0, 1, 1] [0, 1, 0, 1] : List (ℝ × ℝ)).Perm (List.zip [1, 1, 0, 0] [1, 0, 1, 0]) := by
  refine ⟨⟨fun f b e h => (Except.error.inj h).symm, fun f => ⟨_, rfl⟩⟩, by constructor <;> simp, by constructor <;> simp, ?_⟩
  exact (List.reverse_perm _).symm.trans (by simp)

end Proadv.Props
