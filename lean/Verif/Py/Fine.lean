import Verif.Py.RoundReal
import Verif.Lemmas.Descriptive
import Mathlib.Topology.Instances.Real.Lemmas
import Mathlib.Analysis.SpecialFunctions.Trigonometric.Arctan
import Mathlib.Analysis.SpecialFunctions.Log.Basic
import Mathlib.Analysis.Real.Sqrt

/-!
# Limits of computed values as the arithmetic becomes exact

`fine` is the filter of arithmetics `A` with `Std A u`, `u → 0`.  A program that computes `f A` in the arithmetic `A` tends to the
number `x` (`Lim fine f x`) when, for all sufficiently fine arithmetics, `f A` is a number, and these numbers tend to `x`.  The filter may
be replaced by a smaller one, for example that of the arithmetics which round up.
-/

set_option linter.unusedSectionVars false

namespace Proadv

open Filter Topology

/-- a property holds for all sufficiently fine arithmetics -/
def fine : Filter (Arith ℝ) where
  sets := {S | ∃ u0 : ℝ, 0 < u0 ∧ ∀ A u, Std A u → KeepsSign A → u ≤ u0 → A ∈ S}
  univ_sets := ⟨1, one_pos, fun _ _ _ _ _ => trivial⟩
  sets_of_superset := by
    rintro S T ⟨u0, h0, h⟩ hST
    exact ⟨u0, h0, fun A u a b c => hST (h A u a b c)⟩
  inter_sets := by
    rintro S T ⟨u0, h0, h⟩ ⟨u1, h1, k⟩
    exact ⟨min u0 u1, lt_min h0 h1, fun A u a b c =>
      ⟨h A u a b (c.trans (min_le_left _ _)), k A u a b (c.trans (min_le_right _ _))⟩⟩

theorem eventually_fine {P : Arith ℝ → Prop} :
    (∀ᶠ A in fine, P A) ↔ ∃ u0 : ℝ, 0 < u0 ∧ ∀ A u, Std A u → KeepsSign A → u ≤ u0 → P A := Iff.rfl

/-- exact arithmetic -/
noncomputable def exactArith : Arith ℝ := ⟨id, List.sum⟩

theorem exactArith_std : Std exactArith 0 := exact_std

theorem exactArith_keeps : KeepsSign exactArith := ⟨fun _ h => h, fun _ h => List.sum_nonneg h⟩

/-- exact arithmetic is as fine as any -/
theorem of_fine {P : Arith ℝ → Prop} (h : ∀ᶠ A in fine, P A) : P exactArith := by
  obtain ⟨u0, h0, h⟩ := eventually_fine.mp h
  exact h _ 0 exactArith_std exactArith_keeps h0.le

/-- a filter that contains only fine arithmetics, for example those of one kind -/
class Fine (𝓕 : Filter (Arith ℝ)) : Prop where
  le : 𝓕 ≤ fine

instance : Fine fine := ⟨le_rfl⟩

theorem fine_std (𝓕 : Filter (Arith ℝ)) [Fine 𝓕] {d : ℝ} (hd : 0 < d) : ∀ᶠ A in 𝓕, ∃ u, Std A u ∧ u ≤ d :=
  (Fine.le (𝓕 := 𝓕)) (show ∀ᶠ A in fine, ∃ u, Std A u ∧ u ≤ d from ⟨d, hd, fun _ u a _ c => ⟨u, a, c⟩⟩)

instance neBot_fine : NeBot fine := ⟨fun h => by
  have : ∀ᶠ _ in fine, False := by rw [h]; exact trivial
  exact of_fine this⟩

variable {𝓕 : Filter (Arith ℝ)} [Fine 𝓕]

/-! ## Numbers -/

theorem tendsto_rnd {y : Arith ℝ → ℝ} {x : ℝ} (h : Tendsto y 𝓕 (𝓝 x)) : Tendsto (fun A => A.rnd (y A)) 𝓕 (𝓝 x) := by
  have h1 : Tendsto (fun A => A.rnd (y A) - y A) 𝓕 (𝓝 0) := by
    rw [Metric.tendsto_nhds]
    intro ε hε
    have hb : ∀ᶠ A in 𝓕, |y A| < |x| + 1 := (h.abs).eventually_lt_const (by linarith)
    have hk := fine_std 𝓕 (show 0 < ε / (2 * (|x| + 1)) by positivity)
    filter_upwards [hb, hk] with A h2 ⟨u, h3, h4⟩
    rw [Real.dist_eq, sub_zero]
    have h5 := h3.rnd (y A)
    have h6 : u * |y A| ≤ ε / (2 * (|x| + 1)) * (|x| + 1) := mul_le_mul h4 h2.le (abs_nonneg _) (by positivity)
    have h7 : ε / (2 * (|x| + 1)) * (|x| + 1) = ε / 2 := by field_simp
    linarith
  have := h1.add h
  simpa using this

/-- the values computed by `f` tend to the number `x` -/
def Lim (𝓕 : Filter (Arith ℝ)) (f : ∀ A : Arith ℝ, Rd A) (x : ℝ) : Prop :=
  ∃ y : Arith ℝ → ℝ, (∀ᶠ A in 𝓕, f A = Rd.fin A (y A)) ∧ Tendsto y 𝓕 (𝓝 x)

namespace Lim

variable {f g : ∀ A : Arith ℝ, Rd A} {x y : ℝ}

theorem const (x : ℝ) : Lim 𝓕 (fun A => Rd.fin A x) x := ⟨fun _ => x, Eventually.of_forall fun _ => rfl, tendsto_const_nhds⟩

theorem lit (q : ℚ) : Lim 𝓕 (fun A => (Proadv.lit q : Rd A)) (q : ℝ) :=
  ⟨fun A => A.rnd (q : ℝ), Eventually.of_forall fun _ => rfl, tendsto_rnd tendsto_const_nhds⟩

theorem zero : Lim 𝓕 (fun A => (Proadv.lit 0 : Rd A)) 0 := by
  have := lit (𝓕 := 𝓕) 0
  rwa [Rat.cast_zero] at this

theorem one : Lim 𝓕 (fun A => (Proadv.lit 1 : Rd A)) 1 := by
  have := lit (𝓕 := 𝓕) 1
  rwa [Rat.cast_one] at this

theorem nat (n : ℕ) : Lim 𝓕 (fun A => (Proadv.ofNat n : Rd A)) (n : ℝ) :=
  ⟨fun A => A.rnd (n : ℝ), Eventually.of_forall fun A => Rd.ofNat_fin A n, tendsto_rnd tendsto_const_nhds⟩

theorem congr (h : Lim 𝓕 f x) (e : ∀ᶠ A in 𝓕, g A = f A) : Lim 𝓕 g x := by
  obtain ⟨a, ha, hx⟩ := h
  exact ⟨a, by filter_upwards [ha, e] with A h1 h2; rw [h2, h1], hx⟩

theorem add (hf : Lim 𝓕 f x) (hg : Lim 𝓕 g y) : Lim 𝓕 (fun A => f A +. g A) (x + y) := by
  obtain ⟨a, ha, hx⟩ := hf
  obtain ⟨b, hb, hy⟩ := hg
  exact ⟨fun A => A.rnd (a A + b A), by filter_upwards [ha, hb] with A h1 h2; rw [h1, h2, Rd.add_fin], tendsto_rnd (hx.add hy)⟩

theorem sub (hf : Lim 𝓕 f x) (hg : Lim 𝓕 g y) : Lim 𝓕 (fun A => f A -. g A) (x - y) := by
  obtain ⟨a, ha, hx⟩ := hf
  obtain ⟨b, hb, hy⟩ := hg
  exact ⟨fun A => A.rnd (a A - b A), by filter_upwards [ha, hb] with A h1 h2; rw [h1, h2, Rd.sub_fin], tendsto_rnd (hx.sub hy)⟩

theorem mul (hf : Lim 𝓕 f x) (hg : Lim 𝓕 g y) : Lim 𝓕 (fun A => f A *. g A) (x * y) := by
  obtain ⟨a, ha, hx⟩ := hf
  obtain ⟨b, hb, hy⟩ := hg
  exact ⟨fun A => A.rnd (a A * b A), by filter_upwards [ha, hb] with A h1 h2; rw [h1, h2, Rd.mul_fin], tendsto_rnd (hx.mul hy)⟩

theorem div (hf : Lim 𝓕 f x) (hg : Lim 𝓕 g y) (h : y ≠ 0) : Lim 𝓕 (fun A => f A /. g A) (x / y) := by
  obtain ⟨a, ha, hx⟩ := hf
  obtain ⟨b, hb, hy⟩ := hg
  refine ⟨fun A => A.rnd (a A / b A), ?_, tendsto_rnd (hx.div hy h)⟩
  filter_upwards [ha, hb, hy.eventually_ne h] with A h1 h2 h3
  rw [h1, h2, Rd.div_fin A h3]

theorem npow (hf : Lim 𝓕 f x) (n : ℕ) : Lim 𝓕 (fun A => f A ^. n) (x ^ n) := by
  obtain ⟨a, ha, hx⟩ := hf
  refine ⟨fun A => A.rnd (a A ^ n), ?_, tendsto_rnd (hx.pow n)⟩
  filter_upwards [ha] with A h1
  rw [h1]
  show Rd.round A (Fl.npow (Fl.fin (a A)) n) = _
  have : Fl.npow (Fl.fin (a A)) n = Fl.fin (a A ^ n) := Fl.pnpow_fin (a A) n
  rw [this]; rfl

theorem neg (hf : Lim 𝓕 f x) : Lim 𝓕 (fun A => PyNum.neg (f A)) (-x) := by
  obtain ⟨a, ha, hx⟩ := hf
  exact ⟨fun A => -a A, by filter_upwards [ha] with A h1; rw [h1]; rfl, hx.neg⟩

theorem abs (hf : Lim 𝓕 f x) : Lim 𝓕 (fun A => PyNum.abs (f A)) |x| := by
  obtain ⟨a, ha, hx⟩ := hf
  exact ⟨fun A => |a A|, by filter_upwards [ha] with A h1; rw [h1]; rfl, hx.abs⟩

theorem sqrt (hf : Lim 𝓕 f x) (h : 0 < x) : Lim 𝓕 (fun A => PyMath.sqrt (f A)) (√x) := by
  obtain ⟨a, ha, hx⟩ := hf
  refine ⟨fun A => A.rnd (√(a A)), ?_, tendsto_rnd ((Real.continuous_sqrt.tendsto x).comp hx)⟩
  filter_upwards [ha, hx.eventually_const_lt h] with A h1 h2
  rw [h1, Rd.sqrt_fin A h2.le]

/-- a square root of numbers that are never negative -/
theorem sqrt_nonneg (hf : Lim 𝓕 f x) (h : ∀ᶠ A in 𝓕, ∀ r, f A = Rd.fin A r → 0 ≤ r) : Lim 𝓕 (fun A => PyMath.sqrt (f A)) (√x) := by
  obtain ⟨a, ha, hx⟩ := hf
  refine ⟨fun A => A.rnd (√(a A)), ?_, tendsto_rnd ((Real.continuous_sqrt.tendsto x).comp hx)⟩
  filter_upwards [ha, h] with A h1 h2
  have := h2 _ h1
  rw [h1, Rd.sqrt_fin A this]

theorem log (hf : Lim 𝓕 f x) (h : 0 < x) : Lim 𝓕 (fun A => PyMath.log (f A)) (Real.log x) := by
  obtain ⟨a, ha, hx⟩ := hf
  refine ⟨fun A => A.rnd (Real.log (a A)), ?_, tendsto_rnd ((Real.continuousAt_log h.ne').tendsto.comp hx)⟩
  filter_upwards [ha, hx.eventually_const_lt h] with A h1 h2
  rw [h1]
  show Rd.round A (Fl.logR (Fl.fin (a A))) = _
  unfold Fl.logR
  simp only
  rw [if_neg h2.not_gt, if_neg h2.ne']
  rfl

theorem cos (hf : Lim 𝓕 f x) : Lim 𝓕 (fun A => PyMath.cos (f A)) (Real.cos x) := by
  obtain ⟨a, ha, hx⟩ := hf
  exact ⟨fun A => A.rnd (Real.cos (a A)), by filter_upwards [ha] with A h1; rw [h1]; rfl,
    tendsto_rnd ((Real.continuous_cos.tendsto x).comp hx)⟩

theorem sin (hf : Lim 𝓕 f x) : Lim 𝓕 (fun A => PyMath.sin (f A)) (Real.sin x) := by
  obtain ⟨a, ha, hx⟩ := hf
  exact ⟨fun A => A.rnd (Real.sin (a A)), by filter_upwards [ha] with A h1; rw [h1]; rfl,
    tendsto_rnd ((Real.continuous_sin.tendsto x).comp hx)⟩

theorem arctan (hf : Lim 𝓕 f x) : Lim 𝓕 (fun A => PyMath.arctan (f A)) (Real.arctan x) := by
  obtain ⟨a, ha, hx⟩ := hf
  exact ⟨fun A => A.rnd (Real.arctan (a A)), by filter_upwards [ha] with A h1; rw [h1]; rfl,
    tendsto_rnd ((Real.continuous_arctan.tendsto x).comp hx)⟩

/-- a comparison of different numbers is decided correctly -/
theorem lt (hf : Lim 𝓕 f x) (hg : Lim 𝓕 g y) (h : x ≠ y) : ∀ᶠ A in 𝓕, (f A <. g A) = decide (x < y) := by
  obtain ⟨a, ha, hx⟩ := hf
  obtain ⟨b, hb, hy⟩ := hg
  rcases lt_or_gt_of_ne h with h | h
  · filter_upwards [ha, hb, hx.eventually_lt hy h] with A h1 h2 h3
    rw [h1, h2, Rd.lt_fin]
    simp [h, h3]
  · filter_upwards [ha, hb, hy.eventually_lt hx h] with A h1 h2 h3
    rw [h1, h2, Rd.lt_fin]
    simp [h.not_gt, h3.not_gt]

end Lim

/-! ## Lists -/

/-- the lists computed by `l` tend to the list `xs` -/
def LimL (𝓕 : Filter (Arith ℝ)) (l : ∀ A : Arith ℝ, List (Rd A)) (xs : List ℝ) : Prop :=
  ∃ fs : List (∀ A : Arith ℝ, Rd A), (∀ᶠ A in 𝓕, l A = fs.map (fun f => f A)) ∧ List.Forall₂ (Lim 𝓕) fs xs

namespace LimL

variable {l k : ∀ A : Arith ℝ, List (Rd A)} {xs ys : List ℝ}

theorem fins (xs : List ℝ) : LimL 𝓕 (fun A => Rd.fins A xs) xs := by
  refine ⟨xs.map (fun x A => Rd.fin A x), Eventually.of_forall fun A => by simp [Rd.fins, Function.comp_def], ?_⟩
  induction xs with
  | nil => exact List.Forall₂.nil
  | cons x t ih => exact List.Forall₂.cons (Lim.const x) ih

theorem congr (h : LimL 𝓕 l xs) (e : ∀ᶠ A in 𝓕, k A = l A) : LimL 𝓕 k xs := by
  obtain ⟨fs, h1, h2⟩ := h
  exact ⟨fs, by filter_upwards [h1, e] with A a b; rw [b, a], h2⟩

theorem length (h : LimL 𝓕 l xs) : ∀ᶠ A in 𝓕, (l A).length = xs.length := by
  obtain ⟨fs, h1, h2⟩ := h
  filter_upwards [h1] with A a
  rw [a, List.length_map, h2.length_eq]

theorem map (φ : ∀ A : Arith ℝ, Rd A → Rd A) (ψ : ℝ → ℝ) (h : LimL 𝓕 l xs)
    (hφ : ∀ x ∈ xs, ∀ f, Lim 𝓕 f x → Lim 𝓕 (fun A => φ A (f A)) (ψ x)) : LimL 𝓕 (fun A => (l A).map (φ A)) (xs.map ψ) := by
  obtain ⟨fs, h1, h2⟩ := h
  refine ⟨fs.map (fun f A => φ A (f A)), by filter_upwards [h1] with A a; simp [a, Function.comp_def], ?_⟩
  clear h1
  induction h2 with
  | nil => exact List.Forall₂.nil
  | cons a _ ih => exact List.Forall₂.cons (hφ _ (by simp) _ a) (ih fun x hx => hφ x (by simp [hx]))

theorem zipWith (φ : ∀ A : Arith ℝ, Rd A → Rd A → Rd A) (ψ : ℝ → ℝ → ℝ) (h : LimL 𝓕 l xs) (h' : LimL 𝓕 k ys)
    (hφ : ∀ x ∈ xs, ∀ y ∈ ys, ∀ f g, Lim 𝓕 f x → Lim 𝓕 g y → Lim 𝓕 (fun A => φ A (f A) (g A)) (ψ x y)) :
    LimL 𝓕 (fun A => List.zipWith (φ A) (l A) (k A)) (List.zipWith ψ xs ys) := by
  obtain ⟨fs, h1, h2⟩ := h
  obtain ⟨gs, k1, k2⟩ := h'
  refine ⟨List.zipWith (fun f g A => φ A (f A) (g A)) fs gs, ?_, ?_⟩
  · filter_upwards [h1, k1] with A a b
    rw [a, b, List.zipWith_map, List.map_zipWith]
  · clear h1 k1
    induction h2 generalizing gs ys with
    | nil => exact List.Forall₂.nil
    | cons a _ ih =>
      cases k2 with
      | nil => exact List.Forall₂.nil
      | cons b k2 =>
        exact List.Forall₂.cons (hφ _ (by simp) _ (by simp) _ _ a b)
          (ih (fun x hx y hy => hφ x (by simp [hx]) y (by simp [hy])) _ k2)

private theorem nums (fs : List (∀ A : Arith ℝ, Rd A)) (xs : List ℝ) (h : List.Forall₂ (Lim 𝓕) fs xs) :
    ∃ gs : List (Arith ℝ → ℝ), (∀ᶠ A in 𝓕, fs.map (fun f => f A) = Rd.fins A (gs.map (fun g => g A))) ∧
      List.Forall₂ (fun g x => Tendsto g 𝓕 (𝓝 x)) gs xs := by
  induction h with
  | nil => exact ⟨[], Eventually.of_forall fun _ => rfl, List.Forall₂.nil⟩
  | cons a _ ih =>
    obtain ⟨gs, h1, h2⟩ := ih
    obtain ⟨b, hb, hx⟩ := a
    refine ⟨b :: gs, ?_, List.Forall₂.cons hx h2⟩
    filter_upwards [h1, hb] with A c d
    simp only [List.map_cons, Rd.fins] at c ⊢
    rw [c, d]

private theorem sums {gs : List (Arith ℝ → ℝ)} {xs : List ℝ} (h : List.Forall₂ (fun g x => Tendsto g 𝓕 (𝓝 x)) gs xs) :
    Tendsto (fun A => (gs.map (fun g => g A)).sum) 𝓕 (𝓝 xs.sum) ∧
    Tendsto (fun A => ((gs.map (fun g => g A)).map (fun x => |x|)).sum) 𝓕 (𝓝 (xs.map (fun x => |x|)).sum) := by
  induction h with
  | nil => exact ⟨tendsto_const_nhds, tendsto_const_nhds⟩
  | cons a _ ih =>
    simp only [List.map_cons, List.sum_cons]
    exact ⟨a.add ih.1, a.abs.add ih.2⟩

/-- sums converge -/
theorem sum (h : LimL 𝓕 l xs) : Lim 𝓕 (fun A => PyNum.sum (l A)) xs.sum := by
  obtain ⟨fs, h1, h2⟩ := h
  obtain ⟨gs, g1, g2⟩ := nums fs xs h2
  refine ⟨fun A => A.sum (gs.map (fun g => g A)), by
    filter_upwards [h1, g1] with A a b
    rw [a, b, Rd.sum_fins], ?_⟩
  obtain ⟨s1, s2⟩ := sums g2
  have h3 : Tendsto (fun A => A.sum (gs.map (fun g => g A)) - (gs.map (fun g => g A)).sum) 𝓕 (𝓝 0) := by
    rw [Metric.tendsto_nhds]
    intro ε hε
    set S := (xs.map (fun x => |x|)).sum with hS
    have hS0 : 0 ≤ S := List.sum_nonneg (by
      intro y hy
      obtain ⟨x, -, rfl⟩ := List.mem_map.mp hy
      exact abs_nonneg x)
    have hb := s2.eventually_lt_const (by linarith : S < S + 1)
    have hc : Tendsto (fun u : ℝ => ((1 + u) ^ gs.length - 1) * (S + 1)) (𝓝 0) (𝓝 0) := by
      have : Continuous (fun u : ℝ => ((1 + u) ^ gs.length - 1) * (S + 1)) := by fun_prop
      have := this.tendsto 0
      simpa using this
    obtain ⟨d, hd, hd'⟩ := Metric.eventually_nhds_iff.mp (hc.eventually_lt_const hε)
    have hk := fine_std 𝓕 (show 0 < d / 2 by positivity)
    filter_upwards [hb, hk] with A h4 ⟨u, h5, h6⟩
    rw [Real.dist_eq, sub_zero]
    have h7 := h5.sum (gs.map (fun g => g A))
    rw [List.length_map] at h7
    have h8 : ((1 + u) ^ gs.length - 1) * (S + 1) < ε := hd' (by
      rw [Real.dist_eq, sub_zero, abs_of_nonneg h5.nonneg]; linarith)
    have h9 : 1 ≤ (1 + u) ^ gs.length := one_le_pow₀ (by linarith [h5.nonneg])
    have h10 := mul_le_mul_of_nonneg_left h4.le (sub_nonneg.mpr h9)
    linarith
  have := h3.add s1
  simpa using this

/-- decisions about the entries are eventually the right ones -/
theorem decide_map (φ : ∀ A : Arith ℝ, Rd A → Bool) (ψ : ℝ → Bool) (h : LimL 𝓕 l xs)
    (hφ : ∀ x ∈ xs, ∀ f, Lim 𝓕 f x → ∀ᶠ A in 𝓕, φ A (f A) = ψ x) : ∀ᶠ A in 𝓕, (l A).map (φ A) = xs.map ψ := by
  obtain ⟨fs, h1, h2⟩ := h
  have h3 : ∀ᶠ A in 𝓕, (fs.map (fun f => f A)).map (φ A) = xs.map ψ := by
    clear h1
    induction h2 with
    | nil => exact Eventually.of_forall fun _ => rfl
    | cons a _ ih =>
      filter_upwards [hφ _ (by simp) _ a, ih fun x hx => hφ x (by simp [hx])] with A b c
      simp only [List.map_cons]
      rw [b, c]
  filter_upwards [h1, h3] with A a b
  rw [a, b]

end LimL

namespace LimL

variable {l : ∀ A : Arith ℝ, List (Rd A)} {xs : List ℝ}

theorem mean (h : LimL 𝓕 l xs) (hx : xs ≠ []) : Lim 𝓕 (fun A => npMean (l A)) (Spec.avg xs) := by
  refine (h.sum.div (Lim.nat xs.length) (by simpa using hx)).congr ?_
  filter_upwards [h.length] with A a
  rw [npMean, a]

theorem dev (h : LimL 𝓕 l xs) (hx : xs ≠ []) : LimL 𝓕 (fun A => (l A).map (fun u => u -. npMean (l A))) (xs.map (fun x => x - Spec.avg xs)) :=
  h.map (fun A u => u -. npMean (l A)) (fun x => x - Spec.avg xs) (fun _ _ _ hf => hf.sub (h.mean hx))

theorem var (h : LimL 𝓕 l xs) (hx : xs ≠ []) : Lim 𝓕 (fun A => npVar (l A)) (Spec.var xs) := by
  have h1 : LimL 𝓕 (fun A => (l A).map (fun u => (u -. npMean (l A)) *. (u -. npMean (l A)))) (xs.map (fun x => (x - Spec.avg xs) ^ 2)) :=
    h.map (fun A u => (u -. npMean (l A)) *. (u -. npMean (l A))) (fun x => (x - Spec.avg xs) ^ 2) (fun x _ f hf => by
      have := (hf.sub (h.mean hx)).mul (hf.sub (h.mean hx))
      rwa [← pow_two] at this)
  have h2 := h1.sum.div (Lim.nat xs.length) (by simpa using hx)
  rw [show (xs.map (fun x => (x - Spec.avg xs) ^ 2)).sum / (xs.length : ℝ) = Spec.var xs by
    simp [Spec.var, Spec.cmoment, Spec.avg]] at h2
  refine h2.congr ?_
  filter_upwards [h.length] with A a
  rw [npVar, a]

theorem std (h : LimL 𝓕 l xs) (hx : xs ≠ []) (hv : 0 < Spec.var xs) : Lim 𝓕 (fun A => npStd (l A)) (√(Spec.var xs)) :=
  (h.var hx).sqrt hv

end LimL

/-! ## Exact arithmetic -/

private theorem round_exact (x : Fl ℝ) : Rd.round exactArith x = x := by cases x <;> rfl

private theorem nums_eq (l : List (Fl ℝ)) (xs : List ℝ) (h : Rd.nums l = some xs) : l = xs.map Fl.fin := by
  induction l generalizing xs with
  | nil => simp only [Rd.nums, Option.some.injEq] at h; subst h; rfl
  | cons a t ih =>
    cases a with
    | fin x =>
      simp only [Rd.nums, Option.map_eq_some_iff] at h
      obtain ⟨ys, h1, rfl⟩ := h
      rw [List.map_cons, ← ih ys h1]
    | _ => simp [Rd.nums] at h

/-- rounding nothing is the exact instance -/
theorem Rd.exact_num : (Rd.instPyNum exactArith : PyNum (Fl ℝ)) = Fl.instPyNum := by
  have h1 : (Rd.round exactArith : Fl ℝ → Fl ℝ) = id := funext round_exact
  have h2 : (Rd.around exactArith : Fl ℝ → Int → Fl ℝ) = Fl.around := by
    funext x d
    cases x <;> rfl
  unfold Rd.instPyNum Fl.instPyNum
  rw [h1, h2]
  simp only [id]
  congr 1
  funext l
  cases h : Rd.nums l with
  | none => rfl
  | some xs =>
    rw [nums_eq l xs h]
    exact (Fl.psum_fin xs).symm

theorem Rd.exact_math : (Rd.instPyMath exactArith : PyMath (Fl ℝ)) = Fl.instPyMath := by
  have h1 : (Rd.round exactArith : Fl ℝ → Fl ℝ) = id := funext round_exact
  unfold Rd.instPyMath Fl.instPyMath
  rw [h1, Rd.exact_num]
  rfl

end Proadv
