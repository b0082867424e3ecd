import Verif.Model.Butter
import Mathlib.Tactic.FieldSimp
import Mathlib.Tactic.LinearCombination
import Mathlib.Algebra.Polynomial.Roots
import Mathlib.Analysis.SpecialFunctions.Pow.Complex
import Mathlib.Algebra.Polynomial.Eval.Defs

/-! # Filter transformations of `statistics/signal/butter.py`: C91–C96, C102 -/

namespace Proadv

open Proadv.Butter Complex

set_option linter.unusedSectionVars false

noncomputable section

namespace Spec

/-- transfer function of a zero-pole-gain filter -/
def H (f : Zpk) (s : ℂ) : ℂ := (f.k : ℂ) * (f.z.map (fun z => s - z)).prod / (f.p.map (fun p => s - p)).prod

/-- `csqrt` is some square root -/
def IsSqrt (csqrt : ℂ → ℂ) : Prop := ∀ x, csqrt x ^ 2 = x

/-- closed under complex conjugation, with multiplicity -/
def ConjClosed (l : List ℂ) : Prop := l.Perm (l.map (starRingEnd ℂ))

end Spec

/-- the principal square root satisfies the only property used of `np.sqrt` -/
theorem isSqrt_cpow : Spec.IsSqrt (fun x => x ^ ((1 : ℂ) / 2)) := by
  intro x
  show (x ^ ((1 : ℂ) / 2)) ^ 2 = x
  rw [← Complex.cpow_nat_mul]
  simp

/-! ## List products -/

theorem prod_map_congr {α : Type} {l : List α} {f g : α → ℂ} (h : ∀ x ∈ l, f x = g x) : (l.map f).prod = (l.map g).prod := by
  rw [List.map_congr_left h]

theorem prod_map_mul' {α : Type} (l : List α) (f g : α → ℂ) :
    (l.map (fun x => f x * g x)).prod = (l.map f).prod * (l.map g).prod := by
  induction l with
  | nil => simp
  | cons a t ih => simp only [List.map_cons, List.prod_cons, ih]; ring

theorem prod_map_div' {α : Type} (l : List α) (f g : α → ℂ) :
    (l.map (fun x => f x / g x)).prod = (l.map f).prod / (l.map g).prod := by
  induction l with
  | nil => simp
  | cons a t ih => simp only [List.map_cons, List.prod_cons, ih]; rw [div_mul_div_comm]

theorem prod_map_const' {α : Type} (l : List α) (c : ℂ) : (l.map (fun _ => c)).prod = c ^ l.length := by
  induction l with
  | nil => simp
  | cons a t ih => simp only [List.map_cons, List.prod_cons, ih, List.length_cons]; ring

theorem prod_map_ne {α : Type} {l : List α} {f : α → ℂ} (h : ∀ x ∈ l, f x ≠ 0) : (l.map f).prod ≠ 0 := by
  induction l with
  | nil => simp
  | cons a t ih =>
    simp only [List.map_cons, List.prod_cons]
    exact mul_ne_zero (h a (by simp)) (ih fun x hx => h x (by simp [hx]))

theorem relativeScale_ok {z p : List ℂ} (h : z.length ≤ p.length) : relativeScale z p = .ok (p.length - z.length) := by
  unfold relativeScale; rw [if_neg (by omega)]

theorem relativeScale_err {z p : List ℂ} (h : p.length < z.length) : relativeScale z p = .error .valueError := by
  unfold relativeScale; rw [if_pos h]

theorem conj_two : starRingEnd ℂ 2 = 2 := Complex.conj_eq_iff_im.mpr (by simp)

/-- a conjugation-closed list has a real product under any conjugation-compatible map -/
theorem conjClosed_prod {l : List ℂ} (h : Spec.ConjClosed l) (f : ℂ → ℂ) (hf : ∀ x, starRingEnd ℂ (f x) = f (starRingEnd ℂ x)) :
    ∃ r : ℝ, (l.map f).prod = r := by
  have : starRingEnd ℂ (l.map f).prod = (l.map f).prod := by
    rw [map_list_prod, List.map_map]
    have e : (l.map ((starRingEnd ℂ) ∘ f)) = (l.map (starRingEnd ℂ)).map f := by
      rw [List.map_map]; exact List.map_congr_left fun x _ => hf x
    rw [e]
    exact ((h.map f).prod_eq).symm
  obtain ⟨r, hr⟩ := Complex.conj_eq_iff_real.mp this
  exact ⟨r, hr⟩

/-- the gain correction `∏ f(z) / ∏ f(p)` loses nothing under `.real` -/
theorem ratio_real {z p : List ℂ} (hz : Spec.ConjClosed z) (hp : Spec.ConjClosed p) (f : ℂ → ℂ)
    (hf : ∀ x, starRingEnd ℂ (f x) = f (starRingEnd ℂ x)) : ((z.map f).prod / (p.map f).prod).im = 0 := by
  obtain ⟨a, ha⟩ := conjClosed_prod hz f hf
  obtain ⟨b, hb⟩ := conjClosed_prod hp f hf
  rw [ha, hb, ← Complex.ofReal_div]; exact Complex.ofReal_im _

/-! ## C91 -/

/-- **C91.** -/
theorem C91_low_to_low (f : Zpk) (dc : ℝ) (h : f.z.length ≤ f.p.length) (hdc : dc ≠ 0) :
    ∃ g, lowToLow f dc = .ok g ∧ ∀ s, Spec.H g s = Spec.H f (s / dc) := by
  have hc : (dc : ℂ) ≠ 0 := by exact_mod_cast hdc
  refine ⟨⟨f.z.map (fun x => (dc : ℂ) * x), f.p.map (fun x => (dc : ℂ) * x), f.k * dc ^ (f.p.length - f.z.length)⟩, ?_, ?_⟩
  · unfold lowToLow; rw [relativeScale_ok h]; rfl
  · intro s
    have key : ∀ l : List ℂ, ((l.map (fun x => (dc : ℂ) * x)).map (fun z => s - z)).prod
        = (dc : ℂ) ^ l.length * (l.map (fun z => s / dc - z)).prod := by
      intro l
      rw [List.map_map, ← prod_map_const', ← prod_map_mul']
      refine prod_map_congr fun x _ => ?_
      simp only [Function.comp]; field_simp
    simp only [Spec.H, key]
    have hp : (dc : ℂ) ^ f.p.length = (dc : ℂ) ^ (f.p.length - f.z.length) * (dc : ℂ) ^ f.z.length := by
      rw [← pow_add]; congr 1; omega
    rw [hp, Complex.ofReal_mul, Complex.ofReal_pow]
    have h1 := pow_ne_zero (f.p.length - f.z.length) hc
    have h2 := pow_ne_zero f.z.length hc
    by_cases hz : (f.p.map (fun z => s / (dc : ℂ) - z)).prod = 0
    · rw [hz]; simp
    · field_simp

/-! ## C92 -/

/-- **C92.** -/
theorem C92_low_to_high (f : Zpk) (dc : ℝ) (h : f.z.length ≤ f.p.length) (hz : ∀ x ∈ f.z, x ≠ 0) (hp : ∀ x ∈ f.p, x ≠ 0)
    (hr : ((f.z.map (fun x => -x)).prod / (f.p.map (fun x => -x)).prod).im = 0) :
    ∃ g, lowToHigh f dc = .ok g ∧ ∀ s, s ≠ 0 → Spec.H g s = Spec.H f (dc / s) := by
  refine ⟨⟨f.z.map (fun x => (dc : ℂ) / x) ++ List.replicate (f.p.length - f.z.length) 0, f.p.map (fun x => (dc : ℂ) / x),
    f.k * ((f.z.map (fun x => -x)).prod / (f.p.map (fun x => -x)).prod).re⟩, ?_, ?_⟩
  · unfold lowToHigh; rw [relativeScale_ok h]; rfl
  · intro s hs
    have key : ∀ l : List ℂ, (∀ x ∈ l, x ≠ 0) → ((l.map (fun x => (dc : ℂ) / x)).map (fun z => s - z)).prod
        = s ^ l.length * (l.map (fun z => (dc : ℂ) / s - z)).prod / (l.map (fun x => -x)).prod := by
      intro l hl
      rw [List.map_map, ← prod_map_const', ← prod_map_mul', ← prod_map_div']
      refine prod_map_congr fun x hx => ?_
      have := hl x hx
      simp only [Function.comp]; field_simp; ring
    have hre : ((((f.z.map (fun x => -x)).prod / (f.p.map (fun x => -x)).prod).re : ℝ) : ℂ)
        = (f.z.map (fun x => -x)).prod / (f.p.map (fun x => -x)).prod :=
      Complex.ext (Complex.ofReal_re _) (by rw [Complex.ofReal_im]; exact hr.symm)
    simp only [Spec.H, List.map_append, List.prod_append, key _ hz, key _ hp, List.map_replicate, List.prod_replicate, sub_zero,
      Complex.ofReal_mul, hre]
    have hpw : s ^ f.p.length = s ^ (f.p.length - f.z.length) * s ^ f.z.length := by
      rw [← pow_add]; congr 1; omega
    rw [hpw]
    have h1 := pow_ne_zero (f.p.length - f.z.length) hs
    have h2 := pow_ne_zero f.z.length hs
    have h3 : (f.z.map (fun x => -x)).prod ≠ 0 := prod_map_ne fun x hx => neg_ne_zero.mpr (hz x hx)
    have h4 : (f.p.map (fun x => -x)).prod ≠ 0 := prod_map_ne fun x hx => neg_ne_zero.mpr (hp x hx)
    by_cases h0 : (f.p.map (fun z => (dc : ℂ) / s - z)).prod = 0
    · rw [h0]; simp
    · field_simp

/-- **C92.** the side condition holds whenever zeros and poles come in conjugate pairs -/
theorem C92_side (f : Zpk) (hz : Spec.ConjClosed f.z) (hp : Spec.ConjClosed f.p) :
    ((f.z.map (fun x => -x)).prod / (f.p.map (fun x => -x)).prod).im = 0 :=
  ratio_real hz hp _ fun x => by simp

/-! ## C93, C94 -/

theorem catenate_prod {csqrt : ℂ → ℂ} (hc : Spec.IsSqrt csqrt) (l : List ℂ) (pc : ℝ) (s : ℂ) :
    ((catenate csqrt l pc).map (fun z => s - z)).prod = (l.map (fun a => s ^ 2 - 2 * a * s + (pc : ℂ) ^ 2)).prod := by
  unfold catenate
  rw [List.map_append, List.prod_append, List.map_map, List.map_map, ← prod_map_mul']
  refine prod_map_congr fun x _ => ?_
  have := hc (x ^ 2 - (pc : ℂ) ^ 2)
  simp only [Function.comp]
  linear_combination -this

/-- **C93.** -/
theorem C93_low_to_band {csqrt : ℂ → ℂ} (hc : Spec.IsSqrt csqrt) (f : Zpk) (pc pw : ℝ) (h : f.z.length ≤ f.p.length)
    (hpw : pw ≠ 0) :
    ∃ g, lowToBand csqrt f pc pw = .ok g ∧ ∀ s, s ≠ 0 → Spec.H g s = Spec.H f ((s ^ 2 + pc ^ 2) / (pw * s)) := by
  have hw : (pw : ℂ) ≠ 0 := by exact_mod_cast hpw
  refine ⟨⟨catenate csqrt (f.z.map (fun x => x * (pw : ℂ) / 2)) pc ++ List.replicate (f.p.length - f.z.length) 0,
    catenate csqrt (f.p.map (fun x => x * (pw : ℂ) / 2)) pc, f.k * pw ^ (f.p.length - f.z.length)⟩, ?_, ?_⟩
  · unfold lowToBand; rw [relativeScale_ok h]; rfl
  · intro s hs
    have key : ∀ l : List ℂ, ((l.map (fun x => x * (pw : ℂ) / 2)).map (fun a => s ^ 2 - 2 * a * s + (pc : ℂ) ^ 2)).prod
        = (pw * s) ^ l.length * (l.map (fun z => (s ^ 2 + (pc : ℂ) ^ 2) / (pw * s) - z)).prod := by
      intro l
      rw [List.map_map, ← prod_map_const', ← prod_map_mul']
      refine prod_map_congr fun x _ => ?_
      simp only [Function.comp]; field_simp; ring
    simp only [Spec.H, List.map_append, List.prod_append, catenate_prod hc, key, List.map_replicate, List.prod_replicate, sub_zero,
      Complex.ofReal_mul, Complex.ofReal_pow]
    have hq : (pw * s : ℂ) ^ f.p.length
        = (pw : ℂ) ^ (f.p.length - f.z.length) * s ^ (f.p.length - f.z.length) * (pw * s) ^ f.z.length := by
      rw [← mul_pow, ← pow_add]; congr 1; omega
    rw [hq]
    have h1 := pow_ne_zero (f.p.length - f.z.length) hs
    have h2 := pow_ne_zero (f.p.length - f.z.length) hw
    have h3 := pow_ne_zero f.z.length (mul_ne_zero hw hs)
    by_cases h0 : (f.p.map (fun z => (s ^ 2 + (pc : ℂ) ^ 2) / (pw * s) - z)).prod = 0
    · rw [h0]; simp
    · generalize (pw * s : ℂ) ^ f.z.length = A at *
      generalize (f.p.map (fun z => (s ^ 2 + (pc : ℂ) ^ 2) / (pw * s) - z)).prod = B at *
      generalize (f.z.map (fun z => (s ^ 2 + (pc : ℂ) ^ 2) / (pw * s) - z)).prod = D at *
      field_simp

/-- **C94.** -/
theorem C94_low_to_stop {csqrt : ℂ → ℂ} (hc : Spec.IsSqrt csqrt) (f : Zpk) (pc pw : ℝ) (h : f.z.length ≤ f.p.length)
    (hz : ∀ x ∈ f.z, x ≠ 0) (hp : ∀ x ∈ f.p, x ≠ 0)
    (hr : ((f.z.map (fun x => -x)).prod / (f.p.map (fun x => -x)).prod).im = 0) :
    ∃ g, lowToStop csqrt f pc pw = .ok g ∧
      ∀ s, s ^ 2 + (pc : ℂ) ^ 2 ≠ 0 → Spec.H g s = Spec.H f (pw * s / (s ^ 2 + pc ^ 2)) := by
  refine ⟨⟨catenate csqrt (f.z.map (fun x => ((pw : ℂ) / 2) / x)) pc ++ List.replicate (f.p.length - f.z.length) (I * pc)
      ++ List.replicate (f.p.length - f.z.length) (-I * pc),
    catenate csqrt (f.p.map (fun x => ((pw : ℂ) / 2) / x)) pc,
    f.k * ((f.z.map (fun x => -x)).prod / (f.p.map (fun x => -x)).prod).re⟩, ?_, ?_⟩
  · unfold lowToStop; rw [relativeScale_ok h]; rfl
  · intro s hs
    have key : ∀ l : List ℂ, (∀ x ∈ l, x ≠ 0) →
        ((l.map (fun x => ((pw : ℂ) / 2) / x)).map (fun a => s ^ 2 - 2 * a * s + (pc : ℂ) ^ 2)).prod
        = (s ^ 2 + (pc : ℂ) ^ 2) ^ l.length * (l.map (fun z => pw * s / (s ^ 2 + (pc : ℂ) ^ 2) - z)).prod
          / (l.map (fun x => -x)).prod := by
      intro l hl
      rw [List.map_map, ← prod_map_const', ← prod_map_mul', ← prod_map_div']
      refine prod_map_congr fun x hx => ?_
      have := hl x hx
      simp only [Function.comp]; field_simp; ring
    have hre : ((((f.z.map (fun x => -x)).prod / (f.p.map (fun x => -x)).prod).re : ℝ) : ℂ)
        = (f.z.map (fun x => -x)).prod / (f.p.map (fun x => -x)).prod :=
      Complex.ext (Complex.ofReal_re _) (by rw [Complex.ofReal_im]; exact hr.symm)
    have hI : (s - I * pc) * (s - -I * pc) = s ^ 2 + (pc : ℂ) ^ 2 := by
      linear_combination (-(pc : ℂ) ^ 2) * I_sq
    have hsc : ∀ n : Nat, (s - I * pc) ^ n * (s - -I * pc) ^ n = (s ^ 2 + (pc : ℂ) ^ 2) ^ n := by
      intro n; rw [← mul_pow, hI]
    simp only [Spec.H, List.map_append, List.prod_append, catenate_prod hc, key _ hz, key _ hp, List.map_replicate,
      List.prod_replicate, Complex.ofReal_mul, hre]
    rw [mul_assoc _ ((s - I * (pc : ℂ)) ^ _), hsc]
    have hq : (s ^ 2 + (pc : ℂ) ^ 2) ^ f.p.length
        = (s ^ 2 + (pc : ℂ) ^ 2) ^ (f.p.length - f.z.length) * (s ^ 2 + (pc : ℂ) ^ 2) ^ f.z.length := by
      rw [← pow_add]; congr 1; omega
    rw [hq]
    have h1 := pow_ne_zero (f.p.length - f.z.length) hs
    have h2 := pow_ne_zero f.z.length hs
    have h3 : (f.z.map (fun x => -x)).prod ≠ 0 := prod_map_ne fun x hx => neg_ne_zero.mpr (hz x hx)
    have h4 : (f.p.map (fun x => -x)).prod ≠ 0 := prod_map_ne fun x hx => neg_ne_zero.mpr (hp x hx)
    by_cases h0 : (f.p.map (fun z => pw * s / (s ^ 2 + (pc : ℂ) ^ 2) - z)).prod = 0
    · rw [h0]; simp
    · generalize (s ^ 2 + (pc : ℂ) ^ 2) ^ f.z.length = A at *
      generalize (s ^ 2 + (pc : ℂ) ^ 2) ^ (f.p.length - f.z.length) = A' at *
      generalize (f.p.map (fun z => pw * s / (s ^ 2 + (pc : ℂ) ^ 2) - z)).prod = B at *
      generalize (f.z.map (fun z => pw * s / (s ^ 2 + (pc : ℂ) ^ 2) - z)).prod = D at *
      field_simp

/-! ## C95 -/

/-- **C95.** -/
theorem C95_bilinear (f : Zpk) (sr : ℝ) (h : f.z.length ≤ f.p.length) (hz : ∀ x ∈ f.z, x ≠ 2 * sr) (hp : ∀ x ∈ f.p, x ≠ 2 * sr)
    (hr : ((f.z.map (fun x => 2 * (sr : ℂ) - x)).prod / (f.p.map (fun x => 2 * (sr : ℂ) - x)).prod).im = 0) :
    ∃ g, bilinear f (.scalar sr) = .ok g ∧ ∀ w, w ≠ -1 → Spec.H g w = Spec.H f (2 * sr * (w - 1) / (w + 1)) := by
  refine ⟨⟨f.z.map (fun x => (2 * (sr : ℂ) + x) / (2 * (sr : ℂ) - x)) ++ List.replicate (f.p.length - f.z.length) (-1),
    f.p.map (fun x => (2 * (sr : ℂ) + x) / (2 * (sr : ℂ) - x)),
    f.k * ((f.z.map (fun x => 2 * (sr : ℂ) - x)).prod / (f.p.map (fun x => 2 * (sr : ℂ) - x)).prod).re⟩, ?_, ?_⟩
  · unfold bilinear validG; rw [relativeScale_ok h]; rfl
  · intro w hw
    have hw' : w + 1 ≠ 0 := fun hh => hw (by linear_combination hh)
    have key : ∀ l : List ℂ, (∀ x ∈ l, x ≠ 2 * sr) →
        ((l.map (fun x => (2 * (sr : ℂ) + x) / (2 * (sr : ℂ) - x))).map (fun z => w - z)).prod
        = (w + 1) ^ l.length * (l.map (fun z => 2 * sr * (w - 1) / (w + 1) - z)).prod
          / (l.map (fun x => 2 * (sr : ℂ) - x)).prod := by
      intro l hl
      rw [List.map_map, ← prod_map_const', ← prod_map_mul', ← prod_map_div']
      refine prod_map_congr fun x hx => ?_
      have : 2 * (sr : ℂ) - x ≠ 0 := sub_ne_zero.mpr (hl x hx).symm
      simp only [Function.comp]; field_simp; ring
    have hre : ((((f.z.map (fun x => 2 * (sr : ℂ) - x)).prod / (f.p.map (fun x => 2 * (sr : ℂ) - x)).prod).re : ℝ) : ℂ)
        = (f.z.map (fun x => 2 * (sr : ℂ) - x)).prod / (f.p.map (fun x => 2 * (sr : ℂ) - x)).prod :=
      Complex.ext (Complex.ofReal_re _) (by rw [Complex.ofReal_im]; exact hr.symm)
    simp only [Spec.H, List.map_append, List.prod_append, key _ hz, key _ hp, List.map_replicate, List.prod_replicate,
      sub_neg_eq_add, Complex.ofReal_mul, hre]
    have hq : (w + 1) ^ f.p.length = (w + 1) ^ (f.p.length - f.z.length) * (w + 1) ^ f.z.length := by
      rw [← pow_add]; congr 1; omega
    rw [hq]
    have h1 := pow_ne_zero (f.p.length - f.z.length) hw'
    have h2 := pow_ne_zero f.z.length hw'
    have h3 : (f.z.map (fun x => 2 * (sr : ℂ) - x)).prod ≠ 0 := prod_map_ne fun x hx => sub_ne_zero.mpr (hz x hx).symm
    have h4 : (f.p.map (fun x => 2 * (sr : ℂ) - x)).prod ≠ 0 := prod_map_ne fun x hx => sub_ne_zero.mpr (hp x hx).symm
    by_cases h0 : (f.p.map (fun z => 2 * sr * (w - 1) / (w + 1) - z)).prod = 0
    · rw [h0]; simp
    · generalize (w + 1) ^ f.z.length = A at *
      generalize (w + 1) ^ (f.p.length - f.z.length) = A' at *
      generalize (f.p.map (fun z => 2 * sr * (w - 1) / (w + 1) - z)).prod = B at *
      generalize (f.z.map (fun z => 2 * sr * (w - 1) / (w + 1) - z)).prod = D at *
      generalize (f.p.map (fun x => 2 * (sr : ℂ) - x)).prod = E at *
      generalize (f.z.map (fun x => 2 * (sr : ℂ) - x)).prod = F at *
      field_simp

/-- **C95.** the side condition holds whenever zeros and poles come in conjugate pairs -/
theorem C95_side (f : Zpk) (sr : ℝ) (hz : Spec.ConjClosed f.z) (hp : Spec.ConjClosed f.p) :
    ((f.z.map (fun x => 2 * (sr : ℂ) - x)).prod / (f.p.map (fun x => 2 * (sr : ℂ) - x)).prod).im = 0 :=
  ratio_real hz hp _ fun x => by simp [conj_two]

/-- **C95.** the sampling rate must be a scalar -/
theorem C95_errors (f : Zpk) : bilinear f .none = .error .valueError ∧ bilinear f .nonScalar = .error .valueError := ⟨rfl, rfl⟩

/-! ## C96 -/

/-- **C96.** improper filters are rejected by every transformation -/
theorem C96_improper (csqrt : ℂ → ℂ) (f : Zpk) (a b : ℝ) (h : f.p.length < f.z.length) :
    lowToLow f a = .error .valueError ∧ lowToHigh f a = .error .valueError ∧ bilinear f (.scalar a) = .error .valueError ∧
    lowToBand csqrt f a b = .error .valueError ∧ lowToStop csqrt f a b = .error .valueError := by
  refine ⟨?_, ?_, ?_, ?_, ?_⟩
  · unfold lowToLow; rw [relativeScale_err h]; rfl
  · unfold lowToHigh; rw [relativeScale_err h]; rfl
  · unfold bilinear validG; rw [relativeScale_err h]; rfl
  · unfold lowToBand; rw [relativeScale_err h]; rfl
  · unfold lowToStop; rw [relativeScale_err h]; rfl

/-- `r` succeeded with `nz` zeros and `np` poles -/
def Counts (r : Py Zpk) (nz np : Nat) : Prop := ∃ g, r = .ok g ∧ g.z.length = nz ∧ g.p.length = np

/-- **C96.** proper filters stay proper -/
theorem C96_counts (csqrt : ℂ → ℂ) (f : Zpk) (a b : ℝ) (h : f.z.length ≤ f.p.length) :
    Counts (lowToLow f a) f.z.length f.p.length ∧ Counts (lowToHigh f a) f.p.length f.p.length ∧
    Counts (bilinear f (.scalar a)) f.p.length f.p.length ∧
    Counts (lowToBand csqrt f a b) (f.p.length + f.z.length) (2 * f.p.length) ∧
    Counts (lowToStop csqrt f a b) (2 * f.p.length) (2 * f.p.length) := by
  refine ⟨?_, ?_, ?_, ?_, ?_⟩
  · unfold lowToLow; rw [relativeScale_ok h]; exact ⟨_, rfl, by simp, by simp⟩
  · unfold lowToHigh; rw [relativeScale_ok h]; exact ⟨_, rfl, by simp; omega, by simp⟩
  · unfold bilinear validG; rw [relativeScale_ok h]; exact ⟨_, rfl, by simp; omega, by simp⟩
  · unfold lowToBand; rw [relativeScale_ok h]; exact ⟨_, rfl, by simp [catenate]; omega, by simp [catenate]; omega⟩
  · unfold lowToStop; rw [relativeScale_ok h]; exact ⟨_, rfl, by simp [catenate]; omega, by simp [catenate]; omega⟩

/-! ## C102 -/

namespace Spec

/-- value at `s` of the polynomial with coefficients `a`, highest power first (Horner) -/
def evalHi (a : List ℂ) (s : ℂ) : ℂ := a.foldl (fun acc c => acc * s + c) 0

end Spec

open Spec

theorem evalHi_append (a : List ℂ) (c s : ℂ) : evalHi (a ++ [c]) s = evalHi a s * s + c := by
  simp [evalHi, List.foldl_append]

theorem foldl_horner (a : List ℂ) (s x : ℂ) :
    a.foldl (fun acc c => acc * s + c) x = x * s ^ a.length + evalHi a s := by
  unfold evalHi
  induction a generalizing x with
  | nil => simp
  | cons c t ih =>
    simp only [List.foldl_cons, List.length_cons]
    rw [ih, ih (0 * s + c)]; ring

theorem evalHi_cons (a : List ℂ) (c s : ℂ) : evalHi (c :: a) s = c * s ^ a.length + evalHi a s := by
  rw [evalHi, List.foldl_cons, foldl_horner]; simp

theorem evalHi_zip (r s : ℂ) : ∀ a b : List ℂ, a.length = b.length →
    evalHi (List.zipWith (fun x y => x - r * y) a b) s = evalHi a s - r * evalHi b s
  | [], [], _ => by simp [evalHi]
  | a :: as, b :: bs, h => by
    have hl : as.length = bs.length := by simpa using h
    rw [List.zipWith_cons_cons, evalHi_cons, evalHi_cons, evalHi_cons, evalHi_zip r s as bs hl, List.length_zipWith, hl, min_self]
    ring

theorem evalHi_convRoot (a : List ℂ) (r s : ℂ) : evalHi (convRoot a r) s = evalHi a s * (s - r) := by
  unfold convRoot
  rw [evalHi_zip _ _ _ _ (by simp), evalHi_append, evalHi_cons]; ring

theorem length_convRoot (a : List ℂ) (r : ℂ) : (convRoot a r).length = a.length + 1 := by simp [convRoot]

theorem evalHi_foldl (roots : List ℂ) (s : ℂ) : ∀ a, evalHi (roots.foldl convRoot a) s = evalHi a s * (roots.map (fun r => s - r)).prod := by
  induction roots with
  | nil => intro a; simp
  | cons r t ih => intro a; rw [List.foldl_cons, ih, evalHi_convRoot, List.map_cons, List.prod_cons]; ring

theorem length_foldl (roots : List ℂ) : ∀ a, (roots.foldl convRoot a).length = a.length + roots.length := by
  induction roots with
  | nil => intro a; simp
  | cons r t ih => intro a; rw [List.foldl_cons, ih, length_convRoot, List.length_cons]; omega

theorem evalHi_one (s : ℂ) : evalHi [1] s = 1 := by simp [evalHi]

open Polynomial in
theorem evalHi_zero_imp (a : List ℂ) (h : ∀ s, evalHi a s = 0) : ∀ c ∈ a, c = 0 := by
  let P : List ℂ → ℂ[X] := fun a => a.foldl (fun acc c => acc * X + C c) 0
  have hP : ∀ a s, (P a).eval s = evalHi a s := by
    intro a s
    induction a using List.reverseRecOn with
    | nil => simp [P, evalHi]
    | append_singleton t c ih =>
      have : P (t ++ [c]) = P t * X + C c := by simp [P, List.foldl_append]
      rw [this, evalHi_append, Polynomial.eval_add, Polynomial.eval_mul, ih]; simp
  have h0 : ∀ a, P a = 0 → ∀ c ∈ a, c = 0 := by
    intro a
    induction a using List.reverseRecOn with
    | nil => simp
    | append_singleton t c ih =>
      intro hz
      have e : P (t ++ [c]) = P t * X + C c := by simp [P, List.foldl_append]
      rw [e] at hz
      have hc : c = 0 := by simpa using congrArg (fun q => Polynomial.coeff q 0) hz
      have ht : P t = 0 := by
        rw [hc, C_0, add_zero] at hz
        exact (mul_eq_zero.mp hz).resolve_right X_ne_zero
      intro d hd
      rcases List.mem_append.mp hd with hd | hd
      · exact ih ht d hd
      · rw [List.mem_singleton.mp hd, hc]
  exact h0 a (Polynomial.funext fun s => by rw [hP, h]; simp)

theorem evalHi_conj (a : List ℂ) (s : ℂ) :
    evalHi (a.map (starRingEnd ℂ)) s = starRingEnd ℂ (evalHi a (starRingEnd ℂ s)) := by
  induction a using List.reverseRecOn with
  | nil => simp [evalHi]
  | append_singleton t c ih => rw [List.map_append, List.map_singleton, evalHi_append, evalHi_append, ih]; simp

/-- coefficients of a conjugation-closed root list are real -/
theorem coeffs_real {roots : List ℂ} (h : ConjClosed roots) : ∀ c ∈ roots.foldl convRoot [1], c.im = 0 := by
  set a := roots.foldl convRoot [1] with ha
  have hz : ∀ s, evalHi (List.zipWith (fun x y => x - 1 * y) a (a.map (starRingEnd ℂ))) s = 0 := by
    intro s
    rw [evalHi_zip _ _ _ _ (by simp), evalHi_conj, ha, evalHi_foldl, evalHi_foldl, evalHi_one, evalHi_one, one_mul, one_mul,
      one_mul, map_list_prod, List.map_map]
    have : (roots.map (fun r => s - r)).prod = (List.map ((starRingEnd ℂ) ∘ fun r => (starRingEnd ℂ) s - r) roots).prod := by
      have e : (List.map ((starRingEnd ℂ) ∘ fun r => (starRingEnd ℂ) s - r) roots)
          = (roots.map (starRingEnd ℂ)).map (fun r => s - r) := by
        rw [List.map_map]; exact List.map_congr_left fun x _ => by simp
      rw [e]; exact (h.map _).prod_eq
    rw [← this, sub_self]
  intro c hc
  have := evalHi_zero_imp _ hz
  obtain ⟨i, hi, rfl⟩ := List.mem_iff_getElem.mp hc
  have h2 := this ((List.zipWith (fun x y => x - 1 * y) a (a.map (starRingEnd ℂ)))[i]'(by simp; exact hi)) (List.getElem_mem _)
  rw [List.getElem_zipWith, List.getElem_map, one_mul, sub_eq_zero] at h2
  exact Complex.conj_eq_iff_im.mp h2.symm

theorem map_re_of_real {a : List ℂ} (h : ∀ c ∈ a, c.im = 0) : a.map (fun c => ((c.re : ℝ) : ℂ)) = a := by
  conv_rhs => rw [← List.map_id a]
  exact List.map_congr_left fun c hc => Complex.ext (by simp) (by simp [h c hc])

theorem npPoly_eq (roots : List ℂ) : npPoly roots = roots.foldl convRoot [1] := by
  unfold npPoly
  by_cases h : roots.Perm (roots.map (starRingEnd ℂ))
  · simp only [if_pos h]; exact map_re_of_real (coeffs_real h)
  · simp only [if_neg h]

open Classical in
theorem count_map_conj (l : List ℂ) (a : ℂ) : (l.map (starRingEnd ℂ)).count a = l.count (starRingEnd ℂ a) := by
  have := List.count_map_of_injective l (starRingEnd ℂ) (starRingEnd ℂ).injective (starRingEnd ℂ a)
  simpa using this

open Classical in
/-- the half-plane test of `xyz_to_ptf` decides exactly whether the roots come in conjugate pairs -/
theorem paired_iff (r : List ℂ) : paired r ↔ ConjClosed r := by
  unfold paired ConjClosed
  constructor
  · rintro ⟨-, h⟩
    rw [List.perm_iff_count] at h ⊢
    have up : ∀ a : ℂ, 0 < a.im → r.count a = r.count (starRingEnd ℂ a) := by
      intro a ha
      have := h a
      rw [count_map_conj, List.count_filter (by simpa using ha), List.count_filter (by simpa using ha)] at this
      exact this.symm
    intro a
    rw [count_map_conj]
    rcases lt_trichotomy a.im 0 with h1 | h1 | h1
    · have := up (starRingEnd ℂ a) (by simpa using h1)
      simpa using this.symm
    · rw [Complex.conj_eq_iff_im.mpr h1]
    · exact up a h1
  · intro h
    have hp : ((r.filter (fun x => x.im < 0)).map (starRingEnd ℂ)).Perm (r.filter (fun x => 0 < x.im)) := by
      rw [List.perm_iff_count] at h ⊢
      intro a
      rw [count_map_conj]
      by_cases ha : 0 < a.im
      · rw [List.count_filter (by simpa using ha), List.count_filter (by simpa using ha), h a, count_map_conj]
      · rw [List.count_eq_zero_of_not_mem, List.count_eq_zero_of_not_mem]
        · simp [ha]
        · simp [ha]
    exact ⟨hp.length_eq.symm, hp⟩

theorem ptf_eq (f : Zpk) : xyzToPtf f = ((f.z.foldl convRoot [1]).map (fun c => (f.k : ℂ) * c), f.p.foldl convRoot [1]) := by
  unfold xyzToPtf
  simp only [npPoly_eq]
  refine Prod.ext ?_ ?_
  · by_cases h : paired f.z
    · simp only [if_pos h]
      refine map_re_of_real fun c hc => ?_
      obtain ⟨d, hd, rfl⟩ := List.mem_map.mp hc
      simp [coeffs_real ((paired_iff _).mp h) d hd]
    · simp only [if_neg h]
  · by_cases h : paired f.p
    · simp only [if_pos h]; exact map_re_of_real (coeffs_real ((paired_iff _).mp h))
    · simp only [if_neg h]

theorem evalHi_smul (k : ℂ) (a : List ℂ) (s : ℂ) : evalHi (a.map (fun c => k * c)) s = k * evalHi a s := by
  induction a using List.reverseRecOn with
  | nil => simp [evalHi]
  | append_singleton t c ih => rw [List.map_append, List.map_singleton, evalHi_append, evalHi_append, ih]; ring

/-- **C102.** the coefficient arrays are the expanded numerator and denominator, for all zeros and poles -/
theorem C102_expansion (f : Zpk) (s : ℂ) :
    evalHi (xyzToPtf f).1 s = (f.k : ℂ) * (f.z.map (fun z => s - z)).prod ∧
    evalHi (xyzToPtf f).2 s = (f.p.map (fun p => s - p)).prod := by
  rw [ptf_eq]
  exact ⟨by rw [evalHi_smul, evalHi_foldl, evalHi_one, one_mul], by rw [evalHi_foldl, evalHi_one, one_mul]⟩

/-- **C102.** their quotient is the transfer function -/
theorem C102_transfer (f : Zpk) (s : ℂ) : evalHi (xyzToPtf f).1 s / evalHi (xyzToPtf f).2 s = H f s := by
  rw [(C102_expansion f s).1, (C102_expansion f s).2]; rfl

/-- **C102.** array sizes; coefficients are real when the roots come in conjugate pairs -/
theorem C102_shape (f : Zpk) :
    (xyzToPtf f).1.length = f.z.length + 1 ∧ (xyzToPtf f).2.length = f.p.length + 1 ∧
    (ConjClosed f.z → ∀ c ∈ (xyzToPtf f).1, c.im = 0) ∧ (ConjClosed f.p → ∀ c ∈ (xyzToPtf f).2, c.im = 0) := by
  rw [ptf_eq]
  refine ⟨by simp [length_foldl, add_comm], by simp [length_foldl, add_comm], ?_, ?_⟩
  · intro h c hc
    obtain ⟨d, hd, rfl⟩ := List.mem_map.mp hc
    simp [coeffs_real h d hd]
  · intro h c hc; exact coeffs_real h c hc

/-! ## Concrete cases -/

/-- the standing hypotheses hold for zeros `±2i`, poles `-1`, `-1±i` -/
theorem witness_zpk :
    let f : Zpk := ⟨[2 * I, -(2 * I)], [-1, -1 + I, -1 - I], 3⟩
    f.z.length ≤ f.p.length ∧ ConjClosed f.z ∧ ConjClosed f.p ∧ (∀ x ∈ f.z, x ≠ 0) ∧ (∀ x ∈ f.p, x ≠ 0) ∧
    (∀ x ∈ f.z, x ≠ 2 * ((2 : ℝ) : ℂ)) ∧ (∀ x ∈ f.p, x ≠ 2 * ((2 : ℝ) : ℂ)) := by
  refine ⟨by decide, ?_, ?_, ?_, ?_, ?_, ?_⟩
  · show List.Perm _ _
    have : ([2 * I, -(2 * I)] : List ℂ).map (starRingEnd ℂ) = [-(2 * I), 2 * I] := by simp [conj_two]
    rw [this]
    exact List.Perm.swap _ _ _
  · show List.Perm _ _
    have : ([-1, -1 + I, -1 - I] : List ℂ).map (starRingEnd ℂ) = [-1, -1 - I, -1 + I] := by simp [sub_eq_add_neg]
    rw [this]
    exact (List.Perm.swap _ _ _).cons _
  all_goals
    intro x hx
    simp only [List.mem_cons, List.not_mem_nil, or_false] at hx
    rcases hx with rfl | rfl | rfl <;> intro h <;> first
      | (have h1 := congrArg Complex.re h; norm_num at h1; done)
      | (have h2 := congrArg Complex.im h; norm_num at h2)

end

end Proadv
