import Verif.Props.ButterDesign

/-!
# Property C266: how the frequency transforms compose

The hypotheses `_h0` exclude the roots for which numpy divides by 0, where the model does not follow numpy.
-/

namespace Proadv

open Proadv.Butter Complex Spec

noncomputable section

private theorem low_eq (f : Zpk) (a : ℝ) (h : f.z.length ≤ f.p.length) :
    lowToLow f a = .ok ⟨f.z.map (fun x => (a : ℂ) * x), f.p.map (fun x => (a : ℂ) * x), f.k * a ^ (f.p.length - f.z.length)⟩ := by
  unfold lowToLow; rw [relativeScale_ok h]; rfl

private theorem prod_scale (a : ℂ) (l : List ℂ) (u : ℂ → ℂ) :
    (l.map (fun x => a * u x)).prod = a ^ l.length * (l.map u).prod := by
  induction l with
  | nil => simp
  | cons x t ih => simp only [List.map_cons, List.prod_cons, List.length_cons, ih, pow_succ]; ring

/-- rescaling all factors by `a` is undone by the gain `a ^ (np - nz)` -/
private theorem gain_scale {a : ℝ} (ha : a ≠ 0) (z p : List ℂ) (h : z.length ≤ p.length) (k : ℝ) (u : ℂ → ℂ) :
    k * a ^ (p.length - z.length) * ((z.map (fun x => (a : ℂ) * u x)).prod / (p.map (fun x => (a : ℂ) * u x)).prod).re =
      k * ((z.map u).prod / (p.map u).prod).re := by
  have hc : (a : ℂ) ≠ 0 := by exact_mod_cast ha
  rw [prod_scale, prod_scale]
  have e : (a : ℂ) ^ z.length * (z.map u).prod / ((a : ℂ) ^ p.length * (p.map u).prod) =
      (((a ^ (p.length - z.length))⁻¹ : ℝ) : ℂ) * ((z.map u).prod / (p.map u).prod) := by
    rw [mul_div_mul_comm]
    congr 1
    push_cast
    rw [div_eq_iff (pow_ne_zero _ hc), inv_mul_eq_div, eq_div_iff (pow_ne_zero _ hc), ← pow_add]
    congr 1
    omega
  rw [e, Complex.re_ofReal_mul]
  have := pow_ne_zero (p.length - z.length) ha
  field_simp

/-- **C266** `low_to_high` after `low_to_low` is one `low_to_high` with the quotient of the frequencies -/
theorem C266_low_high (f : Zpk) (a b : ℝ) (ha : a ≠ 0) (_h0 : ∀ x ∈ f.z ++ f.p, x ≠ 0) :
    (lowToLow f a >>= fun g => lowToHigh g b) = lowToHigh f (b / a) := by
  by_cases h : f.z.length ≤ f.p.length
  · have hc : (a : ℂ) ≠ 0 := by exact_mod_cast ha
    rw [low_eq f a h]
    show lowToHigh _ b = _
    unfold lowToHigh
    rw [relativeScale_ok h, relativeScale_ok (by simpa using h)]
    show Except.ok _ = Except.ok _
    simp only [List.length_map, List.map_map]
    have e : ∀ l : List ℂ, l.map ((fun x => (b : ℂ) / x) ∘ fun x => (a : ℂ) * x) = l.map (fun x => ((b / a : ℝ) : ℂ) / x) :=
      fun l => List.map_congr_left fun x _ => by simp [div_div]
    have e2 : ∀ l : List ℂ, l.map ((fun x => -x) ∘ fun x => (a : ℂ) * x) = l.map (fun x => (a : ℂ) * (fun y => -y) x) :=
      fun l => List.map_congr_left fun x _ => by simp
    rw [e, e, e2, e2, gain_scale ha _ _ h]
  · have h := not_le.mp h
    unfold lowToLow lowToHigh
    rw [relativeScale_err h]; rfl

/-- **C266** `low_to_low` after `low_to_high` is one `low_to_high` with the product of the frequencies -/
theorem C266_high_low (f : Zpk) (a b : ℝ) (_h0 : ∀ x ∈ f.z ++ f.p, x ≠ 0) :
    (lowToHigh f a >>= fun g => lowToLow g b) = lowToHigh f (b * a) := by
  by_cases h : f.z.length ≤ f.p.length
  · unfold lowToHigh
    rw [relativeScale_ok h]
    show lowToLow _ b = Except.ok _
    have hl : (f.z.map (fun x => (a : ℂ) / x) ++ List.replicate (f.p.length - f.z.length) 0).length = (f.p.map (fun x => (a : ℂ) / x)).length := by
      simp; omega
    rw [low_eq _ b hl.le]
    simp only [List.map_append, List.map_map, List.map_replicate, mul_zero]
    have e : ∀ l : List ℂ, l.map ((fun x => (b : ℂ) * x) ∘ fun x => (a : ℂ) / x) = l.map (fun x => ((b * a : ℝ) : ℂ) / x) :=
      fun l => List.map_congr_left fun x _ => by simp [mul_div_assoc]
    rw [hl, Nat.sub_self, pow_zero, mul_one, e, e]
  · have h := not_le.mp h
    unfold lowToHigh
    rw [relativeScale_err h]; rfl

/-- **C266** `low_to_band` after `low_to_low` is one `low_to_band` with the width multiplied, whatever the square root -/
theorem C266_low_band (csqrt : ℂ → ℂ) (f : Zpk) (a pc pw : ℝ) :
    (lowToLow f a >>= fun g => lowToBand csqrt g pc pw) = lowToBand csqrt f pc (a * pw) := by
  by_cases h : f.z.length ≤ f.p.length
  · rw [low_eq f a h]
    show lowToBand csqrt _ pc pw = _
    unfold lowToBand
    rw [relativeScale_ok h, relativeScale_ok (by simpa using h)]
    show Except.ok _ = Except.ok _
    simp only [List.length_map, List.map_map]
    have e : ∀ l : List ℂ, l.map ((fun x => x * (pw : ℂ) / 2) ∘ fun x => (a : ℂ) * x) = l.map (fun x => x * ((a * pw : ℝ) : ℂ) / 2) :=
      fun l => List.map_congr_left fun x _ => by simp only [Function.comp_apply]; push_cast; ring
    rw [e, e, mul_pow, mul_assoc]
  · have h := not_le.mp h
    unfold lowToLow lowToBand
    rw [relativeScale_err h]; rfl

/-- **C266** `low_to_stop` after `low_to_low` is one `low_to_stop` with the width divided -/
theorem C266_low_stop (csqrt : ℂ → ℂ) (f : Zpk) (a pc pw : ℝ) (ha : a ≠ 0) (_h0 : ∀ x ∈ f.z ++ f.p, x ≠ 0) :
    (lowToLow f a >>= fun g => lowToStop csqrt g pc pw) = lowToStop csqrt f pc (pw / a) := by
  by_cases h : f.z.length ≤ f.p.length
  · have hc : (a : ℂ) ≠ 0 := by exact_mod_cast ha
    rw [low_eq f a h]
    show lowToStop csqrt _ pc pw = _
    unfold lowToStop
    rw [relativeScale_ok h, relativeScale_ok (by simpa using h)]
    show Except.ok _ = Except.ok _
    simp only [List.length_map, List.map_map]
    have e : ∀ l : List ℂ, l.map ((fun x => (pw : ℂ) / 2 / x) ∘ fun x => (a : ℂ) * x) = l.map (fun x => ((pw / a : ℝ) : ℂ) / 2 / x) :=
      fun l => List.map_congr_left fun x _ => by
        simp only [Function.comp_apply]; push_cast; rw [div_div, div_div, div_div]; congr 1; ring
    have e2 : ∀ l : List ℂ, l.map ((fun x => -x) ∘ fun x => (a : ℂ) * x) = l.map (fun x => (a : ℂ) * (fun y => -y) x) :=
      fun l => List.map_congr_left fun x _ => by simp
    rw [e, e, e2, e2, gain_scale ha _ _ h]
  · have h := not_le.mp h
    unfold lowToLow lowToStop
    rw [relativeScale_err h]; rfl

/-- **C266** rescaling the analog filter and the sampling rate alike does not change the digital filter -/
theorem C266_low_bilinear (f : Zpk) (a sr : ℝ) (ha : a ≠ 0) (_h0 : ∀ x ∈ f.z ++ f.p, x ≠ 2 * (sr : ℂ)) :
    (lowToLow f a >>= fun g => bilinear g (.scalar (a * sr))) = bilinear f (.scalar sr) := by
  by_cases h : f.z.length ≤ f.p.length
  · have hc : (a : ℂ) ≠ 0 := by exact_mod_cast ha
    rw [low_eq f a h]
    show bilinear _ (.scalar (a * sr)) = _
    unfold bilinear validG
    rw [relativeScale_ok h, relativeScale_ok (by simpa using h)]
    show Except.ok _ = Except.ok _
    simp only [List.length_map, List.map_map, Option.getD_some]
    have e : ∀ l : List ℂ, l.map ((fun x => (2 * ((a * sr : ℝ) : ℂ) + x) / (2 * ((a * sr : ℝ) : ℂ) - x)) ∘ fun x => (a : ℂ) * x) =
        l.map (fun x => (2 * (sr : ℂ) + x) / (2 * (sr : ℂ) - x)) :=
      fun l => List.map_congr_left fun x _ => by
        simp only [Function.comp_apply]
        rw [show 2 * ((a * sr : ℝ) : ℂ) + (a : ℂ) * x = (a : ℂ) * (2 * (sr : ℂ) + x) by push_cast; ring,
          show 2 * ((a * sr : ℝ) : ℂ) - (a : ℂ) * x = (a : ℂ) * (2 * (sr : ℂ) - x) by push_cast; ring, mul_div_mul_left _ _ hc]
    have e2 : ∀ l : List ℂ, l.map ((fun x => 2 * ((a * sr : ℝ) : ℂ) - x) ∘ fun x => (a : ℂ) * x) =
        l.map (fun x => (a : ℂ) * (fun y => 2 * (sr : ℂ) - y) x) :=
      fun l => List.map_congr_left fun x _ => by simp only [Function.comp_apply]; push_cast; ring
    rw [e, e, e2, e2, gain_scale ha _ _ h]
  · have h := not_le.mp h
    unfold lowToLow bilinear validG
    rw [relativeScale_err h]; rfl

/-- **C266** `low_to_stop` is `low_to_high` at frequency 1 followed by `low_to_band`: the same poles and gain, the same zeros up to order -/
theorem C266_stop {csqrt : ℂ → ℂ} (hs : IsSqrt csqrt) (f : Zpk) (pc pw : ℝ) (h : f.z.length ≤ f.p.length)
    (_h0 : ∀ x ∈ f.z ++ f.p, x ≠ 0) :
    ∃ g g', lowToStop csqrt f pc pw = .ok g ∧ (lowToHigh f 1 >>= fun e => lowToBand csqrt e pc pw) = .ok g' ∧
      g'.p = g.p ∧ g'.k = g.k ∧ g'.z.Perm g.z := by
  have hl : (f.z.map (fun x => ((1 : ℝ) : ℂ) / x) ++ List.replicate (f.p.length - f.z.length) 0).length =
      (f.p.map (fun x => ((1 : ℝ) : ℂ) / x)).length := by
    simp; omega
  have e1 : lowToHigh f 1 = .ok ⟨f.z.map (fun x => ((1 : ℝ) : ℂ) / x) ++ List.replicate (f.p.length - f.z.length) 0,
      f.p.map (fun x => ((1 : ℝ) : ℂ) / x), f.k * ((f.z.map (fun x => -x)).prod / (f.p.map (fun x => -x)).prod).re⟩ := by
    unfold lowToHigh; rw [relativeScale_ok h]; rfl
  have e : ∀ l : List ℂ, (l.map (fun x => ((1 : ℝ) : ℂ) / x)).map (fun x => x * (pw : ℂ) / 2) = l.map (fun x => ((pw : ℂ) / 2) / x) := by
    intro l
    rw [List.map_map]
    exact List.map_congr_left fun x _ => by simp only [Function.comp_apply, Complex.ofReal_one]; ring
  refine ⟨_, _, by unfold lowToStop; rw [relativeScale_ok h]; rfl,
    by rw [e1]; show lowToBand csqrt _ pc pw = _; unfold lowToBand; rw [relativeScale_ok hl.le]; rfl, ?_, ?_, ?_⟩
  · show catenate csqrt _ pc = catenate csqrt _ pc
    rw [e]
  · show f.k * _ * pw ^ _ = f.k * _
    rw [hl, Nat.sub_self, pow_zero, mul_one]
  · show (catenate csqrt _ pc ++ List.replicate _ 0).Perm (catenate csqrt _ pc ++ List.replicate _ (I * (pc : ℂ)) ++ List.replicate _ (-I * (pc : ℂ)))
    rw [hl, Nat.sub_self, List.replicate_zero, List.append_nil, List.map_append, e, List.map_replicate, zero_mul, zero_div]
    generalize f.z.map (fun x => ((pw : ℂ) / 2) / x) = l
    generalize f.p.length - f.z.length = n
    unfold catenate
    simp only [List.map_append, List.map_replicate, zero_add, zero_sub]
    have hc := hs ((0 : ℂ) ^ 2 - (pc : ℂ) ^ 2)
    generalize csqrt ((0 : ℂ) ^ 2 - (pc : ℂ) ^ 2) = c at hc ⊢
    have h2 : (c - I * pc) * (c + I * pc) = 0 := by linear_combination hc - (pc : ℂ) ^ 2 * I_sq
    generalize l.map (fun x => x + csqrt (x ^ 2 - (pc : ℂ) ^ 2)) = A
    generalize l.map (fun x => x - csqrt (x ^ 2 - (pc : ℂ) ^ 2)) = B
    have key : ∀ X Y : List ℂ, (A ++ X ++ (B ++ Y)).Perm (A ++ B ++ X ++ Y) := by
      intro X Y
      simp only [List.append_assoc]
      refine List.Perm.append_left A ?_
      rw [← List.append_assoc, ← List.append_assoc]
      exact List.Perm.append_right Y List.perm_append_comm
    rcases mul_eq_zero.mp h2 with h3 | h3
    · rw [sub_eq_zero.mp h3, ← neg_mul]
      exact key _ _
    · rw [eq_neg_of_add_eq_zero_left h3, neg_neg, ← neg_mul]
      refine (key _ _).trans ?_
      simp only [List.append_assoc]
      exact List.Perm.append_left A (List.Perm.append_left B List.perm_append_comm)

/-- a filter with a zero and two poles, scaled by 3 and turned into a high-pass filter: the zero at infinity goes to 0 -/
example : ∃ g, (lowToLow ⟨[-2], [-1, -5], 1⟩ 3 >>= fun g => lowToHigh g 6) = .ok g ∧ g.z = [-1, 0] ∧ g.k = -(2 / 5) * -1 := by
  rw [C266_low_high _ _ _ (by norm_num) (by simp)]
  refine ⟨_, rfl, ?_, ?_⟩
  · norm_num
  · norm_num

end

end Proadv
