import Verif.Props.ButterDesign

/-!
# Property C265: the frequency transforms keep real filters real, and lose the gain of others
-/

namespace Proadv

open Proadv.Butter Complex Spec

noncomputable section

namespace Spec

/-- Specification: zeros and poles come in conjugate pairs, so the coefficients are real -/
def RealFilter (f : Zpk) : Prop := ConjClosed f.z ∧ ConjClosed f.p

end Spec

private theorem scale_ok {α : Type} {z p : List ℂ} {k : Nat → Py α} {g : α} (h : (relativeScale z p >>= k) = .ok g) :
    k (p.length - z.length) = .ok g := by
  by_cases hl : p.length < z.length
  · rw [show relativeScale z p = .error .valueError from if_pos hl] at h; cases h
  · rw [show relativeScale z p = .ok (p.length - z.length) from if_neg hl] at h; exact h

/-- **C265** each transform of a real filter is a real filter, whatever the parameters; roots that make numpy divide by 0 are
excluded -/
theorem C265_real {csqrt : ℂ → ℂ} (hs : IsSqrt csqrt) (f g : Zpk) (hf : RealFilter f) (a b : ℝ)
    (h : lowToLow f a = .ok g ∨ lowToBand csqrt f a b = .ok g ∨
      ((∀ x ∈ f.z ++ f.p, x ≠ 0) ∧ (lowToHigh f a = .ok g ∨ lowToStop csqrt f a b = .ok g)) ∨
      ((∀ x ∈ f.z ++ f.p, x ≠ 2 * a) ∧ bilinear f (.scalar a) = .ok g)) : RealFilter g := by
  obtain ⟨hz, hp⟩ := hf
  rcases h with h | h | ⟨-, h | h⟩ | ⟨-, h⟩
  · have h := scale_ok h
    injection h with h
    subst h
    exact ⟨closed_map hz _ fun x => by simp, closed_map hp _ fun x => by simp⟩
  · have h := scale_ok h
    injection h with h
    subst h
    exact ⟨closed_append (closed_catenate hs (closed_map hz _ fun x => by simp [conj_two]) _) (closed_replicate _ (by simp)),
      closed_catenate hs (closed_map hp _ fun x => by simp [conj_two]) _⟩
  · have h := scale_ok h
    injection h with h
    subst h
    exact ⟨closed_append (closed_map hz _ fun x => by simp) (closed_replicate _ (by simp)), closed_map hp _ fun x => by simp⟩
  · have h := scale_ok h
    injection h with h
    subst h
    refine ⟨?_, closed_catenate hs (closed_map hp _ fun x => by simp [conj_two]) _⟩
    show ConjClosed (_ ++ _ ++ _)
    rw [List.append_assoc]
    refine closed_append (closed_catenate hs (closed_map hz _ fun x => by simp [conj_two]) _) ?_
    unfold ConjClosed
    rw [List.map_append, List.map_replicate, List.map_replicate]
    simp only [map_mul, map_neg, Complex.conj_I, Complex.conj_ofReal, neg_neg]
    exact List.perm_append_comm
  · have h := scale_ok (show (relativeScale f.z f.p >>= _) = _ from h)
    injection h with h
    subst h
    exact ⟨closed_append (closed_map hz _ fun x => by simp [conj_two]) (closed_replicate _ (by simp)),
      closed_map hp _ fun x => by simp [conj_two]⟩

/-- **C265** so for proper real filters the frequency substitutions hold without a side condition on the gain -/
theorem C265_substitution {csqrt : ℂ → ℂ} (hs : IsSqrt csqrt) (f : Zpk) (hf : RealFilter f) (hl : f.z.length ≤ f.p.length) (a b : ℝ) :
    ((∀ x ∈ f.z ++ f.p, x ≠ 0) → ∃ g, lowToHigh f a = .ok g ∧ ∀ s, s ≠ 0 → H g s = H f (a / s)) ∧
    ((∀ x ∈ f.z ++ f.p, x ≠ 0) → ∃ g, lowToStop csqrt f a b = .ok g ∧
      ∀ s, s ^ 2 + (a : ℂ) ^ 2 ≠ 0 → H g s = H f (b * s / (s ^ 2 + a ^ 2))) ∧
    ((∀ x ∈ f.z ++ f.p, x ≠ 2 * a) → ∃ g, bilinear f (.scalar a) = .ok g ∧ ∀ w, w ≠ -1 → H g w = H f (2 * a * (w - 1) / (w + 1))) := by
  have l : ∀ {P : ℂ → Prop}, (∀ x ∈ f.z ++ f.p, P x) → (∀ x ∈ f.z, P x) ∧ ∀ x ∈ f.p, P x := fun h =>
    ⟨fun x hx => h x (List.mem_append_left _ hx), fun x hx => h x (List.mem_append_right _ hx)⟩
  exact ⟨fun h => C92_low_to_high f a hl (l h).1 (l h).2 (C92_side f hf.1 hf.2),
    fun h => C94_low_to_stop hs f a b hl (l h).1 (l h).2 (C92_side f hf.1 hf.2),
    fun h => C95_bilinear f a hl (l h).1 (l h).2 (C95_side f a hf.1 hf.2)⟩

/-- **C265** filters that are not real lose gain: with one zero at `i t` and one pole at `-c` the result of `low_to_high` has gain 0, so
its response vanishes everywhere, while that of the given filter vanishes only at the zero.  `t` and `c` are not 0, or numpy would divide by 0 -/
theorem C265_lost (t c k a : ℝ) (_ht : t ≠ 0) (_hc : 0 < c) (hk : k ≠ 0) :
    ∃ g, lowToHigh ⟨[I * t], [-(c : ℂ)], k⟩ a = .ok g ∧ (∀ s, H g s = 0) ∧
      ∀ s, s ≠ I * t → s ≠ -(c : ℂ) → H ⟨[I * t], [-(c : ℂ)], k⟩ s ≠ 0 := by
  refine ⟨_, rfl, ?_, ?_⟩
  · intro s
    have e : k * ((([I * (t : ℂ)] : List ℂ).map (fun x => -x)).prod / (([-(c : ℂ)] : List ℂ).map (fun x => -x)).prod).re = 0 := by
      simp [Complex.div_re]
    unfold H
    simp only
    rw [e]
    simp
  · intro s h1 h2
    unfold H
    simp only [List.map_cons, List.map_nil, List.prod_cons, List.prod_nil, mul_one]
    exact div_ne_zero (mul_ne_zero (by exact_mod_cast hk) (sub_ne_zero.mpr h1)) (sub_ne_zero.mpr h2)

/-- a real filter with a conjugate pair of poles -/
example : RealFilter ⟨[1], [-1 + I, -1 - I], 1⟩ := by
  constructor
  · simp [ConjClosed]
  · simp only [ConjClosed, List.map_cons, List.map_nil, map_neg, map_add, map_sub, map_one, Complex.conj_I, sub_neg_eq_add, ← sub_eq_add_neg]
    exact List.Perm.swap _ _ _

end

end Proadv
