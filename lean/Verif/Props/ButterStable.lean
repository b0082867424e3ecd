import Verif.Props.ButterDesign

/-!
# Property C264: the frequency transforms keep stable filters stable and unstable ones unstable
-/

namespace Proadv

open Proadv.Butter Complex Spec

noncomputable section

namespace Spec

/-- Specification: an analog filter is stable, all poles are in the open left half plane -/
def StableA (f : Zpk) : Prop := ∀ p ∈ f.p, p.re < 0

/-- Specification: a digital filter is stable, all poles are in the open unit disc -/
def StableD (f : Zpk) : Prop := ∀ p ∈ f.p, ‖p‖ < 1

end Spec

/-- the real part of a root of `s² - 2as + c²` has the sign of the real part of `a` -/
private theorem root_sign {a s : ℂ} {c : ℝ} (hc : c ≠ 0) (h : s ^ 2 - 2 * a * s + (c : ℂ) ^ 2 = 0) : s.re < 0 ↔ a.re < 0 := by
  have hs : s ≠ 0 := by
    rintro rfl
    simp at h; exact hc h
  have hn : 0 < normSq s := Complex.normSq_pos.mpr hs
  have e : s.re * (normSq s + c ^ 2) = 2 * a.re * normSq s := by
    have h1 := congrArg Complex.re h
    have h2 := congrArg Complex.im h
    simp only [pow_two, Complex.add_re, Complex.sub_re, Complex.mul_re, Complex.ofReal_re, Complex.ofReal_im, Complex.re_ofNat,
      Complex.im_ofNat, Complex.zero_re, Complex.mul_im, Complex.add_im, Complex.sub_im, Complex.zero_im] at h1 h2
    rw [Complex.normSq_apply]
    linear_combination s.re * h1 + s.im * h2
  have h3 : 0 < normSq s + c ^ 2 := by positivity
  constructor
  · intro hr
    by_contra ha
    have : 0 ≤ 2 * a.re * normSq s := by have := not_lt.mp ha; positivity
    rw [← e] at this
    exact absurd this (not_le.mpr (mul_neg_of_neg_of_pos hr h3))
  · intro ha
    by_contra hr
    have : 0 ≤ s.re * (normSq s + c ^ 2) := mul_nonneg (not_lt.mp hr) h3.le
    rw [e] at this
    nlinarith [mul_neg_of_neg_of_pos ha hn]

private theorem catenate_stable {csqrt : ℂ → ℂ} (hs : IsSqrt csqrt) {l : List ℂ} {pc : ℝ} (hc : pc ≠ 0) :
    (∀ s ∈ catenate csqrt l pc, s.re < 0) ↔ ∀ a ∈ l, a.re < 0 := by
  constructor
  · intro h a ha
    have hm : a + csqrt (a ^ 2 - (pc : ℂ) ^ 2) ∈ catenate csqrt l pc :=
      List.mem_append_left _ (List.mem_map.mpr ⟨a, ha, rfl⟩)
    refine (root_sign hc ?_).mp (h _ hm)
    have := hs (a ^ 2 - (pc : ℂ) ^ 2)
    linear_combination this
  · intro h s hm
    obtain ⟨a, ha, hr⟩ := catenate_root hs hm
    exact (root_sign hc hr).mpr (h a ha)

private theorem re_div {d : ℝ} (hd : 0 < d) {x : ℂ} (_hx : x ≠ 0) : ((d : ℂ) / x).re < 0 ↔ x.re < 0 := by
  refine ⟨fun h => ?_, div_re_neg hd⟩
  have h1 := div_re_neg hd h
  rwa [div_div_cancel₀ (by exact_mod_cast hd.ne')] at h1

private theorem re_half {w : ℝ} (hw : 0 < w) (x : ℂ) : (x * (w : ℂ) / 2).re < 0 ↔ x.re < 0 := by
  have e : (x * (w : ℂ) / 2).re = x.re * (w / 2) := by
    rw [show x * (w : ℂ) / 2 = x * ((w / 2 : ℝ) : ℂ) by push_cast; ring, Complex.re_mul_ofReal]
  rw [e]
  constructor
  · intro h; nlinarith
  · intro h; exact mul_neg_of_neg_of_pos h (by positivity)

private theorem disc {c : ℝ} (hc : 0 < c) {s : ℂ} (hs : s ≠ (c : ℂ)) : ‖((c : ℂ) + s) / ((c : ℂ) - s)‖ < 1 ↔ s.re < 0 := by
  refine ⟨fun h => ?_, bilinear_norm hc⟩
  have hne : (c : ℂ) - s ≠ 0 := sub_ne_zero.mpr hs.symm
  have hp : 0 < ‖(c : ℂ) - s‖ := norm_pos_iff.mpr hne
  rw [norm_div, div_lt_one hp] at h
  have h2 : ‖(c : ℂ) + s‖ ^ 2 < ‖(c : ℂ) - s‖ ^ 2 := by
    have := norm_nonneg ((c : ℂ) + s)
    nlinarith
  rw [← Complex.normSq_eq_norm_sq, ← Complex.normSq_eq_norm_sq, Complex.normSq_apply, Complex.normSq_apply] at h2
  simp only [Complex.add_re, Complex.sub_re, Complex.add_im, Complex.sub_im, Complex.ofReal_re, Complex.ofReal_im] at h2
  nlinarith

private theorem scale_ok {α : Type} {z p : List ℂ} {k : Nat → Py α} {g : α} (h : (relativeScale z p >>= k) = .ok g) :
    k (p.length - z.length) = .ok g := by
  by_cases hl : p.length < z.length
  · rw [show relativeScale z p = .error .valueError from if_pos hl] at h; cases h
  · rw [show relativeScale z p = .ok (p.length - z.length) from if_neg hl] at h; exact h

/-- **C264** `low_to_low` and `low_to_high` with a positive frequency return a stable filter exactly when they are given one -/
theorem C264_low_high (f g : Zpk) (dc : ℝ) (hd : 0 < dc) :
    (lowToLow f dc = .ok g → (StableA g ↔ StableA f)) ∧
    ((∀ p ∈ f.p, p ≠ 0) → lowToHigh f dc = .ok g → (StableA g ↔ StableA f)) := by
  constructor
  · intro h
    have h := scale_ok h
    injection h with h
    subst h
    unfold StableA
    simp only [List.mem_map, forall_exists_index, and_imp, forall_apply_eq_imp_iff₂]
    refine forall₂_congr fun x _ => ?_
    rw [Complex.re_ofReal_mul]
    constructor
    · intro h; nlinarith
    · intro h; exact mul_neg_of_pos_of_neg hd h
  · intro h0 h
    have h := scale_ok h
    injection h with h
    subst h
    unfold StableA
    simp only [List.mem_map, forall_exists_index, and_imp, forall_apply_eq_imp_iff₂]
    exact forall₂_congr fun x hx => re_div hd (h0 x hx)

/-- **C264** `low_to_band` and `low_to_stop` likewise, for a nonzero centre and a positive width -/
theorem C264_band_stop {csqrt : ℂ → ℂ} (hs : IsSqrt csqrt) (f g : Zpk) (pc pw : ℝ) (hc : pc ≠ 0) (hw : 0 < pw) :
    (lowToBand csqrt f pc pw = .ok g → (StableA g ↔ StableA f)) ∧
    ((∀ p ∈ f.p, p ≠ 0) → lowToStop csqrt f pc pw = .ok g → (StableA g ↔ StableA f)) := by
  constructor
  · intro h
    have h := scale_ok h
    injection h with h
    subst h
    refine (catenate_stable hs hc).trans ?_
    unfold StableA
    simp only [List.mem_map, forall_exists_index, and_imp, forall_apply_eq_imp_iff₂]
    exact forall₂_congr fun x _ => re_half hw x
  · intro h0 h
    have h := scale_ok h
    injection h with h
    subst h
    refine (catenate_stable hs hc).trans ?_
    unfold StableA
    simp only [List.mem_map, forall_exists_index, and_imp, forall_apply_eq_imp_iff₂]
    refine forall₂_congr fun x hx => ?_
    rw [show ((pw : ℂ) / 2) / x = ((pw / 2 : ℝ) : ℂ) / x by push_cast; rfl]
    exact re_div (by positivity) (h0 x hx)

/-- **C264** with centre 0 `low_to_band` returns an unstable filter, whatever poles it is given -/
theorem C264_band_zero {csqrt : ℂ → ℂ} (hs : IsSqrt csqrt) (f g : Zpk) (pw : ℝ) (hp : f.p ≠ []) (h : lowToBand csqrt f 0 pw = .ok g) :
    (0 : ℂ) ∈ g.p ∧ ¬ StableA g := by
  have h := scale_ok h
  injection h with h
  subst h
  have key : (0 : ℂ) ∈ catenate csqrt (f.p.map (fun x => x * (pw : ℂ) / 2)) 0 := by
    obtain ⟨x, hx⟩ := List.exists_mem_of_ne_nil _ hp
    have hm : x * (pw : ℂ) / 2 ∈ f.p.map (fun x => x * (pw : ℂ) / 2) := List.mem_map.mpr ⟨x, hx, rfl⟩
    generalize x * (pw : ℂ) / 2 = a at hm
    have e := hs (a ^ 2 - ((0 : ℝ) : ℂ) ^ 2)
    have e2 : (a + csqrt (a ^ 2 - ((0 : ℝ) : ℂ) ^ 2)) * (a - csqrt (a ^ 2 - ((0 : ℝ) : ℂ) ^ 2)) = 0 := by
      have : ((0 : ℝ) : ℂ) ^ 2 = 0 := by simp
      linear_combination this - e
    rcases mul_eq_zero.mp e2 with e3 | e3
    · exact List.mem_append_left _ (List.mem_map.mpr ⟨a, hm, e3⟩)
    · exact List.mem_append_right _ (List.mem_map.mpr ⟨a, hm, e3⟩)
  exact ⟨key, fun hst => absurd (hst 0 key) (by simp)⟩

/-- **C264** `bilinear` with a positive sampling rate returns a stable digital filter exactly when the analog one is stable; no pole may
be equal to twice the rate -/
theorem C264_bilinear (f g : Zpk) (sr : ℝ) (hr : 0 < sr) (h0 : ∀ p ∈ f.p, p ≠ 2 * (sr : ℂ)) (h : bilinear f (.scalar sr) = .ok g) :
    StableD g ↔ StableA f := by
  have h := scale_ok (show (relativeScale f.z f.p >>= _) = _ from h)
  injection h with h
  subst h
  unfold StableD StableA
  simp only [List.mem_map, forall_exists_index, and_imp, forall_apply_eq_imp_iff₂, Option.getD_some]
  refine forall₂_congr fun x hx => ?_
  rw [show (2 : ℂ) * (sr : ℂ) = ((2 * sr : ℝ) : ℂ) by push_cast; rfl]
  exact disc (by positivity) (by rw [Complex.ofReal_mul]; exact_mod_cast h0 x hx)

/-- **C264** two `low_to_low` in a row are one with the product of the frequencies -/
theorem C264_low_low (f : Zpk) (a b : ℝ) : (lowToLow f a >>= fun g => lowToLow g b) = lowToLow f (b * a) := by
  by_cases hl : f.p.length < f.z.length
  · have e : ∀ d, lowToLow f d = .error .valueError := fun d => by
      unfold lowToLow relativeScale; rw [if_pos hl]; rfl
    rw [e, e]; rfl
  · have e : ∀ d, lowToLow f d = .ok ⟨f.z.map (fun x => (d : ℂ) * x), f.p.map (fun x => (d : ℂ) * x), f.k * d ^ (f.p.length - f.z.length)⟩ :=
      fun d => by unfold lowToLow relativeScale; rw [if_neg hl]; rfl
    rw [e, e]
    show lowToLow _ b = _
    unfold lowToLow relativeScale
    simp only [List.length_map]
    rw [if_neg hl]
    show Except.ok _ = _
    simp only [List.map_map]
    congr 2
    · exact List.map_congr_left fun x _ => by simp [mul_assoc]
    · exact List.map_congr_left fun x _ => by simp [mul_assoc]
    · rw [mul_pow]; ring

private theorem prod_neg_div (d : ℂ) (l : List ℂ) (h : ∀ x ∈ l, x ≠ 0) :
    ((l.map (fun x => d / x)).map (fun x => -x)).prod * (l.map (fun x => -x)).prod = d ^ l.length := by
  induction l with
  | nil => simp
  | cons x t ih =>
    have hx := h x (by simp)
    have ih := ih (fun y hy => h y (by simp [hy]))
    simp only [List.map_cons, List.prod_cons, List.length_cons, pow_succ]
    rw [← ih]
    field_simp

/-- **C264** `low_to_high` undoes itself on filters with as many zeros as poles, none of them 0, when the quotient of the products of zeros
and poles is real -/
theorem C264_high_high (f : Zpk) (dc : ℝ) (hd : dc ≠ 0) (hl : f.z.length = f.p.length) (hz : ∀ x ∈ f.z, x ≠ 0) (hp : ∀ x ∈ f.p, x ≠ 0)
    (hr : ((f.z.map (fun x => -x)).prod / (f.p.map (fun x => -x)).prod).im = 0) :
    (lowToHigh f dc >>= fun g => lowToHigh g dc) = .ok f := by
  have hdc : (dc : ℂ) ≠ 0 := by exact_mod_cast hd
  have ez := prod_neg_div (dc : ℂ) f.z hz
  have ep := prod_neg_div (dc : ℂ) f.p hp
  have nz : (f.z.map (fun x => -x)).prod ≠ 0 := fun e => by rw [e, mul_zero] at ez; exact pow_ne_zero _ hdc ez.symm
  have np : (f.p.map (fun x => -x)).prod ≠ 0 := fun e => by rw [e, mul_zero] at ep; exact pow_ne_zero _ hdc ep.symm
  have e1 : lowToHigh f dc = .ok ⟨f.z.map (fun x => (dc : ℂ) / x), f.p.map (fun x => (dc : ℂ) / x),
      f.k * ((f.z.map (fun x => -x)).prod / (f.p.map (fun x => -x)).prod).re⟩ := by
    unfold lowToHigh relativeScale
    rw [if_neg (by omega)]
    show Except.ok _ = _
    rw [hl, Nat.sub_self, List.replicate_zero, List.append_nil]
  rw [e1]
  show lowToHigh _ dc = _
  unfold lowToHigh relativeScale
  simp only [List.length_map]
  rw [if_neg (by omega)]
  show Except.ok _ = _
  rw [hl, Nat.sub_self, List.replicate_zero, List.append_nil]
  have back : ∀ l : List ℂ, (∀ x ∈ l, x ≠ 0) → (l.map (fun x => (dc : ℂ) / x)).map (fun x => (dc : ℂ) / x) = l := by
    intro l h
    rw [List.map_map]
    conv_rhs => rw [← List.map_id l]
    exact List.map_congr_left fun x _ => div_div_cancel₀ hdc
  rw [back _ hz, back _ hp]
  set A := (f.z.map (fun x => -x)).prod with hA
  set B := (f.p.map (fun x => -x)).prod with hB
  have e2 : ((f.z.map (fun x => (dc : ℂ) / x)).map (fun x => -x)).prod / ((f.p.map (fun x => (dc : ℂ) / x)).map (fun x => -x)).prod =
      (A / B)⁻¹ := by
    rw [eq_div_of_mul_eq nz ez, eq_div_of_mul_eq np ep, hl]
    have := pow_ne_zero f.p.length hdc
    field_simp
  rw [e2]
  have e3 : A / B = (((A / B).re : ℝ) : ℂ) := Complex.ext (by simp) (by simpa using hr)
  have e4 : (A / B).re ≠ 0 := by
    intro h0
    rw [h0, Complex.ofReal_zero] at e3
    exact div_ne_zero nz np e3
  have e5 : ((A / B)⁻¹).re = (A / B).re⁻¹ := by
    rw [e3, ← Complex.ofReal_inv, Complex.ofReal_re, Complex.ofReal_re]
  rw [e5, mul_assoc, mul_inv_cancel₀ e4, mul_one]

/-- an unstable filter that meets the hypotheses: one pole at 1, no zeros -/
example : ∃ g, lowToHigh ⟨[], [1], 1⟩ 3 = .ok g ∧ ¬ StableA g := by
  refine ⟨_, rfl, ?_⟩
  rw [(C264_low_high ⟨[], [1], 1⟩ _ 3 (by norm_num)).2 (by simp) rfl]
  intro h
  have := h 1 (by simp)
  norm_num at this

/-- and a filter with one zero and one pole for `C264_high_high` -/
example : (lowToHigh ⟨[2], [-1], 5⟩ 3 >>= fun g => lowToHigh g 3) = .ok ⟨[2], [-1], 5⟩ :=
  C264_high_high ⟨[2], [-1], 5⟩ 3 (by norm_num) rfl (by simp) (by simp) (by simp)

end

end Proadv
