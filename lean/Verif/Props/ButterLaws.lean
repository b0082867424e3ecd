import Verif.Props.ButterMain
import Mathlib.Analysis.SpecificLimits.Basic

/-! # `butterworth`: complementary filters, exact pass band, monotonicity and the effect of the order (C166–C168)

Statements about the squared magnitude of the transfer function of the filters returned, at every frequency. -/

namespace Proadv

open Proadv.Butter Complex Spec Filter Topology

noncomputable section

namespace Spec

/-- squared gain of a filter at frequency `x`: on the imaginary axis (rad/s) for an analog filter, on the unit circle
(`x` a fraction of the Nyquist frequency) for a digital one -/
def gain (ag : Bool) (g : Zpk) (x : ℝ) : ℝ :=
  if ag then ‖H g (I * x)‖ ^ 2 else ‖H g (Complex.exp (I * (Real.pi * x : ℝ)))‖ ^ 2

/-- the frequencies at which a filter is used: `0 ≤ x`, and below the Nyquist frequency for a digital filter -/
def usable (ag : Bool) (x : ℝ) : Prop := 0 ≤ x ∧ (ag = false → x < 1)

/-- the band the caller asks a filter to pass -/
def passes (btype : BType) (ws : List ℝ) (x : ℝ) : Prop :=
  match btype with
  | .lp => x ≤ ws.getD 0 0
  | .hp => ws.getD 0 0 ≤ x
  | .bp => ws.getD 0 0 ≤ x ∧ x ≤ ws.getD 1 0
  | .bs => x ≤ ws.getD 0 0 ∨ ws.getD 1 0 ≤ x
  | .other => True

/-- the band with its edges removed -/
def inside (btype : BType) (ws : List ℝ) (x : ℝ) : Prop :=
  match btype with
  | .lp => x < ws.getD 0 0
  | .hp => ws.getD 0 0 < x
  | .bp => ws.getD 0 0 < x ∧ x < ws.getD 1 0
  | .bs => x < ws.getD 0 0 ∨ ws.getD 1 0 < x
  | .other => True

end Spec

namespace ButterLaws

/-- frequency axis of the analog design -/
def axis (ag : Bool) (x : ℝ) : ℝ := if ag then x else Real.tan (Real.pi * x / 2)

/-- ideal squared magnitude, zero where the normalised frequency is infinite -/
def ideal (n : Nat) (btype : BType) (ws : List ℝ) (y : ℝ) : ℝ :=
  open Classical in if infinite btype ws y then 0 else power n (ratio btype ws y)

theorem gain_eq {csqrt : ℂ → ℂ} (hc : IsSqrt csqrt) {n : Nat} (hn : 0 < n) {w : List ℝ} {btype : BType} {ag : Bool} {output : Output}
    {sr : SrArg} {g : Zpk} (h : design csqrt n w btype ag output sr = .ok g) {x : ℝ} (hx : usable ag x) :
    gain ag g x = ideal n btype ((freqs w sr).map (axis ag)) (axis ag x) := by
  obtain ⟨hv, -⟩ := (C101_accepts hc n w btype ag output sr).mp ⟨g, h⟩
  cases ag with
  | true =>
    have hw : freqs w sr = w := by
      cases sr with
      | none => rfl
      | nonScalar => rfl
      | scalar y => exact absurd (hv.sr_digital y rfl) (by simp)
    have e : w.map (axis true) = w := List.map_id w
    have hg := C100_analog hc n hn w btype output sr g h x
    rw [hw, e]
    show (if true = true then _ else _) = _
    rw [if_pos rfl, ideal, show axis true x = x from rfl]
    split
    · next hi => rw [hg.2 hi]; norm_num
    · next hi => exact hg.1 hi
  | false =>
    have hg := C100_digital hc n hn w btype output sr g h x (by have := hx.1; linarith) (hx.2 rfl)
    show (if false = true then _ else _) = _
    rw [if_neg (by simp), ideal]
    have e : axis false = fun v => Real.tan (Real.pi * v / 2) := rfl
    rw [e]
    split
    · next hi => rw [hg.2 hi]; norm_num
    · next hi => exact hg.1 hi

theorem axis_lt {ag : Bool} {x y : ℝ} (hx : usable ag x) (hy : usable ag y) : axis ag x < axis ag y ↔ x < y := by
  cases ag with
  | true => rfl
  | false =>
    have hpi := Real.pi_pos
    have hm : ∀ z, usable false z → Real.pi * z / 2 ∈ Set.Ioo (-(Real.pi / 2)) (Real.pi / 2) := by
      intro z hz
      have h1 := hz.1; have h2 := hz.2 rfl
      constructor <;> nlinarith
    have := Real.strictMonoOn_tan.lt_iff_lt (hm x hx) (hm y hy)
    show Real.tan _ < Real.tan _ ↔ _
    rw [this]
    constructor <;> intro h <;> nlinarith

theorem axis_le {ag : Bool} {x y : ℝ} (hx : usable ag x) (hy : usable ag y) : axis ag x ≤ axis ag y ↔ x ≤ y := by
  rw [← not_lt, ← not_lt, axis_lt hy hx]

theorem axis_zero (ag : Bool) : axis ag 0 = 0 := by cases ag <;> simp [axis]

theorem axis_nonneg {ag : Bool} {x : ℝ} (hx : usable ag x) : 0 ≤ axis ag x := by
  rw [← axis_zero ag]; exact (axis_le ⟨le_refl _, fun _ => by norm_num⟩ hx).mpr hx.1

theorem map_getD {W : List ℝ} (f : ℝ → ℝ) {i : Nat} (h : i < W.length) : (W.map f).getD i 0 = f (W.getD i 0) := by
  rw [List.getD_eq_getElem?_getD, List.getD_eq_getElem?_getD, List.getElem?_map, List.getElem?_eq_getElem h]; rfl

/-- what a successful call says about its edges -/
theorem edges {csqrt : ℂ → ℂ} (hc : IsSqrt csqrt) {n : Nat} {w : List ℝ} {btype : BType} {ag : Bool} {output : Output}
    {sr : SrArg} {g : Zpk} (h : design csqrt n w btype ag output sr = .ok g) :
    usable ag ((freqs w sr).getD 0 0) ∧ 0 < (freqs w sr).getD 0 0 ∧
    ((freqs w sr).map (axis ag)).getD 0 0 = axis ag ((freqs w sr).getD 0 0) ∧
    (btype = .bp ∨ btype = .bs → usable ag ((freqs w sr).getD 1 0) ∧ (freqs w sr).getD 0 0 < (freqs w sr).getD 1 0 ∧
      ((freqs w sr).map (axis ag)).getD 1 0 = axis ag ((freqs w sr).getD 1 0)) := by
  obtain ⟨hv, hb⟩ := (C101_accepts hc n w btype ag output sr).mp ⟨g, h⟩
  have hl := length_freqs w sr
  have hlen : 0 < (freqs w sr).length := by
    rw [hl]; have h1 := hv.single; have h2 := hv.pair
    cases btype <;> simp at h1 h2 hb <;> omega
  have m0 := getD_mem hlen
  refine ⟨⟨(hv.pos _ m0).le, fun ha => hv.below_nyquist ha _ m0⟩, hv.pos _ m0, map_getD _ hlen, fun h2 => ?_⟩
  have hp := hv.pair h2
  have m1 : (freqs w sr).getD 1 0 ∈ freqs w sr := getD_mem (by omega)
  exact ⟨⟨(hv.pos _ m1).le, fun ha => hv.below_nyquist ha _ m1⟩, hv.increasing (by omega), map_getD _ (by omega)⟩

theorem power_pos (n : Nat) (r : ℝ) : 0 < power n r := by
  have : 0 ≤ r ^ (2 * n) := by rw [pow_mul]; positivity
  unfold power; positivity

theorem power_le_one (n : Nat) (r : ℝ) : power n r ≤ 1 := by
  have : 0 ≤ r ^ (2 * n) := by rw [pow_mul]; positivity
  unfold power; rw [div_le_one (by linarith)]; linarith

theorem power_le {n : Nat} {r s : ℝ} (h : r ^ 2 ≤ s ^ 2) : power n s ≤ power n r := by
  have h1 : 0 ≤ r ^ (2 * n) := by rw [pow_mul]; positivity
  have h2 : r ^ (2 * n) ≤ s ^ (2 * n) := by rw [pow_mul, pow_mul]; exact pow_le_pow_left₀ (sq_nonneg r) h n
  unfold power
  exact one_div_le_one_div_of_le (by linarith) (by linarith)

theorem power_lt {n : Nat} (hn : 0 < n) {r s : ℝ} (h : r ^ 2 < s ^ 2) : power n s < power n r := by
  have h1 : 0 ≤ r ^ (2 * n) := by rw [pow_mul]; positivity
  have h2 : r ^ (2 * n) < s ^ (2 * n) := by rw [pow_mul, pow_mul]; exact pow_lt_pow_left₀ h (sq_nonneg r) hn.ne'
  unfold power
  exact one_div_lt_one_div_of_lt (by linarith) (by linarith)

theorem half_le {n : Nat} (hn : 0 < n) {r : ℝ} : 1 / 2 ≤ power n r ↔ r ^ 2 ≤ 1 := by
  constructor
  · intro h
    by_contra hc
    have := power_lt hn (r := 1) (s := r) (by linarith [not_le.mp hc])
    rw [power_edge (r := 1) (by norm_num)] at this; linarith
  · intro h
    have := power_le (n := n) (r := r) (s := 1) (by linarith)
    rwa [power_edge (r := 1) (by norm_num)] at this

theorem half_lt {n : Nat} (hn : 0 < n) {r : ℝ} : 1 / 2 < power n r ↔ r ^ 2 < 1 := by
  constructor
  · intro h
    by_contra hc
    have := power_le (n := n) (r := 1) (s := r) (by linarith [not_lt.mp hc])
    rw [power_edge (r := 1) (by norm_num)] at this; linarith
  · intro h
    have := power_lt hn (r := r) (s := 1) (by linarith)
    rwa [power_edge (r := 1) (by norm_num)] at this

theorem inv_power {n : Nat} {r : ℝ} (hr : r ≠ 0) : power n r + power n r⁻¹ = 1 := by
  have h1 : 0 < r ^ (2 * n) := by rw [pow_mul]; have := sq_pos_of_ne_zero hr; positivity
  unfold power
  rw [inv_pow]
  field_simp
  ring

theorem power_zero {n : Nat} (hn : 0 < n) : power n 0 = 1 := by
  unfold power; rw [zero_pow (by omega)]; norm_num

theorem ideal_lp_hp {n : Nat} (hn : 0 < n) {ws : List ℝ} (h0 : 0 < ws.getD 0 0) (y : ℝ) :
    ideal n .lp ws y + ideal n .hp ws y = 1 := by
  unfold ideal
  rw [if_neg (show ¬ infinite .lp ws y from fun h => h)]
  by_cases hy : y = 0
  · rw [if_pos (show infinite .hp ws y from hy), hy]
    simp [ratio, power_zero hn]
  · rw [if_neg (show ¬ infinite .hp ws y from hy)]
    have : ratio .hp ws y = (ratio .lp ws y)⁻¹ := by simp [ratio]
    rw [this]; exact inv_power (div_ne_zero hy h0.ne')

theorem ideal_bp_bs {n : Nat} (hn : 0 < n) {ws : List ℝ} (h0 : 0 < ws.getD 0 0) (h1 : ws.getD 0 0 < ws.getD 1 0) (y : ℝ) :
    ideal n .bp ws y + ideal n .bs ws y = 1 := by
  unfold ideal
  by_cases hy : y = 0
  · rw [if_pos (show infinite .bp ws y from hy), if_neg (show ¬ infinite .bs ws y from ?_), hy]
    · simp [ratio, power_zero hn]
    · have : 0 < ws.getD 0 0 * ws.getD 1 0 := mul_pos h0 (h0.trans h1)
      show ¬ (y ^ 2 = _); rw [hy]; intro hh; nlinarith
  · rw [if_neg (show ¬ infinite .bp ws y from hy)]
    by_cases hs : y ^ 2 = ws.getD 0 0 * ws.getD 1 0
    · rw [if_pos (show infinite .bs ws y from hs)]
      simp only [ratio]; rw [hs]; simp [power_zero hn]
    · rw [if_neg (show ¬ infinite .bs ws y from hs)]
      have e : ratio .bs ws y = (-ratio .bp ws y)⁻¹ := by
        simp only [ratio]
        rw [← neg_div, inv_div, neg_sub]
      have e2 : power n (ratio .bp ws y) = power n (-ratio .bp ws y) := by
        unfold power; rw [pow_mul, pow_mul, neg_sq]
      rw [e, e2]
      refine inv_power (neg_ne_zero.mpr ?_)
      exact div_ne_zero (sub_ne_zero.mpr hs) (mul_ne_zero (sub_ne_zero.mpr h1.ne') hy)

theorem ideal_nonneg (n : Nat) (btype : BType) (ws : List ℝ) (y : ℝ) : 0 ≤ ideal n btype ws y := by
  unfold ideal; split
  · exact le_refl _
  · exact (power_pos _ _).le

theorem ideal_le_one (n : Nat) (btype : BType) (ws : List ℝ) (y : ℝ) : ideal n btype ws y ≤ 1 := by
  unfold ideal; split
  · norm_num
  · exact power_le_one _ _

theorem sq_le_one {a b : ℝ} (hb : 0 < b) : (a / b) ^ 2 ≤ 1 ↔ a ≤ b ∧ -a ≤ b := by
  rw [sq_le_one_iff_abs_le_one, abs_div, abs_of_pos hb, div_le_one hb, abs_le]
  constructor <;> rintro ⟨h1, h2⟩ <;> constructor <;> linarith

theorem sq_lt_one {a b : ℝ} (hb : 0 < b) : (a / b) ^ 2 < 1 ↔ a < b ∧ -a < b := by
  rw [sq_lt_one_iff_abs_lt_one, abs_div, abs_of_pos hb, div_lt_one hb, abs_lt]
  constructor <;> rintro ⟨h1, h2⟩ <;> constructor <;> linarith

theorem lp_band {n : Nat} (hn : 0 < n) {ws : List ℝ} (h0 : 0 < ws.getD 0 0) {y : ℝ} (hy : 0 ≤ y) :
    (1 / 2 ≤ ideal n .lp ws y ↔ y ≤ ws.getD 0 0) ∧ (1 / 2 < ideal n .lp ws y ↔ y < ws.getD 0 0) := by
  unfold ideal
  rw [if_neg (show ¬ infinite .lp ws y from fun h => h), half_le hn, half_lt hn]
  simp only [ratio]
  rw [sq_le_one h0, sq_lt_one h0]
  exact ⟨⟨fun h => h.1, fun h => ⟨h, by linarith⟩⟩, ⟨fun h => h.1, fun h => ⟨h, by linarith⟩⟩⟩

theorem bp_band {n : Nat} (hn : 0 < n) {ws : List ℝ} (h0 : 0 < ws.getD 0 0) (h1 : ws.getD 0 0 < ws.getD 1 0) {y : ℝ} (hy : 0 ≤ y) :
    (1 / 2 ≤ ideal n .bp ws y ↔ ws.getD 0 0 ≤ y ∧ y ≤ ws.getD 1 0) ∧
    (1 / 2 < ideal n .bp ws y ↔ ws.getD 0 0 < y ∧ y < ws.getD 1 0) := by
  unfold ideal
  rcases hy.eq_or_lt with rfl | hy
  · rw [if_pos (show infinite .bp ws 0 from rfl)]
    constructor
    · exact ⟨fun h => by norm_num at h, fun h => by linarith [h.1]⟩
    · exact ⟨fun h => by norm_num at h, fun h => by linarith [h.1]⟩
  · rw [if_neg (show ¬ infinite .bp ws y from hy.ne'), half_le hn, half_lt hn]
    simp only [ratio]
    generalize ws.getD 0 0 = a at *
    generalize ws.getD 1 0 = b at *
    have hd : 0 < (b - a) * y := mul_pos (by linarith) hy
    rw [sq_le_one hd, sq_lt_one hd]
    have e1 : (b - a) * y - (y ^ 2 - a * b) = (b - y) * (y + a) := by ring
    have e2 : (b - a) * y - -(y ^ 2 - a * b) = (y - a) * (y + b) := by ring
    have p1 : 0 < y + a := by linarith
    have p2 : 0 < y + b := by linarith
    rw [← sub_nonneg (b := y ^ 2 - a * b), ← sub_nonneg (b := -(y ^ 2 - a * b)), ← sub_pos (b := y ^ 2 - a * b),
      ← sub_pos (b := -(y ^ 2 - a * b)), e1, e2, mul_nonneg_iff_of_pos_right p1, mul_nonneg_iff_of_pos_right p2,
      mul_pos_iff_of_pos_right p1, mul_pos_iff_of_pos_right p2]
    simp only [sub_nonneg, sub_pos]
    exact ⟨and_comm, and_comm⟩

theorem band {n : Nat} (hn : 0 < n) {btype : BType} (hb : btype ≠ .other) {ws : List ℝ} (h0 : 0 < ws.getD 0 0)
    (h1 : btype = .bp ∨ btype = .bs → ws.getD 0 0 < ws.getD 1 0) {y : ℝ} (hy : 0 ≤ y) :
    (1 / 2 ≤ ideal n btype ws y ↔ passes btype ws y) ∧ (1 / 2 < ideal n btype ws y ↔ inside btype ws y) := by
  cases btype with
  | other => exact absurd rfl hb
  | lp => exact lp_band hn h0 hy
  | bp => exact bp_band hn h0 (h1 (Or.inl rfl)) hy
  | hp =>
    obtain ⟨a, b⟩ := lp_band hn h0 hy
    have e := ideal_lp_hp hn h0 y
    simp only [passes, inside]
    constructor
    · have : ws.getD 0 0 ≤ y ↔ ¬ (y < ws.getD 0 0) := not_lt.symm
      rw [this, ← b, not_lt]; constructor <;> intro h <;> linarith
    · have : ws.getD 0 0 < y ↔ ¬ (y ≤ ws.getD 0 0) := not_le.symm
      rw [this, ← a, not_le]; constructor <;> intro h <;> linarith
  | bs =>
    obtain ⟨a, b⟩ := bp_band hn h0 (h1 (Or.inr rfl)) hy
    have e := ideal_bp_bs hn h0 (h1 (Or.inr rfl)) y
    simp only [passes, inside]
    constructor
    · have : y ≤ ws.getD 0 0 ∨ ws.getD 1 0 ≤ y ↔ ¬ (ws.getD 0 0 < y ∧ y < ws.getD 1 0) := by
        rw [not_and_or, not_lt, not_lt]
      rw [this, ← b, not_lt]; constructor <;> intro h <;> linarith
    · have : y < ws.getD 0 0 ∨ ws.getD 1 0 < y ↔ ¬ (ws.getD 0 0 ≤ y ∧ y ≤ ws.getD 1 0) := by
        rw [not_and_or, not_le, not_le]
      rw [this, ← a, not_le]; constructor <;> intro h <;> linarith

theorem map_facts {csqrt : ℂ → ℂ} (hc : IsSqrt csqrt) {n : Nat} {w : List ℝ} {btype : BType} {ag : Bool} {output : Output}
    {sr : SrArg} {g : Zpk} (h : design csqrt n w btype ag output sr = .ok g) :
    0 < ((freqs w sr).map (axis ag)).getD 0 0 ∧
    (btype = .bp ∨ btype = .bs → ((freqs w sr).map (axis ag)).getD 0 0 < ((freqs w sr).map (axis ag)).getD 1 0) := by
  obtain ⟨u0, p0, e0, h1⟩ := edges hc h
  refine ⟨?_, fun h2 => ?_⟩
  · have := (axis_lt (ag := ag) (x := 0) ⟨le_refl _, fun _ => by norm_num⟩ u0).mpr p0
    rw [axis_zero] at this; rw [e0]; exact this
  · obtain ⟨u1, hlt, e1⟩ := h1 h2
    rw [e0, e1, axis_lt u0 u1]; exact hlt

/-- bands are the same on both frequency axes -/
theorem map_band {csqrt : ℂ → ℂ} (hc : IsSqrt csqrt) {n : Nat} {w : List ℝ} {btype : BType} {ag : Bool} {output : Output}
    {sr : SrArg} {g : Zpk} (h : design csqrt n w btype ag output sr = .ok g) {x : ℝ} (hx : usable ag x) :
    (passes btype ((freqs w sr).map (axis ag)) (axis ag x) ↔ passes btype (freqs w sr) x) ∧
    (inside btype ((freqs w sr).map (axis ag)) (axis ag x) ↔ inside btype (freqs w sr) x) := by
  obtain ⟨u0, p0, e0, h1⟩ := edges hc h
  cases btype with
  | other => exact ⟨Iff.rfl, Iff.rfl⟩
  | lp => simp only [passes, inside]; rw [e0, axis_le hx u0, axis_lt hx u0]; exact ⟨Iff.rfl, Iff.rfl⟩
  | hp => simp only [passes, inside]; rw [e0, axis_le u0 hx, axis_lt u0 hx]; exact ⟨Iff.rfl, Iff.rfl⟩
  | bp =>
    obtain ⟨u1, hlt, e1⟩ := h1 (Or.inl rfl)
    simp only [passes, inside]
    rw [e0, e1, axis_le u0 hx, axis_le hx u1, axis_lt u0 hx, axis_lt hx u1]; exact ⟨Iff.rfl, Iff.rfl⟩
  | bs =>
    obtain ⟨u1, hlt, e1⟩ := h1 (Or.inr rfl)
    simp only [passes, inside]
    rw [e0, e1, axis_le hx u0, axis_le u1 hx, axis_lt hx u0, axis_lt u1 hx]; exact ⟨Iff.rfl, Iff.rfl⟩

end ButterLaws

open ButterLaws

/-! ## C166: complementary filters -/

/-- **C166.** a low-pass and a high-pass filter of the same order and cut-off share the power: squared gains add to one -/
theorem C166_lp_hp {csqrt : ℂ → ℂ} (hc : IsSqrt csqrt) (n : Nat) (hn : 0 < n) (w : List ℝ) (ag : Bool) (o o' : Output)
    (sr : SrArg) (g k : Zpk) (hg : design csqrt n w .lp ag o sr = .ok g) (hk : design csqrt n w .hp ag o' sr = .ok k)
    (x : ℝ) (hx : usable ag x) : gain ag g x + gain ag k x = 1 := by
  rw [gain_eq hc hn hg hx, gain_eq hc hn hk hx]
  exact ideal_lp_hp hn (map_facts hc hg).1 _

/-- **C166.** so do a band-pass and a band-stop filter with the same edges -/
theorem C166_bp_bs {csqrt : ℂ → ℂ} (hc : IsSqrt csqrt) (n : Nat) (hn : 0 < n) (w : List ℝ) (ag : Bool) (o o' : Output)
    (sr : SrArg) (g k : Zpk) (hg : design csqrt n w .bp ag o sr = .ok g) (hk : design csqrt n w .bs ag o' sr = .ok k)
    (x : ℝ) (hx : usable ag x) : gain ag g x + gain ag k x = 1 := by
  rw [gain_eq hc hn hg hx, gain_eq hc hn hk hx]
  exact ideal_bp_bs hn (map_facts hc hg).1 ((map_facts hc hg).2 (Or.inl rfl)) _

/-! ## C167: the half-power band is the band asked for; no filter amplifies; monotone gain -/

/-- **C167.** no filter amplifies any frequency -/
theorem C167_le_one {csqrt : ℂ → ℂ} (hc : IsSqrt csqrt) (n : Nat) (hn : 0 < n) (w : List ℝ) (btype : BType) (ag : Bool) (o : Output)
    (sr : SrArg) (g : Zpk) (h : design csqrt n w btype ag o sr = .ok g) (x : ℝ) (hx : usable ag x) : gain ag g x ≤ 1 := by
  rw [gain_eq hc hn h hx]; exact ideal_le_one _ _ _ _

/-- **C167.** at least half the power passes exactly inside the band the caller asked for (in the caller's frequency units), more
than half exactly off its edges -/
theorem C167_band {csqrt : ℂ → ℂ} (hc : IsSqrt csqrt) (n : Nat) (hn : 0 < n) (w : List ℝ) (btype : BType) (ag : Bool) (o : Output)
    (sr : SrArg) (g : Zpk) (h : design csqrt n w btype ag o sr = .ok g) (x : ℝ) (hx : usable ag x) :
    (1 / 2 ≤ gain ag g x ↔ passes btype (freqs w sr) x) ∧ (1 / 2 < gain ag g x ↔ inside btype (freqs w sr) x) := by
  have hb := ((C101_accepts hc n w btype ag o sr).mp ⟨g, h⟩).2
  obtain ⟨f0, f1⟩ := map_facts hc h
  obtain ⟨b1, b2⟩ := band hn hb f0 f1 (axis_nonneg hx)
  obtain ⟨m1, m2⟩ := map_band hc h hx
  rw [gain_eq hc hn h hx, b1, b2, m1, m2]; exact ⟨Iff.rfl, Iff.rfl⟩

/-- **C167.** the gain of a low-pass filter strictly decreases with frequency, that of a high-pass filter strictly increases -/
theorem C167_monotone {csqrt : ℂ → ℂ} (hc : IsSqrt csqrt) (n : Nat) (hn : 0 < n) (w : List ℝ) (ag : Bool) (o : Output)
    (sr : SrArg) (g : Zpk) (x y : ℝ) (hx : usable ag x) (hy : usable ag y) (hxy : x < y) :
    (design csqrt n w .lp ag o sr = .ok g → gain ag g y < gain ag g x) ∧
    (design csqrt n w .hp ag o sr = .ok g → gain ag g x < gain ag g y) := by
  have hlt := (axis_lt hx hy).mpr hxy
  have h0 := axis_nonneg hx
  have key : ∀ ws : List ℝ, 0 < ws.getD 0 0 → ideal n .lp ws (axis ag y) < ideal n .lp ws (axis ag x) := by
    intro ws hw
    unfold ideal
    rw [if_neg (show ¬ infinite .lp ws _ from fun h => h), if_neg (show ¬ infinite .lp ws _ from fun h => h)]
    apply power_lt hn
    simp only [ratio]
    exact pow_lt_pow_left₀ (div_lt_div_of_pos_right hlt hw) (by positivity) (by norm_num)
  constructor <;> intro h <;> rw [gain_eq hc hn h hx, gain_eq hc hn h hy] <;> have hw := (map_facts hc h).1
  · exact key _ hw
  · have k := key _ hw
    have e1 := ideal_lp_hp hn hw (axis ag x)
    have e2 := ideal_lp_hp hn hw (axis ag y)
    linarith

/-! ## C168: the effect of the order -/

/-- **C168.** raising the order never lowers the gain inside the band and never raises it outside -/
theorem C168_order {csqrt : ℂ → ℂ} (hc : IsSqrt csqrt) (n m : Nat) (hn : 0 < n) (hnm : n ≤ m) (w : List ℝ) (btype : BType) (ag : Bool)
    (o o' : Output) (sr : SrArg) (g k : Zpk) (hg : design csqrt n w btype ag o sr = .ok g)
    (hk : design csqrt m w btype ag o' sr = .ok k) (x : ℝ) (hx : usable ag x) :
    (passes btype (freqs w sr) x → gain ag g x ≤ gain ag k x) ∧ (¬ passes btype (freqs w sr) x → gain ag k x ≤ gain ag g x) := by
  have hm : 0 < m := lt_of_lt_of_le hn hnm
  have b1 := (C167_band hc n hn w btype ag o sr g hg x hx).1
  rw [← b1, gain_eq hc hn hg hx, gain_eq hc hm hk hx]
  unfold ideal
  split
  · exact ⟨fun _ => le_refl _, fun _ => le_refl _⟩
  · rw [half_le hn]
    generalize ratio btype _ _ = r
    have h1 : ∀ j, 0 ≤ r ^ (2 * j) := fun j => by rw [pow_mul]; positivity
    constructor
    · intro hr
      have : r ^ (2 * m) ≤ r ^ (2 * n) := by
        rw [pow_mul, pow_mul]; exact pow_le_pow_of_le_one (sq_nonneg r) hr hnm
      unfold power; have := h1 m; exact one_div_le_one_div_of_le (by linarith) (by linarith)
    · intro hr
      have : r ^ (2 * n) ≤ r ^ (2 * m) := by
        rw [pow_mul, pow_mul]; exact pow_le_pow_right₀ (not_le.mp hr).le hnm
      unfold power; have := h1 n; exact one_div_le_one_div_of_le (by linarith) (by linarith)

/-- **C168.** as the order grows the filter tends to the ideal brick wall: gain one inside the band, zero outside, a half on the edges -/
theorem C168_limit {csqrt : ℂ → ℂ} (hc : IsSqrt csqrt) (w : List ℝ) (btype : BType) (ag : Bool) (o : Output) (sr : SrArg)
    (g : Nat → Zpk) (hg : ∀ n : Nat, 0 < n → design csqrt n w btype ag o sr = .ok (g n)) (x : ℝ) (hx : usable ag x) :
    (inside btype (freqs w sr) x → Tendsto (fun n => gain ag (g n) x) atTop (𝓝 1)) ∧
    (¬ passes btype (freqs w sr) x → Tendsto (fun n => gain ag (g n) x) atTop (𝓝 0)) ∧
    (passes btype (freqs w sr) x ∧ ¬ inside btype (freqs w sr) x → ∀ n, 0 < n → gain ag (g n) x = 1 / 2) := by
  obtain ⟨b1, b2⟩ := C167_band hc 1 one_pos w btype ag o sr (g 1) (hg 1 one_pos) x hx
  have hev : ∀ n, 0 < n → gain ag (g n) x = ideal n btype ((freqs w sr).map (axis ag)) (axis ag x) :=
    fun n hn => gain_eq hc hn (hg n hn) hx
  have hE : (fun n => gain ag (g n) x) =ᶠ[atTop] fun n => ideal n btype ((freqs w sr).map (axis ag)) (axis ag x) :=
    Filter.eventually_atTop.mpr ⟨1, fun n hn => hev n hn⟩
  rw [← b1, ← b2, hev 1 one_pos]
  by_cases hi : infinite btype ((freqs w sr).map (axis ag)) (axis ag x)
  · have hz : ∀ n, ideal n btype ((freqs w sr).map (axis ag)) (axis ag x) = 0 := fun n => if_pos hi
    rw [hz]
    refine ⟨fun h => by norm_num at h, fun _ => ?_, fun h => by norm_num at h⟩
    rw [tendsto_congr' hE]; simp only [hz]; exact tendsto_const_nhds
  · have hz : ∀ n, ideal n btype ((freqs w sr).map (axis ag)) (axis ag x) = power n (ratio btype ((freqs w sr).map (axis ag)) (axis ag x)) :=
      fun n => if_neg hi
    simp only [hz] at hE hev ⊢
    rw [half_le one_pos, half_lt one_pos]
    generalize ratio btype _ _ = r at *
    refine ⟨fun h => ?_, fun h => ?_, fun h n hn => ?_⟩
    · rw [tendsto_congr' hE]
      have := tendsto_pow_atTop_nhds_zero_of_lt_one (sq_nonneg r) h
      have h2 : Tendsto (fun n : ℕ => 1 / (1 + (r ^ 2) ^ n)) atTop (𝓝 (1 / (1 + 0))) :=
        tendsto_const_nhds.div (tendsto_const_nhds.add this) (by norm_num)
      simp only [power, pow_mul]
      simpa using h2
    · rw [tendsto_congr' hE]
      have := tendsto_pow_atTop_atTop_of_one_lt (not_le.mp h)
      have h2 : Tendsto (fun n : ℕ => (1 + (r ^ 2) ^ n)⁻¹) atTop (𝓝 0) :=
        (tendsto_atTop_add_const_left _ 1 this).inv_tendsto_atTop
      simp only [power, pow_mul, one_div]
      exact h2
    · rw [hev n hn, power_edge (le_antisymm h.1 (not_lt.mp h.2))]

/-- **C168.** roll-off: outside the band the gain of an analog low-pass filter of order `n` is below `(w₀/x)²ⁿ`, 20·n decibels per decade -/
theorem C168_rolloff {csqrt : ℂ → ℂ} (hc : IsSqrt csqrt) (n : Nat) (hn : 0 < n) (w : List ℝ) (o : Output) (sr : SrArg) (g : Zpk)
    (h : design csqrt n w .lp true o sr = .ok g) (x : ℝ) (hx : 0 < x) :
    gain true g x < (w.getD 0 0 / x) ^ (2 * n) ∧
    (w.getD 0 0 ≤ x → (w.getD 0 0 / x) ^ (2 * n) / 2 ≤ gain true g x) := by
  have hu : usable true x := ⟨hx.le, fun h => by simp at h⟩
  have hb := C167_band hc n hn w .lp true o sr g h _ hu
  have hw : freqs w sr = w := by
    obtain ⟨hv, -⟩ := (C101_accepts hc n w .lp true o sr).mp ⟨g, h⟩
    cases sr with
    | none => rfl
    | nonScalar => rfl
    | scalar y => exact absurd (hv.sr_digital y rfl) (by simp)
  have h0 := (edges hc h).2.1
  rw [gain_eq hc hn h hu]
  have e : (freqs w sr).map (axis true) = w := by rw [hw]; exact List.map_id w
  rw [hw] at h0
  rw [e]
  unfold ideal
  rw [if_neg (show ¬ infinite .lp w _ from fun h => h)]
  simp only [ratio, show axis true x = x from rfl]
  have e : (w.getD 0 0 / x) ^ (2 * n) = 1 / (x / w.getD 0 0) ^ (2 * n) := by rw [one_div, ← inv_pow, inv_div]
  rw [e]
  have hp : 0 < (x / w.getD 0 0) ^ (2 * n) := by positivity
  unfold power
  refine ⟨one_div_lt_one_div_of_lt hp (by linarith), fun hwx => ?_⟩
  have : 1 ≤ (x / w.getD 0 0) ^ (2 * n) := one_le_pow₀ ((one_le_div h0).mpr hwx)
  rw [div_div]
  exact one_div_le_one_div_of_le (by linarith) (by linarith)

/-- the hypotheses of C166–C168 are met: both filters of each complementary pair exist for ordinary arguments -/
theorem butter_laws_witness {csqrt : ℂ → ℂ} (hc : IsSqrt csqrt) :
    (∃ g k, design csqrt (4 : ℕ) [10] .lp false .zps (.scalar 100) = .ok g ∧ design csqrt (4 : ℕ) [10] .hp false .nd (.scalar 100) = .ok k) ∧
    (∃ g k, design csqrt (5 : ℕ) [100, 200] .bp true .zps .none = .ok g ∧ design csqrt (5 : ℕ) [100, 200] .bs true .nd .none = .ok k) ∧
    (∀ n : ℕ, ∃ g, design csqrt n [1 / 5] .lp false .zps .none = .ok g) := by
  have h1 : ∀ b : BType, b = .lp ∨ b = .hp → ∀ o : Output, o ≠ .other → Valid (4 : ℕ) [10] b false o (.scalar 100) := by
    intro b hb o ho
    refine ⟨by simp, by simp, ?_, ?_, by simp, ho, ⟨4, rfl⟩, by simp, ?_⟩
    · simp only [freqs]; norm_num
    · simp only [freqs]; norm_num
    · rcases hb with rfl | rfl <;> simp
  have h2 : ∀ b : BType, b = .bp ∨ b = .bs → ∀ o : Output, o ≠ .other → Valid (5 : ℕ) [100, 200] b true o .none := by
    intro b hb o ho
    refine ⟨by simp, by simp, ?_, by simp, ?_, ho, ⟨5, rfl⟩, ?_, by simp⟩
    · simp only [freqs]; norm_num
    · simp only [freqs]; norm_num
    · rcases hb with rfl | rfl <;> simp
  refine ⟨?_, ?_, fun n => ?_⟩
  · obtain ⟨g, hg⟩ := (C101_accepts hc (4 : ℕ) [10] .lp false .zps (.scalar 100)).mpr ⟨h1 _ (Or.inl rfl) _ (by simp), by simp⟩
    obtain ⟨k, hk⟩ := (C101_accepts hc (4 : ℕ) [10] .hp false .nd (.scalar 100)).mpr ⟨h1 _ (Or.inr rfl) _ (by simp), by simp⟩
    exact ⟨g, k, hg, hk⟩
  · obtain ⟨g, hg⟩ := (C101_accepts hc (5 : ℕ) [100, 200] .bp true .zps .none).mpr ⟨h2 _ (Or.inl rfl) _ (by simp), by simp⟩
    obtain ⟨k, hk⟩ := (C101_accepts hc (5 : ℕ) [100, 200] .bs true .nd .none).mpr ⟨h2 _ (Or.inr rfl) _ (by simp), by simp⟩
    exact ⟨g, k, hg, hk⟩
  · apply (C101_accepts hc n [1 / 5] .lp false .zps .none).mpr
    refine ⟨⟨by simp, by simp, ?_, ?_, by simp, by simp, ⟨n, rfl⟩, by simp, by simp⟩, by simp⟩
    · simp only [freqs]; norm_num
    · simp only [freqs]; norm_num

end

end Proadv
