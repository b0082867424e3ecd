import Verif.Props.ButterDesign

/-! # `butterworth`: stability, frequency response and argument validation (C99–C101) -/

namespace Proadv

open Proadv.Butter Complex Spec

set_option linter.unusedSectionVars false

noncomputable section

theorem Spec.Valid.pre {q : ℝ} {w : List ℝ} {btype : BType} {ag : Bool} {output : Output} {sr : SrArg}
    (h : Valid q w btype ag output sr) : Pre q w ag output sr :=
  ⟨h.sr_scalar, h.sr_digital, h.pos, h.below_nyquist, h.increasing, h.output_ok, h.order⟩

theorem tan_half_pos {v : ℝ} (h0 : 0 < v) (h1 : v < 1) : 0 < Real.tan (Real.pi * v / 2) := by
  have := Real.pi_pos
  exact Real.tan_pos_of_pos_of_lt_pi_div_two (by positivity) (by nlinarith)

theorem tan_half_lt {u v : ℝ} (h0 : 0 < u) (h1 : v < 1) (h : u < v) :
    Real.tan (Real.pi * u / 2) < Real.tan (Real.pi * v / 2) := by
  have := Real.pi_pos
  exact Real.tan_lt_tan_of_lt_of_lt_pi_div_two (by nlinarith) (by nlinarith) (by nlinarith)

theorem warped_getD {W : List ℝ} {i : Nat} (h : i < W.length) :
    (warped false W).getD i 0 = 4 * Real.tan (Real.pi * W.getD i 0 / 2) := by
  unfold warped
  rw [if_neg (by simp), List.getD_eq_getElem?_getD, List.getD_eq_getElem?_getD, List.getElem?_map, List.getElem?_eq_getElem h]
  simp; norm_num

theorem getD_mem {W : List ℝ} {i : Nat} (h : i < W.length) : W.getD i 0 ∈ W := by
  rw [List.getD_eq_getElem?_getD, List.getElem?_eq_getElem h]; exact List.getElem_mem _

theorem warped_facts {ag : Bool} {W : List ℝ} (hpos : ∀ v ∈ W, 0 < v) (hny : ag = false → ∀ v ∈ W, v < 1) :
    (∀ i, i < W.length → 0 < (warped ag W).getD i 0) ∧
    (1 < W.length → W.getD 0 0 < W.getD 1 0 → (warped ag W).getD 0 0 < (warped ag W).getD 1 0) := by
  cases ag with
  | true => exact ⟨fun i hi => hpos _ (getD_mem hi), fun _ h => h⟩
  | false =>
    refine ⟨fun i hi => ?_, fun hl h => ?_⟩
    · rw [warped_getD hi]
      have := tan_half_pos (hpos _ (getD_mem hi)) (hny rfl _ (getD_mem hi))
      linarith
    · rw [warped_getD (by omega), warped_getD hl]
      have := tan_half_lt (hpos _ (getD_mem (show 0 < W.length by omega))) (hny rfl _ (getD_mem hl)) h
      linarith

/-- the outcome of the design on acceptable arguments -/
theorem design_valid {csqrt : ℂ → ℂ} (hc : IsSqrt csqrt) {n : Nat} {w : List ℝ} {btype : BType} {ag : Bool} {output : Output}
    {sr : SrArg} (h : Valid n w btype ag output sr) (hb : btype ≠ .other) :
    ∃ f, Analog n btype (warped ag (freqs w sr)) f ∧
      design csqrt n w btype ag output sr = if ag then .ok f else bilinear f (.scalar 2) := by
  obtain ⟨hp, hlt⟩ := warped_facts h.pos h.below_nyquist
  rw [length_freqs] at hp hlt
  obtain ⟨f, hf, hA⟩ := transform_spec hc n w.length btype (warped ag (freqs w sr)) hb
    (fun hl => ⟨h.single hl, hp 0 (by rw [h.single hl]; exact Nat.one_pos)⟩)
    (fun hl => ⟨by rw [length_warped, length_freqs]; exact h.pair hl, hp 0 (by have := h.pair hl; omega),
      hlt (by have := h.pair hl; omega) (h.increasing (by have := h.pair hl; omega))⟩)
  refine ⟨f, hA, ?_⟩
  rw [design_pre csqrt btype n h.pre, hf]; rfl

theorem design_not_valid (csqrt : ℂ → ℂ) {q : ℝ} {w : List ℝ} {btype : BType} {ag : Bool} {output : Output} {sr : SrArg}
    (h : ¬ Valid q w btype ag output sr) : design csqrt q w btype ag output sr = .error .valueError := by
  by_cases hp : Pre q w ag output sr
  · obtain ⟨n, rfl⟩ := hp.order
    rw [design_pre csqrt btype n hp]
    have hbad : ((btype = .lp ∨ btype = .hp) ∧ w.length ≠ 1) ∨ ((btype = .bp ∨ btype = .bs) ∧ w.length < 2) := by
      by_contra hcon
      apply h
      refine ⟨hp.sr_scalar, hp.sr_digital, hp.pos, hp.below_nyquist, hp.increasing, hp.output_ok, hp.order, ?_, ?_⟩
      · intro hl; by_contra hc; exact hcon (Or.inl ⟨hl, hc⟩)
      · intro hl; by_contra hc; exact hcon (Or.inr ⟨hl, by omega⟩)
    have hlen : (warped ag (freqs w sr)).length = w.length := by rw [length_warped, length_freqs]
    have : transform csqrt (proto n) w.length btype (warped ag (freqs w sr)) = .error .valueError := by
      rcases hbad with ⟨hb | hb, hl⟩ | ⟨hb | hb, hl⟩ <;> subst hb
      · exact if_pos hl
      · exact if_pos hl
      · exact if_pos (by omega)
      · exact if_pos (by omega)
    rw [this]; rfl
  · exact design_not_pre csqrt btype hp

/-! ## C101 -/

/-- **C101.** everything unacceptable raises ValueError -/
theorem C101_value_error (csqrt : ℂ → ℂ) (q : ℝ) (w : List ℝ) (btype : BType) (ag : Bool) (output : Output) (sr : SrArg)
    (h : ¬ Valid q w btype ag output sr) : design csqrt q w btype ag output sr = .error .valueError :=
  design_not_valid csqrt h

/-- **C101.** an unknown type raises NotImplementedError, but only once all other checks pass -/
theorem C101_not_implemented (csqrt : ℂ → ℂ) (q : ℝ) (w : List ℝ) (ag : Bool) (output : Output) (sr : SrArg)
    (h : Valid q w .other ag output sr) : design csqrt q w .other ag output sr = .error .notImplementedError := by
  obtain ⟨n, rfl⟩ := h.order
  rw [design_pre csqrt .other n h.pre]; rfl

/-- **C101.** everything acceptable is designed -/
theorem C101_accepts {csqrt : ℂ → ℂ} (hc : IsSqrt csqrt) (q : ℝ) (w : List ℝ) (btype : BType) (ag : Bool) (output : Output)
    (sr : SrArg) : (∃ g, design csqrt q w btype ag output sr = .ok g) ↔ Valid q w btype ag output sr ∧ btype ≠ .other := by
  constructor
  · rintro ⟨g, hg⟩
    have hv : Valid q w btype ag output sr := by
      by_contra hv; rw [design_not_valid csqrt hv] at hg; cases hg
    refine ⟨hv, ?_⟩
    rintro rfl
    rw [C101_not_implemented csqrt q w ag output sr hv] at hg; cases hg
  · rintro ⟨hv, hb⟩
    obtain ⟨n, rfl⟩ := hv.order
    obtain ⟨f, hA, hd⟩ := design_valid hc hv hb
    rw [hd]
    cases ag with
    | true => exact ⟨f, rfl⟩
    | false =>
      obtain ⟨g, hg, -⟩ := bilinear_spec hA
      exact ⟨g, hg⟩

/-- **C101.** `butterworth` itself fails exactly as the design does, unless the second-order-section conversion fails -/
theorem C101_butterworth (csqrt : ℂ → ℂ) (toSop : Zpk → Bool → Py (List (List ℂ))) (q : ℝ) (w : List ℝ) (btype : BType) (ag : Bool)
    (output : Output) (sr : SrArg) :
    (∀ e, design csqrt q w btype ag output sr = .error e → butterworth csqrt toSop q w btype ag output sr = .error e) ∧
    (∀ g, design csqrt q w btype ag output sr = .ok g →
      (output = .zps → butterworth csqrt toSop q w btype ag output sr = .ok (.zps g)) ∧
      (output = .nd → ∃ a b, butterworth csqrt toSop q w btype ag output sr = .ok (.nd a b) ∧
        ∀ s, evalHi a s / evalHi b s = H g s)) := by
  refine ⟨fun e he => ?_, fun g hg => ⟨fun ho => ?_, fun ho => ?_⟩⟩
  · unfold butterworth; rw [he]; rfl
  · unfold butterworth; rw [hg, ho]; rfl
  · refine ⟨(xyzToPtf g).1, (xyzToPtf g).2, ?_, C102_transfer g⟩
    unfold butterworth; rw [hg, ho]; rfl

/-- **C101.** only the first two of three or more band edges are used -/
theorem C101_extra_edges_ignored (csqrt : ℂ → ℂ) (n : Nat) (a b c : ℝ) (output : Output) (ho : output ≠ .other)
    (ha : 0 < a) (hb : a < b) (hc : 0 < c) (btype : BType) (ht : btype = .bp ∨ btype = .bs) :
    design csqrt n [a, b, c] btype true output .none = design csqrt n [a, b] btype true output .none := by
  have hb0 : 0 < b := ha.trans hb
  have p1 : Pre n [a, b, c] true output .none := ⟨by simp, by simp, by simp [freqs, ha, hb0, hc], by simp, by simp [freqs, hb], ho, n, rfl⟩
  have p2 : Pre n [a, b] true output .none := ⟨by simp, by simp, by simp [freqs, ha, hb0], by simp, by simp [freqs, hb], ho, n, rfl⟩
  rw [design_pre csqrt btype n p1, design_pre csqrt btype n p2]
  rcases ht with rfl | rfl <;> rfl

/-! ## C99 -/

/-- **C99.** stability of every filter `butterworth` returns -/
theorem C99_stable {csqrt : ℂ → ℂ} (hc : IsSqrt csqrt) (q : ℝ) (w : List ℝ) (btype : BType) (ag : Bool) (output : Output)
    (sr : SrArg) (g : Zpk) (h : design csqrt q w btype ag output sr = .ok g) :
    (ag = true → ∀ p ∈ g.p, p.re < 0) ∧ (ag = false → ∀ p ∈ g.p, ‖p‖ < 1) := by
  obtain ⟨hv, hb⟩ := (C101_accepts hc q w btype ag output sr).mp ⟨g, h⟩
  obtain ⟨n, rfl⟩ := hv.order
  obtain ⟨f, hA, hd⟩ := design_valid hc hv hb
  rw [h] at hd
  cases ag with
  | true =>
    have e : g = f := Except.ok.inj hd
    exact ⟨fun _ => e ▸ hA.left, fun hh => by simp at hh⟩
  | false =>
    obtain ⟨g', hg, hs, -⟩ := bilinear_spec hA
    have e : g = g' := by
      have : Except.ok g = bilinear f (.scalar 2) := hd
      rw [hg] at this; exact Except.ok.inj this
    exact ⟨fun hh => by simp at hh, fun _ => e ▸ hs⟩

/-- **C99.** zeros and poles of every returned filter come in conjugate pairs, so all `nd` coefficients are real -/
theorem C99_real {csqrt : ℂ → ℂ} (hc : IsSqrt csqrt) (q : ℝ) (w : List ℝ) (btype : BType) (ag : Bool) (output : Output)
    (sr : SrArg) (g : Zpk) (h : design csqrt q w btype ag output sr = .ok g) :
    ConjClosed g.z ∧ ConjClosed g.p ∧ (∀ c ∈ (xyzToPtf g).1, c.im = 0) ∧ (∀ c ∈ (xyzToPtf g).2, c.im = 0) := by
  suffices hh : ConjClosed g.z ∧ ConjClosed g.p from
    ⟨hh.1, hh.2, (C102_shape g).2.2.1 hh.1, (C102_shape g).2.2.2 hh.2⟩
  obtain ⟨hv, hb⟩ := (C101_accepts hc q w btype ag output sr).mp ⟨g, h⟩
  obtain ⟨n, rfl⟩ := hv.order
  obtain ⟨f, hA, hd⟩ := design_valid hc hv hb
  rw [h] at hd
  cases ag with
  | true =>
    have e : g = f := Except.ok.inj hd
    exact ⟨e ▸ hA.closedZ, e ▸ hA.closedP⟩
  | false =>
    obtain ⟨g', hg, -, h1, h2, -⟩ := bilinear_spec hA
    have e : g = g' := by
      have : Except.ok g = bilinear f (.scalar 2) := hd
      rw [hg] at this; exact Except.ok.inj this
    exact ⟨e ▸ h1, e ▸ h2⟩

/-! ## C100 -/

namespace Spec

/-- normalised frequency of each filter type; `ws` are the edge frequencies -/
def ratio (btype : BType) (ws : List ℝ) (x : ℝ) : ℝ :=
  match btype with
  | .lp => x / ws.getD 0 0
  | .hp => ws.getD 0 0 / x
  | .bp => (x ^ 2 - ws.getD 0 0 * ws.getD 1 0) / ((ws.getD 1 0 - ws.getD 0 0) * x)
  | .bs => (ws.getD 1 0 - ws.getD 0 0) * x / (ws.getD 0 0 * ws.getD 1 0 - x ^ 2)
  | .other => x

/-- frequencies where the normalised frequency is infinite -/
def infinite (btype : BType) (ws : List ℝ) (x : ℝ) : Prop :=
  match btype with
  | .lp => False
  | .hp => x = 0
  | .bp => x = 0
  | .bs => x ^ 2 = ws.getD 0 0 * ws.getD 1 0
  | .other => False

/-- squared magnitude of an ideal Butterworth filter of order `n` -/
def power (n : Nat) (r : ℝ) : ℝ := 1 / (1 + r ^ (2 * n))

end Spec

theorem infinite_iff {btype : BType} {d : List ℝ} {x : ℝ} (hb : btype ≠ .other) : infinite btype d x ↔ ¬ adm btype d (I * x) := by
  have hbs : (I * (x : ℂ)) ^ 2 + ((d.getD 0 0 * d.getD 1 0 : ℝ) : ℂ) = ((d.getD 0 0 * d.getD 1 0 - x ^ 2 : ℝ) : ℂ) := by
    rw [mul_pow, I_sq]; push_cast; ring
  cases btype with
  | lp => simp [infinite, adm]
  | hp => simp [infinite, adm]
  | bp => simp [infinite, adm]
  | bs =>
    simp only [infinite, adm, not_not]
    rw [hbs, Complex.ofReal_eq_zero, sub_eq_zero, eq_comm]
  | other => exact absurd rfl hb

theorem subst_imag {btype : BType} {d : List ℝ} {x : ℝ} (hb : btype ≠ .other) :
    ∃ r : ℝ, subst btype d (I * x) = I * r ∧ r ^ 2 = ratio btype d x ^ 2 := by
  have hII : I * I = -1 := I_mul_I
  cases btype with
  | lp => exact ⟨x / d.getD 0 0, by simp only [subst]; push_cast; ring, rfl⟩
  | hp =>
    refine ⟨-(d.getD 0 0 / x), ?_, by simp only [ratio]; ring⟩
    simp only [subst]
    push_cast
    rw [div_mul_eq_div_div, div_eq_mul_inv (_ : ℂ) I, Complex.inv_I]; ring
  | bp =>
    refine ⟨(x ^ 2 - d.getD 0 0 * d.getD 1 0) / ((d.getD 1 0 - d.getD 0 0) * x), ?_, rfl⟩
    simp only [subst]
    rw [mul_pow, I_sq]
    push_cast
    rw [mul_left_comm, div_mul_eq_div_div_swap, div_eq_mul_inv _ I, Complex.inv_I]
    ring
  | bs =>
    refine ⟨(d.getD 1 0 - d.getD 0 0) * x / (d.getD 0 0 * d.getD 1 0 - x ^ 2), ?_, rfl⟩
    simp only [subst]
    rw [mul_pow, I_sq]
    push_cast
    ring
  | other => exact absurd rfl hb

theorem analog_power {n : Nat} (hn : 0 < n) {btype : BType} (hb : btype ≠ .other) {d : List ℝ} {f : Zpk} (h : Analog n btype d f)
    (x : ℝ) : (¬ infinite btype d x → ‖H f (I * x)‖ ^ 2 = power n (ratio btype d x)) ∧ (infinite btype d x → H f (I * x) = 0) := by
  constructor
  · intro hx
    have ha : adm btype d (I * x) := by
      by_contra hc; exact hx ((infinite_iff hb).mpr hc)
    obtain ⟨r, hr, hsq⟩ := subst_imag (d := d) (x := x) hb
    obtain ⟨f', hf', hp⟩ := C98_max_flat n hn
    rw [buttap_nat] at hf'
    have e : f' = proto n := (Except.ok.inj hf').symm
    rw [h.transfer _ ha, hr, ← e, hp, power, pow_mul, hsq, ← pow_mul]
  · intro hx
    exact h.blocked hn _ ((infinite_iff hb).mp hx)

/-- the unit circle is the warped imaginary axis -/
theorem circle_axis {x : ℝ} (h0 : -1 < x) (h1 : x < 1) :
    Complex.exp (I * (Real.pi * x : ℝ)) ≠ -1 ∧
    4 * (Complex.exp (I * (Real.pi * x : ℝ)) - 1) / (Complex.exp (I * (Real.pi * x : ℝ)) + 1)
      = I * ((4 * Real.tan (Real.pi * x / 2) : ℝ) : ℂ) := by
  have hpi := Real.pi_pos
  set a : ℝ := Real.pi * x / 2 with ha
  have hcos : 0 < Real.cos a := Real.cos_pos_of_mem_Ioo ⟨by rw [ha]; nlinarith, by rw [ha]; nlinarith⟩
  have hE : Complex.exp (I * (Real.pi * x : ℝ)) = ((Real.cos a : ℂ) + Real.sin a * I) ^ 2 := by
    have : I * ((Real.pi * x : ℝ) : ℂ) = (2 : ℕ) * ((a : ℂ) * I) := by rw [ha]; push_cast; ring
    rw [this, Complex.exp_nat_mul, Complex.exp_mul_I, ← Complex.ofReal_cos, ← Complex.ofReal_sin]
  have hcs : (Real.cos a : ℂ) ^ 2 + (Real.sin a : ℂ) ^ 2 = 1 := by
    have := Real.cos_sq_add_sin_sq a
    exact_mod_cast this
  have hc0 : (Real.cos a : ℂ) ≠ 0 := by exact_mod_cast hcos.ne'
  have hu : (Real.cos a : ℂ) + Real.sin a * I ≠ 0 := by
    intro h
    have := congrArg Complex.re h
    simp only [Complex.add_re, Complex.ofReal_re, Complex.mul_re, Complex.I_re, mul_zero, Complex.ofReal_im, Complex.I_im, mul_one,
      sub_self, add_zero, Complex.zero_re] at this
    exact hcos.ne' this
  have hplus : Complex.exp (I * (Real.pi * x : ℝ)) + 1 = 2 * Real.cos a * (Real.cos a + Real.sin a * I) := by
    rw [hE]; linear_combination (Real.sin a : ℂ) ^ 2 * I_sq - hcs
  have hminus : Complex.exp (I * (Real.pi * x : ℝ)) - 1 = 2 * I * Real.sin a * (Real.cos a + Real.sin a * I) := by
    rw [hE]; linear_combination (-(Real.sin a : ℂ) ^ 2) * I_sq + hcs
  constructor
  · intro h
    have : Complex.exp (I * (Real.pi * x : ℝ)) + 1 = 0 := by rw [h]; ring
    rw [hplus] at this
    exact mul_ne_zero (mul_ne_zero two_ne_zero hc0) hu this
  · rw [hplus, hminus, Real.tan_eq_sin_div_cos, Complex.ofReal_mul, Complex.ofReal_div, Complex.ofReal_ofNat]
    rw [div_eq_iff (mul_ne_zero (mul_ne_zero two_ne_zero hc0) hu)]
    have : (Real.sin a : ℂ) / Real.cos a * Real.cos a = Real.sin a := div_mul_cancel₀ _ hc0
    linear_combination (-8 * I * ((Real.cos a : ℂ) + Real.sin a * I)) * this

theorem ratio_scale (btype : BType) (hb : btype ≠ .other) (W : List ℝ) (x : ℝ)
    (hl : (btype = .lp ∨ btype = .hp → W.length = 1) ∧ (btype = .bp ∨ btype = .bs → 2 ≤ W.length)) :
    ratio btype (warped false W) (4 * x) = ratio btype (W.map (fun v => Real.tan (Real.pi * v / 2))) x ∧
    (infinite btype (warped false W) (4 * x) ↔ infinite btype (W.map (fun v => Real.tan (Real.pi * v / 2))) x) := by
  have hmap : ∀ i, i < W.length → (W.map (fun v => Real.tan (Real.pi * v / 2))).getD i 0 = Real.tan (Real.pi * W.getD i 0 / 2) := by
    intro i hi
    rw [List.getD_eq_getElem?_getD, List.getD_eq_getElem?_getD, List.getElem?_map, List.getElem?_eq_getElem hi]; rfl
  cases btype with
  | lp =>
    have := hl.1 (Or.inl rfl)
    simp only [ratio, infinite, and_true]
    rw [warped_getD (by omega), hmap 0 (by omega), mul_div_mul_left _ _ (by norm_num)]
  | hp =>
    have := hl.1 (Or.inr rfl)
    simp only [ratio, infinite]
    rw [warped_getD (by omega), hmap 0 (by omega), mul_div_mul_left _ _ (by norm_num)]
    exact ⟨rfl, by simp⟩
  | bp =>
    have := hl.2 (Or.inl rfl)
    simp only [ratio, infinite]
    rw [warped_getD (show 0 < W.length by omega), warped_getD (show 1 < W.length by omega), hmap 0 (by omega), hmap 1 (by omega)]
    generalize Real.tan (Real.pi * W.getD 0 0 / 2) = a
    generalize Real.tan (Real.pi * W.getD 1 0 / 2) = b
    refine ⟨?_, by simp⟩
    have e1 : (4 * x) ^ 2 - 4 * a * (4 * b) = 16 * (x ^ 2 - a * b) := by ring
    have e2 : (4 * b - 4 * a) * (4 * x) = 16 * ((b - a) * x) := by ring
    rw [e1, e2, mul_div_mul_left _ _ (by norm_num)]
  | bs =>
    have := hl.2 (Or.inr rfl)
    simp only [ratio, infinite]
    rw [warped_getD (show 0 < W.length by omega), warped_getD (show 1 < W.length by omega), hmap 0 (by omega), hmap 1 (by omega)]
    generalize Real.tan (Real.pi * W.getD 0 0 / 2) = a
    generalize Real.tan (Real.pi * W.getD 1 0 / 2) = b
    refine ⟨?_, ⟨fun h => by linarith, fun h => by linarith⟩⟩
    have e1 : 4 * a * (4 * b) - (4 * x) ^ 2 = 16 * (a * b - x ^ 2) := by ring
    have e2 : (4 * b - 4 * a) * (4 * x) = 16 * ((b - a) * x) := by ring
    rw [e1, e2, mul_div_mul_left _ _ (by norm_num)]
  | other => exact absurd rfl hb

/-- **C100.** exact squared magnitude of every analog filter returned, at every frequency `x` -/
theorem C100_analog {csqrt : ℂ → ℂ} (hc : IsSqrt csqrt) (n : Nat) (hn : 0 < n) (w : List ℝ) (btype : BType) (output : Output)
    (sr : SrArg) (g : Zpk) (h : design csqrt n w btype true output sr = .ok g) (x : ℝ) :
    (¬ infinite btype w x → ‖H g (I * x)‖ ^ 2 = power n (ratio btype w x)) ∧ (infinite btype w x → H g (I * x) = 0) := by
  obtain ⟨hv, hb⟩ := (C101_accepts hc n w btype true output sr).mp ⟨g, h⟩
  obtain ⟨f, hA, hd⟩ := design_valid hc hv hb
  rw [h] at hd
  have e : g = f := Except.ok.inj hd
  have hw : warped true (freqs w sr) = w := by
    cases sr with
    | none => rfl
    | nonScalar => rfl
    | scalar y => exact absurd (hv.sr_digital y rfl) (by simp)
  rw [hw] at hA
  rw [e]; exact analog_power hn hb hA x

/-- **C100.** exact squared magnitude of every digital filter returned: at `x` times the Nyquist frequency, `|x| < 1` -/
theorem C100_digital {csqrt : ℂ → ℂ} (hc : IsSqrt csqrt) (n : Nat) (hn : 0 < n) (w : List ℝ) (btype : BType) (output : Output)
    (sr : SrArg) (g : Zpk) (h : design csqrt n w btype false output sr = .ok g) (x : ℝ) (h0 : -1 < x) (h1 : x < 1) :
    (¬ infinite btype ((freqs w sr).map fun v => Real.tan (Real.pi * v / 2)) (Real.tan (Real.pi * x / 2)) →
      ‖H g (Complex.exp (I * (Real.pi * x : ℝ)))‖ ^ 2
        = power n (ratio btype ((freqs w sr).map fun v => Real.tan (Real.pi * v / 2)) (Real.tan (Real.pi * x / 2)))) ∧
    (infinite btype ((freqs w sr).map fun v => Real.tan (Real.pi * v / 2)) (Real.tan (Real.pi * x / 2)) →
      H g (Complex.exp (I * (Real.pi * x : ℝ))) = 0) := by
  obtain ⟨hv, hb⟩ := (C101_accepts hc n w btype false output sr).mp ⟨g, h⟩
  obtain ⟨f, hA, hd⟩ := design_valid hc hv hb
  rw [h] at hd
  obtain ⟨g', hg, -, -, -, hH, -⟩ := bilinear_spec hA
  have e : g = g' := by
    have : Except.ok g = bilinear f (.scalar 2) := hd
    rw [hg] at this; exact Except.ok.inj this
  obtain ⟨hne, hax⟩ := circle_axis h0 h1
  rw [e, hH _ hne, hax]
  have hl : (btype = .lp ∨ btype = .hp → (freqs w sr).length = 1) ∧ (btype = .bp ∨ btype = .bs → 2 ≤ (freqs w sr).length) := by
    rw [length_freqs]; exact ⟨hv.single, hv.pair⟩
  obtain ⟨hr, hi⟩ := ratio_scale btype hb (freqs w sr) (Real.tan (Real.pi * x / 2)) hl
  have := analog_power hn hb hA (4 * Real.tan (Real.pi * x / 2))
  rw [hr, hi] at this
  exact this

/-- **C100.** gain at frequency 0 and at the Nyquist frequency of every digital filter returned -/
theorem C100_ends {csqrt : ℂ → ℂ} (hc : IsSqrt csqrt) (n : Nat) (hn : 0 < n) (w : List ℝ) (btype : BType) (output : Output)
    (sr : SrArg) (g : Zpk) (h : design csqrt n w btype false output sr = .ok g) :
    (btype = .lp → H g 1 = 1 ∧ H g (-1) = 0) ∧ (btype = .hp → H g 1 = 0 ∧ H g (-1) = 1) ∧
    (btype = .bp → H g 1 = 0 ∧ H g (-1) = 0) ∧ (btype = .bs → H g 1 = 1 ∧ H g (-1) = 1) := by
  obtain ⟨hv, hb⟩ := (C101_accepts hc n w btype false output sr).mp ⟨g, h⟩
  obtain ⟨f, hA, hd⟩ := design_valid hc hv hb
  rw [h] at hd
  obtain ⟨g', hg, -, -, -, hH, hlt, heq⟩ := bilinear_spec hA
  have e : g = g' := by
    have : Except.ok g = bilinear f (.scalar 2) := hd
    rw [hg] at this; exact Except.ok.inj this
  have h1 : H g 1 = H f 0 := by
    rw [e, hH 1 (by norm_num)]; norm_num
  obtain ⟨hi1, hi2⟩ := hA.infinity hn
  refine ⟨?_, ?_, ?_, ?_⟩ <;> rintro rfl
  · refine ⟨?_, by rw [e]; exact hlt (hi1 (Or.inl rfl))⟩
    rw [h1, hA.transfer 0 trivial]
    simp only [subst, zero_div]; exact proto_zero hn
  · obtain ⟨h3, h4⟩ := hi2 (Or.inl rfl)
    refine ⟨?_, by rw [e, heq h3, h4]; simp⟩
    rw [h1]; exact hA.blocked hn 0 (by simp [adm])
  · refine ⟨?_, by rw [e]; exact hlt (hi1 (Or.inr rfl))⟩
    rw [h1]; exact hA.blocked hn 0 (by simp [adm])
  · obtain ⟨h3, h4⟩ := hi2 (Or.inr rfl)
    refine ⟨?_, by rw [e, heq h3, h4]; simp⟩
    have hp := (warped_facts hv.pos hv.below_nyquist).1
    rw [length_freqs] at hp
    have h2 := hv.pair (Or.inr rfl)
    have hne : ((warped false (freqs w sr)).getD 0 0 * (warped false (freqs w sr)).getD 1 0 : ℝ) ≠ 0 :=
      (mul_pos (hp 0 (by omega)) (hp 1 (by omega))).ne'
    rw [h1, hA.transfer 0 (by simp only [adm]; simpa using hne)]
    simp only [subst, mul_zero, zero_div]; exact proto_zero hn

theorem power_edge {n : Nat} {r : ℝ} (h : r ^ 2 = 1) : power n r = 1 / 2 := by
  rw [power, pow_mul, h, one_pow]; norm_num

theorem edge_ratio {btype : BType} (hb : btype ≠ .other) {ws : List ℝ} (h0 : 0 < ws.getD 0 0)
    (h2 : btype = .bp ∨ btype = .bs → ws.getD 0 0 < ws.getD 1 0) :
    (¬ infinite btype ws (ws.getD 0 0) ∧ ratio btype ws (ws.getD 0 0) ^ 2 = 1) ∧
    (btype = .bp ∨ btype = .bs → ¬ infinite btype ws (ws.getD 1 0) ∧ ratio btype ws (ws.getD 1 0) ^ 2 = 1) := by
  cases btype with
  | other => exact absurd rfl hb
  | lp =>
    simp only [infinite, ratio]
    rw [div_self h0.ne']; simp
  | hp =>
    simp only [infinite, ratio]
    rw [div_self h0.ne']
    exact ⟨⟨h0.ne', one_pow 2⟩, fun h => by simp at h⟩
  | bp =>
    have h := h2 (Or.inl rfl)
    simp only [infinite, ratio]
    generalize ws.getD 0 0 = a at *
    generalize ws.getD 1 0 = b at *
    have hba : b - a ≠ 0 := sub_ne_zero.mpr h.ne'
    have hb0 : b ≠ 0 := (h0.trans h).ne'
    refine ⟨⟨h0.ne', ?_⟩, fun _ => ⟨hb0, ?_⟩⟩
    · have : (a ^ 2 - a * b) / ((b - a) * a) = -1 := by
        rw [div_eq_iff (mul_ne_zero hba h0.ne')]; ring
      rw [this]; norm_num
    · have : (b ^ 2 - a * b) / ((b - a) * b) = 1 := by
        rw [div_eq_iff (mul_ne_zero hba hb0)]; ring
      rw [this]; norm_num
  | bs =>
    have h := h2 (Or.inr rfl)
    simp only [infinite, ratio]
    generalize ws.getD 0 0 = a at *
    generalize ws.getD 1 0 = b at *
    have hba : 0 < b - a := sub_pos.mpr h
    have hb0 : 0 < b := h0.trans h
    have e1 : 0 < a * (b - a) := mul_pos h0 hba
    have e2 : 0 < b * (b - a) := mul_pos hb0 hba
    refine ⟨⟨by intro hh; nlinarith, ?_⟩, fun _ => ⟨by intro hh; nlinarith, ?_⟩⟩
    · have : (b - a) * a / (a * b - a ^ 2) = 1 := by
        rw [div_eq_iff (by nlinarith)]; ring
      rw [this]; norm_num
    · have : (b - a) * b / (a * b - b ^ 2) = -1 := by
        rw [div_eq_iff (by nlinarith)]; ring
      rw [this]; norm_num

/-- **C100.** every critical frequency of a returned analog filter is a half-power frequency -/
theorem C100_half_power_analog {csqrt : ℂ → ℂ} (hc : IsSqrt csqrt) (n : Nat) (hn : 0 < n) (w : List ℝ) (btype : BType)
    (output : Output) (sr : SrArg) (g : Zpk) (h : design csqrt n w btype true output sr = .ok g) :
    ‖H g (I * (w.getD 0 0 : ℝ))‖ ^ 2 = 1 / 2 ∧ (btype = .bp ∨ btype = .bs → ‖H g (I * (w.getD 1 0 : ℝ))‖ ^ 2 = 1 / 2) := by
  obtain ⟨hv, hb⟩ := (C101_accepts hc n w btype true output sr).mp ⟨g, h⟩
  have hw : freqs w sr = w := by
    cases sr with
    | none => rfl
    | nonScalar => rfl
    | scalar y => exact absurd (hv.sr_digital y rfl) (by simp)
  have hlen : 0 < w.length := by
    have h1 := hv.single; have h2 := hv.pair
    cases btype <;> simp at h1 h2 hb <;> omega
  have hpos := hv.pos
  have hinc := hv.increasing
  rw [hw] at hpos hinc
  obtain ⟨⟨ha, hra⟩, hB⟩ := edge_ratio hb (ws := w) (hpos _ (getD_mem hlen)) (fun h2 => hinc (by have := hv.pair h2; omega))
  refine ⟨?_, fun h2 => ?_⟩
  · rw [(C100_analog hc n hn w btype output sr g h _).1 ha, power_edge hra]
  · obtain ⟨hb', hrb⟩ := hB h2
    rw [(C100_analog hc n hn w btype output sr g h _).1 hb', power_edge hrb]

/-- **C100.** every critical frequency of a returned digital filter is a half-power frequency -/
theorem C100_half_power {csqrt : ℂ → ℂ} (hc : IsSqrt csqrt) (n : Nat) (hn : 0 < n) (w : List ℝ) (btype : BType)
    (output : Output) (sr : SrArg) (g : Zpk) (h : design csqrt n w btype false output sr = .ok g) :
    ‖H g (Complex.exp (I * (Real.pi * (freqs w sr).getD 0 0 : ℝ)))‖ ^ 2 = 1 / 2 ∧
    (btype = .bp ∨ btype = .bs → ‖H g (Complex.exp (I * (Real.pi * (freqs w sr).getD 1 0 : ℝ)))‖ ^ 2 = 1 / 2) := by
  obtain ⟨hv, hb⟩ := (C101_accepts hc n w btype false output sr).mp ⟨g, h⟩
  have hlen : 0 < (freqs w sr).length := by
    rw [length_freqs]
    have h1 := hv.single; have h2 := hv.pair
    cases btype <;> simp at h1 h2 hb <;> omega
  have hl2 : btype = .bp ∨ btype = .bs → 1 < (freqs w sr).length := fun h2 => by
    rw [length_freqs]; have := hv.pair h2; omega
  have hmap : ∀ i, i < (freqs w sr).length →
      ((freqs w sr).map (fun v => Real.tan (Real.pi * v / 2))).getD i 0 = Real.tan (Real.pi * (freqs w sr).getD i 0 / 2) := by
    intro i hi
    rw [List.getD_eq_getElem?_getD, List.getD_eq_getElem?_getD, List.getElem?_map, List.getElem?_eq_getElem hi]; rfl
  have hp := hv.pos
  have hny := hv.below_nyquist rfl
  obtain ⟨⟨ha, hra⟩, hB⟩ := edge_ratio hb (ws := (freqs w sr).map (fun v => Real.tan (Real.pi * v / 2)))
    (by rw [hmap 0 hlen]; exact tan_half_pos (hp _ (getD_mem hlen)) (hny _ (getD_mem hlen)))
    (fun h2 => by
      have h1 := hl2 h2
      rw [hmap 0 hlen, hmap 1 h1]
      exact tan_half_lt (hp _ (getD_mem hlen)) (hny _ (getD_mem h1)) (hv.increasing (by rw [← length_freqs w sr]; exact h1)))
  refine ⟨?_, fun h2 => ?_⟩
  · rw [hmap 0 hlen] at ha hra
    have b1 := hp _ (getD_mem hlen); have b2 := hny _ (getD_mem hlen)
    rw [(C100_digital hc n hn w btype output sr g h _ (by linarith) b2).1 ha, power_edge hra]
  · obtain ⟨hb', hrb⟩ := hB h2
    have hl1 := hl2 h2
    rw [hmap 1 hl1] at hb' hrb
    have b1 := hp _ (getD_mem hl1); have b2 := hny _ (getD_mem hl1)
    rw [(C100_digital hc n hn w btype output sr g h _ (by linarith) b2).1 hb', power_edge hrb]

/-! ## Concrete cases -/

/-- the hypotheses of C99–C101 hold for ordinary calls of all four types, digital with a sampling rate and analog -/
theorem butter_witness : Valid 4 [10] .lp false .zps (.scalar 100) ∧ Valid 3 [1 / 5] .hp false .nd .none ∧
    Valid 2 [1 / 5, 1 / 2] .bp false .zps .none ∧ Valid 5 [100, 200] .bs true .zps .none ∧
    ¬ Valid 2 [1 / 2, 1 / 5] .bp false .zps .none ∧ ¬ Valid (5 / 2) [1 / 5] .lp false .zps .none ∧
    ¬ Valid 4 [60] .lp false .zps (.scalar 100) := by
  refine ⟨⟨by simp, by simp, ?_, ?_, by simp, by simp, ⟨4, by norm_num⟩, by simp, by simp⟩,
    ⟨by simp, by simp, ?_, ?_, by simp, by simp, ⟨3, by norm_num⟩, by simp, by simp⟩,
    ⟨by simp, by simp, ?_, ?_, ?_, by simp, ⟨2, by norm_num⟩, by simp, by simp⟩,
    ⟨by simp, by simp, ?_, ?_, ?_, by simp, ⟨5, by norm_num⟩, by simp, by simp⟩, ?_, ?_, ?_⟩
  all_goals try (simp only [freqs]; norm_num)
  · intro h; have := h.increasing (by simp); norm_num [freqs] at this
  · intro h
    obtain ⟨n, hn⟩ := h.order
    have h2 : ((5 : ℕ) : ℝ) = ((2 * n : ℕ) : ℝ) := by push_cast; linarith
    have := Nat.cast_injective h2
    omega
  · intro h; have := h.below_nyquist rfl (6 / 5) (by norm_num [freqs]); norm_num at this

end

end Proadv
