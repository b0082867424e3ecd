import Verif.Props.ButterMain

/-! # `butterworth`: frequency units, spectral inversion and frequency scaling (C191–C193) -/

set_option linter.unusedSectionVars false

namespace Proadv

open Proadv.Butter Complex Spec

noncomputable section

/-! ## C191: units -/

/-- **C191.** only frequencies relative to the sampling rate matter: rescaling both leaves the result (or the exception) unchanged -/
theorem C191_units (csqrt : ℂ → ℂ) (toSop : Zpk → Bool → Py (List (List ℂ))) (q : ℝ) (w : List ℝ) (btype : BType) (ag : Bool)
    (output : Output) (x c : ℝ) (hc : c ≠ 0) :
    butterworth csqrt toSop q (w.map (fun v => c * v)) btype ag output (.scalar (c * x)) =
      butterworth csqrt toSop q w btype ag output (.scalar x) := by
  have hd : design csqrt q (w.map (fun v => c * v)) btype ag output (.scalar (c * x)) = design csqrt q w btype ag output (.scalar x) := by
    have e : (w.map (fun v => c * v)).map (fun v => 2 * v / (c * x)) = w.map (fun v => 2 * v / x) := by
      rw [List.map_map]
      apply List.map_congr_left
      intro v _
      simp only [Function.comp]
      rw [show 2 * (c * v) = c * (2 * v) by ring, mul_div_mul_left _ _ hc]
    unfold design validG
    simp only [bind, Except.bind, e, Option.isSome_some]
  unfold butterworth
  rw [hd]

/-- **C191.** without a sampling rate a digital filter is designed as for the rate 2: frequencies are fractions of the Nyquist frequency -/
theorem C191_default_rate (csqrt : ℂ → ℂ) (toSop : Zpk → Bool → Py (List (List ℂ))) (q : ℝ) (w : List ℝ) (btype : BType)
    (output : Output) : butterworth csqrt toSop q w btype false output .none = butterworth csqrt toSop q w btype false output (.scalar 2) := by
  have hd : design csqrt q w btype false output .none = design csqrt q w btype false output (.scalar 2) := by
    have e : w.map (fun v => 2 * v / 2) = w := by
      conv_rhs => rw [← List.map_id w]
      apply List.map_congr_left
      intro v _
      simp
    unfold design validG
    simp only [bind, Except.bind, e, Option.isSome_none, Option.isSome_some, Bool.and_false, if_true]
  unfold butterworth
  rw [hd]

/-- a case the law speaks about: 5 Hz of 100 Hz is 0.05 Hz of 1 Hz, and both are designed -/
example {csqrt : ℂ → ℂ} (hc : IsSqrt csqrt) : ∃ g, design csqrt (3 : ℕ) [5] .lp false .zps (.scalar 100) = .ok g := by
  refine (C101_accepts hc _ _ _ _ _ _).mpr ⟨⟨by simp, by simp, by simp [freqs], by simp [freqs]; norm_num, by simp,
    by simp, ⟨3, rfl⟩, by simp, by simp⟩, by simp⟩

/-! ## C192: spectral inversion -/

namespace Spec

/-- the filter type with pass and stop bands reflected about half the Nyquist frequency -/
def mirrorType : BType → BType
  | .lp => .hp
  | .hp => .lp
  | b => b

/-- the reflected edges -/
def mirrorEdges (w : List ℝ) : List ℝ := (w.map (fun v => 1 - v)).reverse

end Spec

theorem tan_mirror (v : ℝ) : Real.tan (Real.pi * (1 - v) / 2) = (Real.tan (Real.pi * v / 2))⁻¹ := by
  rw [show Real.pi * (1 - v) / 2 = Real.pi / 2 - Real.pi * v / 2 by ring, Real.tan_pi_div_two_sub]

private theorem digital_transfer {csqrt : ℂ → ℂ} (hc : IsSqrt csqrt) {n : Nat} {w : List ℝ} {btype : BType} {output : Output} {g : Zpk}
    (h : design csqrt n w btype false output .none = .ok g) {ζ : ℂ} (hζ : ζ ≠ -1) (hn : 0 < n) :
    (adm btype (warped false w) (4 * (ζ - 1) / (ζ + 1)) → H g ζ = H (proto n) (subst btype (warped false w) (4 * (ζ - 1) / (ζ + 1)))) ∧
    (¬ adm btype (warped false w) (4 * (ζ - 1) / (ζ + 1)) → H g ζ = 0) := by
  obtain ⟨hv, hb⟩ := (C101_accepts hc n w btype false output .none).mp ⟨g, h⟩
  obtain ⟨f, hA, hd⟩ := design_valid hc hv hb
  rw [h] at hd
  obtain ⟨g', hg, -, -, -, ht, -⟩ := bilinear_spec hA
  have e : g = g' := by
    have : Except.ok g = bilinear f (.scalar 2) := hd
    rw [hg] at this; exact Except.ok.inj this
  subst e
  exact ⟨fun ha => by rw [ht ζ hζ]; exact hA.transfer _ ha, fun ha => by rw [ht ζ hζ]; exact hA.blocked hn _ ha⟩

/-- **C192.** the digital filter with reflected type and edges is the original one at the reflected frequency: `H'(ζ) = H(-ζ)` -/
theorem C192_inversion {csqrt : ℂ → ℂ} (hc : IsSqrt csqrt) (n : Nat) (hn : 0 < n) (w : List ℝ) (btype : BType) (o o' : Output)
    (hw : w.length ≤ 2) (g k : Zpk) (hg : design csqrt n w btype false o .none = .ok g)
    (hk : design csqrt n (mirrorEdges w) (mirrorType btype) false o' .none = .ok k) (ζ : ℂ) (h1 : ζ ≠ 1) (h2 : ζ ≠ -1) :
    H k ζ = H g (-ζ) := by
  obtain ⟨hv, hb⟩ := (C101_accepts hc n w btype false o .none).mp ⟨g, hg⟩
  have hp1 : ζ - 1 ≠ 0 := sub_ne_zero.mpr h1
  have hp2 : ζ + 1 ≠ 0 := fun h => h2 (eq_neg_of_add_eq_zero_left h)
  have hnz : -ζ ≠ -1 := fun h => h1 (neg_injective h)
  set s : ℂ := 4 * (ζ - 1) / (ζ + 1) with hs
  have hs0 : s ≠ 0 := div_ne_zero (mul_ne_zero (by norm_num) hp1) hp2
  have hs' : 4 * (-ζ - 1) / (-ζ + 1) = 16 / s := by
    have : -ζ + 1 ≠ 0 := by rw [show -ζ + 1 = -(ζ - 1) by ring]; exact neg_ne_zero.mpr hp1
    rw [hs]
    field_simp
    ring
  obtain ⟨k1, k2⟩ := digital_transfer hc hk h2 hn
  obtain ⟨g1, g2⟩ := digital_transfer hc hg hnz hn
  rw [hs'] at g1 g2
  rw [← hs] at k1 k2
  have hpos : ∀ v ∈ w, 0 < Real.tan (Real.pi * v / 2) := fun v hv' => tan_half_pos (hv.pos v hv') (hv.below_nyquist rfl v hv')
  -- single edge
  have one : (btype = .lp ∨ btype = .hp) → ∃ t : ℝ, 0 < t ∧ (warped false w).getD 0 0 = 4 * t ∧
      (warped false (mirrorEdges w)).getD 0 0 = 4 / t := by
    intro hl
    obtain ⟨v, rfl⟩ := List.length_eq_one_iff.mp (hv.single hl)
    refine ⟨Real.tan (Real.pi * v / 2), hpos v (by simp), ?_, ?_⟩
    · rw [warped_getD (by simp)]; simp
    · rw [warped_getD (by simp [mirrorEdges])]
      simp only [mirrorEdges, List.map_cons, List.map_nil, List.reverse_singleton, List.getD_cons_zero]
      rw [tan_mirror]; rfl
  have two : (btype = .bp ∨ btype = .bs) → ∃ a b : ℝ, 0 < a ∧ a < b ∧ (warped false w).getD 0 0 = 4 * a ∧
      (warped false w).getD 1 0 = 4 * b ∧ (warped false (mirrorEdges w)).getD 0 0 = 4 / b ∧
      (warped false (mirrorEdges w)).getD 1 0 = 4 / a := by
    intro hl
    have hlen : w.length = 2 := le_antisymm hw (hv.pair hl)
    obtain ⟨u, v, rfl⟩ := List.length_eq_two.mp hlen
    refine ⟨Real.tan (Real.pi * u / 2), Real.tan (Real.pi * v / 2), hpos u (by simp), ?_, ?_, ?_, ?_, ?_⟩
    · exact tan_half_lt (hv.pos u (by simp [freqs])) (hv.below_nyquist rfl v (by simp [freqs]))
        (by simpa [freqs] using hv.increasing (by simp))
    · rw [warped_getD (by simp)]; simp
    · rw [warped_getD (by simp)]; simp
    · rw [warped_getD (by simp [mirrorEdges])]
      simp only [mirrorEdges, List.map_cons, List.map_nil, List.reverse_cons, List.reverse_nil, List.nil_append, List.cons_append,
        List.getD_cons_zero]
      rw [tan_mirror]; rfl
    · rw [warped_getD (by simp [mirrorEdges])]
      simp only [mirrorEdges, List.map_cons, List.map_nil, List.reverse_cons, List.reverse_nil, List.nil_append, List.cons_append,
        List.getD_cons_zero, List.getD_cons_succ]
      rw [tan_mirror]; rfl
  cases btype with
  | other => exact absurd rfl hb
  | lp =>
    obtain ⟨t, ht, e1, e2⟩ := one (Or.inl rfl)
    have htc : (t : ℂ) ≠ 0 := by exact_mod_cast ht.ne'
    rw [k1 hs0, g1 trivial]
    congr 1
    simp only [mirrorType, subst, e1, e2]
    push_cast
    field_simp
    norm_num
  | hp =>
    obtain ⟨t, ht, e1, e2⟩ := one (Or.inr rfl)
    have htc : (t : ℂ) ≠ 0 := by exact_mod_cast ht.ne'
    rw [k1 trivial, g1 (div_ne_zero (by norm_num) hs0)]
    congr 1
    simp only [mirrorType, subst, e1, e2]
    push_cast
    field_simp
    norm_num
  | bp =>
    obtain ⟨a, b, ha, hab, e1, e2, e3, e4⟩ := two (Or.inl rfl)
    have hac : (a : ℂ) ≠ 0 := by exact_mod_cast ha.ne'
    have hbc : (b : ℂ) ≠ 0 := by exact_mod_cast (ha.trans hab).ne'
    have hd : (b : ℂ) - a ≠ 0 := by exact_mod_cast (sub_pos.mpr hab).ne'
    rw [k1 hs0, g1 (div_ne_zero (by norm_num) hs0)]
    congr 1
    simp only [mirrorType, subst, e1, e2, e3, e4]
    push_cast
    have h3 : (4 : ℂ) / a - 4 / b = 4 * (b - a) / (a * b) := by field_simp
    have h4 : (4 : ℂ) * b - 4 * a = 4 * (b - a) := by ring
    rw [h3, h4]
    field_simp
    ring
  | bs =>
    obtain ⟨a, b, ha, hab, e1, e2, e3, e4⟩ := two (Or.inr rfl)
    have hac : (a : ℂ) ≠ 0 := by exact_mod_cast ha.ne'
    have hbc : (b : ℂ) ≠ 0 := by exact_mod_cast (ha.trans hab).ne'
    have hd : (b : ℂ) - a ≠ 0 := by exact_mod_cast (sub_pos.mpr hab).ne'
    have key : (16 / s) ^ 2 + ((4 * a * (4 * b) : ℝ) : ℂ) = 16 * a * b / s ^ 2 * (s ^ 2 + ((4 / b * (4 / a) : ℝ) : ℂ)) := by
      push_cast
      field_simp
      ring
    have hne : (16 * a * b / s ^ 2 : ℂ) ≠ 0 := div_ne_zero (mul_ne_zero (mul_ne_zero (by norm_num) hac) hbc) (pow_ne_zero _ hs0)
    by_cases hz : s ^ 2 + ((4 / b * (4 / a) : ℝ) : ℂ) = 0
    · rw [k2 (fun h => h (by rw [e3, e4]; exact hz)), g2 (fun h => h (by rw [e1, e2, key, hz, mul_zero]))]
    · rw [k1 (by simp only [mirrorType, adm, e3, e4]; exact hz),
        g1 (by simp only [adm, e1, e2]; rw [key]; exact mul_ne_zero hne hz)]
      congr 1
      simp only [mirrorType, subst, e1, e2, e3, e4]
      rw [key]
      push_cast at hz ⊢
      have h3 : (4 : ℂ) / a - 4 / b = 4 * (b - a) / (a * b) := by field_simp
      have h4 : (4 : ℂ) * b - 4 * a = 4 * (b - a) := by ring
      rw [h3, h4]
      generalize hQ : s ^ 2 + (4 : ℂ) / b * (4 / a) = Q at hz ⊢
      field_simp

/-- **C192.** for low- and high-pass filters even the lists agree: zeros and poles are negated in place, the gain is the same -/
theorem C192_lists (csqrt : ℂ → ℂ) (n : Nat) (hn : 0 < n) (v : ℝ) (h0 : 0 < v) (h1 : v < 1) (o o' : Output) (ho : o ≠ .other)
    (ho' : o' ≠ .other) : ∃ g k, design csqrt n [v] .lp false o .none = .ok g ∧ design csqrt n [1 - v] .hp false o' .none = .ok k ∧
      k.z = g.z.map (fun z => -z) ∧ k.p = g.p.map (fun p => -p) ∧ k.k = g.k := by
  have p1 : Pre n [v] false o .none := ⟨by simp, by simp, by simp [freqs, h0], by simp [freqs, h1], by simp, ho, n, rfl⟩
  have p2 : Pre n [1 - v] false o' .none := ⟨by simp, by simp, by simp [freqs, h1], by simp [freqs, h0], by simp, ho', n, rfl⟩
  have e1 := design_pre csqrt .lp n p1
  have e2 := design_pre csqrt .hp n p2
  have d1 : (warped false (freqs [v] .none)).getD 0 0 = 4 * Real.tan (Real.pi * v / 2) := by
    rw [warped_getD (by simp [freqs])]; simp [freqs]
  have d2 : (warped false (freqs [1 - v] .none)).getD 0 0 = 4 * (Real.tan (Real.pi * v / 2))⁻¹ := by
    rw [warped_getD (by simp [freqs])]; simp [freqs, tan_mirror]
  have ht := tan_half_pos h0 h1
  set t := Real.tan (Real.pi * v / 2) with htd
  have htc : (t : ℂ) ≠ 0 := by exact_mod_cast ht.ne'
  have hr : relativeScale (proto n).z (proto n).p = .ok n := by simp [relativeScale, proto]
  have hgain := proto_gain hn
  simp only [transform, ne_eq, List.length_singleton, not_true_eq_false, if_false, d1, lowToLow, hr, bind, Except.bind, bilinear, validG,
    Bool.false_eq_true, Option.getD_some] at e1
  simp only [transform, ne_eq, List.length_singleton, not_true_eq_false, if_false, d2, lowToHigh, hr, bind, Except.bind, bilinear, validG,
    Bool.false_eq_true, Option.getD_some] at e2
  have hlen : (proto n).p.length = n := by simp [proto]
  have hz : (proto n).z = [] := rfl
  have r1 : relativeScale ((proto n).z.map (fun x => ((4 * t : ℝ) : ℂ) * x)) ((proto n).p.map (fun x => ((4 * t : ℝ) : ℂ) * x)) = .ok n := by
    simp [relativeScale, hz, hlen]
  have r2 : relativeScale ((proto n).z.map (fun x => ((4 * t⁻¹ : ℝ) : ℂ) / x) ++ List.replicate n 0)
      ((proto n).p.map (fun x => ((4 * t⁻¹ : ℝ) : ℂ) / x)) = .ok 0 := by
    simp [relativeScale, hz, hlen]
  simp only [r1] at e1
  simp only [r2] at e2
  have hre := proto_re (n := n)
  have h4 : ∀ x ∈ (proto n).p, (4 : ℂ) - 4 * t * x ≠ 0 := by
    intro x hx h
    have := congrArg Complex.re h
    simp at this
    have h3 := hre x hx
    nlinarith
  have hx0 := proto_ne (n := n)
  have h5 : ∀ x ∈ (proto n).p, (4 : ℂ) - 4 * (t : ℂ)⁻¹ / x ≠ 0 := by
    intro x hx h
    have hx' := hx0 x hx
    apply h4 x hx
    have : (4 : ℂ) - 4 * (t : ℂ)⁻¹ / x = -(4 - 4 * t * x) / (t * x) := by field_simp; ring
    rw [this, div_eq_zero_iff] at h
    rcases h with h | h
    · exact neg_eq_zero.mp h
    · exact absurd h (mul_ne_zero htc hx')
  refine ⟨_, _, e1, e2, ?_, ?_, ?_⟩
  · simp only [hz, List.map_nil, List.nil_append, List.replicate_zero, List.append_nil, List.map_replicate]
    congr 1
    norm_num
  · simp only [List.map_map]
    apply List.map_congr_left
    intro x hx
    have a1 := h4 x hx
    have a2 := h5 x hx
    have hx' := hx0 x hx
    simp only [Function.comp]
    push_cast
    rw [show (2 * 2 : ℂ) = 4 by norm_num]
    rw [← neg_div, div_eq_div_iff a2 a1]
    field_simp
    ring
  · have hprod : ((proto n).p.map (fun x => -x)).prod = 1 := by
      have := proto_zero hn
      simp only [H, hz, List.map_nil, List.prod_nil, zero_sub, mul_one] at this
      rw [div_eq_one_iff_eq] at this
      · rw [← this]; simp [proto]
      · exact prod_map_ne fun x hx => neg_ne_zero.mpr (hx0 x hx)
    rw [hgain, one_mul]
    simp only [hz, List.map_nil, List.nil_append, List.prod_nil, List.map_replicate, List.prod_replicate, List.map_map]
    rw [show (proto n).k = 1 from rfl, one_mul, ← Complex.re_ofReal_mul]
    congr 1
    have key : ((proto n).p.map ((fun x => (2 * ((2 : ℝ) : ℂ)) - x) ∘ fun x => ((4 * t⁻¹ : ℝ) : ℂ) / x)).prod *
        ((4 * t) ^ n * ((proto n).p.map (fun x => -x)).prod) =
        4 ^ n * ((proto n).p.map ((fun x => (2 * ((2 : ℝ) : ℂ)) - x) ∘ fun x => ((4 * t : ℝ) : ℂ) * x)).prod := by
      have c1 := prod_map_const' (proto n).p (4 * (t : ℂ))
      have c2 := prod_map_const' (proto n).p 4
      rw [hlen] at c1 c2
      rw [← c1, ← c2, ← prod_map_mul', ← prod_map_mul', ← prod_map_mul']
      refine prod_map_congr fun x hx => ?_
      have hx' := hx0 x hx
      simp only [Function.comp]
      push_cast
      field_simp
      ring
    rw [hprod, mul_one] at key
    have n1 : ((proto n).p.map ((fun x => (2 * ((2 : ℝ) : ℂ)) - x) ∘ fun x => ((4 * t⁻¹ : ℝ) : ℂ) / x)).prod ≠ 0 :=
      prod_map_ne fun x hx => by
        have := h5 x hx
        simp only [Function.comp]; push_cast; rwa [show (2 * 2 : ℂ) = 4 by norm_num]
    have n2 : ((proto n).p.map ((fun x => (2 * ((2 : ℝ) : ℂ)) - x) ∘ fun x => ((4 * t : ℝ) : ℂ) * x)).prod ≠ 0 :=
      prod_map_ne fun x hx => by
        have := h4 x hx
        simp only [Function.comp]; push_cast; rwa [show (2 * 2 : ℂ) = 4 by norm_num]
    rw [mul_one_div, div_eq_div_iff n1 n2]
    push_cast at key ⊢
    rw [mul_comm ((4 * (t : ℂ)) ^ n), key]
    norm_num

/-- a band-pass filter and its mirror image, both accepted -/
example {csqrt : ℂ → ℂ} (hc : IsSqrt csqrt) : ∃ g k, design csqrt (2 : ℕ) [1 / 5, 1 / 4] .bp false .zps .none = .ok g ∧
    design csqrt (2 : ℕ) (mirrorEdges [1 / 5, 1 / 4]) (mirrorType .bp) false .nd .none = .ok k := by
  have h1 := (C101_accepts hc (2 : ℕ) [1 / 5, 1 / 4] .bp false .zps .none).mpr ⟨⟨by simp, by simp, by simp [freqs],
    by simp [freqs]; norm_num, by simp [freqs]; norm_num, by simp, ⟨2, rfl⟩, by simp, by simp⟩, by simp⟩
  have h2 := (C101_accepts hc (2 : ℕ) (mirrorEdges [1 / 5, 1 / 4]) (mirrorType .bp) false .nd .none).mpr ⟨⟨by simp, by simp,
    by simp [freqs, mirrorEdges]; norm_num, by simp [freqs, mirrorEdges], by simp [freqs, mirrorEdges]; norm_num, by simp, ⟨2, rfl⟩,
    by simp [mirrorType], by simp [mirrorEdges]⟩, by simp [mirrorType]⟩
  obtain ⟨g, hg⟩ := h1
  obtain ⟨k, hk⟩ := h2
  exact ⟨g, k, hg, hk⟩

/-! ## C193: frequency scaling of analog filters -/

private theorem analog_transfer {csqrt : ℂ → ℂ} (hc : IsSqrt csqrt) {n : Nat} {w : List ℝ} {btype : BType} {output : Output} {sr : SrArg}
    {g : Zpk} (h : design csqrt n w btype true output sr = .ok g) (hn : 0 < n) : Valid n w btype true output sr ∧ btype ≠ .other ∧
    (∀ s, adm btype w s → H g s = H (proto n) (subst btype w s)) ∧ (∀ s, ¬ adm btype w s → H g s = 0) := by
  obtain ⟨hv, hb⟩ := (C101_accepts hc n w btype true output sr).mp ⟨g, h⟩
  obtain ⟨f, hA, hd⟩ := design_valid hc hv hb
  rw [h] at hd
  have e : g = f := Except.ok.inj hd
  subst e
  have hw : warped true (freqs w sr) = w := by
    cases sr with
    | scalar x => have := hv.sr_digital x rfl; simp at this
    | none => rfl
    | nonScalar => rfl
  rw [hw] at hA
  exact ⟨hv, hb, hA.transfer, hA.blocked hn⟩

/-- **C193.** moving all edges of an analog filter by a factor moves its transfer function by that factor: `H'(c s) = H(s)` at every
complex frequency, for all four types -/
theorem C193_scaling {csqrt : ℂ → ℂ} (hc : IsSqrt csqrt) (n : Nat) (hn : 0 < n) (w : List ℝ) (btype : BType) (o o' : Output)
    (sr sr' : SrArg) (c : ℝ) (hc0 : 0 < c) (g k : Zpk) (hg : design csqrt n w btype true o sr = .ok g)
    (hk : design csqrt n (w.map (fun v => c * v)) btype true o' sr' = .ok k) (s : ℂ) : H k (c * s) = H g s := by
  obtain ⟨hv, hb, g1, g2⟩ := analog_transfer hc hg hn
  obtain ⟨-, -, k1, k2⟩ := analog_transfer hc hk hn
  have hcc : (c : ℂ) ≠ 0 := by exact_mod_cast hc0.ne'
  have e : ∀ i, (w.map (fun v => c * v)).getD i 0 = c * w.getD i 0 := by
    intro i
    simp only [List.getD_eq_getElem?_getD, List.getElem?_map]
    cases w[i]? <;> simp
  have hadm : adm btype (w.map (fun v => c * v)) (c * s) ↔ adm btype w s := by
    cases btype with
    | lp => rfl
    | hp => simp [adm, hcc]
    | bp => simp [adm, hcc]
    | other => rfl
    | bs =>
      simp only [adm, e]
      have : ((c : ℂ) * s) ^ 2 + ((c * w.getD 0 0 * (c * w.getD 1 0) : ℝ) : ℂ) =
          c ^ 2 * (s ^ 2 + ((w.getD 0 0 * w.getD 1 0 : ℝ) : ℂ)) := by push_cast; ring
      rw [this, ne_eq, mul_eq_zero, not_or]
      exact ⟨fun h => h.2, fun h => ⟨pow_ne_zero _ hcc, h⟩⟩
  by_cases ha : adm btype w s
  · rw [k1 _ (hadm.mpr ha), g1 _ ha]
    congr 1
    cases btype with
    | other => exact absurd rfl hb
    | lp => simp only [subst, e]; push_cast; rw [mul_div_mul_left _ _ hcc]
    | hp => simp only [subst, e]; push_cast; rw [mul_div_mul_left _ _ hcc]
    | bp =>
      simp only [subst, e]; push_cast
      rw [show ((c : ℂ) * s) ^ 2 + c * (w.getD 0 0 : ℝ) * (c * (w.getD 1 0 : ℝ)) = c ^ 2 * (s ^ 2 + (w.getD 0 0 : ℝ) * (w.getD 1 0 : ℝ)) by ring,
        show ((c : ℂ) * (w.getD 1 0 : ℝ) - c * (w.getD 0 0 : ℝ)) * (c * s) = c ^ 2 * (((w.getD 1 0 : ℝ) - (w.getD 0 0 : ℝ)) * s) by ring,
        mul_div_mul_left _ _ (pow_ne_zero _ hcc)]
    | bs =>
      simp only [subst, e]; push_cast
      rw [show ((c : ℂ) * s) ^ 2 + c * (w.getD 0 0 : ℝ) * (c * (w.getD 1 0 : ℝ)) = c ^ 2 * (s ^ 2 + (w.getD 0 0 : ℝ) * (w.getD 1 0 : ℝ)) by ring,
        show ((c : ℂ) * (w.getD 1 0 : ℝ) - c * (w.getD 0 0 : ℝ)) * (c * s) = c ^ 2 * (((w.getD 1 0 : ℝ) - (w.getD 0 0 : ℝ)) * s) by ring,
        mul_div_mul_left _ _ (pow_ne_zero _ hcc)]
  · rw [k2 _ (fun h => ha (hadm.mp h)), g2 _ ha]

/-- **C193.** scaled edges are accepted exactly when the original ones are -/
theorem C193_accepts {csqrt : ℂ → ℂ} (hc : IsSqrt csqrt) (q : ℝ) (w : List ℝ) (btype : BType) (o : Output) (sr : SrArg) (c : ℝ)
    (hc0 : 0 < c) : (∃ g, design csqrt q w btype true o sr = .ok g) ↔ ∃ k, design csqrt q (w.map (fun v => c * v)) btype true o sr = .ok k := by
  have e : ∀ i, (w.map (fun v => c * v)).getD i 0 = c * w.getD i 0 := by
    intro i
    simp only [List.getD_eq_getElem?_getD, List.getElem?_map]
    cases w[i]? <;> simp
  rw [C101_accepts hc, C101_accepts hc]
  have hlt : ∀ a b : ℝ, c * a < c * b ↔ a < b := fun a b => mul_lt_mul_iff_of_pos_left hc0
  cases sr with
  | nonScalar => exact ⟨fun h => absurd rfl h.1.sr_scalar, fun h => absurd rfl h.1.sr_scalar⟩
  | scalar x => exact ⟨fun h => by have := h.1.sr_digital x rfl; simp at this, fun h => by have := h.1.sr_digital x rfl; simp at this⟩
  | none =>
    constructor
    · rintro ⟨h, hb⟩
      refine ⟨⟨by simp, by simp, ?_, by simp, ?_, h.output_ok, h.order, ?_, ?_⟩, hb⟩
      · intro v hv
        obtain ⟨u, hu, rfl⟩ := List.mem_map.mp hv
        exact mul_pos hc0 (h.pos u hu)
      · intro hl
        show (w.map _).getD 0 0 < (w.map _).getD 1 0
        rw [e, e, hlt]; exact h.increasing (by simpa using hl)
      · intro hl; rw [List.length_map]; exact h.single hl
      · intro hl; rw [List.length_map]; exact h.pair hl
    · rintro ⟨h, hb⟩
      refine ⟨⟨by simp, by simp, ?_, by simp, ?_, h.output_ok, h.order, ?_, ?_⟩, hb⟩
      · intro v hv
        exact (mul_pos_iff_of_pos_left hc0).mp (h.pos (c * v) (List.mem_map.mpr ⟨v, hv, rfl⟩))
      · intro hl
        have := h.increasing (by simpa using hl)
        change (w.map _).getD 0 0 < (w.map _).getD 1 0 at this
        rw [e, e, hlt] at this; exact this
      · intro hl; have := h.single hl; rwa [List.length_map] at this
      · intro hl; have := h.pair hl; rwa [List.length_map] at this

/-- an analog band-stop design -/
example {csqrt : ℂ → ℂ} (hc : IsSqrt csqrt) : ∃ g, design csqrt (2 : ℕ) [50, 60] .bs true .zps .none = .ok g := by
  exact (C101_accepts hc (2 : ℕ) [50, 60] .bs true .zps .none).mpr ⟨⟨by simp, by simp, by simp [freqs],
    by simp, by simp [freqs]; norm_num, by simp, ⟨2, rfl⟩, by simp, by simp⟩, by simp⟩

end

end Proadv
