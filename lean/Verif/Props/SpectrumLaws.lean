import Verif.Props.Spectrum

/-!
# C128–C130: laws of `power_spectra`
-/

set_option linter.unusedSectionVars false

namespace Proadv.Props

open Proadv Spectrum Bivariate Fl

/-- the frequencies that belong to the entries, in Hz: `k * fs / block`, the upper half negative in the two-sided case -/
noncomputable def PSpec.freqs (N : Nat) (fs : ℝ) (onesided : Bool) : List ℝ :=
  if onesided then (List.range (N / 2 + 1)).map (fun k : ℕ => k * fs / N)
  else (List.range N).map (fun k : ℕ => (if 2 * k < N then (k : ℝ) else (k : ℝ) - N) * fs / N)

theorem value_fins (x : List ℝ) (fs : ℝ) (hfs : fs ≠ 0) (overlap : Int) (N : Nat) (onesided : Bool) (h3 : 3 ≤ N)
    (hn : N ≤ x.length) (ho : overlap < N) :
    powerSpectra (fins x) (fin fs) overlap N onesided = .ok (fins (PSpec.freqs N fs onesided),
      fins ((List.range (if onesided then N / 2 + 1 else N)).map (fun k => PSpec.welch N ((N : Int) - overlap).toNat
        (((x.length : Int) - overlap) / ((N : Int) - overlap)).toNat fs x onesided k))) := by
  rw [C126_value x fs hfs overlap N onesided h3 hn ho]
  unfold fins PSpec.freqs
  cases onesided <;> simp [List.map_map, Function.comp_def]

/-! ## Parseval -/

theorem cos_orth {N m l : Nat} (hm : m < N) (hl : l < N) (hne : m ≠ l) :
    ∑ k ∈ Finset.range N, Real.cos (2 * Real.pi * (k * m) / N - 2 * Real.pi * (k * l) / N) = 0 := by
  have hN : (N : ℂ) ≠ 0 := by
    have : N ≠ 0 := by omega
    exact_mod_cast this
  set z : ℂ := Complex.exp (2 * Real.pi * Complex.I * (((m : ℤ) - (l : ℤ) : ℤ) : ℂ) / N) with hz
  have hzN : z ^ N = 1 := by
    rw [hz, ← Complex.exp_nat_mul, Complex.exp_eq_one_iff]
    refine ⟨(m : ℤ) - l, ?_⟩
    field_simp
  have hz1 : z ≠ 1 := by
    rw [hz, Ne, Complex.exp_eq_one_iff]
    rintro ⟨n, hn⟩
    have hpi : (2 * Real.pi * Complex.I : ℂ) ≠ 0 := Complex.two_pi_I_ne_zero
    have h1 : (((m : ℤ) - (l : ℤ) : ℤ) : ℂ) = n * N := by
      rw [div_eq_iff hN] at hn
      apply mul_left_cancel₀ hpi
      rw [hn]; ring
    have h2 : ((m : ℤ) - (l : ℤ)) = n * N := by exact_mod_cast h1
    have h3 : n = 0 := by
      by_contra h0
      rcases lt_or_gt_of_ne h0 with h | h
      · nlinarith
      · nlinarith
    rw [h3] at h2
    omega
  have hsum : ∑ k ∈ Finset.range N, z ^ k = 0 := by
    have := geom_sum_mul z N
    rw [hzN, sub_self] at this
    exact (mul_eq_zero.mp this).resolve_right (sub_ne_zero.mpr hz1)
  have hre := congrArg Complex.re hsum
  rw [Complex.re_sum, Complex.zero_re] at hre
  rw [← hre]
  apply Finset.sum_congr rfl
  intro k _
  rw [hz, ← Complex.exp_nat_mul, ← Complex.exp_ofReal_mul_I_re]
  congr 2
  push_cast
  ring

theorem norm_dft_double (N : Nat) (b : Nat → ℝ) (k : Nat) : ‖PSpec.dft N b k‖ ^ 2 =
    ∑ m ∈ Finset.range N, ∑ l ∈ Finset.range N, b m * b l *
      Real.cos (2 * Real.pi * (k * m) / N - 2 * Real.pi * (k * l) / N) := by
  rw [norm_dft, sq, sq, Finset.sum_mul_sum, Finset.sum_mul_sum, ← Finset.sum_add_distrib]
  apply Finset.sum_congr rfl
  intro m _
  rw [← Finset.sum_add_distrib]
  apply Finset.sum_congr rfl
  intro l _
  rw [Real.cos_sub]
  ring

theorem parseval (N : Nat) (b : Nat → ℝ) :
    ∑ k ∈ Finset.range N, ‖PSpec.dft N b k‖ ^ 2 = N * ∑ m ∈ Finset.range N, b m ^ 2 := by
  simp_rw [norm_dft_double]
  rw [Finset.sum_comm, Finset.mul_sum]
  apply Finset.sum_congr rfl
  intro m hm
  rw [Finset.sum_comm, Finset.sum_eq_single m]
  · rw [Finset.sum_congr rfl (fun k _ => by rw [sub_self, Real.cos_zero, mul_one]), Finset.sum_const, Finset.card_range, nsmul_eq_mul]
    ring
  · intro l hl hne
    rw [← Finset.mul_sum, cos_orth (Finset.mem_range.mp hm) (Finset.mem_range.mp hl) (Ne.symm hne), mul_zero]
  · intro h; exact absurd hm h

theorem norm_dft_mirror {N k : Nat} (hk : k < N) (b : Nat → ℝ) : ‖PSpec.dft N b (N - k)‖ ^ 2 = ‖PSpec.dft N b k‖ ^ 2 := by
  have hN : (N : ℝ) ≠ 0 := by
    have : N ≠ 0 := by omega
    exact_mod_cast this
  have harg : ∀ m : Nat, 2 * Real.pi * (((N - k : ℕ) : ℝ) * m) / N = (m : ℝ) * (2 * Real.pi) - 2 * Real.pi * (k * m) / N := by
    intro m
    rw [Nat.cast_sub hk.le]
    field_simp
  rw [norm_dft, norm_dft]
  simp only [harg, Real.cos_nat_mul_two_pi_sub, Real.sin_nat_mul_two_pi_sub, mul_neg, Finset.sum_neg_distrib, neg_sq]

theorem onesided_sum (N : Nat) (f : Nat → ℝ) (hf : ∀ k, 0 < k → k < N → f (N - k) = f k) (hN : 0 < N) :
    ∑ k ∈ Finset.range (N / 2 + 1), PSpec.mult true N k * f k = ∑ k ∈ Finset.range N, f k := by
  by_cases h1 : N = 1
  · subst h1; simp [PSpec.mult]
  have hsplit : ∑ k ∈ Finset.range N, f k = ∑ k ∈ Finset.range (N / 2 + 1), f k + ∑ k ∈ Finset.Ico (N / 2 + 1) N, f k :=
    (Finset.sum_range_add_sum_Ico f (by omega)).symm
  have hrefl : ∑ k ∈ Finset.Ico (N / 2 + 1) N, f k =
      ∑ k ∈ (Finset.range (N / 2 + 1)).filter (fun k => 0 < k ∧ 2 * k < N), f k := by
    apply Finset.sum_nbij' (fun k => N - k) (fun k => N - k)
    · intro k hk; simp only [Finset.mem_Ico] at hk; simp only [Finset.mem_filter, Finset.mem_range]; omega
    · intro k hk; simp only [Finset.mem_filter, Finset.mem_range] at hk; simp only [Finset.mem_Ico]; omega
    · intro k hk; simp only [Finset.mem_Ico] at hk; omega
    · intro k hk; simp only [Finset.mem_filter, Finset.mem_range] at hk; omega
    · intro k hk; simp only [Finset.mem_Ico] at hk; exact (hf k (by omega) hk.2).symm
  rw [hsplit, hrefl, Finset.sum_filter, ← Finset.sum_add_distrib]
  apply Finset.sum_congr rfl
  intro k _
  unfold PSpec.mult
  by_cases h : 0 < k ∧ 2 * k < N
  · rw [if_pos ⟨rfl, h⟩, if_pos h]; ring
  · rw [if_neg (fun hh => h hh.2), if_neg h]; ring

/-- **C128** energy: one- or two-sided, the area under the spectrum (the sum times the bin width `fs / block`) is the
window-weighted variance of the segments, averaged; the sampling frequency drops out. -/
theorem C128_parseval (x : List ℝ) (fs : ℝ) (hfs : fs ≠ 0) (overlap : Int) (N : Nat) (onesided : Bool) (h3 : 3 ≤ N)
    (hn : N ≤ x.length) (ho : overlap < N) (c h : Nat) (hc : c = (((x.length : Int) - overlap) / ((N : Int) - overlap)).toNat)
    (hh : h = ((N : Int) - overlap).toNat) :
    ∃ f ps, powerSpectra (fins x) (fin fs) overlap N onesided = .ok (f, fins ps) ∧
      ps.sum * (fs / N) = (∑ j ∈ Finset.range c,
        (∑ m ∈ Finset.range N, PSpec.w N m ^ 2 * (x.getD (j * h + m) 0 - (∑ i ∈ Finset.range N, x.getD (j * h + i) 0) / N) ^ 2) /
          ∑ m ∈ Finset.range N, PSpec.w N m ^ 2) / c := by
  have hNR : (N : ℝ) ≠ 0 := by
    have : N ≠ 0 := by omega
    exact_mod_cast this
  have hw := (w2_pos h3).ne'
  refine ⟨fins (PSpec.freqs N fs onesided), (List.range (if onesided then N / 2 + 1 else N)).map (fun k => PSpec.welch N h c fs x onesided k), ?_, ?_⟩
  · rw [value_fins x fs hfs overlap N onesided h3 hn ho, hc, hh]
  · rw [sum_range_list]
    set S : Nat → ℝ := fun k => (∑ j ∈ Finset.range c, PSpec.periodogram N fs (fun m => x.getD (j * h + m) 0) k) / c with hS
    have htwo : ∑ k ∈ Finset.range (if onesided then N / 2 + 1 else N), PSpec.welch N h c fs x onesided k =
        ∑ k ∈ Finset.range N, S k := by
      cases onesided
      · apply Finset.sum_congr rfl
        intro k _
        simp [PSpec.welch, PSpec.mult, hS]
      · rw [← onesided_sum N S _ (by omega)]
        · rfl
        · intro k hk hkN
          simp only [hS, PSpec.periodogram, norm_dft_mirror hkN]
    rw [htwo, hS, ← Finset.sum_div, Finset.sum_comm, div_mul_eq_mul_div]
    congr 1
    rw [Finset.sum_mul]
    apply Finset.sum_congr rfl
    intro j _
    simp only [PSpec.periodogram]
    rw [← Finset.sum_div, parseval]
    have hw' : (∑ m ∈ Finset.range N, PSpec.w N m ^ 2) ≠ 0 := hw
    simp only [PSpec.a, PSpec.segMean, mul_pow]
    unfold PSpec.w2
    field_simp

/-! ## Sign, offset, scale -/

/-- **C129** every entry is non-negative when the sampling frequency is positive. -/
theorem C129_nonneg (x : List ℝ) (fs : ℝ) (hfs : 0 < fs) (overlap : Int) (N : Nat) (onesided : Bool) (h3 : 3 ≤ N)
    (hn : N ≤ x.length) (ho : overlap < N) :
    ∃ f ps, powerSpectra (fins x) (fin fs) overlap N onesided = .ok (f, fins ps) ∧ ∀ v ∈ ps, 0 ≤ v := by
  refine ⟨fins (PSpec.freqs N fs onesided), (List.range (if onesided then N / 2 + 1 else N)).map (fun k => PSpec.welch N ((N : Int) - overlap).toNat
    (((x.length : Int) - overlap) / ((N : Int) - overlap)).toNat fs x onesided k), ?_, ?_⟩
  · exact value_fins x fs hfs.ne' overlap N onesided h3 hn ho
  · intro v hv
    obtain ⟨k, -, rfl⟩ := List.mem_map.mp hv
    have := w2_pos h3
    unfold PSpec.welch PSpec.periodogram PSpec.mult
    apply mul_nonneg
    · split <;> norm_num
    · positivity

theorem dft_smul (N : Nat) (b : Nat → ℝ) (s : ℝ) (k : Nat) : ‖PSpec.dft N (fun m => s * b m) k‖ ^ 2 = s ^ 2 * ‖PSpec.dft N b k‖ ^ 2 := by
  rw [norm_dft_double, norm_dft_double, Finset.mul_sum]
  apply Finset.sum_congr rfl
  intro m _
  rw [Finset.mul_sum]
  apply Finset.sum_congr rfl
  intro l _
  ring

/-- **C129** affine data: `s * x + t` has `s²` times the spectrum of `x`, at the same frequencies. In particular the
offset is invisible and constant data have spectrum zero. -/
theorem C129_affine (x : List ℝ) (s t fs : ℝ) (hfs : fs ≠ 0) (overlap : Int) (N : Nat) (onesided : Bool) (h3 : 3 ≤ N)
    (hn : N ≤ x.length) (ho : overlap < N) :
    ∃ f ps, powerSpectra (fins x) (fin fs) overlap N onesided = .ok (f, fins ps) ∧
      powerSpectra (fins (x.map (fun v => s * v + t))) (fin fs) overlap N onesided = .ok (f, fins (ps.map (fun p => s ^ 2 * p))) := by
  have hNR : (N : ℝ) ≠ 0 := by
    have : N ≠ 0 := by omega
    exact_mod_cast this
  refine ⟨fins (PSpec.freqs N fs onesided), (List.range (if onesided then N / 2 + 1 else N)).map (fun k => PSpec.welch N ((N : Int) - overlap).toNat
    (((x.length : Int) - overlap) / ((N : Int) - overlap)).toNat fs x onesided k), ?_, ?_⟩
  · exact value_fins x fs hfs overlap N onesided h3 hn ho
  · rw [value_fins _ fs hfs overlap N onesided h3 (by simpa using hn) ho, List.map_map]
    congr 3
    apply List.map_congr_left
    intro k _
    simp only [Function.comp, List.length_map]
    unfold PSpec.welch
    rw [mul_left_comm (s ^ 2), ← mul_div_assoc (s ^ 2), Finset.mul_sum]
    congr 2
    apply Finset.sum_congr rfl
    intro j hj
    have hfit := seg_fit ho (Finset.mem_range.mp hj : j < count x.length overlap N)
    have hg : ∀ m, m < N → (x.map (fun v => s * v + t)).getD (j * ((N : Int) - overlap).toNat + m) 0 =
        s * x.getD (j * ((N : Int) - overlap).toNat + m) 0 + t := by
      intro m hm
      have hlt : j * ((N : Int) - overlap).toNat + m < x.length := by omega
      simp [List.getD_eq_getElem?_getD, hlt]
    set y : Nat → ℝ := fun m => x.getD (j * ((N : Int) - overlap).toNat + m) 0 with hy
    have hmean : PSpec.segMean N (fun m => (x.map (fun v => s * v + t)).getD (j * ((N : Int) - overlap).toNat + m) 0) =
        s * PSpec.segMean N y + t := by
      unfold PSpec.segMean
      rw [Finset.sum_congr rfl (fun m hm => hg m (Finset.mem_range.mp hm)), Finset.sum_add_distrib, ← Finset.mul_sum]
      simp only [Finset.sum_const, Finset.card_range, nsmul_eq_mul]
      field_simp
      rfl
    have hdft : PSpec.dft N (PSpec.a N (fun m => (x.map (fun v => s * v + t)).getD (j * ((N : Int) - overlap).toNat + m) 0)) k =
        PSpec.dft N (fun m => s * PSpec.a N y m) k := by
      unfold PSpec.dft
      apply Finset.sum_congr rfl
      intro m hm
      congr 2
      unfold PSpec.a
      simp only [hmean, hg m (Finset.mem_range.mp hm), hy]
      ring
    unfold PSpec.periodogram
    rw [hdft, dft_smul]
    ring

/-! ## Time reversal -/

theorem w_mirror {N m : Nat} (hm : m < N) (h2 : 2 ≤ N) : PSpec.w N (N - 1 - m) = PSpec.w N m := by
  have hN : (N : ℝ) - 1 ≠ 0 := by
    have : (2 : ℝ) ≤ N := by exact_mod_cast h2
    linarith
  unfold PSpec.w
  have e : 2 * Real.pi * ((N - 1 - m : ℕ) : ℝ) / ((N : ℝ) - 1) = 2 * Real.pi - 2 * Real.pi * m / ((N : ℝ) - 1) := by
    rw [Nat.cast_sub (by omega), Nat.cast_sub (by omega)]
    push_cast
    field_simp
  rw [e, Real.cos_two_pi_sub]

theorem dft_mirror (N : Nat) (b : Nat → ℝ) (k : Nat) : ‖PSpec.dft N (fun m => b (N - 1 - m)) k‖ ^ 2 = ‖PSpec.dft N b k‖ ^ 2 := by
  rw [norm_dft_double, norm_dft_double, ← Finset.sum_range_reflect]
  apply Finset.sum_congr rfl
  intro m hm
  rw [← Finset.sum_range_reflect]
  apply Finset.sum_congr rfl
  intro l hl
  have hm' := Finset.mem_range.mp hm
  have hl' := Finset.mem_range.mp hl
  rw [show N - 1 - (N - 1 - m) = m by omega, show N - 1 - (N - 1 - l) = l by omega]
  congr 1
  have hcm : ((N - 1 - m : ℕ) : ℝ) = (N : ℝ) - 1 - m := by
    rw [Nat.cast_sub (by omega), Nat.cast_sub (by omega)]; norm_num
  have hcl : ((N - 1 - l : ℕ) : ℝ) = (N : ℝ) - 1 - l := by
    rw [Nat.cast_sub (by omega), Nat.cast_sub (by omega)]; norm_num
  rw [← Real.cos_neg, hcm, hcl]
  congr 1
  ring

/-- **C130** time reversal: when the segments cover the series exactly, the reversed series has the same spectrum. -/
theorem C130_reverse (x : List ℝ) (fs : ℝ) (hfs : fs ≠ 0) (overlap : Int) (N : Nat) (onesided : Bool) (h3 : 3 ≤ N)
    (hn : N ≤ x.length) (ho : overlap < N) (hdvd : ((N : Int) - overlap) ∣ ((x.length : Int) - overlap)) :
    powerSpectra (fins x.reverse) (fin fs) overlap N onesided = powerSpectra (fins x) (fin fs) overlap N onesided := by
  rw [C126_value x fs hfs overlap N onesided h3 hn ho, C126_value _ fs hfs overlap N onesided h3 (by simpa using hn) ho]
  congr 2
  apply List.map_congr_left
  intro k _
  congr 1
  rw [List.length_reverse]
  unfold PSpec.welch
  congr 2
  set c := (((x.length : Int) - overlap) / ((N : Int) - overlap)).toNat with hc
  set h := ((N : Int) - overlap).toNat with hh
  have hcpos : 0 < c := count_pos _ _ _ hn ho
  have hcover : (c - 1) * h + N = x.length := by
    obtain ⟨q, hq⟩ := hdvd
    have hpos : 0 < (N : Int) - overlap := by omega
    have hcq : ((x.length : Int) - overlap) / ((N : Int) - overlap) = q := by
      rw [hq]; exact Int.mul_ediv_cancel_left _ hpos.ne'
    rw [hcq] at hc
    have hcz : (c : Int) = q := by omega
    have e : (((c - 1) * h + N : ℕ) : Int) = (q - 1) * ((N : Int) - overlap) + N := by
      push_cast [Nat.cast_sub (by omega : 1 ≤ c)]
      rw [hcz, hh, Int.toNat_of_nonneg hpos.le]
    have e2 : (q - 1) * ((N : Int) - overlap) + N = ((N : Int) - overlap) * q + overlap := by ring
    omega
  rw [← Finset.sum_range_reflect]
  apply Finset.sum_congr rfl
  intro j hj
  have hj' := Finset.mem_range.mp hj
  have hmulj : (c - 1 - j) * h + j * h = (c - 1) * h := by rw [← Nat.add_mul]; congr 1; omega
  set y : Nat → ℝ := fun m => x.getD (j * h + m) 0 with hy
  have hg : ∀ m, m < N → x.reverse.getD ((c - 1 - j) * h + m) 0 = y (N - 1 - m) := by
    intro m hm
    have h1 : (c - 1 - j) * h + m < x.length := by omega
    have h2 : j * h + (N - 1 - m) < x.length := by omega
    rw [hy]
    simp only [List.getD_eq_getElem?_getD]
    rw [List.getElem?_reverse h1]
    congr 2
    omega
  have hmean : PSpec.segMean N (fun m => x.reverse.getD ((c - 1 - j) * h + m) 0) = PSpec.segMean N y := by
    unfold PSpec.segMean
    rw [Finset.sum_congr rfl (fun m hm => hg m (Finset.mem_range.mp hm)), Finset.sum_range_reflect y N]
  unfold PSpec.periodogram
  rw [← dft_mirror N (PSpec.a N y)]
  congr 3
  unfold PSpec.dft
  apply Finset.sum_congr rfl
  intro m hm
  have hm' := Finset.mem_range.mp hm
  congr 2
  unfold PSpec.a
  simp only [hmean, hg m hm', w_mirror hm' (by omega : 2 ≤ N)]

end Proadv.Props
