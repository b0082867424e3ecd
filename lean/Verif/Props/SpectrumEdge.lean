import Verif.Props.SpectrumLaws

/-!
# C131: degenerate cases of `power_spectra`
-/

set_option linter.unusedSectionVars false

namespace Proadv.Props

open Proadv Spectrum Bivariate Fl

/-- the powers of a list that contains only NaN are NaN -/
theorem power_nan (win seg : List (Fl ℝ)) (hl : win.length = seg.length) (h : nan ∈ seg) (k : Nat) : power win seg k = nan := by
  have hmean : npMean seg = nan := by
    unfold npMean; rw [psum_nan _ h, nan_div]
  obtain ⟨i, hi, hin⟩ := List.mem_iff_getElem.mp h
  have hz : List.zipWith (fun w v => w *. v) win (detrend seg) = List.replicate seg.length nan := by
    unfold detrend
    rw [hmean]
    apply List.ext_getElem
    · simp [hl]
    · intro n h1 h2
      simp
  have hpos : 0 < seg.length := by omega
  have hsum : ∀ g : Nat → Fl ℝ, PyNum.sum ((List.replicate seg.length (nan : Fl ℝ)).mapIdx (fun k x => x *. g k)) = nan := by
    intro g
    apply psum_nan
    rw [List.mem_iff_getElem]
    exact ⟨0, by simpa using hpos, by simp⟩
  unfold power
  simp only [hz]
  unfold fftEntry
  simp only [hsum, nan_mul, nan_sub]

theorem average_nan (l : List (Fl ℝ)) (h : nan ∈ l) : average l = nan := by
  unfold average
  split
  · exact (List.mem_singleton.mp h).symm
  · unfold npMean; rw [psum_nan _ h, nan_div]

theorem hann_two : hann (2 : Int) = .ok [(fin 0 : Fl ℝ), fin 0] := by
  have := hann_fin 2 (le_refl 2)
  rw [show ((2 : ℕ) : Int) = 2 from rfl] at this
  rw [this]
  have h0 : PSpec.w 2 0 = 0 := by simp [PSpec.w]
  have h1 : PSpec.w 2 1 = 0 := by
    unfold PSpec.w
    norm_num
  simp [List.range_succ, h0, h1]

/-- **C131** one NaN among the samples covered by the segments makes every entry of the spectrum NaN; the frequencies are
those of clean data. -/
theorem C131_nan (x : List (Fl ℝ)) (fs : Fl ℝ) (overlap : Int) (N : Nat) (onesided : Bool) (h1 : 1 ≤ N)
    (hn : N ≤ x.length) (ho : overlap < N) (j m : Nat)
    (hj : (j : Int) < ((x.length : Int) - overlap) / ((N : Int) - overlap)) (hm : m < N)
    (hx : x[j * ((N : Int) - overlap).toNat + m]? = some nan) :
    powerSpectra x fs overlap N onesided =
      .ok (freqs N fs onesided, List.replicate (if onesided then N / 2 + 1 else N) nan) := by
  obtain ⟨w, hw, hl⟩ := hann_ok (F := Fl ℝ) N
  have hne : x ≠ [] := by rintro rfl; simp at hn; omega
  have hj' : j < count x.length overlap N := by unfold count; omega
  have hfit := seg_fit ho hj'
  unfold powerSpectra
  rw [hw]
  simp only [bind, Except.bind]
  unfold welch
  rw [if_neg (by simpa using hne), hl, if_neg (by omega), if_neg (by omega), if_neg (by omega)]
  congr 2
  rw [List.eq_replicate_iff]
  refine ⟨by simp, ?_⟩
  intro b hb
  obtain ⟨k, -, rfl⟩ := List.mem_map.mp hb
  apply average_nan
  rw [List.mem_map]
  refine ⟨j, List.mem_range.mpr hj', ?_⟩
  have hseglen : (Spectrum.segment x overlap N j).length = N := by
    unfold Spectrum.segment
    rw [List.length_take, List.length_drop]
    omega
  have hmem : nan ∈ Spectrum.segment x overlap N j := by
    unfold Spectrum.segment
    rw [List.mem_iff_getElem?]
    refine ⟨m, ?_⟩
    rw [List.getElem?_take, if_pos hm, List.getElem?_drop, hx]
  unfold scaled
  rw [hl, power_nan w _ (by rw [hl, hseglen]) hmem]
  simp

/-- the hypotheses of `C131_nan` are met by a NaN in the middle of five samples, blocks of three sharing one sample -/
example : powerSpectra [fin 1, fin 2, nan, fin 4, (fin 5 : Fl ℝ)] (fin 10) 1 3 true = .ok (freqs 3 (fin 10) true, [nan, nan]) :=
  C131_nan _ _ 1 3 true (by norm_num) (by simp) (by norm_num) 1 0 (by norm_num) (by norm_num) (by simp)

/-- **C131** blocks of two samples: both ends of the symmetric Hann window are 0, so every spectrum of finite data is NaN. -/
theorem C131_block_two (x : List ℝ) (fs : ℝ) (overlap : Int) (onesided : Bool) (hn : 2 ≤ x.length) (ho : overlap < 2) :
    powerSpectra (fins x) (fin fs) overlap 2 onesided = .ok (freqs 2 (fin fs) onesided, [nan, nan]) := by
  have hne : x ≠ [] := by rintro rfl; simp at hn
  have hlx : (fins x).length = x.length := by simp [fins]
  have hcount := count_pos x.length overlap 2 hn ho
  have hs : ∀ k, scaled (fins x) (fin fs) [fin 0, fin 0] overlap onesided k 0 = nan := by
    intro k
    have hseg := segment_fin x overlap 2 0 ho hcount
    have hpow : power [(fin 0 : Fl ℝ), fin 0] (Spectrum.segment (fins x) overlap 2 0) k = fin 0 := by
      have hw : [(fin 0 : Fl ℝ), fin 0] = (List.range 2).map (fun i => (fin (PSpec.w 2 i) : Fl ℝ)) := by
        have := hann_fin 2 (le_refl 2)
        rw [show ((2 : ℕ) : Int) = 2 from rfl, hann_two] at this
        exact Except.ok.inj this
      rw [hseg, hw, power_fin (by norm_num)]
      have hw0 : ∀ i, i < 2 → PSpec.w 2 i = 0 := by
        intro i hi
        interval_cases i
        · simp [PSpec.w]
        · unfold PSpec.w; norm_num
      have : PSpec.dft 2 (PSpec.a 2 (fun m => x.getD (0 * (((2 : ℕ) : Int) - overlap).toNat + m) 0)) k = 0 := by
        unfold PSpec.dft
        apply Finset.sum_eq_zero
        intro m hm
        simp [PSpec.a, hw0 m (Finset.mem_range.mp hm)]
      rw [this]
      norm_num
    have hsum : PyNum.sum ([(fin 0 : Fl ℝ), fin 0].map (fun w => w *. w)) = fin 0 := by
      have : [(fin 0 : Fl ℝ), fin 0].map (fun w => w *. w) = fins [0, 0] := by simp [fins]
      rw [this, psum_fin]; simp
    have hinf : (lit 1 /. (fin fs *. fin 0) : Fl ℝ) = pinf := by
      rw [pmul_fin, mul_zero, lit_eq]
      show Fl.div (fin _) (fin 0) = pinf
      simp [Fl.div, infSgn]
    unfold scaled
    simp only [List.length_cons, List.length_nil, Nat.zero_add, Nat.reduceAdd]
    rw [hpow, hsum, hinf]
    have : (fin 0 *. pinf : Fl ℝ) = nan := by
      show Fl.mul (fin 0) pinf = nan
      simp [Fl.mul, infSgn]
    rw [this]
    simp
  unfold powerSpectra
  rw [hann_two]
  simp only [bind, Except.bind]
  unfold welch
  rw [if_neg (by simpa [fins] using hne), hlx]
  simp only [List.length_cons, List.length_nil, Nat.zero_add, Nat.reduceAdd]
  rw [if_neg (by omega), if_neg (by exact_mod_cast not_le.mpr ho), if_neg (by norm_num)]
  have hav : ∀ k, average ((List.range (count x.length overlap 2)).map
      (scaled (fins x) (fin fs) [fin 0, fin 0] overlap onesided k)) = nan := by
    intro k
    apply average_nan
    rw [List.mem_map]
    exact ⟨0, List.mem_range.mpr hcount, hs k⟩
  simp only [hav]
  cases onesided <;> simp [List.range_succ]

/-! ## A concrete spectrum: the hypotheses of C126–C130 are met and the values are not trivial -/

/-- one spike in three samples, one block: the one-sided spectrum sums to `4 / 3` (area `4 / 9`) -/
example : ∃ f ps, powerSpectra (fins [(0 : ℝ), 1, 0]) (fin 1) 0 3 true = .ok (f, fins ps) ∧ ps.sum = 4 / 3 := by
  obtain ⟨f, ps, h, hs⟩ := C128_parseval [0, 1, 0] 1 one_ne_zero 0 3 true (le_refl 3) (by simp) (by norm_num) 1 3 (by simp) (by simp)
  refine ⟨f, ps, h, ?_⟩
  have w0 : PSpec.w 3 0 = 0 := by simp [PSpec.w]
  have w1 : PSpec.w 3 1 = 1 := by
    unfold PSpec.w
    rw [show 2 * Real.pi * ((1 : ℕ) : ℝ) / (((3 : ℕ) : ℝ) - 1) = Real.pi by push_cast; ring, Real.cos_pi]
    norm_num
  have w2 : PSpec.w 3 2 = 0 := by
    unfold PSpec.w
    rw [show 2 * Real.pi * ((2 : ℕ) : ℝ) / (((3 : ℕ) : ℝ) - 1) = 2 * Real.pi by push_cast; ring, Real.cos_two_pi]
    norm_num
  simp only [Finset.sum_range_succ, Finset.sum_range_zero, w0, w1, w2] at hs
  norm_num at hs
  linarith [hs]

/-- reversal, with blocks of three sharing one sample of five -/
example (fs : ℝ) (hfs : fs ≠ 0) : powerSpectra (fins [(9 : ℝ), 2, 0, 4, 1]) (fin fs) 1 3 true = powerSpectra (fins [(1 : ℝ), 4, 0, 2, 9]) (fin fs) 1 3 true :=
  C130_reverse [1, 4, 0, 2, 9] fs hfs 1 3 true (le_refl 3) (by simp) (by norm_num) (by norm_num)

end Proadv.Props
