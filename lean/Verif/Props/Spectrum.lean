import Verif.Model.Spectrum
import Verif.Props.Bivariate2
import Mathlib.Analysis.SpecialFunctions.Trigonometric.Bounds
import Mathlib.RingTheory.RootsOfUnity.Complex

/-!
# C126–C129: `power_spectra` from samples to spectrum
-/

set_option linter.unusedSectionVars false

namespace Proadv.Props

open Proadv Spectrum Bivariate Fl

/-! ## Errors and shapes, every float arithmetic -/

section anyF
variable {F : Type} [PyMath F]

theorem hann_ok (M : Nat) : ∃ w : List F, hann (M : Int) = .ok w ∧ w.length = M := by
  unfold hann
  rw [if_neg (by omega)]
  split
  · exact ⟨_, rfl, by simp⟩
  · exact ⟨_, rfl, by simp⟩

/-- **C126** which arguments `power_spectra` rejects, and the sizes of what it returns, for every float arithmetic. -/
theorem C126_errors (x : List F) (fs : F) (overlap block : Int) (onesided : Bool) :
    (block < 0 → powerSpectra x fs overlap block onesided = .error .valueError) ∧
    (0 ≤ block → x = [] → powerSpectra x fs overlap block onesided = .ok ([], [])) ∧
    (x ≠ [] → ((x.length : Int) < block ∨ block ≤ overlap) → powerSpectra x fs overlap block onesided = .error .valueError) ∧
    (1 ≤ block → block ≤ x.length → overlap < block → ∃ f p, powerSpectra x fs overlap block onesided = .ok (f, p) ∧
      f.length = (if onesided then block.toNat / 2 + 1 else block.toNat) ∧ p.length = f.length) := by
  have hneg : block < 0 → powerSpectra x fs overlap block onesided = .error .valueError := by
    intro h
    unfold powerSpectra hann
    rw [if_pos h]; rfl
  refine ⟨hneg, ?_, ?_, ?_⟩
  · intro hb hx
    subst hx
    obtain ⟨M, rfl⟩ := Int.eq_ofNat_of_zero_le hb
    obtain ⟨w, hw, -⟩ := hann_ok (F := F) M
    unfold powerSpectra
    simp only [bind, Except.bind]
    rw [hw]
    rfl
  · intro hx h
    by_cases hb : block < 0
    · exact hneg hb
    · obtain ⟨M, rfl⟩ := Int.eq_ofNat_of_zero_le (not_lt.mp hb)
      obtain ⟨w, hw, hl⟩ := hann_ok (F := F) M
      unfold powerSpectra welch
      simp only [bind, Except.bind]
      rw [hw]
      simp only
      rw [if_neg (by simpa using hx), hl]
      split
      · rfl
      · rw [if_pos]
        rcases h with h | h
        · exfalso; omega
        · exact h
  · intro h1 h2 h3
    obtain ⟨M, rfl⟩ := Int.eq_ofNat_of_zero_le (by omega : 0 ≤ block)
    obtain ⟨w, hw, hl⟩ := hann_ok (F := F) M
    have hx : x ≠ [] := by rintro rfl; simp at h2; omega
    unfold powerSpectra welch
    simp only [bind, Except.bind]
    rw [hw]
    simp only
    rw [if_neg (by simpa using hx), hl, if_neg (by omega), if_neg (by simpa using h3), if_neg (by omega)]
    refine ⟨_, _, rfl, ?_, ?_⟩
    · unfold freqs
      simp only [Int.toNat_natCast]
      split <;> simp
    · unfold freqs
      split <;> simp

/-- **C127** trailing samples are ignored: two series of the same length that agree on the samples covered by whole
segments, `(count - 1) * (block - overlap) + block` of them, have the same spectrum, for every float arithmetic. -/
theorem C127_tail (x y : List F) (fs : F) (overlap block : Int) (onesided : Bool) (hlen : x.length = y.length)
    (h : ∀ i : Nat, (i : Int) < (((x.length : Int) - overlap) / (block - overlap) - 1) * (block - overlap) + block → x[i]? = y[i]?) :
    powerSpectra x fs overlap block onesided = powerSpectra y fs overlap block onesided := by
  by_cases hb : block < 0
  · rw [(C126_errors x fs overlap block onesided).1 hb, (C126_errors y fs overlap block onesided).1 hb]
  · obtain ⟨M, rfl⟩ := Int.eq_ofNat_of_zero_le (not_lt.mp hb)
    obtain ⟨w, hw, hl⟩ := hann_ok (F := F) M
    unfold powerSpectra
    simp only [bind, Except.bind]
    rw [hw]
    simp only
    unfold welch
    have he : x.isEmpty = y.isEmpty := by
      rw [Bool.eq_iff_iff]; simp only [List.isEmpty_iff]; rw [← List.length_eq_zero_iff, hlen, List.length_eq_zero_iff]
    rw [he, hlen, hl]
    split
    · rfl
    split
    · rfl
    split
    · rfl
    split
    · rfl
    rename_i h1 h2 h3 h4
    congr 2
    apply List.map_congr_left
    intro k _
    congr 1
    apply List.map_congr_left
    intro j hj
    have hj' : j < count y.length overlap M := by simpa using hj
    unfold scaled
    have hseg : Spectrum.segment x overlap w.length j = Spectrum.segment y overlap w.length j := by
      unfold Spectrum.segment
      apply List.ext_getElem?
      intro i
      rw [List.getElem?_take, List.getElem?_take, List.getElem?_drop, List.getElem?_drop, hl]
      split
      · rename_i hi
        apply h
        have h3' : overlap < M := by omega
        unfold count at hj'
        rw [hlen]
        set q := ((y.length : Int) - overlap) / ((M : Int) - overlap) with hq
        have hjq : (j : Int) ≤ q - 1 := by omega
        have hpos : 0 ≤ (M : Int) - overlap := by omega
        have hmul := mul_le_mul_of_nonneg_right hjq hpos
        have e : ((j * ((M : Int) - overlap).toNat + i : ℕ) : Int) = (j : Int) * ((M : Int) - overlap) + i := by
          push_cast
          rw [Int.toNat_of_nonneg hpos]
        rw [e]
        omega
      · rfl
    rw [hseg]

end anyF

/-! ## Exact values -/

namespace PSpec

noncomputable section

/-- the symmetric Hann window of `N` points -/
def w (N i : Nat) : ℝ := 1 / 2 - 1 / 2 * Real.cos (2 * Real.pi * i / ((N : ℝ) - 1))

/-- mean of `N` consecutive samples -/
def segMean (N : Nat) (s : Nat → ℝ) : ℝ := (∑ m ∈ Finset.range N, s m) / N

/-- windowed, centred sample -/
def a (N : Nat) (s : Nat → ℝ) (m : Nat) : ℝ := w N m * (s m - segMean N s)

/-- discrete Fourier transform of `N` samples -/
def dft (N : Nat) (b : Nat → ℝ) (k : Nat) : ℂ :=
  ∑ m ∈ Finset.range N, (b m : ℂ) * Complex.exp (-(2 * Real.pi * (k * m) / N : ℝ) * Complex.I)

/-- sum of the squared window -/
def w2 (N : Nat) : ℝ := ∑ i ∈ Finset.range N, w N i ^ 2

/-- modified periodogram of one segment, as a density -/
def periodogram (N : Nat) (fs : ℝ) (s : Nat → ℝ) (k : Nat) : ℝ := ‖dft N (a N s) k‖ ^ 2 / (fs * w2 N)

/-- one-sided spectra count every frequency strictly between 0 and Nyquist twice -/
def mult (onesided : Bool) (N k : Nat) : ℝ := if onesided ∧ 0 < k ∧ 2 * k < N then 2 else 1

/-- Welch's estimate: the average of the periodograms of `c` segments that start `h` samples apart -/
def welch (N h c : Nat) (fs : ℝ) (x : List ℝ) (onesided : Bool) (k : Nat) : ℝ :=
  mult onesided N k * ((∑ j ∈ Finset.range c, periodogram N fs (fun m => x.getD (j * h + m) 0) k) / c)

end

end PSpec

theorem hann_fin (N : Nat) (h2 : 2 ≤ N) : hann (N : Int) = .ok ((List.range N).map (fun i => (fin (PSpec.w N i) : Fl ℝ))) := by
  unfold hann
  rw [if_neg (by omega), if_neg (by omega)]
  congr 1
  rw [Int.toNat_natCast]
  apply List.map_congr_left
  intro i hi
  have hi' : i < N := List.mem_range.mp hi
  have hN : ((N - 1 : ℕ) : ℝ) ≠ 0 := by
    have : N - 1 ≠ 0 := by omega
    exact_mod_cast this
  have hN' : (N : ℝ) - 1 ≠ 0 := by
    have : ((N - 1 : ℕ) : ℝ) = (N : ℝ) - 1 := by push_cast [Nat.cast_sub (by omega : 1 ≤ N)]; ring
    rw [← this]; exact hN
  have hc : ((N - 1 : ℕ) : ℝ) = (N : ℝ) - 1 := by push_cast [Nat.cast_sub (by omega : 1 ≤ N)]; ring
  have hcos : ∀ t : ℝ, t = 2 * Real.pi * i / ((N : ℝ) - 1) - Real.pi →
      (lit 0 +. lit (1 / 2) *. PyMath.cos (ofNat 0 *. fin t) +. lit (1 / 2) *. PyMath.cos (ofNat 1 *. fin t) : Fl ℝ) =
        fin (PSpec.w N i) := by
    intro t ht
    simp only [lit_eq, ofNat_eq, pmul_fin, pcos_fin, padd_fin]
    congr 1
    unfold PSpec.w
    rw [ht]
    push_cast
    rw [zero_mul, Real.cos_zero, one_mul, Real.cos_sub_pi]
    ring
  simp only
  split
  · rename_i hl
    show (lit 0 +. lit (1 / 2) *. PyMath.cos (ofNat 0 *. fin Real.pi) +. lit (1 / 2) *. PyMath.cos (ofNat 1 *. fin Real.pi) : Fl ℝ) = _
    apply hcos
    have : (i : ℝ) = (N : ℝ) - 1 := by
      have : (i : ℝ) + 1 = N := by exact_mod_cast hl
      linarith
    rw [this]
    field_simp
    ring
  · have e : (ofNat i *. ((PyMath.pi -. PyNum.neg PyMath.pi) /. ofNat (N - 1)) +. PyNum.neg PyMath.pi : Fl ℝ) =
        fin (2 * Real.pi * i / ((N : ℝ) - 1) - Real.pi) := by
      show (ofNat i *. ((fin Real.pi -. PyNum.neg (fin Real.pi)) /. ofNat (N - 1)) +. PyNum.neg (fin Real.pi) : Fl ℝ) = _
      simp only [ofNat_eq, pneg_fin, psub_fin, pdiv_fin hN, pmul_fin, padd_fin]
      congr 1
      rw [hc]
      field_simp
      ring
    rw [e]
    exact hcos _ rfl

theorem w2_pos {N : Nat} (h : 3 ≤ N) : 0 < PSpec.w2 N := by
  unfold PSpec.w2
  have h1 : 0 < PSpec.w N 1 ^ 2 := by
    have hN : (3 : ℝ) ≤ N := by exact_mod_cast h
    have : Real.cos (2 * Real.pi * (1 : ℕ) / ((N : ℝ) - 1)) < 1 := by
      have hx0 : 0 < 2 * Real.pi * (1 : ℕ) / ((N : ℝ) - 1) := by
        apply div_pos
        · have := Real.pi_pos; push_cast; linarith
        · linarith
      have hx1 : 2 * Real.pi * (1 : ℕ) / ((N : ℝ) - 1) ≤ Real.pi := by
        rw [div_le_iff₀ (by linarith)]
        have := Real.pi_pos
        push_cast
        nlinarith
      have := Real.cos_lt_cos_of_nonneg_of_le_pi (le_refl 0) hx1 hx0
      rwa [Real.cos_zero] at this
    have hw : 0 < PSpec.w N 1 := by unfold PSpec.w; linarith
    positivity
  exact lt_of_lt_of_le h1 (Finset.single_le_sum (f := fun i => PSpec.w N i ^ 2) (fun i _ => sq_nonneg _) (Finset.mem_range.mpr (by omega)))

theorem norm_dft (N : Nat) (b : Nat → ℝ) (k : Nat) : ‖PSpec.dft N b k‖ ^ 2 =
    (∑ m ∈ Finset.range N, b m * Real.cos (2 * Real.pi * (k * m) / N)) ^ 2 +
    (∑ m ∈ Finset.range N, b m * Real.sin (2 * Real.pi * (k * m) / N)) ^ 2 := by
  have hre : (PSpec.dft N b k).re = ∑ m ∈ Finset.range N, b m * Real.cos (2 * Real.pi * (k * m) / N) := by
    unfold PSpec.dft
    rw [Complex.re_sum]
    apply Finset.sum_congr rfl
    intro m _
    rw [← Complex.ofReal_neg, Complex.re_ofReal_mul, Complex.exp_ofReal_mul_I_re, Real.cos_neg]
  have him : (PSpec.dft N b k).im = -∑ m ∈ Finset.range N, b m * Real.sin (2 * Real.pi * (k * m) / N) := by
    unfold PSpec.dft
    rw [Complex.im_sum, ← Finset.sum_neg_distrib]
    apply Finset.sum_congr rfl
    intro m _
    rw [← Complex.ofReal_neg, Complex.im_ofReal_mul, Complex.exp_ofReal_mul_I_im, Real.sin_neg]
    ring
  rw [← Complex.normSq_eq_norm_sq, Complex.normSq_apply, hre, him]
  ring

theorem power_fin {N : Nat} (hN : 0 < N) (s : Nat → ℝ) (k : Nat) :
    power ((List.range N).map (fun i => (fin (PSpec.w N i) : Fl ℝ))) ((List.range N).map (fun m => fin (s m))) k =
      fin (‖PSpec.dft N (PSpec.a N s) k‖ ^ 2) := by
  have hmean : npMean ((List.range N).map (fun m => (fin (s m) : Fl ℝ))) = fin (PSpec.segMean N s) := by
    have : (List.range N).map (fun m => (fin (s m) : Fl ℝ)) = fins ((List.range N).map s) := by
      unfold fins; rw [List.map_map]; rfl
    rw [this, npMean_fins _ (by simp; omega), sum_range_list]
    simp [PSpec.segMean]
  have hz : List.zipWith (fun w v => w *. v) ((List.range N).map (fun i => (fin (PSpec.w N i) : Fl ℝ)))
      (detrend ((List.range N).map (fun m => fin (s m)))) = (List.range N).map (fun m => fin (PSpec.a N s m)) := by
    unfold detrend
    rw [hmean, List.map_map, List.zipWith_map, List.zipWith_self]
    apply List.map_congr_left
    intro m _
    simp [PSpec.a]
  unfold power
  simp only [hz]
  rw [fft_row N hN, norm_dft]
  simp only [pmul_fin, pneg_fin, psub_fin]
  congr 1
  ring

theorem seg_fit {n : Nat} {overlap : Int} {N j : Nat} (ho : overlap < N) (hj : j < count n overlap N) :
    j * ((N : Int) - overlap).toNat + N ≤ n := by
  unfold count at hj
  have hq : ((j : Int) + 1) ≤ ((n : Int) - overlap) / ((N : Int) - overlap) := by omega
  have h2 : ((j : Int) + 1) * ((N : Int) - overlap) ≤ (n : Int) - overlap :=
    (Int.le_ediv_iff_mul_le (by omega)).mp hq
  have e : ((j * ((N : Int) - overlap).toNat + N : ℕ) : Int) = (j : Int) * ((N : Int) - overlap) + N := by
    push_cast
    rw [Int.toNat_of_nonneg (by omega)]
  have h3 : ((j : Int) + 1) * ((N : Int) - overlap) = (j : Int) * ((N : Int) - overlap) + N - overlap := by ring
  omega

theorem segment_fin (x : List ℝ) (overlap : Int) (N j : Nat) (ho : overlap < N) (hj : j < count x.length overlap N) :
    Spectrum.segment (fins x) overlap N j =
      (List.range N).map (fun m => (fin (x.getD (j * ((N : Int) - overlap).toNat + m) 0) : Fl ℝ)) := by
  have hfit := seg_fit ho hj
  unfold Spectrum.segment
  apply List.ext_getElem?
  intro m
  rw [List.getElem?_take, List.getElem?_drop]
  by_cases hm : m < N
  · have hlt : j * ((N : Int) - overlap).toNat + m < x.length := by omega
    rw [if_pos hm]
    unfold fins
    rw [List.getElem?_map, List.getElem?_map, List.getElem?_range hm, List.getElem?_eq_getElem hlt]
    simp [hlt]
  · rw [if_neg hm, List.getElem?_eq_none (by simp; omega)]

theorem count_pos (n : Nat) (overlap : Int) (N : Nat) (hn : N ≤ n) (ho : overlap < N) : 0 < count n overlap N := by
  unfold count
  have : (1 : Int) ≤ ((n : Int) - overlap) / ((N : Int) - overlap) := by
    rw [Int.le_ediv_iff_mul_le (by omega)]; omega
  omega

theorem doubled_iff (N k : Nat) (hk : k < N / 2 + 1) : doubled N k = true ↔ 0 < k ∧ 2 * k < N := by
  unfold doubled
  rw [decide_eq_true_iff]
  omega

/-- **C126** the spectrum in closed form: Welch's average of Hann-windowed, mean-removed periodograms of the segments that
start `block - overlap` samples apart; frequencies `k * fs / block`. -/
theorem C126_value (x : List ℝ) (fs : ℝ) (hfs : fs ≠ 0) (overlap : Int) (N : Nat) (onesided : Bool) (h3 : 3 ≤ N)
    (hn : N ≤ x.length) (ho : overlap < N) :
    powerSpectra (fins x) (fin fs) overlap N onesided =
      .ok (if onesided then (List.range (N / 2 + 1)).map (fun k : ℕ => fin (k * fs / N))
        else (List.range N).map (fun k : ℕ => fin ((if 2 * k < N then (k : ℝ) else (k : ℝ) - N) * fs / N)),
        (List.range (if onesided then N / 2 + 1 else N)).map (fun k =>
          fin (PSpec.welch N ((N : Int) - overlap).toNat (((x.length : Int) - overlap) / ((N : Int) - overlap)).toNat fs x onesided k))) := by
  have hNR : (N : ℝ) ≠ 0 := by
    have : N ≠ 0 := by omega
    exact_mod_cast this
  have hw2 := w2_pos h3
  have hx : x ≠ [] := by rintro rfl; simp at hn; omega
  have hval : (lit 1 /. (ofNat N *. (lit 1 /. fin fs)) : Fl ℝ) = fin (fs / N) := by
    simp only [lit_eq, ofNat_eq, pdiv_fin hfs, pmul_fin]
    rw [pdiv_fin]
    · congr 1; push_cast; field_simp
    · push_cast; positivity
  have hfreq : freqs N (fin fs : Fl ℝ) onesided =
      if onesided then (List.range (N / 2 + 1)).map (fun k : ℕ => fin (k * fs / N))
        else (List.range N).map (fun k : ℕ => fin ((if 2 * k < N then (k : ℝ) else (k : ℝ) - N) * fs / N)) := by
    unfold freqs
    simp only [hval]
    split
    · apply List.map_congr_left
      intro k _
      simp only [ofNat_eq, pmul_fin]
      congr 1; ring
    · apply List.map_congr_left
      intro k _
      simp only [lit_eq, pmul_fin]
      congr 1
      by_cases hk : 2 * k < N
      · rw [if_pos hk, if_pos (by omega)]; push_cast; ring
      · rw [if_neg hk, if_neg (by omega)]; push_cast; ring
  have hlen : ((List.range N).map (fun i => (fin (PSpec.w N i) : Fl ℝ))).length = N := by simp
  have hwsum : PyNum.sum (((List.range N).map (fun i => (fin (PSpec.w N i) : Fl ℝ))).map (fun w => w *. w)) = fin (PSpec.w2 N) := by
    rw [List.map_map]
    have : (List.range N).map ((fun w => w *. w) ∘ fun i => (fin (PSpec.w N i) : Fl ℝ)) =
        fins ((List.range N).map (fun i => PSpec.w N i ^ 2)) := by
      unfold fins
      rw [List.map_map]
      apply List.map_congr_left
      intro i _
      simp [sq]
    rw [this, psum_fin, sum_range_list]
    rfl
  unfold powerSpectra
  rw [hann_fin N (by omega)]
  simp only [bind, Except.bind]
  unfold welch
  rw [if_neg (by simpa [fins] using hx), hlen, if_neg (by simp [fins]; omega), if_neg (by omega), if_neg (by omega), hfreq]
  congr 2
  apply List.map_congr_left
  intro k hk
  have hlx : (fins x).length = x.length := by simp [fins]
  rw [hlx]
  set c := count x.length overlap N with hc
  have hcpos : 0 < c := count_pos _ _ _ hn ho
  have hscaled : ∀ j ∈ List.range c, scaled (fins x) (fin fs) ((List.range N).map (fun i => (fin (PSpec.w N i) : Fl ℝ))) overlap onesided k j =
      fin (PSpec.mult onesided N k * PSpec.periodogram N fs (fun m => x.getD (j * ((N : Int) - overlap).toNat + m) 0) k) := by
    intro j hj
    have hj' : j < c := List.mem_range.mp hj
    unfold scaled
    simp only [hlen, hwsum]
    rw [segment_fin x overlap N j ho (hc ▸ hj'), power_fin (by omega)]
    simp only [lit_eq, pmul_fin]
    rw [pdiv_fin (mul_ne_zero hfs hw2.ne')]
    simp only [pmul_fin]
    have hm : (onesided && doubled N k) = true ↔ (onesided = true ∧ 0 < k ∧ 2 * k < N) := by
      cases onesided
      · simp
      · simp only [Bool.true_and, true_and]
        exact doubled_iff N k (by simpa using hk)
    by_cases hd : (onesided && doubled N k) = true
    · rw [if_pos hd]
      unfold PSpec.mult PSpec.periodogram
      rw [if_pos (by simpa using hm.mp hd)]
      congr 1; push_cast; ring
    · rw [if_neg hd]
      unfold PSpec.mult PSpec.periodogram
      rw [if_neg (by simpa using fun h => hd (hm.mpr h))]
      congr 1; push_cast; ring
  rw [List.map_congr_left hscaled]
  have havg : ∀ l : List ℝ, l ≠ [] → average (fins l) = fin (l.sum / l.length) := by
    intro l hl
    unfold average
    split
    · rename_i v hv
      cases l with
      | nil => exact absurd rfl hl
      | cons a t =>
        cases t with
        | nil => simp [fins] at hv ⊢; exact hv.symm
        | cons b t => simp [fins] at hv
    · exact npMean_fins l hl
  have hfins : (List.range c).map (fun j => (fin (PSpec.mult onesided N k *
      PSpec.periodogram N fs (fun m => x.getD (j * ((N : Int) - overlap).toNat + m) 0) k) : Fl ℝ)) =
      fins ((List.range c).map (fun j => PSpec.mult onesided N k *
        PSpec.periodogram N fs (fun m => x.getD (j * ((N : Int) - overlap).toNat + m) 0) k)) := by
    unfold fins; rw [List.map_map]; rfl
  rw [hfins, havg _ (by simp; omega), sum_range_list, ← Finset.mul_sum, List.length_map, List.length_range]
  unfold PSpec.welch
  rw [mul_div_assoc]
  rfl

end Proadv.Props
