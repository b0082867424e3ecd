import Verif.Props.Acceleration
import Verif.Props.CorrelationSpike

/-!
# C201 A high spike in `acceleration_thresholding`
-/

set_option linter.unusedSectionVars false

namespace Proadv.Props

open Proadv Proadv.Detect Proadv.Fl Finset

private theorem quad_pos (a b c : ℝ) (ha : 0 < a) : ∃ M0, ∀ M, M0 ≤ M → 0 < a * M ^ 2 + b * M + c := by
  refine ⟨(|b| + |c|) / a + 1, fun M hM => ?_⟩
  have h0 : 0 ≤ (|b| + |c|) / a := by positivity
  have h1 : 1 ≤ M := by linarith
  have h2 : |b| + |c| + a ≤ a * M := by
    have : (|b| + |c|) / a ≤ M - 1 := by linarith
    rw [div_le_iff₀ ha] at this; linarith
  have h3 : -|b| ≤ b := neg_abs_le b
  have h4 : -|c| ≤ c := neg_abs_le c
  have h5 : (|c| + a) * 1 ≤ (a * M - |b|) * M := mul_le_mul (by linarith) h1 (by norm_num) (by linarith [abs_nonneg c])
  nlinarith [mul_le_mul_of_nonneg_right h3 (by linarith : 0 ≤ M)]

private theorem up_far (xs : List ℝ) (f t ks : ℝ) (hf : 0 < f) (hn : 1 + ks ^ 2 < xs.length)
    (i : Nat) (h1 : 1 ≤ i) (hi : i < xs.length) :
    ∃ M0, ∀ M, M0 ≤ M → UpEvent (spiked xs i M) f t
      (Spec.avg (spiked xs i M) + ks * √(Spec.var (spiked xs i M))) i := by
  set n : ℝ := (xs.length : ℝ) with hnd
  have hn0 : 0 < n := by nlinarith [sq_nonneg ks]
  have hn1 : 1 < n := by nlinarith [sq_nonneg ks]
  set d := xs.getD i 0 - Spec.avg xs with hd
  set V := Spec.var xs with hV
  obtain ⟨M1, H1⟩ := quad_pos ((n - 1) * (n - 1 - ks ^ 2) / n ^ 2) (2 * d * (1 - 1 / n) - 2 * d * ks ^ 2 / n) (d ^ 2 - ks ^ 2 * V)
    (by apply div_pos (mul_pos (by linarith) (by linarith)) (by positivity))
  have hpos : 0 < 1 - 1 / n := by
    rw [sub_pos, div_lt_one hn0]; exact hn1
  refine ⟨max M1 (max ((|d| + 1) / (1 - 1 / n)) (|t| / f + |xs.getD (i - 1) 0 - xs.getD i 0| + 1)), fun M hM => ?_⟩
  have hM1 := (le_max_left _ _).trans hM
  have hM2 := (le_max_left _ _).trans ((le_max_right _ _).trans hM)
  have hM3 := (le_max_right _ _).trans ((le_max_right _ _).trans hM)
  have hl := spiked_length xs i M
  refine ⟨(spiked xs i M).getD i 0, (spiked xs i M).getD (i - 1) 0, h1, ?_, ?_, ?_, ?_⟩
  · rw [List.getD, List.getElem?_eq_getElem (by omega)]; rfl
  · rw [List.getD, List.getElem?_eq_getElem (by omega)]; rfl
  · rw [spiked_getD xs i M hi, spiked_getD xs i M hi, if_pos rfl, if_neg (by omega), add_zero]
    have h2 : |t| / f + 1 ≤ xs.getD i 0 + M - xs.getD (i - 1) 0 := by
      linarith [le_abs_self (xs.getD (i - 1) 0 - xs.getD i 0)]
    have h3 : |t| < (xs.getD i 0 + M - xs.getD (i - 1) 0) * f := by
      rw [← div_lt_iff₀ hf]; linarith
    exact lt_of_le_of_lt (le_abs_self t) h3
  · rw [spiked_getD xs i M hi, if_pos rfl, spiked_avg xs i M hi, ← hnd]
    have hL : 0 < d + M * (1 - 1 / n) := by
      rw [div_le_iff₀ hpos] at hM2
      linarith [neg_abs_le d]
    have hs : ks * √(Spec.var (spiked xs i M)) < d + M * (1 - 1 / n) := by
      apply lt_of_pow_lt_pow_left₀ 2 hL.le
      rw [mul_pow, Real.sq_sqrt (Spec.var_nonneg _), var_spiked xs i M hi, ← hnd, ← hd, ← hV]
      have := H1 M hM1
      have e : (d + M * (1 - 1 / n)) ^ 2 - ks ^ 2 * (V + 2 * M * d / n + M ^ 2 * (1 - 1 / n) / n) =
        (n - 1) * (n - 1 - ks ^ 2) / n ^ 2 * M ^ 2 + (2 * d * (1 - 1 / n) - 2 * d * ks ^ 2 / n) * M + (d ^ 2 - ks ^ 2 * V) := by
        field_simp; ring
      linarith
    have e : xs.getD i 0 + M = Spec.avg xs + M / n + (d + M * (1 - 1 / n)) := by rw [hd]; ring
    rw [e]; linarith

private theorem neg_spiked (xs : List ℝ) (i : Nat) (hi : i < xs.length) (M : ℝ) :
    (spiked xs i M).map (fun x => -x) = spiked (xs.map (fun x => -x)) i (-M) := by
  unfold spiked
  rw [List.map_set]
  congr 1
  simp [List.getD, hi]; ring

/-- **C201** in a series of more than `1 + k_sigma ^ 2` samples every sufficiently high upward spike at a sample other than
the first is flagged with tag 1, and every sufficiently deep downward one with tag 2. -/
theorem C201_detects (b : Bool) (xs : List ℝ) (f g kg ks : ℝ) (hf : 0 < f) (ht : 0 ≤ kg * g)
    (hn : 1 + ks ^ 2 < xs.length) (i : Nat) (h1 : 1 ≤ i) (hi : i < xs.length) :
    ∃ M0, ∀ M, M0 ≤ M →
      (∃ r, acceleration ⟨1, b, fins (spiked xs i M)⟩ (fin f) 1 (fin g) (fin kg) (fin ks : Fl ℝ) = .ok r ∧ i ∈ r) ∧
      (∃ r, acceleration ⟨1, b, fins (spiked xs i (-M))⟩ (fin f) 2 (fin g) (fin kg) (fin ks : Fl ℝ) = .ok r ∧ i ∈ r) := by
  obtain ⟨M1, H1⟩ := up_far xs f (kg * g) ks hf hn i h1 hi
  obtain ⟨M2, H2⟩ := up_far (xs.map (fun x => -x)) f (kg * g) ks hf (by simpa using hn) i h1 (by simpa using hi)
  have hne : ∀ M, spiked xs i M ≠ [] := fun M h => by
    have := spiked_length xs i M
    rw [h] at this; simp at this; omega
  refine ⟨max M1 M2, fun M hM => ⟨?_, ?_⟩⟩
  · obtain ⟨r, hr, -, hm⟩ := C60_exact_up b (spiked xs i M) (hne M) f g kg ks ht
    exact ⟨r, hr, (hm i).mpr (H1 M ((le_max_left _ _).trans hM))⟩
  · obtain ⟨r, hr, -, hm⟩ := C60_exact_down b (spiked xs i (-M)) (hne (-M)) f g kg ks ht
    refine ⟨r, hr, (hm i).mpr ?_⟩
    have h := H2 M ((le_max_right _ _).trans hM)
    have e : spiked (xs.map (fun x => -x)) i M = (spiked xs i (-M)).map (fun x => -x) := by
      rw [neg_spiked xs i hi, neg_neg]
    rw [e] at h
    set L := spiked xs i (-M)
    have ea : Spec.avg (L.map (fun x => -x)) = -Spec.avg L := by
      have := Spec.avg_affine (-1) 0 (hne (-M))
      simpa using this
    have ev : Spec.var (L.map (fun x => -x)) = Spec.var L := by
      have := Spec.cmoment_affine 2 (-1) 0 (hne (-M))
      simpa [Spec.var] using this
    rw [ea, ev] at h
    obtain ⟨x, y, h0, hx, hy, hxy, hlt⟩ := h
    rw [List.getElem?_map, Option.map_eq_some_iff] at hx hy
    obtain ⟨x', hx, rfl⟩ := hx
    obtain ⟨y', hy, rfl⟩ := hy
    refine ⟨x', y', h0, hx, hy, by linarith, ?_⟩
    show x' < Spec.avg L - ks * √(Spec.var L)
    linarith

/-- **C201** the first sample is never flagged, whatever its height. -/
theorem C201_first (b : Bool) (xs : List ℝ) (hne : xs ≠ []) (f g kg ks : ℝ) (ht : 0 ≤ kg * g) (tag : Int) (r : List Nat)
    (h : acceleration ⟨1, b, fins xs⟩ (fin f) tag (fin g) (fin kg) (fin ks : Fl ℝ) = .ok r) : 0 ∉ r := by
  rcases ((C60_errors _ _ _ _ _ _).1.mp ⟨r, h⟩).2.2 with rfl | rfl
  · obtain ⟨r', h1, -, h3⟩ := C60_exact_up b xs hne f g kg ks ht
    rw [h] at h1
    obtain rfl := Except.ok.inj h1
    intro h0
    obtain ⟨_, _, hlt, _⟩ := (h3 0).mp h0
    exact absurd hlt (lt_irrefl 0)
  · obtain ⟨r', h1, -, h3⟩ := C60_exact_down b xs hne f g kg ks ht
    rw [h] at h1
    obtain rfl := Except.ok.inj h1
    intro h0
    obtain ⟨_, _, hlt, _⟩ := (h3 0).mp h0
    exact absurd hlt (lt_irrefl 0)

/-- hypotheses of `C201_detects` with the default factors of the function (1.5 and 1) and the minimal three samples -/
example : ∃ M0, ∀ M, M0 ≤ M →
      (∃ r, acceleration ⟨1, false, fins (spiked [3, 1, 4] 2 M)⟩ (fin 100) 1 (fin 980) (fin (3 / 2)) (fin 1 : Fl ℝ) = .ok r ∧ 2 ∈ r) ∧
      (∃ r, acceleration ⟨1, false, fins (spiked [3, 1, 4] 2 (-M))⟩ (fin 100) 2 (fin 980) (fin (3 / 2)) (fin 1 : Fl ℝ) = .ok r ∧ 2 ∈ r) :=
  C201_detects false [3, 1, 4] 100 980 (3 / 2) 1 (by norm_num) (by norm_num) (by norm_num) 2 (by norm_num) (by simp)

end Proadv.Props
