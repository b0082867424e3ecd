import Verif.Model.SignalPrograms
import Verif.Props.SmoothLaws
import Verif.Props.KalmanLong
import Verif.Props.SpectrumLaws
import Verif.Props.Synthetic
import Verif.Props.Ssa
import Verif.Props.Kernel2
import Mathlib.Analysis.SpecialFunctions.Pow.Real

/-!
# Properties C175–C178: the programs of `examples/signal`
-/

set_option linter.unusedSectionVars false

namespace Proadv.Props

open Proadv Fl Series

variable {K : Type} [Field K] [LinearOrder K] [FloorRing K] [IsStrictOrderedRing K]

/-! ## C175: averages and singular spectrum -/

/-- **C175.** where the three averaging programs draw a trend `a + b i`: the simple average 14.5 samples late, the exponential one up
to 11.5 samples late, the weighted one 58/3 samples early and with 30 points fewer -/
theorem C175_displacement (fl : Bool) (a b : K) (n : Nat) (hn : 30 ≤ n) :
    ∃ s e w : List K,
      SignalPrograms.simpleMovingAverage ⟨1, fl, (line a b n).map fin⟩ = .ok ((line a b n).map fin, s.map fin) ∧
      SignalPrograms.exponentialAverage ⟨1, false, (line a b n).map fin⟩ = .ok ((line a b n).map fin, e.map fin) ∧
      SignalPrograms.weightedAverage ⟨1, fl, (line a b n).map fin⟩ = .ok ((line a b n).map fin, w.map fin) ∧
      s.length = n ∧ e.length = n ∧ w.length = n - 30 ∧
      (∀ i, 29 ≤ i → i < n → s.getD i 0 = a + b * ((i : K) - 29 / 2)) ∧
      (∀ i < n, e.getD i 0 = a + b * ((i : K) - 23 / 2 * (1 - (23 / 25) ^ i))) ∧
      (∀ i < n - 30, w.getD i 0 = a + b * ((i : K) + 58 / 3)) := by
  obtain ⟨s, hs, ls, vs⟩ := C162_ma fl a b n 30 (by norm_num) hn
  obtain ⟨e, he, le, ve⟩ := C162_ema a b n (by omega) (8 / 100) (by norm_num) (by norm_num)
  obtain ⟨l, w, hw, lw, vw⟩ := C162_wma a b n 30 (by norm_num) hn
  refine ⟨s, e, w, ?_, ?_, ?_, ls, le, lw, fun i h1 h2 => ?_, fun i hi => ?_, fun i hi => ?_⟩
  · unfold SignalPrograms.simpleMovingAverage
    rw [show (30 : Int) = ((30 : Nat) : Int) from rfl, hs]; rfl
  · unfold SignalPrograms.exponentialAverage
    rw [show (lit (8 / 100) : Fl K) = fin (8 / 100) by rw [lit_eq]; push_cast; rfl, he]; rfl
  · unfold SignalPrograms.weightedAverage
    rw [show (30 : Int) = ((30 : Nat) : Int) from rfl, hw]; rfl
  · rw [vs i h2, show Min.min (i + 1) 30 = 30 by omega]; push_cast; ring
  · rw [ve i hi]; norm_num
  · rw [vw i hi]; push_cast; ring

/-- **C175.** short columns: fewer than 30 samples stop the simple and the weighted program with ValueError (an empty column is drawn
by the first, rejected by the second), an empty column stops the exponential program with IndexError -/
theorem C175_short (xs : List (Fl K)) (fl : Bool) :
    (xs ≠ [] → xs.length < 30 → SignalPrograms.simpleMovingAverage ⟨1, fl, xs⟩ = .error .valueError) ∧
    SignalPrograms.simpleMovingAverage (⟨1, fl, []⟩ : Arr (Fl K)) = .ok ([], []) ∧
    (xs.length < 30 → SignalPrograms.weightedAverage ⟨1, fl, xs⟩ = .error .valueError) ∧
    SignalPrograms.exponentialAverage (⟨1, fl, []⟩ : Arr (Fl K)) = .error .indexError := by
  refine ⟨fun h1 h2 => ?_, ?_, fun h => ?_, ?_⟩
  · unfold SignalPrograms.simpleMovingAverage
    rw [(C12_errors ⟨1, fl, xs⟩ 30).2.2.2.1 (by norm_num) h1 (by simp; omega)]; rfl
  · unfold SignalPrograms.simpleMovingAverage
    rw [(C12_errors ⟨1, fl, []⟩ 30).2.1 (by norm_num) rfl]; rfl
  · unfold SignalPrograms.weightedAverage
    rw [(C17_errors xs 30).mp (Or.inr (by omega))]; rfl
  · unfold SignalPrograms.exponentialAverage
    rw [(C15_errors ⟨1, fl, []⟩ (lit (8 / 100))).2 (by rw [lit_eq, lit_eq, ple_fin]; norm_num) (by rw [lit_eq, lit_eq, plt_fin]; norm_num) rfl]
    rfl

/-- **C175.** every averaged value drawn lies within the range of the column -/
theorem C175_range (fl : Bool) (xs : List K) (hn : 30 ≤ xs.length) (lo hi : K) (h : ∀ x ∈ xs, lo ≤ x ∧ x ≤ hi) :
    ∃ s e w : List K,
      SignalPrograms.simpleMovingAverage ⟨1, fl, xs.map fin⟩ = .ok (xs.map fin, s.map fin) ∧
      SignalPrograms.exponentialAverage ⟨1, false, xs.map fin⟩ = .ok (xs.map fin, e.map fin) ∧
      SignalPrograms.weightedAverage ⟨1, fl, xs.map fin⟩ = .ok (xs.map fin, w.map fin) ∧
      ∀ v ∈ s ++ e ++ w, lo ≤ v ∧ v ≤ hi := by
  have hget : ∀ j < xs.length, lo ≤ xs.getD j 0 ∧ xs.getD j 0 ≤ hi := by
    intro j hj
    rw [List.getD_eq_getElem?_getD, List.getElem?_eq_getElem hj]
    exact h _ (List.getElem_mem hj)
  obtain ⟨s, hs, bs⟩ := C13_range fl xs 30 (by norm_num) hn lo hi (fun x hx => (h x hx).1) (fun x hx => (h x hx).2)
  obtain ⟨e, he, le, -, be, -⟩ := C15_ema xs (List.length_pos_iff.mp (by omega)) (8 / 100) (by norm_num) (by norm_num)
  refine ⟨s, e, (List.range (xs.length - 30)).map (fun k : ℕ => ((List.range 30).map (fun j : ℕ => ((j : K) + 1) * xs.getD (k + j) 0)).sum / ((30 * (30 + 1) : ℕ) / 2)),
    ?_, ?_, ?_, ?_⟩
  · unfold SignalPrograms.simpleMovingAverage
    rw [show (30 : Int) = ((30 : Nat) : Int) from rfl, hs]; rfl
  · unfold SignalPrograms.exponentialAverage
    rw [show (lit (8 / 100) : Fl K) = fin (8 / 100) by rw [lit_eq]; push_cast; rfl, he]; rfl
  · unfold SignalPrograms.weightedAverage
    rw [show (30 : Int) = ((30 : Nat) : Int) from rfl, C17_wma xs 30 (by norm_num) hn]
    simp only [bind, Except.bind]
    simp [List.map_map, Function.comp_def]
  · intro v hv
    rcases List.mem_append.mp hv with hv | hv
    · rcases List.mem_append.mp hv with hv | hv
      · exact bs v hv
      · obtain ⟨i, hi', rfl⟩ := List.mem_iff_getElem.mp hv
        exact be i hi' lo hi fun j hj => hget j (by omega)
    · obtain ⟨k, hk, rfl⟩ := List.mem_map.mp hv
      have hk' := List.mem_range.mp hk
      obtain ⟨out, y, ho, hy, b⟩ := C17_wma_range xs 30 (by norm_num) hn k hk' lo hi (fun j hj => hget _ (by omega))
      rw [C17_wma xs 30 (by norm_num) hn] at ho
      rw [← Except.ok.inj ho] at hy
      simp only [List.getElem?_map, List.getElem?_range hk', Option.map_some, Option.some.injEq, fin.injEq] at hy
      rw [← hy] at b
      exact b

/-- **C175.** the singular-spectrum program needs 100 samples, and then draws as many points as there are samples, rounded to 4
decimals -/
theorem C175_ssa {F : Type} [PyMath F] (ceilInt : F → Py Int) (eigh : Mat F → Py (Mat F)) (x : List F)
    (hceil : ceilInt (lit 100 /. lit 1) = .ok 100) :
    (x.length < 100 → ∃ e, SignalPrograms.singularSpectrum ceilInt eigh x = .error e) ∧
    ∀ E : Mat F, 100 ≤ x.length → E.rows = 100 → (∀ c, c.rows = 100 → c.cols = 100 → eigh c = .ok E) →
      ∃ raw : List F, raw.length = x.length ∧
        SignalPrograms.singularSpectrum ceilInt eigh x = .ok (x, raw.map (fun v => PyNum.around v 4)) := by
  refine ⟨fun h => ?_, fun E h1 h2 h3 => ?_⟩
  · obtain ⟨e, he⟩ := C23_ssa_rejects ceilInt eigh x _ _ 100 hceil (Or.inr (by omega))
    exact ⟨e, by unfold SignalPrograms.singularSpectrum; rw [he]; rfl⟩
  · obtain ⟨raw, hl, hr⟩ := C23_ssa_length ceilInt eigh x _ _ 100 hceil (by norm_num) (by omega) E h2 h3
    exact ⟨raw, hl, by unfold SignalPrograms.singularSpectrum; rw [hr]; rfl⟩

/-- the programs on a concrete trend, and the case distinction on short columns -/
example : ∃ s, SignalPrograms.simpleMovingAverage ⟨1, false, (line (2 : ℚ) 3 40).map fin⟩ = .ok ((line (2 : ℚ) 3 40).map fin, s) ∧ s.length = 40 := by
  obtain ⟨s, -, -, h, -, -, hl, -⟩ := C175_displacement false (2 : ℚ) 3 40 (by norm_num)
  exact ⟨_, h, by simpa using hl⟩

example : SignalPrograms.weightedAverage ⟨1, false, [(fin 3 : Fl ℚ)]⟩ = .error .valueError := (C175_short [fin 3] false).2.2.1 (by simp)

example : SignalPrograms.simpleMovingAverage ⟨1, false, [(fin 3 : Fl ℚ)]⟩ = .error .valueError :=
  (C175_short [fin 3] false).1 (by simp) (by simp)

/-! ## C176: the Kalman program -/

private theorem step_fin (q r x p z : K) (h : p + q + r ≠ 0) :
    kalmanStep (fin q : Fl K) (fin r) (fin x, fin p) (fin z) =
      .ok (fin (x + (p + q) / (p + q + r) * (z - x)), fin (r * (p + q) / (p + q + r))) := by
  unfold kalmanStep inv1
  simp only [lit_eq, pmul_fin, padd_fin, psub_fin, peq_fin, Rat.cast_one, Rat.cast_zero, one_mul, mul_one, h,
    decide_false, Bool.false_eq_true, if_false, bind, Except.bind]
  rw [pdiv_fin h]
  simp only [pmul_fin, padd_fin, psub_fin, mul_one]
  congr 4
  · field_simp
  · field_simp; ring

private theorem kalman_pull (lo hi : K) (zs : List K) (hz : ∀ z ∈ zs, lo ≤ z ∧ z ≤ hi) :
    ∀ (x p : K), 375 / 1000 ≤ p → ∃ st : List (K × K),
      kalmanLoop (fin (1 / 100) : Fl K) (fin 15) (fin x, fin p) (zs.map fin) = .ok (st.map (fun s => (fin s.1, fin s.2))) ∧
      st.length = zs.length ∧ ∀ i (h : i < st.length),
        lo - (975 / 1000) ^ (i + 1) * max 0 (lo - x) ≤ st[i].1 ∧ st[i].1 ≤ hi + (975 / 1000) ^ (i + 1) * max 0 (x - hi) := by
  induction zs with
  | nil => intro x p _; exact ⟨[], rfl, rfl, by simp⟩
  | cons z t ih =>
    intro x p hp
    have hS : 0 < p + 1 / 100 + 15 := by linarith
    obtain ⟨hz1, hz2⟩ := hz z (by simp)
    set g := (p + 1 / 100) / (p + 1 / 100 + 15) with hg
    have hg0 : 0 ≤ g := by rw [hg]; apply div_nonneg <;> linarith
    have hg1 : 25 / 1000 ≤ g := by rw [hg, le_div_iff₀ hS]; linarith
    have hg2 : g ≤ 1 := by rw [hg, div_le_one hS]; linarith
    have hp' : 375 / 1000 ≤ 15 * (p + 1 / 100) / (p + 1 / 100 + 15) := by rw [le_div_iff₀ hS]; linarith
    obtain ⟨st, h1, h2, h3⟩ := ih (fun z hz' => hz z (by simp [hz'])) (x + g * (z - x)) _ hp'
    have m1 : max 0 (lo - (x + g * (z - x))) ≤ 975 / 1000 * max 0 (lo - x) := by
      apply max_le (by positivity)
      have hm := le_max_left 0 (lo - x)
      have hm' := le_max_right 0 (lo - x)
      have a1 : (1 - g) * (lo - x) ≤ (1 - g) * max 0 (lo - x) := mul_le_mul_of_nonneg_left hm' (by linarith)
      have a2 : (1 - g) * max 0 (lo - x) ≤ 975 / 1000 * max 0 (lo - x) := mul_le_mul_of_nonneg_right (by linarith) hm
      nlinarith [mul_nonneg hg0 (sub_nonneg.mpr hz1)]
    have m2 : max 0 (x + g * (z - x) - hi) ≤ 975 / 1000 * max 0 (x - hi) := by
      apply max_le (by positivity)
      have hm := le_max_left 0 (x - hi)
      have hm' := le_max_right 0 (x - hi)
      have a1 : (1 - g) * (x - hi) ≤ (1 - g) * max 0 (x - hi) := mul_le_mul_of_nonneg_left hm' (by linarith)
      have a2 : (1 - g) * max 0 (x - hi) ≤ 975 / 1000 * max 0 (x - hi) := mul_le_mul_of_nonneg_right (by linarith) hm
      nlinarith [mul_nonneg hg0 (sub_nonneg.mpr hz2)]
    refine ⟨(x + g * (z - x), 15 * (p + 1 / 100) / (p + 1 / 100 + 15)) :: st, ?_, by simp [h2], ?_⟩
    · simp only [List.map_cons, kalmanLoop]
      rw [step_fin _ _ x p z hS.ne']
      simp only [bind, Except.bind]
      rw [← hg, h1]
    · intro i hi'
      cases i with
      | zero =>
        simp only [List.getElem_cons_zero, zero_add, pow_one]
        have e1 := le_max_right 0 (lo - (x + g * (z - x)))
        have e2 := le_max_right 0 (x + g * (z - x) - hi)
        constructor <;> linarith
      | succ i =>
        simp only [List.getElem_cons_succ]
        obtain ⟨b1, b2⟩ := h3 i (by simpa using hi')
        have hpow : (0 : K) ≤ (975 / 1000) ^ (i + 1) := by positivity
        have e1 := mul_le_mul_of_nonneg_left m1 hpow
        have e2 := mul_le_mul_of_nonneg_left m2 hpow
        rw [pow_succ (975 / 1000 : K) (i + 1)]
        constructor <;> nlinarith

/-- **C176.** the Kalman program with its built-in start (estimate 1, covariance 1) and noises (0.01 and 15): one estimate per
measurement; measurements within `[lo, hi]` pull the estimate to that interval, shrinking its distance at least by 2.5 % per
measurement -/
theorem C176_kalman (zs : List K) (lo hi : K) (hz : ∀ z ∈ zs, lo ≤ z ∧ z ≤ hi) :
    ∃ ys : List K, SignalPrograms.kalman (zs.map fin) = .ok (zs.map fin, (ys.map fin : List (Fl K))) ∧ ys.length = zs.length ∧
      ∀ i (h : i < ys.length), lo - (39 / 40) ^ (i + 1) * max 0 (lo - 1) ≤ ys[i] ∧ ys[i] ≤ hi + (39 / 40) ^ (i + 1) * max 0 (1 - hi) := by
  obtain ⟨st, h1, h2, h3⟩ := kalman_pull lo hi zs hz 1 1 (by norm_num)
  refine ⟨st.map Prod.fst, ?_, by simp [h2], ?_⟩
  · unfold SignalPrograms.kalman kalmanFilter
    have e1 : (lit 1 : Fl K) = fin 1 := by rw [lit_eq]; simp
    have e2 : (lit (1 / 100) : Fl K) = fin (1 / 100) := by rw [lit_eq]; push_cast; rfl
    have e3 : (lit 15 : Fl K) = fin 15 := by rw [lit_eq]; push_cast; rfl
    rw [e1, e2, e3, h1]
    simp [bind, Except.bind, Function.comp_def]
  · intro i h
    have h' : i < st.length := by simpa using h
    have := h3 i h'
    simp only [List.getElem_map]
    rw [show (975 / 1000 : K) = 39 / 40 by norm_num] at this
    exact this

/-- **C176.** the built-in start is forgotten: after 1000 measurements of the constant `z` the estimate is `z` to within
`10^-10` of the initial distance -/
theorem C176_forgets (z : K) (n : Nat) (hn : 1000 ≤ n) :
    ∃ ys : List K, SignalPrograms.kalman ((List.replicate n z).map fin) = .ok ((List.replicate n z).map fin, (ys.map fin : List (Fl K))) ∧
      ys.length = n ∧ |ys.getD (n - 1) 0 - z| ≤ 1 / 10 ^ 10 * |z - 1| := by
  obtain ⟨ys, h1, h2, h3⟩ := C176_kalman (List.replicate n z) z z (fun x hx => by rw [List.eq_of_mem_replicate hx]; simp)
  rw [List.length_replicate] at h2
  refine ⟨ys, h1, h2, ?_⟩
  have hi : n - 1 < ys.length := by omega
  obtain ⟨b1, b2⟩ := h3 (n - 1) hi
  have hp : ((39 : K) / 40) ^ (n - 1 + 1) ≤ 1 / 10 ^ 10 := by
    calc ((39 : K) / 40) ^ (n - 1 + 1) ≤ (39 / 40) ^ 1000 := pow_le_pow_of_le_one (by norm_num) (by norm_num) (by omega)
      _ = ((39 / 40) ^ 100) ^ 10 := by rw [← pow_mul]
      _ ≤ (1 / 10) ^ 10 := pow_le_pow_left₀ (by positivity) (by norm_num) 10
      _ = 1 / 10 ^ 10 := by norm_num
  have ha : max 0 (z - 1) ≤ |z - 1| := max_le (abs_nonneg _) (le_abs_self _)
  have hb : max 0 (1 - z) ≤ |z - 1| := max_le (abs_nonneg _) (by rw [abs_sub_comm]; exact le_abs_self _)
  have c1 : ((39 : K) / 40) ^ (n - 1 + 1) * max 0 (z - 1) ≤ 1 / 10 ^ 10 * |z - 1| :=
    mul_le_mul hp ha (le_max_left _ _) (by positivity)
  have c2 : ((39 : K) / 40) ^ (n - 1 + 1) * max 0 (1 - z) ≤ 1 / 10 ^ 10 * |z - 1| :=
    mul_le_mul hp hb (le_max_left _ _) (by positivity)
  rw [List.getD_eq_getElem?_getD, List.getElem?_eq_getElem hi, Option.getD_some, abs_le]
  constructor <;> linarith

example : ∃ ys : List ℚ, SignalPrograms.kalman ([5, 6, 7].map fin) = .ok ([5, 6, 7].map fin, (ys.map fin : List (Fl ℚ))) ∧
    ys.length = 3 ∧ ∀ i (h : i < ys.length), 5 - (39 / 40) ^ (i + 1) * 4 ≤ ys[i] := by
  obtain ⟨ys, h1, h2, h3⟩ := C176_kalman [5, 6, 7] (5 : ℚ) 7 (by simp; norm_num)
  refine ⟨ys, h1, h2, fun i h => ?_⟩
  have := (h3 i h).1
  norm_num at this
  simpa using this

/-! ## C177: the spectrum program -/

/-- **C177.** fewer than 2048 samples: ValueError -/
theorem C177_short {F : Type} [PyMath F] (xs : List F) (h : xs.length < 2048) : SignalPrograms.spectrum xs = .error .valueError := by
  unfold SignalPrograms.spectrum
  rcases eq_or_ne xs [] with rfl | hne
  · rw [(C126_errors [] _ 50 2048 true).2.1 (by norm_num) rfl]; rfl
  · rw [(C126_errors xs _ 50 2048 true).2.2.1 hne (Or.inl (by omega))]; rfl

/-- **C177.** otherwise the reference line runs from 1 Hz to 50 Hz with slope exactly -5/3 in log-log axes, and the product of its end
ordinates is the product of the smallest and the largest density; if some density is zero, both ends are zero and there is no line -/
theorem C177_line (xs : List ℝ) (h : 2048 ≤ xs.length) :
    ∃ (fs ps : List ℝ) (lo hi y₁ y₂ : ℝ), SignalPrograms.spectrum (fins xs) = .ok ((fins fs, fins ps), (fin 1, fin 50), (fin y₁, fin y₂)) ∧
      Spectrum.powerSpectra (fins xs) (fin 100) 50 2048 true = .ok (fins fs, fins ps) ∧ fs.length = 1025 ∧ ps.length = 1025 ∧ (∀ k < 1025, fs.getD k 0 = k * 100 / 2048) ∧
      (lo ∈ ps ∧ ∀ v ∈ ps, lo ≤ v) ∧ (hi ∈ ps ∧ ∀ v ∈ ps, v ≤ hi) ∧ 0 ≤ lo ∧
      (0 < lo → 0 < y₁ ∧ y₁ * y₂ = lo * hi ∧ y₂ = y₁ * 50 ^ (-5 / 3 : ℝ)) ∧ (lo = 0 → y₁ = 0 ∧ y₂ = 0) := by
  set fs := PSpec.freqs 2048 100 true with hfs
  set ps := (List.range 1025).map (fun k => PSpec.welch 2048 1998 (((xs.length : Int) - 50) / 1998).toNat 100 xs true k) with hps
  have hv : Spectrum.powerSpectra (fins xs) (fin 100) 50 2048 true = .ok (fins fs, fins ps) := by
    have := value_fins xs 100 (by norm_num) 50 2048 true (by norm_num) h (by norm_num)
    exact this
  have hnn : ∀ v ∈ ps, 0 ≤ v := by
    obtain ⟨f, ps', h1, h2⟩ := C129_nonneg xs 100 (by norm_num) 50 2048 true (by norm_num) h (by norm_num)
    have h1' := h1
    rw [show ((2048 : ℕ) : Int) = 2048 from rfl, hv] at h1'
    have e : ps = ps' := List.map_injective_iff.mpr (fun a b hab => Fl.fin.inj hab) (Prod.mk.inj (Except.ok.inj h1')).2
    rw [e]; exact h2
  have hne : ps ≠ [] := by rw [hps]; simp
  obtain ⟨lo, hlo, hlo'⟩ : ∃ lo ∈ ps, ∀ v ∈ ps, lo ≤ v := by
    have := ps.toFinset.exists_min_image id (by simpa using hne)
    simpa using this
  obtain ⟨hi, hhi, hhi'⟩ : ∃ hi ∈ ps, ∀ v ∈ ps, v ≤ hi := by
    have := ps.toFinset.exists_max_image id (by simpa using hne)
    simpa using this
  have hfval : fs = (List.range 1025).map (fun k : ℕ => (k : ℝ) * 100 / 2048) := by
    rw [hfs]; unfold PSpec.freqs; norm_num
  have htop : KernelDetect.npMax (fins fs) = .ok (fin 50 : Fl ℝ) := by
    apply npMax_fins
    · rw [hfval]; exact List.mem_map.mpr ⟨1024, by simp, by norm_num⟩
    · intro x hx
      rw [hfval] at hx
      obtain ⟨k, hk, rfl⟩ := List.mem_map.mp hx
      have : (k : ℝ) ≤ 1024 := by exact_mod_cast Nat.lt_succ_iff.mp (List.mem_range.mp hk)
      linarith
  have hl0 := hnn lo hlo
  have hlh := hlo' hi hhi
  have hL : 0 < Real.log 50 := Real.log_pos (by norm_num)
  have h50 : ¬ (50 : ℝ) < 0 := by norm_num
  have e100 : (lit 100 : Fl ℝ) = fin 100 := by rw [lit_eq]; push_cast; rfl
  have hlog50 : PyMath.log (fin 50 : Fl ℝ) = fin (Real.log 50) := plog_fin (by norm_num)
  have hlen : fs.length = 1025 ∧ ps.length = 1025 ∧ ∀ k < 1025, fs.getD k 0 = k * 100 / 2048 := by
    refine ⟨by rw [hfval]; simp, by rw [hps]; simp, fun k hk => ?_⟩
    rw [hfval, List.getD_eq_getElem?_getD, List.getElem?_map, List.getElem?_range hk]
    rfl
  clear_value fs ps
  rcases hl0.lt_or_eq with hpos | hz
  · refine ⟨fs, ps, lo, hi, Real.exp (-5 / 3 * (0 - (0 + Real.log 50) / 2) + (Real.log lo + Real.log hi) / 2),
      Real.exp (-5 / 3 * (Real.log 50 - (0 + Real.log 50) / 2) + (Real.log lo + Real.log hi) / 2), ?_, hv, hlen.1, hlen.2.1, hlen.2.2,
      ⟨hlo, hlo'⟩, ⟨hhi, hhi'⟩, hl0, fun _ => ⟨Real.exp_pos _, ?_, ?_⟩, fun h => absurd h hpos.ne'⟩
    · unfold SignalPrograms.spectrum
      rw [e100, hv]
      simp only [bind, Except.bind]
      rw [npMin_fins ps lo hlo hlo', npMax_fins ps hi hhi hhi', htop]
      simp only [hlog50, plog_fin hpos, plog_fin (hpos.trans_le hlh), lit_eq, padd_fin, pexp_fin, Rat.cast_zero]
      rw [pdiv_fin (by norm_num), pdiv_fin (by norm_num), pdiv_fin (by norm_num)]
      simp only [padd_fin, psub_fin, pmul_fin, pexp_fin, Real.exp_zero, Real.exp_log (by norm_num : (0 : ℝ) < 50)]
      push_cast
      rfl
    · rw [← Real.exp_add, ← Real.exp_log (mul_pos hpos (hpos.trans_le hlh)), Real.log_mul hpos.ne' (hpos.trans_le hlh).ne']
      congr 1; ring
    · rw [Real.rpow_def_of_pos (by norm_num), ← Real.exp_add]
      congr 1; ring
  · refine ⟨fs, ps, lo, hi, 0, 0, ?_, hv, hlen.1, hlen.2.1, hlen.2.2,
      ⟨hlo, hlo'⟩, ⟨hhi, hhi'⟩, hl0, fun h => absurd hz h.ne, fun _ => ⟨rfl, rfl⟩⟩
    unfold SignalPrograms.spectrum
    rw [e100, hv]
    simp only [bind, Except.bind]
    rw [npMin_fins ps lo hlo hlo', npMax_fins ps hi hhi hhi', htop]
    have hmid : ∀ t : ℝ, PyMath.exp (fin t +. (PyMath.log (fin lo) +. PyMath.log (fin hi)) /. lit 2 : Fl ℝ) = fin 0 := by
      intro t
      have : (PyMath.log (fin lo) : Fl ℝ) = ninf := by
        rw [← hz]; show (if (0 : ℝ) < 0 then nan else if (0 : ℝ) = 0 then ninf else fin (Real.log 0)) = ninf; simp
      rw [this]
      have h2 : (ninf +. PyMath.log (fin hi) : Fl ℝ) = ninf := by
        rcases (hz ▸ hlh : (0 : ℝ) ≤ hi).lt_or_eq with h0 | h0
        · rw [plog_fin h0]; rfl
        · rw [← h0]
          have : (PyMath.log (fin 0) : Fl ℝ) = ninf := by
            show (if (0 : ℝ) < 0 then nan else if (0 : ℝ) = 0 then ninf else fin (Real.log 0)) = ninf; simp
          rw [this]; rfl
      rw [h2]
      have h3 : (ninf /. lit 2 : Fl ℝ) = ninf := by
        rw [lit_eq]; show Fl.div _ _ = _; simp [Fl.div]
      rw [h3]; rfl
    simp only [hlog50, lit_eq, padd_fin, Rat.cast_zero]
    rw [pdiv_fin (by norm_num), pdiv_fin (by norm_num)]
    simp only [psub_fin, pmul_fin]
    simp only [lit_eq] at hmid
    rw [hmid, hmid]
    simp only [pexp_fin, Real.exp_zero, Real.exp_log (by norm_num : (0 : ℝ) < 50)]

/-- **C177.** a constant column has no reference line: both ends have ordinate 0, which logarithmic axes cannot show -/
theorem C177_constant (c : ℝ) (n : Nat) (h : 2048 ≤ n) :
    ∃ fs ps : List (Fl ℝ), SignalPrograms.spectrum (fins (List.replicate n c)) = .ok ((fs, ps), (fin 1, fin 50), (fin 0, fin 0)) := by
  obtain ⟨fs, ps, lo, hi, y₁, y₂, h1, hv, -, hl, -, ⟨hlo, -⟩, -, -, -, hz⟩ := C177_line (List.replicate n c) (by rw [List.length_replicate]; exact h)
  obtain ⟨f, ps', -, h2⟩ := C129_affine (List.replicate n c) 0 c 100 (by norm_num) 50 2048 true (by norm_num)
    (by rw [List.length_replicate]; exact h) (by norm_num)
  have e : (List.replicate n c).map (fun v => 0 * v + c) = List.replicate n c := by simp
  rw [e, show ((2048 : ℕ) : Int) = 2048 from rfl, hv] at h2
  have hps : ps = ps'.map (fun p => (0 : ℝ) ^ 2 * p) :=
    List.map_injective_iff.mpr (fun a b hab => Fl.fin.inj hab) (Prod.mk.inj (Except.ok.inj h2)).2
  rw [hps] at hlo
  obtain ⟨p, -, rfl⟩ := List.mem_map.mp hlo
  obtain ⟨z1, z2⟩ := hz (by ring)
  rw [z1, z2] at h1
  exact ⟨_, _, h1⟩

/-- the hypotheses are met by any long column -/
example : (2048 : ℕ) ≤ (List.replicate 3000 (1 : ℝ)).length := by rw [List.length_replicate]; norm_num

example : SignalPrograms.spectrum ([fin 1] : List (Fl ℝ)) = .error .valueError := C177_short _ (by simp)

/-! ## C178: the synthetic pollution program -/

/-- **C178.** when `percent` times the mean exceeds the spread of the data, the polluted samples are exactly those outside the range of
the clean data -/
theorem C178_separable (data r : List K) (percent : K) (idx : List Nat) (hne : data ≠ []) (hin : ∀ i ∈ idx, i < data.length)
    (hs : idx.Pairwise (· < ·)) (hr : r.length = data.length) (lo hi : K) (hb : ∀ x ∈ data, lo ≤ x ∧ x ≤ hi) (hp : 0 ≤ percent)
    (hsep : hi - lo < percent * Spec.avg data) :
    ∃ out : List K, Signal.syntheticNoise (data.map fin) (fin percent) idx (r.map fin) = .ok (out.map fin) ∧
      out.length = data.length ∧ ∀ i < data.length, (i ∈ idx ↔ out.getD i 0 < lo ∨ hi < out.getD i 0) := by
  obtain ⟨out, h1, h2, h3, h4⟩ := C29_synthetic_noise data r percent idx hne hin hs hr
  have hfin : ∀ i < data.length, ∃ v : K, out[i]? = some (fin v) := by
    intro i hi
    by_cases hm : i ∈ idx
    · obtain ⟨k, hk, rfl⟩ := List.mem_iff_getElem.mp hm
      have := h4 k hk
      rw [List.getD_eq_getElem?_getD, List.getElem?_eq_getElem hk, Option.getD_some] at this
      exact ⟨_, this⟩
    · exact ⟨_, h3 i hi hm⟩
  obtain ⟨o, rfl⟩ : ∃ o : List K, out = o.map fin := by
    refine ⟨out.map (fun v => match v with | .fin x => x | _ => 0), ?_⟩
    rw [List.map_map]
    conv_lhs => rw [← List.map_id out]
    apply List.map_congr_left
    intro v hv
    obtain ⟨i, hi, rfl⟩ := List.mem_iff_getElem.mp hv
    obtain ⟨w, hw⟩ := hfin i (by omega)
    rw [List.getElem?_eq_getElem hi] at hw
    rw [Option.some.inj hw]; rfl
  refine ⟨o, h1, by simpa using h2, fun i hi' => ?_⟩
  have hd : ∀ i < data.length, lo ≤ data.getD i 0 ∧ data.getD i 0 ≤ hi := by
    intro i hi
    rw [List.getD_eq_getElem?_getD, List.getElem?_eq_getElem hi]
    exact hb _ (List.getElem_mem hi)
  have hget : ∀ v : K, (o.map fin)[i]? = some (fin v : Fl K) → o.getD i 0 = v := by
    intro v hv
    rw [List.getElem?_map] at hv
    obtain ⟨w, hw, e⟩ := Option.map_eq_some_iff.mp hv
    rw [List.getD_eq_getElem?_getD, hw]
    exact Fl.fin.inj e
  obtain ⟨d1, d2⟩ := hd i hi'
  constructor
  · intro hm
    obtain ⟨k, hk, rfl⟩ := List.mem_iff_getElem.mp hm
    have hk4 := h4 k hk
    rw [List.getD_eq_getElem?_getD, List.getElem?_eq_getElem hk, Option.getD_some] at hk4
    rw [hget _ hk4]
    have hm0 : 0 < percent * Spec.avg data := lt_of_le_of_lt (by linarith [d1.trans d2]) hsep
    have hmp : 0 ≤ Spec.avg data := by
      by_contra hneg
      exact absurd hm0 (not_lt.mpr (mul_nonpos_of_nonneg_of_nonpos hp (le_of_not_ge hneg)))
    have hamp : percent * Spec.avg data ≤ (|r.getD k 0| + percent) * Spec.avg data := by
      have := mul_nonneg (abs_nonneg (r.getD k 0)) hmp
      linarith
    unfold spike
    rcases Nat.even_or_odd k with he | he
    · right; rw [he.neg_one_pow]; linarith
    · left; rw [he.neg_one_pow]; linarith
  · intro ho
    by_contra hm
    rw [hget _ (h3 i hi' hm)] at ho
    rcases ho with ho | ho <;> linarith

/-- **C178.** in the program (500 integers from 0 to 49, 10 percent): 50 samples are polluted, and if the mean exceeds 4.9 they are
exactly the samples outside `[0, 49]` -/
theorem C178_program (draw : Nat → Nat) (hd : ∀ t, draw t < 500) (t : Nat) (idx : List Nat)
    (hidx : Signal.randomIndexReturns draw 500 10 t idx) (data : List ℕ) (hl : data.length = 500) (hv : ∀ v ∈ data, v < 50) (r : List K)
    (hr : r.length = 500) :
    idx.length = 50 ∧ (49 / 10 < Spec.avg (data.map (Nat.cast : ℕ → K)) →
      ∃ out : List K, SignalPrograms.synthetic ((data.map (Nat.cast : ℕ → K)).map fin) idx (r.map fin) =
          .ok (out.map fin, (data.map (Nat.cast : ℕ → K)).map fin) ∧
        ∀ i < 500, (i ∈ idx ↔ out.getD i 0 < 0 ∨ 49 < out.getD i 0)) := by
  obtain ⟨p1, p2, p3⟩ := C27_random_index draw 500 10 hd t idx hidx
  refine ⟨?_, fun hm => ?_⟩
  · have : truncK (((500 : ℕ) : ℚ) * 10 / 100) = 50 := by decide +kernel
    rw [this] at p3; omega
  · obtain ⟨out, h1, -, h3⟩ := C178_separable (data.map (Nat.cast : ℕ → K)) r 10 idx (by rintro h; simp at h; simp [h] at hl)
      (by simpa [hl] using p2) p1 (by simp [hl, hr]) 0 49 (by
        intro x hx
        obtain ⟨v, hv', rfl⟩ := List.mem_map.mp hx
        exact ⟨Nat.cast_nonneg _, by exact_mod_cast Nat.lt_succ_iff.mp (hv v hv')⟩) (by norm_num) (by linarith)
    refine ⟨out, ?_, by simpa [hl] using h3⟩
    unfold SignalPrograms.synthetic
    rw [show (lit 10 : Fl K) = fin 10 by rw [lit_eq]; push_cast; rfl, h1]
    rfl

example : ∃ out : List ℚ, Signal.syntheticNoise ([1, 2, 3].map fin) (fin 2) [0, 2] ([1, 0, 0].map fin) = .ok (out.map fin) ∧
    out.length = 3 ∧ ∀ i < 3, (i ∈ [0, 2] ↔ out.getD i 0 < 1 ∨ 3 < out.getD i 0) := by
  obtain ⟨out, h1, h2, h3⟩ := C178_separable [1, 2, 3] [1, 0, 0] (2 : ℚ) [0, 2] (by simp) (by simp) (by simp) (by simp) 1 3
    (by simp; norm_num) (by norm_num) (by decide +kernel)
  exact ⟨out, h1, h2, h3⟩

end Proadv.Props
