import Verif.Props.SmoothLaws

/-!
# C180–C181: the moving averages of `statistics/series.py` keep trends, bound jumps and do not amplify errors
-/

set_option linter.unusedSectionVars false

namespace Proadv.Props

open Proadv Fl Descriptive Series

variable {K : Type} [Field K] [LinearOrder K] [FloorRing K] [IsStrictOrderedRing K]

private theorem getD_le {xs : List K} (h : xs.Pairwise (· ≤ ·)) {i j : Nat} (hij : i ≤ j) (hj : j < xs.length) :
    xs.getD i 0 ≤ xs.getD j 0 := by
  have hi : i < xs.length := lt_of_le_of_lt hij hj
  simp only [List.getD_eq_getElem?_getD, List.getElem?_eq_getElem hi, List.getElem?_eq_getElem hj, Option.getD_some]
  rcases hij.eq_or_lt with rfl | hlt
  · exact le_rfl
  · exact List.pairwise_iff_getElem.mp h i j hi hj hlt

private theorem getD_mem' {xs : List K} {i : Nat} (hi : i < xs.length) : xs.getD i 0 ∈ xs := by
  simp only [List.getD_eq_getElem?_getD, List.getElem?_eq_getElem hi, Option.getD_some]
  exact List.getElem_mem hi

private theorem steps_mono (f : Nat → K) (n : Nat) (h : ∀ i, i + 1 < n → f i ≤ f (i + 1)) :
    ((List.range n).map f).Pairwise (· ≤ ·) := by
  rw [List.pairwise_iff_getElem]
  intro i j hi hj hij
  simp only [List.length_map, List.length_range] at hj
  simp only [List.getElem_map, List.getElem_range]
  clear hi
  induction j, hij.le using Nat.le_induction with
  | base => exact le_rfl
  | succ j hle ih =>
    rcases hle.eq_or_lt with rfl | hlt
    · exact h _ hj
    · exact le_trans (ih (by omega) hlt (by omega)) (h _ hj)

/-! ## the step of each average -/

private theorem tm_bounds (xs : List K) (w i : Nat) (hw : 1 ≤ w) (hi : i < xs.length) (lo hi' : K)
    (h : ∀ j ≤ i, lo ≤ xs.getD j 0 ∧ xs.getD j 0 ≤ hi') : lo ≤ trailingMean xs w i ∧ trailingMean xs w i ≤ hi' := by
  rw [trailingMean_sum xs w i hi]
  have hm : 1 ≤ Min.min (i + 1) w := by omega
  set m := Min.min (i + 1) w
  have hm' : (0 : K) < (m : K) := by exact_mod_cast hm
  rw [le_div_iff₀ hm', div_le_iff₀ hm']
  constructor
  · have := Finset.card_nsmul_le_sum (Finset.range m) (fun j => xs.getD (i + 1 - m + j) 0) lo
      (fun j hj => (h _ (by have := Finset.mem_range.mp hj; omega)).1)
    rw [Finset.card_range, nsmul_eq_mul] at this
    linarith
  · have := Finset.sum_le_card_nsmul (Finset.range m) (fun j => xs.getD (i + 1 - m + j) 0) hi'
      (fun j hj => (h _ (by have := Finset.mem_range.mp hj; omega)).2)
    rw [Finset.card_range, nsmul_eq_mul] at this
    linarith

private theorem tm_step_full (xs : List K) (w i : Nat) (hi : i + 1 < xs.length) (hwi : w ≤ i + 1) :
    trailingMean xs w (i + 1) - trailingMean xs w i = (xs.getD (i + 1) 0 - xs.getD (i + 1 - w) 0) / w := by
  rw [trailingMean_sum xs w (i + 1) hi, trailingMean_sum xs w i (by omega), show Min.min (i + 1 + 1) w = w by omega,
    show Min.min (i + 1) w = w by omega, ← sub_div]
  congr 1
  have h1 := Finset.sum_range_succ (fun j => xs.getD (i + 1 - w + j) 0) w
  have h2 := Finset.sum_range_succ' (fun j => xs.getD (i + 1 - w + j) 0) w
  rw [h1] at h2
  simp only [show i + 1 - w + w = i + 1 by omega, show i + 1 - w + 0 = i + 1 - w from rfl] at h2
  rw [Finset.sum_congr rfl (fun j _ => by rw [show i + 1 + 1 - w + j = i + 1 - w + (j + 1) by omega])]
  linarith

private theorem tm_step_grow (xs : List K) (w i : Nat) (hi : i + 1 < xs.length) (hwi : i + 1 < w) :
    trailingMean xs w (i + 1) - trailingMean xs w i = (xs.getD (i + 1) 0 - trailingMean xs w i) / ((i + 2 : Nat) : K) := by
  have e := trailingMean_sum xs w i (by omega)
  rw [trailingMean_sum xs w (i + 1) hi, show Min.min (i + 1 + 1) w = i + 2 by omega, Finset.sum_range_succ]
  rw [show Min.min (i + 1) w = i + 1 by omega] at e
  simp only [show i + 1 + 1 - (i + 2) = 0 by omega, Nat.zero_add]
  simp only [Nat.sub_self, Nat.zero_add] at e
  have h1 : ((i + 1 : Nat) : K) ≠ 0 := by exact_mod_cast Nat.succ_ne_zero i
  have h2 : ((i + 2 : Nat) : K) ≠ 0 := by exact_mod_cast Nat.succ_ne_zero (i + 1)
  rw [eq_div_iff h1] at e
  rw [← e]
  field_simp
  push_cast
  ring

private def wsum (xs : List K) (p k : Nat) : K :=
  ((List.range p).map (fun j : ℕ => ((j : K) + 1) * xs.getD (k + j) 0)).sum

private theorem wsum_step (xs : List K) (p k : Nat) :
    wsum xs p (k + 1) - wsum xs p k = ∑ j ∈ Finset.range p, (xs.getD (k + p) 0 - xs.getD (k + j) 0) := by
  have e : ∀ k, wsum xs p k = ∑ j ∈ Finset.range p, ((j : K) + 1) * xs.getD (k + j) 0 := by
    intro k
    unfold wsum
    rw [Finset.sum_range, ← List.sum_ofFn]
    congr 1
    apply List.ext_getElem
    · simp
    · intro j h1 h2; simp
  rw [e, e]
  have h1 := Finset.sum_range_succ (fun j => (j : K) * xs.getD (k + j) 0) p
  have h2 := Finset.sum_range_succ' (fun j => (j : K) * xs.getD (k + j) 0) p
  rw [h1] at h2
  simp only [Nat.cast_zero, zero_mul, add_zero, Nat.cast_add, Nat.cast_one] at h2
  rw [Finset.sum_congr rfl (fun (j : ℕ) _ => show ((j : K) + 1) * xs.getD (k + 1 + j) 0 = ((j : K) + 1) * xs.getD (k + (j + 1)) 0 by
    rw [show k + 1 + j = k + (j + 1) by omega]), ← h2, Finset.sum_sub_distrib, Finset.sum_const, Finset.card_range,
    nsmul_eq_mul, Finset.sum_congr rfl (fun (j : ℕ) _ => add_one_mul (j : K) (xs.getD (k + j) 0)), Finset.sum_add_distrib]
  ring

/-! ## C180 -/

/-- **C180** `moving_average`: a nondecreasing series has a nondecreasing average, and one step of the average is at most the range of the
data divided by the number of samples averaged. -/
theorem C180_ma (b : Bool) (xs : List K) (w : Nat) (hw : 1 ≤ w) (hwn : w ≤ xs.length) :
    ∃ ys : List K, movingAverage ⟨1, b, xs.map fin⟩ (w : Int) = .ok (ys.map fin) ∧ ys.length = xs.length ∧
      (xs.Pairwise (· ≤ ·) → ys.Pairwise (· ≤ ·)) ∧
      ∀ lo hi, (∀ x ∈ xs, lo ≤ x ∧ x ≤ hi) → ∀ i (h : i + 1 < ys.length),
        |ys[i + 1] - ys[i]| ≤ (hi - lo) / (Min.min (i + 2) w : Nat) := by
  refine ⟨(List.range xs.length).map (trailingMean xs w), ?_, by simp, fun hm => ?_, fun lo hi hr i h => ?_⟩
  · rw [C12_moving_average b xs w hw hwn, List.map_map]; rfl
  · apply steps_mono
    intro i hi
    rw [← sub_nonneg]
    by_cases hwi : w ≤ i + 1
    · rw [tm_step_full xs w i hi hwi]
      exact div_nonneg (sub_nonneg.mpr (getD_le hm (by omega) hi)) (Nat.cast_nonneg _)
    · rw [tm_step_grow xs w i hi (by omega)]
      refine div_nonneg (sub_nonneg.mpr ?_) (Nat.cast_nonneg _)
      exact (tm_bounds xs w i hw (by omega) (xs.getD 0 0) (xs.getD (i + 1) 0)
        (fun j hj => ⟨getD_le hm (Nat.zero_le _) (by omega), getD_le hm (by omega) hi⟩)).2
  · simp only [List.length_map, List.length_range] at h
    simp only [List.getElem_map, List.getElem_range]
    have hx : ∀ j < xs.length, lo ≤ xs.getD j 0 ∧ xs.getD j 0 ≤ hi := fun j hj => hr _ (getD_mem' hj)
    by_cases hwi : w ≤ i + 1
    · rw [tm_step_full xs w i h hwi, show Min.min (i + 2) w = w by omega, abs_div, Nat.abs_cast]
      refine div_le_div_of_nonneg_right ?_ (Nat.cast_nonneg _)
      have h1 := hx (i + 1) h
      have h2 := hx (i + 1 - w) (by omega)
      rw [abs_le]; constructor <;> linarith [h1.1, h1.2, h2.1, h2.2]
    · rw [tm_step_grow xs w i h (by omega), show Min.min (i + 2) w = i + 2 by omega, abs_div, Nat.abs_cast]
      refine div_le_div_of_nonneg_right ?_ (Nat.cast_nonneg _)
      have h1 := hx (i + 1) h
      have h2 := tm_bounds xs w i hw (by omega) lo hi (fun j hj => hx j (by omega))
      rw [abs_le]; constructor <;> linarith [h1.1, h1.2, h2.1, h2.2]

/-- the hypotheses are met, the bound is attained: a step of height 1 under a window of 2 -/
example : movingAverage ⟨1, false, [fin (0 : ℚ), fin 0, fin 1, fin 1]⟩ 2 = .ok [fin 0, fin 0, fin (1 / 2), fin 1] := by
  decide +kernel

/-- **C180** `exponential_moving_average` (float array): a nondecreasing series has a nondecreasing average, and one step is at most
`alpha` times the range of the data. -/
theorem C180_ema (xs : List K) (hne : xs ≠ []) (alpha : K) (h0 : 0 < alpha) (h1 : alpha ≤ 1) :
    ∃ ys : List K, exponentialMovingAverage ⟨1, false, xs.map fin⟩ (fin alpha) = .ok (ys.map fin) ∧ ys.length = xs.length ∧
      (xs.Pairwise (· ≤ ·) → ys.Pairwise (· ≤ ·)) ∧
      ∀ lo hi, (∀ x ∈ xs, lo ≤ x ∧ x ≤ hi) → ∀ i (h : i + 1 < ys.length), |ys[i + 1] - ys[i]| ≤ alpha * (hi - lo) := by
  obtain ⟨ys, hy, hl, hc, hb, -⟩ := C15_ema xs hne alpha h0 h1
  have step : ∀ i (h : i + 1 < ys.length), ys[i + 1] - ys[i] = alpha * (xs.getD (i + 1) 0 - ys[i]) := by
    intro i h
    rw [hc (i + 1) h, hc i (by omega), emaClosed_succ]; ring
  refine ⟨ys, hy, hl, fun hm => ?_, fun lo hi hr i h => ?_⟩
  · have : ys = (List.range ys.length).map (fun i => ys.getD i 0) := by
      apply List.ext_getElem <;> simp +contextual [List.getD]
    rw [this]
    apply steps_mono
    intro i hi
    simp only [List.getD_eq_getElem?_getD, List.getElem?_eq_getElem hi, List.getElem?_eq_getElem (Nat.lt_of_succ_lt hi),
      Option.getD_some]
    rw [← sub_nonneg, step i hi]
    refine mul_nonneg h0.le (sub_nonneg.mpr ?_)
    exact (hb i (by omega) (xs.getD 0 0) (xs.getD (i + 1) 0)
      (fun j hj => ⟨getD_le hm (Nat.zero_le _) (by omega), getD_le hm (by omega) (by omega)⟩)).2
  · rw [step i h, abs_mul, abs_of_pos h0]
    refine mul_le_mul_of_nonneg_left ?_ h0.le
    have h1 := hr _ (getD_mem' (xs := xs) (i := i + 1) (by omega))
    have h2 := hb i (by omega) lo hi (fun j hj => hr _ (getD_mem' (by omega)))
    rw [abs_le]; constructor <;> linarith [h1.1, h1.2, h2.1, h2.2]

example : exponentialMovingAverage ⟨1, false, [fin (0 : ℚ), fin 0, fin 1, fin 1]⟩ (fin (1 / 4)) =
    .ok [fin 0, fin 0, fin (1 / 4), fin (7 / 16)] := by
  decide +kernel

/-- **C180** `weighted_moving_average`: a nondecreasing series has a nondecreasing average, and one step is at most `2/(p+1)` times the
range of the data. -/
theorem C180_wma (xs : List K) (p : Nat) (hp : 1 ≤ p) (hpn : p ≤ xs.length) :
    ∃ (ys : List K) (l : Bool), weightedMovingAverage (xs.map fin : List (Fl K)) (p : Int) = .ok ⟨l, ys.map fin⟩ ∧
      ys.length = xs.length - p ∧ (xs.Pairwise (· ≤ ·) → ys.Pairwise (· ≤ ·)) ∧
      ∀ lo hi, (∀ x ∈ xs, lo ≤ x ∧ x ≤ hi) → ∀ i (h : i + 1 < ys.length),
        |ys[i + 1] - ys[i]| ≤ 2 / ((p : K) + 1) * (hi - lo) := by
  have hp' : (0 : K) < p := by exact_mod_cast hp
  have hd : (((p * (p + 1) : ℕ) : K) / 2) = p * (p + 1) / 2 := by push_cast; ring
  have hd' : (0 : K) < ((p * (p + 1) : ℕ) : K) / 2 := by rw [hd]; positivity
  refine ⟨(List.range (xs.length - p)).map (fun k => wsum xs p k / ((p * (p + 1) : ℕ) / 2)), decide (p = xs.length), ?_, by simp,
    fun hm => ?_, fun lo hi hr i h => ?_⟩
  · rw [C17_wma xs p hp hpn, List.map_map]; rfl
  · apply steps_mono
    intro k hk
    rw [← sub_nonneg, ← sub_div, wsum_step]
    refine div_nonneg (Finset.sum_nonneg fun j hj => ?_) hd'.le
    have := Finset.mem_range.mp hj
    exact sub_nonneg.mpr (getD_le hm (by omega) (by omega))
  · simp only [List.length_map, List.length_range] at h
    simp only [List.getElem_map, List.getElem_range]
    rw [← sub_div, wsum_step, abs_div, abs_of_pos hd', div_le_iff₀ hd', hd]
    have e : 2 / ((p : K) + 1) * (hi - lo) * (p * (p + 1) / 2) = p * (hi - lo) := by field_simp
    rw [e]
    refine le_trans (Finset.abs_sum_le_sum_abs _ _) ?_
    refine le_trans (Finset.sum_le_card_nsmul _ _ (hi - lo) fun j hj => ?_) (by rw [Finset.card_range, nsmul_eq_mul])
    have := Finset.mem_range.mp hj
    have h1 := hr _ (getD_mem' (xs := xs) (i := i + p) (by omega))
    have h2 := hr _ (getD_mem' (xs := xs) (i := i + j) (by omega))
    rw [abs_le]; constructor <;> linarith [h1.1, h1.2, h2.1, h2.2]

example : weightedMovingAverage [fin (0 : ℚ), fin 0, fin 1, fin 1] 2 = .ok ⟨false, [fin 0, fin (2 / 3)]⟩ := by
  decide +kernel

/-! ## C181: errors are not amplified -/

private theorem comb_mem (xs ys : List K) (d : K) (h : xs.length = ys.length)
    (hd : ∀ i, |xs.getD i 0 - ys.getD i 0| ≤ d) : ∀ z ∈ comb 1 (-1) xs ys, -d ≤ z ∧ z ≤ d := by
  intro z hz
  obtain ⟨i, hi, rfl⟩ := List.mem_iff_getElem.mp hz
  have := comb_getD 1 (-1) xs ys h i
  rw [List.getD_eq_getElem?_getD, List.getElem?_eq_getElem hi, Option.getD_some] at this
  rw [this, ← abs_le, one_mul, neg_one_mul, ← sub_eq_add_neg]
  exact hd i

private theorem comb_close (us vs : List K) (d : K) (h : ∀ z ∈ comb 1 (-1) us vs, -d ≤ z ∧ z ≤ d) (hl : us.length = vs.length)
    (i : Nat) (hi : i < us.length) : |us.getD i 0 - vs.getD i 0| ≤ d := by
  have := comb_getD 1 (-1) us vs hl i
  rw [one_mul, neg_one_mul, ← sub_eq_add_neg] at this
  rw [← this, abs_le]
  exact h _ (getD_mem' (by rw [comb_length _ _ _ _ hl]; exact hi))

private theorem map_fin_inj {us vs : List K} (h : us.map fin = (vs.map fin : List (Fl K))) : us = vs :=
  List.map_injective_iff.mpr (fun _ _ e => Fl.fin.inj e) h

/-- **C181** `moving_average`: if two series differ by at most `d` everywhere, so do their averages. -/
theorem C181_ma (b₁ b₂ : Bool) (xs ys : List K) (h : xs.length = ys.length) (w : Nat) (hw : 1 ≤ w) (hwn : w ≤ xs.length) (d : K)
    (hd : ∀ i, |xs.getD i 0 - ys.getD i 0| ≤ d) :
    ∃ us vs : List K, movingAverage ⟨1, b₁, xs.map fin⟩ (w : Int) = .ok (us.map fin) ∧
      movingAverage ⟨1, b₂, ys.map fin⟩ (w : Int) = .ok (vs.map fin) ∧ us.length = xs.length ∧ vs.length = ys.length ∧
      ∀ i < us.length, |us.getD i 0 - vs.getD i 0| ≤ d := by
  obtain ⟨us, vs, hu, hv, hc⟩ := C160_ma b₁ b₂ false 1 (-1) xs ys h w hw hwn
  obtain ⟨us', hu', lu, -⟩ := C180_ma b₁ xs w hw hwn
  obtain ⟨vs', hv', lv, -⟩ := C180_ma b₂ ys w hw (h ▸ hwn)
  have eu : us = us' := map_fin_inj (Except.ok.inj (hu.symm.trans hu'))
  have ev : vs = vs' := map_fin_inj (Except.ok.inj (hv.symm.trans hv'))
  subst eu ev
  have hl := comb_length 1 (-1) xs ys h
  have hr := comb_mem xs ys d h hd
  obtain ⟨zs, hz, hzr⟩ := C13_range false (comb 1 (-1) xs ys) w hw (by omega) (-d) d (fun z hz => (hr z hz).1)
    (fun z hz => (hr z hz).2)
  have ez := map_fin_inj (Except.ok.inj (hz.symm.trans hc))
  subst ez
  exact ⟨us, vs, hu, hv, lu, lv, fun i hi => comb_close us vs d hzr (by omega) i hi⟩

/-- **C181** the same for `exponential_moving_average` on float arrays. -/
theorem C181_ema (xs ys : List K) (h : xs.length = ys.length) (hne : xs ≠ []) (alpha : K) (h0 : 0 < alpha) (h1 : alpha ≤ 1) (d : K)
    (hd : ∀ i, |xs.getD i 0 - ys.getD i 0| ≤ d) :
    ∃ us vs : List K, exponentialMovingAverage ⟨1, false, xs.map fin⟩ (fin alpha) = .ok (us.map fin) ∧
      exponentialMovingAverage ⟨1, false, ys.map fin⟩ (fin alpha) = .ok (vs.map fin) ∧ us.length = xs.length ∧
      vs.length = ys.length ∧ ∀ i < us.length, |us.getD i 0 - vs.getD i 0| ≤ d := by
  have hp : 0 < xs.length := List.length_pos_iff.mpr hne
  obtain ⟨us, vs, hu, hv, hc⟩ := C160_ema 1 (-1) xs ys h hne alpha h0 h1
  obtain ⟨us', hu', lu, -⟩ := C180_ema xs hne alpha h0 h1
  obtain ⟨vs', hv', lv, -⟩ := C180_ema ys (List.length_pos_iff.mp (h ▸ hp)) alpha h0 h1
  have eu : us = us' := map_fin_inj (Except.ok.inj (hu.symm.trans hu'))
  have ev : vs = vs' := map_fin_inj (Except.ok.inj (hv.symm.trans hv'))
  subst eu ev
  have hl := comb_length 1 (-1) xs ys h
  have hr := comb_mem xs ys d h hd
  obtain ⟨zs, hz, lz, -, hb, -⟩ := C15_ema (comb 1 (-1) xs ys) (List.length_pos_iff.mp (by rw [hl]; exact hp)) alpha h0 h1
  have ez := map_fin_inj (Except.ok.inj (hz.symm.trans hc))
  subst ez
  refine ⟨us, vs, hu, hv, lu, lv, fun i hi => comb_close us vs d (fun z hz' => ?_) (by omega) i hi⟩
  obtain ⟨k, hk, rfl⟩ := List.mem_iff_getElem.mp hz'
  exact hb k hk (-d) d (fun j hj => hr _ (getD_mem' (by omega)))

/-- **C181** the same for `weighted_moving_average`. -/
theorem C181_wma (xs ys : List K) (h : xs.length = ys.length) (p : Nat) (hp : 1 ≤ p) (hpn : p ≤ xs.length) (d : K)
    (hd : ∀ i, |xs.getD i 0 - ys.getD i 0| ≤ d) :
    ∃ (us vs : List K) (l : Bool), weightedMovingAverage (xs.map fin : List (Fl K)) (p : Int) = .ok ⟨l, us.map fin⟩ ∧
      weightedMovingAverage (ys.map fin : List (Fl K)) (p : Int) = .ok ⟨l, vs.map fin⟩ ∧ us.length = xs.length - p ∧
      vs.length = ys.length - p ∧ ∀ i < us.length, |us.getD i 0 - vs.getD i 0| ≤ d := by
  obtain ⟨us, vs, l, hu, hv, hc⟩ := C160_wma 1 (-1) xs ys h p hp hpn
  obtain ⟨us', l', hu', lu, -⟩ := C180_wma xs p hp hpn
  obtain ⟨vs', l'', hv', lv, -⟩ := C180_wma ys p hp (h ▸ hpn)
  have eu : us = us' := by have := Except.ok.inj (hu.symm.trans hu'); injection this with _ e; exact map_fin_inj e
  have ev : vs = vs' := by have := Except.ok.inj (hv.symm.trans hv'); injection this with _ e; exact map_fin_inj e
  subst eu ev
  have hl := comb_length 1 (-1) xs ys h
  have hr := comb_mem xs ys d h hd
  refine ⟨us, vs, l, hu, hv, lu, lv, fun i hi => comb_close us vs d (fun z hz' => ?_) (by omega) i hi⟩
  obtain ⟨k, hk, rfl⟩ := List.mem_iff_getElem.mp hz'
  have hk' : k < us.length := by rw [comb_length 1 (-1) us vs (by omega)] at hk; exact hk
  obtain ⟨out, y, ho, hy, b⟩ := C17_wma_range (comb 1 (-1) xs ys) p hp (by omega) k (by omega) (-d) d
    (fun j hj => hr _ (getD_mem' (by omega)))
  rw [hc] at ho
  have ho := Except.ok.inj ho
  subst ho
  simp only [List.getElem?_map, List.getElem?_eq_getElem hk, Option.map_some, Option.some.injEq, Fl.fin.injEq] at hy
  rw [hy]; exact b

/-- a pair of series within 1/10 of each other -/
example : ∀ i, |[(1 : ℚ), 2, 3].getD i 0 - [11 / 10, 19 / 10, 3].getD i 0| ≤ 1 / 10 := by
  intro i
  rcases i with _ | _ | _ | i <;> norm_num [abs_le]

end Proadv.Props
