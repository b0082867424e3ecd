import Verif.Props.MissingDetect
import Verif.Props.MovingAverage
import Verif.Props.Spherical

/-!
# C202–C203: infinite samples (overflowed readings) in the statistics, the averages, the Kalman filter and the detectors
-/

set_option linter.unusedSectionVars false

namespace Proadv.Props

open Proadv Fl Descriptive Series Replace Spread Moment Signal Detect

variable {K : Type} [Field K] [LinearOrder K] [FloorRing K] [IsStrictOrderedRing K]

/-- some sample is NaN or infinite -/
def NonFinite (l : List (Fl K)) : Prop := ∃ x ∈ l, x = nan ∨ x = pinf ∨ x = ninf

private theorem pinf_add_fin (r : K) : (pinf : Fl K) +. fin r = pinf := rfl
private theorem ninf_add_fin (r : K) : (ninf : Fl K) +. fin r = ninf := rfl

/-- an infinite sample in the list makes the sum the same infinity or NaN -/
theorem psum_inf_or {l : List (Fl K)} {v : Fl K} (hv : v = pinf ∨ v = ninf) (h : v ∈ l) :
    PyNum.sum l = v ∨ PyNum.sum l = nan := by
  induction l with
  | nil => simp at h
  | cons x t ih =>
    rw [psum_cons]
    rcases List.mem_cons.mp h with rfl | h
    · generalize PyNum.sum t = S
      rcases hv with rfl | rfl <;> cases S <;> simp [add_def, Fl.add]
    · rcases ih h with e | e <;> rw [e]
      · rcases hv with rfl | rfl <;> cases x <;> simp [add_def, Fl.add]
      · simp

/-- infinite samples of one sign only: the sum is that infinity -/
theorem psum_inf {l : List (Fl K)} {v : Fl K} (hv : v = pinf ∨ v = ninf) (h : v ∈ l) (ha : ∀ x ∈ l, x = v ∨ ∃ r, x = fin r) :
    PyNum.sum l = v := by
  have hall : ∀ t : List (Fl K), (∀ x ∈ t, x = v ∨ ∃ r, x = fin r) → PyNum.sum t = v ∨ ∃ r, PyNum.sum t = fin r := by
    intro t
    induction t with
    | nil => intro _; right; exact ⟨0, psum_nil⟩
    | cons x t ih =>
      intro ht
      rw [psum_cons]
      rcases ih (fun y hy => ht y (List.mem_cons_of_mem _ hy)) with e | ⟨s, e⟩ <;>
      rcases ht x List.mem_cons_self with rfl | ⟨r, rfl⟩ <;> rw [e]
      · left; rcases hv with rfl | rfl <;> rfl
      · left; rcases hv with rfl | rfl <;> rfl
      · left; rcases hv with rfl | rfl <;> rfl
      · right; exact ⟨_, rfl⟩
  rcases psum_inf_or hv h with e | e
  · exact e
  · rcases hall l ha with h' | ⟨r, h'⟩
    · exact h'
    · rw [h'] at e; cases e

theorem inf_div_pos {v : Fl K} (hv : v = pinf ∨ v = ninf) {c : K} (hc : 0 < c) : v /. fin c = v := by
  rcases hv with rfl | rfl <;> simp [div_def, Fl.div, not_lt.mpr hc.le]

theorem pos_mul_inf {v : Fl K} (hv : v = pinf ∨ v = ninf) {c : K} (hc : 0 < c) : fin c *. v = v := by
  rcases hv with rfl | rfl <;> simp [mul_def, Fl.mul, infSgn, hc, hc.ne', not_lt.mpr hc.le]

theorem zero_mul_inf {v : Fl K} (hv : v = pinf ∨ v = ninf) : fin 0 *. v = nan := by
  rcases hv with rfl | rfl <;> simp [mul_def, Fl.mul, infSgn]

theorem fin_add_inf {v : Fl K} (hv : v = pinf ∨ v = ninf) (c : K) : fin c +. v = v := by
  rcases hv with rfl | rfl <;> rfl

theorem inf_add_fin {v : Fl K} (hv : v = pinf ∨ v = ninf) (c : K) : v +. fin c = v := by
  rcases hv with rfl | rfl <;> rfl

theorem inf_sub_fin {v : Fl K} (hv : v = pinf ∨ v = ninf) (c : K) : v -. fin c = v := by
  rcases hv with rfl | rfl <;> rfl

theorem inf_sub_self {v : Fl K} (hv : v = pinf ∨ v = ninf) : v -. v = nan := by
  rcases hv with rfl | rfl <;> rfl

/-- the other infinity -/
theorem fin_sub_inf {v : Fl K} (hv : v = pinf ∨ v = ninf) (c : K) :
    fin c -. v = PyNum.neg v ∧ (PyNum.neg v = pinf ∨ PyNum.neg v = ninf) ∧ v +. PyNum.neg v = nan := by
  rcases hv with rfl | rfl
  · exact ⟨rfl, Or.inr rfl, rfl⟩
  · exact ⟨rfl, Or.inl rfl, rfl⟩

/-- the mean of data with a non-finite sample, and a NaN among the deviations from it -/
theorem mean_nonfinite {l : List (Fl K)} (h : NonFinite l) : nan ∈ l.map (fun x => x -. npMean l) := by
  obtain ⟨x, hx, h'⟩ := h
  have hpos : (0 : K) < (l.length : K) := by exact_mod_cast List.length_pos_of_mem hx
  refine List.mem_map.mpr ⟨x, hx, ?_⟩
  rcases h' with rfl | hv
  · rw [nan_sub]
  · unfold npMean
    rw [ofNat_eq]
    rcases psum_inf_or hv hx with e | e <;> rw [e]
    · rw [inf_div_pos hv hpos, inf_sub_self hv]
    · rw [nan_div, sub_nan]

theorem npVar_nonfinite {l : List (Fl K)} (h : NonFinite l) : npVar l = nan := by
  obtain ⟨x, hx, he⟩ := List.mem_map.mp (mean_nonfinite h)
  unfold npVar
  simp only []
  rw [psum_nan _ (List.mem_map.mpr ⟨x, hx, by rw [he]; simp⟩), nan_div]

theorem npStd_nonfinite {l : List (Fl ℝ)} (h : NonFinite l) : npStd l = nan := by
  unfold npStd
  rw [npVar_nonfinite h, psqrt_nan]

/-- **C202** `mean` of data with infinite samples: the infinity if all infinite samples have the same sign (and none is NaN),
NaN if both signs occur. -/
theorem C202_mean (l : List (Fl K)) :
    (∀ v, v = pinf ∨ v = ninf → v ∈ l → (∀ x ∈ l, x = v ∨ ∃ r, x = fin r) → meanOf l = .ok v) ∧
    (pinf ∈ l → ninf ∈ l → meanOf l = .ok nan) := by
  constructor
  · intro v hv h ha
    have hne : l ≠ [] := by rintro rfl; simp at h
    have hpos : (0 : K) < (l.length : K) := by exact_mod_cast List.length_pos_of_mem h
    rw [meanOf_eq l hne]
    unfold npMean
    rw [psum_inf hv h ha, ofNat_eq, inf_div_pos hv hpos]
  · intro h1 h2
    have hne : l ≠ [] := by rintro rfl; simp at h1
    rw [meanOf_eq l hne]
    unfold npMean
    rcases psum_inf_or (Or.inl rfl) h1 with e | e
    · rcases psum_inf_or (Or.inr rfl) h2 with e' | e'
      · rw [e] at e'; cases e'
      · rw [e', nan_div]
    · rw [e, nan_div]

/-- **C202** `variance` of data with a single non-finite sample is NaN (not infinite), without an exception. -/
theorem C202_variance (b : Bool) (l : List (Fl K)) (h : NonFinite l) : variance ⟨1, b, l.map Item.num⟩ = .ok nan := by
  have hne : l ≠ [] := by rintro rfl; obtain ⟨x, hx, -⟩ := h; simp at hx
  have h1 := filterMap_val_numItems l
  have h2 := any_isStr_numItems l
  simp only [numItems] at h1 h2
  simp only [variance, h1, h2, List.length_map, ne_eq, not_true_eq_false, if_false, Bool.false_eq_true, if_neg (by simpa using hne : ¬ l.length = 0)]
  rw [npVar_nonfinite h]

theorem std_nonfinite (b : Bool) (l : List (Fl ℝ)) (h : NonFinite l) : Spread.std ⟨1, b, l⟩ = .ok nan := by
  have hne : l ≠ [] := by rintro rfl; obtain ⟨x, hx, -⟩ := h; simp at hx
  rw [std_eq b l hne, npStd_nonfinite h]

/-- **C202** `std`, `skewness` and `kurtosis` of data with a single non-finite sample are NaN. -/
theorem C202_moments (b : Bool) (l : List (Fl ℝ)) (h : NonFinite l) :
    Spread.std ⟨1, b, l⟩ = .ok nan ∧ skewness ⟨1, b, l⟩ = .ok nan ∧ kurtosis ⟨1, b, l⟩ = .ok nan := by
  have hne : l ≠ [] := by rintro rfl; obtain ⟨x, hx, -⟩ := h; simp at hx
  have hs := std_nonfinite b l h
  have hm := meanOf_eq l hne
  refine ⟨hs, ?_, ?_⟩
  · unfold skewness firstMean
    simp only [bind, Except.bind, hs, hm, one_ne_zero, if_false]
    rw [npow_nan (by norm_num), mul_nan, div_nan]
  · have h4 := meanOf_eq (l.map (fun v => (v -. npMean l) ^. 4)) (by simpa using hne)
    unfold kurtosis firstMean
    simp only [bind, Except.bind, hs, hm, h4, one_ne_zero, if_false]
    rw [npow_nan (by norm_num), div_nan]

/-- **C202** `median` is a number as long as fewer than half of the samples are `+inf` and fewer than half are `-inf`. -/
theorem C202_median (b : Bool) (l : List (Fl K)) (hn : nan ∉ l) (hp : 2 * l.count pinf < l.length) (hm : 2 * l.count ninf < l.length) :
    ∃ r, median ⟨1, b, l.map Item.num⟩ = .ok (fin r) := by
  have hne : l ≠ [] := by rintro rfl; simp at hp
  have h1 := filterMap_val_numItems l
  have h2 := any_isStr_numItems l
  simp only [numItems] at h1 h2
  simp only [median, h1, h2, List.length_map, ne_eq, not_true_eq_false, if_false, Bool.false_eq_true, if_neg (by simpa using hne : ¬ l.length = 0)]
  have hperm := npSort_perm l
  have hsort := npSort_sorted l
  have hlen : (npSort l).length = l.length := hperm.length_eq
  have hnan : l.any PyNum.isNaN = false := by
    rw [List.any_eq_false]
    intro x hx
    cases x with
    | nan => exact absurd hx hn
    | fin r => simp
    | pinf => simp
    | ninf => simp
  set s := npSort l with hs
  have hle : ∀ i j, i < j → ∀ hj : j < s.length, ∀ hi : i < s.length, leN s[i] s[j] = true := fun i j hij hj hi =>
    (List.pairwise_iff_getElem.mp hsort) i j hi hj hij
  -- a `+inf` in the lower or middle part would force too many of them
  have key : ∀ i, ∀ hi : i < s.length, 2 * i ≤ s.length → s.length ≤ 2 * i + 2 → ∃ r, s[i] = fin r := by
    intro i hi ha hb
    rcases hc : s[i] with r | _ | _ | _
    · exact ⟨r, rfl⟩
    · exact absurd (hperm.subset (hc ▸ List.getElem_mem hi)) hn
    · exfalso
      have : s.length - i ≤ s.count pinf := by
        have hsub : List.replicate (s.length - i) (pinf : Fl K) = s.drop i := by
          refine (List.eq_replicate_iff.mpr ⟨by simp, ?_⟩).symm
          intro y hy
          obtain ⟨k, hk, rfl⟩ := List.getElem_of_mem hy
          rw [List.getElem_drop]
          rw [List.length_drop] at hk
          rcases Nat.eq_zero_or_pos k with rfl | hk0
          · simpa using hc
          · have h3 := hle i (i + k) (by omega) (by omega) hi
            rw [hc] at h3
            have h4 : s[i + k] ≠ nan := fun h => hn (hperm.subset (h ▸ List.getElem_mem _))
            revert h3 h4
            cases s[i + k] <;> simp [leN, ple_def, isNaN_def, Fl.le, Fl.isNaN]
        calc s.length - i = (List.replicate (s.length - i) (pinf : Fl K)).count pinf := by simp
          _ = (s.drop i).count pinf := by rw [hsub]
          _ ≤ s.count pinf := (List.drop_sublist i s).count_le _
      rw [hperm.count_eq] at this
      omega
    · exfalso
      have : i + 1 ≤ s.count ninf := by
        have hsub : List.replicate (i + 1) (ninf : Fl K) = s.take (i + 1) := by
          refine (List.eq_replicate_iff.mpr ⟨by simp; omega, ?_⟩).symm
          intro y hy
          obtain ⟨k, hk, rfl⟩ := List.getElem_of_mem hy
          rw [List.getElem_take]
          rw [List.length_take] at hk
          rcases Nat.lt_or_ge k i with hk0 | hk0
          · have h3 := hle k i hk0 hi (by omega)
            rw [hc] at h3
            have h4 : s[k] ≠ nan := fun h => hn (hperm.subset (h ▸ List.getElem_mem _))
            revert h3 h4
            cases s[k] <;> simp [leN, ple_def, isNaN_def, Fl.le, Fl.isNaN]
          · obtain rfl : k = i := by omega
            exact hc
        calc i + 1 = (List.replicate (i + 1) (ninf : Fl K)).count ninf := by simp
          _ = (s.take (i + 1)).count ninf := by rw [hsub]
          _ ≤ s.count ninf := (List.take_sublist (i + 1) s).count_le _
      rw [hperm.count_eq] at this
      omega
  have hpos : 0 < s.length := by rw [hlen]; exact List.length_pos_of_ne_nil hne
  have hg : ∀ i, ∀ hi : i < s.length, s.getD i PyNum.nan = s[i] := fun i hi => by simp [List.getD, hi]
  unfold npMedian
  simp only [hnan, Bool.false_eq_true, if_false, ← hs]
  rw [if_neg hpos.ne']
  by_cases hodd : s.length % 2 = 1
  · rw [if_pos hodd, hg _ (by omega)]
    obtain ⟨r, hr⟩ := key (s.length / 2) (by omega) (by omega) (by omega)
    exact ⟨r, by rw [hr]⟩
  · rw [if_neg hodd, hg _ (by omega), hg _ (by omega)]
    obtain ⟨r, hr⟩ := key (s.length / 2) (by omega) (by omega) (by omega)
    obtain ⟨t, ht⟩ := key (s.length / 2 - 1) (by omega) (by omega) (by omega)
    rw [hr, ht, padd_fin, lit_eq, pdiv_fin (by norm_num)]
    exact ⟨_, rfl⟩

/-- one infinite sample: the median stays a number, the mean does not; at half of the samples the median is lost -/
example : median ⟨1, false, [(fin 1 : Fl ℚ), pinf, fin 3, fin 5].map Item.num⟩ = .ok (fin 4) ∧
    meanOf [(fin 1 : Fl ℚ), pinf, fin 3, fin 5] = .ok pinf ∧ meanOf [(fin 1 : Fl ℚ), pinf, fin 3, ninf] = .ok nan ∧
    variance ⟨1, false, [(fin 1 : Fl ℚ), pinf, fin 3, fin 5].map Item.num⟩ = .ok nan ∧
    median ⟨1, false, [(fin 1 : Fl ℚ), pinf, pinf, fin 5].map Item.num⟩ = .ok pinf := by
  decide +kernel

/-! ## C202: averages and Kalman filter with one infinite sample -/

private theorem emaLoop_step {a prev x y : Fl K} (t : List (Fl K)) (hy : store false (a *. x +. (lit 1 -. a) *. prev) = y) :
    emaLoop false a prev (x :: t) = y :: emaLoop false a y t := by
  rw [← hy]; rfl

private theorem emaLoop_fin (a : K) (xs : List K) (p : K) : ∃ (zs : List K) (e : K), zs.length = xs.length ∧
    emaLoop false (fin a) (fin p) (fins xs) = fins zs ∧
    ∀ t : List (Fl K), emaLoop false (fin a) (fin p) (fins xs ++ t) = fins zs ++ emaLoop false (fin a) (fin e) t := by
  induction xs generalizing p with
  | nil => exact ⟨[], p, rfl, rfl, fun t => rfl⟩
  | cons x xs ih =>
    obtain ⟨zs, e, hl, h1, h2⟩ := ih (a * x + (1 - a) * p)
    have hy : store false (fin a *. fin x +. (lit 1 -. fin a) *. fin p) = (fin (a * x + (1 - a) * p) : Fl K) := by simp [store]
    refine ⟨(a * x + (1 - a) * p) :: zs, e, by simp [hl], ?_, fun t => ?_⟩
    · rw [show (fins (x :: xs) : List (Fl K)) = fin x :: fins xs from rfl, emaLoop_step _ hy, h1]; rfl
    · rw [show (fins (x :: xs) ++ t : List (Fl K)) = fin x :: (fins xs ++ t) from rfl, emaLoop_step _ hy, h2 t]; rfl

private theorem emaLoop_inf (a : K) (h0 : 0 < a) (h1 : a < 1) (v : Fl K) (hv : v = pinf ∨ v = ninf) (ys : List K) :
    emaLoop false (fin a) v (fins ys) = List.replicate ys.length v := by
  induction ys with
  | nil => rfl
  | cons y ys ih =>
    have hy : store false (fin a *. fin y +. (lit 1 -. fin a) *. v) = v := by
      rw [lit_eq, psub_fin, Rat.cast_one, pos_mul_inf hv (by linarith), pmul_fin, fin_add_inf hv]; rfl
    rw [show (fins (y :: ys) : List (Fl K)) = fin y :: fins ys from rfl, emaLoop_step _ hy, ih]; rfl

private theorem emaLoop_allnan (a : Fl K) (ys : List (Fl K)) : emaLoop false a nan ys = List.replicate ys.length nan := by
  induction ys with
  | nil => rfl
  | cons y ys ih =>
    have hy : store false (a *. y +. (lit 1 -. a) *. (nan : Fl K)) = nan := by simp [store]
    rw [emaLoop_step _ hy, ih]; rfl

/-- **C202** `exponential_moving_average` with one infinite sample: nothing changes before it; from it on every output is that infinity,
however long the record continues; with `alpha = 1` (no smoothing at all) every later output is NaN. -/
theorem C202_ema (xs ys : List K) (v : Fl K) (hv : v = pinf ∨ v = ninf) (a : K) (h0 : 0 < a) (h1 : a ≤ 1) :
    ∃ zs : List K, zs.length = xs.length ∧
      (xs ≠ [] → exponentialMovingAverage ⟨1, false, fins xs⟩ (fin a) = .ok (fins zs)) ∧
      exponentialMovingAverage ⟨1, false, fins xs ++ v :: fins ys⟩ (fin a) =
        .ok (fins zs ++ v :: List.replicate ys.length (if a < 1 then v else nan)) := by
  have hg : ∀ (x : Fl K) (t : List (Fl K)), exponentialMovingAverage ⟨1, false, x :: t⟩ (fin a) = .ok (x :: emaLoop false (fin a) x t) := by
    intro x t
    unfold exponentialMovingAverage
    rw [if_neg (by simp [h0, h1])]
  have tail : emaLoop false (fin a) v (fins ys) = List.replicate ys.length (if a < 1 then v else nan) := by
    by_cases ha : a < 1
    · rw [if_pos ha, emaLoop_inf a h0 ha v hv]
    · rw [if_neg ha]
      obtain rfl : a = 1 := le_antisymm h1 (not_lt.mp ha)
      cases ys with
      | nil => rfl
      | cons y ys =>
        have hy : store false (fin 1 *. fin y +. (lit 1 -. fin 1) *. v) = nan := by
          rw [lit_eq, psub_fin, Rat.cast_one, sub_self, zero_mul_inf hv, add_nan]; rfl
        rw [show (fins (y :: ys) : List (Fl K)) = fin y :: fins ys from rfl, emaLoop_step _ hy, emaLoop_allnan]
        simp [List.replicate_succ, fins]
  cases xs with
  | nil =>
    refine ⟨[], rfl, fun h => absurd rfl h, ?_⟩
    rw [show (fins [] ++ v :: fins ys : List (Fl K)) = v :: fins ys from rfl, hg, tail]; rfl
  | cons x xs =>
    obtain ⟨zs, e, hl, e1, e2⟩ := emaLoop_fin a xs x
    refine ⟨x :: zs, by simp [hl], fun _ => ?_, ?_⟩
    · rw [show (fins (x :: xs) : List (Fl K)) = fin x :: fins xs from rfl, hg, e1]; rfl
    · rw [show (fins (x :: xs) ++ v :: fins ys : List (Fl K)) = fin x :: (fins xs ++ v :: fins ys) from rfl, hg, e2]
      have hy : store false (fin a *. v +. (lit 1 -. fin a) *. fin e) = v := by
        rw [lit_eq, psub_fin, Rat.cast_one, pos_mul_inf hv h0, pmul_fin, inf_add_fin hv]; rfl
      rw [emaLoop_step _ hy, tail]; rfl

private theorem kalman_step_eq (q r : K) (hs : ∀ p : K, 0 ≤ p → 0 < p + q + r) (x : Fl K) (p : K) (hp : 0 ≤ p) (z : Fl K) :
    kalmanStep (fin q) (fin r) (x, fin p) z = .ok (lit 1 *. x +. fin ((p + q) * (1 / (p + q + r))) *. (z -. lit 1 *. (lit 1 *. x)),
      fin ((1 - (p + q) * (1 / (p + q + r))) * (p + q))) := by
  have hs := hs p hp
  unfold kalmanStep inv1
  simp only [lit_eq, pmul_fin, padd_fin, peq_fin, Rat.cast_one, one_mul, mul_one, Rat.cast_zero]
  rw [if_neg (by simpa using hs.ne')]
  simp only [bind, Except.bind]
  rw [pdiv_fin hs.ne']
  simp only [pmul_fin, psub_fin, mul_one]

private theorem kalman_cov (q r p : K) (hq : 0 ≤ q) (hr : 0 < r) (hp : 0 ≤ p) (hpq : 0 < p + q) :
    0 < (p + q) * (1 / (p + q + r)) ∧ 0 < (1 - (p + q) * (1 / (p + q + r))) * (p + q) := by
  have hs : 0 < p + q + r := by linarith
  refine ⟨mul_pos hpq (by positivity), mul_pos ?_ hpq⟩
  have : 1 - (p + q) * (1 / (p + q + r)) = r / (p + q + r) := by field_simp; ring
  rw [this]; positivity

private theorem kalmanLoop_fin (q r : K) (hq : 0 ≤ q) (hr : 0 < r) (xs : List K) (x p : K) (hp : 0 ≤ p) (hpq : 0 < p + q) :
    ∃ (zs : List (Fl K × Fl K)) (x' p' : K), zs.length = xs.length ∧ (∃ ws : List K, zs.map Prod.fst = fins ws) ∧ 0 ≤ p' ∧ 0 < p' + q ∧
      kalmanLoop (fin q) (fin r) (fin x, fin p) (fins xs) = .ok zs ∧
      ∀ t l, kalmanLoop (fin q) (fin r) (fin x', fin p') t = .ok l →
        kalmanLoop (fin q) (fin r) (fin x, fin p) (fins xs ++ t) = .ok (zs ++ l) := by
  induction xs generalizing x p with
  | nil => exact ⟨[], x, p, rfl, ⟨[], rfl⟩, hp, hpq, rfl, fun t l h => h⟩
  | cons z xs ih =>
    obtain ⟨g0, g1⟩ := kalman_cov q r p hq hr hp hpq
    set g := (p + q) * (1 / (p + q + r)) with hg
    have st : kalmanStep (fin q) (fin r) (fin x, fin p) (fin z) = .ok (fin (x + g * (z - x)), fin ((1 - g) * (p + q))) := by
      rw [kalman_step_eq q r (fun p hp => by linarith) _ p hp]
      simp [hg]
    obtain ⟨zs, x', p', hl, ⟨ws, hw⟩, hp', hpq', h1, h2⟩ := ih (x + g * (z - x)) ((1 - g) * (p + q)) g1.le (by linarith)
    refine ⟨(fin (x + g * (z - x)), fin ((1 - g) * (p + q))) :: zs, x', p', by simp [hl], ⟨(x + g * (z - x)) :: ws, by simp [hw, fins]⟩, hp', hpq', ?_, fun t l h => ?_⟩
    · show kalmanLoop _ _ _ (fin z :: fins xs) = _
      unfold kalmanLoop
      rw [st]
      simp only [bind, Except.bind, h1]
    · show kalmanLoop _ _ _ (fin z :: (fins xs ++ t)) = _
      unfold kalmanLoop
      rw [st]
      simp only [bind, Except.bind, h2 t l h, List.cons_append]

private theorem kalmanLoop_allnan (q r : K) (hq : 0 ≤ q) (hr : 0 < r) (ys : List (Fl K)) (p : K) (hp : 0 ≤ p) :
    ∃ l, kalmanLoop (fin q) (fin r) (nan, fin p) ys = .ok l ∧ l.map Prod.fst = List.replicate ys.length nan := by
  induction ys generalizing p with
  | nil => exact ⟨[], rfl, rfl⟩
  | cons y ys ih =>
    have hs : 0 < p + q + r := by linarith
    have hle : (p + q) * (1 / (p + q + r)) ≤ 1 := by rw [mul_one_div, div_le_one hs]; linarith
    obtain ⟨l, h1, h2⟩ := ih ((1 - (p + q) * (1 / (p + q + r))) * (p + q)) (mul_nonneg (by linarith) (by linarith))
    refine ⟨(nan, fin ((1 - (p + q) * (1 / (p + q + r))) * (p + q))) :: l, ?_, by simp [h2, List.replicate_succ]⟩
    unfold kalmanLoop
    rw [kalman_step_eq q r (fun p hp => by linarith) _ p hp]
    simp only [bind, Except.bind, mul_nan, nan_add, h1]

/-- **C202** `kalman_filter` with one infinite measurement: the estimate at that measurement is infinite and every later one is NaN. -/
theorem C202_kalman (xs ys : List K) (v : Fl K) (hv : v = pinf ∨ v = ninf) (x0 p0 q r : K) (hp : 0 ≤ p0) (hq : 0 ≤ q) (hr : 0 < r)
    (hpq : 0 < p0 + q) :
    ∃ zs : List K, zs.length = xs.length ∧ kalmanFilter (fins xs) (fin x0) (fin p0) (fin q) (fin r) = .ok (fins zs) ∧
      kalmanFilter (fins xs ++ v :: fins ys) (fin x0) (fin p0) (fin q) (fin r) = .ok (fins zs ++ v :: List.replicate ys.length nan) := by
  obtain ⟨zs, x', p', hl, ⟨ws, hw⟩, hp', hpq', h1, h2⟩ := kalmanLoop_fin q r hq hr xs x0 p0 hp hpq
  have hwl : ws.length = xs.length := by rw [← hl, ← List.length_map (f := Prod.fst), hw]; simp [fins]
  obtain ⟨g0, g1⟩ := kalman_cov q r p' hq hr hp' hpq'
  set g := (p' + q) * (1 / (p' + q + r)) with hg
  have st : kalmanStep (fin q) (fin r) (fin x', fin p') v = .ok (v, fin ((1 - g) * (p' + q))) := by
    rw [kalman_step_eq q r (fun p hp => by linarith) _ p' hp']
    simp only [lit_eq, pmul_fin]
    rw [inf_sub_fin hv, pos_mul_inf hv g0, fin_add_inf hv]
  obtain ⟨l, hl1, hl2⟩ : ∃ l, kalmanLoop (fin q) (fin r) (v, fin ((1 - g) * (p' + q))) (fins ys) = .ok l ∧
      l.map Prod.fst = List.replicate ys.length nan := by
    cases ys with
    | nil => exact ⟨[], rfl, rfl⟩
    | cons y ys =>
      obtain ⟨g2, g3⟩ := kalman_cov q r _ hq hr g1.le (by linarith)
      have st2 := kalman_step_eq q r (fun p hp => by linarith) v _ g1.le (fin y)
      have one : lit 1 *. v = v := by rw [lit_eq, Rat.cast_one]; exact pos_mul_inf hv one_pos
      obtain ⟨e1, e2, e3⟩ := fin_sub_inf hv y
      rw [one, one, e1, pos_mul_inf e2 g2, e3] at st2
      obtain ⟨l, h1, h2⟩ := kalmanLoop_allnan q r hq hr (fins ys) _ g3.le
      refine ⟨(nan, fin ((1 - ((1 - g) * (p' + q) + q) * (1 / ((1 - g) * (p' + q) + q + r))) * ((1 - g) * (p' + q) + q))) :: l, ?_, by simp [h2, List.replicate_succ, fins]⟩
      · show kalmanLoop _ _ _ (fin y :: fins ys) = _
        unfold kalmanLoop
        rw [st2]
        simp only [bind, Except.bind, h1]
  refine ⟨ws, hwl, ?_, ?_⟩
  · unfold kalmanFilter
    rw [h1]
    simp only [bind, Except.bind, hw]
  · unfold kalmanFilter
    rw [h2 (v :: fins ys) ((v, fin ((1 - g) * (p' + q))) :: l) (by
      unfold kalmanLoop
      rw [st]
      simp only [bind, Except.bind, hl1])]
    simp only [bind, Except.bind, List.map_append, hw, List.map_cons, hl2]

/-- **C202** `moving_average` with one infinite sample at `j`: numbers before it, the infinity for the `w` outputs whose window holds it,
and NaN for every later output although the sample has left the window. -/
theorem C202_moving_average (b : Bool) (xs ys : List K) (v : Fl K) (hv : v = pinf ∨ v = ninf) (w : Nat) (hw : 1 ≤ w)
    (hwn : w ≤ xs.length + 1 + ys.length) :
    ∃ out, movingAverage ⟨1, b, fins xs ++ v :: fins ys⟩ (w : Int) = .ok out ∧ out.length = xs.length + 1 + ys.length ∧
      (∀ i < xs.length, ∃ r, out[i]? = some (fin r)) ∧
      (∀ i, xs.length ≤ i → i < xs.length + w → i < xs.length + 1 + ys.length → out[i]? = some v) ∧
      (∀ i, xs.length + w ≤ i → i < xs.length + 1 + ys.length → out[i]? = some nan) := by
  set data : List (Fl K) := fins xs ++ v :: fins ys with hdata
  have hlen : data.length = xs.length + 1 + ys.length := by simp [hdata, fins]; omega
  have hne : data ≠ [] := by simp [hdata]
  have hgv : ∀ i, i < xs.length + 1 + ys.length → (i = xs.length ∧ data.getD i PyNum.nan = v) ∨
      (i ≠ xs.length ∧ ∃ r, data.getD i PyNum.nan = fin r) := by
    intro i hi
    have hfl : (fins xs : List (Fl K)).length = xs.length := by simp [fins]
    rcases Nat.lt_trichotomy i xs.length with h | h | h
    · right
      refine ⟨by omega, xs[i], ?_⟩
      rw [hdata, List.getD_eq_getElem?_getD, List.getElem?_append_left (by omega)]
      simp [fins, h]
    · left
      refine ⟨h, ?_⟩
      rw [hdata, List.getD_eq_getElem?_getD, List.getElem?_append_right (by omega)]
      simp [hfl, h]
    · right
      refine ⟨by omega, ys[i - xs.length - 1], ?_⟩
      rw [hdata, List.getD_eq_getElem?_getD, List.getElem?_append_right (by omega), hfl]
      obtain ⟨k, hk⟩ : ∃ k, i - xs.length = k + 1 := ⟨i - xs.length - 1, by omega⟩
      have hk' : k < ys.length := by omega
      simp [hk, fins, hk']
  have hwp : (0 : K) < (w : K) := by exact_mod_cast hw
  -- what is claimed of output `i`
  let P : Nat → Fl K → Prop := fun i y => (i < xs.length → ∃ r, y = fin r) ∧ (xs.length ≤ i → i < xs.length + w → y = v) ∧
    (xs.length + w ≤ i → y = nan)
  suffices h : ∃ out, movingAverage ⟨1, b, data⟩ (w : Int) = .ok out ∧ out.length = data.length ∧
      ∀ i, i < data.length → ∃ y, out[i]? = some y ∧ P i y by
    obtain ⟨out, h1, h2, h3⟩ := h
    refine ⟨out, h1, by rw [h2, hlen], fun i hi => ?_, fun i h4 h5 h6 => ?_, fun i h4 h5 => ?_⟩
    · obtain ⟨y, e, p⟩ := h3 i (by omega)
      obtain ⟨r, hr⟩ := p.1 hi
      exact ⟨r, by rw [e, hr]⟩
    · obtain ⟨y, e, p⟩ := h3 i (by omega)
      rw [e, p.2.1 h4 h5]
    · obtain ⟨y, e, p⟩ := h3 i (by omega)
      rw [e, p.2.2 h4]
  unfold movingAverage
  simp only [Int.toNat_natCast]
  rw [if_neg (by omega), if_neg (by simpa using hne), if_neg (by simp), if_neg (by omega)]
  have h1 : (List.range w).mapM (fun i => meanOf (data.take (i + 1))) =
      .ok ((List.range w).map (fun i => npMean (data.take (i + 1)))) := by
    apply mapM_ok
    intro i _
    exact meanOf_eq _ (by simpa using hne)
  rw [h1]
  simp only [bind, Except.bind]
  have key : ∀ m, m ≤ data.length - w →
      ((List.range m).foldl (fun ma t => maStep data w ma (w + t))
        ((List.range w).map (fun i => npMean (data.take (i + 1))))).length = w + m ∧
      ∀ i, i < w + m → ∃ y,
      ((List.range m).foldl (fun ma t => maStep data w ma (w + t))
        ((List.range w).map (fun i => npMean (data.take (i + 1)))))[i]? = some y ∧ P i y := by
    intro m
    induction m with
    | zero =>
      intro _
      refine ⟨by simp, fun i hi => ?_⟩
      simp only [List.range_zero, List.foldl_nil]
      rw [List.getElem?_map, List.getElem?_range (by omega)]
      refine ⟨_, rfl, fun h => ?_, fun h _ => ?_, fun h => by omega⟩
      · have : data.take (i + 1) = fins (xs.take (i + 1)) := by
          rw [hdata, List.take_append_of_le_length (by simp [fins]; omega)]
          simp [fins, List.map_take]
        show ∃ r, npMean (data.take (i + 1)) = fin r
        rw [this, npMean_fins _ (by intro h0; have := congrArg List.length h0; simp at this; rw [this] at h; simp at h)]
        exact ⟨_, rfl⟩
      · have hmem : v ∈ data.take (i + 1) := by
          apply List.mem_iff_getElem?.mpr
          refine ⟨xs.length, ?_⟩
          rw [List.getElem?_take_of_lt (by omega), hdata, List.getElem?_append_right (by simp [fins])]
          simp [fins]
        have hall : ∀ x ∈ data.take (i + 1), x = v ∨ ∃ r, x = fin r := by
          intro x hx
          have := List.mem_of_mem_take hx
          rw [hdata, List.mem_append, List.mem_cons] at this
          rcases this with h' | h' | h'
          · obtain ⟨r, -, rfl⟩ := List.mem_map.mp h'; exact Or.inr ⟨r, rfl⟩
          · exact Or.inl h'
          · obtain ⟨r, -, rfl⟩ := List.mem_map.mp h'; exact Or.inr ⟨r, rfl⟩
        show npMean (data.take (i + 1)) = v
        unfold npMean
        rw [psum_inf hv hmem hall, ofNat_eq, inf_div_pos hv (by exact_mod_cast List.length_pos_of_mem hmem)]
    | succ m ih =>
      intro hm
      obtain ⟨hl, hv'⟩ := ih (by omega)
      rw [List.range_succ, List.foldl_append]
      simp only [List.foldl_cons, List.foldl_nil]
      generalize hma : (List.range m).foldl (fun ma t => maStep data w ma (w + t))
        ((List.range w).map (fun i => npMean (data.take (i + 1)))) = ma at hl hv' ⊢
      unfold maStep
      refine ⟨by rw [List.length_append, hl]; simp; omega, fun i hi => ?_⟩
      rcases Nat.lt_or_ge i (w + m) with h | h
      · rw [List.getElem?_append_left (by omega)]; exact hv' i h
      · have hi' : i = w + m := by omega
        subst hi'
        rw [List.getElem?_append_right (by omega), hl]
        simp only [Nat.sub_self, List.getElem?_cons_zero, Option.some.injEq]
        refine ⟨_, rfl, ?_⟩
        obtain ⟨y, hy, hP⟩ := hv' (w + m - 1) (by omega)
        have hprev : ma.getD (w + m - 1) PyNum.nan = y := by rw [List.getD, hy]; rfl
        rw [hprev, show w + m - w = m by omega, ofNat_eq]
        refine ⟨fun h4 => ?_, fun h4 h5 => ?_, fun h4 => ?_⟩
        · obtain ⟨r, rfl⟩ := hP.1 (by omega)
          rcases hgv (w + m) (by omega) with ⟨h6, -⟩ | ⟨-, s, hs⟩
          · omega
          rcases hgv m (by omega) with ⟨h6, -⟩ | ⟨-, t, ht⟩
          · omega
          rw [hs, ht, psub_fin, pdiv_fin hwp.ne']
          exact ⟨_, rfl⟩
        · rcases hgv m (by omega) with ⟨h6, -⟩ | ⟨-, t, ht⟩
          · omega
          rcases hgv (w + m) (by omega) with ⟨h6, h7⟩ | ⟨h6, s, hs⟩
          · obtain ⟨r, rfl⟩ := hP.1 (by omega)
            rw [h7, ht, inf_sub_fin hv, inf_div_pos hv hwp, fin_add_inf hv]
          · rw [hP.2.1 (by omega) (by omega), hs, ht, psub_fin, pdiv_fin hwp.ne', inf_add_fin hv]
        · rcases Nat.lt_or_ge (xs.length + w) (w + m) with h5 | h5
          · rw [hP.2.2 (by omega), nan_add]
          · rw [hP.2.1 (by omega) (by omega)]
            rcases hgv m (by omega) with ⟨-, h7⟩ | ⟨h6, -⟩
            · rcases hgv (w + m) (by omega) with ⟨h6, -⟩ | ⟨h6, s, hs⟩
              · omega
              obtain ⟨e1, e2, e3⟩ := fin_sub_inf hv s
              rw [h7, hs, e1, inf_div_pos e2 hwp, e3]
            · omega
  obtain ⟨hl, hv'⟩ := key (data.length - w) le_rfl
  exact ⟨_, rfl, by rw [hl]; omega, fun i hi => hv' i (by omega)⟩

/-- **C202** `weighted_moving_average` with one infinite sample at `j`: exactly the outputs whose window holds it are infinite. -/
theorem C202_wma (xs ys : List K) (v : Fl K) (hv : v = pinf ∨ v = ninf) (p : Nat) (hp : 1 ≤ p) (hpn : p ≤ xs.length + 1 + ys.length) :
    ∃ out, weightedMovingAverage (fins xs ++ v :: fins ys) (p : Int) = .ok out ∧ out.data.length = xs.length + 1 + ys.length - p ∧
      ∀ k < xs.length + 1 + ys.length - p,
        (k ≤ xs.length ∧ xs.length < k + p → out.data[k]? = some v) ∧
        (¬ (k ≤ xs.length ∧ xs.length < k + p) → ∃ r, out.data[k]? = some (fin r)) := by
  set data : List (Fl K) := fins xs ++ v :: fins ys with hdata
  have hlen : data.length = xs.length + 1 + ys.length := by simp [hdata, fins]; omega
  have hfl : (fins xs : List (Fl K)).length = xs.length := by simp [fins]
  have hgv : ∀ i, i < xs.length + 1 + ys.length → (i = xs.length ∧ data.getD i nan = v) ∨
      (i ≠ xs.length ∧ ∃ r, data.getD i nan = fin r) := by
    intro i hi
    rcases Nat.lt_trichotomy i xs.length with h | h | h
    · right
      refine ⟨by omega, xs[i], ?_⟩
      rw [hdata, List.getD_eq_getElem?_getD, List.getElem?_append_left (by omega)]
      simp [fins, h]
    · left
      refine ⟨h, ?_⟩
      rw [hdata, List.getD_eq_getElem?_getD, List.getElem?_append_right (by omega)]
      simp [hfl, h]
    · right
      refine ⟨by omega, ys[i - xs.length - 1], ?_⟩
      rw [hdata, List.getD_eq_getElem?_getD, List.getElem?_append_right (by omega), hfl]
      obtain ⟨k, hk⟩ : ∃ k, i - xs.length = k + 1 := ⟨i - xs.length - 1, by omega⟩
      have hk' : k < ys.length := by omega
      simp [hk, fins, hk']
  have e : weightedMovingAverage data (p : Int) = .ok ⟨((List.range (data.length - p)).map (fun t => wmaAt data p (p + t))).isEmpty,
      (List.range (data.length - p)).map (fun t => wmaAt data p (p + t))⟩ := by
    unfold weightedMovingAverage
    rw [if_neg (by omega), if_neg (by omega)]
    rfl
  refine ⟨_, e, by simp [hlen], fun k hk => ?_⟩
  simp only [List.getElem?_map, List.getElem?_range (show k < data.length - p by omega), Option.map_some, Option.some.injEq]
  set sl := slice data (p + k - p) (p + k) with hsl
  have hsl' : ∀ j, sl[j]? = if j < p then data[k + j]? else none := by
    intro j
    rw [hsl, slice, List.getElem?_drop, show p + k - p = k by omega]
    by_cases hj : j < p
    · rw [if_pos hj, List.getElem?_take_of_lt (by omega)]
    · rw [if_neg hj, List.getElem?_eq_none]; simp; omega
  have hz : List.zipWith (fun (w : Nat) (x : Fl K) => ofNat w *. x) ((List.range p).map (fun j => j + 1)) sl =
      (List.range p).map (fun j => (ofNat (j + 1) : Fl K) *. data.getD (k + j) nan) := by
    apply List.ext_getElem?
    intro j
    rw [List.getElem?_zipWith, hsl']
    by_cases hj : j < p
    · have hd : k + j < data.length := by omega
      simp [hj, List.getElem?_eq_getElem hd, List.getD]
    · simp [hj]
  have hw : (0 : K) < ((((List.range p).map (fun j => j + 1)).sum : Nat) : K) := by
    rw [Nat.cast_pos, Nat.pos_iff_ne_zero]
    intro h0
    have := List.sum_eq_zero_iff.mp h0 1 (List.mem_map.mpr ⟨0, List.mem_range.mpr (by omega), rfl⟩)
    omega
  have hat : wmaAt data p (p + k) = PyNum.sum ((List.range p).map (fun j => (ofNat (j + 1) : Fl K) *. data.getD (k + j) nan)) /.
      ofNat ((List.range p).map (fun j => j + 1)).sum := by
    unfold wmaAt
    simp only
    rw [← hsl, hz]
  have hent : ∀ j < p, (k + j = xs.length ∧ (ofNat (j + 1) : Fl K) *. data.getD (k + j) nan = v) ∨
      (k + j ≠ xs.length ∧ ∃ r, (ofNat (j + 1) : Fl K) *. data.getD (k + j) nan = fin r) := by
    intro j hj
    rcases hgv (k + j) (by omega) with ⟨h, h'⟩ | ⟨h, r, h'⟩
    · left; exact ⟨h, by rw [h', ofNat_eq, pos_mul_inf hv (by positivity)]⟩
    · right; exact ⟨h, ((j + 1 : Nat) : K) * r, by rw [h', ofNat_eq, pmul_fin]⟩
  constructor
  · rintro ⟨h1, h2⟩
    rw [hat, psum_inf hv, ofNat_eq, inf_div_pos hv hw]
    · refine List.mem_map.mpr ⟨xs.length - k, List.mem_range.mpr (by omega), ?_⟩
      rcases hent (xs.length - k) (by omega) with ⟨-, h⟩ | ⟨h, -⟩
      · exact h
      · omega
    · intro x hx
      obtain ⟨j, hj, rfl⟩ := List.mem_map.mp hx
      rcases hent j (List.mem_range.mp hj) with ⟨-, h⟩ | ⟨-, h⟩
      · exact Or.inl h
      · exact Or.inr h
  · intro hno
    have hrec : Recorded ((List.range p).map (fun j => (ofNat (j + 1) : Fl K) *. data.getD (k + j) nan)) := by
      intro x hx
      obtain ⟨j, hj, rfl⟩ := List.mem_map.mp hx
      have hj := List.mem_range.mp hj
      rcases hent j hj with ⟨h, -⟩ | ⟨-, h⟩
      · omega
      · exact Or.inr h
    obtain ⟨zs, hzs⟩ := hrec.fins_of (by
      intro hx
      obtain ⟨j, hj, hnj⟩ := List.mem_map.mp hx
      have hj := List.mem_range.mp hj
      rcases hent j hj with ⟨h, -⟩ | ⟨-, r, h⟩
      · omega
      · rw [h] at hnj; cases hnj)
    rw [hat, hzs, psum_fin, ofNat_eq, pdiv_fin hw.ne']
    exact ⟨_, rfl⟩

/-- the four averages of a record with one overflowed reading -/
example : movingAverage ⟨1, false, [(fin 1 : Fl ℚ), pinf, fin 3, fin 4, fin 5]⟩ 2 = .ok [fin 1, pinf, pinf, nan, nan] ∧
    exponentialMovingAverage ⟨1, false, [(fin 1 : Fl ℚ), pinf, fin 3, fin 4]⟩ (fin (1 / 2)) = .ok [fin 1, pinf, pinf, pinf] ∧
    exponentialMovingAverage ⟨1, false, [(fin 1 : Fl ℚ), pinf, fin 3, fin 4]⟩ (fin 1) = .ok [fin 1, pinf, nan, nan] ∧
    weightedMovingAverage [(fin 1 : Fl ℚ), pinf, fin 3, fin 4, fin 5] 2 = .ok ⟨false, [pinf, pinf, fin (11 / 3)]⟩ ∧
    kalmanFilter [(fin 1 : Fl ℚ), pinf, fin 3, fin 4] (fin 0) (fin 1) (fin 0) (fin 1) = .ok [fin (1 / 2), pinf, nan, nan] := by
  decide +kernel

/-! ## C203: detectors and the two statistical replacements -/

private theorem lt_nan_none (l : List (Fl ℝ)) : whereTrue (l.map (fun x => (nan : Fl ℝ) <. x)) = [] := by
  rw [List.eq_nil_iff_forall_not_mem]
  intro i hi
  obtain ⟨x, -, h⟩ := mem_whereTrue_map.mp hi
  simp at h

private theorem nan_lt_none (l : List (Fl ℝ)) : whereTrue (l.map (fun x => x <. (nan : Fl ℝ))) = [] := by
  rw [List.eq_nil_iff_forall_not_mem]
  intro i hi
  obtain ⟨x, -, h⟩ := mem_whereTrue_map.mp hi
  simp at h

private theorem intersect_nil (a : List Nat) : intersect1d a [] = [] := by
  rw [List.eq_nil_iff_forall_not_mem]
  intro i hi
  simpa using (mem_intersect1d.mp hi).2

/-- **C203** `acceleration_thresholding`: with one infinite (or missing) sample the standard deviation is NaN and nothing is flagged,
whatever the other samples are. -/
theorem C203_acceleration (b : Bool) (v : List (Fl ℝ)) (h : NonFinite v) (freq g kg ks : Fl ℝ) (tag : Int) (ht : tag = 1 ∨ tag = 2) :
    acceleration ⟨1, b, v⟩ freq tag g kg ks = .ok [] := by
  have hs := std_nonfinite b v h
  unfold acceleration
  rw [if_neg (by simp)]
  rcases ht with rfl | rfl
  · simp only [bind, Except.bind, hs, if_true]
    rw [mul_nan, add_nan, lt_nan_none, intersect_nil]
  · rw [if_neg (by norm_num)]
    simp only [bind, Except.bind, hs, if_true]
    rw [mul_nan, sub_nan, nan_lt_none, intersect_nil]

private theorem rho_nan (theta a b x y : Fl ℝ) (h : a = nan ∨ b = nan ∨ rotY theta x y /. b = nan) : rhoAt theta a b x y = nan := by
  unfold rhoAt
  rcases h with rfl | rfl | h
  · rw [div_nan, npow_nan (by norm_num), nan_add]
  · rw [div_nan, npow_nan (by norm_num), add_nan]
  · rw [h, npow_nan (by norm_num), add_nan]

/-- a rounded half difference with a non-finite operand is not finite -/
private theorem bad_half (x y : Fl ℝ) (h : (x = nan ∨ x = pinf ∨ x = ninf) ∨ (y = nan ∨ y = pinf ∨ y = ninf)) :
    let z := store false (PyNum.around ((x -. y) /. lit 2) 4); z = nan ∨ z = pinf ∨ z = ninf := by
  have key : ∀ d : Fl ℝ, (d = nan ∨ d = pinf ∨ d = ninf) → let z := store false (PyNum.around (d /. lit 2) 4); z = nan ∨ z = pinf ∨ z = ninf := by
    rintro d (rfl | hd)
    · left; simp [store]; rfl
    · right
      simp only [lit_eq, inf_div_pos hd (show (0 : ℝ) < ((2 : ℚ) : ℝ) by norm_num)]
      rcases hd with rfl | rfl
      · left; rfl
      · right; rfl
  apply key
  cases x <;> cases y <;> simp [sub_def, Fl.sub, Fl.neg, Fl.add] at h ⊢

/-- **C203** `phasespace_thresholding`: with one infinite (or missing) sample nothing is flagged: the detector is blind to
the largest possible spike and to all others. -/
theorem C203_phasespace (c : List (Fl ℝ)) (h : NonFinite c) : phasespaceThresholding ⟨1, false, c⟩ = .ok [] := by
  have hne : c ≠ [] := by rintro rfl; obtain ⟨x, hx, -⟩ := h; simp at hx
  obtain ⟨r, hr⟩ := (C64_errors (⟨1, false, c⟩ : Arr (Fl ℝ))).1.mpr ⟨rfl, hne⟩
  obtain ⟨-, hmem⟩ := C64_char false c r hr
  rw [hr]
  congr 1
  rw [List.eq_nil_iff_forall_not_mem]
  intro i hi
  obtain ⟨x, y, z, hx, hy, hz, hor⟩ := (hmem i).mp hi
  have hsc : npStd c = nan := npStd_nonfinite h
  have ha1 : (phaseP false c).a1 = nan := by simp [phaseP, phaseCoefs, hsc]
  have ha3 : (phaseP false c).a3 = nan := by
    simp [phaseP, phaseCoefs, hsc, npow_nan (K := ℝ) (two_ne_zero)]
  rcases hor with h1 | h2 | h3
  · rw [rho_nan _ _ _ _ _ (Or.inl ha1)] at h1
    simp at h1
  · by_cases hd : NonFinite (centralDiff false c)
    · have ha2 : (phaseP false c).a2 = nan := by simp [phaseP, phaseCoefs, npStd_nonfinite hd]
      rw [rho_nan _ _ _ _ _ (Or.inl ha2)] at h2
      simp at h2
    · -- at most three samples: the second derivative vanishes
      have hlen : c.length ≤ 3 := by
        by_contra hl
        obtain ⟨x, hx, hbad⟩ := h
        obtain ⟨p, hp, hpv⟩ := List.mem_iff_getElem.mp hx
        apply hd
        have hg : c.getD p PyNum.nan = x := by simp [List.getD, hp, hpv]
        by_cases h2p : 2 ≤ p
        · refine ⟨_, List.mem_map.mpr ⟨p - 1, List.mem_range.mpr (by omega), rfl⟩, ?_⟩
          rw [if_pos (by omega), show p - 1 + 1 = p by omega, hg]
          exact bad_half _ _ (Or.inl hbad)
        · refine ⟨_, List.mem_map.mpr ⟨p + 1, List.mem_range.mpr (by omega), rfl⟩, ?_⟩
          rw [if_pos (by omega), show p + 1 - 1 = p by omega, hg]
          exact bad_half _ _ (Or.inr hbad)
      have hpos := List.length_pos_of_ne_nil hne
      have hd2 : centralDiff false (centralDiff false c) = fins (List.replicate c.length 0) := by
        apply List.ext_getElem
        · rw [centralDiff_length, centralDiff_length]; simp [fins]
        · intro k hk hk'
          rw [centralDiff_length, centralDiff_length] at hk
          simp only [centralDiff, List.getElem_map, List.getElem_range, List.length_map, List.length_range, fins, List.getElem_replicate]
          by_cases hc : 1 ≤ k ∧ k + 1 < c.length
          · obtain ⟨rfl, h3⟩ : k = 1 ∧ c.length = 3 := by omega
            rw [if_pos hc, h3]
            simp only [List.getD]
            simp [store, pdiv_fin (K := ℝ) two_ne_zero, aroundK, rint]
          · rw [if_neg hc]; simp
      have hb2 : (phaseP false c).b2 = fin 0 := by
        have hl := lambdaOf_fin hpos
        have hs2 : npStd (centralDiff false (centralDiff false c)) = fin 0 := by
          rw [hd2, npStd_fins _ (by simpa using hne)]
          simp [Spec.var, Spec.cmoment, Spec.avg]
        simp [phaseP, phaseCoefs, hs2, hl]
      have hz0 : z = fin 0 := by
        rw [hd2, fins, List.getElem?_map] at hz
        obtain ⟨q, hq, hqz⟩ := Option.map_eq_some_iff.mp hz
        rw [← hqz, List.eq_of_mem_replicate (List.mem_of_getElem? hq)]
      have hrot : rotY (lit 0) y z /. (phaseP false c).b2 = nan := by
        rw [hb2, hz0]
        unfold rotY
        have e0 : (lit 0 : Fl ℝ) = fin 0 := by simp
        rw [e0, psin_fin, pcos_fin, Real.sin_zero, Real.cos_zero, pmul_fin, zero_mul]
        cases y with
        | fin t =>
          rw [pmul_fin, psub_fin]
          show Fl.div _ _ = _
          simp [Fl.div, infSgn]
        | nan => simp
        | pinf =>
          have : (pinf : Fl ℝ) *. fin 0 = nan := by show Fl.mul _ _ = _; simp [Fl.mul, infSgn]
          rw [this, sub_nan, nan_div]
        | ninf =>
          have : (ninf : Fl ℝ) *. fin 0 = nan := by show Fl.mul _ _ = _; simp [Fl.mul, infSgn]
          rw [this, sub_nan, nan_div]
      rw [rho_nan _ _ _ _ _ (Or.inr (Or.inr hrot))] at h2
      simp at h2
  · rw [rho_nan _ _ _ _ _ (Or.inl ha3)] at h3
    simp at h3

/-- **C203** `velocity_correlation`: an infinite (or missing) sample in any component makes the call raise ValueError. -/
theorem C203_correlation (u v w : List (Fl ℝ)) (hn : 3 ≤ u.length) (hv : v.length = u.length) (hw : w.length = u.length)
    (h : NonFinite u ∨ NonFinite v ∨ NonFinite w) : velocityCorrelation u v w = .error .valueError := by
  have hcent : ∀ x : List (Fl ℝ), NonFinite x → npStd (cent x) = nan := by
    intro x hx
    refine npStd_nan ?_
    unfold cent
    exact mean_nonfinite hx
  have bad1 : ∀ x y : List (Fl ℝ), npStd x = nan → ¬ GoodAxes x y := by
    rintro x y hx ⟨h1, -⟩
    rw [hx] at h1
    unfold axisA at h1
    rw [mul_nan, npow_nan (by norm_num), nan_mul, nan_sub, nan_div, lt_nan] at h1
    cases h1
  have bad2 : ∀ x y : List (Fl ℝ), npStd y = nan → ¬ GoodAxes x y := by
    rintro x y hx ⟨h1, -⟩
    rw [hx] at h1
    unfold axisA at h1
    rw [mul_nan, npow_nan (by norm_num), nan_mul, sub_nan, nan_div, lt_nan] at h1
    cases h1
  refine (C68_success_iff u v w hn hv hw).2 ?_
  rintro ⟨g1, g2, g3⟩
  rcases h with h | h | h
  · exact bad1 _ _ (hcent u h) g1
  · exact bad2 _ _ (hcent v h) g1
  · exact bad2 _ _ (hcent w h) g2

/-- an overflowed reading next to ordinary spikes -/
example : acceleration ⟨1, false, [(fin 1 : Fl ℝ), fin 1000, pinf, fin (-1000)]⟩ (fin 100) 1 (fin 981) (fin 1) (fin 1) = .ok [] ∧
    phasespaceThresholding ⟨1, false, [(fin 1 : Fl ℝ), fin 1000, pinf, fin (-1000)]⟩ = .ok [] ∧
    velocityCorrelation [(fin 1 : Fl ℝ), fin 2, fin 4] [fin 1, fin 5, ninf] [fin 1, fin 0, fin 2] = .error .valueError :=
  ⟨C203_acceleration false _ ⟨pinf, by simp, by simp⟩ _ _ _ _ _ (Or.inl rfl), C203_phasespace _ ⟨pinf, by simp, by simp⟩,
    C203_correlation _ _ _ (by simp) (by simp) (by simp) (Or.inr (Or.inl ⟨ninf, by simp, by simp⟩))⟩

/-- **C203** `mean_value` with infinite samples of one sign: the infinity is written to every listed sample, so ordinary spikes become
infinite as well. -/
theorem C203_mean_value (l : List (Fl K)) (v : Fl K) (hv : v = pinf ∨ v = ninf) (h : v ∈ l) (ha : ∀ x ∈ l, x = v ∨ ∃ r, x = fin r)
    (sp : List Nat) (hin : ∀ i ∈ sp, i < l.length) :
    ∃ out, meanValue ⟨1, false, l⟩ (sp.map (fun i : Nat => (i : Int))) = .ok out ∧ out.length = l.length ∧
      (∀ i ∈ sp, out[i]? = some v) ∧ (∀ i < l.length, i ∉ sp → out[i]? = l[i]?) := by
  obtain ⟨out, ho⟩ := setMany_total l (sp.map (fun i : Nat => (i : Int))) v (fun i hi => by
    obtain ⟨j, hj, rfl⟩ := List.mem_map.mp hi
    exact ⟨j, pyIdx_nat (hin j hj)⟩)
  have hne : l ≠ [] := by rintro rfl; simp at h
  obtain ⟨hl, hf⟩ := setMany_frame ho
  refine ⟨out, ?_, hl, fun i hi => setMany_value ho i ((hits_nat hin i).mpr hi), fun i _ hi => hf i (fun h => hi ((hits_nat hin i).mp h))⟩
  unfold meanValue meanForStore
  rw [if_neg (by simpa using hne), (C202_mean l).1 v hv h ha]
  simp only [bind, Except.bind]
  exact ho

/-- **C203** `median_value` repairs infinite samples: if they are all listed and fewer than half of the samples are `+inf` and fewer than
half `-inf`, every sample of the result is a number. -/
theorem C203_median_value (l : List (Fl K)) (hn : nan ∉ l) (hp : 2 * l.count pinf < l.length) (hm : 2 * l.count ninf < l.length)
    (sp : List Nat) (hin : ∀ i ∈ sp, i < l.length) (hall : ∀ i < l.length, i ∉ sp → ∃ r, l[i]? = some (fin r)) :
    ∃ (out : List (Fl K)) (m : K), medianValue ⟨1, false, l⟩ (sp.map (fun i : Nat => (i : Int))) = .ok out ∧ out.length = l.length ∧
      (∀ i ∈ sp, out[i]? = some (fin m)) ∧ ∀ y ∈ out, ∃ r, y = fin r := by
  obtain ⟨m, hmed⟩ := C202_median false l hn hp hm
  obtain ⟨out, ho⟩ := setMany_total l (sp.map (fun i : Nat => (i : Int))) (fin m : Fl K) (fun i hi => by
    obtain ⟨j, hj, rfl⟩ := List.mem_map.mp hi
    exact ⟨j, pyIdx_nat (hin j hj)⟩)
  obtain ⟨hl, hf⟩ := setMany_frame ho
  have hw : ∀ i ∈ sp, out[i]? = some (fin m) := fun i hi => setMany_value ho i ((hits_nat hin i).mpr hi)
  refine ⟨out, m, ?_, hl, hw, fun y hy => ?_⟩
  · unfold medianValue
    simp only [bind, Except.bind, hmed]
    exact ho
  · obtain ⟨k, hk, rfl⟩ := List.mem_iff_getElem.mp hy
    by_cases hs : k ∈ sp
    · have := hw k hs
      rw [List.getElem?_eq_getElem hk] at this
      exact ⟨m, Option.some.inj this⟩
    · have := hf k (fun h => hs ((hits_nat hin k).mp h))
      obtain ⟨r, hr⟩ := hall k (by omega) hs
      rw [hr, List.getElem?_eq_getElem hk] at this
      exact ⟨r, Option.some.inj this⟩

/-- the mean replacement turns the spike 100 into `+inf`; the median replacement removes both -/
example : meanValue ⟨1, false, [(fin 1 : Fl ℚ), pinf, fin 3, fin 100, fin 5]⟩ [1, 3] = .ok [fin 1, pinf, fin 3, pinf, fin 5] ∧
    medianValue ⟨1, false, [(fin 1 : Fl ℚ), pinf, fin 3, fin 100, fin 5]⟩ [1, 3] = .ok [fin 1, fin 5, fin 3, fin 5, fin 5] := by
  decide +kernel

end Proadv.Props
