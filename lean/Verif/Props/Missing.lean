import Verif.Props.Replace
import Verif.Props.MedianMode
import Verif.Props.LinearInterp
import Verif.Props.Fluid
import Verif.Props.Spread
import Verif.Props.Kalman
import Verif.Lemmas.Sets

/-!
# C182–C184: missing samples (NaN) in the averages, the Kalman filter, the statistics and the replacements
-/

set_option linter.unusedSectionVars false

namespace Proadv.Props

open Proadv Fl Descriptive Series Replace Spread Moment Signal

variable {K : Type} [Field K] [LinearOrder K] [FloorRing K] [IsStrictOrderedRing K]

/-- a recording: every sample is a number or missing (NaN) -/
def Recorded (l : List (Fl K)) : Prop := ∀ x ∈ l, x = nan ∨ ∃ r, x = fin r

theorem Recorded.fins_of {l : List (Fl K)} (h : Recorded l) (hn : nan ∉ l) : ∃ xs : List K, l = fins xs := by
  induction l with
  | nil => exact ⟨[], rfl⟩
  | cons x t ih =>
    obtain ⟨xs, hx⟩ := ih (fun y hy => h y (List.mem_cons_of_mem _ hy)) (fun hm => hn (List.mem_cons_of_mem _ hm))
    rcases h x List.mem_cons_self with rfl | ⟨r, rfl⟩
    · exact absurd List.mem_cons_self hn
    · exact ⟨r :: xs, by rw [hx]; rfl⟩

/-- the sum of a recording is NaN exactly when a sample is missing -/
theorem Recorded.sum_nan {l : List (Fl K)} (h : Recorded l) : PyNum.sum l = (nan : Fl K) ↔ nan ∈ l := by
  constructor
  · intro hs
    by_contra hn
    obtain ⟨xs, rfl⟩ := h.fins_of hn
    rw [psum_fin] at hs
    cases hs
  · exact psum_nan l

/-! ## C182: averages and Kalman filter -/

private theorem emaLoop_nan (a : K) (t : List (Fl K)) (ht : Recorded t) (prev : Fl K) (hp : prev = nan ∨ ∃ r, prev = fin r) (i : Nat)
    (hi : i < t.length) :
    (emaLoop false (fin a) prev t)[i]? = some nan ↔ prev = nan ∨ ∃ j ≤ i, t[j]? = some nan := by
  induction t generalizing prev i with
  | nil => simp at hi
  | cons x t ih =>
    have hx := ht x List.mem_cons_self
    have ht' : Recorded t := fun y hy => ht y (List.mem_cons_of_mem _ hy)
    set y : Fl K := fin a *. x +. (lit 1 -. fin a) *. prev with hy
    have hyn : y = nan ↔ x = nan ∨ prev = nan := by
      rcases hx with rfl | ⟨r, rfl⟩
      · simp [hy]
      · rcases hp with rfl | ⟨s, rfl⟩
        · simp [hy]
        · simp [hy]
    have hyr : y = nan ∨ ∃ r, y = fin r := by
      rcases hx with rfl | ⟨r, rfl⟩
      · left; simp [hy]
      · rcases hp with rfl | ⟨s, rfl⟩
        · left; simp [hy]
        · right; exact ⟨_, rfl⟩
    have e : emaLoop false (fin a) prev (x :: t) = y :: emaLoop false (fin a) y t := rfl
    rw [e]
    cases i with
    | zero =>
      rw [List.getElem?_cons_zero, Option.some.injEq, hyn]
      constructor
      · rintro (h | h)
        · exact Or.inr ⟨0, le_rfl, by rw [h]; rfl⟩
        · exact Or.inl h
      · rintro (h | ⟨j, hj, h⟩)
        · exact Or.inr h
        · obtain rfl : j = 0 := by omega
          exact Or.inl (Option.some.inj h)
    | succ i =>
      rw [List.getElem?_cons_succ, ih ht' y hyr i (by simpa using hi), hyn]
      constructor
      · rintro ((h | h) | ⟨j, hj, h⟩)
        · exact Or.inr ⟨0, by omega, by rw [h]; rfl⟩
        · exact Or.inl h
        · exact Or.inr ⟨j + 1, by omega, h⟩
      · rintro (h | ⟨j, hj, h⟩)
        · exact Or.inl (Or.inr h)
        · cases j with
          | zero => exact Or.inl (Or.inl (Option.some.inj h))
          | succ j => exact Or.inr ⟨j, by omega, h⟩

/-- **C182** `exponential_moving_average`: an output is NaN exactly when some earlier or the same sample is missing — one missing sample
destroys everything after it. -/
theorem C182_ema (data : List (Fl K)) (hr : Recorded data) (hne : data ≠ []) (alpha : K) (h0 : 0 < alpha) (h1 : alpha ≤ 1) :
    ∃ ys, exponentialMovingAverage ⟨1, false, data⟩ (fin alpha) = .ok ys ∧ ys.length = data.length ∧
      ∀ i < data.length, (ys[i]? = some nan ↔ ∃ j ≤ i, data[j]? = some nan) := by
  obtain ⟨x, t, rfl⟩ := List.exists_cons_of_ne_nil hne
  have hl : ∀ (p : Fl K) (t : List (Fl K)), (emaLoop false (fin alpha) p t).length = t.length := by
    intro p t
    induction t generalizing p with
    | nil => rfl
    | cons y t ih => simp [emaLoop, ih]
  refine ⟨x :: emaLoop false (fin alpha) x t, ?_, by simp [hl], fun i hi => ?_⟩
  · unfold exponentialMovingAverage
    rw [if_neg]
    simp [h0, h1]
  · cases i with
    | zero =>
      constructor
      · intro h; exact ⟨0, le_rfl, h⟩
      · rintro ⟨j, hj, h⟩
        obtain rfl : j = 0 := by omega
        exact h
    | succ i =>
      rw [List.getElem?_cons_succ, emaLoop_nan alpha t (fun y hy => hr y (List.mem_cons_of_mem _ hy)) x
        (hr x List.mem_cons_self) i (by simpa using hi)]
      constructor
      · rintro (h | ⟨j, hj, h⟩)
        · exact ⟨0, by omega, by rw [h]; rfl⟩
        · exact ⟨j + 1, by omega, h⟩
      · rintro ⟨j, hj, h⟩
        cases j with
        | zero => exact Or.inl (Option.some.inj h)
        | succ j => exact Or.inr ⟨j, by omega, h⟩

/-- **C182** `weighted_moving_average`: an output is NaN exactly when its own window contains a missing sample. -/
theorem C182_wma (data : List (Fl K)) (hr : Recorded data) (p : Nat) (hp : 1 ≤ p) (hpn : p ≤ data.length) :
    ∃ out, weightedMovingAverage data (p : Int) = .ok out ∧ out.data.length = data.length - p ∧
      ∀ k < data.length - p, (out.data[k]? = some nan ↔ ∃ j < p, data[k + j]? = some nan) := by
  have e : weightedMovingAverage data (p : Int) = .ok ⟨((List.range (data.length - p)).map (fun t => wmaAt data p (p + t))).isEmpty,
      (List.range (data.length - p)).map (fun t => wmaAt data p (p + t))⟩ := by
    unfold weightedMovingAverage
    rw [if_neg (by omega), if_neg (by omega)]
    rfl
  refine ⟨_, e, by simp, fun k hk => ?_⟩
  simp only [List.getElem?_map, List.getElem?_range hk, Option.map_some, Option.some.injEq]
  set sl := slice data (p + k - p) (p + k) with hsl
  have hsl' : ∀ j, sl[j]? = if j < p then data[k + j]? else none := by
    intro j
    rw [hsl, slice, List.getElem?_drop, show p + k - p = k by omega]
    by_cases hj : j < p
    · rw [if_pos hj, List.getElem?_take_of_lt (by omega)]
    · rw [if_neg hj, List.getElem?_eq_none]; simp; omega
  have hz : List.zipWith (fun (w : Nat) (x : Fl K) => ofNat w *. x) ((List.range p).map (fun j => j + 1)) sl =
      (List.range p).map (fun j => (ofNat (j + 1) : Fl K) *. data.getD (k + j) nan) := by
    apply List.ext_getElem?
    intro j
    rw [List.getElem?_zipWith, hsl']
    by_cases hj : j < p
    · have hd : k + j < data.length := by omega
      simp [hj, List.getElem?_eq_getElem hd, List.getD]
    · simp [hj]
  have hw : ((List.range p).map (fun j => j + 1)).sum ≠ 0 := by
    intro h0
    have := List.sum_eq_zero_iff.mp h0 1 (List.mem_map.mpr ⟨0, List.mem_range.mpr (by omega), rfl⟩)
    omega
  have hrec : Recorded ((List.range p).map (fun j => (ofNat (j + 1) : Fl K) *. data.getD (k + j) nan)) := by
    intro y hy
    obtain ⟨j, hj, rfl⟩ := List.mem_map.mp hy
    have hj := List.mem_range.mp hj
    have hd : k + j < data.length := by omega
    have : data.getD (k + j) nan = data[k + j] := by simp [List.getD, hd]
    rcases hr _ (List.getElem_mem hd) with h | ⟨r, h⟩
    · left; rw [this, h]; simp
    · right; rw [this, h, ofNat_eq]; exact ⟨_, rfl⟩
  have hat : wmaAt data p (p + k) = PyNum.sum ((List.range p).map (fun j => (ofNat (j + 1) : Fl K) *. data.getD (k + j) nan)) /.
      ofNat ((List.range p).map (fun j => j + 1)).sum := by
    unfold wmaAt
    simp only
    rw [← hsl, hz]
  have hmem : nan ∈ ((List.range p).map (fun j => (ofNat (j + 1) : Fl K) *. data.getD (k + j) nan)) ↔
      ∃ j < p, data[k + j]? = some nan := by
    rw [List.mem_map]
    constructor
    · rintro ⟨j, hj, h⟩
      have hj := List.mem_range.mp hj
      have hd : k + j < data.length := by omega
      refine ⟨j, hj, ?_⟩
      have hg : data.getD (k + j) nan = data[k + j] := by simp [List.getD, hd]
      rcases hr _ (List.getElem_mem hd) with h' | ⟨r, h'⟩
      · rw [List.getElem?_eq_getElem hd, h']
      · rw [hg, h', ofNat_eq, pmul_fin] at h; cases h
    · rintro ⟨j, hj, h⟩
      exact ⟨j, List.mem_range.mpr hj, by rw [List.getD_eq_getElem?_getD, h]; simp⟩
  rw [hat, ← hmem, ← hrec.sum_nan]
  constructor
  · intro h
    by_contra hn
    obtain ⟨ys, hys⟩ := hrec.fins_of (fun hm => hn (psum_nan _ hm))
    rw [hys, psum_fin, ofNat_eq, pdiv_fin (by exact_mod_cast hw)] at h
    cases h
  · intro h; rw [h, nan_div]

private theorem kalmanLoop_nan (q r : K) (hq : 0 ≤ q) (hr : 0 < r) (data : List (Fl K)) (hd : Recorded data) (x : Fl K)
    (hx : x = nan ∨ ∃ s, x = fin s) (p : K) (hp : 0 ≤ p) :
    ∃ l, kalmanLoop (fin q) (fin r) (x, fin p) data = .ok l ∧ l.length = data.length ∧
      ∀ i < data.length, ((l.map Prod.fst)[i]? = some nan ↔ x = nan ∨ ∃ j ≤ i, data[j]? = some nan) := by
  induction data generalizing x p with
  | nil => exact ⟨[], rfl, rfl, fun i hi => by simp at hi⟩
  | cons z t ih =>
    have hs : 0 < p + q + r := by linarith
    set g : K := (p + q) * (1 / (p + q + r)) with hg
    have hg1 : g ≤ 1 := by rw [hg, mul_one_div, div_le_one hs]; linarith
    set x' : Fl K := lit 1 *. x +. fin g *. (z -. lit 1 *. (lit 1 *. x)) with hx'
    have estep : kalmanStep (fin q) (fin r) (x, fin p) z = .ok (x', fin ((1 - g) * (p + q))) := by
      unfold kalmanStep inv1
      simp only [lit_eq, pmul_fin, padd_fin, peq_fin, Rat.cast_one, one_mul, mul_one, Rat.cast_zero]
      rw [if_neg (by simpa using hs.ne')]
      simp only [bind, Except.bind]
      rw [pdiv_fin hs.ne']
      simp only [pmul_fin, psub_fin, hx', lit_eq, Rat.cast_one, mul_one, hg]
    have hz := hd z List.mem_cons_self
    have hxn : x' = nan ↔ x = nan ∨ z = nan := by
      rcases hx with rfl | ⟨s, rfl⟩
      · simp [hx']
      · rcases hz with rfl | ⟨u, rfl⟩ <;> simp [hx']
    have hxr : x' = nan ∨ ∃ s, x' = fin s := by
      rcases hx with rfl | ⟨s, rfl⟩
      · left; simp [hx']
      · rcases hz with rfl | ⟨u, rfl⟩
        · left; simp [hx']
        · right; exact ⟨_, by simp [hx']; rfl⟩
    obtain ⟨l, hl, ll, hi⟩ := ih (fun y hy => hd y (List.mem_cons_of_mem _ hy)) x' hxr ((1 - g) * (p + q))
      (mul_nonneg (by linarith) (by linarith))
    refine ⟨(x', fin ((1 - g) * (p + q))) :: l, ?_, by simp [ll], fun i hi' => ?_⟩
    · unfold kalmanLoop
      rw [estep]
      simp only [bind, Except.bind, hl]
    · cases i with
      | zero =>
        rw [List.map_cons, List.getElem?_cons_zero, Option.some.injEq, hxn]
        constructor
        · rintro (h | h)
          · exact Or.inl h
          · exact Or.inr ⟨0, le_rfl, by rw [h]; rfl⟩
        · rintro (h | ⟨j, hj, h⟩)
          · exact Or.inl h
          · obtain rfl : j = 0 := by omega
            exact Or.inr (Option.some.inj h)
      | succ i =>
        rw [List.map_cons, List.getElem?_cons_succ, hi i (by simpa using hi'), hxn]
        constructor
        · rintro ((h | h) | ⟨j, hj, h⟩)
          · exact Or.inl h
          · exact Or.inr ⟨0, by omega, by rw [h]; rfl⟩
          · exact Or.inr ⟨j + 1, by omega, h⟩
        · rintro (h | ⟨j, hj, h⟩)
          · exact Or.inl (Or.inl h)
          · cases j with
            | zero => exact Or.inl (Or.inr (Option.some.inj h))
            | succ j => exact Or.inr ⟨j, by omega, h⟩

/-- **C182** `kalman_filter`: an estimate is NaN exactly when some earlier or the same measurement is missing. -/
theorem C182_kalman (data : List (Fl K)) (hd : Recorded data) (x0 p0 q r : K) (hp : 0 ≤ p0) (hq : 0 ≤ q) (hr : 0 < r) :
    ∃ out, kalmanFilter data (fin x0) (fin p0) (fin q) (fin r) = .ok out ∧ out.length = data.length ∧
      ∀ i < data.length, (out[i]? = some nan ↔ ∃ j ≤ i, data[j]? = some nan) := by
  obtain ⟨l, hl, ll, hi⟩ := kalmanLoop_nan q r hq hr data hd (fin x0) (Or.inr ⟨x0, rfl⟩) p0 hp
  refine ⟨l.map Prod.fst, ?_, by simp [ll], fun i hi' => ?_⟩
  · unfold kalmanFilter
    rw [hl]; rfl
  · rw [hi i hi']
    constructor
    · rintro (h | h)
      · cases h
      · exact h
    · exact Or.inr

/-- a recording with one missing sample, and the three outputs -/
example : Recorded [(fin 1 : Fl ℚ), nan, fin 3, fin 4, fin 5] ∧
    exponentialMovingAverage ⟨1, false, [(fin 1 : Fl ℚ), nan, fin 3, fin 4, fin 5]⟩ (fin (1 / 2)) = .ok [fin 1, nan, nan, nan, nan] ∧
    weightedMovingAverage [(fin 1 : Fl ℚ), nan, fin 3, fin 4, fin 5] 2 = .ok ⟨false, [nan, nan, fin (11 / 3)]⟩ ∧
    kalmanFilter [(fin 1 : Fl ℚ), nan, fin 3] (fin 0) (fin 1) (fin 0) (fin 1) = .ok [fin (1 / 2), nan, nan] := by
  refine ⟨?_, by decide +kernel, by decide +kernel, by decide +kernel⟩
  intro x hx
  simp only [List.mem_cons, List.not_mem_nil, or_false] at hx
  rcases hx with rfl | rfl | rfl | rfl | rfl
  · exact Or.inr ⟨_, rfl⟩
  · exact Or.inl rfl
  · exact Or.inr ⟨_, rfl⟩
  · exact Or.inr ⟨_, rfl⟩
  · exact Or.inr ⟨_, rfl⟩

/-! ## C183: statistics -/

theorem npow_nan {n : Nat} (hn : n ≠ 0) : (nan : Fl K) ^. n = nan := by
  obtain ⟨m, rfl⟩ := Nat.exists_eq_succ_of_ne_zero hn
  rfl

theorem npMean_nan {l : List (Fl K)} (h : nan ∈ l) : npMean l = (nan : Fl K) := by
  unfold npMean
  rw [psum_nan l h, nan_div]

/-- the mean of a recording is NaN exactly when a sample is missing -/
theorem Recorded.mean_nan {l : List (Fl K)} (h : Recorded l) (hne : l ≠ []) : npMean l = nan ↔ nan ∈ l := by
  refine ⟨fun hm => ?_, npMean_nan⟩
  by_contra hn
  obtain ⟨xs, rfl⟩ := h.fins_of hn
  have hx : xs ≠ [] := by rintro rfl; exact hne rfl
  unfold npMean at hm
  rw [psum_fin, ofNat_eq, pdiv_fin (by simpa [fins] using hx)] at hm
  cases hm

/-- **C183** `mean` and `variance` of data with a missing sample are NaN: nothing is raised and nothing is skipped. -/
theorem C183_mean_variance (b : Bool) (l : List (Fl K)) (h : nan ∈ l) :
    meanOf l = .ok nan ∧ variance ⟨1, b, l.map Item.num⟩ = .ok nan := by
  have hne : l ≠ [] := by rintro rfl; simp at h
  refine ⟨by rw [meanOf_eq l hne, npMean_nan h], ?_⟩
  have h1 := filterMap_val_numItems l
  have h2 := any_isStr_numItems l
  simp only [numItems] at h1 h2
  simp only [variance, h1, h2, List.length_map, ne_eq, not_true_eq_false, if_false, Bool.false_eq_true, if_neg (by simpa using hne : ¬ l.length = 0)]
  unfold npVar
  simp only []
  rw [npMean_nan h, psum_nan _ (List.mem_map.mpr ⟨nan, h, by simp⟩), nan_div]

theorem std_nan (b : Bool) (l : List (Fl ℝ)) (h : nan ∈ l) : Spread.std ⟨1, b, l⟩ = .ok nan := by
  have hne : l ≠ [] := by rintro rfl; simp at h
  have h1 := filterMap_val_numItems l
  have h2 := any_isStr_numItems l
  simp only [numItems] at h1 h2
  simp only [Spread.std, stdItems, h1, h2, List.length_map, ne_eq, not_true_eq_false, if_false, Bool.false_eq_true,
    if_neg (by simpa using hne : ¬ l.length = 0)]
  unfold npStd npVar
  simp only []
  rw [npMean_nan h, psum_nan _ (List.mem_map.mpr ⟨nan, h, by simp⟩), nan_div, psqrt_nan]

/-- **C183** `std`, `skewness` and `kurtosis` of data with a missing sample are NaN. -/
theorem C183_moments (b : Bool) (l : List (Fl ℝ)) (h : nan ∈ l) :
    Spread.std ⟨1, b, l⟩ = .ok nan ∧ skewness ⟨1, b, l⟩ = .ok nan ∧ kurtosis ⟨1, b, l⟩ = .ok nan := by
  have hne : l ≠ [] := by rintro rfl; simp at h
  have hs := std_nan b l h
  have hm := (C183_mean_variance b l h).1
  refine ⟨hs, ?_, ?_⟩
  · unfold skewness firstMean
    simp only [bind, Except.bind, hs, hm, one_ne_zero, if_false]
    rw [npow_nan (by norm_num), mul_nan, div_nan]
  · have h4 : meanOf (l.map (fun v => (v -. (nan : Fl ℝ)) ^. 4)) = .ok nan :=
      (C183_mean_variance b _ (List.mem_map.mpr ⟨nan, h, by rw [nan_sub, npow_nan (by norm_num)]⟩)).1
    unfold kurtosis firstMean
    simp only [bind, Except.bind, hs, hm, h4, one_ne_zero, if_false]
    rw [nan_div]

private theorem fluct_rec (u : List (Fl K)) (hu : Recorded u) (hne : u ≠ []) :
    ∃ up, fluctuation u = .ok up ∧ up.length = u.length ∧ ((nan ∈ u ∧ up = u.map (fun _ => nan)) ∨ (nan ∉ u ∧ ∃ xs, up = fins xs)) := by
  refine ⟨u.map (fun x => x -. npMean u), ?_, by simp, ?_⟩
  · unfold fluctuation
    rw [meanOf_eq u hne]; rfl
  · by_cases h : nan ∈ u
    · exact Or.inl ⟨h, by rw [npMean_nan h]; simp⟩
    · obtain ⟨xs, rfl⟩ := hu.fins_of h
      have hx : xs ≠ [] := by rintro rfl; exact hne rfl
      refine Or.inr ⟨h, xs.map (fun x => x - xs.sum / (xs.length : K)), ?_⟩
      unfold npMean
      rw [psum_fin, ofNat_eq, pdiv_fin (by simpa [fins] using hx)]
      simp [fins, List.map_map, Function.comp_def]

private theorem product_rec (u v : List (Fl K)) (hne : u ≠ []) (hl : v.length = u.length)
    (up vp : List (Fl K)) (hlu : up.length = u.length) (hlv : vp.length = v.length)
    (h1 : (nan ∈ u ∧ up = u.map (fun _ => nan)) ∨ (nan ∉ u ∧ ∃ xs, up = fins xs))
    (h2 : (nan ∈ v ∧ vp = v.map (fun _ => nan)) ∨ (nan ∉ v ∧ ∃ xs, vp = fins xs)) :
    ∃ m, (bcast (· *. ·) up vp >>= meanOf) = .ok m ∧ (m = nan ↔ nan ∈ u ∨ nan ∈ v) := by
  have hup : up ≠ [] := by rintro rfl; exact hne (List.length_eq_zero_iff.mp hlu.symm)
  have hb : bcast (· *. ·) up vp = .ok (List.zipWith (· *. ·) up vp) := bcast_same _ (by omega)
  have hz : List.zipWith (· *. ·) up vp ≠ [] := by
    intro h0
    have := congrArg List.length h0
    have hp := List.length_pos_of_ne_nil hup
    simp only [List.length_zipWith, List.length_nil] at this
    omega
  refine ⟨npMean (List.zipWith (· *. ·) up vp), ?_, ?_⟩
  · rw [hb]
    exact meanOf_eq _ hz
  · have hp := List.length_pos_of_ne_nil hup
    have hmem : nan ∈ u ∨ nan ∈ v → nan ∈ List.zipWith (· *. ·) up vp := by
      intro h
      have hx : (List.zipWith (· *. ·) up vp)[0]'(List.length_pos_of_ne_nil hz) = up[0] *. vp[0]'(by omega) := by simp
      have hn : up[0] *. vp[0]'(by omega) = nan := by
        rcases h with h | h
        · rcases h1 with ⟨-, e⟩ | ⟨hn, -⟩
          · have : up[0] = nan := by simp [e]
            rw [this, nan_mul]
          · exact absurd h hn
        · rcases h2 with ⟨-, e⟩ | ⟨hn, -⟩
          · have : vp[0]'(by omega) = nan := by simp [e]
            rw [this, mul_nan]
          · exact absurd h hn
      rw [← hn, ← hx]
      exact List.getElem_mem _
    constructor
    · intro hm
      by_contra hno
      rw [not_or] at hno
      rcases h1 with ⟨h, -⟩ | ⟨-, xs, rfl⟩
      · exact hno.1 h
      · rcases h2 with ⟨h, -⟩ | ⟨-, ys, rfl⟩
        · exact hno.2 h
        · have hf : List.zipWith (· *. ·) (fins xs) (fins ys) = fins (List.zipWith (· * ·) xs ys) := by
            simp [fins, List.map_zipWith, List.zipWith_map]
          rw [hf] at hm hz
          unfold npMean at hm
          rw [psum_fin, ofNat_eq, pdiv_fin (by exact_mod_cast (List.length_pos_of_ne_nil hz).ne')] at hm
          cases hm
    · exact fun h => npMean_nan (hmem h)

private theorem square_rec (u : List (Fl K)) (hne : u ≠ []) (up : List (Fl K)) (hlu : up.length = u.length)
    (h1 : (nan ∈ u ∧ up = u.map (fun _ => nan)) ∨ (nan ∉ u ∧ ∃ xs, up = fins xs)) :
    ∃ m, meanOf (up.map (fun x => x ^. 2)) = .ok m ∧ (m = nan ↔ nan ∈ u) ∧ (m = nan ∨ ∃ r, m = fin r) := by
  have hup : up ≠ [] := by rintro rfl; exact hne (List.length_eq_zero_iff.mp hlu.symm)
  refine ⟨_, meanOf_eq _ (by simpa using hup), ?_⟩
  rcases h1 with ⟨h, e⟩ | ⟨h, xs, rfl⟩
  · have hm : npMean (up.map (fun x => x ^. 2)) = nan := npMean_nan (List.mem_map.mpr ⟨nan, by
      rw [e, List.mem_map]; exact ⟨nan, h, rfl⟩, npow_nan (by norm_num)⟩)
    exact ⟨⟨fun _ => h, fun _ => hm⟩, Or.inl hm⟩
  · have hx : xs ≠ [] := by rintro rfl; exact hup rfl
    have hm : npMean ((fins xs).map (fun x => x ^. 2)) = fin ((xs.map (fun x => x ^ 2)).sum / (xs.length : K)) := by
      have : (fins xs).map (fun x => x ^. 2) = fins (xs.map (fun x => x ^ 2)) := by simp [fins, List.map_map, Function.comp_def]
      rw [this]
      unfold npMean
      rw [psum_fin, ofNat_eq, pdiv_fin (by simpa [fins] using hx)]
      simp [fins]
    refine ⟨⟨fun hn => ?_, fun hn => absurd hn h⟩, Or.inr ⟨_, hm⟩⟩
    rw [hm] at hn; cases hn

/-- **C183** `reynolds_stresses`: each stress is NaN exactly when one of the two components it is made of has a missing sample; the
others keep their values. -/
theorem C183_stresses (u v w : List (Fl K)) (hu : Recorded u) (hv : Recorded v) (hw : Recorded w) (hne : u ≠ [])
    (hlv : v.length = u.length) (hlw : w.length = u.length) :
    ∃ s, reynoldsStresses u v w = .ok s ∧ (s.uu = nan ↔ nan ∈ u) ∧ (s.vv = nan ↔ nan ∈ v) ∧ (s.ww = nan ↔ nan ∈ w) ∧
      (s.uv = nan ↔ nan ∈ u ∨ nan ∈ v) ∧ (s.uw = nan ↔ nan ∈ u ∨ nan ∈ w) ∧ (s.vw = nan ↔ nan ∈ v ∨ nan ∈ w) := by
  have hnv : v ≠ [] := by rintro rfl; exact hne (List.length_eq_zero_iff.mp hlv.symm)
  have hnw : w ≠ [] := by rintro rfl; exact hne (List.length_eq_zero_iff.mp hlw.symm)
  obtain ⟨up, eu, lu, ru⟩ := fluct_rec u hu hne
  obtain ⟨vp, ev, lv, rv⟩ := fluct_rec v hv hnv
  obtain ⟨wp, ew, lw, rw'⟩ := fluct_rec w hw hnw
  obtain ⟨uu, e1, n1, -⟩ := square_rec u hne up lu ru
  obtain ⟨vv, e2, n2, -⟩ := square_rec v hnv vp lv rv
  obtain ⟨ww, e3, n3, -⟩ := square_rec w hnw wp lw rw'
  obtain ⟨uv, e4, n4⟩ := product_rec u v hne hlv up vp lu lv ru rv
  obtain ⟨uw, e5, n5⟩ := product_rec u w hne hlw up wp lu lw ru rw'
  obtain ⟨vw, e6, n6⟩ := product_rec v w hnv (by omega) vp wp lv lw rv rw'
  refine ⟨⟨uu, vv, ww, uv, uw, vw⟩, ?_, n1, n2, n3, n4, n5, n6⟩
  have b1 : bcast (· *. ·) up vp = .ok (List.zipWith (· *. ·) up vp) := bcast_same _ (by omega)
  have b2 : bcast (· *. ·) up wp = .ok (List.zipWith (· *. ·) up wp) := bcast_same _ (by omega)
  have b3 : bcast (· *. ·) vp wp = .ok (List.zipWith (· *. ·) vp wp) := bcast_same _ (by omega)
  rw [b1] at e4
  rw [b2] at e5
  rw [b3] at e6
  simp only [bind, Except.bind] at e4 e5 e6
  unfold reynoldsStresses
  simp only [bind, Except.bind, eu, ev, ew, e1, e2, e3, b1, b2, b3, e4, e5, e6]

/-- **C183** `kinetic_turbulent_energy` is NaN exactly when some component has a missing sample. -/
theorem C183_energy (u v w : List (Fl K)) (hu : Recorded u) (hv : Recorded v) (hw : Recorded w) (hnu : u ≠ []) (hnv : v ≠ [])
    (hnw : w ≠ []) : ∃ k, kineticTurbulentEnergy u v w = .ok k ∧ (k = nan ↔ nan ∈ u ∨ nan ∈ v ∨ nan ∈ w) := by
  obtain ⟨up, eu, lu, ru⟩ := fluct_rec u hu hnu
  obtain ⟨vp, ev, lv, rv⟩ := fluct_rec v hv hnv
  obtain ⟨wp, ew, lw, rw'⟩ := fluct_rec w hw hnw
  obtain ⟨uu, e1, n1, f1⟩ := square_rec u hnu up lu ru
  obtain ⟨vv, e2, n2, f2⟩ := square_rec v hnv vp lv rv
  obtain ⟨ww, e3, n3, f3⟩ := square_rec w hnw wp lw rw'
  refine ⟨lit (1/2) *. (uu +. vv +. ww), ?_, ?_⟩
  · unfold kineticTurbulentEnergy
    simp only [bind, Except.bind, eu, ev, ew, e1, e2, e3]
  · rw [← n1, ← n2, ← n3]
    rcases f1 with rfl | ⟨a, rfl⟩
    · simp
    · rcases f2 with rfl | ⟨b, rfl⟩
      · simp
      · rcases f3 with rfl | ⟨c, rfl⟩
        · simp
        · simp

/-- a missing sample in the second component -/
example : (reynoldsStresses [(fin 1 : Fl ℚ), fin 3] [fin 1, nan] [fin 2, fin 6]) =
    .ok ⟨fin 1, nan, fin 4, nan, fin 2, nan⟩ := by decide +kernel

/-! ## C184: replacements -/

section Replacement

omit [IsStrictOrderedRing K] in
private theorem unchanged (v out : List (Fl K)) (sp : List Nat) (hin : ∀ i ∈ sp, i < v.length) (hm : ∀ i ∈ sp, v[i]? = some nan)
    (h1 : KeepsRest v (sp.map (fun i : Nat => (i : Int))) out) (h2 : ∀ k ∈ sp, out[k]? = some nan) : out = v := by
  apply List.ext_getElem?
  intro k
  by_cases hk : k ∈ sp
  · rw [h2 k hk, hm k hk]
  · exact h1.2 k (fun hh => hk ((hits_nat hin k).mp hh))

variable (v : List (Fl K)) (sp : List Nat) (hne : sp ≠ []) (hm : ∀ i ∈ sp, v[i]? = some nan)
include hne hm

private theorem in_of_missing : ∀ i ∈ sp, i < v.length := by
  intro i hi
  by_contra h
  have := hm i hi
  rw [List.getElem?_eq_none (by omega)] at this
  cases this

private theorem nan_mem : nan ∈ v := by
  obtain ⟨i, t, rfl⟩ := List.exists_cons_of_ne_nil hne
  exact List.mem_of_getElem? (hm i List.mem_cons_self)

/-- **C184** `mean_value` cannot fill missing samples: when every listed sample is NaN the array comes back unchanged. -/
theorem C184_mean : meanValue ⟨1, false, v⟩ (sp.map (fun i : Nat => (i : Int))) = .ok v := by
  have hin := in_of_missing v sp hne hm
  have hn := nan_mem v sp hne hm
  obtain ⟨out, ho⟩ := setMany_total v (sp.map (fun i : Nat => (i : Int))) (nan : Fl K) (fun i hi => by
    obtain ⟨j, hj, rfl⟩ := List.mem_map.mp hi
    exact ⟨j, pyIdx_nat (hin j hj)⟩)
  have hv : v ≠ [] := by rintro rfl; simp at hn
  have e : out = v := unchanged v out sp hin hm (setMany_frame ho) (fun k hk => setMany_value ho k ((hits_nat hin k).mpr hk))
  unfold meanValue meanForStore
  rw [if_neg (by simpa using hv), (C183_mean_variance false v hn).1]
  simp only [bind, Except.bind]
  show setMany v _ (nan : Fl K) = _
  rw [ho, e]

/-- **C184** `median_value` cannot fill missing samples either. -/
theorem C184_median : medianValue ⟨1, false, v⟩ (sp.map (fun i : Nat => (i : Int))) = .ok v := by
  have hin := in_of_missing v sp hne hm
  have hn := nan_mem v sp hne hm
  obtain ⟨out, ho⟩ := setMany_total v (sp.map (fun i : Nat => (i : Int))) (nan : Fl K) (fun i hi => by
    obtain ⟨j, hj, rfl⟩ := List.mem_map.mp hi
    exact ⟨j, pyIdx_nat (hin j hj)⟩)
  have e : out = v := unchanged v out sp hin hm (setMany_frame ho) (fun k hk => setMany_value ho k ((hits_nat hin k).mpr hk))
  unfold medianValue
  rw [C04_median_nan false v hn]
  simp only [bind, Except.bind]
  show setMany v _ (nan : Fl K) = _
  rw [ho, e]

private theorem from_store (b : List (Fl K)) (hb : ∀ k ∈ sp, b[k]? = some nan) :
    setFromStore false v (sp.map (fun i : Nat => (i : Int))) b = .ok v := by
  have hin := in_of_missing v sp hne hm
  obtain ⟨out, ho⟩ := setFromStore_total false v b sp (fun i hi => ⟨hin i hi, by
    by_contra h
    have := hb i hi
    rw [List.getElem?_eq_none (by omega)] at this
    cases this⟩)
  rw [ho, unchanged v out sp hin hm (setFromStore_frame ho) (fun k hk => ?_)]
  obtain ⟨x, hx, hox⟩ := setFromStore_value ho k hk
  rw [hox]
  rw [hb k hk] at hx
  cases hx
  rfl

/-- **C184** `simple_moving_average` (the replacement) cannot fill missing samples. -/
theorem C184_sma (w : Nat) (hw : 1 ≤ w) (hwn : w ≤ v.length) :
    simpleMovingAverage ⟨1, false, v⟩ (sp.map (fun i : Nat => (i : Int))) (w : Int) = .ok v := by
  have hin := in_of_missing v sp hne hm
  have hs : ∀ k ∈ sp, ∃ ys, movingAverage ⟨1, false, v⟩ (w : Int) = .ok ys ∧ ys[k]? = some nan := by
    intro k hk
    obtain ⟨ys, h1, h2, h3⟩ := C14_nan_poisons false v w hw hwn k (hm k hk)
    exact ⟨ys, h1, h3 k le_rfl (hin k hk)⟩
  obtain ⟨i, hi⟩ := List.exists_mem_of_ne_nil sp hne
  obtain ⟨ys, h1, -⟩ := hs i hi
  unfold simpleMovingAverage
  simp only [bind, Except.bind, h1]
  refine from_store v sp hne hm ys (fun k hk => ?_)
  obtain ⟨ys', h1', h2'⟩ := hs k hk
  rw [h1] at h1'
  cases h1'
  exact h2'

/-- **C184** `exponential_moving_average` (the replacement) cannot fill missing samples. -/
theorem C184_ema (hr : Recorded v) (alpha : K) (h0 : 0 < alpha) (h1 : alpha ≤ 1) :
    exponentialMovingAverageR ⟨1, false, v⟩ (sp.map (fun i : Nat => (i : Int))) (fin alpha) = .ok v := by
  have hin := in_of_missing v sp hne hm
  have hv : v ≠ [] := by
    have hn := nan_mem v sp hne hm
    rintro rfl; simp at hn
  obtain ⟨ys, e, -, hi⟩ := C182_ema v hr hv alpha h0 h1
  unfold exponentialMovingAverageR
  simp only [bind, Except.bind, e]
  exact from_store v sp hne hm ys (fun k hk => (hi k (hin k hk)).mpr ⟨k, le_rfl, hm k hk⟩)

/-- **C184** `weighted_moving_average` (the replacement) cannot fill missing samples: its window starts at the sample itself. -/
theorem C184_wma (hr : Recorded v) (p : Nat) (hp : 1 ≤ p) (hlast : ∀ i ∈ sp, i + p < v.length) :
    weightedMovingAverageR ⟨1, false, v⟩ (sp.map (fun i : Nat => (i : Int))) (p : Int) = .ok v := by
  obtain ⟨i, hi⟩ := List.exists_mem_of_ne_nil sp hne
  have hpn := hlast i hi
  obtain ⟨out, e, hl, hk⟩ := C182_wma v hr p hp (by omega)
  have hpl : out.isPyList = false := by
    have e' := e
    unfold weightedMovingAverage at e'
    rw [if_neg (by omega), if_neg (by omega)] at e'
    cases e'
    simp only [List.length_map, List.length_range] at hl
    simp
    omega
  unfold weightedMovingAverageR
  simp only [bind, Except.bind, e, hpl, Bool.false_eq_true, if_false]
  refine from_store v sp hne hm out.data (fun k hk' => ?_)
  have := hlast k hk'
  exact (hk k (by omega)).mpr ⟨0, by omega, hm k hk'⟩

end Replacement

/-- the missing samples 1 and 3 stay missing -/
example : meanValue ⟨1, false, [(fin 1 : Fl ℚ), nan, fin 3, nan, fin 5, fin 6]⟩ [1, 3] = .ok [fin 1, nan, fin 3, nan, fin 5, fin 6] ∧
    medianValue ⟨1, false, [(fin 1 : Fl ℚ), nan, fin 3, nan, fin 5, fin 6]⟩ [1, 3] = .ok [fin 1, nan, fin 3, nan, fin 5, fin 6] ∧
    weightedMovingAverageR ⟨1, false, [(fin 1 : Fl ℚ), nan, fin 3, nan, fin 5, fin 6]⟩ [1, 3] 2 =
      .ok [fin 1, nan, fin 3, nan, fin 5, fin 6] := by
  refine ⟨by decide +kernel, by decide +kernel, by decide +kernel⟩

/-! ## C185: the two replacements that do fill missing samples -/

/-- **C185** `last_valid_data` fills missing samples: when every missing sample is listed and the first sample is not, the output has no
NaN and stays in the range of the recorded values. -/
theorem C185_last_valid (v : List (Fl K)) (hr : Recorded v) (sp : List Nat) (hs : sp.Pairwise (· < ·)) (hin : ∀ i ∈ sp, i < v.length)
    (h0 : 0 ∉ sp) (hm : ∀ i, v[i]? = some nan → i ∈ sp) (lo hi : K) (hb : ∀ r, fin r ∈ v → lo ≤ r ∧ r ≤ hi) :
    ∃ zs : List K, lastValidData ⟨1, false, v⟩ (sp.map (fun i : Nat => (i : Int))) = .ok (fins zs) ∧ zs.length = v.length ∧
      ∀ z ∈ zs, lo ≤ z ∧ z ≤ hi := by
  obtain ⟨out, e, hl, hk⟩ := C45_carry_forward (⟨1, false, v⟩ : Arr (Fl K)) sp hs hin
  simp only at hl hk
  have hall : ∀ x ∈ out, ∃ r, x = fin r ∧ lo ≤ r ∧ r ≤ hi := by
    intro x hx
    obtain ⟨k, hkl, rfl⟩ := List.mem_iff_getElem.mp hx
    obtain ⟨j, hj, hjs, hrun⟩ := C45_exists sp h0 k
    have hjl : j < v.length := by omega
    have h := hk k j hj hjs hrun
    rw [List.getElem?_eq_getElem hkl, List.getElem?_eq_getElem hjl, Option.some.injEq] at h
    rcases hr _ (List.getElem_mem hjl) with h' | ⟨r, h'⟩
    · exact absurd (hm j (by rw [List.getElem?_eq_getElem hjl, h'])) hjs
    · exact ⟨r, by rw [h, h'], hb r (by rw [← h']; exact List.getElem_mem hjl)⟩
  have hrec : Recorded out := fun x hx => by
    obtain ⟨r, rfl, -⟩ := hall x hx
    exact Or.inr ⟨r, rfl⟩
  obtain ⟨zs, rfl⟩ := hrec.fins_of (fun hn => by obtain ⟨r, h, -⟩ := hall _ hn; cases h)
  refine ⟨zs, e, by simpa [fins] using hl, fun z hz => ?_⟩
  obtain ⟨r, h, h'⟩ := hall (fin z) (List.mem_map.mpr ⟨z, hz, rfl⟩)
  cases h
  exact h'

/-- value of a recorded sample, `m` for a missing one -/
private def fillWith (m : K) : Fl K → K
  | fin r => r
  | _ => m

private theorem fill_sum (m : K) (v : List (Fl K)) (hr : Recorded v) :
    ∃ vs : List K, v.filter (fun x => !(PyNum.isNaN x)) = fins vs ∧ vs.length ≤ v.length ∧
      (v.map (fillWith m)).sum = vs.sum + ((v.length : K) - vs.length) * m := by
  induction v with
  | nil => exact ⟨[], rfl, le_rfl, by simp⟩
  | cons x t ih =>
    obtain ⟨vs, h1, h2, h3⟩ := ih (fun y hy => hr y (List.mem_cons_of_mem _ hy))
    rcases hr x List.mem_cons_self with rfl | ⟨r, rfl⟩
    · refine ⟨vs, ?_, by simp; omega, ?_⟩
      · rw [List.filter_cons_of_neg (by show ¬ (false = true); simp), h1]
      · rw [List.map_cons, List.sum_cons, h3, List.length_cons]
        push_cast
        show m + _ = _
        ring
    · refine ⟨r :: vs, ?_, by simpa using h2, ?_⟩
      · rw [List.filter_cons_of_pos (by rfl), h1]; rfl
      · rw [List.map_cons, List.sum_cons, h3, List.length_cons, List.sum_cons, List.length_cons]
        push_cast
        show r + _ = _
        ring

private theorem raw_congr (v v' : List (Fl K)) (spikes : List Int) (hl : v.length = v'.length)
    (hset : setMany v spikes (PyNum.nan : Fl K) = setMany v' spikes PyNum.nan)
    (hmean : meanForStore (v.filter (fun x => !(PyNum.isNaN x))) = meanForStore (v'.filter (fun x => !(PyNum.isNaN x)))) :
    linearInterpolationRaw ⟨1, false, v⟩ spikes = linearInterpolationRaw ⟨1, false, v'⟩ spikes := by
  have hrun : liRun v = liRun v' := by
    funext md run
    unfold liRun liWrite
    rw [hl, hmean]
  unfold linearInterpolationRaw
  simp only [hset, hrun]

/-- **C185** `linear_interpolation` fills missing samples: when every missing sample is listed and some sample is recorded, the output
has no NaN, and before rounding it stays in the range of the recorded values. -/
theorem C185_linear (v : List (Fl K)) (hr : Recorded v) (sp : List Nat) (hne : sp ≠ []) (hs : sp.Pairwise (· < ·))
    (hin : ∀ i ∈ sp, i < v.length) (hm : ∀ i, v[i]? = some nan → i ∈ sp) (r0 : K) (hr0 : fin r0 ∈ v)
    (lo hi : K) (hb : ∀ r, fin r ∈ v → lo ≤ r ∧ r ≤ hi) (decimals : Int) :
    ∃ zs : List K, linearInterpolationRaw ⟨1, false, v⟩ (sp.map (fun i : Nat => (i : Int))) = .ok (fins zs) ∧
      linearInterpolation ⟨1, false, v⟩ (sp.map (fun i : Nat => (i : Int))) decimals = .ok (zs.map (fun z => fin (aroundK z decimals))) ∧
      zs.length = v.length ∧ ∀ z ∈ zs, lo ≤ z ∧ z ≤ hi := by
  obtain ⟨vs, hvs, -, -⟩ := fill_sum 0 v hr
  have hmemv : ∀ r, r ∈ vs → fin r ∈ v := fun r h => by
    have : fin r ∈ fins vs := List.mem_map.mpr ⟨r, h, rfl⟩
    rw [← hvs] at this
    exact (List.mem_filter.mp this).1
  have hvne : vs ≠ [] := by
    rintro rfl
    have : fin r0 ∈ v.filter (fun x => !(PyNum.isNaN x)) := List.mem_filter.mpr ⟨hr0, rfl⟩
    rw [hvs] at this
    simp [fins] at this
  have hvl : (0 : K) < vs.length := by exact_mod_cast List.length_pos_of_ne_nil hvne
  set m : K := vs.sum / vs.length with hmdef
  obtain ⟨vs', hvs', hle, hsum⟩ := fill_sum m v hr
  obtain rfl : vs' = vs := by
    rw [hvs] at hvs'
    exact ((List.map_injective_iff.mpr (fun a b h => by cases h; rfl)) hvs').symm
  have hvpos : (0 : K) < v.length := lt_of_lt_of_le hvl (by exact_mod_cast hle)
  have hvne' : v ≠ [] := by rintro rfl; simp at hr0
  have hmean : (v.map (fillWith m)).sum / (v.length : K) = m := by
    rw [hsum, div_eq_iff hvpos.ne']
    have : vs'.sum = m * vs'.length := by rw [hmdef]; field_simp
    rw [this]; ring
  have hmb : lo ≤ m ∧ m ≤ hi := by
    have h1 : vs'.length • lo ≤ vs'.sum := List.card_nsmul_le_sum _ _ (fun x hx => (hb x (hmemv x hx)).1)
    have h2 : vs'.sum ≤ vs'.length • hi := List.sum_le_card_nsmul _ _ (fun x hx => (hb x (hmemv x hx)).2)
    rw [nsmul_eq_mul] at h1 h2
    exact ⟨by rw [hmdef, le_div_iff₀ hvl]; linarith, by rw [hmdef, div_le_iff₀ hvl]; linarith⟩
  have hin' : ∀ i ∈ sp, i < (v.map (fillWith m)).length := by simpa using hin
  obtain ⟨zs, z1, z2, z3, z4⟩ := C52_in_range (v.map (fillWith m)) sp hne hs hin' lo hi (fun x hx => by
    obtain ⟨y, hy, rfl⟩ := List.mem_map.mp hx
    rcases hr y hy with rfl | ⟨r, rfl⟩
    · exact hmb
    · exact hb r hy) decimals
  have hcongr : linearInterpolationRaw ⟨1, false, v⟩ (sp.map (fun i : Nat => (i : Int))) =
      linearInterpolationRaw ⟨1, false, (v.map (fillWith m)).map fin⟩ (sp.map (fun i : Nat => (i : Int))) := by
    refine raw_congr _ _ _ (by simp) ?_ ?_
    · obtain ⟨o1, e1⟩ := setMany_total v (sp.map (fun i : Nat => (i : Int))) (PyNum.nan : Fl K) (fun i hi => by
        obtain ⟨j, hj, rfl⟩ := List.mem_map.mp hi
        exact ⟨j, pyIdx_nat (hin j hj)⟩)
      obtain ⟨o2, e2⟩ := setMany_total ((v.map (fillWith m)).map fin) (sp.map (fun i : Nat => (i : Int))) (PyNum.nan : Fl K) (fun i hi => by
        obtain ⟨j, hj, rfl⟩ := List.mem_map.mp hi
        exact ⟨j, pyIdx_nat (by simpa using hin j hj)⟩)
      rw [e1, e2]
      congr 1
      apply List.ext_getElem?
      intro k
      by_cases hk : k ∈ sp
      · rw [setMany_value e1 k ((hits_nat hin k).mpr hk), setMany_value e2 k ((hits_nat (by simpa using hin) k).mpr hk)]
      · rw [(setMany_frame e1).2 k (fun hh => hk ((hits_nat hin k).mp hh)),
          (setMany_frame e2).2 k (fun hh => hk ((hits_nat (by simpa using hin) k).mp hh))]
        simp only [List.getElem?_map]
        cases hv : v[k]? with
        | none => rfl
        | some y =>
          rcases hr y (List.mem_of_getElem? hv) with rfl | ⟨r, rfl⟩
          · exact absurd (hm k hv) hk
          · rfl
    · have hf : ((v.map (fillWith m)).map fin).filter (fun x => !(PyNum.isNaN x)) = fins (v.map (fillWith m)) := by
        exact List.filter_eq_self.mpr (fun x hx => by
          obtain ⟨y, -, rfl⟩ := List.mem_map.mp hx
          rfl)
      rw [hvs', hf]
      unfold meanForStore
      rw [if_neg (by simpa [fins] using hvne), if_neg (by simpa [fins] using hvne'), meanOf_fins _ hvne,
        meanOf_fins _ (by simpa using hvne')]
      unfold Spec.avg
      rw [List.length_map, hmean]
  refine ⟨zs, by rw [hcongr]; exact z1, ?_, by simpa using z3, z4⟩
  have hx : linearInterpolation ⟨1, false, v⟩ (sp.map (fun i : Nat => (i : Int))) decimals =
      linearInterpolation ⟨1, false, (v.map (fillWith m)).map fin⟩ (sp.map (fun i : Nat => (i : Int))) decimals := by
    unfold linearInterpolation
    rw [hcongr]
  rw [hx]
  exact z2

/-- the missing samples 1, 2 and 4 are filled -/
example : linearInterpolation ⟨1, false, [(fin 1 : Fl ℚ), nan, nan, fin 4, nan]⟩ [1, 2, 4] 4 =
      .ok [fin 1, fin 2, fin 3, fin 4, fin (5 / 2)] ∧
    lastValidData ⟨1, false, [(fin 1 : Fl ℚ), nan, nan, fin 4, nan]⟩ [1, 2, 4] = .ok [fin 1, fin 1, fin 1, fin 4, fin 4] := by
  refine ⟨by decide +kernel, by decide +kernel⟩

end Proadv.Props
