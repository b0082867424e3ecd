import Verif.Props.KalmanLong
import Verif.Props.MovingAverage

/-!
# C206: `kalman_filter` in the long run is `exponential_moving_average`
-/

set_option linter.unusedSectionVars false

namespace Proadv.Props

open Proadv Fl Series

variable {K : Type} [Field K] [LinearOrder K] [FloorRing K] [IsStrictOrderedRing K]

private theorem kstep (q r x p z : K) (h : p + q + r ≠ 0) :
    kalmanStep (fin q : Fl K) (fin r) (fin x, fin p) (fin z) =
      .ok (fin (x + (p + q) / (p + q + r) * (z - x)), fin (r * (p + q) / (p + q + r))) := by
  unfold kalmanStep inv1
  simp only [lit_eq, pmul_fin, padd_fin, psub_fin, peq_fin, Rat.cast_one, Rat.cast_zero, one_mul, mul_one, h,
    decide_false, Bool.false_eq_true, if_false, bind, Except.bind]
  rw [pdiv_fin h]
  simp only [pmul_fin, padd_fin, psub_fin, mul_one]
  congr 3
  · field_simp
  · field_simp
    ring

private theorem kloop (q r x p z : K) (t : List K) (h : p + q + r ≠ 0) :
    kalmanLoop (fin q : Fl K) (fin r) (fin x, fin p) ((z :: t).map fin) =
      (kalmanLoop (fin q : Fl K) (fin r) (fin (x + (p + q) / (p + q + r) * (z - x)), fin (r * (p + q) / (p + q + r)))
        (t.map fin)).map (fun l => (fin (x + (p + q) / (p + q + r) * (z - x)), fin (r * (p + q) / (p + q + r))) :: l) := by
  simp only [List.map_cons, kalmanLoop, bind, Except.bind]
  rw [kstep q r x p z h]
  simp only
  cases kalmanLoop (fin q : Fl K) (fin r) (fin (x + (p + q) / (p + q + r) * (z - x)), fin (r * (p + q) / (p + q + r)))
    (t.map fin) <;> rfl

/-- both filters side by side: started from estimates `x` and `e` with covariance `p`, on data in `[lo, lo + D]` -/
private theorem track (q r s : K) (hq : 0 < q) (hr : 0 < r) (hs : 0 ≤ s) (hroot : s ^ 2 + q * s = q * r) (lo D : K)
    (zs : List K) (hz : ∀ z ∈ zs, lo ≤ z ∧ z ≤ lo + D) :
    ∀ x e p : K, 0 ≤ p → lo ≤ e → e ≤ lo + D → ∃ (ys : List (K × K)) (es : List K),
      kalmanLoop (fin q : Fl K) (fin r) (fin x, fin p) (zs.map fin) = .ok (ys.map (fun s => (fin s.1, fin s.2))) ∧
      emaLoop false (fin ((s + q) / (s + q + r)) : Fl K) (fin e) (zs.map fin) = es.map fin ∧
      ys.length = zs.length ∧ es.length = zs.length ∧
      ∀ i, i < zs.length → |(ys.map Prod.fst).getD i 0 - es.getD i 0| ≤
        (r / (q + r)) ^ (i + 1) * (|x - e| + D * |p - s| / q) := by
  induction zs with
  | nil => intro x e p _ _ _; exact ⟨[], [], rfl, rfl, rfl, rfl, by simp⟩
  | cons z t ih =>
    intro x e p hp he1 he2
    obtain ⟨hz1, hz2⟩ := hz z (by simp)
    have hpos : 0 < p + q + r := by linarith
    have hspos : 0 < s + q + r := by linarith
    have hqr : 0 < q + r := by linarith
    have hp' : 0 ≤ r * (p + q) / (p + q + r) := by positivity
    have hD : 0 ≤ D := by linarith
    set al := (s + q) / (s + q + r) with hal
    have ha0 : 0 ≤ al := by positivity
    have ha1 : al ≤ 1 := by rw [hal, div_le_one hspos]; linarith
    set e' := al * z + (1 - al) * e with he'
    have hb1 : lo ≤ e' := by nlinarith
    have hb2 : e' ≤ lo + D := by nlinarith
    obtain ⟨ys, es, h1, h2, h3, h4, h5⟩ := ih (fun z hz' => hz z (by simp [hz'])) (x + (p + q) / (p + q + r) * (z - x)) e' _ hp' hb1 hb2
    set x' := x + (p + q) / (p + q + r) * (z - x) with hx'
    set p' := r * (p + q) / (p + q + r) with hp'e
    -- the covariance contracts
    have hcov : |p' - s| ≤ (r / (q + r)) ^ 2 * |p - s| := by
      have hfix : s = r * (s + q) / (s + q + r) := by
        rw [eq_div_iff hspos.ne']
        linear_combination hroot
      have hd : p' - s = r / (p + q + r) * (r / (s + q + r)) * (p - s) := by
        conv_lhs => rw [hfix]
        rw [hp'e]
        field_simp
        ring
      rw [hd, abs_mul, abs_of_nonneg (by positivity), sq]
      apply mul_le_mul_of_nonneg_right _ (abs_nonneg _)
      apply mul_le_mul
      · apply div_le_div_of_nonneg_left hr.le hqr; linarith
      · apply div_le_div_of_nonneg_left hr.le hqr; linarith
      · positivity
      · positivity
    -- and so does the distance of the estimates, up to the distance of the gains
    have hest : |x' - e'| ≤ r / (q + r) * (|x - e| + D * |p - s| / (q + r)) := by
      have hd : x' - e' = r / (p + q + r) * (x - e) + r / (p + q + r) * ((p - s) / (s + q + r)) * (z - e) := by
        rw [hx', he', hal]
        field_simp
        ring
      have hze : |z - e| ≤ D := by rw [abs_le]; constructor <;> linarith
      have hrho : r / (p + q + r) ≤ r / (q + r) := by
        apply div_le_div_of_nonneg_left hr.le hqr; linarith
      have hps : |(p - s) / (s + q + r)| ≤ |p - s| / (q + r) := by
        rw [abs_div, abs_of_pos hspos]
        apply div_le_div_of_nonneg_left (abs_nonneg _) hqr; linarith
      rw [hd]
      calc |r / (p + q + r) * (x - e) + r / (p + q + r) * ((p - s) / (s + q + r)) * (z - e)|
          ≤ |r / (p + q + r) * (x - e)| + |r / (p + q + r) * ((p - s) / (s + q + r)) * (z - e)| := abs_add_le _ _
        _ = r / (p + q + r) * (|x - e| + |(p - s) / (s + q + r)| * |z - e|) := by
            rw [abs_mul, abs_mul, abs_mul, abs_of_pos (by positivity : 0 < r / (p + q + r))]; ring
        _ ≤ r / (q + r) * (|x - e| + |p - s| / (q + r) * D) := by
            apply mul_le_mul hrho _ (by positivity) (by positivity)
            have := mul_le_mul hps hze (abs_nonneg _) (by positivity)
            linarith
        _ = _ := by ring
    have htot : |x' - e'| + D * |p' - s| / q ≤ r / (q + r) * (|x - e| + D * |p - s| / q) := by
      have h6 : D * |p' - s| / q ≤ D * ((r / (q + r)) ^ 2 * |p - s|) / q := by
        apply div_le_div_of_nonneg_right _ hq.le
        exact mul_le_mul_of_nonneg_left hcov hD
      have h7 : r / (q + r) * (|x - e| + D * |p - s| / (q + r)) + D * ((r / (q + r)) ^ 2 * |p - s|) / q =
          r / (q + r) * (|x - e| + D * |p - s| / q) := by
        field_simp
        ring
      linarith
    refine ⟨(x', p') :: ys, e' :: es, ?_, ?_, by simp [h3], by simp [h4], ?_⟩
    · rw [kloop q r x p z t hpos.ne', h1]; rfl
    · simp only [List.map_cons, emaLoop, store, lit_eq, pmul_fin, padd_fin, psub_fin, Rat.cast_one]
      rw [← he', ← h2]
      rfl
    · intro i hi
      cases i with
      | zero =>
        simp only [List.map_cons, List.getD_cons_zero, zero_add, pow_one]
        have : 0 ≤ D * |p' - s| / q := by positivity
        linarith
      | succ i =>
        simp only [List.map_cons, List.getD_cons_succ]
        refine (h5 i (by simpa using hi)).trans ?_
        calc _ ≤ (r / (q + r)) ^ (i + 1) * (r / (q + r) * (|x - e| + D * |p - s| / q)) :=
              mul_le_mul_of_nonneg_left htot (by positivity)
          _ = _ := by ring

/-- **C206** the settled gain is a legal smoothing factor, and it equals `s / R`. -/
theorem C206_gain (q r s : K) (hq : 0 < q) (hr : 0 < r) (hs : 0 ≤ s) (hroot : s ^ 2 + q * s = q * r) :
    0 < (s + q) / (s + q + r) ∧ (s + q) / (s + q + r) < 1 ∧ (s + q) / (s + q + r) = s / r := by
  have hspos : 0 < s + q + r := by linarith
  refine ⟨by positivity, ?_, ?_⟩
  · rw [div_lt_one hspos]; linarith
  · rw [div_eq_div_iff hspos.ne' hr.ne']
    linear_combination -hroot

/-- **C206** from any initial estimate in the range of the data and any initial covariance the Kalman filter approaches the
exponential moving average (of the data preceded by the initial estimate, `alpha` = settled gain): after `i + 1` measurements
they differ by at most `(R / (Q + R)) ^ (i + 1) * D * |P0 - s| / Q`, where `D` is the width of the data. -/
theorem C206_approach (q r s x0 p0 : K) (hp : 0 ≤ p0) (hq : 0 < q) (hr : 0 < r) (hs : 0 ≤ s)
    (hroot : s ^ 2 + q * s = q * r) (lo D : K) (zs : List K) (hz : ∀ z ∈ x0 :: zs, lo ≤ z ∧ z ≤ lo + D) :
    ∃ ys es : List K, kalmanFilter (zs.map fin) (fin x0 : Fl K) (fin p0) (fin q) (fin r) = .ok (ys.map fin) ∧
      exponentialMovingAverage ⟨1, false, (x0 :: zs).map fin⟩ (fin (s / r) : Fl K) = .ok ((x0 :: es).map fin) ∧
      ys.length = zs.length ∧ es.length = zs.length ∧
      ∀ i, i < zs.length → |ys.getD i 0 - es.getD i 0| ≤ (r / (q + r)) ^ (i + 1) * (D * |p0 - s| / q) := by
  obtain ⟨g0, g1, g2⟩ := C206_gain q r s hq hr hs hroot
  obtain ⟨ha, hb⟩ := hz x0 (by simp)
  obtain ⟨ys, es, h1, h2, h3, h4, h5⟩ := track q r s hq hr hs hroot lo D zs (fun z h => hz z (by simp [h])) x0 x0 p0 hp ha hb
  rw [g2] at g0 g1 h2
  refine ⟨ys.map Prod.fst, es, ?_, ?_, by simpa using h3, h4, fun i hi => by simpa using h5 i hi⟩
  · simp [kalmanFilter, h1, bind, Except.bind]
  · have hc : (((fin (s / r) : Fl K) ≤. lit 0) || (lit 1 <. (fin (s / r) : Fl K))) = false := by
      simp [not_le.mpr g0, not_lt.mpr g1.le]
    simp only [exponentialMovingAverage, hc, Bool.false_eq_true, if_false, List.map_cons]
    rw [h2]

/-- **C206** started at its settled covariance, the Kalman filter is an exponential moving average of the initial estimate
followed by the data, whatever the data. -/
theorem C206_settled (q r s x0 : K) (hq : 0 < q) (hr : 0 < r) (hs : 0 ≤ s) (hroot : s ^ 2 + q * s = q * r) (zs : List K) :
    ∃ ys : List K, kalmanFilter (zs.map fin) (fin x0 : Fl K) (fin s) (fin q) (fin r) = .ok (ys.map fin) ∧
      exponentialMovingAverage ⟨1, false, (x0 :: zs).map fin⟩ (fin (s / r) : Fl K) = .ok ((x0 :: ys).map fin) := by
  obtain ⟨lo, hi, hb⟩ : ∃ lo hi : K, ∀ z ∈ x0 :: zs, lo ≤ z ∧ z ≤ hi := by
    generalize x0 :: zs = l
    induction l with
    | nil => exact ⟨0, 0, by simp⟩
    | cons a t ih =>
      obtain ⟨lo, hi, h⟩ := ih
      refine ⟨min a lo, max a hi, fun z hz => ?_⟩
      rcases List.mem_cons.mp hz with rfl | hz
      · exact ⟨min_le_left _ _, le_max_left _ _⟩
      · exact ⟨(min_le_right _ _).trans (h z hz).1, (h z hz).2.trans (le_max_right _ _)⟩
  obtain ⟨ys, es, h1, h2, h3, h4, h5⟩ := C206_approach q r s x0 s hs hq hr hs hroot lo (hi - lo) zs
    (fun z h => by simpa using hb z h)
  have he : ys = es := by
    apply List.ext_getElem (by omega)
    intro i i1 i2
    have := h5 i (by omega)
    rw [sub_self, abs_zero, mul_zero, zero_div, mul_zero] at this
    have := sub_eq_zero.mp (abs_nonpos_iff.mp this)
    simpa [List.getD_eq_getElem?_getD, i1, i2] using this
  subst he
  exact ⟨ys, h1, h2⟩

/-- **C206** conversely, every exponential moving average with `0 < alpha < 1` is a Kalman filter: take any `R > 0`,
`P0 = alpha R` and `Q = alpha² R / (1 - alpha)`, and the first sample as initial estimate. -/
theorem C206_every_alpha (alpha r x0 : K) (h0 : 0 < alpha) (h1 : alpha < 1) (hr : 0 < r) (zs : List K) :
    ∃ ys : List K, exponentialMovingAverage ⟨1, false, (x0 :: zs).map fin⟩ (fin alpha : Fl K) = .ok ((x0 :: ys).map fin) ∧
      kalmanFilter (zs.map fin) (fin x0 : Fl K) (fin (alpha * r)) (fin (alpha ^ 2 * r / (1 - alpha))) (fin r) =
        .ok (ys.map fin) := by
  have h1' : 0 < 1 - alpha := by linarith
  obtain ⟨ys, h, h'⟩ := C206_settled (alpha ^ 2 * r / (1 - alpha)) r (alpha * r) x0 (by positivity) hr (by positivity)
    (by field_simp; ring) zs
  rw [mul_div_assoc, div_self hr.ne', mul_one] at h'
  exact ⟨ys, h', h⟩

/-- a concrete filter: Q = 2, R = 4 settles at s = 2, the smoothing factor is 1/2 -/
example : kalmanFilter [fin 8, fin 2] (fin 4 : Fl ℚ) (fin 2) (fin 2) (fin 4) = .ok [fin 6, fin 4] ∧
    exponentialMovingAverage ⟨1, false, [fin 4, fin 8, fin 2]⟩ (fin (1 / 2) : Fl ℚ) = .ok [fin 4, fin 6, fin 4] := by
  decide +kernel

/-- started elsewhere (`P0 = 10`) the first estimate is still off -/
example : kalmanFilter [fin 8, fin 2] (fin 4 : Fl ℚ) (fin 10) (fin 2) (fin 4) ≠ .ok [fin 6, fin 4] := by decide +kernel

end Proadv.Props
