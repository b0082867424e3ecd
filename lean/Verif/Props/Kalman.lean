import Verif.Model.Series
import Verif.Lemmas.Fl
import Mathlib.Algebra.Order.Ring.Rat
import Mathlib.Tactic.Linarith
import Mathlib.Tactic.Ring
import Mathlib.Tactic.FieldSimp
import Mathlib.Tactic.Positivity

/-!
# Properties C18–C20: `kalman_filter` of `statistics/series.py` (1x1 matrices)
-/

set_option linter.unusedSectionVars false

namespace Proadv.Props

open Proadv Fl Series

variable {K : Type} [Field K] [LinearOrder K] [FloorRing K] [IsStrictOrderedRing K]

private theorem kalmanStep_fin (q r x p z : K) (h : p + q + r ≠ 0) :
    kalmanStep (fin q : Fl K) (fin r) (fin x, fin p) (fin z) =
      .ok (fin (x + (p + q) / (p + q + r) * (z - x)), fin ((1 - (p + q) / (p + q + r)) * (p + q))) := by
  unfold kalmanStep inv1
  simp only [lit_eq, pmul_fin, padd_fin, psub_fin, peq_fin, Rat.cast_one, Rat.cast_zero, one_mul, mul_one, h,
    decide_false, Bool.false_eq_true, if_false, bind, Except.bind]
  rw [pdiv_fin h]
  simp only [pmul_fin, padd_fin, psub_fin, mul_one]
  congr 4 <;> field_simp

/-! ## C18 -/

private theorem kalman_inv (q r : K) (hq : 0 ≤ q) (hr : 0 < r) (zs : List K) :
    ∀ (x p : K), 0 ≤ p → ∃ st : List (K × K),
      kalmanLoop (fin q : Fl K) (fin r) (fin x, fin p) (zs.map fin) = .ok (st.map (fun s => (fin s.1, fin s.2))) ∧
      st.length = zs.length ∧
      (∀ s ∈ st, 0 ≤ s.2 ∧ s.2 ≤ r) ∧
      (∀ i (hi : i < st.length) lo hi', lo ≤ x → x ≤ hi' → (∀ z ∈ zs.take (i + 1), lo ≤ z ∧ z ≤ hi') →
        lo ≤ st[i].1 ∧ st[i].1 ≤ hi') := by
  induction zs with
  | nil => intro x p _; exact ⟨[], rfl, rfl, by simp, by simp⟩
  | cons z t ih =>
    intro x p hp
    have hS : 0 < p + q + r := by positivity
    set g := (p + q) / (p + q + r) with hg
    have hg0 : 0 ≤ g := by positivity
    have hg1 : g ≤ 1 := by rw [hg, div_le_one hS]; linarith
    have hP : (1 - g) * (p + q) = r * (p + q) / (p + q + r) := by
      rw [hg]; field_simp; ring
    have hP0 : 0 ≤ (1 - g) * (p + q) := by
      have : 0 ≤ 1 - g := by linarith
      positivity
    have hP1 : (1 - g) * (p + q) ≤ r := by
      rw [hP, div_le_iff₀ hS]; nlinarith
    obtain ⟨st, h1, h2, h3, h4⟩ := ih (x + g * (z - x)) ((1 - g) * (p + q)) hP0
    refine ⟨(x + g * (z - x), (1 - g) * (p + q)) :: st, ?_, by simp [h2], ?_, ?_⟩
    · simp only [List.map_cons, kalmanLoop]
      rw [kalmanStep_fin q r x p z hS.ne']
      simp only [bind, Except.bind]
      rw [← hg, h1]
    · intro s hs
      rcases List.mem_cons.mp hs with rfl | hs
      · exact ⟨hP0, hP1⟩
      · exact h3 s hs
    · intro i hi lo hi' hlo hhi hz
      have hz0 : lo ≤ z ∧ z ≤ hi' := hz z (by simp)
      have hx1 : lo ≤ x + g * (z - x) := by nlinarith
      have hx2 : x + g * (z - x) ≤ hi' := by nlinarith
      cases i with
      | zero => exact ⟨hx1, hx2⟩
      | succ i =>
        exact h4 i (by simpa using hi) lo hi' hx1 hx2 (fun w hw => hz w (by simp [hw]))

/-- **C18** with non-negative prior covariance and process noise and positive measurement noise, `kalman_filter`
returns one estimate per measurement; estimate `i` lies in every interval containing the initial state and the
measurements `0 … i`; the covariances stay in `[0, R]`. -/
theorem C18_kalman_bounded (q r x0 p0 : K) (hp : 0 ≤ p0) (hq : 0 ≤ q) (hr : 0 < r) (zs : List K) :
    ∃ st : List (K × K),
      kalmanLoop (fin q : Fl K) (fin r) (fin x0, fin p0) (zs.map fin) =
        .ok (st.map (fun s => (fin s.1, fin s.2))) ∧
      kalmanFilter (zs.map fin) (fin x0 : Fl K) (fin p0) (fin q) (fin r) = .ok (st.map (fun s => fin s.1)) ∧
      st.length = zs.length ∧ (∀ s ∈ st, 0 ≤ s.2 ∧ s.2 ≤ r) ∧
      (∀ i (hi : i < st.length) lo hi', lo ≤ x0 → x0 ≤ hi' → (∀ z ∈ zs.take (i + 1), lo ≤ z ∧ z ≤ hi') →
        lo ≤ st[i].1 ∧ st[i].1 ≤ hi') := by
  obtain ⟨st, h1, h2, h3, h4⟩ := kalman_inv q r hq hr zs x0 p0 hp
  refine ⟨st, h1, ?_, h2, h3, h4⟩
  unfold kalmanFilter
  rw [h1]
  simp [bind, Except.bind, Function.comp_def]

/-! ## C19 -/

private theorem kalman_bayes (r x0 p0 : K) (hp : 0 ≤ p0) (hr : 0 < r) (zs : List K) :
    ∀ (n : ℕ) (s : K), ∃ st : List (K × K),
      kalmanLoop (fin 0 : Fl K) (fin r) (fin ((r * x0 + p0 * s) / (r + n * p0)), fin (r * p0 / (r + n * p0)))
        (zs.map fin) = .ok (st.map (fun s => (fin s.1, fin s.2))) ∧
      st.length = zs.length ∧
      (∀ i (hi : i < st.length), st[i].1 = (r * x0 + p0 * (s + (zs.take (i + 1)).sum)) / (r + (n + i + 1 : ℕ) * p0)) := by
  induction zs with
  | nil => intro n s; exact ⟨[], rfl, rfl, by simp⟩
  | cons z t ih =>
    intro n s
    have hD : 0 < r + n * p0 := by positivity
    have hD' : 0 < r + ((n + 1 : ℕ) : K) * p0 := by positivity
    obtain ⟨st, h1, h2, h3⟩ := ih (n + 1) (s + z)
    have hS : 0 < r * p0 / (r + n * p0) + 0 + r := by positivity
    have eS : r * p0 / (r + n * p0) + 0 + r = r * (r + ((n + 1 : ℕ) : K) * p0) / (r + n * p0) := by
      push_cast; field_simp; ring
    have eg : (r * p0 / (r + n * p0) + 0) / (r * p0 / (r + n * p0) + 0 + r) =
        p0 / (r + ((n + 1 : ℕ) : K) * p0) := by
      rw [eS, add_zero]; field_simp
    have ex : (r * x0 + p0 * s) / (r + n * p0) + p0 / (r + ((n + 1 : ℕ) : K) * p0) *
        (z - (r * x0 + p0 * s) / (r + n * p0)) = (r * x0 + p0 * (s + z)) / (r + ((n + 1 : ℕ) : K) * p0) := by
      field_simp; push_cast; ring
    have ep : (1 - p0 / (r + ((n + 1 : ℕ) : K) * p0)) * (r * p0 / (r + n * p0) + 0) =
        r * p0 / (r + ((n + 1 : ℕ) : K) * p0) := by
      field_simp; push_cast; ring
    refine ⟨((r * x0 + p0 * (s + z)) / (r + ((n + 1 : ℕ) : K) * p0), r * p0 / (r + ((n + 1 : ℕ) : K) * p0)) :: st,
      ?_, by simp [h2], ?_⟩
    · simp only [List.map_cons, kalmanLoop]
      rw [kalmanStep_fin 0 r _ _ z hS.ne', eg, ex, ep]
      simp only [bind, Except.bind]
      rw [h1]
    · intro i hi
      cases i with
      | zero => simp
      | succ i =>
        have := h3 i (by simpa using hi)
        simp only [List.getElem_cons_succ, List.take_succ_cons, List.sum_cons]
        rw [this]
        congr 2
        · ring
        · push_cast; ring

/-- **C19** without process noise the estimate after `n` measurements is the precision-weighted average of the prior
and the measurements. -/
theorem C19_kalman_bayes (r x0 p0 : K) (hp : 0 ≤ p0) (hr : 0 < r) (zs : List K) :
    ∃ ys : List K, kalmanFilter (zs.map fin) (fin x0 : Fl K) (fin p0) (fin 0) (fin r) = .ok (ys.map fin) ∧
      ys.length = zs.length ∧
      ∀ i (hi : i < ys.length), ys[i] = (r * x0 + p0 * (zs.take (i + 1)).sum) / (r + (i + 1 : ℕ) * p0) := by
  obtain ⟨st, h1, h2, h3⟩ := kalman_bayes r x0 p0 hp hr zs 0 0
  have e1 : (r * x0 + p0 * 0) / (r + ((0 : ℕ) : K) * p0) = x0 := by field_simp; simp; ring
  have e2 : r * p0 / (r + ((0 : ℕ) : K) * p0) = p0 := by field_simp; simp; ring
  rw [e1, e2] at h1
  refine ⟨st.map Prod.fst, ?_, by simp [h2], fun i hi => ?_⟩
  · unfold kalmanFilter; rw [h1]; simp [bind, Except.bind, Function.comp_def]
  · rw [List.getElem_map, h3 i (by simpa using hi)]; simp

example : kalmanFilter [fin 4, fin (1 : ℚ)] (fin 1) (fin 1) (fin 0) (fin 1) = .ok [fin (5 / 2), fin 2] := by
  decide +kernel

/-! ## C20 -/

/-- **C20** exact measurements (`R = 0`) with positive process noise: the output is the measurement sequence. -/
theorem C20_kalman_exact_measurements (q x0 p0 : K) (hp : 0 ≤ p0) (hq : 0 < q) (zs : List K) :
    kalmanFilter (zs.map fin) (fin x0 : Fl K) (fin p0) (fin q) (fin 0) = .ok (zs.map fin) := by
  have key : ∀ (zs : List K) (x p : K), 0 ≤ p → ∃ st : List (K × K),
      kalmanLoop (fin q : Fl K) (fin 0) (fin x, fin p) (zs.map fin) = .ok (st.map (fun s => (fin s.1, fin s.2))) ∧
      st.map Prod.fst = zs := by
    intro zs
    induction zs with
    | nil => intro x p _; exact ⟨[], rfl, rfl⟩
    | cons z t ih =>
      intro x p hp
      have hS : 0 < p + q + 0 := by positivity
      obtain ⟨st, h1, h2⟩ := ih z 0 le_rfl
      have eg : (p + q) / (p + q + 0) = 1 := by rw [add_zero]; exact div_self (by positivity)
      refine ⟨(z, 0) :: st, ?_, by simp [h2]⟩
      simp only [List.map_cons, kalmanLoop]
      rw [kalmanStep_fin q 0 x p z hS.ne', eg]
      have e1 : x + 1 * (z - x) = z := by ring
      have e2 : (1 - 1) * (p + q) = 0 := by ring
      simp only [bind, Except.bind]
      rw [e1, e2, h1]
  obtain ⟨st, h1, h2⟩ := key zs x0 p0 hp
  unfold kalmanFilter
  rw [h1]
  simp only [bind, Except.bind, List.map_map]
  rw [← h2]; simp [Function.comp_def]

/-- **C20** all covariances zero: the first measurement raises LinAlgError. -/
theorem C20_kalman_singular (x0 z : K) (zs : List K) :
    kalmanFilter ((z :: zs).map fin) (fin x0 : Fl K) (fin 0) (fin 0) (fin 0) = .error .linAlgError := by
  simp [kalmanFilter, kalmanLoop, kalmanStep, inv1, bind, Except.bind]

/-- **C20** more generally `kalman_filter` raises on the first measurement exactly when `P + Q + R = 0`. -/
theorem C20_kalman_first_error (q r x0 p0 z : K) :
    (∃ e, kalmanFilter [fin z] (fin x0 : Fl K) (fin p0) (fin q) (fin r) = .error e) ↔ p0 + q + r = 0 := by
  constructor
  · rintro ⟨e, he⟩
    by_contra h
    simp [kalmanFilter, kalmanLoop, kalmanStep_fin q r x0 p0 z h, bind, Except.bind] at he
  · intro h
    exact ⟨.linAlgError, by simp [kalmanFilter, kalmanLoop, kalmanStep, inv1, bind, Except.bind, h]⟩

/-- **C20** both noises zero and a non-zero prior covariance: the first output is the measurement, the updated covariance is 0,
so a second measurement raises LinAlgError. -/
theorem C20_kalman_second_error (x0 p0 z y : K) (hp : p0 ≠ 0) (zs : List K) :
    kalmanFilter [fin z] (fin x0 : Fl K) (fin p0) (fin 0) (fin 0) = .ok [fin z] ∧
    kalmanFilter ((z :: y :: zs).map fin) (fin x0 : Fl K) (fin p0) (fin 0) (fin 0) = .error .linAlgError := by
  have e1 : x0 + (p0 + 0) / (p0 + 0 + 0) * (z - x0) = z := by simp [hp]
  have e2 : (1 - (p0 + 0) / (p0 + 0 + 0)) * (p0 + 0) = 0 := by simp [hp]
  have hs : kalmanStep (fin 0 : Fl K) (fin 0) (fin x0, fin p0) (fin z) = .ok (fin z, fin 0) := by
    rw [kalmanStep_fin 0 0 x0 p0 z (by simpa using hp), e1, e2]
  constructor
  · simp [kalmanFilter, kalmanLoop, hs, bind, Except.bind]
  · simp only [kalmanFilter, kalmanLoop, List.map_cons, bind, Except.bind, hs]
    simp [kalmanStep, inv1, bind, Except.bind]

example : kalmanFilter [fin 4, fin 7] (fin (1 : ℚ)) (fin 2) (fin 0) (fin 0) = .error .linAlgError := by decide +kernel

/-- **C20** infinite trust in the prior (`P = Q = 0`, `R ≠ 0`): constantly the initial state. -/
theorem C20_kalman_trusted_prior (r x0 : K) (hr : r ≠ 0) (zs : List K) :
    kalmanFilter (zs.map fin) (fin x0 : Fl K) (fin 0) (fin 0) (fin r) = .ok (zs.map (fun _ => fin x0)) := by
  have key : kalmanLoop (fin 0 : Fl K) (fin r) (fin x0, fin 0) (zs.map fin) =
      .ok (zs.map (fun _ => (fin x0, fin 0))) := by
    induction zs with
    | nil => rfl
    | cons z t ih =>
      simp only [List.map_cons, kalmanLoop]
      rw [kalmanStep_fin 0 r x0 0 z (by simpa using hr)]
      have e1 : x0 + (0 + 0) / (0 + 0 + r) * (z - x0) = x0 := by simp
      have e2 : (1 - (0 + 0) / (0 + 0 + r)) * (0 + 0) = (0 : K) := by simp
      simp only [bind, Except.bind]
      rw [e1, e2, ih]
  unfold kalmanFilter
  rw [key]
  simp [bind, Except.bind]

end Proadv.Props
