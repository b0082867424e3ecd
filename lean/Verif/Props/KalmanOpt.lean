import Verif.Model.Series
import Verif.Lemmas.Fl
import Mathlib.Tactic.Linarith
import Mathlib.Tactic.Ring
import Mathlib.Tactic.FieldSimp
import Mathlib.Tactic.Positivity

/-!
# C189: the Kalman estimate ends the best-fitting trajectory
-/

set_option linter.unusedSectionVars false

namespace Proadv.Props

open Proadv Fl Series

variable {K : Type} [Field K] [LinearOrder K] [FloorRing K] [IsStrictOrderedRing K]

/-- misfit of a trajectory `s₁, s₂, …` starting at `prev`: squared steps over the process noise, plus squared distances from the
measurements over the measurement noise -/
def pathCost (q r : K) : K → List K → List K → K
  | prev, s :: ss, z :: zs => (s - prev) ^ 2 / q + (z - s) ^ 2 / r + pathCost q r s ss zs
  | _, _, _ => 0

private theorem step_fin' (q r x p z : K) (h : p + q + r ≠ 0) :
    kalmanStep (fin q : Fl K) (fin r) (fin x, fin p) (fin z) =
      .ok (fin (x + (p + q) / (p + q + r) * (z - x)), fin ((1 - (p + q) / (p + q + r)) * (p + q))) := by
  unfold kalmanStep inv1
  simp only [lit_eq, pmul_fin, padd_fin, psub_fin, peq_fin, Rat.cast_one, Rat.cast_zero, one_mul, mul_one, h,
    decide_false, Bool.false_eq_true, if_false, bind, Except.bind]
  rw [pdiv_fin h]
  simp only [pmul_fin, padd_fin, psub_fin, mul_one]
  congr 4 <;> field_simp

/-- eliminating the start -/
private theorem elim_start (p q x s0 s1 : K) (hp : 0 < p) (hq : 0 < q) :
    (s0 - x) ^ 2 / p + (s1 - s0) ^ 2 / q =
      (s1 - x) ^ 2 / (p + q) + (p + q) / (p * q) * (s0 - (q * x + p * s1) / (p + q)) ^ 2 := by
  have : p + q ≠ 0 := by positivity
  field_simp
  ring

/-- completing the square in the new state -/
private theorem complete (P r x z s : K) (hP : 0 < P) (hr : 0 < r) :
    (s - x) ^ 2 / P + (z - s) ^ 2 / r =
      (s - (x + P / (P + r) * (z - x))) ^ 2 / ((1 - P / (P + r)) * P) + (z - x) ^ 2 / (P + r) := by
  have h1 : P + r ≠ 0 := by positivity
  have h2 : 1 - P / (P + r) = r / (P + r) := by field_simp; ring
  rw [h2]
  field_simp
  ring

private theorem optimal (q r : K) (hq : 0 < q) (hr : 0 < r) (zs : List K) : ∀ (x p : K), 0 < p →
    ∃ st : List (K × K), kalmanLoop (fin q : Fl K) (fin r) (fin x, fin p) (zs.map fin) = .ok (st.map (fun s => (fin s.1, fin s.2))) ∧
      st.length = zs.length ∧ ∀ i (hi : i < st.length), 0 < st[i].2 ∧ ∃ c : K,
        (∀ s0 ss, (hl : ss.length = i + 1) → c + (ss[i] - st[i].1) ^ 2 / st[i].2 ≤
          (s0 - x) ^ 2 / p + pathCost q r s0 ss (zs.take (i + 1))) ∧
        ∃ s0 ss, ∃ hl : ss.length = i + 1, ss[i] = st[i].1 ∧ (s0 - x) ^ 2 / p + pathCost q r s0 ss (zs.take (i + 1)) = c := by
  induction zs with
  | nil => intro x p _; exact ⟨[], rfl, rfl, by simp⟩
  | cons z t ih =>
    intro x p hp
    have hS : 0 < p + q + r := by positivity
    set g := (p + q) / (p + q + r) with hg
    have hg1 : g < 1 := by rw [hg, div_lt_one hS]; linarith
    have hP0 : 0 < (1 - g) * (p + q) := mul_pos (by linarith) (by positivity)
    obtain ⟨st, h1, h2, h3⟩ := ih (x + g * (z - x)) ((1 - g) * (p + q)) hP0
    have hpc : 0 < (p + q) / (p * q) := by positivity
    have hid : ∀ s0 s1, (s0 - x) ^ 2 / p + ((s1 - s0) ^ 2 / q + (z - s1) ^ 2 / r) =
        (z - x) ^ 2 / (p + q + r) + (s1 - (x + g * (z - x))) ^ 2 / ((1 - g) * (p + q)) +
          (p + q) / (p * q) * (s0 - (q * x + p * s1) / (p + q)) ^ 2 := by
      intro s0 s1
      rw [← add_assoc, elim_start p q x s0 s1 hp hq]
      have := complete (p + q) r x z s1 (by positivity) hr
      rw [hg]
      linarith
    refine ⟨(x + g * (z - x), (1 - g) * (p + q)) :: st, ?_, by simp [h2], ?_⟩
    · simp only [List.map_cons, kalmanLoop]
      rw [step_fin' q r x p z hS.ne']
      simp only [bind, Except.bind]
      rw [← hg, h1]
    · intro i hi
      cases i with
      | zero =>
        refine ⟨hP0, (z - x) ^ 2 / (p + q + r), fun s0 ss hl => ?_,
          (q * x + p * (x + g * (z - x))) / (p + q), [x + g * (z - x)], rfl, rfl, ?_⟩
        · obtain ⟨s1, rfl⟩ := List.length_eq_one_iff.mp hl
          simp only [List.take_succ_cons, List.take_zero, pathCost, add_zero, List.getElem_cons_zero]
          rw [hid s0 s1]
          have : 0 ≤ (p + q) / (p * q) * (s0 - (q * x + p * s1) / (p + q)) ^ 2 := by positivity
          linarith
        · simp only [List.take_succ_cons, List.take_zero, pathCost, add_zero]
          rw [hid]
          simp
      | succ i =>
        obtain ⟨hpos, c, hc1, s1, ss, hl, hlast, hc2⟩ := h3 i (by simpa using hi)
        refine ⟨hpos, (z - x) ^ 2 / (p + q + r) + c, fun s0 ss' hl' => ?_, (q * x + p * s1) / (p + q), s1 :: ss, by simp [hl], ?_, ?_⟩
        · obtain ⟨s1', ss', rfl⟩ := List.exists_cons_of_length_eq_add_one hl'
          have := hc1 s1' ss' (by simpa using hl')
          simp only [List.take_succ_cons, pathCost, List.getElem_cons_succ]
          rw [← add_assoc, hid s0 s1']
          have h0 : 0 ≤ (p + q) / (p * q) * (s0 - (q * x + p * s1') / (p + q)) ^ 2 := by positivity
          linarith
        · simpa using hlast
        · simp only [List.take_succ_cons, pathCost]
          rw [← add_assoc, hid, ← hc2]
          simp
          ring

/-- **C189** Each estimate of `kalman_filter` (positive covariances) ends the best trajectory: among all starts and trajectories through
the measurements so far, the least value of squared start error / p0 + squared steps / q + squared misfits / r is attained by one ending
in the estimate, and any trajectory ending elsewhere costs strictly more. -/
theorem C189_optimal (q r x0 p0 : K) (hp : 0 < p0) (hq : 0 < q) (hr : 0 < r) (zs : List K) :
    ∃ ys : List K, kalmanFilter (zs.map fin) (fin x0 : Fl K) (fin p0) (fin q) (fin r) = .ok (ys.map fin) ∧ ys.length = zs.length ∧
      ∀ i (hi : i < ys.length), ∃ c : K,
        (∃ s0 ss, ∃ hl : ss.length = i + 1, ss[i] = ys[i] ∧ (s0 - x0) ^ 2 / p0 + pathCost q r s0 ss (zs.take (i + 1)) = c) ∧
        (∀ s0 ss, ss.length = i + 1 → c ≤ (s0 - x0) ^ 2 / p0 + pathCost q r s0 ss (zs.take (i + 1))) ∧
        ∀ s0 ss, (hl : ss.length = i + 1) → ss[i] ≠ ys[i] → c < (s0 - x0) ^ 2 / p0 + pathCost q r s0 ss (zs.take (i + 1)) := by
  obtain ⟨st, h1, h2, h3⟩ := optimal q r hq hr zs x0 p0 hp
  refine ⟨st.map Prod.fst, ?_, by simp [h2], fun i hi => ?_⟩
  · unfold kalmanFilter; rw [h1]; simp [bind, Except.bind, Function.comp_def]
  · have hi' : i < st.length := by simpa using hi
    obtain ⟨hpos, c, hc1, s0, ss, hl, hlast, hc2⟩ := h3 i hi'
    have e : (st.map Prod.fst)[i] = st[i].1 := by simp
    refine ⟨c, ⟨s0, ss, hl, by rw [e, hlast], hc2⟩, fun s0 ss hl => ?_, fun s0 ss hl hne => ?_⟩
    · have := hc1 s0 ss hl
      have h0 : 0 ≤ (ss[i] - st[i].1) ^ 2 / st[i].2 := div_nonneg (sq_nonneg _) hpos.le
      linarith
    · have := hc1 s0 ss hl
      rw [e] at hne
      have h0 : 0 < (ss[i] - st[i].1) ^ 2 / st[i].2 := div_pos (by
        have : ss[i] - st[i].1 ≠ 0 := sub_ne_zero.mpr hne
        positivity) hpos
      linarith

/-- two measurements: the estimates, and the cost of the best trajectory to the second one compared with another -/
example : kalmanFilter [fin 1, fin (4 : ℚ)] (fin 0) (fin 1) (fin 1) (fin 1) = .ok [fin (2 / 3), fin (11 / 4)] ∧
    (((1 : ℚ) / 4 - 0) ^ 2 / 1 + pathCost 1 1 (1 / 4) [5 / 4, 11 / 4] [1, 4] <
      (0 - 0) ^ 2 / 1 + pathCost 1 1 0 [1, 3] [1, 4]) := by
  refine ⟨by decide +kernel, by norm_num [pathCost]⟩

end Proadv.Props
