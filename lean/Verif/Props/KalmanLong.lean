import Verif.Props.Kalman
import Mathlib.Analysis.SpecialFunctions.Pow.NNReal

/-!
# C132–C133: `kalman_filter` as a linear system and in the long run
-/

set_option linter.unusedSectionVars false

namespace Proadv.Props

open Proadv Fl Series

variable {K : Type} [Field K] [LinearOrder K] [FloorRing K] [IsStrictOrderedRing K]

private theorem step_fin (q r x p z : K) (h : p + q + r ≠ 0) :
    kalmanStep (fin q : Fl K) (fin r) (fin x, fin p) (fin z) =
      .ok (fin (x + (p + q) / (p + q + r) * (z - x)), fin (r * (p + q) / (p + q + r))) := by
  unfold kalmanStep inv1
  simp only [lit_eq, pmul_fin, padd_fin, psub_fin, peq_fin, Rat.cast_one, Rat.cast_zero, one_mul, mul_one, h,
    decide_false, Bool.false_eq_true, if_false, bind, Except.bind]
  rw [pdiv_fin h]
  simp only [pmul_fin, padd_fin, psub_fin, mul_one]
  congr 3
  · field_simp
  · field_simp
    ring

private theorem loop_cons (q r x p z : K) (t : List K) (h : p + q + r ≠ 0) :
    kalmanLoop (fin q : Fl K) (fin r) (fin x, fin p) ((z :: t).map fin) =
      (kalmanLoop (fin q : Fl K) (fin r) (fin (x + (p + q) / (p + q + r) * (z - x)), fin (r * (p + q) / (p + q + r)))
        (t.map fin)).map (fun l => (fin (x + (p + q) / (p + q + r) * (z - x)), fin (r * (p + q) / (p + q + r))) :: l) := by
  simp only [List.map_cons, kalmanLoop, bind, Except.bind]
  rw [step_fin q r x p z h]
  simp only
  cases kalmanLoop (fin q : Fl K) (fin r) (fin (x + (p + q) / (p + q + r) * (z - x)), fin (r * (p + q) / (p + q + r)))
    (t.map fin) <;> rfl

private theorem forget (q r : K) (hq : 0 ≤ q) (hr : 0 < r) (zs : List K) :
    ∀ (x x' p : K), 0 ≤ p → ∃ ys ys' : List (K × K),
      kalmanLoop (fin q : Fl K) (fin r) (fin x, fin p) (zs.map fin) = .ok (ys.map (fun s => (fin s.1, fin s.2))) ∧
      kalmanLoop (fin q : Fl K) (fin r) (fin x', fin p) (zs.map fin) = .ok (ys'.map (fun s => (fin s.1, fin s.2))) ∧
      ys.length = zs.length ∧ ys'.length = zs.length ∧
      ∀ i, i < zs.length → |(ys.map Prod.fst).getD i 0 - (ys'.map Prod.fst).getD i 0| ≤ (r / (q + r)) ^ (i + 1) * |x - x'| := by
  induction zs with
  | nil => intro x x' p _; exact ⟨[], [], rfl, rfl, rfl, rfl, by simp⟩
  | cons z t ih =>
    intro x x' p hp
    have hpos : 0 < p + q + r := by linarith
    have hp' : 0 ≤ r * (p + q) / (p + q + r) := by positivity
    have hqr : 0 < q + r := by linarith
    obtain ⟨ys, ys', h1, h2, h3, h4, h5⟩ := ih (x + (p + q) / (p + q + r) * (z - x)) (x' + (p + q) / (p + q + r) * (z - x')) _ hp'
    have hstep : |x + (p + q) / (p + q + r) * (z - x) - (x' + (p + q) / (p + q + r) * (z - x'))| ≤ r / (q + r) * |x - x'| := by
      have e : x + (p + q) / (p + q + r) * (z - x) - (x' + (p + q) / (p + q + r) * (z - x')) = r / (p + q + r) * (x - x') := by
        field_simp
        ring
      rw [e, abs_mul, abs_of_nonneg (by positivity)]
      apply mul_le_mul_of_nonneg_right _ (abs_nonneg _)
      apply div_le_div_of_nonneg_left hr.le hqr
      linarith
    refine ⟨(x + (p + q) / (p + q + r) * (z - x), r * (p + q) / (p + q + r)) :: ys, (x' + (p + q) / (p + q + r) * (z - x'), r * (p + q) / (p + q + r)) :: ys', ?_, ?_, by simp [h3], by simp [h4], ?_⟩
    · rw [loop_cons q r x p z t hpos.ne', h1]; rfl
    · rw [loop_cons q r x' p z t hpos.ne', h2]; rfl
    · intro i hi
      cases i with
      | zero => simpa using hstep
      | succ i =>
        simp only [List.map_cons, List.getD_cons_succ]
        refine (h5 i (by simpa using hi)).trans ?_
        calc _ ≤ (r / (q + r)) ^ (i + 1) * (r / (q + r) * |x - x'|) :=
              mul_le_mul_of_nonneg_left hstep (by positivity)
          _ = _ := by ring

/-- **C132** the filter forgets its initial estimate: run on the same data from `x0` and from `x0'`, estimate `i` differs by at
most `(R / (Q + R)) ^ (i + 1) * |x0 - x0'|`; with process noise (`Q > 0`) the factor is below 1. -/
theorem C132_forgets (q r x0 x0' p0 : K) (hp : 0 ≤ p0) (hq : 0 ≤ q) (hr : 0 < r) (zs : List K) :
    ∃ ys ys' : List K, kalmanFilter (zs.map fin) (fin x0 : Fl K) (fin p0) (fin q) (fin r) = .ok (ys.map fin) ∧
      kalmanFilter (zs.map fin) (fin x0' : Fl K) (fin p0) (fin q) (fin r) = .ok (ys'.map fin) ∧
      ys.length = zs.length ∧ ys'.length = zs.length ∧
      (∀ i, i < zs.length → |ys.getD i 0 - ys'.getD i 0| ≤ (r / (q + r)) ^ (i + 1) * |x0 - x0'|) ∧
      (0 < q → r / (q + r) < 1) := by
  obtain ⟨ys, ys', h1, h2, h3, h4, h5⟩ := forget q r hq hr zs x0 x0' p0 hp
  refine ⟨ys.map Prod.fst, ys'.map Prod.fst, ?_, ?_, by simpa using h3, by simpa using h4, h5, ?_⟩
  · simp [kalmanFilter, h1, bind, Except.bind]
  · simp [kalmanFilter, h2, bind, Except.bind]
  · intro h
    rw [div_lt_one (by linarith)]
    linarith

/-- **C132** the covariance settles: it approaches the non-negative root `s` of `s² + Q s = Q R`, each measurement shrinking
the distance at least by the factor `(R / (Q + R))²`, whatever the data. -/
theorem C132_steady (q r x0 p0 s : K) (hp : 0 ≤ p0) (hq : 0 ≤ q) (hr : 0 < r) (hs : 0 ≤ s) (hroot : s ^ 2 + q * s = q * r)
    (zs : List K) :
    ∃ st : List (K × K), kalmanLoop (fin q : Fl K) (fin r) (fin x0, fin p0) (zs.map fin) =
        .ok (st.map (fun s => (fin s.1, fin s.2))) ∧ st.length = zs.length ∧
      ∀ i, i < zs.length → |(st.map Prod.snd).getD i 0 - s| ≤ ((r / (q + r)) ^ 2) ^ (i + 1) * |p0 - s| := by
  induction zs generalizing x0 p0 with
  | nil => exact ⟨[], rfl, rfl, by simp⟩
  | cons z t ih =>
    have hpos : 0 < p0 + q + r := by linarith
    have hspos : 0 < s + q + r := by linarith
    have hqr : 0 < q + r := by linarith
    have hp' : 0 ≤ r * (p0 + q) / (p0 + q + r) := by positivity
    obtain ⟨st, h1, h2, h3⟩ := ih (x0 + (p0 + q) / (p0 + q + r) * (z - x0)) _ hp'
    have hstep : |r * (p0 + q) / (p0 + q + r) - s| ≤ (r / (q + r)) ^ 2 * |p0 - s| := by
      have hfix : s = r * (s + q) / (s + q + r) := by
        rw [eq_div_iff hspos.ne']
        linear_combination hroot
      have e : r * (p0 + q) / (p0 + q + r) - s = r / (p0 + q + r) * (r / (s + q + r)) * (p0 - s) := by
        conv_lhs => rw [hfix]
        field_simp
        ring
      rw [e, abs_mul, abs_of_nonneg (by positivity), sq]
      apply mul_le_mul_of_nonneg_right _ (abs_nonneg _)
      apply mul_le_mul
      · apply div_le_div_of_nonneg_left hr.le hqr; linarith
      · apply div_le_div_of_nonneg_left hr.le hqr; linarith
      · positivity
      · positivity
    refine ⟨(x0 + (p0 + q) / (p0 + q + r) * (z - x0), r * (p0 + q) / (p0 + q + r)) :: st, ?_, by simp [h2], ?_⟩
    · rw [loop_cons q r x0 p0 z t hpos.ne', h1]; rfl
    · intro i hi
      cases i with
      | zero => simpa using hstep
      | succ i =>
        simp only [List.map_cons, List.getD_cons_succ]
        refine (h3 i (by simpa using hi)).trans ?_
        calc _ ≤ ((r / (q + r)) ^ 2) ^ (i + 1) * ((r / (q + r)) ^ 2 * |p0 - s|) :=
              mul_le_mul_of_nonneg_left hstep (by positivity)
          _ = _ := by ring

/-- **C132** in the reals the limit exists: `(sqrt (Q² + 4 Q R) - Q) / 2`. -/
theorem C132_limit (q r : ℝ) (hq : 0 ≤ q) (hr : 0 < r) :
    0 ≤ (√(q ^ 2 + 4 * q * r) - q) / 2 ∧
      ((√(q ^ 2 + 4 * q * r) - q) / 2) ^ 2 + q * ((√(q ^ 2 + 4 * q * r) - q) / 2) = q * r := by
  have h0 : 0 ≤ q ^ 2 + 4 * q * r := by positivity
  have hsq := Real.sq_sqrt h0
  constructor
  · have : q ≤ √(q ^ 2 + 4 * q * r) := Real.le_sqrt_of_sq_le (by nlinarith)
    linarith
  · nlinarith

/-- **C133** superposition: the estimates are a linear function of the initial estimate and the measurements together; the
covariances do not depend on either. -/
theorem C133_linear (q r p0 : K) (hp : 0 ≤ p0) (hq : 0 ≤ q) (hr : 0 < r) (a b x x' : K) (zs : List (K × K)) :
    ∃ ys ys' : List K,
      kalmanFilter ((zs.map Prod.fst).map fin) (fin x : Fl K) (fin p0) (fin q) (fin r) = .ok (ys.map fin) ∧
      kalmanFilter ((zs.map Prod.snd).map fin) (fin x' : Fl K) (fin p0) (fin q) (fin r) = .ok (ys'.map fin) ∧
      kalmanFilter ((zs.map (fun z => a * z.1 + b * z.2)).map fin) (fin (a * x + b * x') : Fl K) (fin p0) (fin q) (fin r) =
        .ok ((List.zipWith (fun y y' => a * y + b * y') ys ys').map fin) := by
  have key : ∀ (zs : List (K × K)) (x x' p : K), 0 ≤ p → ∃ (ys ys' ps : List K), ys.length = ps.length ∧ ys'.length = ps.length ∧
      kalmanLoop (fin q : Fl K) (fin r) (fin x, fin p) ((zs.map Prod.fst).map fin) = .ok (List.zipWith (fun y s => (fin y, fin s)) ys ps) ∧
      kalmanLoop (fin q : Fl K) (fin r) (fin x', fin p) ((zs.map Prod.snd).map fin) = .ok (List.zipWith (fun y s => (fin y, fin s)) ys' ps) ∧
      kalmanLoop (fin q : Fl K) (fin r) (fin (a * x + b * x'), fin p) ((zs.map (fun z => a * z.1 + b * z.2)).map fin) =
        .ok (List.zipWith (fun y s => (fin y, fin s)) (List.zipWith (fun y y' => a * y + b * y') ys ys') ps) := by
    intro zs
    induction zs with
    | nil => intro x x' p _; exact ⟨[], [], [], rfl, rfl, rfl, rfl, rfl⟩
    | cons z t ih =>
      intro x x' p hp
      have hpos : 0 < p + q + r := by linarith
      have hp' : 0 ≤ r * (p + q) / (p + q + r) := by positivity
      obtain ⟨ys, ys', ps, l1, l2, h1, h2, h3⟩ := ih (x + (p + q) / (p + q + r) * (z.1 - x)) (x' + (p + q) / (p + q + r) * (z.2 - x')) _ hp'
      refine ⟨(x + (p + q) / (p + q + r) * (z.1 - x)) :: ys, (x' + (p + q) / (p + q + r) * (z.2 - x')) :: ys',
        (r * (p + q) / (p + q + r)) :: ps, by simpa using l1, by simpa using l2, ?_, ?_, ?_⟩
      · rw [List.map_cons, loop_cons q r x p _ _ hpos.ne', h1]; rfl
      · rw [List.map_cons, loop_cons q r x' p _ _ hpos.ne', h2]; rfl
      · rw [List.map_cons, loop_cons q r _ p _ _ hpos.ne']
        have e : a * x + b * x' + (p + q) / (p + q + r) * (a * z.1 + b * z.2 - (a * x + b * x')) =
            a * (x + (p + q) / (p + q + r) * (z.1 - x)) + b * (x' + (p + q) / (p + q + r) * (z.2 - x')) := by ring
        rw [e, h3]
        rfl
  obtain ⟨ys, ys', ps, l1, l2, h1, h2, h3⟩ := key zs x x' p0 hp
  have hfst : ∀ l : List K, l.length = ps.length →
      (List.zipWith (fun y s => ((fin y : Fl K), (fin s : Fl K))) l ps).map Prod.fst = l.map fin := by
    intro l hl
    rw [List.map_zipWith]
    apply List.ext_getElem
    · simp [hl]
    · intro i h1 h2; simp
  refine ⟨ys, ys', ?_, ?_, ?_⟩
  · simp only [kalmanFilter, h1, bind, Except.bind, hfst ys l1]
  · simp only [kalmanFilter, h2, bind, Except.bind, hfst ys' l2]
  · simp only [kalmanFilter, h3, bind, Except.bind]
    rw [hfst _ (by simp [l1, l2])]

/-- a concrete filter: Q = 2, R = 1 has steady covariance with `s² + 2 s = 2`; for Q = 2, R = 4 it is 2 -/
example : (0 : ℚ) ≤ 2 ∧ (2 : ℚ) ^ 2 + 2 * 2 = 2 * 4 := by norm_num

/-- one measurement from two initial estimates: the difference 3 shrinks to `3 * R / (P + Q + R)` -/
example : kalmanFilter [fin 5] (fin 0 : Fl ℚ) (fin 1) (fin 2) (fin 3) = .ok [fin (5 / 2)] ∧
    kalmanFilter [fin 5] (fin 3 : Fl ℚ) (fin 1) (fin 2) (fin 3) = .ok [fin 4] := by decide +kernel

end Proadv.Props
