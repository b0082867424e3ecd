import Verif.Model.Series
import Verif.Lemmas.Round
import Verif.Lemmas.RoundMono
import Mathlib.Tactic.Linarith
import Mathlib.Tactic.Positivity

set_option linter.unusedSectionVars false

/-!
# `kalman_filter` in rounded arithmetic (C216)

The model of `kalman_filter` (1x1 matrices) at `Rd A`.  The rounding is monotone, idempotent, of relative error at most `u`, and
takes `1` and `1 + u` to `1` (binary64: `1 + 2⁻⁵³` is a tie and rounds to even).
-/

namespace Proadv.Props

open Proadv Series

variable {K : Type} [Field K] [LinearOrder K] [IsStrictOrderedRing K] [FloorRing K] {A : Arith K} {u : K}

/-- the predicted covariance -/
def predR (A : Arith K) (q p : K) : K := A.rnd (p + q)

/-- the gain -/
def gainR (A : Arith K) (q r p : K) : K := A.rnd (predR A q p * A.rnd (1 / A.rnd (predR A q p + r)))

theorem kalmanStep_rd (h : Rounding A.rnd u) (h1 : A.rnd 1 = 1) {q r x p z : K} (hx : A.rnd x = x) (hp : A.rnd p = p)
    (hs : A.rnd (predR A q p + r) ≠ 0) :
    kalmanStep (Rd.fin A q) (Rd.fin A r) (Rd.fin A x, Rd.fin A p) (Rd.fin A z) =
      .ok (Rd.fin A (A.rnd (x + A.rnd (gainR A q r p * A.rnd (z - x)))),
        Rd.fin A (A.rnd (A.rnd (1 - gainR A q r p) * predR A q p))) := by
  have hP : A.rnd (predR A q p) = predR A q p := h.idem _
  have hg : A.rnd (gainR A q r p) = gainR A q r p := h.idem _
  have hs' : (Rd.fin A (A.rnd (predR A q p + r)) ==. Rd.fin A 0) = false := by
    show decide (_ = _) = false
    simpa using hs
  unfold kalmanStep inv1
  simp only [Rd.lit_fin, Rat.cast_one, Rat.cast_zero, h1, h.zero, Rd.mul_fin, Rd.add_fin, Rd.sub_fin, one_mul, mul_one, hx, hp]
  have e : A.rnd (p + q) = predR A q p := rfl
  simp only [e, hP, hs', Bool.false_eq_true, if_false, bind, Except.bind, Rd.div_fin A hs, Rd.mul_fin]
  have e2 : A.rnd (predR A q p * A.rnd (1 / A.rnd (predR A q p + r))) = gainR A q r p := rfl
  simp only [e2, hg, Rd.add_fin, Rd.sub_fin, Rd.mul_fin, mul_one]

/-- the gain lies in `[0, 1]` and, up to rounding, is not less than the exact one -/
theorem gainR_mem (h : Rounding A.rnd u) (h1u : A.rnd (1 + u) = 1) {q r p : K} (hq : 0 ≤ q) (hr : 0 < r) (hp : 0 ≤ p) :
    0 ≤ predR A q p ∧ 0 < A.rnd (predR A q p + r) ∧ 0 ≤ gainR A q r p ∧ gainR A q r p ≤ 1 ∧
      1 - gainR A q r p ≤ (r + 3 * u * predR A q p) / (predR A q p + r) := by
  have h0 := h.nonneg
  have hsm := h.small
  have hP : 0 ≤ predR A q p := by have := h.mono (show 0 ≤ p + q by linarith); rwa [h.zero] at this
  have hPf : A.rnd (predR A q p) = predR A q p := h.idem _
  unfold gainR
  generalize predR A q p = P at *
  have hS : 0 < A.rnd (P + r) := h.pos (by linarith)
  have hi0 : 0 < 1 / A.rnd (P + r) := by positivity
  have hi := h.pos hi0
  have hm : 0 ≤ P * A.rnd (1 / A.rnd (P + r)) := mul_nonneg hP hi.le
  have hg0 : 0 ≤ A.rnd (P * A.rnd (1 / A.rnd (P + r))) := by have := h.mono hm; rwa [h.zero] at this
  refine ⟨hP, hS, hg0, ?_, ?_⟩
  · have k1 := h.le (1 / A.rnd (P + r))
    rw [abs_of_pos hi, abs_of_pos hi0] at k1
    have k2 : P ≤ A.rnd (P + r) := by have := h.mono (show P ≤ P + r by linarith); rwa [hPf] at this
    have k3 : P * A.rnd (1 / A.rnd (P + r)) ≤ 1 + u := by
      calc P * A.rnd (1 / A.rnd (P + r)) ≤ A.rnd (P + r) * A.rnd (1 / A.rnd (P + r)) := mul_le_mul_of_nonneg_right k2 hi.le
        _ ≤ A.rnd (P + r) * ((1 + u) * (1 / A.rnd (P + r))) := mul_le_mul_of_nonneg_left k1 hS.le
        _ = 1 + u := by field_simp
    have := h.mono k3
    rwa [h1u] at this
  · have hpr : 0 < P + r := by linarith
    have k1 := h.ge (1 / A.rnd (P + r))
    rw [abs_of_pos hi, abs_of_pos hi0] at k1
    have k2 := h.le (P + r)
    rw [abs_of_pos hS, abs_of_pos hpr] at k2
    have k3 := h.ge (P * A.rnd (1 / A.rnd (P + r)))
    rw [abs_of_nonneg hg0, abs_of_nonneg hm] at k3
    have k4 : (1 - u) * (1 / ((1 + u) * (P + r))) ≤ A.rnd (1 / A.rnd (P + r)) :=
      le_trans (mul_le_mul_of_nonneg_left (one_div_le_one_div_of_le hS k2) (by linarith)) k1
    have k5 : (1 - u) * (P * ((1 - u) * (1 / ((1 + u) * (P + r))))) ≤ A.rnd (P * A.rnd (1 / A.rnd (P + r))) :=
      le_trans (mul_le_mul_of_nonneg_left (mul_le_mul_of_nonneg_left k4 hP) (by linarith)) k3
    have k6 : (1 - 3 * u) * (P / (P + r)) ≤ (1 - u) * (P * ((1 - u) * (1 / ((1 + u) * (P + r))))) := by
      have e : (1 - u) * (P * ((1 - u) * (1 / ((1 + u) * (P + r))))) = (1 - u) ^ 2 / (1 + u) * (P / (P + r)) := by
        have : (1 + u) ≠ 0 := by positivity
        field_simp
      rw [e]
      refine mul_le_mul_of_nonneg_right ?_ (by positivity)
      rw [le_div_iff₀ (by linarith)]
      nlinarith [sq_nonneg u]
    have e : (r + 3 * u * P) / (P + r) = 1 - (1 - 3 * u) * (P / (P + r)) := by field_simp; ring
    rw [e]
    linarith

/-- one step: the new estimate lies between the old estimate and the measurement, up to rounding of the sum -/
theorem kalman_move (h : Rounding A.rnd u) {x z g : K} (hx : A.rnd x = x) (hg0 : 0 ≤ g) (hg1 : g ≤ 1) :
    (x ≤ z → x ≤ A.rnd (x + A.rnd (g * A.rnd (z - x))) ∧ A.rnd (x + A.rnd (g * A.rnd (z - x))) ≤ A.rnd (x + A.rnd (z - x))) ∧
    (z ≤ x → A.rnd (x + A.rnd (g * A.rnd (z - x))) ≤ x ∧ A.rnd (x + A.rnd (z - x)) ≤ A.rnd (x + A.rnd (g * A.rnd (z - x)))) := by
  constructor
  · intro hz
    have e0 : 0 ≤ A.rnd (z - x) := by have := h.mono (show 0 ≤ z - x by linarith); rwa [h.zero] at this
    have e1 : 0 ≤ A.rnd (g * A.rnd (z - x)) := by have := h.mono (mul_nonneg hg0 e0); rwa [h.zero] at this
    have e2 : A.rnd (g * A.rnd (z - x)) ≤ A.rnd (z - x) := by
      have := h.mono (show g * A.rnd (z - x) ≤ A.rnd (z - x) by nlinarith)
      rwa [h.idem] at this
    refine ⟨?_, h.mono (by linarith)⟩
    have := h.mono (show x ≤ x + A.rnd (g * A.rnd (z - x)) by linarith)
    rwa [hx] at this
  · intro hz
    have e0 : A.rnd (z - x) ≤ 0 := by have := h.mono (show z - x ≤ 0 by linarith); rwa [h.zero] at this
    have e1 : A.rnd (g * A.rnd (z - x)) ≤ 0 := by
      have := h.mono (mul_nonpos_of_nonneg_of_nonpos hg0 e0); rwa [h.zero] at this
    have e2 : A.rnd (z - x) ≤ A.rnd (g * A.rnd (z - x)) := by
      have := h.mono (show A.rnd (z - x) ≤ g * A.rnd (z - x) by nlinarith)
      rwa [h.idem] at this
    refine ⟨?_, h.mono (by linarith)⟩
    have := h.mono (show x + A.rnd (g * A.rnd (z - x)) ≤ x by linarith)
    rwa [hx] at this

/-- `x + (z - x)` computed with rounding is close to `z` -/
theorem kalman_jump (h : Rounding A.rnd u) {x z M : K} (hx : |x| ≤ (1 + 4 * u) * M) (hz : |z| ≤ M) :
    |A.rnd (x + A.rnd (z - x)) - z| ≤ 4 * u * M := by
  have h0 := h.nonneg
  have hs := h.small
  have hM : 0 ≤ M := le_trans (abs_nonneg _) hz
  have e1 := h.err (z - x)
  have e2 := h.err (x + A.rnd (z - x))
  have e3 : |z - x| ≤ (17 / 8) * M := by
    have := abs_sub z x
    have : (1 + 4 * u) * M ≤ 9 / 8 * M := mul_le_mul_of_nonneg_right (by linarith) hM
    linarith
  have e4 : u * |z - x| ≤ u * (17 / 8 * M) := mul_le_mul_of_nonneg_left e3 h0
  have e5 : |x + A.rnd (z - x) - z| ≤ u * (17 / 8 * M) := by
    have e : x + A.rnd (z - x) - z = A.rnd (z - x) - (z - x) := by ring
    rw [e]; linarith
  have e6 : |x + A.rnd (z - x)| ≤ M + u * (17 / 8 * M) := by
    have := abs_add_le (x + A.rnd (z - x) - z) z
    rw [sub_add_cancel] at this
    linarith
  have e7 : u * |x + A.rnd (z - x)| ≤ u * (M + u * (17 / 8 * M)) := mul_le_mul_of_nonneg_left e6 h0
  have e8 : u * (u * (17 / 8 * M)) ≤ u * (1 / 32 * (17 / 8 * M)) :=
    mul_le_mul_of_nonneg_left (mul_le_mul_of_nonneg_right hs (by positivity)) h0
  have e9 := abs_add_le (A.rnd (x + A.rnd (z - x)) - (x + A.rnd (z - x))) (x + A.rnd (z - x) - z)
  have e10 : A.rnd (x + A.rnd (z - x)) - (x + A.rnd (z - x)) + (x + A.rnd (z - x) - z) = A.rnd (x + A.rnd (z - x)) - z := by ring
  rw [e10] at e9
  have e11 : 0 ≤ u * M := mul_nonneg h0 hM
  rw [mul_add] at e7
  linarith

/-- **C216** In rounded arithmetic, with non-negative prior covariance and process noise and positive measurement noise, `kalman_filter`
returns one estimate per measurement.  Every covariance is non-negative.  Estimate `i` lies in every interval `[lo, hi]` containing the
initial state and the measurements `0 … i`, widened by `4 u max(|lo|, |hi|)` — the widening does not grow with the number of samples. -/
theorem C216_kalman_bounded (h : Rounding A.rnd u) (h1 : A.rnd 1 = 1) (h1u : A.rnd (1 + u) = 1) (q r x0 p0 : K) (hq : 0 ≤ q) (hr : 0 < r)
    (hp : 0 ≤ p0) (hx0 : A.rnd x0 = x0) (hp0 : A.rnd p0 = p0) (zs : List K) :
    ∃ st : List (K × K),
      kalmanLoop (Rd.fin A q) (Rd.fin A r) (Rd.fin A x0, Rd.fin A p0) (Rd.fins A zs) =
        .ok (st.map (fun s => (Rd.fin A s.1, Rd.fin A s.2))) ∧
      kalmanFilter (Rd.fins A zs) (Rd.fin A x0) (Rd.fin A p0) (Rd.fin A q) (Rd.fin A r) = .ok (st.map (fun s => Rd.fin A s.1)) ∧
      st.length = zs.length ∧ (∀ s ∈ st, 0 ≤ s.2) ∧
      (∀ i (hi : i < st.length) lo hi' M, lo ≤ x0 → x0 ≤ hi' → (∀ z ∈ zs.take (i + 1), lo ≤ z ∧ z ≤ hi') → |lo| ≤ M → |hi'| ≤ M →
        lo - 4 * u * M ≤ st[i].1 ∧ st[i].1 ≤ hi' + 4 * u * M) := by
  have h0 := h.nonneg
  have main : ∀ (zs : List K) (x p : K), A.rnd x = x → A.rnd p = p → 0 ≤ p → ∃ st : List (K × K),
      kalmanLoop (Rd.fin A q) (Rd.fin A r) (Rd.fin A x, Rd.fin A p) (Rd.fins A zs) =
        .ok (st.map (fun s => (Rd.fin A s.1, Rd.fin A s.2))) ∧
      st.length = zs.length ∧ (∀ s ∈ st, 0 ≤ s.2) ∧
      (∀ i (hi : i < st.length) lo hi' M, lo - 4 * u * M ≤ x → x ≤ hi' + 4 * u * M → (∀ z ∈ zs.take (i + 1), lo ≤ z ∧ z ≤ hi') →
        |lo| ≤ M → |hi'| ≤ M → lo - 4 * u * M ≤ st[i].1 ∧ st[i].1 ≤ hi' + 4 * u * M) := by
    intro zs
    induction zs with
    | nil => intro x p _ _ _; exact ⟨[], rfl, rfl, by simp, by simp⟩
    | cons z t ih =>
      intro x p hx hpf hp
      obtain ⟨g1, g2, g3, g4, -⟩ := gainR_mem h h1u hq hr hp
      set x' := A.rnd (x + A.rnd (gainR A q r p * A.rnd (z - x))) with hx'
      set p' := A.rnd (A.rnd (1 - gainR A q r p) * predR A q p) with hp'
      have hp'0 : 0 ≤ p' := by
        have a1 : 0 ≤ A.rnd (1 - gainR A q r p) := by
          have := h.mono (show 0 ≤ 1 - gainR A q r p by linarith); rwa [h.zero] at this
        have := h.mono (mul_nonneg a1 g1); rwa [h.zero] at this
      obtain ⟨st, k1, k2, k3, k4⟩ := ih x' p' (h.idem _) (h.idem _) hp'0
      refine ⟨(x', p') :: st, ?_, by simp [k2], ?_, ?_⟩
      · simp only [Rd.fins, List.map_cons, kalmanLoop]
        rw [kalmanStep_rd h h1 hx hpf g2.ne']
        simp only [bind, Except.bind]
        rw [show List.map (Rd.fin A) t = Rd.fins A t from rfl, k1]
      · intro s hs
        rcases List.mem_cons.mp hs with rfl | hs
        · exact hp'0
        · exact k3 s hs
      · intro i hi lo hi' M hlo hhi hz hM1 hM2
        have hz0 : lo ≤ z ∧ z ≤ hi' := hz z (by simp)
        have hM : 0 ≤ M := le_trans (abs_nonneg _) hM1
        have huM : 0 ≤ u * M := mul_nonneg h0 hM
        have b1 := abs_le.mp hM1
        have b2 := abs_le.mp hM2
        have hzM : |z| ≤ M := abs_le.mpr ⟨by linarith, by linarith⟩
        have hxM : |x| ≤ (1 + 4 * u) * M := abs_le.mpr ⟨by linarith, by linarith⟩
        have hj := abs_le.mp (kalman_jump h hxM hzM)
        obtain ⟨m1, m2⟩ := kalman_move (z := z) h hx g3 g4
        have hx1 : lo - 4 * u * M ≤ x' ∧ x' ≤ hi' + 4 * u * M := by
          rcases le_total x z with hle | hle
          · obtain ⟨a1, a2⟩ := m1 hle
            exact ⟨by linarith, by linarith⟩
          · obtain ⟨a1, a2⟩ := m2 hle
            exact ⟨by linarith, by linarith⟩
        cases i with
        | zero => exact hx1
        | succ i =>
          exact k4 i (by simpa using hi) lo hi' M hx1.1 hx1.2 (fun w hw => hz w (by simp [hw])) hM1 hM2
  obtain ⟨st, k1, k2, k3, k4⟩ := main zs x0 p0 hx0 hp0 hp
  refine ⟨st, k1, ?_, k2, k3, ?_⟩
  · unfold kalmanFilter
    rw [k1]
    simp [bind, Except.bind, Function.comp_def]
  · intro i hi lo hi' M hlo hhi hz hM1 hM2
    have huM : 0 ≤ u * M := mul_nonneg h0 (le_trans (abs_nonneg _) hM1)
    exact k4 i hi lo hi' M (by linarith) (by linarith) hz hM1 hM2

/-- **C216** One measurement: the covariance never exceeds the predicted one, and is at most `(1 + u)² (r + 3 u P)` for the predicted
covariance `P` (without rounding: at most `r`). -/
theorem C216_covariance (h : Rounding A.rnd u) (h1 : A.rnd 1 = 1) (h1u : A.rnd (1 + u) = 1) (q r x p z : K) (hq : 0 ≤ q) (hr : 0 < r)
    (hp : 0 ≤ p) (hx : A.rnd x = x) (hpf : A.rnd p = p) :
    ∃ x' p', kalmanStep (Rd.fin A q) (Rd.fin A r) (Rd.fin A x, Rd.fin A p) (Rd.fin A z) = .ok (Rd.fin A x', Rd.fin A p') ∧
      0 ≤ p' ∧ p' ≤ A.rnd (p + q) ∧ p' ≤ (1 + u) ^ 2 * (r + 3 * u * A.rnd (p + q)) ∧
      (x ≤ z → x ≤ x') ∧ (z ≤ x → x' ≤ x) := by
  have h0 := h.nonneg
  obtain ⟨g1, g2, g3, g4, g5⟩ := gainR_mem h h1u hq hr hp
  have hP : A.rnd (predR A q p) = predR A q p := h.idem _
  refine ⟨_, _, kalmanStep_rd h h1 hx hpf g2.ne', ?_⟩
  have e : A.rnd (p + q) = predR A q p := rfl
  rw [e]
  obtain ⟨m1, m2⟩ := kalman_move (z := z) h hx g3 g4
  generalize gainR A q r p = g at *
  generalize predR A q p = P at *
  have hc : 0 ≤ 1 - g := by linarith
  have a1 : 0 ≤ A.rnd (1 - g) := by have := h.mono hc; rwa [h.zero] at this
  have a2 : A.rnd (1 - g) ≤ 1 := by have := h.mono (show 1 - g ≤ 1 by linarith); rwa [h1] at this
  have a3 : 0 ≤ A.rnd (1 - g) * P := mul_nonneg a1 g1
  have a4 : 0 ≤ A.rnd (A.rnd (1 - g) * P) := by have := h.mono a3; rwa [h.zero] at this
  refine ⟨a4, ?_, ?_, fun hz => (m1 hz).1, fun hz => (m2 hz).1⟩
  · have := h.mono (show A.rnd (1 - g) * P ≤ P by nlinarith)
    rwa [hP] at this
  · have b1 := h.le (1 - g)
    rw [abs_of_nonneg a1, abs_of_nonneg hc] at b1
    have b2 := h.le (A.rnd (1 - g) * P)
    rw [abs_of_nonneg a4, abs_of_nonneg a3] at b2
    have hpr : 0 < P + r := by linarith
    have b3 : (1 - g) * P ≤ r + 3 * u * P := by
      have c0 : 0 ≤ r + 3 * u * P := by positivity
      have c1 : (1 - g) * P ≤ (r + 3 * u * P) / (P + r) * P := mul_le_mul_of_nonneg_right g5 g1
      have c2 : (r + 3 * u * P) / (P + r) * P = (r + 3 * u * P) * (P / (P + r)) := by ring
      have c3 : P / (P + r) ≤ 1 := by rw [div_le_one hpr]; linarith
      have c4 : (r + 3 * u * P) * (P / (P + r)) ≤ (r + 3 * u * P) * 1 := mul_le_mul_of_nonneg_left c3 c0
      linarith
    have b4 : A.rnd (1 - g) * P ≤ (1 + u) * (r + 3 * u * P) := by
      have c1 : A.rnd (1 - g) * P ≤ (1 + u) * (1 - g) * P := mul_le_mul_of_nonneg_right b1 g1
      have c2 : (1 + u) * ((1 - g) * P) ≤ (1 + u) * (r + 3 * u * P) := mul_le_mul_of_nonneg_left b3 (by linarith)
      linarith
    calc A.rnd (A.rnd (1 - g) * P) ≤ (1 + u) * (A.rnd (1 - g) * P) := b2
      _ ≤ (1 + u) * ((1 + u) * (r + 3 * u * P)) := mul_le_mul_of_nonneg_left b4 (by linarith)
      _ = (1 + u) ^ 2 * (r + 3 * u * P) := by ring

/-- **C216** A prior covariance so large that the measurement noise is lost in the sum (`P0 + R` rounds to `P0`), without process noise:
the filter jumps to the first measurement and ignores all later ones, while the exact filter averages them (C19). -/
theorem C216_diffuse_prior (h : Rounding A.rnd u) (h1 : A.rnd 1 = 1) (r x0 p0 : K) (hr : 0 < r) (hrf : A.rnd r = r) (hp : 0 < p0) (hx0 : A.rnd x0 = x0)
    (hp0 : A.rnd p0 = p0) (hbig : A.rnd (p0 + r) = p0) (hinv : A.rnd (p0 * A.rnd (1 / p0)) = 1) (z : K) (zs : List K) :
    kalmanFilter (Rd.fins A (z :: zs)) (Rd.fin A x0) (Rd.fin A p0) (Rd.fin A 0) (Rd.fin A r) =
      .ok (Rd.fins A (List.replicate (zs.length + 1) (A.rnd (x0 + A.rnd (z - x0))))) := by
  have hz := h.zero
  have stuck : ∀ (zs : List K) (x : K), A.rnd x = x →
      kalmanLoop (Rd.fin A 0) (Rd.fin A r) (Rd.fin A x, Rd.fin A 0) (Rd.fins A zs) =
        .ok ((List.replicate zs.length x).map (fun s => (Rd.fin A s, Rd.fin A 0))) := by
    intro zs
    induction zs with
    | nil => intro x _; rfl
    | cons z t ih =>
      intro x hx
      have e1 : predR A 0 0 = 0 := by rw [predR, add_zero, hz]
      have e2 : gainR A 0 r 0 = 0 := by rw [gainR, e1, zero_mul, hz]
      simp only [Rd.fins, List.map_cons, kalmanLoop]
      rw [kalmanStep_rd h h1 hx hz (by rw [e1, zero_add, hrf]; exact hr.ne')]
      simp only [bind, Except.bind, e1, e2, zero_mul, mul_zero, hz, add_zero, hx]
      rw [show List.map (Rd.fin A) t = Rd.fins A t from rfl, ih x hx]
      simp [List.replicate_succ]
  have e1 : predR A 0 p0 = p0 := by rw [predR, add_zero, hp0]
  have e2 : gainR A 0 r p0 = 1 := by rw [gainR, e1, hbig, hinv]
  unfold kalmanFilter
  simp only [Rd.fins, List.map_cons, kalmanLoop]
  rw [kalmanStep_rd h h1 hx0 hp0 (by rw [e1, hbig]; exact hp.ne')]
  simp only [bind, Except.bind, e2, one_mul, sub_self, hz, zero_mul, h.idem]
  rw [show List.map (Rd.fin A) zs = Rd.fins A zs from rfl, stuck zs _ (h.idem _)]
  simp [List.replicate_succ]

/-- **C216** in binary64: with prior covariance `2⁵⁴ ≈ 1.8e16`, measurement noise 1, no process noise and initial state 0, `kalman_filter`
returns the first measurement for ever. -/
theorem C216_diffuse_prior_binary64 (z : ℚ) (hz : rnd53 z = z) (zs : List ℚ) :
    kalmanFilter (Rd.fins bin64 (z :: zs)) (Rd.fin bin64 0) (Rd.fin bin64 (2 ^ 54)) (Rd.fin bin64 0) (Rd.fin bin64 1) =
      .ok (Rd.fins bin64 (List.replicate (zs.length + 1) z)) := by
  have h := C216_diffuse_prior (A := bin64) (u := 1 / 2 ^ 53) rnd53_rounding (by decide +kernel) 1 0 (2 ^ 54) (by norm_num) (by decide +kernel)
    (by norm_num) (by decide +kernel) (by decide +kernel) (by decide +kernel) (by decide +kernel) z zs
  rw [h]
  have : bin64.rnd (0 + bin64.rnd (z - 0)) = z := by
    show rnd53 (0 + rnd53 (z - 0)) = z
    rw [sub_zero, zero_add, hz, hz]
  rw [this]

/-- binary64 meets the hypotheses of C216 -/
example : Rounding bin64.rnd (1 / 2 ^ 53) ∧ bin64.rnd 1 = 1 ∧ bin64.rnd (1 + 1 / 2 ^ 53) = 1 :=
  ⟨rnd53_rounding, by decide +kernel, by decide +kernel⟩

end Proadv.Props
