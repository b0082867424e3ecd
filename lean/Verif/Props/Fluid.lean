import Verif.Model.Fluid
import Verif.Lemmas.Descriptive
import Verif.Spec.Stats
import Verif.Spec.Cov
import Verif.Lemmas.Lists
import Mathlib.Tactic.LinearCombination

/-!
# C24–C26: turbulence statistics
-/

set_option linter.unusedSectionVars false

namespace Proadv.Props

open Proadv Signal Fl Descriptive

section
variable {K : Type} [Field K] [LinearOrder K] [FloorRing K] [IsStrictOrderedRing K]

theorem fluctuation_fins (u : List K) (h : u ≠ []) :
    fluctuation (u.map fin : List (Fl K)) = .ok ((u.map (fun x => x - Spec.avg u)).map fin) := by
  unfold fluctuation
  rw [show (u.map fin : List (Fl K)) = fins u from rfl, meanOf_fins u h]
  simp [bind, Except.bind, fins]

theorem meanSq_fins (u : List K) (h : u ≠ []) :
    meanOf (((u.map (fun x => x - Spec.avg u)).map fin : List (Fl K)).map (fun x => x ^. 2)) = .ok (fin (Spec.var u)) := by
  have : (((u.map (fun x => x - Spec.avg u)).map fin : List (Fl K)).map (fun x => x ^. 2)) =
      fins (u.map (fun x => (x - Spec.avg u) ^ 2)) := by simp [fins]
  rw [this, meanOf_fins _ (by simpa using h)]
  rfl

theorem meanProd_fins (u v : List K) (h : u ≠ []) (hl : u.length = v.length) :
    (do let p ← bcast (· *. ·) ((u.map (fun x => x - Spec.avg u)).map fin : List (Fl K))
          ((v.map (fun x => x - Spec.avg v)).map fin : List (Fl K))
        meanOf p) = .ok (fin (Spec.cov u v)) := by
  unfold bcast
  rw [if_pos (by simpa using hl)]
  simp only [bind, Except.bind]
  have : List.zipWith (· *. ·) ((u.map (fun x => x - Spec.avg u)).map fin : List (Fl K))
      ((v.map (fun x => x - Spec.avg v)).map fin : List (Fl K)) =
      fins (List.zipWith (fun x y => (x - Spec.avg u) * (y - Spec.avg v)) u v) := by
    simp [fins, List.zipWith_map, List.map_zipWith]
  rw [this, meanOf_fins]
  · rfl
  · intro h0
    have := congrArg List.length h0
    simp only [List.length_zipWith, List.length_nil, hl, Nat.min_self] at this
    rw [List.length_eq_zero_iff.mp (hl.trans this)] at h
    exact h rfl

/-- **C24** the value of `kinetic_turbulent_energy`: half the sum of the population variances; hence it is never
negative. -/
theorem C24_kinetic_value (u v w : List K) (hu : u ≠ []) (hv : v ≠ []) (hw : w ≠ []) :
    kineticTurbulentEnergy (u.map fin : List (Fl K)) (v.map fin) (w.map fin) =
        .ok (fin ((Spec.var u + Spec.var v + Spec.var w) / 2)) ∧
      0 ≤ (Spec.var u + Spec.var v + Spec.var w) / 2 := by
  constructor
  · unfold kineticTurbulentEnergy
    rw [fluctuation_fins u hu, fluctuation_fins v hv, fluctuation_fins w hw]
    simp only [bind, Except.bind]
    rw [meanSq_fins u hu, meanSq_fins v hv, meanSq_fins w hw]
    simp only [padd_fin, lit_eq, pmul_fin]
    congr 2
    push_cast; ring
  · have := Spec.var_nonneg u; have := Spec.var_nonneg v; have := Spec.var_nonneg w
    positivity

theorem var_shift (c : K) (xs : List K) (h : xs ≠ []) : Spec.var (xs.map (fun x => x + c)) = Spec.var xs := by
  have := Spec.cmoment_affine 2 1 c h
  simp only [one_mul, one_pow] at this
  exact this

/-- **C24** offsets do not change the kinetic energy. -/
theorem C24_kinetic_offset (u v w : List K) (hu : u ≠ []) (hv : v ≠ []) (hw : w ≠ []) (a b c : K) :
    kineticTurbulentEnergy ((u.map (fun x => x + a)).map fin : List (Fl K)) ((v.map (fun x => x + b)).map fin)
        ((w.map (fun x => x + c)).map fin) =
      kineticTurbulentEnergy (u.map fin : List (Fl K)) (v.map fin) (w.map fin) := by
  rw [(C24_kinetic_value _ _ _ (by simpa using hu) (by simpa using hv) (by simpa using hw)).1,
    (C24_kinetic_value u v w hu hv hw).1, var_shift a u hu, var_shift b v hv, var_shift c w hw]

/-- **C24** it vanishes exactly for constant components. -/
theorem C24_kinetic_zero (u v w : List K) (hu : u ≠ []) (hv : v ≠ []) (hw : w ≠ []) :
    kineticTurbulentEnergy (u.map fin : List (Fl K)) (v.map fin) (w.map fin) = .ok (fin 0) ↔
      (∃ c, ∀ x ∈ u, x = c) ∧ (∃ c, ∀ x ∈ v, x = c) ∧ (∃ c, ∀ x ∈ w, x = c) := by
  rw [(C24_kinetic_value u v w hu hv hw).1]
  have h0 := Spec.var_nonneg u; have h1 := Spec.var_nonneg v; have h2 := Spec.var_nonneg w
  have key : ∀ xs : List K, xs ≠ [] → (Spec.var xs = 0 ↔ ∃ c, ∀ x ∈ xs, x = c) := fun xs h => by
    rw [Spec.var_eq_zero]
    constructor
    · intro h'
      obtain ⟨y, hy⟩ := List.exists_mem_of_ne_nil xs h
      exact ⟨y, fun x hx => h' x hx y hy⟩
    · rintro ⟨c, hc⟩ x hx y hy
      rw [hc x hx, hc y hy]
  rw [← key u hu, ← key v hv, ← key w hw]
  constructor
  · intro h
    have : (Spec.var u + Spec.var v + Spec.var w) / 2 = 0 := by injection h with h; injection h
    refine ⟨?_, ?_, ?_⟩ <;> linarith
  · rintro ⟨e1, e2, e3⟩
    rw [e1, e2, e3]; simp

/-- **C25** the value of `reynolds_stresses`: population variances and covariances. -/
theorem C25_stresses_value (u v w : List K) (hu : u ≠ []) (huv : u.length = v.length) (huw : u.length = w.length) :
    reynoldsStresses (u.map fin : List (Fl K)) (v.map fin) (w.map fin) =
      .ok ⟨fin (Spec.var u), fin (Spec.var v), fin (Spec.var w), fin (Spec.cov u v), fin (Spec.cov u w),
        fin (Spec.cov v w)⟩ := by
  have hv : v ≠ [] := by intro h; rw [h] at huv; exact hu (List.length_eq_zero_iff.mp huv)
  have hw : w ≠ [] := by intro h; rw [h] at huw; exact hu (List.length_eq_zero_iff.mp huw)
  have e1 := meanProd_fins u v hu huv
  have e2 := meanProd_fins u w hu huw
  have e3 := meanProd_fins v w hv (huv.symm.trans huw)
  simp only [bind, Except.bind] at e1 e2 e3
  unfold reynoldsStresses
  rw [fluctuation_fins u hu, fluctuation_fins v hv, fluctuation_fins w hw]
  simp only [bind, Except.bind]
  rw [meanSq_fins u hu, meanSq_fins v hv, meanSq_fins w hw]
  simp only
  split at e1
  · cases e1
  · split at e2
    · cases e2
    · split at e3
      · cases e3
      · simp only [*]

/-- **C24** the kinetic energy is half the trace of the stress tensor. -/
theorem C24_kinetic_trace (u v w : List K) (hu : u ≠ []) (huv : u.length = v.length) (huw : u.length = w.length) :
    ∃ s : Stresses (Fl K), ∃ a b c : K, reynoldsStresses (u.map fin : List (Fl K)) (v.map fin) (w.map fin) = .ok s ∧
      s.uu = fin a ∧ s.vv = fin b ∧ s.ww = fin c ∧
      kineticTurbulentEnergy (u.map fin : List (Fl K)) (v.map fin) (w.map fin) = .ok (fin ((a + b + c) / 2)) := by
  have hv : v ≠ [] := by intro h; rw [h] at huv; exact hu (List.length_eq_zero_iff.mp huv)
  have hw : w ≠ [] := by intro h; rw [h] at huw; exact hu (List.length_eq_zero_iff.mp huw)
  exact ⟨_, _, _, _, C25_stresses_value u v w hu huv huw, rfl, rfl, rfl, (C24_kinetic_value u v w hu hv hw).1⟩

private theorem quad_nonneg (a b c : K) (p q r : K) : ∀ (u v w : List K), u.length = v.length → u.length = w.length →
    0 ≤ a ^ 2 * (u.map (fun x => (x - p) ^ 2)).sum + b ^ 2 * (v.map (fun x => (x - q) ^ 2)).sum +
      c ^ 2 * (w.map (fun x => (x - r) ^ 2)).sum + 2 * a * b * (List.zipWith (fun x y => (x - p) * (y - q)) u v).sum +
      2 * a * c * (List.zipWith (fun x y => (x - p) * (y - r)) u w).sum +
      2 * b * c * (List.zipWith (fun x y => (x - q) * (y - r)) v w).sum
  | [], [], [], _, _ => by simp
  | x :: u, y :: v, z :: w, h1, h2 => by
    have ih := quad_nonneg a b c p q r u v w (by simpa using h1) (by simpa using h2)
    simp only [List.map_cons, List.zipWith_cons_cons, List.sum_cons]
    have := sq_nonneg (a * (x - p) + b * (y - q) + c * (z - r))
    nlinarith [this, ih]

private theorem cauchy (P Q R : K) (h : ∀ a b : K, 0 ≤ a ^ 2 * P + b ^ 2 * Q + 2 * a * b * R) : R ^ 2 ≤ P * Q := by
  have hP : 0 ≤ P := by have := h 1 0; nlinarith
  have hQ : 0 ≤ Q := by have := h 0 1; nlinarith
  rcases hQ.lt_or_eq with hQ' | hQ'
  · have := h Q (-R)
    have h2 : 0 ≤ Q * (P * Q - R ^ 2) := by nlinarith
    have := nonneg_of_mul_nonneg_right h2 hQ'
    linarith
  · rcases hP.lt_or_eq with hP' | hP'
    · have := h (-R) P
      have h2 : 0 ≤ P * (P * Q - R ^ 2) := by nlinarith
      have := nonneg_of_mul_nonneg_right h2 hP'
      linarith
    · have h1 := h 1 1
      have h2 := h 1 (-1)
      rw [← hP', ← hQ'] at h1 h2
      have : R = 0 := by linarith
      rw [this, ← hP']; simp

theorem cov_comm (u v : List K) : Spec.cov u v = Spec.cov v u := by
  unfold Spec.cov
  rw [List.zipWith_comm]
  congr 2
  funext x y; ring

theorem cov_shift (a b : K) (u v : List K) (hu : u ≠ []) (hv : v ≠ []) :
    Spec.cov (u.map (fun x => x + a)) (v.map (fun x => x + b)) = Spec.cov u v := by
  have e : ∀ (c : K) (l : List K), l ≠ [] → Spec.avg (l.map (fun x => x + c)) = Spec.avg l + c := fun c l h => by
    have := Spec.avg_affine 1 c h
    simpa using this
  unfold Spec.cov
  rw [e a u hu, e b v hv, List.zipWith_map]
  simp

/-- **C25** realizability: the stress tensor is positive semidefinite in every direction. -/
theorem C25_stresses_psd (u v w : List K) (hu : u ≠ []) (huv : u.length = v.length) (huw : u.length = w.length) :
    ∃ uu vv ww uv uw vw : K,
      reynoldsStresses (u.map fin : List (Fl K)) (v.map fin) (w.map fin) =
        .ok ⟨fin uu, fin vv, fin ww, fin uv, fin uw, fin vw⟩ ∧
      (∀ a b c : K, 0 ≤ a ^ 2 * uu + b ^ 2 * vv + c ^ 2 * ww + 2 * a * b * uv + 2 * a * c * uw + 2 * b * c * vw) ∧
      uv ^ 2 ≤ uu * vv ∧ uw ^ 2 ≤ uu * ww ∧ vw ^ 2 ≤ vv * ww := by
  refine ⟨_, _, _, _, _, _, C25_stresses_value u v w hu huv huw, ?_⟩
  have hpsd : ∀ a b c : K, 0 ≤ a ^ 2 * Spec.var u + b ^ 2 * Spec.var v + c ^ 2 * Spec.var w + 2 * a * b * Spec.cov u v +
      2 * a * c * Spec.cov u w + 2 * b * c * Spec.cov v w := by
    intro a b c
    have h := quad_nonneg a b c (Spec.avg u) (Spec.avg v) (Spec.avg w) u v w huv huw
    have hn := Spec.length_pos' hu
    have hvw : v.length = w.length := huv.symm.trans huw
    simp only [Spec.var, Spec.cmoment, Spec.cov]
    unfold Spec.avg at *
    simp only [List.length_map, List.length_zipWith, ← huv, ← huw, Nat.min_self] at *
    have := div_nonneg h hn.le
    refine le_of_le_of_eq this ?_
    ring
  refine ⟨hpsd, ?_, ?_, ?_⟩
  · exact cauchy _ _ _ (fun a b => by have := hpsd a b 0; nlinarith [this])
  · exact cauchy _ _ _ (fun a c => by have := hpsd a 0 c; nlinarith [this])
  · exact cauchy _ _ _ (fun b c => by have := hpsd 0 b c; nlinarith [this])

/-- **C25** offsets do not change any component. -/
theorem C25_stresses_offset (u v w : List K) (hu : u ≠ []) (huv : u.length = v.length) (huw : u.length = w.length)
    (a b c : K) :
    reynoldsStresses ((u.map (fun x => x + a)).map fin : List (Fl K)) ((v.map (fun x => x + b)).map fin)
        ((w.map (fun x => x + c)).map fin) =
      reynoldsStresses (u.map fin : List (Fl K)) (v.map fin) (w.map fin) := by
  have hv : v ≠ [] := by intro h; rw [h] at huv; exact hu (List.length_eq_zero_iff.mp huv)
  have hw : w ≠ [] := by intro h; rw [h] at huw; exact hu (List.length_eq_zero_iff.mp huw)
  rw [C25_stresses_value _ _ _ (by simpa using hu) (by simpa using huv) (by simpa using huw),
    C25_stresses_value u v w hu huv huw, var_shift a u hu, var_shift b v hv, var_shift c w hw, cov_shift a b u v hu hv,
    cov_shift a c u w hu hw, cov_shift b c v w hv hw]

/-- **C25** exchanging two inputs exchanges the corresponding outputs. -/
theorem C25_stresses_swap (u v w : List K) (hu : u ≠ []) (huv : u.length = v.length) (huw : u.length = w.length) :
    ∃ s : Stresses (Fl K), reynoldsStresses (u.map fin : List (Fl K)) (v.map fin) (w.map fin) = .ok s ∧
      reynoldsStresses (v.map fin : List (Fl K)) (u.map fin) (w.map fin) = .ok ⟨s.vv, s.uu, s.ww, s.uv, s.vw, s.uw⟩ ∧
      reynoldsStresses (u.map fin : List (Fl K)) (w.map fin) (v.map fin) = .ok ⟨s.uu, s.ww, s.vv, s.uw, s.uv, s.vw⟩ := by
  have hv : v ≠ [] := by intro h; rw [h] at huv; exact hu (List.length_eq_zero_iff.mp huv)
  refine ⟨_, C25_stresses_value u v w hu huv huw, ?_, ?_⟩
  · rw [C25_stresses_value v u w hv huv.symm (huv.symm.trans huw), cov_comm v u]
  · rw [C25_stresses_value u w v hu huw huv, cov_comm w v]

/-- **C25** rejected inputs: an empty component, or components whose lengths cannot be broadcast. -/
theorem C25_errors {F : Type} [PyNum F] (u v w : List F) :
    ((u = [] ∨ v = [] ∨ w = []) → ∃ e, reynoldsStresses u v w = .error e ∧ kineticTurbulentEnergy u v w = .error e) ∧
    (u ≠ [] → v ≠ [] → w ≠ [] → u.length ≠ v.length → u.length ≠ 1 → v.length ≠ 1 →
      reynoldsStresses u v w = .error .valueError) := by
  have hok : ∀ l : List F, l ≠ [] → fluctuation l = .ok (l.map (fun x => x -. npMean l)) := fun l h => by
    unfold fluctuation; rw [meanOf_eq l h]; rfl
  have hno : fluctuation ([] : List F) = .error .typeError := rfl
  constructor
  · intro h
    refine ⟨.typeError, ?_⟩
    unfold reynoldsStresses kineticTurbulentEnergy
    by_cases h1 : u = []
    · subst h1; exact ⟨rfl, rfl⟩
    rw [hok u h1]
    by_cases h2 : v = []
    · subst h2; exact ⟨rfl, rfl⟩
    rw [hok v h2]
    obtain rfl : w = [] := by tauto
    exact ⟨rfl, rfl⟩
  · intro hu hv hw hl h1 h2
    unfold reynoldsStresses
    rw [hok u hu, hok v hv, hok w hw]
    simp only [bind, Except.bind]
    rw [meanOf_eq _ (by simpa using hu), meanOf_eq _ (by simpa using hv), meanOf_eq _ (by simpa using hw)]
    simp only
    have : bcast (· *. ·) (u.map (fun x => x -. npMean u)) (v.map (fun x => x -. npMean v)) = .error .valueError := by
      unfold bcast
      rw [if_neg (by simpa using hl)]
      match u, v with
      | [], _ => exact absurd rfl hu
      | [_], _ => exact absurd rfl h1
      | _ :: _ :: _, [] => exact absurd rfl hv
      | _ :: _ :: _, [_] => exact absurd rfl h2
      | _ :: _ :: _, _ :: _ :: _ => rfl
    rw [this]

/-- **C26** turning the probe in the horizontal plane does not change the kinetic energy (`c`, `s` cosine and sine of the
angle). -/
theorem C26_kinetic_rotation (u v w : List K) (hu : u ≠ []) (huv : u.length = v.length) (hw : w ≠ []) (c s : K)
    (hcs : c ^ 2 + s ^ 2 = 1) :
    kineticTurbulentEnergy ((List.zipWith (fun x y => c * x - s * y) u v).map fin : List (Fl K))
        ((List.zipWith (fun x y => s * x + c * y) u v).map fin) (w.map fin) =
      kineticTurbulentEnergy (u.map fin : List (Fl K)) (v.map fin) (w.map fin) := by
  have hv : v ≠ [] := by intro h; rw [h] at huv; exact hu (List.length_eq_zero_iff.mp huv)
  have hz : ∀ f : K → K → K, List.zipWith f u v ≠ [] := by
    intro f h
    have := congrArg List.length h
    simp only [List.length_zipWith, List.length_nil, ← huv, Nat.min_self] at this
    exact hu (List.length_eq_zero_iff.mp this)
  have hn : (u.length : K) ≠ 0 := Spec.length_ne hu
  rw [(C24_kinetic_value _ _ _ (hz _) (hz _) hw).1, (C24_kinetic_value u v w hu hv hw).1]
  have hsum : ∀ (a b : K) (u v : List K), u.length = v.length →
      (List.zipWith (fun x y => a * x + b * y) u v).sum = a * u.sum + b * v.sum := by
    intro a b u
    induction u with
    | nil => intro v h; cases v <;> simp_all
    | cons x u ih =>
      intro v h
      cases v with
      | nil => simp at h
      | cons y v =>
        simp only [List.zipWith_cons_cons, List.sum_cons, ih v (by simpa using h)]; ring
  have havg : ∀ a b : K, Spec.avg (List.zipWith (fun x y => a * x + b * y) u v) = a * Spec.avg u + b * Spec.avg v := by
    intro a b
    unfold Spec.avg
    rw [hsum a b u v huv, List.length_zipWith, ← huv, Nat.min_self]; ring
  have e1 : List.zipWith (fun x y => c * x - s * y) u v = List.zipWith (fun x y => c * x + (-s) * y) u v := by
    congr 1; funext x y; ring
  rw [e1]
  have hsq : ∀ (p q : K) (u v : List K), u.length = v.length →
      ((List.zipWith (fun x y => c * x + (-s) * y) u v).map (fun z => (z - (c * p + (-s) * q)) ^ 2)).sum +
      ((List.zipWith (fun x y => s * x + c * y) u v).map (fun z => (z - (s * p + c * q)) ^ 2)).sum =
      (u.map (fun x => (x - p) ^ 2)).sum + (v.map (fun x => (x - q) ^ 2)).sum := by
    intro p q u
    induction u with
    | nil => intro v h; cases v <;> simp_all
    | cons x u ih =>
      intro v h
      cases v with
      | nil => simp at h
      | cons y v =>
        have := ih v (by simpa using h)
        simp only [List.zipWith_cons_cons, List.map_cons, List.sum_cons]
        linear_combination this + ((x - p) ^ 2 + (y - q) ^ 2) * hcs
  have key : Spec.var (List.zipWith (fun x y => c * x + (-s) * y) u v) + Spec.var (List.zipWith (fun x y => s * x + c * y) u v) =
      Spec.var u + Spec.var v := by
    have h := hsq (Spec.avg u) (Spec.avg v) u v huv
    unfold Spec.var Spec.cmoment
    rw [havg, havg]
    conv_lhs => unfold Spec.avg
    conv_rhs => unfold Spec.avg
    simp only [List.length_map, List.length_zipWith, ← huv, Nat.min_self]
    rw [← add_div, ← add_div]
    congr 1
    simpa only [Spec.avg, ← huv] using h
  rw [key]

end

/-! non-vacuous cases -/
example : kineticTurbulentEnergy ([1, 2, 3].map fin : List (Fl ℚ)) ([0, 0, 3].map fin) ([5, 5, 5].map fin) =
    .ok (fin (4 / 3)) := by decide +kernel
example : reynoldsStresses ([1, 2, 3].map fin : List (Fl ℚ)) ([0, 0, 3].map fin) ([5, 5, 5].map fin) =
    .ok ⟨fin (2 / 3), fin 2, fin 0, fin 1, fin 0, fin 0⟩ := by decide +kernel
example : kineticTurbulentEnergy ((List.zipWith (fun x y => 3 / 5 * x - 4 / 5 * y) [1, 2, 3] [0, 0, 3]).map fin : List (Fl ℚ))
    ((List.zipWith (fun x y => 4 / 5 * x + 3 / 5 * y) [1, 2, 3] [0, 0, 3]).map fin) ([5, 5, 5].map fin) =
    .ok (fin (4 / 3)) := by decide +kernel

end Proadv.Props
