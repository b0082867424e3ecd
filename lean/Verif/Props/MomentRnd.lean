import Verif.Lemmas.RoundMonoReal
import Verif.Props.RoundSpread
import Verif.Model.Moment
import Mathlib.Analysis.Real.Sqrt

/-!
# Property C245: `skewness` and `kurtosis` in rounded arithmetic
-/

set_option linter.unusedSectionVars false

namespace Proadv.Props

open Proadv Descriptive Spread Moment

/-! ## Relative errors -/

/-- `a` is `b` up to the factor `e` -/
private def Rel (e a b : ℝ) : Prop := |a - b| ≤ (e - 1) * |b|

private theorem Rel.mono {e f a b : ℝ} (h : Rel e a b) (hef : e ≤ f) : Rel f a b :=
  h.trans (mul_le_mul_of_nonneg_right (by linarith) (abs_nonneg _))

private theorem Rel.abs_le {e a b : ℝ} (h : Rel e a b) : |a| ≤ e * |b| := by
  have := abs_add_le (a - b) b
  rw [sub_add_cancel] at this
  unfold Rel at h
  linarith

private theorem Rel.mul {e f a b c d : ℝ} (h : Rel e a b) (k : Rel f c d) (he : 1 ≤ e) : Rel (e * f) (a * c) (b * d) := by
  have h1 := h.abs_le
  unfold Rel at *
  have e1 : a * c - b * d = a * (c - d) + (a - b) * d := by ring
  rw [e1, abs_mul b d]
  refine (abs_add_le _ _).trans ?_
  rw [abs_mul, abs_mul]
  have h2 : |a| * |c - d| ≤ (e * |b|) * ((f - 1) * |d|) :=
    mul_le_mul h1 k (abs_nonneg _) (mul_nonneg (by linarith) (abs_nonneg _))
  have h3 : |a - b| * |d| ≤ ((e - 1) * |b|) * |d| := mul_le_mul_of_nonneg_right h (abs_nonneg _)
  linarith

private theorem Rel.pow {e a b : ℝ} (h : Rel e a b) (he : 1 ≤ e) : ∀ k : ℕ, Rel (e ^ k) (a ^ k) (b ^ k)
  | 0 => by simp [Rel]
  | k + 1 => by
    rw [pow_succ, pow_succ, pow_succ]
    exact (Rel.pow h he k).mul h (one_le_pow₀ he)

private theorem Rel.rnd {A : Arith ℝ} {u e a b : ℝ} (h : Rel e a b) (hA : Std A u) : Rel (e * (1 + u)) (A.rnd a) b := by
  refine (hA.rnd_near h).trans (le_of_eq ?_)
  ring

private theorem Rel.refl (a : ℝ) : Rel 1 a a := by simp [Rel]

private theorem Rel.sqrt {e a b : ℝ} (h : Rel e a b) (ha : 0 ≤ a) (hb : 0 < b) : Rel e (√a) (√b) := by
  have hp := Real.sqrt_pos.mpr hb
  have h0 := Real.sqrt_nonneg a
  unfold Rel at *
  rw [abs_of_pos hb] at h
  rw [abs_of_pos hp]
  have h1 : a - b = (√a - √b) * (√a + √b) := by
    have h2 := Real.sq_sqrt ha; have h3 := Real.sq_sqrt hb.le; nlinarith
  rw [h1, abs_mul, abs_of_nonneg (add_nonneg h0 hp.le)] at h
  have h4 : |√a - √b| * √b ≤ ((e - 1) * √b) * √b := by
    have h5 : |√a - √b| * √b ≤ |√a - √b| * (√a + √b) := mul_le_mul_of_nonneg_left (by linarith) (abs_nonneg _)
    have h6 : (e - 1) * b = ((e - 1) * √b) * √b := by rw [mul_assoc, Real.mul_self_sqrt hb.le]
    linarith
  exact le_of_mul_le_mul_right h4 hp

/-- a quotient of inexact numbers -/
private theorem quot_near {A : Arith ℝ} {u G N N0 T T0 R : ℝ} (h : Std A u) (hu : u ≤ G) (hG : G ≤ 1 / 16) (hT0 : 0 < T0)
    (hN : |N - N0| ≤ G * R) (hT : |T - T0| ≤ 6 * G * T0) (hR : |N0| ≤ R) :
    0 < T ∧ |A.rnd (N / T) - N0 / T0| ≤ 13 * G * (R / T0) := by
  have hu0 := h.nonneg
  have hG0 : 0 ≤ G := hu0.trans hu
  have hR0 : 0 ≤ R := (abs_nonneg _).trans hR
  have hTl : 5 / 8 * T0 ≤ T := by
    have := (_root_.abs_le.mp hT).1
    nlinarith
  have hTp : 0 < T := by linarith
  refine ⟨hTp, ?_⟩
  have e : N / T - N0 / T0 = (N - N0) / T - N0 * (T - T0) / (T * T0) := by field_simp; ring
  have h1 : |(N - N0) / T| ≤ 8 / 5 * (G * (R / T0)) := by
    rw [abs_div, abs_of_pos hTp, div_le_iff₀ hTp]
    have : 8 / 5 * (G * (R / T0)) * (5 / 8 * T0) = G * R := by field_simp
    have h2 : 8 / 5 * (G * (R / T0)) * (5 / 8 * T0) ≤ 8 / 5 * (G * (R / T0)) * T :=
      mul_le_mul_of_nonneg_left hTl (by positivity)
    linarith
  have h2 : |N0 * (T - T0) / (T * T0)| ≤ 48 / 5 * (G * (R / T0)) := by
    have hTT : 0 < T * T0 := mul_pos hTp hT0
    rw [abs_div, abs_of_pos hTT, div_le_iff₀ hTT, abs_mul]
    have h3 : |N0| * |T - T0| ≤ R * (6 * G * T0) := mul_le_mul hR hT (abs_nonneg _) hR0
    have h4 : 48 / 5 * (G * (R / T0)) * (T * T0) = 48 / 5 * (G * R) * T := by field_simp
    have h5 : 48 / 5 * (G * R) * (5 / 8 * T0) ≤ 48 / 5 * (G * R) * T := mul_le_mul_of_nonneg_left hTl (by positivity)
    rw [h4]
    linarith
  have h3 : |N / T - N0 / T0| ≤ 56 / 5 * (G * (R / T0)) := by
    rw [e]
    refine (abs_sub _ _).trans ?_
    linarith
  have h4 := h.rnd_near h3
  have h5 : |N0 / T0| ≤ R / T0 := by
    rw [abs_div, abs_of_pos hT0]; exact div_le_div_of_nonneg_right hR hT0.le
  have h6 : u * |N0 / T0| ≤ G * (R / T0) := mul_le_mul hu h5 (abs_nonneg _) hG0
  have hX : 0 ≤ G * (R / T0) := by positivity
  have h7 : (1 + u) * (56 / 5 * (G * (R / T0))) ≤ 17 / 16 * (56 / 5 * (G * (R / T0))) :=
    mul_le_mul_of_nonneg_right (by linarith) (by positivity)
  linarith

/-! ## Sums of powers about the computed mean -/

/-- mean of the powers about a point -/
private noncomputable def pavg (k : ℕ) (m : ℝ) (xs : List ℝ) : ℝ := Spec.avg (xs.map (fun x => (x - m) ^ k))

/-- mean of the absolute powers about a point -/
private noncomputable def aavg (k : ℕ) (m : ℝ) (xs : List ℝ) : ℝ := Spec.avg (xs.map (fun x => |x - m| ^ k))

private theorem sum_rel {A : Arith ℝ} {u e : ℝ} (h : Std A u) (f g : ℝ → ℝ) (xs : List ℝ)
    (hfg : ∀ x, Rel e (f x) (g x)) :
    |A.sum (xs.map f) - (xs.map g).sum| ≤ ((1 + u) ^ xs.length * e - 1) * (xs.map (fun x => |g x|)).sum := by
  have hu := h.nonneg
  have h1 := h.sum (xs.map f)
  rw [List.length_map, List.map_map] at h1
  have h2 : (xs.map ((fun x => |x|) ∘ f)).sum ≤ e * (xs.map (fun x => |g x|)).sum := by
    induction xs with
    | nil => simp
    | cons x t ih =>
      simp only [List.map_cons, List.sum_cons, Function.comp]
      have := (hfg x).abs_le
      have h3 := ih (by
        have := h.sum (t.map f)
        rwa [List.length_map, List.map_map] at this)
      simp only [Function.comp_def] at h3 ⊢
      linarith
  have h3 : |(xs.map f).sum - (xs.map g).sum| ≤ (e - 1) * (xs.map (fun x => |g x|)).sum := by
    clear h1 h2
    induction xs with
    | nil => simp
    | cons x t ih =>
      simp only [List.map_cons, List.sum_cons]
      rw [add_sub_add_comm]
      have h4 : |f x - g x| ≤ (e - 1) * |g x| := hfg x
      refine (abs_add_le _ _).trans ?_
      linarith
  have hP : 1 ≤ (1 + u) ^ xs.length := one_le_pow₀ (by linarith)
  have h5 := mul_le_mul_of_nonneg_left h2 (sub_nonneg.mpr hP)
  refine (abs_sub_le _ ((xs.map f).sum) _).trans ?_
  linarith

private theorem term_rel {A : Arith ℝ} {u : ℝ} (h : Std A u) (m : ℝ) (k : ℕ) (x : ℝ) :
    Rel ((1 + u) ^ (k + 1)) (A.rnd (A.rnd (x - m) ^ k)) ((x - m) ^ k) := by
  have h1 : Rel (1 + u) (A.rnd (x - m)) (x - m) := by
    have := (Rel.refl (x - m)).rnd h
    rwa [one_mul] at this
  rw [pow_succ]
  exact (h1.pow (by linarith [h.nonneg]) k).rnd h

private theorem psum_near {A : Arith ℝ} {u : ℝ} (h : Std A u) (m : ℝ) (k : ℕ) (xs : List ℝ) (hne : xs ≠ []) :
    |A.sum (xs.map (fun x => A.rnd (A.rnd (x - m) ^ k))) - xs.length * pavg k m xs| ≤
      ((1 + u) ^ (xs.length + (k + 1)) - 1) * (xs.length * aavg k m xs) := by
  have hpos : (xs.length : ℝ) ≠ 0 := by exact_mod_cast (List.length_pos_of_ne_nil hne).ne'
  have h1 := sum_rel h _ (fun x => (x - m) ^ k) xs (term_rel h m k)
  rw [← pow_add] at h1
  have e1 : (xs.length : ℝ) * pavg k m xs = (xs.map (fun x => (x - m) ^ k)).sum := by
    unfold pavg Spec.avg
    rw [List.length_map]
    field_simp
  have e2 : (xs.length : ℝ) * aavg k m xs = (xs.map (fun x => |(x - m) ^ k|)).sum := by
    unfold aavg Spec.avg
    rw [List.length_map]
    simp only [abs_pow]
    field_simp
  rw [e1, e2]
  exact h1

private theorem even_avg (k : ℕ) (hk : Even k) (m : ℝ) (xs : List ℝ) : aavg k m xs = pavg k m xs := by
  unfold aavg pavg
  congr 1
  exact List.map_congr_left fun x _ => by rw [hk.pow_abs]

private theorem avg_nonneg' (f : ℝ → ℝ) (hf : ∀ x, 0 ≤ f x) (xs : List ℝ) : 0 ≤ Spec.avg (xs.map f) := by
  unfold Spec.avg
  apply div_nonneg _ (Nat.cast_nonneg _)
  apply List.sum_nonneg
  intro y hy
  obtain ⟨x, -, rfl⟩ := List.mem_map.mp hy
  exact hf x

private theorem abs_pavg_le (k : ℕ) (m : ℝ) (xs : List ℝ) : |pavg k m xs| ≤ aavg k m xs := by
  unfold pavg aavg Spec.avg
  rw [abs_div, Nat.abs_cast, List.length_map, List.length_map]
  apply div_le_div_of_nonneg_right _ (Nat.cast_nonneg _)
  induction xs with
  | nil => simp
  | cons x t ih =>
    simp only [List.map_cons, List.sum_cons]
    refine (abs_add_le _ _).trans ?_
    rw [abs_pow]
    linarith

/-! ## Evaluation of the model -/

/-- computed mean -/
private noncomputable def cmean (A : Arith ℝ) (xs : List ℝ) : ℝ := A.rnd (A.sum xs / xs.length)

/-- computed variance -/
private noncomputable def cvar (A : Arith ℝ) (xs : List ℝ) : ℝ :=
  A.rnd (A.sum (xs.map (fun x => A.rnd (A.rnd (x - cmean A xs) ^ 2))) / xs.length)

private theorem npow_rd (A : Arith ℝ) (a : ℝ) (n : ℕ) : (Rd.fin A a) ^. n = Rd.fin A (A.rnd (a ^ n)) := by
  show Rd.round A (Fl.npow (Fl.fin a) n) = _
  have : Fl.npow (Fl.fin a) n = Fl.fin (a ^ n) := Fl.pnpow_fin a n
  rw [this]; rfl

private theorem npMean_m (A : Arith ℝ) (xs : List ℝ) (hne : xs ≠ []) (hn : A.rnd (xs.length : ℝ) = xs.length) :
    npMean (Rd.fins A xs) = Rd.fin A (cmean A xs) := by
  have h0 : (xs.length : ℝ) ≠ 0 := by exact_mod_cast (List.length_pos_of_ne_nil hne).ne'
  unfold npMean
  rw [Rd.sum_fins, List.length_map, Rd.ofNat_fin, hn, Rd.div_fin A h0]
  rfl

private theorem cvar_nonneg (A : Arith ℝ) (hs : KeepsSign A) (xs : List ℝ) : 0 ≤ cvar A xs := by
  apply hs.rnd
  apply div_nonneg _ (Nat.cast_nonneg _)
  apply hs.sum
  intro q hq
  obtain ⟨x, -, rfl⟩ := List.mem_map.mp hq
  exact hs.rnd _ (sq_nonneg _)

private theorem npStd_m (A : Arith ℝ) (hs : KeepsSign A) (xs : List ℝ) (hne : xs ≠ []) (hn : A.rnd (xs.length : ℝ) = xs.length) :
    npStd (Rd.fins A xs) = Rd.fin A (A.rnd (√(cvar A xs))) := by
  have hpos : (xs.length : ℝ) ≠ 0 := by exact_mod_cast (List.length_pos_of_ne_nil hne).ne'
  have hv : npVar (Rd.fins A xs) = Rd.fin A (cvar A xs) := by
    unfold npVar
    simp only
    rw [npMean_m A xs hne hn, List.map_map]
    have e : (xs.map ((fun x => (x -. Rd.fin A (cmean A xs)) *. (x -. Rd.fin A (cmean A xs))) ∘ Rd.fin A)) =
        Rd.fins A (xs.map (fun x => A.rnd (A.rnd (x - cmean A xs) ^ 2))) := by
      rw [Rd.fins, List.map_map]
      apply List.map_congr_left
      intro x _
      show (Rd.fin A x -. _) *. _ = _
      rw [Rd.sub_fin, Rd.mul_fin, ← sq]; rfl
    rw [e, Rd.sum_fins, List.length_map, Rd.ofNat_fin, hn, Rd.div_fin A hpos]
    rfl
  unfold npStd
  rw [← Rd.sqrt_fin A (cvar_nonneg A hs xs), ← hv]

private theorem powers_m (A : Arith ℝ) (k : ℕ) (m : ℝ) (xs : List ℝ) :
    (Rd.fins A xs).map (fun x => (x -. Rd.fin A m) ^. k) = Rd.fins A (xs.map (fun x => A.rnd (A.rnd (x - m) ^ k))) := by
  rw [Rd.fins, List.map_map, Rd.fins, List.map_map]
  apply List.map_congr_left
  intro x _
  show (Rd.fin A x -. _) ^. k = _
  rw [Rd.sub_fin, npow_rd]; rfl

private theorem skewness_m (A : Arith ℝ) (hs : KeepsSign A) (b : Bool) (xs : List ℝ) (hne : xs ≠ [])
    (hn : A.rnd (xs.length : ℝ) = xs.length) :
    skewness ⟨1, b, Rd.fins A xs⟩ = .ok (Rd.fin A (A.sum (xs.map (fun x => A.rnd (A.rnd (x - cmean A xs) ^ 3)))) /.
      Rd.fin A (A.rnd (xs.length * A.rnd (A.rnd (√(cvar A xs)) ^ 3)))) := by
  have hne' : Rd.fins A xs ≠ [] := by simpa using hne
  unfold skewness firstMean
  rw [if_neg (by simp)]
  simp only [bind, Except.bind]
  rw [std_eq b _ hne', npStd_m A hs xs hne hn]
  simp only
  rw [meanOf_eq _ hne', npMean_m A xs hne hn]
  simp only
  rw [powers_m, Rd.sum_fins, npow_rd, List.length_map, Rd.ofNat_fin, hn, Rd.mul_fin]

private theorem kurtosis_m (A : Arith ℝ) (hs : KeepsSign A) (b : Bool) (xs : List ℝ) (hne : xs ≠ [])
    (hn : A.rnd (xs.length : ℝ) = xs.length) :
    kurtosis ⟨1, b, Rd.fins A xs⟩ = .ok (Rd.fin A (A.rnd (A.sum (xs.map (fun x => A.rnd (A.rnd (x - cmean A xs) ^ 4))) / xs.length)) /.
      Rd.fin A (A.rnd (A.rnd (√(cvar A xs)) ^ 4))) := by
  have hne' : Rd.fins A xs ≠ [] := by simpa using hne
  have hpos : (xs.length : ℝ) ≠ 0 := by exact_mod_cast (List.length_pos_of_ne_nil hne).ne'
  unfold kurtosis firstMean
  rw [if_neg (by simp)]
  simp only [bind, Except.bind]
  rw [std_eq b _ hne', npStd_m A hs xs hne hn]
  simp only
  rw [meanOf_eq _ hne', npMean_m A xs hne hn]
  simp only
  rw [powers_m, meanOf_eq _ (by simpa using hne)]
  simp only
  unfold npMean
  rw [Rd.sum_fins, npow_rd, List.length_map, List.length_map, Rd.ofNat_fin, hn, Rd.div_fin A hpos]

/-! ## About the computed mean -/

private theorem pow_small {G : ℝ} (h0 : 0 ≤ G) (h : G ≤ 1 / 16) : (1 + G) ^ 5 - 1 ≤ 6 * G := by
  have h1 : G ^ 2 ≤ G / 16 := by nlinarith
  have h2 : G ^ 3 ≤ G / 256 := by nlinarith
  have h3 : G ^ 4 ≤ G / 4096 := by nlinarith
  have h4 : G ^ 5 ≤ G / 65536 := by nlinarith
  nlinarith

private theorem std_rel {A : Arith ℝ} {u : ℝ} (h : Std A u) (hs : KeepsSign A) (xs : List ℝ) (hne : xs ≠ [])
    (hp : 0 < pavg 2 (cmean A xs) xs) :
    Rel ((1 + u) ^ (xs.length + 5)) (A.rnd (√(cvar A xs))) (√(pavg 2 (cmean A xs) xs)) := by
  have hpos : (0 : ℝ) < xs.length := by exact_mod_cast List.length_pos_of_ne_nil hne
  have h1 := psum_near h (cmean A xs) 2 xs hne
  rw [even_avg 2 (by decide)] at h1
  have h2 : Rel ((1 + u) ^ (xs.length + 3)) (A.sum (xs.map (fun x => A.rnd (A.rnd (x - cmean A xs) ^ 2))) / xs.length)
      (pavg 2 (cmean A xs) xs) := by
    unfold Rel
    have e : A.sum (xs.map (fun x => A.rnd (A.rnd (x - cmean A xs) ^ 2))) / xs.length - pavg 2 (cmean A xs) xs =
        (A.sum (xs.map (fun x => A.rnd (A.rnd (x - cmean A xs) ^ 2))) - xs.length * pavg 2 (cmean A xs) xs) / xs.length := by
      field_simp
    rw [e, abs_div, abs_of_pos hpos, div_le_iff₀ hpos, abs_of_pos hp]
    linarith
  have h3 := ((h2.rnd h).sqrt (cvar_nonneg A hs xs) hp).rnd h
  rw [mul_assoc, ← sq, ← pow_add] at h3
  exact h3

private theorem skew_core {A : Arith ℝ} {u G : ℝ} (h : Std A u) (hs : KeepsSign A) (b : Bool) (xs : List ℝ) (hne : xs ≠ [])
    (hn : A.rnd (xs.length : ℝ) = xs.length) (hG : G = (1 + u) ^ (xs.length + 8) - 1) (hG1 : G ≤ 1 / 16)
    (hp : 0 < pavg 2 (cmean A xs) xs) :
    ∃ s, skewness ⟨1, b, Rd.fins A xs⟩ = .ok (Rd.fin A s) ∧
      |s - pavg 3 (cmean A xs) xs / √(pavg 2 (cmean A xs) xs) ^ 3| ≤
        13 * G * (aavg 3 (cmean A xs) xs / √(pavg 2 (cmean A xs) xs) ^ 3) := by
  have hu := h.nonneg
  have h1u : 1 ≤ 1 + u := by linarith
  have hpos : (0 : ℝ) < xs.length := by exact_mod_cast List.length_pos_of_ne_nil hne
  have hP : (1 + u) ^ (xs.length + 8) = 1 + G := by rw [hG]; ring
  have hle : ∀ j, j ≤ xs.length + 8 → (1 + u) ^ j ≤ 1 + G := fun j hj => by
    rw [← hP]; exact pow_le_pow_right₀ h1u hj
  have hG0 : 0 ≤ G := by
    have := hle 0 (by omega)
    rw [pow_zero] at this
    linarith
  have huG : u ≤ G := by
    have := hle 1 (by omega)
    rw [pow_one] at this
    linarith
  set m := cmean A xs with hm
  set s := √(pavg 2 m xs) with hsd
  have hs0 : 0 < s := Real.sqrt_pos.mpr hp
  have hT : Rel ((1 + G) ^ 5) (A.rnd (xs.length * A.rnd (A.rnd (√(cvar A xs)) ^ 3))) (xs.length * s ^ 3) := by
    have k1 := ((std_rel h hs xs hne hp).pow (one_le_pow₀ h1u) 3).rnd h
    have k2 := ((Rel.refl (xs.length : ℝ)).mul k1 le_rfl).rnd h
    refine k2.mono ?_
    have a1 : ((1 + u) ^ (xs.length + 5)) ^ 3 ≤ (1 + G) ^ 3 := pow_le_pow_left₀ (by positivity) (hle _ (by omega)) 3
    have a2 : 1 + u ≤ 1 + G := by linarith
    calc 1 * (((1 + u) ^ (xs.length + 5)) ^ 3 * (1 + u)) * (1 + u) ≤ (1 + G) ^ 3 * (1 + G) * (1 + G) := by
          rw [one_mul]
          exact mul_le_mul (mul_le_mul a1 a2 (by linarith) (by positivity)) a2 (by linarith) (by positivity)
      _ = (1 + G) ^ 5 := by ring
  have hT0 : 0 < (xs.length : ℝ) * s ^ 3 := by positivity
  have hT' : |A.rnd (xs.length * A.rnd (A.rnd (√(cvar A xs)) ^ 3)) - xs.length * s ^ 3| ≤ 6 * G * (xs.length * s ^ 3) := by
    have := hT
    unfold Rel at this
    rw [abs_of_pos hT0] at this
    exact this.trans (mul_le_mul_of_nonneg_right (pow_small hG0 hG1) hT0.le)
  have hA0 : 0 ≤ aavg 3 m xs := avg_nonneg' _ (fun x => by positivity) xs
  have hN : |A.sum (xs.map (fun x => A.rnd (A.rnd (x - m) ^ 3))) - xs.length * pavg 3 m xs| ≤ G * (xs.length * aavg 3 m xs) := by
    refine (psum_near h m 3 xs hne).trans ?_
    have := hle (xs.length + (3 + 1)) (by omega)
    exact mul_le_mul_of_nonneg_right (by linarith) (by positivity)
  have hR : |xs.length * pavg 3 m xs| ≤ xs.length * aavg 3 m xs := by
    rw [abs_mul, abs_of_pos hpos]
    exact mul_le_mul_of_nonneg_left (abs_pavg_le 3 m xs) hpos.le
  obtain ⟨q1, q2⟩ := quot_near h huG hG1 hT0 hN hT' hR
  refine ⟨_, by rw [skewness_m A hs b xs hne hn, Rd.div_fin A q1.ne'], ?_⟩
  rw [mul_div_mul_left _ _ hpos.ne', mul_div_mul_left _ _ hpos.ne'] at q2
  exact q2

private theorem kurt_core {A : Arith ℝ} {u G : ℝ} (h : Std A u) (hs : KeepsSign A) (b : Bool) (xs : List ℝ) (hne : xs ≠ [])
    (hn : A.rnd (xs.length : ℝ) = xs.length) (hG : G = (1 + u) ^ (xs.length + 8) - 1) (hG1 : G ≤ 1 / 16)
    (hp : 0 < pavg 2 (cmean A xs) xs) :
    ∃ k, kurtosis ⟨1, b, Rd.fins A xs⟩ = .ok (Rd.fin A k) ∧
      |k - pavg 4 (cmean A xs) xs / pavg 2 (cmean A xs) xs ^ 2| ≤
        13 * G * (pavg 4 (cmean A xs) xs / pavg 2 (cmean A xs) xs ^ 2) := by
  have hu := h.nonneg
  have h1u : 1 ≤ 1 + u := by linarith
  have hpos : (0 : ℝ) < xs.length := by exact_mod_cast List.length_pos_of_ne_nil hne
  have hP : (1 + u) ^ (xs.length + 8) = 1 + G := by rw [hG]; ring
  have hle : ∀ j, j ≤ xs.length + 8 → (1 + u) ^ j ≤ 1 + G := fun j hj => by
    rw [← hP]; exact pow_le_pow_right₀ h1u hj
  have hG0 : 0 ≤ G := by
    have := hle 0 (by omega)
    rw [pow_zero] at this
    linarith
  have huG : u ≤ G := by
    have := hle 1 (by omega)
    rw [pow_one] at this
    linarith
  set m := cmean A xs with hm
  set s := √(pavg 2 m xs) with hsd
  have hs0 : 0 < s := Real.sqrt_pos.mpr hp
  have hs4 : s ^ 4 = pavg 2 m xs ^ 2 := by
    rw [show (4 : ℕ) = 2 * 2 from rfl, pow_mul, hsd, Real.sq_sqrt hp.le]
  have hT : Rel ((1 + G) ^ 5) (A.rnd (A.rnd (√(cvar A xs)) ^ 4)) (s ^ 4) := by
    have k1 := ((std_rel h hs xs hne hp).pow (one_le_pow₀ h1u) 4).rnd h
    refine k1.mono ?_
    have a1 : ((1 + u) ^ (xs.length + 5)) ^ 4 ≤ (1 + G) ^ 4 := pow_le_pow_left₀ (by positivity) (hle _ (by omega)) 4
    calc ((1 + u) ^ (xs.length + 5)) ^ 4 * (1 + u) ≤ (1 + G) ^ 4 * (1 + G) :=
          mul_le_mul a1 (by linarith) (by linarith) (by positivity)
      _ = (1 + G) ^ 5 := by ring
  have hT0 : 0 < s ^ 4 := by positivity
  have hT' : |A.rnd (A.rnd (√(cvar A xs)) ^ 4) - s ^ 4| ≤ 6 * G * s ^ 4 := by
    have := hT
    unfold Rel at this
    rw [abs_of_pos hT0] at this
    exact this.trans (mul_le_mul_of_nonneg_right (pow_small hG0 hG1) hT0.le)
  have hA0 : 0 ≤ pavg 4 m xs := avg_nonneg' _ (fun x => by positivity) xs
  have hN : |A.rnd (A.sum (xs.map (fun x => A.rnd (A.rnd (x - m) ^ 4))) / xs.length) - pavg 4 m xs| ≤ G * pavg 4 m xs := by
    have h1 := psum_near h m 4 xs hne
    rw [even_avg 4 (by decide)] at h1
    have h2 : Rel ((1 + u) ^ (xs.length + 5)) (A.sum (xs.map (fun x => A.rnd (A.rnd (x - m) ^ 4))) / xs.length) (pavg 4 m xs) := by
      unfold Rel
      have e : A.sum (xs.map (fun x => A.rnd (A.rnd (x - m) ^ 4))) / xs.length - pavg 4 m xs =
          (A.sum (xs.map (fun x => A.rnd (A.rnd (x - m) ^ 4))) - xs.length * pavg 4 m xs) / xs.length := by
        field_simp
      rw [e, abs_div, abs_of_pos hpos, div_le_iff₀ hpos, abs_of_nonneg hA0]
      linarith
    have h3 := (h2.rnd h).mono (f := 1 + G) (by rw [← pow_succ]; exact hle _ (by omega))
    unfold Rel at h3
    rw [abs_of_nonneg hA0] at h3
    linarith
  obtain ⟨q1, q2⟩ := quot_near h huG hG1 hT0 hN hT' (le_of_eq (abs_of_nonneg hA0))
  refine ⟨_, by rw [kurtosis_m A hs b xs hne hn, Rd.div_fin A q1.ne'], ?_⟩
  rw [hs4] at q2
  exact q2

/-! ## From the computed to the exact mean -/

private theorem sums_about (a m : ℝ) (l : List ℝ) :
    (l.map (fun x => (x - m) ^ 2)).sum = (l.map (fun x => (x - a) ^ 2)).sum - 2 * (m - a) * (l.sum - l.length * a) + l.length * (m - a) ^ 2 ∧
    (l.map (fun x => (x - m) ^ 3)).sum = (l.map (fun x => (x - a) ^ 3)).sum - 3 * (m - a) * (l.map (fun x => (x - a) ^ 2)).sum +
      3 * (m - a) ^ 2 * (l.sum - l.length * a) - l.length * (m - a) ^ 3 ∧
    (l.map (fun x => (x - m) ^ 4)).sum = (l.map (fun x => (x - a) ^ 4)).sum - 4 * (m - a) * (l.map (fun x => (x - a) ^ 3)).sum +
      6 * (m - a) ^ 2 * (l.map (fun x => (x - a) ^ 2)).sum - 4 * (m - a) ^ 3 * (l.sum - l.length * a) + l.length * (m - a) ^ 4 := by
  induction l with
  | nil => simp
  | cons x t ih =>
    obtain ⟨h1, h2, h3⟩ := ih
    simp only [List.map_cons, List.sum_cons, List.length_cons, h1, h2, h3]
    push_cast
    refine ⟨by ring, by ring, by ring⟩

private theorem pavg_about (xs : List ℝ) (hne : xs ≠ []) (m : ℝ) :
    pavg 2 m xs = Spec.var xs + (m - Spec.avg xs) ^ 2 ∧
    pavg 3 m xs = Spec.cmoment 3 xs - 3 * (m - Spec.avg xs) * Spec.var xs - (m - Spec.avg xs) ^ 3 ∧
    pavg 4 m xs = Spec.cmoment 4 xs - 4 * (m - Spec.avg xs) * Spec.cmoment 3 xs + 6 * (m - Spec.avg xs) ^ 2 * Spec.var xs +
      (m - Spec.avg xs) ^ 4 := by
  have hn : (xs.length : ℝ) ≠ 0 := by exact_mod_cast (List.length_pos_of_ne_nil hne).ne'
  obtain ⟨h1, h2, h3⟩ := sums_about (Spec.avg xs) m xs
  have hz : xs.sum - xs.length * Spec.avg xs = 0 := by unfold Spec.avg; field_simp; ring
  rw [hz] at h1 h2 h3
  have e : ∀ (k : ℕ) (c : ℝ), Spec.avg (xs.map (fun x => (x - c) ^ k)) = (xs.map (fun x => (x - c) ^ k)).sum / xs.length := by
    intro k c
    rw [show ∀ l : List ℝ, Spec.avg l = l.sum / l.length from fun _ => rfl, List.length_map]
  unfold pavg Spec.var Spec.cmoment
  simp only [e]
  rw [h1, h2, h3]
  refine ⟨by field_simp; ring, by field_simp; ring, by field_simp; ring⟩

private theorem cube_add_le {p q : ℝ} (hp : 0 ≤ p) (hq : 0 ≤ q) : (p + q) ^ 3 ≤ 4 * p ^ 3 + 4 * q ^ 3 := by
  nlinarith [mul_nonneg (add_nonneg hp hq) (sq_nonneg (p - q))]

private theorem aavg_about (xs : List ℝ) (hne : xs ≠ []) (a m : ℝ) : aavg 3 m xs ≤ 4 * aavg 3 a xs + 4 * |m - a| ^ 3 := by
  have hn : (0 : ℝ) < xs.length := by exact_mod_cast List.length_pos_of_ne_nil hne
  have key : ∀ l : List ℝ, (l.map (fun x => |x - m| ^ 3)).sum ≤ 4 * (l.map (fun x => |x - a| ^ 3)).sum + l.length * (4 * |m - a| ^ 3) := by
    intro l
    induction l with
    | nil => simp
    | cons x t ih =>
      simp only [List.map_cons, List.sum_cons, List.length_cons]
      have h1 : |x - m| ≤ |x - a| + |m - a| := by
        have := abs_sub_le x a m
        rwa [abs_sub_comm a m] at this
      have h2 := (pow_le_pow_left₀ (abs_nonneg _) h1 3).trans (cube_add_le (abs_nonneg (x - a)) (abs_nonneg (m - a)))
      push_cast
      linarith
  unfold aavg Spec.avg
  rw [List.length_map, List.length_map, div_le_iff₀ hn, add_mul, ← mul_div_assoc, div_mul_cancel₀ _ hn.ne', mul_comm (4 * |m - a| ^ 3)]
  exact key xs

private theorem skew_shift {v δ κ c : ℝ} (hv : 0 < v) (hδ : |δ| ≤ κ * √v) (hκ : κ ≤ 1) :
    |(c - 3 * δ * v - δ ^ 3) / √(v + δ ^ 2) ^ 3 - c / √v ^ 3| ≤ 3 * κ + κ ^ 3 + 2 * κ ^ 2 * |c / √v ^ 3| := by
  have hσ : 0 < √v := Real.sqrt_pos.mpr hv
  set σ := √v with hs
  have hv2 : v = σ ^ 2 := (Real.sq_sqrt hv.le).symm
  obtain ⟨e, he⟩ : ∃ e, δ = e * σ := ⟨δ / σ, by field_simp⟩
  obtain ⟨g, hg⟩ : ∃ g, c = g * σ ^ 3 := ⟨c / σ ^ 3, by field_simp⟩
  have he1 : |e| ≤ κ := by
    rw [he, abs_mul, abs_of_pos hσ] at hδ
    exact le_of_mul_le_mul_right hδ hσ
  have hκ0 : 0 ≤ κ := (abs_nonneg _).trans he1
  have he2 : e ^ 2 ≤ κ ^ 2 := by rw [← sq_abs]; exact pow_le_pow_left₀ (abs_nonneg _) he1 2
  have he3 : e ^ 2 ≤ 1 := he2.trans (by nlinarith)
  have hw : √(v + δ ^ 2) = σ * √(1 + e ^ 2) := by
    rw [hv2, he, show σ ^ 2 + (e * σ) ^ 2 = σ ^ 2 * (1 + e ^ 2) by ring, Real.sqrt_mul (sq_nonneg _), Real.sqrt_sq hσ.le]
  set w := √(1 + e ^ 2) with hwd
  have hw2 : w ^ 2 = 1 + e ^ 2 := Real.sq_sqrt (by positivity)
  have hw0 : 0 < w := Real.sqrt_pos.mpr (by positivity)
  have hw1 : 1 ≤ w := by
    rw [hwd]; exact Real.one_le_sqrt.mpr (by nlinarith [sq_nonneg e])
  have ht1 : 1 ≤ w ^ 3 := one_le_pow₀ hw1
  have ht2 : w ^ 3 ≤ 1 + 2 * e ^ 2 := by
    apply le_of_sq_le_sq _ (by positivity)
    have : (w ^ 3) ^ 2 = (1 + e ^ 2) ^ 3 := by rw [← hw2]; ring
    rw [this]
    have h0 := sq_nonneg e
    nlinarith [mul_nonneg h0 h0, mul_nonneg h0 (mul_nonneg h0 (sub_nonneg.mpr he3))]
  rw [hw, he, hg, hv2]
  have e1 : (g * σ ^ 3 - 3 * (e * σ) * σ ^ 2 - (e * σ) ^ 3) / (σ * w) ^ 3 - g * σ ^ 3 / σ ^ 3 =
      -(3 * e + e ^ 3) / w ^ 3 - g * ((w ^ 3 - 1) / w ^ 3) := by
    field_simp; ring
  have e2 : g * σ ^ 3 / σ ^ 3 = g := by field_simp
  rw [e1, e2]
  have h1 : |-(3 * e + e ^ 3) / w ^ 3| ≤ 3 * κ + κ ^ 3 := by
    rw [abs_div, abs_of_pos (by positivity : 0 < w ^ 3), abs_neg]
    refine (div_le_self (abs_nonneg _) ht1).trans ?_
    refine (abs_add_le _ _).trans ?_
    rw [abs_mul, abs_of_pos (by norm_num : (0 : ℝ) < 3), abs_pow]
    have := pow_le_pow_left₀ (abs_nonneg e) he1 3
    linarith
  have h2 : |g * ((w ^ 3 - 1) / w ^ 3)| ≤ 2 * κ ^ 2 * |g| := by
    rw [abs_mul, mul_comm, abs_of_nonneg (div_nonneg (by linarith) (by positivity))]
    refine mul_le_mul_of_nonneg_right ?_ (abs_nonneg _)
    refine (div_le_self (by linarith) ht1).trans ?_
    linarith
  exact (abs_sub _ _).trans (add_le_add h1 h2)

private theorem kurt_shift {v δ κ c d : ℝ} (hv : 0 < v) (hδ : |δ| ≤ κ * √v) (hd : 0 ≤ d) :
    (d - 4 * δ * c + 6 * δ ^ 2 * v + δ ^ 4) / (v + δ ^ 2) ^ 2 ≤ d / v ^ 2 + (4 * κ * |c / √v ^ 3| + 6 * κ ^ 2 + κ ^ 4) ∧
    |(d - 4 * δ * c + 6 * δ ^ 2 * v + δ ^ 4) / (v + δ ^ 2) ^ 2 - d / v ^ 2| ≤
      (4 * κ * |c / √v ^ 3| + 6 * κ ^ 2 + κ ^ 4) + 2 * κ ^ 2 * (d / v ^ 2) := by
  have hσ : 0 < √v := Real.sqrt_pos.mpr hv
  set σ := √v with hs
  have hv2 : v = σ ^ 2 := (Real.sq_sqrt hv.le).symm
  obtain ⟨e, he⟩ : ∃ e, δ = e * σ := ⟨δ / σ, by field_simp⟩
  obtain ⟨g, hg⟩ : ∃ g, c = g * σ ^ 3 := ⟨c / σ ^ 3, by field_simp⟩
  obtain ⟨β, hβ⟩ : ∃ β, d = β * σ ^ 4 := ⟨d / σ ^ 4, by field_simp⟩
  have hβ0 : 0 ≤ β := by
    rw [hβ] at hd
    exact nonneg_of_mul_nonneg_left hd (by positivity)
  have he1 : |e| ≤ κ := by
    rw [he, abs_mul, abs_of_pos hσ] at hδ
    exact le_of_mul_le_mul_right hδ hσ
  have hκ0 : 0 ≤ κ := (abs_nonneg _).trans he1
  have he2 : e ^ 2 ≤ κ ^ 2 := by rw [← sq_abs]; exact pow_le_pow_left₀ (abs_nonneg _) he1 2
  have he4 : e ^ 4 ≤ κ ^ 4 := by
    have := pow_le_pow_left₀ (sq_nonneg e) he2 2
    nlinarith
  have h0 := sq_nonneg e
  have hw : 1 ≤ (1 + e ^ 2) ^ 2 := one_le_pow₀ (by linarith)
  have hwp : 0 < (1 + e ^ 2) ^ 2 := by positivity
  rw [he, hg, hβ, hv2]
  have e1 : (β * σ ^ 4 - 4 * (e * σ) * (g * σ ^ 3) + 6 * (e * σ) ^ 2 * σ ^ 2 + (e * σ) ^ 4) / (σ ^ 2 + (e * σ) ^ 2) ^ 2 =
      (-(4 * e * g) + 6 * e ^ 2 + e ^ 4) / (1 + e ^ 2) ^ 2 + β / (1 + e ^ 2) ^ 2 := by
    have : σ ^ 2 + (e * σ) ^ 2 = σ ^ 2 * (1 + e ^ 2) := by ring
    rw [this]
    field_simp; ring
  have e2 : g * σ ^ 3 / σ ^ 3 = g := by field_simp
  have e3 : β * σ ^ 4 / (σ ^ 2) ^ 2 = β := by field_simp
  rw [e1, e2, e3]
  have h1 : |(-(4 * e * g) + 6 * e ^ 2 + e ^ 4) / (1 + e ^ 2) ^ 2| ≤ 4 * κ * |g| + 6 * κ ^ 2 + κ ^ 4 := by
    rw [abs_div, abs_of_pos hwp]
    refine (div_le_self (abs_nonneg _) hw).trans ?_
    refine (abs_add_le _ _).trans (add_le_add ((abs_add_le _ _).trans (add_le_add ?_ ?_)) ?_)
    · rw [abs_neg, abs_mul, abs_mul, abs_of_pos (by norm_num : (0 : ℝ) < 4)]
      exact mul_le_mul_of_nonneg_right (by linarith) (abs_nonneg _)
    · rw [abs_of_nonneg (by positivity)]; linarith
    · rw [abs_of_nonneg (by positivity)]; exact he4
  have h2 : β / (1 + e ^ 2) ^ 2 ≤ β := div_le_self hβ0 hw
  have h3 : β - β / (1 + e ^ 2) ^ 2 ≤ 2 * κ ^ 2 * β := by
    have : β - β / (1 + e ^ 2) ^ 2 = β * (((1 + e ^ 2) ^ 2 - 1) / (1 + e ^ 2) ^ 2) := by field_simp
    rw [this, mul_comm]
    refine mul_le_mul_of_nonneg_right ?_ hβ0
    rw [div_le_iff₀ hwp]
    have k0 : 2 * e ^ 2 * (1 + e ^ 2) ^ 2 ≤ 2 * κ ^ 2 * (1 + e ^ 2) ^ 2 := mul_le_mul_of_nonneg_right (by linarith) hwp.le
    nlinarith [mul_nonneg h0 h0, mul_nonneg h0 (mul_nonneg h0 h0)]
  have h4 := abs_le.mp h1
  refine ⟨by linarith [h4.2], ?_⟩
  rw [abs_le]
  constructor
  · linarith [h4.1]
  · have : 0 ≤ 2 * κ ^ 2 * β := by positivity
    linarith [h4.2]

/-! ## Theorems -/

private theorem cmean_near {A : Arith ℝ} {u : ℝ} (h : Std A u) (xs : List ℝ) (hne : xs ≠ [])
    (hn : A.rnd (xs.length : ℝ) = xs.length) :
    |cmean A xs - Spec.avg xs| ≤ ((1 + u) ^ (xs.length + 1) - 1) * Spec.avg (xs.map (fun x => |x|)) := by
  obtain ⟨m', h4, h5⟩ := C142_mean A u h (fun _ => none) xs hne hn
  rw [mean_numItems _ _ (by simpa using hne), npMean_m A xs hne hn] at h4
  have h6 : Rd.fin A (cmean A xs) = Rd.fin A m' := by injection h4 with h4; injection h4
  have h7 : cmean A xs = m' := by
    have : (Fl.fin (cmean A xs) : Fl ℝ) = Fl.fin m' := h6
    injection this
  rw [h7]; exact h5

/-- **C245** `skewness` in rounded arithmetic: with `G = (1+u)^(n+8) - 1` and `κ` the error of the mean in standard deviations, the
error is at most `52 G (ρ + κ³) + 3κ + κ³ + 2κ²|γ|`, where `γ` is the exact skewness and `ρ` the mean of `|z|³`. -/
theorem C245_skewness (A : Arith ℝ) (u : ℝ) (h : Std A u) (hs : KeepsSign A) (b : Bool) (xs : List ℝ) (hne : xs ≠ [])
    (hn : A.rnd (xs.length : ℝ) = xs.length) (hv : 0 < Spec.var xs) (G κ γ ρ : ℝ)
    (hG : G = (1 + u) ^ (xs.length + 8) - 1) (hG1 : G ≤ 1 / 16)
    (hκ : κ = ((1 + u) ^ (xs.length + 1) - 1) * Spec.avg (xs.map (fun x => |x|)) / √(Spec.var xs)) (hκ1 : κ ≤ 1)
    (hγ : γ = Spec.cmoment 3 xs / √(Spec.var xs) ^ 3)
    (hρ : ρ = Spec.avg (xs.map (fun x => |x - Spec.avg xs| ^ 3)) / √(Spec.var xs) ^ 3) :
    ∃ s, skewness ⟨1, b, Rd.fins A xs⟩ = .ok (Rd.fin A s) ∧
      |s - γ| ≤ 52 * G * (ρ + κ ^ 3) + 3 * κ + κ ^ 3 + 2 * κ ^ 2 * |γ| := by
  have hσ : 0 < √(Spec.var xs) := Real.sqrt_pos.mpr hv
  have hδ : |cmean A xs - Spec.avg xs| ≤ κ * √(Spec.var xs) := by
    rw [hκ, div_mul_cancel₀ _ hσ.ne']; exact cmean_near h xs hne hn
  obtain ⟨p2, p3, _⟩ := pavg_about xs hne (cmean A xs)
  have hp : 0 < pavg 2 (cmean A xs) xs := by rw [p2]; positivity
  obtain ⟨s, h1, h2⟩ := skew_core h hs b xs hne hn hG hG1 hp
  refine ⟨s, h1, ?_⟩
  have hG0 : 0 ≤ G := by
    have := one_le_pow₀ (by linarith [h.nonneg] : 1 ≤ 1 + u) (n := xs.length + 8)
    linarith
  have h3 := skew_shift (c := Spec.cmoment 3 xs) hv hδ hκ1
  rw [← p3, ← p2, ← hγ] at h3
  have h4 : aavg 3 (cmean A xs) xs / √(pavg 2 (cmean A xs) xs) ^ 3 ≤ 4 * (ρ + κ ^ 3) := by
    have k1 : √(Spec.var xs) ^ 3 ≤ √(pavg 2 (cmean A xs) xs) ^ 3 := by
      refine pow_le_pow_left₀ hσ.le (Real.sqrt_le_sqrt ?_) 3
      rw [p2]; nlinarith [sq_nonneg (cmean A xs - Spec.avg xs)]
    have k2 := aavg_about xs hne (Spec.avg xs) (cmean A xs)
    have k3 : aavg 3 (Spec.avg xs) xs = ρ * √(Spec.var xs) ^ 3 := by
      rw [hρ, div_mul_cancel₀ _ (by positivity)]; rfl
    have k4 : |cmean A xs - Spec.avg xs| ^ 3 ≤ κ ^ 3 * √(Spec.var xs) ^ 3 := by
      rw [← mul_pow]; exact pow_le_pow_left₀ (abs_nonneg _) hδ 3
    have k5 : 0 ≤ aavg 3 (cmean A xs) xs := avg_nonneg' _ (fun x => by positivity) xs
    have k6 : 0 < √(Spec.var xs) ^ 3 := by positivity
    refine (div_le_div_of_nonneg_left k5 k6 k1).trans ?_
    rw [div_le_iff₀ k6]
    linarith
  have h5 := mul_le_mul_of_nonneg_left h4 (by linarith : 0 ≤ 13 * G)
  have h6 := (abs_sub_le s _ γ).trans (add_le_add h2 h3)
  linarith

/-- **C245** `kurtosis` in rounded arithmetic. -/
theorem C245_kurtosis (A : Arith ℝ) (u : ℝ) (h : Std A u) (hs : KeepsSign A) (b : Bool) (xs : List ℝ) (hne : xs ≠ [])
    (hn : A.rnd (xs.length : ℝ) = xs.length) (hv : 0 < Spec.var xs) (G κ γ β D : ℝ)
    (hG : G = (1 + u) ^ (xs.length + 8) - 1) (hG1 : G ≤ 1 / 16)
    (hκ : κ = ((1 + u) ^ (xs.length + 1) - 1) * Spec.avg (xs.map (fun x => |x|)) / √(Spec.var xs))
    (hγ : γ = Spec.cmoment 3 xs / √(Spec.var xs) ^ 3) (hβ : β = Spec.cmoment 4 xs / Spec.var xs ^ 2)
    (hD : D = 4 * κ * |γ| + 6 * κ ^ 2 + κ ^ 4) :
    ∃ k, kurtosis ⟨1, b, Rd.fins A xs⟩ = .ok (Rd.fin A k) ∧ |k - β| ≤ 13 * G * (β + D) + D + 2 * κ ^ 2 * β := by
  have hσ : 0 < √(Spec.var xs) := Real.sqrt_pos.mpr hv
  have hδ : |cmean A xs - Spec.avg xs| ≤ κ * √(Spec.var xs) := by
    rw [hκ, div_mul_cancel₀ _ hσ.ne']; exact cmean_near h xs hne hn
  obtain ⟨p2, _, p4⟩ := pavg_about xs hne (cmean A xs)
  have hp : 0 < pavg 2 (cmean A xs) xs := by rw [p2]; positivity
  obtain ⟨k, h1, h2⟩ := kurt_core h hs b xs hne hn hG hG1 hp
  refine ⟨k, h1, ?_⟩
  have hG0 : 0 ≤ G := by
    have := one_le_pow₀ (by linarith [h.nonneg] : 1 ≤ 1 + u) (n := xs.length + 8)
    linarith
  have hc4 : 0 ≤ Spec.cmoment 4 xs := avg_nonneg' _ (fun x => by positivity) xs
  obtain ⟨h3, h4⟩ := kurt_shift (c := Spec.cmoment 3 xs) hv hδ hc4
  rw [← p4, ← p2, ← hγ, ← hβ, ← hD] at h3 h4
  have h5 := mul_le_mul_of_nonneg_left h3 (by linarith : 0 ≤ 13 * G)
  have h6 := (abs_sub_le k _ β).trans (add_le_add h2 h4)
  linarith

/-! ## Constant recordings -/

private theorem avg_replicate (n : ℕ) (hn : n ≠ 0) (c : ℝ) : Spec.avg (List.replicate n c) = c := by
  have : (n : ℝ) ≠ 0 := by exact_mod_cast hn
  unfold Spec.avg
  rw [List.sum_replicate, List.length_replicate, nsmul_eq_mul]
  field_simp

private theorem sum_zero {A : Arith ℝ} {u : ℝ} (h : Std A u) (n : ℕ) : A.sum (List.replicate n 0) = 0 := by
  have := h.sum (List.replicate n 0)
  simp only [List.map_replicate, abs_zero, List.sum_replicate, smul_zero, mul_zero, sub_zero] at this
  exact abs_nonpos_iff.mp this

/-- **C245** A constant recording, whose exact skewness and kurtosis are NaN (C10, C11): in rounded arithmetic they are NaN exactly when
the computed mean is the constant; otherwise the skewness is 1 or -1 and the kurtosis 1, up to a relative error of `13 G`. -/
theorem C245_constant (A : Arith ℝ) (u : ℝ) (h : Std A u) (hs : KeepsSign A) (b : Bool) (n : ℕ) (hn0 : n ≠ 0) (c m : ℝ)
    (hn : A.rnd (n : ℝ) = n) (G : ℝ) (hG : G = (1 + u) ^ (n + 8) - 1) (hG1 : G ≤ 1 / 16)
    (hm : mean (fun _ => none) (.seq (numItems (Rd.fins A (List.replicate n c)))) = .ok (.val (Rd.fin A m))) :
    (m = c → skewness ⟨1, b, Rd.fins A (List.replicate n c)⟩ = .ok PyNum.nan ∧
      kurtosis ⟨1, b, Rd.fins A (List.replicate n c)⟩ = .ok PyNum.nan) ∧
    (m ≠ c → ∃ s k, skewness ⟨1, b, Rd.fins A (List.replicate n c)⟩ = .ok (Rd.fin A s) ∧
      kurtosis ⟨1, b, Rd.fins A (List.replicate n c)⟩ = .ok (Rd.fin A k) ∧
      |s - (if m < c then 1 else -1)| ≤ 13 * G ∧ |k - 1| ≤ 13 * G) := by
  have hne : List.replicate n c ≠ [] := by simpa using hn0
  have hl : (List.replicate n c).length = n := List.length_replicate
  have hn' : A.rnd ((List.replicate n c).length : ℝ) = (List.replicate n c).length := by rw [hl]; exact hn
  have hnz : (n : ℝ) ≠ 0 := by exact_mod_cast hn0
  have hmc : cmean A (List.replicate n c) = m := by
    rw [mean_numItems _ _ (by simpa using hn0), npMean_m A _ hne hn'] at hm
    have h6 : Rd.fin A (cmean A (List.replicate n c)) = Rd.fin A m := by injection hm with hm; injection hm
    have : (Fl.fin (cmean A (List.replicate n c)) : Fl ℝ) = Fl.fin m := h6
    injection this
  constructor
  · intro hc
    have z : ∀ k, k ≠ 0 → (List.replicate n c).map (fun x => A.rnd (A.rnd (x - cmean A (List.replicate n c)) ^ k)) = List.replicate n 0 := by
      intro k hk
      rw [hmc, hc, List.map_replicate, sub_self, h.rnd_zero, zero_pow hk, h.rnd_zero]
    have hv : cvar A (List.replicate n c) = 0 := by
      unfold cvar
      rw [z 2 (by norm_num), sum_zero h, zero_div, h.rnd_zero]
    have hd : Rd.fin A 0 /. Rd.fin A 0 = (PyNum.nan : Rd A) := by
      show Rd.round A (Fl.div (Fl.fin 0) (Fl.fin 0)) = _
      simp only [Fl.div, if_true, Fl.infSgn, lt_irrefl, if_false]
      rfl
    constructor
    · rw [skewness_m A hs b _ hne hn', z 3 (by norm_num), sum_zero h, hv, Real.sqrt_zero, h.rnd_zero, zero_pow (by norm_num), h.rnd_zero,
        mul_zero, h.rnd_zero, hd]
    · rw [kurtosis_m A hs b _ hne hn', z 4 (by norm_num), sum_zero h, hv, Real.sqrt_zero, h.rnd_zero, zero_pow (by norm_num), h.rnd_zero,
        zero_div, h.rnd_zero, hd]
  · intro hc
    have hd : c - m ≠ 0 := sub_ne_zero.mpr (Ne.symm hc)
    have ep : ∀ k, pavg k m (List.replicate n c) = (c - m) ^ k := fun k => by
      unfold pavg; rw [List.map_replicate, avg_replicate n hn0]
    have ea : ∀ k, aavg k m (List.replicate n c) = |c - m| ^ k := fun k => by
      unfold aavg; rw [List.map_replicate, avg_replicate n hn0]
    have hp : 0 < pavg 2 (cmean A (List.replicate n c)) (List.replicate n c) := by
      rw [hmc, ep]; positivity
    obtain ⟨s, s1, s2⟩ := skew_core h hs b _ hne hn' (by rw [hl]; exact hG) hG1 hp
    obtain ⟨k, k1, k2⟩ := kurt_core h hs b _ hne hn' (by rw [hl]; exact hG) hG1 hp
    refine ⟨s, k, s1, k1, ?_, ?_⟩
    · rw [hmc, ep, ep, ea, Real.sqrt_sq_eq_abs, div_self (pow_ne_zero 3 (abs_ne_zero.mpr hd)), mul_one] at s2
      have e : (c - m) ^ 3 / |c - m| ^ 3 = if m < c then 1 else -1 := by
        split_ifs with hlt
        · rw [abs_of_pos (by linarith), div_self (pow_ne_zero 3 hd)]
        · rw [abs_of_neg (lt_of_le_of_ne (by linarith) hd)]
          have : (-(c - m)) ^ 3 = -(c - m) ^ 3 := by ring
          rw [this, div_neg, div_self (pow_ne_zero 3 hd)]
      rwa [e] at s2
    · rw [hmc, ep, ep, ← pow_mul, div_self (pow_ne_zero 4 hd), mul_one] at k2
      exact k2

/-! ## Binary64 -/

private theorem rint_cast (q : ℚ) : Fl.rint (q : ℝ) = Fl.rint q := by
  unfold Fl.rint
  simp only [Rat.floor_cast]
  have e : (q : ℝ) - (⌊q⌋ : ℝ) = ((q - ⌊q⌋ : ℚ) : ℝ) := by push_cast; ring
  have e2 : (1 / 2 : ℝ) = ((1 / 2 : ℚ) : ℝ) := by norm_num
  rw [e, e2]
  simp only [Rat.cast_lt]

private theorem log_cast (q : ℚ) : Int.log 2 (q : ℝ) = Int.log 2 q := by
  unfold Int.log
  have e1 : (1 : ℝ) ≤ (q : ℝ) ↔ 1 ≤ q := by exact_mod_cast Iff.rfl
  rw [show ((q : ℝ))⁻¹ = ((q⁻¹ : ℚ) : ℝ) by push_cast; rfl, ← Int.floor_toNat, ← Int.ceil_toNat, Rat.floor_cast, Rat.ceil_cast,
    Int.floor_toNat, Int.ceil_toNat]
  simp only [e1]

/-- rounding a rational -/
theorem rnd53R_cast (q : ℚ) : rnd53R (q : ℝ) = (rnd53 q : ℝ) := by
  unfold rnd53R rnd53
  by_cases h : q = 0
  · simp [h]
  · rw [if_neg h, if_neg (by exact_mod_cast h)]
    have e : |(q : ℝ)| = ((|q| : ℚ) : ℝ) := by push_cast; rfl
    simp only [e, log_cast]
    have e2 : (q : ℝ) / 2 ^ (Int.log 2 |q| - 52) = ((q / 2 ^ (Int.log 2 |q| - 52) : ℚ) : ℝ) := by push_cast; rfl
    rw [e2, rint_cast]
    push_cast
    rfl


/-- **C245**, a finding: in binary64 the recording 0.1, 0.1, 0.1 has skewness exactly -1 and kurtosis exactly 1; it is constant, so that
both are undefined. -/
theorem C245_constant_binary64 (b : Bool) : ∃ c : ℝ, c = rnd53R (1 / 10) ∧
    skewness ⟨1, b, Rd.fins bin64R [c, c, c]⟩ = .ok (Rd.fin bin64R (-1)) ∧
    kurtosis ⟨1, b, Rd.fins bin64R [c, c, c]⟩ = .ok (Rd.fin bin64R 1) := by
  have hc : rnd53R (1 / 10) = ((3602879701896397 / 2 ^ 55 : ℚ) : ℝ) := by
    have : (1 / 10 : ℝ) = ((1 / 10 : ℚ) : ℝ) := by norm_num
    rw [this, rnd53R_cast]
    congr 1
    decide +kernel
  refine ⟨_, hc.symm, ?_⟩
  set c : ℝ := ((3602879701896397 / 2 ^ 55 : ℚ) : ℝ) with hcd
  have hn : bin64R.rnd (([c, c, c] : List ℝ).length : ℝ) = ([c, c, c] : List ℝ).length := rnd53R_nat 3 (by norm_num)
  have s1 : ∀ q : ℚ, bin64R.rnd (q : ℝ) = (rnd53 q : ℝ) := rnd53R_cast
  have s2 : ∀ q : ℚ, bin64R.sum [(q : ℝ), (q : ℝ), (q : ℝ)] = (rnd53 (rnd53 (rnd53 (0 + q) + q) + q) : ℝ) := by
    intro q
    show rnd53R (rnd53R (rnd53R (0 + (q : ℝ)) + q) + q) = _
    rw [show (0 : ℝ) + (q : ℝ) = ((0 + q : ℚ) : ℝ) by push_cast; rfl, rnd53R_cast,
      show (rnd53 (0 + q) : ℝ) + (q : ℝ) = ((rnd53 (0 + q) + q : ℚ) : ℝ) by push_cast; rfl, rnd53R_cast,
      show (rnd53 (rnd53 (0 + q) + q) : ℝ) + (q : ℝ) = ((rnd53 (rnd53 (0 + q) + q) + q : ℚ) : ℝ) by push_cast; rfl, rnd53R_cast]
  have hm : cmean bin64R [c, c, c] = ((7205759403792795 / 2 ^ 56 : ℚ) : ℝ) := by
    unfold cmean
    rw [hcd, s2]
    have : ((rnd53 (rnd53 (rnd53 (0 + 3602879701896397 / 2 ^ 55) + 3602879701896397 / 2 ^ 55) + 3602879701896397 / 2 ^ 55) : ℚ) : ℝ) /
        (([((3602879701896397 / 2 ^ 55 : ℚ) : ℝ), ((3602879701896397 / 2 ^ 55 : ℚ) : ℝ), ((3602879701896397 / 2 ^ 55 : ℚ) : ℝ)] : List ℝ).length : ℝ) =
        ((rnd53 (rnd53 (rnd53 (0 + 3602879701896397 / 2 ^ 55) + 3602879701896397 / 2 ^ 55) + 3602879701896397 / 2 ^ 55) / 3 : ℚ) : ℝ) := by
      rw [Rat.cast_div]; norm_num
    rw [this, s1]
    congr 1
    decide +kernel
  have hd : bin64R.rnd (c - cmean bin64R [c, c, c]) = ((-1 / 2 ^ 56 : ℚ) : ℝ) := by
    rw [hm, hcd, ← Rat.cast_sub, s1]
    congr 1
    decide +kernel
  have hpow : ∀ k : ℕ, ∀ r : ℚ, rnd53 ((-1 / 2 ^ 56) ^ k) = r →
      ([c, c, c] : List ℝ).map (fun x => bin64R.rnd (bin64R.rnd (x - cmean bin64R [c, c, c]) ^ k)) = [(r : ℝ), (r : ℝ), (r : ℝ)] := by
    intro k r hr
    simp only [List.map_cons, List.map_nil, hd]
    rw [← Rat.cast_pow, s1, hr]
  have hv : cvar bin64R [c, c, c] = (1 / 2 ^ 56) ^ 2 := by
    unfold cvar
    rw [hpow 2 (1 / 2 ^ 112) (by decide +kernel), s2]
    have : ((rnd53 (rnd53 (rnd53 (0 + 1 / 2 ^ 112) + 1 / 2 ^ 112) + 1 / 2 ^ 112) : ℚ) : ℝ) / (([c, c, c] : List ℝ).length : ℝ) =
        ((rnd53 (rnd53 (rnd53 (0 + 1 / 2 ^ 112) + 1 / 2 ^ 112) + 1 / 2 ^ 112) / 3 : ℚ) : ℝ) := by
      rw [Rat.cast_div]; norm_num
    rw [this, s1, show rnd53 (rnd53 (rnd53 (rnd53 (0 + 1 / 2 ^ 112) + 1 / 2 ^ 112) + 1 / 2 ^ 112) / 3) = 1 / 2 ^ 112 by decide +kernel]
    norm_num
  have hsd : bin64R.rnd (√(cvar bin64R [c, c, c])) = ((1 / 2 ^ 56 : ℚ) : ℝ) := by
    rw [hv, Real.sqrt_sq (by positivity), show (1 / 2 ^ 56 : ℝ) = ((1 / 2 ^ 56 : ℚ) : ℝ) by push_cast; rfl, s1]
    congr 1
    decide +kernel
  have hl : (([c, c, c] : List ℝ).length : ℝ) = ((3 : ℚ) : ℝ) := by simp
  constructor
  · rw [skewness_m bin64R bin64R_keeps b _ (by simp) hn, hpow 3 (-1 / 2 ^ 168) (by decide +kernel), s2, hsd, hl, ← Rat.cast_pow, s1,
      ← Rat.cast_mul, s1, Rd.div_fin bin64R (by
        rw [Ne, Rat.cast_eq_zero]; decide +kernel), ← Rat.cast_div, s1]
    congr 2
    rw [show (-1 : ℝ) = ((-1 : ℚ) : ℝ) by norm_num]
    congr 1
    decide +kernel
  · rw [kurtosis_m bin64R bin64R_keeps b _ (by simp) hn, hpow 4 (1 / 2 ^ 224) (by decide +kernel), s2, hsd, hl, ← Rat.cast_pow, s1,
      ← Rat.cast_div, s1, Rd.div_fin bin64R (by
        rw [Ne, Rat.cast_eq_zero]; decide +kernel), ← Rat.cast_div, s1]
    congr 2
    rw [show (1 : ℝ) = ((1 : ℚ) : ℝ) by norm_num]
    congr 1
    decide +kernel

/-- the hypotheses of C245 are met in binary64 by 0, 0, 0, 4: `G` and `κ` are below `10⁻¹⁴` -/
example : Std bin64R (1 / 2 ^ 53) ∧ KeepsSign bin64R ∧ bin64R.rnd ((([0, 0, 0, 4] : List ℝ).length : ℕ) : ℝ) = ([0, 0, 0, 4] : List ℝ).length ∧
    Spec.var ([0, 0, 0, 4] : List ℝ) = 3 ∧ (1 + 1 / 2 ^ 53 : ℝ) ^ (([0, 0, 0, 4] : List ℝ).length + 8) - 1 ≤ 1 / 10 ^ 14 ∧
    ((1 + 1 / 2 ^ 53 : ℝ) ^ (([0, 0, 0, 4] : List ℝ).length + 1) - 1) * Spec.avg (([0, 0, 0, 4] : List ℝ).map (fun x => |x|)) /
      √(Spec.var ([0, 0, 0, 4] : List ℝ)) ≤ 1 / 10 ^ 14 := by
  have hv : Spec.var ([0, 0, 0, 4] : List ℝ) = 3 := by
    unfold Spec.var Spec.cmoment Spec.avg; norm_num
  refine ⟨bin64R_std, bin64R_keeps, rnd53R_nat 4 (by norm_num), hv, by norm_num, ?_⟩
  rw [hv]
  have h1 : (1 : ℝ) ≤ √3 := Real.one_le_sqrt.mpr (by norm_num)
  refine (div_le_self ?_ h1).trans ?_
  · unfold Spec.avg; norm_num
  · unfold Spec.avg; norm_num

end Proadv.Props
