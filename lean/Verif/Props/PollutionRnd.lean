import Verif.Props.RoundDetect

/-!
# Property C248: `pollution_rate` in rounded arithmetic (pollution.py)

A sample is counted exactly as in exact arithmetic unless it lies within an explicit margin of one of the two bands; when no sample does,
the computed percentage differs from the true one by two roundings only.
-/

set_option linter.unusedSectionVars false

namespace Proadv.Props

open Proadv Descriptive Spread Detect

/-- Specification: bound on the error of a computed band `xfil + k * std`, whose exact value is `t` -/
noncomputable def bandErr (u η k : ℝ) (xs : List ℝ) (t : ℝ) : ℝ :=
  (1 + u) * ((1 + u) * (|k| * ((1 + u) * √(varErr u η xs) + u * √(Spec.var xs) + η)) + u * |k * √(Spec.var xs)| + η) + u * |t|

private theorem lt_near {a t s e : ℝ} (h1 : |a - t| ≤ e) (h : e < |s - t|) : (a < s ↔ t < s) ∧ (s < a ↔ s < t) := by
  have ha := abs_le.mp h1
  rcases abs_cases (s - t) with ⟨h3, h4⟩ | ⟨h3, h4⟩ <;> rw [h3] at h
  · refine ⟨⟨fun _ => ?_, fun _ => ?_⟩, ⟨fun _ => ?_, fun _ => ?_⟩⟩ <;> linarith
  · refine ⟨⟨fun _ => ?_, fun _ => ?_⟩, ⟨fun _ => ?_, fun _ => ?_⟩⟩ <;> linarith

/-- **C248** When no sample is within the margin of a band, the two counts are those of exact arithmetic, and the percentage is
`100 (upper + lower) / n` up to two roundings. -/
theorem C248_rate (A : Arith ℝ) (u η : ℝ) (Rep : ℝ → Prop) (h : Gradual A u η Rep) (hs : KeepsSign A) (b : Bool)
    (ps : List (ℝ × ℝ)) (hne : ps ≠ []) (hrep : ∀ p ∈ ps, Rep p.1 ∧ Rep p.2 ∧ Rep (-p.2)) (k : ℝ)
    (hn : ∀ j ≤ 2 * ps.length, A.rnd (j : ℝ) = j) (h100 : A.rnd 100 = 100)
    (hup : ∀ p ∈ ps, bandErr u η k (ps.map Prod.fst) (p.2 + k * √(Spec.var (ps.map Prod.fst))) <
      |p.1 - (p.2 + k * √(Spec.var (ps.map Prod.fst)))|)
    (hlo : ∀ p ∈ ps, bandErr u η k (ps.map Prod.fst) (-p.2 - k * √(Spec.var (ps.map Prod.fst))) <
      |p.1 - (-p.2 - k * √(Spec.var (ps.map Prod.fst)))|) (m : ℕ)
    (hm : m = ps.countP (fun p => p.2 + k * √(Spec.var (ps.map Prod.fst)) < p.1) +
      ps.countP (fun p => p.1 < -p.2 - k * √(Spec.var (ps.map Prod.fst)))) :
    ∃ q, pollutionRate ⟨1, b, Rd.fins A (ps.map Prod.fst)⟩ (Rd.fins A (ps.map Prod.snd)) (Rd.fin A k) = .ok (Rd.fin A q) ∧
      |q - 100 * m / ps.length| ≤ ((1 + u) ^ 2 - 1) * (100 * m / ps.length) + ((1 + u) * 100 + 1) * η := by
  have hne' : ps.map Prod.fst ≠ [] := by simpa using hne
  have hnn : A.rnd ((ps.map Prod.fst).length : ℝ) = (ps.map Prod.fst).length := by
    rw [List.length_map]; exact hn _ (by omega)
  obtain ⟨s, hs1, -, hs3, -⟩ := C237_std A u η Rep h hs b (ps.map Prod.fst) hne'
    (by intro x hx; obtain ⟨p, hp, rfl⟩ := List.mem_map.mp hx; exact (hrep p hp).1) hnn
  rw [std_eq b _ (by simpa using hne)] at hs1
  have hs2 : npStd (Rd.fins A (ps.map Prod.fst)) = Rd.fin A s := by injection hs1
  set σ := √(Spec.var (ps.map Prod.fst)) with hσ
  have hk : |A.rnd (k * s) - k * σ| ≤ (1 + u) * (|k| * ((1 + u) * √(varErr u η (ps.map Prod.fst)) + u * σ + η)) + u * |k * σ| + η := by
    apply h.rnd_near
    rw [← mul_sub, abs_mul]
    exact mul_le_mul_of_nonneg_left hs3 (abs_nonneg _)
  have hup' : ∀ p ∈ ps, (A.rnd (p.2 + A.rnd (k * s)) < p.1 ↔ p.2 + k * σ < p.1) := by
    intro p hp
    refine (lt_near ?_ (hup p hp)).1
    apply h.near_of_rel (h.add _ _ (hrep p hp).2.1 (h.rep _))
    rw [add_sub_add_left_eq_sub]; exact hk
  have hlo' : ∀ p ∈ ps, (p.1 < A.rnd (-p.2 - A.rnd (k * s)) ↔ p.1 < -p.2 - k * σ) := by
    intro p hp
    refine (lt_near ?_ (hlo p hp)).2
    apply h.near_of_rel (h.sub _ _ (hrep p hp).2.2 (h.rep _))
    rw [sub_sub_sub_cancel_left, abs_sub_comm]; exact hk
  have hc := C78_count b (Rd.fins A (ps.map Prod.fst)) (Rd.fins A (ps.map Prod.snd)) (Rd.fin A k) (by simpa using hne) (by simp)
  have hz : List.zip (Rd.fins A (ps.map Prod.fst)) (Rd.fins A (ps.map Prod.snd)) =
      ps.map (fun p => (Rd.fin A p.1, Rd.fin A p.2)) := by
    simp only [Rd.fins, List.map_map, List.zip_map']; rfl
  rw [hz, hs2, List.countP_map, List.countP_map] at hc
  have e1 : ps.countP ((fun p : Rd A × Rd A => (p.2 +. Rd.fin A k *. Rd.fin A s) <. p.1) ∘ fun p => (Rd.fin A p.1, Rd.fin A p.2)) =
      ps.countP (fun p => p.2 + k * σ < p.1) := by
    apply List.countP_congr
    intro p hp
    show decide (A.rnd (p.2 + A.rnd (k * s)) < p.1) = true ↔ _
    rw [decide_eq_true_iff, decide_eq_true_iff]
    exact hup' p hp
  have e2 : ps.countP ((fun p : Rd A × Rd A => p.1 <. (PyNum.neg p.2 -. Rd.fin A k *. Rd.fin A s)) ∘ fun p => (Rd.fin A p.1, Rd.fin A p.2)) =
      ps.countP (fun p => p.1 < -p.2 - k * σ) := by
    apply List.countP_congr
    intro p hp
    show decide (p.1 < A.rnd (-p.2 - A.rnd (k * s))) = true ↔ _
    rw [decide_eq_true_iff, decide_eq_true_iff]
    exact hlo' p hp
  rw [e1, e2, ← hm] at hc
  have hm2 : m ≤ 2 * ps.length := by
    have := List.countP_le_length (p := fun p : ℝ × ℝ => decide (p.2 + k * σ < p.1)) (l := ps)
    have := List.countP_le_length (p := fun p : ℝ × ℝ => decide (p.1 < -p.2 - k * σ)) (l := ps)
    omega
  have hpos : (0 : ℝ) < ps.length := by exact_mod_cast List.length_pos_of_ne_nil hne
  have hl : (Rd.fins A (ps.map Prod.fst)).length = ps.length := by simp
  have h100' : (lit 100 : Rd A) = Rd.fin A 100 := by
    have := Rd.lit_fin A 100
    rw [this, show (((100 : ℚ)) : ℝ) = 100 by norm_num, h100]
  rw [hl, Rd.ofNat_fin, Rd.ofNat_fin, hn m hm2, hn _ (by omega), Rd.div_fin A hpos.ne', h100', Rd.mul_fin] at hc
  refine ⟨_, hc, ?_⟩
  have h1 := h.rnd ((m : ℝ) / ps.length)
  have h2 : |A.rnd ((m : ℝ) / ps.length) * 100 - 100 * m / ps.length| ≤ (u * |(m : ℝ) / ps.length| + η) * 100 := by
    rw [show A.rnd ((m : ℝ) / ps.length) * 100 - 100 * m / ps.length = (A.rnd ((m : ℝ) / ps.length) - m / ps.length) * 100 by ring,
      abs_mul, abs_of_pos (by norm_num : (0 : ℝ) < 100)]
    exact mul_le_mul_of_nonneg_right h1 (by norm_num)
  refine (h.rnd_near h2).trans (le_of_eq ?_)
  rw [abs_of_nonneg (by positivity : (0 : ℝ) ≤ m / ps.length), abs_of_nonneg (by positivity : (0 : ℝ) ≤ 100 * m / ps.length)]
  ring

/-! ## The margin is needed -/

/-- exact except that 10 is rounded down -/
noncomputable def tenArith (u : ℝ) : Arith ℝ := ⟨fun x => if x = 10 then (1 - u) * 10 else x, List.sum⟩

private theorem ten_std (u : ℝ) (hu : 0 ≤ u) : Std (tenArith u) u where
  nonneg := hu
  rnd := by
    intro x
    show |(if x = 10 then (1 - u) * 10 else x) - x| ≤ _
    split_ifs with h
    · rw [h, show (1 - u) * 10 - 10 = -(u * 10) by ring, abs_neg, abs_mul, abs_of_nonneg hu]
    · simp; positivity
  sum := by
    intro xs
    show |xs.sum - xs.sum| ≤ _
    rw [sub_self, abs_zero]
    have h9 : 1 ≤ (1 + u) ^ xs.length := one_le_pow₀ (by linarith)
    have : 0 ≤ (xs.map (fun x => |x|)).sum := List.sum_nonneg (by
      intro y hy; obtain ⟨z, -, rfl⟩ := List.mem_map.mp hy; exact abs_nonneg z)
    exact mul_nonneg (by linarith) this

private theorem ten_keeps (u : ℝ) (hu : u ≤ 1) : KeepsSign (tenArith u) where
  rnd := by
    intro x hx
    show 0 ≤ (if x = 10 then (1 - u) * 10 else x)
    split_ifs
    · linarith
    · exact hx
  sum := fun xs h => List.sum_nonneg h

/-- **C248** The margin is needed: the sample 10 lies exactly on the band `5 + 1 * 5`; it is not counted in exact arithmetic, and it is
counted (50 %) in some arithmetics of any accuracy. -/
theorem C248_tie (u : ℝ) (hu : 0 < u) (hu1 : u ≤ 1) :
    pollutionRate ⟨1, false, fins [(0 : ℝ), 10]⟩ (fins [0, 5]) (Fl.fin 1) = .ok (Fl.fin 0) ∧
    ∃ A : Arith ℝ, Std A u ∧ KeepsSign A ∧
      pollutionRate ⟨1, false, Rd.fins A [0, 10]⟩ (Rd.fins A [0, 5]) (Rd.fin A 1) = .ok (Rd.fin A 50) := by
  have hv : Spec.var [(0 : ℝ), 10] = 25 := by norm_num [Spec.var, Spec.cmoment, Spec.avg]
  have h5 : √(25 : ℝ) = 5 := by rw [show (25 : ℝ) = 5 ^ 2 by norm_num]; exact Real.sqrt_sq (by norm_num)
  refine ⟨?_, tenArith u, ten_std u hu.le, ten_keeps u hu1, ?_⟩
  · rw [C78_count false (fins [(0 : ℝ), 10]) (fins [0, 5]) (Fl.fin 1) (by simp) rfl, npStd_fins _ (by simp), hv, h5]
    have e1 : List.countP (fun p : Fl ℝ × Fl ℝ => (p.2 +. Fl.fin 1 *. Fl.fin 5) <. p.1) (List.zip (fins [(0 : ℝ), 10]) (fins [0, 5])) = 0 := by
      simp [fins, List.countP_cons]; norm_num
    have e2 : List.countP (fun p : Fl ℝ × Fl ℝ => p.1 <. (PyNum.neg p.2 -. Fl.fin 1 *. Fl.fin 5)) (List.zip (fins [(0 : ℝ), 10]) (fins [0, 5])) = 0 := by
      simp [fins, List.countP_cons]; norm_num
    rw [e1, e2]
    simp [Fl.pdiv_fin]
  · set A := tenArith u with hA
    have r : ∀ x : ℝ, x ≠ 10 → A.rnd x = x := fun x hx => if_neg hx
    have r10 : A.rnd 10 = (1 - u) * 10 := if_pos rfl
    have hstd : npStd (Rd.fins A [0, 10]) = Rd.fin A 5 := by
      have hmean : npMean (Rd.fins A [0, 10]) = Rd.fin A 5 := by
        unfold npMean
        rw [Rd.sum_fins]
        show Rd.fin A _ /. ofNat 2 = _
        rw [Rd.ofNat_fin, r _ (by norm_num), Rd.div_fin A (by norm_num)]
        have : A.sum [0, 10] = 10 := by show List.sum _ = _; norm_num
        rw [this, r _ (by norm_num)]; norm_num
      have hvar : npVar (Rd.fins A [0, 10]) = Rd.fin A 25 := by
        unfold npVar
        simp only [hmean]
        have e : (Rd.fins A [0, 10]).map (fun x => (x -. Rd.fin A 5) *. (x -. Rd.fin A 5)) = Rd.fins A [25, 25] := by
          show [(Rd.fin A 0 -. Rd.fin A 5) *. (Rd.fin A 0 -. Rd.fin A 5), (Rd.fin A 10 -. Rd.fin A 5) *. (Rd.fin A 10 -. Rd.fin A 5)] =
            [Rd.fin A 25, Rd.fin A 25]
          rw [Rd.sub_fin, Rd.sub_fin, Rd.mul_fin, Rd.mul_fin, r (0 - 5) (by norm_num), r (10 - 5) (by norm_num),
            r _ (by norm_num), r _ (by norm_num)]
          norm_num
        rw [e, Rd.sum_fins]
        show Rd.fin A _ /. ofNat 2 = _
        rw [Rd.ofNat_fin, r _ (by norm_num), Rd.div_fin A (by norm_num)]
        have : A.sum [25, 25] = 50 := by show List.sum _ = _; norm_num
        rw [this, r _ (by norm_num)]; norm_num
      unfold npStd
      rw [hvar, Rd.sqrt_fin A (by norm_num), h5, r _ (by norm_num)]
    rw [C78_count false (Rd.fins A [0, 10]) (Rd.fins A [0, 5]) (Rd.fin A 1) (by simp) rfl, hstd]
    have k5 : (Rd.fin A 1 *. Rd.fin A 5) = Rd.fin A 5 := by rw [Rd.mul_fin, one_mul, r _ (by norm_num)]
    have e1 : List.countP (fun p : Rd A × Rd A => (p.2 +. Rd.fin A 1 *. Rd.fin A 5) <. p.1) (List.zip (Rd.fins A [0, 10]) (Rd.fins A [0, 5])) = 1 := by
      rw [k5]
      show List.countP _ [(Rd.fin A 0, Rd.fin A 0), (Rd.fin A 10, Rd.fin A 5)] = 1
      rw [List.countP_cons, List.countP_cons, List.countP_nil]
      have a1 : ((Rd.fin A 0 +. Rd.fin A 5) <. Rd.fin A 0) = false := by
        rw [Rd.add_fin, Rd.lt_fin, r _ (by norm_num)]; norm_num
      have a2 : ((Rd.fin A 5 +. Rd.fin A 5) <. Rd.fin A 10) = true := by
        rw [Rd.add_fin, Rd.lt_fin, show (5 : ℝ) + 5 = 10 by norm_num, r10]
        rw [decide_eq_true_iff]; linarith
      simp only [a1, a2]; rfl
    have e2 : List.countP (fun p : Rd A × Rd A => p.1 <. (PyNum.neg p.2 -. Rd.fin A 1 *. Rd.fin A 5)) (List.zip (Rd.fins A [0, 10]) (Rd.fins A [0, 5])) = 0 := by
      rw [k5]
      show List.countP _ [(Rd.fin A 0, Rd.fin A 0), (Rd.fin A 10, Rd.fin A 5)] = 0
      rw [List.countP_cons, List.countP_cons, List.countP_nil]
      have a1 : (Rd.fin A 0 <. (Rd.fin A (-0) -. Rd.fin A 5)) = false := by
        rw [Rd.sub_fin, Rd.lt_fin, r _ (by norm_num)]; norm_num
      have a2 : (Rd.fin A 10 <. (Rd.fin A (-5) -. Rd.fin A 5)) = false := by
        rw [Rd.sub_fin, Rd.lt_fin, r _ (by norm_num)]; norm_num
      have b1 : (Rd.fin A 0 <. (PyNum.neg (Rd.fin A 0) -. Rd.fin A 5)) = false := a1
      have b2 : (Rd.fin A 10 <. (PyNum.neg (Rd.fin A 5) -. Rd.fin A 5)) = false := a2
      simp only [b1, b2]; rfl
    rw [e1, e2]
    show Except.ok (ofNat 1 /. ofNat 2 *. lit 100) = _
    rw [Rd.ofNat_fin, Rd.ofNat_fin, r _ (by norm_num), r _ (by norm_num), Rd.div_fin A (by norm_num), Rd.lit_fin, Rd.mul_fin,
      r (((1 : ℕ) : ℝ) / ((2 : ℕ) : ℝ)) (by norm_num), r ((100 : ℚ) : ℝ) (by norm_num), r _ (by norm_num)]
    norm_num

/-- the hypotheses of `C248_rate` are met: 53-bit arithmetic, four samples, one of them above its band -/
example : ∃ q, pollutionRate ⟨1, false, Rd.fins bin64R [0, 0, 0, 8]⟩ (Rd.fins bin64R [0, 0, 0, 0]) (Rd.fin bin64R 1) =
      .ok (Rd.fin bin64R q) ∧ |q - 25| ≤ 1 / 10 ^ 10 := by
  have hv : Spec.var ([0, 0, 0, 8] : List ℝ) = 12 := by
    norm_num [Spec.var, Spec.cmoment, Spec.avg]
  have hb : Spec.avg (([0, 0, 0, 8] : List ℝ).map (fun x => |x|)) = 2 := by norm_num [Spec.avg]
  have h1 : √(12 : ℝ) < 4 := by rw [Real.sqrt_lt' (by norm_num)]; norm_num
  have h2 : 3 < √(12 : ℝ) := by rw [Real.lt_sqrt (by norm_num)]; norm_num
  have hm : meanErr (1 / 2 ^ 53 : ℝ) 0 [0, 0, 0, 8] ≤ 1 / 1000 := by
    unfold meanErr; rw [hb]; norm_num
  have hm0 : 0 ≤ meanErr (1 / 2 ^ 53 : ℝ) 0 [0, 0, 0, 8] := by
    unfold meanErr; rw [hb]; norm_num
  have hve : varErr (1 / 2 ^ 53) 0 [0, 0, 0, 8] ≤ 1 / 100 := by
    unfold varErr; rw [hv]
    have : meanErr (1 / 2 ^ 53 : ℝ) 0 [0, 0, 0, 8] ^ 2 ≤ (1 / 1000) ^ 2 := pow_le_pow_left₀ hm0 hm 2
    have h3 : (1 + 1 / 2 ^ 53 : ℝ) ^ (([0, 0, 0, 8] : List ℝ).length + 4) ≤ 1 + 1 / 10000 := by norm_num
    have h4 : (0 : ℝ) ≤ (1 + 1 / 2 ^ 53 : ℝ) ^ (([0, 0, 0, 8] : List ℝ).length + 4) := by positivity
    generalize (1 + 1 / 2 ^ 53 : ℝ) ^ (([0, 0, 0, 8] : List ℝ).length + 4) = P at *
    nlinarith [mul_le_mul_of_nonneg_left this h4]
  have hsq : √(varErr (1 / 2 ^ 53) 0 [0, 0, 0, 8]) ≤ 1 / 10 := by
    rw [Real.sqrt_le_left (by norm_num)]; refine hve.trans (by norm_num)
  have hsq0 := Real.sqrt_nonneg (varErr (1 / 2 ^ 53) 0 [0, 0, 0, 8])
  have hbe : ∀ t : ℝ, |t| ≤ 4 → bandErr (1 / 2 ^ 53) 0 1 [0, 0, 0, 8] t ≤ 1 / 2 := by
    intro t ht
    unfold bandErr
    rw [hv, abs_one, one_mul, one_mul, abs_of_nonneg (by linarith : (0 : ℝ) ≤ √12)]
    nlinarith
  have hl : ([((0 : ℝ), (0 : ℝ)), (0, 0), (0, 0), (8, 0)]).map Prod.fst = [0, 0, 0, 8] := rfl
  have ht1 : |(0 : ℝ) + 1 * √12| ≤ 4 := by rw [abs_of_nonneg (by linarith)]; linarith
  have ht2 : |-(0 : ℝ) - 1 * √12| ≤ 4 := by rw [abs_of_nonpos (by linarith)]; linarith
  obtain ⟨q, hq, he⟩ := C248_rate bin64R _ 0 _ bin64R_std.gradual bin64R_keeps false
    [(0, 0), (0, 0), (0, 0), (8, 0)] (by simp) (fun _ _ => ⟨trivial, trivial, trivial⟩) 1
    (fun j hj => rnd53R_nat j (lt_of_le_of_lt hj (by norm_num))) (rnd53R_nat 100 (by norm_num)) (by
      rw [hl, hv]
      intro p hp
      simp only [List.mem_cons, List.not_mem_nil, or_false] at hp
      rcases hp with rfl | rfl | rfl | rfl <;> refine (hbe _ ht1).trans_lt ?_
      · rw [abs_of_neg (by linarith)]; linarith
      · rw [abs_of_neg (by linarith)]; linarith
      · rw [abs_of_neg (by linarith)]; linarith
      · rw [abs_of_pos (by linarith)]; linarith) (by
      rw [hl, hv]
      intro p hp
      simp only [List.mem_cons, List.not_mem_nil, or_false] at hp
      rcases hp with rfl | rfl | rfl | rfl <;> refine (hbe _ ht2).trans_lt ?_ <;>
        rw [abs_of_pos (by linarith)] <;> linarith) 1 (by
      rw [hl, hv]
      have a1 : ¬ (0 + 1 * √12 < (0 : ℝ)) := by linarith
      have a2 : (0 + 1 * √12 < (8 : ℝ)) := by linarith
      have a3 : ¬ ((0 : ℝ) < -0 - 1 * √12) := by linarith
      have a4 : ¬ ((8 : ℝ) < -0 - 1 * √12) := by linarith
      simp only [List.countP_cons, List.countP_nil, a1, a2, a3, a4, decide_true, decide_false]
      rfl)
  refine ⟨q, hq, ?_⟩
  norm_num at he ⊢
  linarith

end Proadv.Props
