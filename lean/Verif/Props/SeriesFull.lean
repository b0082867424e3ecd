import Verif.Props.FluidOverflow

/-!
# Property C255: mean, variance and moving averages with underflow and overflow together
-/

set_option linter.unusedSectionVars false

namespace Proadv.Props

open Proadv Descriptive Series Spread

variable {K : Type} [Field K] [LinearOrder K] [FloorRing K] [IsStrictOrderedRing K]

namespace Full

variable {O : OArith K} {u η : K} {Rep : K → Prop}

private theorem entry {vs : List (Ov O)} {ys : List K} (h : List.Forall₂ Ov.Le vs (Rd.fins O.toArith ys)) {i : Nat} {y : K}
    (hi : vs[i]? = some (Ov.fin O y)) : i < ys.length ∧ ys.getD i 0 = y := by
  have hl := h.length_eq
  rw [List.length_map] at hl
  have hil := (List.getElem?_eq_some_iff.mp hi).1
  have hiy : i < ys.length := by omega
  refine ⟨hiy, ?_⟩
  have hg := Over.forall2_getD h i y (by rw [List.getD, hi]; rfl)
  have e2 : (Rd.fins O.toArith ys).getD i PyNum.nan = Rd.fin O.toArith (ys.getD i 0) := by simp [List.getD, hiy]
  rw [e2] at hg
  exact Fl.fin.inj hg

theorem npVar_le_f (h : OGrad O u η Rep) {vs : List (Ov O)} {ws : List (Rd O.toArith)} (hv : List.Forall₂ Ov.Le vs ws)
    (hne : vs ≠ []) (hn : Over.Nat? O vs.length) : Ov.Le (npVar vs) (npVar ws) := by
  have hm := npMean_le_f h hv hne hn
  unfold npVar
  simp only
  rw [← hv.length_eq]
  refine Over.div_nat_le hn (by simpa using hne) (sum_le_f h ?_)
  rw [List.forall₂_map_left_iff, List.forall₂_map_right_iff]
  exact hv.imp (fun a b hab => Ov.le_mul (Ov.le_sub hab hm) (Ov.le_sub hab hm))

private theorem ma_le (h : OGrad O u η Rep) (b : Bool) (xs : List K) (w : Nat) (hw : 1 ≤ w) (hwn : w ≤ xs.length)
    (hnat : ∀ n : ℕ, n ≤ w → Over.Nat? O n) (ws : List (Rd O.toArith))
    (hws : movingAverage ⟨1, b, Rd.fins O.toArith xs⟩ (w : Int) = .ok ws) :
    ∃ vs, movingAverage ⟨1, b, Ov.fins O xs⟩ (w : Int) = .ok vs ∧ List.Forall₂ Ov.Le vs ws := by
  have hne : xs ≠ [] := by rintro rfl; simp at hwn; omega
  have red : ∀ {F : Type} [PyNum F] (l : List F), l.length = xs.length → movingAverage ⟨1, b, l⟩ (w : Int) =
      .ok ((List.range (xs.length - w)).foldl (fun ma t => maStep l w ma (w + t)) ((List.range w).map (fun i => npMean (l.take (i + 1))))) := by
    intro F _ l hl
    have hl0 : l ≠ [] := by rintro rfl; simp at hl; omega
    unfold movingAverage
    simp only [Int.toNat_natCast, hl]
    rw [if_neg (by omega), if_neg (by omega), if_neg (by simp), if_neg (by omega)]
    have h1 : (List.range w).mapM (fun i => meanOf (l.take (i + 1))) = (.ok ((List.range w).map (fun i => npMean (l.take (i + 1)))) : Py _) := by
      apply mapM_ok
      intro i _
      exact meanOf_eq _ (by
        intro h0
        have h2 := congrArg List.length h0
        rw [List.length_take, List.length_nil] at h2
        have h3 := List.length_pos_of_ne_nil hl0
        omega)
    rw [h1]; rfl
  rw [red _ (List.length_map _)] at hws
  injection hws with hws
  refine ⟨_, red _ (List.length_map _), ?_⟩
  rw [← hws]
  generalize xs.length - w = m
  induction m with
  | zero =>
    simp only [List.range_zero, List.foldl_nil]
    rw [List.forall₂_map_left_iff, List.forall₂_map_right_iff, List.forall₂_same]
    intro i hi
    have hi := List.mem_range.mp hi
    have hl : (xs.take (i + 1)).length = i + 1 := by rw [List.length_take]; omega
    rw [← List.map_take, ← List.map_take]
    refine npMean_le_f h (Over.forall2_fins _) ?_ ?_
    · intro h0
      have := congrArg List.length h0
      rw [List.length_map, hl] at this; simp at this
    · rw [List.length_map, hl]; exact hnat _ (by omega)
  | succ m ih =>
    rw [List.range_succ, List.foldl_append, List.foldl_append]
    exact Over.maStep_le (Over.forall2_fins xs) (hnat w le_rfl) (by omega) ih _

private theorem wma_le (h : OGrad O u η Rep) (xs : List K) (p : Nat) (hp : 1 ≤ p) (hpn : p ≤ xs.length)
    (hnat : ∀ n : ℕ, n ≤ p * (p + 1) / 2 → Over.Nat? O n) (f : Bool) (ws : List (Rd O.toArith))
    (hws : weightedMovingAverage (Rd.fins O.toArith xs) (p : Int) = .ok ⟨f, ws⟩) :
    ∃ vs, weightedMovingAverage (Ov.fins O xs) (p : Int) = .ok ⟨f, vs⟩ ∧ List.Forall₂ Ov.Le vs ws := by
  have red : ∀ {F : Type} [PyNum F] (l : List F), l.length = xs.length → weightedMovingAverage l (p : Int) =
      .ok ⟨decide (p = xs.length), (List.range (xs.length - p)).map (fun t => wmaAt l p (p + t))⟩ := by
    intro F _ l hl
    unfold weightedMovingAverage
    simp only [Int.toNat_natCast, hl]
    rw [if_neg (by omega), if_neg (by omega)]
    congr 2
    rw [Bool.eq_iff_iff, List.isEmpty_iff, decide_eq_true_iff, List.map_eq_nil_iff, List.range_eq_nil]
    omega
  rw [red _ (List.length_map _)] at hws
  injection hws with hws
  injection hws with hf hws
  refine ⟨_, by rw [red _ (List.length_map _), hf], ?_⟩
  rw [← hws, List.forall₂_map_left_iff, List.forall₂_map_right_iff, List.forall₂_same]
  intro k _
  have htot : ((List.range p).map (fun j => j + 1)).sum = p * (p + 1) / 2 := by
    have : ∀ p : Nat, 2 * ((List.range p).map (fun j => j + 1)).sum = p * (p + 1) := by
      intro p
      induction p with
      | zero => rfl
      | succ p ih =>
        rw [List.range_succ, List.map_append, List.sum_append, mul_add, ih]; simp; ring
    have := this p; omega
  have hpos : p * (p + 1) / 2 ≠ 0 := by
    have : 2 ≤ p * (p + 1) := by nlinarith
    omega
  unfold wmaAt
  simp only
  rw [htot]
  refine Over.div_nat_le (hnat _ le_rfl) hpos (sum_le_f h ?_)
  have hsl : List.Forall₂ (Ov.Le (O := O)) (slice (Ov.fins O xs) (p + k - p) (p + k)) (slice (Rd.fins O.toArith xs) (p + k - p) (p + k)) := by
    unfold slice
    rw [← List.map_take, ← List.map_take, ← List.map_drop, ← List.map_drop]
    exact Over.forall2_fins _
  have hws : ∀ n ∈ (List.range p).map (fun j => j + 1), n ≤ p * (p + 1) / 2 := by
    intro n hn
    obtain ⟨j, hj, rfl⟩ := List.mem_map.mp hn
    have hj := List.mem_range.mp hj
    have : 2 * p ≤ p * (p + 1) := by nlinarith
    omega
  generalize (List.range p).map (fun j => j + 1) = ws at hws
  generalize slice (Ov.fins O xs) (p + k - p) (p + k) = a at hsl
  generalize slice (Rd.fins O.toArith xs) (p + k - p) (p + k) = b at hsl
  induction hsl generalizing ws with
  | nil => simp
  | cons hab _ ih =>
    cases ws with
    | nil => simp
    | cons n ws =>
      simp only [List.zipWith_cons_cons]
      refine List.Forall₂.cons ?_ (ih ws (fun m hm => hws m (by simp [hm])))
      have hn := hnat n (hws n (by simp))
      refine Ov.le_mul ?_ hab
      rw [Ov.ofNat_num hn.1 hn.2, Rd.ofNat_fin, hn.1]
      exact Ov.le_fin _

private theorem ema_le (h : OGrad O u η Rep) (hone : O.rnd 1 = 1) (h1t : 1 ≤ O.top) (xs : List K) (hne : xs ≠ []) (alpha : K)
    (h0 : 0 < alpha) (h1 : alpha ≤ 1) (ws : List (Rd O.toArith))
    (hws : exponentialMovingAverage ⟨1, false, Rd.fins O.toArith xs⟩ (Rd.fin O.toArith alpha) = .ok ws) :
    ∃ vs, exponentialMovingAverage ⟨1, false, Ov.fins O xs⟩ (Ov.fin O alpha) = .ok vs ∧ List.Forall₂ Ov.Le vs ws := by
  have hz : O.rnd 0 = 0 := h.grad.rnd_zero
  have ht0 : 0 ≤ O.top := by linarith
  have l1 : (lit 1 : Ov O) = Ov.fin O 1 := by
    have := Ov.lit_num (O := O) (q := 1) (by simpa using hone) (by simpa using h1t)
    simpa using this
  have l0 : (lit 0 : Ov O) = Ov.fin O 0 := by
    have := Ov.lit_num (O := O) (q := 0) (by simpa using hz) (by simpa using ht0)
    simpa using this
  have r1 : (lit 1 : Rd O.toArith) = Rd.fin O.toArith 1 := by rw [Rd.lit_fin, Rat.cast_one, hone]
  have r0 : (lit 0 : Rd O.toArith) = Rd.fin O.toArith 0 := by rw [Rd.lit_fin, Rat.cast_zero, hz]
  have hc : ((Ov.fin O alpha ≤. lit 0) || (lit 1 <. Ov.fin O alpha)) = false := by
    rw [l0, l1]
    show (decide (alpha ≤ 0) || decide (1 < alpha)) = false
    simp [h0, h1]
  have hcr : ((Rd.fin O.toArith alpha ≤. lit 0) || (lit 1 <. Rd.fin O.toArith alpha)) = false := by
    rw [r0, r1]
    show (decide (alpha ≤ 0) || decide (1 < alpha)) = false
    simp [h0, h1]
  obtain ⟨x0, t, rfl⟩ := List.exists_cons_of_ne_nil hne
  have hrel : ∀ (vs : List (Ov O)) (ws : List (Rd O.toArith)), List.Forall₂ Ov.Le vs ws → ∀ v w, Ov.Le v w →
      List.Forall₂ Ov.Le (emaLoop false (Ov.fin O alpha) v vs) (emaLoop false (Rd.fin O.toArith alpha) w ws) := by
    intro vs ws hvw
    induction hvw with
    | nil => intro v w _; exact List.Forall₂.nil
    | cons hab _ ih =>
      intro v w hv
      simp only [emaLoop, store, Bool.false_eq_true, if_false]
      have h1' : Ov.Le (lit 1 : Ov O) (lit 1 : Rd O.toArith) := by rw [l1, r1]; exact Ov.le_fin 1
      have hy := Ov.le_add (Ov.le_mul (Ov.le_fin alpha) hab) (Ov.le_mul (Ov.le_sub h1' (Ov.le_fin alpha)) hv)
      exact List.Forall₂.cons hy (ih _ _ hy)
  have hrd : ∀ {F : Type} [PyNum F] (a x : F) (l : List F), ((a ≤. lit 0) || (lit 1 <. a)) = false →
      exponentialMovingAverage ⟨1, false, x :: l⟩ a = .ok (x :: emaLoop false a x l) := by
    intro F _ a x l ha
    simp only [exponentialMovingAverage, ha, Bool.false_eq_true, if_false]
  simp only [List.map_cons] at hws
  rw [hrd _ _ _ hcr] at hws
  injection hws with hws
  refine ⟨_, hrd _ _ _ hc, ?_⟩
  rw [← hws]
  exact List.Forall₂.cons (Ov.le_fin x0) (hrel _ _ (Over.forall2_fins t) _ _ (Ov.le_fin x0))

end Full

open Full

/-- **C255** A `mean` that is a number is within the error of C234 of the exact mean. -/
theorem C255_mean (O : OArith K) (u η : K) (Rep : K → Prop) (h : OGrad O u η Rep) (parse : String → Option (Ov O)) (xs : List K)
    (hne : xs ≠ []) (hrep : ∀ x ∈ xs, Rep x) (hn : Over.Nat? O xs.length) :
    ∃ v, mean parse (.seq (numItems (Ov.fins O xs))) = .ok (.val v) ∧ ∀ m, v = Ov.fin O m →
      |m - Spec.avg xs| ≤ ((1 + u) ^ (xs.length + 1) - 1) * Spec.avg (xs.map (fun x => |x|)) + η := by
  obtain ⟨m', hm', hb⟩ := C234_mean O.toArith u η Rep h.grad (fun _ => none) xs hne hrep hn.1
  rw [mean_numItems _ _ (by simpa using hne)] at hm'
  refine ⟨_, mean_numItems parse _ (by simpa using hne), ?_⟩
  intro m hm
  have e := npMean_le_f h (Over.forall2_fins xs) (by simpa using hne) (by simpa using hn) m hm
  rw [e] at hm'
  have : m = m' := by injection hm' with h1; injection h1 with h1; exact Fl.fin.inj h1
  rw [this]; exact hb

/-- **C255** So is a variance. -/
theorem C255_variance (O : OArith K) (u η : K) (Rep : K → Prop) (h : OGrad O u η Rep) (b : Bool) (xs : List K)
    (hne : xs ≠ []) (hrep : ∀ x ∈ xs, Rep x) (hn : Over.Nat? O xs.length) :
    ∃ v, variance ⟨1, b, numItems (Ov.fins O xs)⟩ = .ok v ∧ ∀ y, v = Ov.fin O y →
      |y - Spec.var xs| ≤ ((1 + u) ^ (xs.length + 4) - 1) * Spec.var xs +
        (1 + u) ^ (xs.length + 4) * (((1 + u) ^ (xs.length + 1) - 1) * Spec.avg (xs.map (fun x => |x|)) + η) ^ 2 +
        ((1 + u) ^ (xs.length + 1) + 1) * η := by
  have red : ∀ {F : Type} [PyNum F] (l : List F), l ≠ [] → variance ⟨1, b, numItems l⟩ = .ok (npVar l) := by
    intro F _ l hl
    have e1 : (numItems l).filterMap Item.val? = l := by
      simp [numItems, List.filterMap_map, Function.comp_def, Item.val?]
    have hs : (numItems l).any Item.isStr = false := by simp [numItems, Item.isStr]
    unfold variance
    simp only [hs]
    rw [if_neg (by simp), if_neg (by simp), if_neg (by simpa [numItems] using hl), e1]
  obtain ⟨v', hv', hb⟩ := C234_variance O.toArith u η Rep h.grad b xs hne hrep hn.1
  rw [red _ (by simpa using hne)] at hv'
  refine ⟨_, red _ (by simpa using hne), ?_⟩
  intro y hy
  have e := npVar_le_f h (Over.forall2_fins xs) (by simpa using hne) (by simpa using hn) y hy
  rw [e] at hv'
  have : y = v' := by injection hv' with h1; exact Fl.fin.inj h1
  rw [this]; exact hb

/-- **C255** Every entry of `moving_average` that is a number is within the error of C234 of the mean of its window. -/
theorem C255_moving_average (O : OArith K) (u η : K) (Rep : K → Prop) (h : OGrad O u η Rep) (b : Bool) (xs : List K)
    (hrep : ∀ x ∈ xs, Rep x) (w : Nat) (hw : 1 ≤ w) (hwn : w ≤ xs.length) (hnat : ∀ n : ℕ, n ≤ w → Over.Nat? O n) (M : K)
    (hM : ∀ x ∈ xs, |x| ≤ M) :
    ∃ vs : List (Ov O), movingAverage ⟨1, b, Ov.fins O xs⟩ (w : Int) = .ok vs ∧ vs.length = xs.length ∧
      ∀ i y, vs[i]? = some (Ov.fin O y) → |y - trailingMean xs w i| ≤
        ((1 + u) ^ (i + 2) - 1) * (M * (1 + 2 * (1 + u) * (2 + u) / w)) + (i + 1) * (1 + u) ^ i * η := by
  obtain ⟨ys, hys, hyl, hyb⟩ := C234_moving_average O.toArith u η Rep h.grad b xs hrep w hw hwn (fun n hn => (hnat n hn).1) M hM
  obtain ⟨vs, hvs, hle⟩ := ma_le h b xs w hw hwn hnat _ hys
  refine ⟨vs, hvs, by rw [hle.length_eq, List.length_map, hyl], ?_⟩
  intro i y hi
  obtain ⟨h1, h2⟩ := entry hle hi
  rw [← h2]
  exact hyb i (by omega)

/-- **C255** Every entry of `weighted_moving_average` that is a number is within the error of C234 of its weighted mean. -/
theorem C255_weighted_moving_average (O : OArith K) (u η : K) (Rep : K → Prop) (h : OGrad O u η Rep) (xs : List K) (p : Nat)
    (hp : 1 ≤ p) (hpn : p ≤ xs.length) (hnat : ∀ n : ℕ, n ≤ p * (p + 1) / 2 → Over.Nat? O n) :
    ∃ vs : List (Ov O), weightedMovingAverage (Ov.fins O xs) (p : Int) = .ok ⟨decide (p = xs.length), vs⟩ ∧
      vs.length = xs.length - p ∧
      ∀ k y, vs[k]? = some (Ov.fin O y) → ∀ M, (∀ j < p, |xs.getD (k + j) 0| ≤ M) →
        |y - linearMean xs p k| ≤ ((1 + u) ^ (p + 2) - 1) * M + ((1 + u) ^ (p + 1) + 1) * η := by
  obtain ⟨ys, hys, hyl, hyb⟩ := C234_weighted_moving_average O.toArith u η Rep h.grad xs p hp hpn (fun n hn => (hnat n hn).1)
  obtain ⟨vs, hvs, hle⟩ := wma_le h xs p hp hpn hnat _ _ hys
  refine ⟨vs, hvs, by rw [hle.length_eq, List.length_map, hyl], ?_⟩
  intro k y hk
  obtain ⟨h1, h2⟩ := entry hle hk
  rw [← h2]
  exact hyb k h1

/-- **C255** Every entry of `exponential_moving_average` that is a number is within the error of C234 of the closed form. -/
theorem C255_ema (O : OArith K) (u η : K) (Rep : K → Prop) (h : OGrad O u η Rep) (hone : O.rnd 1 = 1) (h1t : 1 ≤ O.top) (xs : List K)
    (hne : xs ≠ []) (alpha : K) (h0 : 0 < alpha) (h1 : alpha ≤ 1) (hra : Rep alpha) (M : K) (hM : ∀ x ∈ xs, |x| ≤ M) :
    ∃ vs : List (Ov O), exponentialMovingAverage ⟨1, false, Ov.fins O xs⟩ (Ov.fin O alpha) = .ok vs ∧ vs.length = xs.length ∧
      (∀ i y, vs[i]? = some (Ov.fin O y) → |y - emaClosed alpha (fun j => xs.getD j 0) i| ≤
        ((1 + u) ^ (3 * i) - 1) * M + 2 * i * (1 + u) ^ (3 * i) * η) ∧
      ((1 - alpha) * (1 + u) ^ 3 < 1 → ∀ i y, vs[i]? = some (Ov.fin O y) →
        |y - emaClosed alpha (fun j => xs.getD j 0) i| ≤
          (((1 + u) ^ 3 - 1) * M + 2 * (1 + u) * η) / (1 - (1 - alpha) * (1 + u) ^ 3)) := by
  obtain ⟨ys, hys, hyl, hyb, hyc⟩ := C234_ema O.toArith u η Rep h.grad hone xs hne alpha h0 h1 hra M hM
  obtain ⟨vs, hvs, hle⟩ := ema_le h hone h1t xs hne alpha h0 h1 _ hys
  refine ⟨vs, hvs, by rw [hle.length_eq, List.length_map, hyl], ?_, ?_⟩
  · intro i y hi
    obtain ⟨e1, e2⟩ := entry hle hi
    rw [← e2]
    exact hyb i (by omega)
  · intro hq i y hi
    obtain ⟨e1, e2⟩ := entry hle hi
    rw [← e2]
    exact hyc hq i (by omega)

/-- **C255** In binary64 one run of `moving_average` can meet both limits: the second mean underflows to 0, and the last is infinite
although it is `2^1022` and all samples are finite; the variance of `±2^-600` is 0. -/
theorem C255_binary64 :
    movingAverage ⟨1, false, Ov.fins bin64f [2 ^ (-1074 : ℤ), 0, -2 ^ 1023, 0, 2 ^ 1023]⟩ 2 =
      .ok [Ov.fin bin64f (2 ^ (-1074 : ℤ)), Ov.fin bin64f 0, Ov.fin bin64f (-2 ^ 1022), Ov.fin bin64f (-2 ^ 1022), Ov.inf bin64f] ∧
    trailingMean [2 ^ (-1074 : ℤ), 0, -2 ^ 1023, 0, (2 ^ 1023 : ℚ)] 2 1 = 2 ^ (-1075 : ℤ) ∧
    trailingMean [2 ^ (-1074 : ℤ), 0, -2 ^ 1023, 0, (2 ^ 1023 : ℚ)] 2 4 = 2 ^ 1022 ∧
    variance ⟨1, false, numItems (Ov.fins bin64f [2 ^ (-600 : ℤ), -2 ^ (-600 : ℤ)])⟩ = .ok (Ov.fin bin64f 0) := by
  refine ⟨?_, ?_, ?_, ?_⟩ <;> decide +kernel

/-- the hypotheses of C255 are met by binary64 -/
example : OGrad bin64f (1 / 2 ^ 53) (2 ^ (-1075 : ℤ)) Grid ∧ Over.Nat? bin64f 55 ∧ bin64f.rnd 1 = 1 ∧ 1 ≤ bin64f.top ∧
    Grid (rndSub (1 / 10)) ∧ (0 : ℚ) < rndSub (1 / 10) ∧ rndSub (1 / 10) ≤ 1 := by
  refine ⟨bin64f_grad, ⟨rndSub_nat 55 (by norm_num), ?_⟩, ?_, ?_, rndSub_grid _, ?_, ?_⟩ <;> decide +kernel

end Proadv.Props
