import Verif.Lemmas.Round
import Verif.Props.MovingAverage

/-!
# Properties C139–C141: the moving averages under rounding

The same model definitions as in C12–C17, evaluated with an arithmetic that rounds every operation (`Verif/Py/Round.lean`).
-/

set_option linter.unusedSectionVars false

namespace Proadv.Props

open Proadv Descriptive Series

variable {K : Type} [Field K] [LinearOrder K] [FloorRing K] [IsStrictOrderedRing K]

/-! ## C139: `moving_average` -/

private theorem trailing_abs (xs : List K) (w i : Nat) (hw : 1 ≤ w) (hi : i < xs.length) (M : K)
    (hM : ∀ x ∈ xs, |x| ≤ M) : |trailingMean xs w i| ≤ M := by
  set win := (xs.take (i + 1)).drop (i + 1 - w) with hwin
  have hlen : win.length = Min.min (i + 1) w := by
    rw [hwin, List.length_drop, List.length_take]
    omega
  have hne : win ≠ [] := by
    intro h0; rw [h0, List.length_nil] at hlen; omega
  have hsub : ∀ x ∈ win, x ∈ xs := fun x hx => List.mem_of_mem_take (List.mem_of_mem_drop hx)
  have ht : trailingMean xs w i = Spec.avg win := by
    unfold trailingMean Spec.avg; rw [hlen]
  rw [ht, abs_le]
  exact ⟨Spec.le_avg hne (fun x hx => (abs_le.mp (hM x (hsub x hx))).1),
    Spec.avg_le hne (fun x hx => (abs_le.mp (hM x (hsub x hx))).2)⟩

/-- mean of numbers with rounding -/
theorem Rd.meanOf_fins (A : Arith K) (xs : List K) (hne : xs ≠ []) (hn : A.rnd (xs.length : K) = xs.length) :
    meanOf (Rd.fins A xs) = .ok (Rd.fin A (A.rnd (A.sum xs / xs.length))) := by
  rw [meanOf_eq _ (by simpa using hne)]
  unfold npMean
  have h0 : (xs.length : K) ≠ 0 := by
    have := List.length_pos_of_ne_nil hne
    exact_mod_cast this.ne'
  rw [Rd.sum_fins, List.length_map, Rd.ofNat_fin, hn, Rd.div_fin A h0]

private theorem ma_step (A : Arith K) (u : K) (h : Std A u) (w : Nat) (hw : 1 ≤ w) (a b p t M B : K) (ha : |a| ≤ M)
    (hb : |b| ≤ M) (ht : |t + (a - b) / w| ≤ M) (hp : |p - t| ≤ B * (M * (1 + 2 * (1 + u) * (2 + u) / w))) :
    |A.rnd (p + A.rnd (A.rnd (a - b) / w)) - (t + (a - b) / w)| ≤
      ((1 + u) * (B + 1) - 1) * (M * (1 + 2 * (1 + u) * (2 + u) / w)) := by
  have hu := h.nonneg
  have hw' : (0 : K) < w := by exact_mod_cast hw
  have hd : |a - b| ≤ 2 * M := (abs_sub a b).trans (by linarith)
  have h1 : |A.rnd (a - b) / w - (a - b) / w| ≤ u * (2 * M) / w := by
    rw [← sub_div, abs_div, abs_of_pos hw']
    exact div_le_div_of_nonneg_right ((h.rnd _).trans (mul_le_mul_of_nonneg_left hd hu)) hw'.le
  have h2 := h.rnd_near h1
  have h3 : |(a - b) / w| ≤ 2 * M / w := by
    rw [abs_div, abs_of_pos hw']; exact div_le_div_of_nonneg_right hd hw'.le
  have h4 : |A.rnd (A.rnd (a - b) / w) - (a - b) / w| ≤ u * (2 + u) * (2 * M / w) := by
    refine h2.trans ?_
    have := mul_le_mul_of_nonneg_left h3 hu
    have e : u * (2 * M) / w = u * (2 * M / w) := by ring
    rw [e]; nlinarith
  have h5 : |p + A.rnd (A.rnd (a - b) / w) - (t + (a - b) / w)| ≤
      B * (M * (1 + 2 * (1 + u) * (2 + u) / w)) + u * (2 + u) * (2 * M / w) := by
    have e : p + A.rnd (A.rnd (a - b) / w) - (t + (a - b) / w) = (p - t) + (A.rnd (A.rnd (a - b) / w) - (a - b) / w) := by
      ring
    rw [e]; exact (abs_add_le _ _).trans (add_le_add hp h4)
  refine (h.rnd_near h5).trans ?_
  have h6 := mul_le_mul_of_nonneg_left ht hu
  have e : ((1 + u) * (B + 1) - 1) * (M * (1 + 2 * (1 + u) * (2 + u) / w)) =
      (1 + u) * (B * (M * (1 + 2 * (1 + u) * (2 + u) / w)) + u * (2 + u) * (2 * M / w)) + u * M := by ring
  rw [e]; linarith

/-- **C139** Under rounding with unit roundoff `u`, `moving_average` stays within
`((1 + u)^(i + 2) - 1) M (1 + 2 (1 + u) (2 + u) / w)` of the trailing window mean, where `M` bounds the whole series. -/
theorem C139_moving_average (A : Arith K) (u : K) (h : Std A u) (b : Bool) (xs : List K) (w : Nat) (hw : 1 ≤ w)
    (hwn : w ≤ xs.length) (hnat : ∀ n : ℕ, n ≤ w → A.rnd (n : K) = n) (M : K) (hM : ∀ x ∈ xs, |x| ≤ M) :
    ∃ ys : List K, movingAverage ⟨1, b, Rd.fins A xs⟩ (w : Int) = .ok (Rd.fins A ys) ∧ ys.length = xs.length ∧
      ∀ i, i < xs.length → |ys.getD i 0 - trailingMean xs w i| ≤
        ((1 + u) ^ (i + 2) - 1) * (M * (1 + 2 * (1 + u) * (2 + u) / w)) := by
  have hu := h.nonneg
  have hw' : (0 : K) < w := by exact_mod_cast hw
  have hne : xs ≠ [] := by rintro rfl; simp at hwn; omega
  have hM0 : 0 ≤ M := by
    obtain ⟨x, t, rfl⟩ := List.exists_cons_of_ne_nil hne
    exact (abs_nonneg x).trans (hM x (by simp))
  unfold movingAverage
  simp only [List.length_map, Int.toNat_natCast]
  rw [if_neg (by omega), if_neg (by simpa using hne), if_neg (by simp), if_neg (by omega)]
  have h1 : (List.range w).mapM (fun i => meanOf ((Rd.fins A xs).take (i + 1))) =
      .ok ((List.range w).map (fun i => Rd.fin A (A.rnd (A.sum (xs.take (i + 1)) / (xs.take (i + 1)).length)))) := by
    apply mapM_ok
    intro i hi
    have hi := List.mem_range.mp hi
    have hl : (xs.take (i + 1)).length = i + 1 := by rw [List.length_take]; omega
    rw [← List.map_take]
    exact Rd.meanOf_fins A _ (by rintro h0; rw [h0] at hl; simp at hl) (hnat _ (by omega))
  rw [h1]
  simp only [bind, Except.bind]
  have key : ∀ m, m ≤ xs.length - w → ∃ ys : List K,
      (List.range m).foldl (fun ma t => maStep (Rd.fins A xs) w ma (w + t))
        ((List.range w).map (fun i => Rd.fin A (A.rnd (A.sum (xs.take (i + 1)) / (xs.take (i + 1)).length)))) =
        Rd.fins A ys ∧ ys.length = w + m ∧ ∀ i, i < w + m → |ys.getD i 0 - trailingMean xs w i| ≤
        ((1 + u) ^ (i + 2) - 1) * (M * (1 + 2 * (1 + u) * (2 + u) / w)) := by
    intro m
    induction m with
    | zero =>
      intro _
      refine ⟨(List.range w).map (fun i => A.rnd (A.sum (xs.take (i + 1)) / (xs.take (i + 1)).length)), ?_, by simp, ?_⟩
      · simp only [List.range_zero, List.foldl_nil, List.map_map]; rfl
      · intro i hi
        have hi : i < w := by omega
        have hl : (xs.take (i + 1)).length = i + 1 := by rw [List.length_take]; omega
        have e1 : ((List.range w).map (fun i => A.rnd (A.sum (xs.take (i + 1)) / (xs.take (i + 1)).length))).getD i 0 =
            A.rnd (A.sum (xs.take (i + 1)) / (xs.take (i + 1)).length) := by
          rw [List.getD, List.getElem?_map, List.getElem?_range hi]; rfl
        have e2 : trailingMean xs w i = (xs.take (i + 1)).sum / (xs.take (i + 1)).length := by
          unfold trailingMean
          rw [hl, show i + 1 - w = 0 by omega, List.drop_zero, show Min.min (i + 1) w = i + 1 from Nat.min_eq_left (by omega)]
        rw [e1, e2]
        refine (h.mean_near (xs.take (i + 1)) (by rintro h0; rw [h0] at hl; simp at hl) M
          (fun x hx => hM x (List.mem_of_mem_take hx))).trans ?_
        rw [hl]
        have hP : 1 ≤ (1 + u) ^ (i + 2) := one_le_pow₀ (by linarith)
        refine mul_le_mul_of_nonneg_left ?_ (sub_nonneg.mpr hP)
        have : 0 ≤ 2 * (1 + u) * (2 + u) / w := by positivity
        nlinarith
    | succ m ih =>
      intro hm
      obtain ⟨ys, hys, hl, hv⟩ := ih (by omega)
      rw [List.range_succ, List.foldl_append, hys]
      simp only [List.foldl_cons, List.foldl_nil, maStep]
      have g1 : (Rd.fins A ys).getD (w + m - 1) PyNum.nan = Rd.fin A (ys.getD (w + m - 1) 0) := by
        have : w + m - 1 < ys.length := by omega
        simp [List.getD, this]
      have g2 : ∀ j, j < xs.length → (Rd.fins A xs).getD j PyNum.nan = Rd.fin A (xs.getD j 0) := by
        intro j hj; simp [List.getD, hj]
      rw [g1, g2 _ (by omega), g2 _ (by omega), Rd.sub_fin, Rd.ofNat_fin, hnat w le_rfl, Rd.div_fin A hw'.ne', Rd.add_fin]
      refine ⟨ys ++ [A.rnd (ys.getD (w + m - 1) 0 + A.rnd (A.rnd (xs.getD (w + m) 0 - xs.getD (w + m - w) 0) / w))], ?_,
        by rw [List.length_append, hl]; rfl, ?_⟩
      · simp [Rd.fins]
      · intro i hi
        rcases Nat.lt_or_ge i (w + m) with h2 | h2
        · have e0 : ∀ v : K, (ys ++ [v]).getD i 0 = ys.getD i 0 := by
            intro v; rw [List.getD, List.getD, List.getElem?_append_left (by omega)]
          rw [e0]; exact hv i h2
        · have hi' : i = w + m := by omega
          subst hi'
          have e1 : ∀ v : K, (ys ++ [v]).getD (w + m) 0 = v := by
            intro v; rw [List.getD, List.getElem?_append_right (by omega), hl]; simp
          have hmem : ∀ j, j < xs.length → |xs.getD j 0| ≤ M := by
            intro j hj
            have : xs.getD j 0 = xs[j] := by simp [List.getD, hj]
            rw [this]; exact hM _ (List.getElem_mem hj)
          have ht := trailing_step xs w (w + m) (by omega) (by omega) (by omega)
          rw [e1, ht]
          have hp := hv (w + m - 1) (by omega)
          have := ma_step A u h w hw (xs.getD (w + m) 0) (xs.getD (w + m - w) 0) (ys.getD (w + m - 1) 0)
            (trailingMean xs w (w + m - 1)) M ((1 + u) ^ (w + m - 1 + 2) - 1) (hmem _ (by omega)) (hmem _ (by omega))
            (by rw [← ht]; exact trailing_abs xs w (w + m) hw (by omega) M hM) hp
          refine this.trans (le_of_eq ?_)
          rw [show w + m + 2 = (w + m - 1 + 2) + 1 by omega, pow_succ]
          ring
  obtain ⟨ys, hys, hl, hv⟩ := key (xs.length - w) le_rfl
  exact ⟨ys, by rw [hys], by omega, fun i hi => hv i (by omega)⟩

/-- **C139** The dependence on the whole series cannot be avoided: in binary64 arithmetic, one sample of `10¹⁷` followed by
any number of ones gives, with window 2, zeros for ever instead of ones. -/
theorem C139_contamination (n : ℕ) :
    movingAverage ⟨1, false, Rd.fins bin64 (10 ^ 17 :: List.replicate (n + 1) 1)⟩ 2 =
      .ok (Rd.fins bin64 (10 ^ 17 :: 5 * 10 ^ 16 :: List.replicate n 0)) := by
  have r1 : rnd53 (10 ^ 17 + 1) = 10 ^ 17 := by decide +kernel
  have r2 : rnd53 (10 ^ 17) = 10 ^ 17 := by decide +kernel
  have r3 : rnd53 (5 * 10 ^ 16) = 5 * 10 ^ 16 := by decide +kernel
  have r4 : rnd53 (1 - 10 ^ 17) = -10 ^ 17 := by decide +kernel
  have r5 : rnd53 (-(5 * 10 ^ 16)) = -(5 * 10 ^ 16) := by decide +kernel
  have r0 : rnd53 0 = 0 := by decide +kernel
  have n1 : rnd53 1 = 1 := by decide +kernel
  have n2 : rnd53 2 = 2 := by decide +kernel
  set xs : List ℚ := 10 ^ 17 :: List.replicate (n + 1) 1 with hxs
  have hlen : xs.length = n + 2 := by simp [hxs]
  unfold movingAverage
  simp only [List.length_map, hlen]
  rw [if_neg (by omega), if_neg (by omega), if_neg (by simp), if_neg (by push_cast; omega)]
  have e2 : Int.toNat 2 = 2 := rfl
  rw [e2]
  have h1 : (List.range 2).mapM (fun i => meanOf ((Rd.fins bin64 xs).take (i + 1))) =
      .ok (Rd.fins bin64 [10 ^ 17, 5 * 10 ^ 16]) := by
    have a0 : meanOf ((Rd.fins bin64 xs).take 1) = .ok (Rd.fin bin64 (10 ^ 17)) := by
      rw [← List.map_take, show xs.take 1 = [10 ^ 17] by simp [hxs]]
      rw [show List.map (Rd.fin bin64) [10 ^ 17] = Rd.fins bin64 [10 ^ 17] from rfl,
        Rd.meanOf_fins bin64 [10 ^ 17] (by simp) (rnd53_nat 1 (by norm_num))]
      simp [bin64, leftArith, r2]
    have a1 : meanOf ((Rd.fins bin64 xs).take 2) = .ok (Rd.fin bin64 (5 * 10 ^ 16)) := by
      rw [← List.map_take, show xs.take 2 = [10 ^ 17, 1] by simp [hxs, List.replicate_succ]]
      rw [show List.map (Rd.fin bin64) [10 ^ 17, 1] = Rd.fins bin64 [10 ^ 17, 1] from rfl,
        Rd.meanOf_fins bin64 [10 ^ 17, 1] (by simp) (rnd53_nat 2 (by norm_num))]
      simp only [bin64, leftArith, List.foldl_cons, List.foldl_nil, zero_add, r2, r1, List.length_cons, List.length_nil]
      rw [show (10 ^ 17 : ℚ) / ((2 : ℕ) : ℚ) = 5 * 10 ^ 16 by norm_num, r3]
    show [0, 1].mapM _ = _
    simp only [List.mapM_cons, List.mapM_nil, a0, a1, Nat.zero_add, bind, Except.bind, pure, Except.pure, Nat.reduceAdd,
      List.map_cons, List.map_nil]
  rw [h1]
  simp only [bind, Except.bind]
  congr 1
  have key : ∀ m, m ≤ n → (List.range m).foldl (fun ma t => maStep (Rd.fins bin64 xs) 2 ma (2 + t))
      (Rd.fins bin64 [10 ^ 17, 5 * 10 ^ 16]) = Rd.fins bin64 (10 ^ 17 :: 5 * 10 ^ 16 :: List.replicate m 0) := by
    intro m
    induction m with
    | zero => intro _; rfl
    | succ m ih =>
      intro hm
      rw [List.range_succ, List.foldl_append, ih (by omega)]
      simp only [List.foldl_cons, List.foldl_nil, maStep]
      have g1 : (Rd.fins bin64 (10 ^ 17 :: 5 * 10 ^ 16 :: List.replicate m 0)).getD (2 + m - 1) PyNum.nan =
          Rd.fin bin64 (if m = 0 then 5 * 10 ^ 16 else 0) := by
        cases m with
        | zero => rfl
        | succ k => rw [show 2 + (k + 1) - 1 = k + 2 by omega]; simp [List.getD]
      have g2 : (Rd.fins bin64 xs).getD (2 + m) PyNum.nan = Rd.fin bin64 1 := by
        have : m + 1 < n + 1 := by omega
        rw [show 2 + m = (m + 1) + 1 by omega]; simp [hxs, List.getD, this]
      have g3 : (Rd.fins bin64 xs).getD (2 + m - 2) PyNum.nan = Rd.fin bin64 (if m = 0 then 10 ^ 17 else 1) := by
        cases m with
        | zero => rfl
        | succ k =>
          have : k < n + 1 := by omega
          rw [show 2 + (k + 1) - 2 = k + 1 by omega]; simp [hxs, List.getD, this]
      rw [g1, g2, g3, Rd.sub_fin, Rd.ofNat_fin, rnd53_nat 2 (by norm_num), Rd.div_fin bin64 (by norm_num), Rd.add_fin]
      have hv : bin64.rnd ((if m = 0 then 5 * 10 ^ 16 else 0) +
          bin64.rnd (bin64.rnd (1 - if m = 0 then 10 ^ 17 else 1) / ((2 : ℕ) : ℚ))) = 0 := by
        show rnd53 (_ + rnd53 (rnd53 _ / _)) = 0
        by_cases hm0 : m = 0
        · simp only [hm0, if_true, r4]
          rw [show (-10 ^ 17 : ℚ) / ((2 : ℕ) : ℚ) = -(5 * 10 ^ 16) by norm_num, r5, add_neg_cancel, r0]
        · simp only [hm0, if_false, sub_self, r0, zero_div, add_zero]
      rw [hv, List.replicate_succ']
      simp [Rd.fins]
  have := key n le_rfl
  rw [show n + 2 - 2 = n by omega]
  exact this

/-- **C139** Hence C13 (the moving average stays within the data range) needs exact arithmetic: all samples are at least 1,
and from the third output on the binary64 result is 0. -/
theorem C139_range_fails (n : ℕ) : ∃ ys : List ℚ,
    movingAverage ⟨1, false, Rd.fins bin64 (10 ^ 17 :: List.replicate (n + 1) 1)⟩ 2 = .ok (Rd.fins bin64 ys) ∧
    (∀ x ∈ (10 ^ 17 :: List.replicate (n + 1) 1 : List ℚ), 1 ≤ x) ∧ ∀ i, 2 ≤ i → ys.getD i 0 < 1 := by
  refine ⟨_, C139_contamination n, ?_, ?_⟩
  · intro x hx
    rcases List.mem_cons.mp hx with rfl | hx
    · norm_num
    · rw [List.eq_of_mem_replicate hx]
  · intro i hi
    obtain ⟨k, rfl⟩ : ∃ k, i = k + 2 := ⟨i - 2, by omega⟩
    simp only [List.getD, List.getElem?_cons_succ, List.getElem?_replicate]
    split_ifs <;> simp

/-! ## C140: `weighted_moving_average` -/

/-- specification: linearly weighted mean of the `p` samples from index `k` on, the last one having the largest weight -/
def linearMean (xs : List K) (p k : ℕ) : K :=
  ((List.range p).map (fun j : ℕ => ((j : K) + 1) * xs.getD (k + j) 0)).sum / ((p * (p + 1) : ℕ) / 2)

private theorem weights_sum (p : Nat) : ((List.range p).map (fun j => j + 1)).sum * 2 = p * (p + 1) := by
  induction p with
  | zero => rfl
  | succ p ih => rw [List.range_succ, List.map_append, List.sum_append, Nat.add_mul, ih]; simp; ring

private theorem abs_sum_le (l : List K) : |l.sum| ≤ (l.map (fun x => |x|)).sum := by
  induction l with
  | nil => simp
  | cons x t ih =>
    simp only [List.sum_cons, List.map_cons]
    exact (abs_add_le _ _).trans (by linarith)

/-- rounded products and their rounded sum, against the exact weighted sum -/
private theorem wsum_near (A : Arith K) (u : K) (h : Std A u) (p : ℕ) (y : ℕ → K) (M : K) (hM : ∀ j < p, |y j| ≤ M) :
    |A.sum ((List.range p).map (fun j : ℕ => A.rnd (((j : K) + 1) * y j))) -
      ((List.range p).map (fun j : ℕ => ((j : K) + 1) * y j)).sum| ≤
      ((1 + u) ^ (p + 1) - 1) * ((((List.range p).map (fun j => j + 1)).sum : ℕ) * M) ∧
    |((List.range p).map (fun j : ℕ => ((j : K) + 1) * y j)).sum| ≤
      (((List.range p).map (fun j => j + 1)).sum : ℕ) * M := by
  have hu := h.nonneg
  have key : ∀ q, q ≤ p →
      |((List.range q).map (fun j : ℕ => A.rnd (((j : K) + 1) * y j))).sum -
        ((List.range q).map (fun j : ℕ => ((j : K) + 1) * y j)).sum| ≤
        u * ((((List.range q).map (fun j => j + 1)).sum : ℕ) * M) ∧
      (((List.range q).map (fun j : ℕ => A.rnd (((j : K) + 1) * y j))).map (fun x => |x|)).sum ≤
        (1 + u) * ((((List.range q).map (fun j => j + 1)).sum : ℕ) * M) ∧
      (((List.range q).map (fun j : ℕ => ((j : K) + 1) * y j)).map (fun x => |x|)).sum ≤
        (((List.range q).map (fun j => j + 1)).sum : ℕ) * M := by
    intro q
    induction q with
    | zero => intro _; simp
    | succ q ih =>
      intro hq
      obtain ⟨h1, h2, h3⟩ := ih (by omega)
      have hy := hM q (by omega)
      have hj : (0 : K) < (q : K) + 1 := by positivity
      have h4 : |((q : K) + 1) * y q| ≤ ((q : K) + 1) * M := by
        rw [abs_mul, abs_of_pos hj]; exact mul_le_mul_of_nonneg_left hy hj.le
      have h5 := (h.rnd (((q : K) + 1) * y q)).trans (mul_le_mul_of_nonneg_left h4 hu)
      have h6 : |A.rnd (((q : K) + 1) * y q)| ≤ (1 + u) * (((q : K) + 1) * M) := by
        have := abs_add_le (A.rnd (((q : K) + 1) * y q) - ((q : K) + 1) * y q) (((q : K) + 1) * y q)
        simp only [sub_add_cancel] at this
        linarith
      simp only [List.range_succ, List.map_append, List.sum_append, List.map_cons, List.map_nil, List.sum_cons,
        List.sum_nil, add_zero, Nat.cast_add, Nat.cast_one]
      refine ⟨?_, by linarith, by linarith⟩
      rw [add_sub_add_comm]
      refine (abs_add_le _ _).trans ?_
      linarith
  obtain ⟨h1, h2, h3⟩ := key p le_rfl
  refine ⟨?_, (abs_sum_le _).trans h3⟩
  have h4 := h.sum ((List.range p).map (fun j : ℕ => A.rnd (((j : K) + 1) * y j)))
  rw [List.length_map, List.length_range] at h4
  have hP : 1 ≤ (1 + u) ^ p := one_le_pow₀ (by linarith)
  have h5 := h4.trans (mul_le_mul_of_nonneg_left h2 (sub_nonneg.mpr hP))
  have h6 := (abs_sub_le _ _ _).trans (add_le_add h5 h1)
  refine h6.trans (le_of_eq ?_)
  rw [pow_succ]; ring

/-- **C140** Under rounding with unit roundoff `u`, entry `k` of `weighted_moving_average` is within
`((1 + u)^(p + 2) - 1) M` of the weighted mean, where `M` bounds only the samples of its own window: an outlier leaves no
trace in the windows that do not contain it. -/
theorem C140_weighted_moving_average (A : Arith K) (u : K) (h : Std A u) (xs : List K) (p : Nat) (hp : 1 ≤ p)
    (hpn : p ≤ xs.length) (hnat : ∀ n : ℕ, n ≤ p * (p + 1) / 2 → A.rnd (n : K) = n) :
    ∃ ys : List K, weightedMovingAverage (Rd.fins A xs) (p : Int) = .ok ⟨decide (p = xs.length), Rd.fins A ys⟩ ∧
      ys.length = xs.length - p ∧
      ∀ k, k < ys.length → ∀ M, (∀ j < p, |xs.getD (k + j) 0| ≤ M) →
        |ys.getD k 0 - linearMean xs p k| ≤ ((1 + u) ^ (p + 2) - 1) * M := by
  have hw := weights_sum p
  have hWe : ((List.range p).map (fun j => j + 1)).sum = p * (p + 1) / 2 := by omega
  set W := ((List.range p).map (fun j => j + 1)).sum with hW
  have hWK : (W : K) = ((p * (p + 1) : ℕ) : K) / 2 := by
    rw [← hw]; push_cast; ring
  have hW0 : (0 : K) < (W : K) := by
    rw [hWK]; positivity
  have hpW : p ≤ W := by nlinarith
  refine ⟨(List.range (xs.length - p)).map (fun k =>
    A.rnd (A.sum ((List.range p).map (fun j : ℕ => A.rnd (((j : K) + 1) * xs.getD (k + j) 0))) / W)), ?_, by simp, ?_⟩
  · unfold weightedMovingAverage
    simp only [List.length_map, Int.toNat_natCast]
    rw [if_neg (by omega), if_neg (by omega)]
    have h1 : (List.range (xs.length - p)).map (fun t => wmaAt (Rd.fins A xs) p (p + t)) =
        Rd.fins A ((List.range (xs.length - p)).map (fun k =>
          A.rnd (A.sum ((List.range p).map (fun j : ℕ => A.rnd (((j : K) + 1) * xs.getD (k + j) 0))) / W))) := by
      simp only [Rd.fins, List.map_map]
      apply List.map_congr_left
      intro k hk
      have hk := List.mem_range.mp hk
      show PyNum.sum (List.zipWith _ _ _) /. ofNat W = Rd.fin A _
      have hz : List.zipWith (fun (w : Nat) x => (ofNat w : Rd A) *. x) ((List.range p).map (fun j => j + 1))
          (slice (Rd.fins A xs) (p + k - p) (p + k)) =
          Rd.fins A ((List.range p).map (fun j : ℕ => A.rnd (((j : K) + 1) * xs.getD (k + j) 0))) := by
        have hkk : p + k - p = k := by omega
        rw [hkk]
        have hlen : (slice (Rd.fins A xs) k (p + k)).length = p := by
          simp [slice]; omega
        apply List.ext_getElem
        · simp [hlen]
        · intro j h1 h2
          have hj : j < p := by simpa using h2
          have h3 : k + j < xs.length := by omega
          have h4 : A.rnd ((j : K) + 1) = (j : K) + 1 := by
            have := hnat (j + 1) (by omega)
            simpa using this
          simp [slice, List.getElem_drop, List.getElem_take, List.getD, h3, Rd.ofNat_fin, Rd.mul_fin, h4]
      rw [hz, Rd.sum_fins, Rd.ofNat_fin, hnat W (by omega), Rd.div_fin A hW0.ne']
    rw [h1]
    congr 2
    rw [Bool.eq_iff_iff]; simp
    omega
  · intro k hk M hM
    simp only [List.length_map, List.length_range] at hk
    have e1 : ((List.range (xs.length - p)).map (fun k =>
        A.rnd (A.sum ((List.range p).map (fun j : ℕ => A.rnd (((j : K) + 1) * xs.getD (k + j) 0))) / W))).getD k 0 =
        A.rnd (A.sum ((List.range p).map (fun j : ℕ => A.rnd (((j : K) + 1) * xs.getD (k + j) 0))) / W) := by
      rw [List.getD, List.getElem?_map, List.getElem?_range hk]; rfl
    rw [e1]
    unfold linearMean
    rw [← hWK]
    obtain ⟨h1, h2⟩ := wsum_near A u h p (fun j => xs.getD (k + j) 0) M hM
    rw [← hW] at h1 h2
    set S := A.sum ((List.range p).map (fun j : ℕ => A.rnd (((j : K) + 1) * xs.getD (k + j) 0))) with hS
    set T := ((List.range p).map (fun j : ℕ => ((j : K) + 1) * xs.getD (k + j) 0)).sum with hT
    have h3 : |S / W - T / W| ≤ ((1 + u) ^ (p + 1) - 1) * M := by
      rw [← sub_div, abs_div, abs_of_pos hW0, div_le_iff₀ hW0]; linarith
    have h4 : |T / W| ≤ M := by
      rw [abs_div, abs_of_pos hW0, div_le_iff₀ hW0]; linarith
    refine (h.rnd_near h3).trans ?_
    have := mul_le_mul_of_nonneg_left h4 h.nonneg
    rw [pow_succ (1 + u) (p + 1)]
    linarith

/-- the hypotheses of C140 hold in binary64 for every window up to 10⁷ samples -/
example (p : ℕ) (hp : p ≤ 10 ^ 7) : Std bin64 (1 / 2 ^ 53) ∧ ∀ n : ℕ, n ≤ p * (p + 1) / 2 → bin64.rnd (n : ℚ) = n :=
  ⟨bin64_std, fun n hn => rnd53_nat n (by
    have : p * (p + 1) ≤ 10 ^ 7 * (10 ^ 7 + 1) := Nat.mul_le_mul hp (by omega)
    omega)⟩

/-! ## C141: `exponential_moving_average` -/

private theorem ema_step (A : Arith K) (u : K) (h : Std A u) (alpha : K) (h0 : 0 < alpha) (h1 : alpha ≤ 1)
    (x p t M e : K) (hx : |x| ≤ M) (ht : |t| ≤ M) (hp : |p - t| ≤ e) :
    |A.rnd (A.rnd (alpha * x) + A.rnd (A.rnd (1 - alpha) * p)) - (alpha * x + (1 - alpha) * t)| ≤
      (1 - alpha) * (1 + u) ^ 3 * e + ((1 + u) ^ 3 - 1) * M := by
  have hu := h.nonneg
  have ha : 0 ≤ 1 - alpha := by linarith
  have hM : 0 ≤ M := (abs_nonneg x).trans hx
  have he : 0 ≤ e := (abs_nonneg _).trans hp
  have h2 : |alpha * x| ≤ alpha * M := by
    rw [abs_mul, abs_of_pos h0]; exact mul_le_mul_of_nonneg_left hx h0.le
  have h3 := (h.rnd (alpha * x)).trans (mul_le_mul_of_nonneg_left h2 hu)
  have h4 := h.rnd (1 - alpha)
  rw [abs_of_nonneg ha] at h4
  have hpM : |p| ≤ M + e := by
    have := abs_add_le (p - t) t
    simp only [sub_add_cancel] at this
    linarith
  have h5 : |A.rnd (1 - alpha) * p - (1 - alpha) * t| ≤ u * (1 - alpha) * (M + e) + (1 - alpha) * e := by
    have e1 : A.rnd (1 - alpha) * p - (1 - alpha) * t = (A.rnd (1 - alpha) - (1 - alpha)) * p + (1 - alpha) * (p - t) := by
      ring
    rw [e1]
    refine (abs_add_le _ _).trans (add_le_add ?_ ?_)
    · rw [abs_mul]; exact mul_le_mul h4 hpM (abs_nonneg _) (by positivity)
    · rw [abs_mul, abs_of_nonneg ha]; exact mul_le_mul_of_nonneg_left hp ha
  have h6 := h.rnd_near h5
  have h7 : |(1 - alpha) * t| ≤ (1 - alpha) * M := by
    rw [abs_mul, abs_of_nonneg ha]; exact mul_le_mul_of_nonneg_left ht ha
  have h8 : |A.rnd (alpha * x) + A.rnd (A.rnd (1 - alpha) * p) - (alpha * x + (1 - alpha) * t)| ≤
      u * (alpha * M) + ((1 + u) * (u * (1 - alpha) * (M + e) + (1 - alpha) * e) + u * ((1 - alpha) * M)) := by
    rw [add_sub_add_comm]
    refine (abs_add_le _ _).trans (add_le_add h3 (h6.trans ?_))
    have := mul_le_mul_of_nonneg_left h7 hu
    linarith
  have h9 := h.rnd_near h8
  have h10 : |alpha * x + (1 - alpha) * t| ≤ M := (abs_add_le _ _).trans (by linarith)
  refine h9.trans ?_
  have h11 := mul_le_mul_of_nonneg_left h10 hu
  have h12 : 0 ≤ u * u * alpha * M := by positivity
  have h13 : 0 ≤ u * (u * u * alpha * M) := by positivity
  have h14 : 0 ≤ u * alpha * M := by positivity
  nlinarith

private theorem emaClosed_abs (alpha : K) (h0 : 0 < alpha) (h1 : alpha ≤ 1) (x : ℕ → K) (M : K) (i : ℕ)
    (hM : ∀ j ≤ i, |x j| ≤ M) : |emaClosed alpha x i| ≤ M := by
  induction i with
  | zero => simpa [emaClosed] using hM 0 le_rfl
  | succ i ih =>
    have h2 := abs_le.mp (ih (fun j hj => hM j (by omega)))
    have h3 := abs_le.mp (hM (i + 1) le_rfl)
    rw [emaClosed_succ, abs_le]
    constructor <;> nlinarith [h2.1, h2.2, h3.1, h3.2]

private theorem ema_loop (A : Arith K) (u : K) (h : Std A u) (hone : A.rnd 1 = 1) (alpha : K) (h0 : 0 < alpha)
    (h1 : alpha ≤ 1) (x : ℕ → K) (M : K) (B : ℕ → K)
    (hB : ∀ i, (1 - alpha) * (1 + u) ^ 3 * B i + ((1 + u) ^ 3 - 1) * M ≤ B (i + 1)) :
    ∀ (t : List K) (i0 : ℕ) (p : K), (∀ j, j ≤ i0 + t.length → |x j| ≤ M) →
      (∀ j (hj : j < t.length), t[j] = x (i0 + 1 + j)) → |p - emaClosed alpha x i0| ≤ B i0 →
      ∃ ys : List K, emaLoop false (Rd.fin A alpha) (Rd.fin A p) (Rd.fins A t) = Rd.fins A ys ∧ ys.length = t.length ∧
        ∀ j, j < t.length → |ys.getD j 0 - emaClosed alpha x (i0 + 1 + j)| ≤ B (i0 + 1 + j) := by
  intro t
  induction t with
  | nil => intro i0 p _ _ _; exact ⟨[], rfl, rfl, by simp⟩
  | cons z t ih =>
    intro i0 p hM hx hp
    have hz : z = x (i0 + 1) := hx 0 (by simp)
    have hstep := ema_step A u h alpha h0 h1 (x (i0 + 1)) p (emaClosed alpha x i0) M (B i0)
      (hM _ (by simp)) (emaClosed_abs alpha h0 h1 x M i0 (fun j hj => hM j (by omega))) hp
    rw [← emaClosed_succ] at hstep
    have hstep := hstep.trans (hB i0)
    set p' := A.rnd (A.rnd (alpha * x (i0 + 1)) + A.rnd (A.rnd (1 - alpha) * p)) with hp'
    obtain ⟨ys, hy, hl, hv⟩ := ih (i0 + 1) p' (fun j hj => hM j (by simp only [List.length_cons]; omega))
      (fun j hj => by
        have := hx (j + 1) (by simpa using hj)
        simp only [List.getElem_cons_succ] at this
        rw [this]; congr 1; omega) hstep
    refine ⟨p' :: ys, ?_, by simp [hl], ?_⟩
    · have e1 : (lit 1 : Rd A) = Rd.fin A 1 := by rw [Rd.lit_fin, Rat.cast_one, hone]
      simp only [Rd.fins, List.map_cons, emaLoop, store, Bool.false_eq_true, if_false]
      rw [e1, Rd.mul_fin, Rd.sub_fin, Rd.mul_fin, Rd.add_fin, hz, ← hp', hy]
    · intro j hj
      cases j with
      | zero => simpa using hstep
      | succ j =>
        have := hv j (by simpa using hj)
        rw [show i0 + 1 + (j + 1) = i0 + 1 + 1 + j by omega]
        simpa using this

/-- **C141** Under rounding with unit roundoff `u`, `exponential_moving_average` of float data stays within
`((1 + u)^(3 i) - 1) M` of its closed form at index `i`; and when `(1 - α) (1 + u)³ < 1` the error has a bound that does not
grow with the length of the record. -/
theorem C141_ema (A : Arith K) (u : K) (h : Std A u) (hone : A.rnd 1 = 1) (xs : List K) (hne : xs ≠ []) (alpha : K)
    (h0 : 0 < alpha) (h1 : alpha ≤ 1) (M : K) (hM : ∀ x ∈ xs, |x| ≤ M) :
    ∃ ys : List K, exponentialMovingAverage ⟨1, false, Rd.fins A xs⟩ (Rd.fin A alpha) = .ok (Rd.fins A ys) ∧
      ys.length = xs.length ∧
      (∀ i, i < xs.length → |ys.getD i 0 - emaClosed alpha (fun j => xs.getD j 0) i| ≤ ((1 + u) ^ (3 * i) - 1) * M) ∧
      ((1 - alpha) * (1 + u) ^ 3 < 1 → ∀ i, i < xs.length →
        |ys.getD i 0 - emaClosed alpha (fun j => xs.getD j 0) i| ≤
          ((1 + u) ^ 3 - 1) * M / (1 - (1 - alpha) * (1 + u) ^ 3)) := by
  obtain ⟨x0, t, rfl⟩ := List.exists_cons_of_ne_nil hne
  have hu := h.nonneg
  have ha : 0 ≤ 1 - alpha := by linarith
  have hM0 : 0 ≤ M := (abs_nonneg x0).trans (hM x0 (by simp))
  have hP : 1 ≤ (1 + u) ^ 3 := one_le_pow₀ (by linarith)
  set x : ℕ → K := fun j => (x0 :: t).getD j 0 with hx
  have hx0 : emaClosed alpha x 0 = x0 := by simp [emaClosed, hx]
  have hMx : ∀ j, |x j| ≤ M := by
    intro j
    by_cases hj : j < (x0 :: t).length
    · have : x j = (x0 :: t)[j] := by simp only [hx, List.getD]; rw [List.getElem?_eq_getElem hj]; rfl
      rw [this]; exact hM _ (List.getElem_mem hj)
    · have : x j = 0 := by simp only [hx, List.getD]; rw [List.getElem?_eq_none (by omega)]; rfl
      rw [this]; simpa using hM0
  have hxt : ∀ j (hj : j < t.length), t[j] = x (0 + 1 + j) := by
    intro j hj; simp [hx, List.getD, hj, Nat.add_comm 1 j]
  have hc : (((Rd.fin A alpha) ≤. lit 0) || (lit 1 <. (Rd.fin A alpha))) = false := by
    rw [Rd.lit_fin, Rd.lit_fin, Rat.cast_zero, Rat.cast_one, hone, h.rnd_zero, Rd.le_fin, Rd.lt_fin]
    simp [h0, h1]
  have main : ∀ B : ℕ → K, (∀ i, (1 - alpha) * (1 + u) ^ 3 * B i + ((1 + u) ^ 3 - 1) * M ≤ B (i + 1)) → 0 ≤ B 0 →
      ∃ ys : List K, emaLoop false (Rd.fin A alpha) (Rd.fin A x0) (Rd.fins A t) = Rd.fins A ys ∧ ys.length = t.length ∧
        ∀ i, i < (x0 :: t).length → |(x0 :: ys).getD i 0 - emaClosed alpha x i| ≤ B i := by
    intro B hB hB0
    obtain ⟨ys, hy, hl, hv⟩ := ema_loop A u h hone alpha h0 h1 x M B hB t 0 x0 (fun j _ => hMx j) hxt
      (by rw [hx0]; simpa using hB0)
    refine ⟨ys, hy, hl, ?_⟩
    intro i hi
    cases i with
    | zero => rw [hx0]; simpa using hB0
    | succ i =>
      have := hv i (by simpa using hi)
      rw [show 0 + 1 + i = i + 1 by omega] at this
      simpa using this
  obtain ⟨ys, hy, hl, hv⟩ := main (fun i => ((1 + u) ^ (3 * i) - 1) * M) (by
    intro i
    have h2 : 1 ≤ (1 + u) ^ (3 * i) := one_le_pow₀ (by linarith)
    have e : (1 + u) ^ (3 * (i + 1)) = (1 + u) ^ (3 * i) * (1 + u) ^ 3 := by rw [← pow_add]; congr 1
    have h3 : 0 ≤ ((1 + u) ^ (3 * i) - 1) * M := mul_nonneg (by linarith) hM0
    have h4 : (1 - alpha) * (1 + u) ^ 3 * (((1 + u) ^ (3 * i) - 1) * M) ≤
        (1 + u) ^ 3 * (((1 + u) ^ (3 * i) - 1) * M) := by
      refine mul_le_mul_of_nonneg_right ?_ h3
      nlinarith
    rw [e]; nlinarith) (by simp)
  refine ⟨x0 :: ys, ?_, by simp [hl], hv, ?_⟩
  · simp only [exponentialMovingAverage, hc, Bool.false_eq_true, if_false, Rd.fins, List.map_cons]
    rw [hy]
  · intro hr
    have hr' : 0 < 1 - (1 - alpha) * (1 + u) ^ 3 := by linarith
    have hC : 0 ≤ ((1 + u) ^ 3 - 1) * M := mul_nonneg (by linarith) hM0
    obtain ⟨zs, hz, hzl, hzv⟩ := main (fun _ => ((1 + u) ^ 3 - 1) * M / (1 - (1 - alpha) * (1 + u) ^ 3)) (by
      intro _
      apply le_of_eq
      field_simp
      ring) (div_nonneg hC hr'.le)
    have hinj : ∀ a b : List K, Rd.fins A a = Rd.fins A b → a = b := fun a b hab =>
      List.map_injective_iff.mpr (fun p q hpq => by injection hpq) hab
    have : zs = ys := hinj _ _ (hz.symm.trans hy)
    rw [← this]
    exact hzv

/-- the condition of the uniform bound holds in binary64 for every `α ≥ 10⁻¹⁵` -/
example (alpha : ℚ) (h : 1 / 10 ^ 15 ≤ alpha) :
    (1 - alpha) * (1 + 1 / 2 ^ 53) ^ 3 < 1 ∧ bin64.rnd 1 = 1 ∧ Std bin64 (1 / 2 ^ 53) := by
  refine ⟨?_, by have := rnd53_nat 1 (by norm_num); simpa using this, bin64_std⟩
  have h2 : (1 - alpha) * (1 + 1 / 2 ^ 53 : ℚ) ^ 3 ≤ (1 - 1 / 10 ^ 15) * (1 + 1 / 2 ^ 53) ^ 3 :=
    mul_le_mul_of_nonneg_right (by linarith) (by positivity)
  exact h2.trans_lt (by norm_num)

/-- **C141** The error does not vanish either: in binary64, with `α = 0.1`, the average of a recording that is constantly `0.3` is the
next larger number from the second sample on, for ever. -/
theorem C141_constant_series : ∃ a c d : ℚ, a = rnd53 (1 / 10) ∧ c = rnd53 (3 / 10) ∧ c < d ∧ ∀ n : ℕ,
    exponentialMovingAverage ⟨1, false, Rd.fins bin64 (c :: List.replicate n c)⟩ (Rd.fin bin64 a) =
      .ok (Rd.fins bin64 (c :: List.replicate n d)) := by
  refine ⟨rnd53 (1 / 10), rnd53 (3 / 10), rnd53 (rnd53 (rnd53 (1 / 10) * rnd53 (3 / 10)) + rnd53 (rnd53 (1 - rnd53 (1 / 10)) * rnd53 (3 / 10))),
    rfl, rfl, by decide +kernel, fun n => ?_⟩
  set a := rnd53 (1 / 10) with ha
  set c := rnd53 (3 / 10) with hc
  set d := rnd53 (rnd53 (a * c) + rnd53 (rnd53 (1 - a) * c)) with hd
  have h1 : rnd53 ((1 : ℚ)) = 1 := by decide +kernel
  have step : ∀ y : ℚ, (store false (Rd.fin bin64 a *. Rd.fin bin64 c +. (lit 1 -. Rd.fin bin64 a) *. Rd.fin bin64 y) : Rd bin64) =
      Rd.fin bin64 (rnd53 (rnd53 (a * c) + rnd53 (rnd53 (1 - a) * y))) := by
    intro y
    have : (lit 1 : Rd bin64) = Rd.fin bin64 1 := by
      rw [Rd.lit_fin, Rat.cast_one]; exact congrArg _ h1
    rw [this]
    rfl
  have fix : rnd53 (rnd53 (a * c) + rnd53 (rnd53 (1 - a) * d)) = d := by rw [hd, ha, hc]; decide +kernel
  have loop : ∀ n, emaLoop false (Rd.fin bin64 a) (Rd.fin bin64 d) (Rd.fins bin64 (List.replicate n c)) = Rd.fins bin64 (List.replicate n d) := by
    intro n
    induction n with
    | zero => rfl
    | succ n ih =>
      simp only [List.replicate_succ, Rd.fins, List.map_cons, emaLoop]
      rw [step, fix]
      exact congrArg _ ih
  have hcond : ((Rd.fin bin64 a ≤. lit 0) || (lit 1 <. Rd.fin bin64 a)) = false := by rw [ha]; decide +kernel
  unfold exponentialMovingAverage
  rw [hcond]
  simp only [Bool.false_eq_true, if_false, Rd.fins, List.map_cons]
  cases n with
  | zero => rfl
  | succ n =>
    simp only [List.replicate_succ, List.map_cons, emaLoop]
    rw [step, ← hd]
    exact congrArg (fun l => Except.ok (Rd.fin bin64 c :: Rd.fin bin64 d :: l)) (loop n)

end Proadv.Props
