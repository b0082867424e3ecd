import Verif.Py.Underflow
import Verif.Props.Rounding
import Verif.Props.RoundSpread

/-!
# Property C234: averages and variance when results may underflow

C139–C142 assume that every operation has a relative error.  Here products and quotients may also be off by an absolute `η`, as
in binary64 with subnormal numbers (`Verif/Py/Underflow.lean`); the same model definitions are evaluated.
-/

set_option linter.unusedSectionVars false

namespace Proadv.Props

open Proadv Descriptive Series Spread

variable {K : Type} [Field K] [LinearOrder K] [FloorRing K] [IsStrictOrderedRing K]

/-! ## Facts about the exact quantities -/

private theorem trailing_abs_u (xs : List K) (w i : Nat) (hw : 1 ≤ w) (hi : i < xs.length) (M : K)
    (hM : ∀ x ∈ xs, |x| ≤ M) : |trailingMean xs w i| ≤ M := by
  set win := (xs.take (i + 1)).drop (i + 1 - w) with hwin
  have hlen : win.length = Min.min (i + 1) w := by
    rw [hwin, List.length_drop, List.length_take]
    omega
  have hne : win ≠ [] := by
    intro h0; rw [h0, List.length_nil] at hlen; omega
  have hsub : ∀ x ∈ win, x ∈ xs := fun x hx => List.mem_of_mem_take (List.mem_of_mem_drop hx)
  have ht : trailingMean xs w i = Spec.avg win := by
    unfold trailingMean Spec.avg; rw [hlen]
  rw [ht, abs_le]
  exact ⟨Spec.le_avg hne (fun x hx => (abs_le.mp (hM x (hsub x hx))).1),
    Spec.avg_le hne (fun x hx => (abs_le.mp (hM x (hsub x hx))).2)⟩

private theorem weights_sum_u (p : Nat) : ((List.range p).map (fun j => j + 1)).sum * 2 = p * (p + 1) := by
  induction p with
  | zero => rfl
  | succ p ih => rw [List.range_succ, List.map_append, List.sum_append, Nat.add_mul, ih]; simp; ring

private theorem abs_sum_le_u (l : List K) : |l.sum| ≤ (l.map (fun x => |x|)).sum := by
  induction l with
  | nil => simp
  | cons x t ih =>
    simp only [List.sum_cons, List.map_cons]
    exact (abs_add_le _ _).trans (by linarith)

private theorem emaClosed_abs_u (alpha : K) (h0 : 0 < alpha) (h1 : alpha ≤ 1) (x : ℕ → K) (M : K) (i : ℕ)
    (hM : ∀ j ≤ i, |x j| ≤ M) : |emaClosed alpha x i| ≤ M := by
  induction i with
  | zero => simpa [emaClosed] using hM 0 le_rfl
  | succ i ih =>
    have h2 := abs_le.mp (ih (fun j hj => hM j (by omega)))
    have h3 := abs_le.mp (hM (i + 1) le_rfl)
    rw [emaClosed_succ, abs_le]
    constructor <;> nlinarith [h2.1, h2.2, h3.1, h3.2]

/-- mean square about any point -/
private theorem mean_sq_about_u (xs : List K) (hne : xs ≠ []) (m : K) :
    (xs.map (fun x => (x - m) * (x - m))).sum / xs.length = Spec.var xs + (m - Spec.avg xs) ^ 2 := by
  have hn : (xs.length : K) ≠ 0 := Spec.length_ne hne
  have key : ∀ (a : K) (l : List K), (l.map (fun x => (x - m) * (x - m))).sum =
      (l.map (fun x => (x - a) ^ 2)).sum + 2 * (a - m) * (l.sum - l.length * a) + l.length * (a - m) ^ 2 := by
    intro a l
    induction l with
    | nil => simp
    | cons x t ih =>
      simp only [List.map_cons, List.sum_cons, ih, List.length_cons]
      push_cast
      ring
  rw [key (Spec.avg xs) xs]
  have hs : xs.sum = xs.length * Spec.avg xs := by unfold Spec.avg; field_simp
  have e : Spec.var xs = (xs.map (fun x => (x - Spec.avg xs) ^ 2)).sum / xs.length := by
    unfold Spec.var Spec.cmoment
    rw [show ∀ l : List K, Spec.avg l = l.sum / l.length from fun _ => rfl, List.length_map]
  rw [e, ← hs]
  field_simp
  ring

/-! ## Mean -/

private theorem npMean_u (A : Arith K) (xs : List K) (hne : xs ≠ []) (hn : A.rnd (xs.length : K) = xs.length) :
    npMean (Rd.fins A xs) = Rd.fin A (A.rnd (A.sum xs / xs.length)) := by
  have h0 : (xs.length : K) ≠ 0 := by
    exact_mod_cast (List.length_pos_of_ne_nil hne).ne'
  unfold npMean
  rw [Rd.sum_fins, List.length_map, Rd.ofNat_fin, hn, Rd.div_fin A h0]

private theorem mean_near_u (A : Arith K) (u η : K) (Rep : K → Prop) (h : Gradual A u η Rep) (xs : List K) (hne : xs ≠ [])
    (hrep : ∀ x ∈ xs, Rep x) :
    |A.rnd (A.sum xs / xs.length) - Spec.avg xs| ≤
      ((1 + u) ^ (xs.length + 1) - 1) * Spec.avg (xs.map (fun x => |x|)) + η := by
  have hn : (0 : K) < xs.length := by exact_mod_cast List.length_pos_of_ne_nil hne
  have h1 := h.sum xs hrep
  set T := Spec.avg (xs.map (fun x => |x|)) with hT
  have hT' : (xs.map (fun x => |x|)).sum = xs.length * T := by
    rw [hT]; unfold Spec.avg; rw [List.length_map]; field_simp
  have h3 := abs_sum_le_u xs
  rw [hT'] at h1 h3
  have h4 : |A.sum xs / xs.length - Spec.avg xs| ≤ ((1 + u) ^ xs.length - 1) * T := by
    unfold Spec.avg
    rw [← sub_div, abs_div, abs_of_pos hn, div_le_iff₀ hn]
    linarith
  have h5 : |Spec.avg xs| ≤ T := by
    unfold Spec.avg
    rw [abs_div, abs_of_pos hn, div_le_iff₀ hn]; linarith
  refine (h.rnd_near h4).trans ?_
  have := mul_le_mul_of_nonneg_left h5 h.nonneg
  rw [pow_succ]
  linarith

/-- **C234** With underflow the mean of `n` representable numbers is off by at most `η` more than without (C142). -/
theorem C234_mean (A : Arith K) (u η : K) (Rep : K → Prop) (h : Gradual A u η Rep) (parse : String → Option (Rd A))
    (xs : List K) (hne : xs ≠ []) (hrep : ∀ x ∈ xs, Rep x) (hn : A.rnd (xs.length : K) = xs.length) :
    ∃ m : K, mean parse (.seq (numItems (Rd.fins A xs))) = .ok (.val (Rd.fin A m)) ∧
      |m - Spec.avg xs| ≤ ((1 + u) ^ (xs.length + 1) - 1) * Spec.avg (xs.map (fun x => |x|)) + η :=
  ⟨_, by rw [mean_numItems parse _ (by simpa using hne), npMean_u A xs hne hn], mean_near_u A u η Rep h xs hne hrep⟩

/-! ## Variance -/

private theorem sq_sum_near_u (A : Arith K) (u η : K) (Rep : K → Prop) (h : Gradual A u η Rep) (m : K)
    (hm : Rep m) (xs : List K) (hrep : ∀ x ∈ xs, Rep x) :
    |(xs.map (fun x => A.rnd (A.rnd (x - m) * A.rnd (x - m)))).sum - (xs.map (fun x => (x - m) * (x - m))).sum| ≤
      ((1 + u) ^ 3 - 1) * (xs.map (fun x => (x - m) * (x - m))).sum + xs.length * η ∧
    ((xs.map (fun x => A.rnd (A.rnd (x - m) * A.rnd (x - m)))).map (fun x => |x|)).sum ≤
      (1 + u) ^ 3 * (xs.map (fun x => (x - m) * (x - m))).sum + xs.length * η := by
  have hu := h.nonneg
  induction xs with
  | nil => simp
  | cons x t ih =>
    obtain ⟨h1, h2⟩ := ih (fun y hy => hrep y (by simp [hy]))
    simp only [List.map_cons, List.sum_cons, List.length_cons, Nat.cast_add, Nat.cast_one]
    have hd := h.sub x m (hrep x (by simp)) hm
    have hsq : |x - m| * |x - m| = (x - m) * (x - m) := abs_mul_abs_self _
    have h3 : |A.rnd (x - m) + (x - m)| ≤ (2 + u) * |x - m| := by
      have e : A.rnd (x - m) + (x - m) = (A.rnd (x - m) - (x - m)) + 2 * (x - m) := by ring
      rw [e]
      refine (abs_add_le _ _).trans ?_
      rw [abs_mul, abs_of_pos (by norm_num : (0 : K) < 2)]
      linarith
    have h4 : |A.rnd (x - m) * A.rnd (x - m) - (x - m) * (x - m)| ≤ (u * (2 + u)) * ((x - m) * (x - m)) := by
      have e : A.rnd (x - m) * A.rnd (x - m) - (x - m) * (x - m) =
          (A.rnd (x - m) - (x - m)) * (A.rnd (x - m) + (x - m)) := by ring
      rw [e, abs_mul]
      refine (mul_le_mul hd h3 (abs_nonneg _) (by positivity)).trans (le_of_eq ?_)
      rw [← hsq]; ring
    have h5 := h.rnd_near h4
    rw [abs_of_nonneg (mul_self_nonneg (x - m))] at h5
    have h6 : |A.rnd (A.rnd (x - m) * A.rnd (x - m)) - (x - m) * (x - m)| ≤
        ((1 + u) ^ 3 - 1) * ((x - m) * (x - m)) + η := h5.trans (le_of_eq (by ring))
    have h7 : |A.rnd (A.rnd (x - m) * A.rnd (x - m))| ≤ (1 + u) ^ 3 * ((x - m) * (x - m)) + η := by
      have := abs_add_le (A.rnd (A.rnd (x - m) * A.rnd (x - m)) - (x - m) * (x - m)) ((x - m) * (x - m))
      rw [sub_add_cancel, abs_of_nonneg (mul_self_nonneg (x - m))] at this
      linarith
    refine ⟨?_, by linarith⟩
    rw [add_sub_add_comm]
    refine (abs_add_le _ _).trans ?_
    linarith

/-- **C234** With underflow, the variance of `n` representable numbers has the error of C142 with `η` added to the error of the
mean, plus `((1 + u)^(n+1) + 1) η`. -/
theorem C234_variance (A : Arith K) (u η : K) (Rep : K → Prop) (h : Gradual A u η Rep) (b : Bool) (xs : List K)
    (hne : xs ≠ []) (hrep : ∀ x ∈ xs, Rep x)
    (hn : A.rnd (xs.length : K) = xs.length) :
    ∃ v : K, variance ⟨1, b, numItems (Rd.fins A xs)⟩ = .ok (Rd.fin A v) ∧
      |v - Spec.var xs| ≤ ((1 + u) ^ (xs.length + 4) - 1) * Spec.var xs +
        (1 + u) ^ (xs.length + 4) * (((1 + u) ^ (xs.length + 1) - 1) * Spec.avg (xs.map (fun x => |x|)) + η) ^ 2 +
        ((1 + u) ^ (xs.length + 1) + 1) * η := by
  have hη := h.eta
  have hu := h.nonneg
  have hpos : (0 : K) < xs.length := by exact_mod_cast List.length_pos_of_ne_nil hne
  set m := A.rnd (A.sum xs / xs.length) with hm
  set D := (xs.map (fun x => (x - m) * (x - m))).sum with hD
  set Q := xs.map (fun x => A.rnd (A.rnd (x - m) * A.rnd (x - m))) with hQ
  refine ⟨A.rnd (A.sum Q / xs.length), ?_, ?_⟩
  · have hv : (numItems (Rd.fins A xs)).filterMap Item.val? = Rd.fins A xs := by
      simp [numItems, List.filterMap_map, Function.comp_def, Item.val?]
    have hs : (numItems (Rd.fins A xs)).any Item.isStr = false := by simp [numItems, Item.isStr]
    unfold variance
    simp only [hs]
    rw [if_neg (by simp), if_neg (by simp), if_neg (by simpa [numItems] using hne), hv]
    unfold npVar
    simp only
    rw [npMean_u A xs hne hn, List.map_map]
    have e : (xs.map ((fun x => (x -. Rd.fin A (A.rnd (A.sum xs / xs.length))) *. (x -. Rd.fin A (A.rnd (A.sum xs / xs.length)))) ∘ Rd.fin A)) = Rd.fins A Q := by
      rw [hQ, Rd.fins, List.map_map]
      apply List.map_congr_left
      intro x _
      show (Rd.fin A x -. _) *. _ = _
      rw [Rd.sub_fin, Rd.mul_fin]; rfl
    rw [e, Rd.sum_fins, List.length_map, Rd.ofNat_fin, hn, Rd.div_fin A hpos.ne']
  · obtain ⟨h1, h2⟩ := sq_sum_near_u A u η Rep h m (h.rep _) xs hrep
    have h3 := h.sum Q (by intro q hq; obtain ⟨z, -, rfl⟩ := List.mem_map.mp hq; exact h.rep _)
    have hlQ : Q.length = xs.length := by simp [hQ]
    rw [hlQ] at h3
    have hP : 1 ≤ (1 + u) ^ xs.length := one_le_pow₀ (by linarith)
    have h4 : |A.sum Q - D| ≤ ((1 + u) ^ (xs.length + 3) - 1) * D + (1 + u) ^ xs.length * η * xs.length := by
      have h5 := h3.trans (mul_le_mul_of_nonneg_left h2 (sub_nonneg.mpr hP))
      refine ((abs_sub_le _ _ _).trans (add_le_add h5 h1)).trans (le_of_eq ?_)
      rw [pow_add]; ring
    have hD0 : 0 ≤ D := List.sum_nonneg (by
      intro y hy; obtain ⟨z, -, rfl⟩ := List.mem_map.mp hy; exact mul_self_nonneg _)
    have h6 : |A.sum Q / xs.length - D / xs.length| ≤ ((1 + u) ^ (xs.length + 3) - 1) * (D / xs.length) +
        (1 + u) ^ xs.length * η := by
      rw [← sub_div, abs_div, abs_of_pos hpos, div_le_iff₀ hpos, add_mul, mul_assoc, div_mul_cancel₀ _ hpos.ne']
      exact h4
    have h7 := h.rnd_near h6
    rw [abs_of_nonneg (div_nonneg hD0 hpos.le), mean_sq_about_u xs hne m] at h7
    have h8 : (m - Spec.avg xs) ^ 2 ≤ (((1 + u) ^ (xs.length + 1) - 1) * Spec.avg (xs.map (fun x => |x|)) + η) ^ 2 := by
      rw [← sq_abs]
      exact pow_le_pow_left₀ (abs_nonneg _) (mean_near_u A u η Rep h xs hne hrep) 2
    set E := (m - Spec.avg xs) ^ 2 with hE
    have hE0 : 0 ≤ E := sq_nonneg _
    have h9 : |A.rnd (A.sum Q / xs.length) - Spec.var xs| ≤
        |A.rnd (A.sum Q / xs.length) - (Spec.var xs + E)| + E := by
      have := abs_sub_le (A.rnd (A.sum Q / xs.length)) (Spec.var xs + E) (Spec.var xs)
      rwa [add_sub_cancel_left, abs_of_nonneg hE0] at this
    have h10 : (1 + u) ^ (xs.length + 4) * E ≤ (1 + u) ^ (xs.length + 4) *
        (((1 + u) ^ (xs.length + 1) - 1) * Spec.avg (xs.map (fun x => |x|)) + η) ^ 2 :=
      mul_le_mul_of_nonneg_left h8 (by positivity)
    have e4 : (1 + u) ^ (xs.length + 4) = (1 + u) * (1 + u) ^ (xs.length + 3) := by rw [pow_succ]; ring
    rw [e4] at h10 ⊢
    rw [pow_succ (1 + u) xs.length] at h10 ⊢
    linarith

/-! ## `moving_average` -/

private theorem ma_step_u (A : Arith K) (u η : K) (Rep : K → Prop) (h : Gradual A u η Rep) (w : Nat) (hw : 1 ≤ w)
    (a b p t M B E : K) (hra : Rep a) (hrb : Rep b) (hrp : Rep p) (ha : |a| ≤ M) (hb : |b| ≤ M) (ht : |t + (a - b) / w| ≤ M) 
    (hp : |p - t| ≤ B * (M * (1 + 2 * (1 + u) * (2 + u) / w)) + E) :
    |A.rnd (p + A.rnd (A.rnd (a - b) / w)) - (t + (a - b) / w)| ≤
      ((1 + u) * (B + 1) - 1) * (M * (1 + 2 * (1 + u) * (2 + u) / w)) + (1 + u) * (E + η) := by
  have hu := h.nonneg
  have hw' : (0 : K) < w := by exact_mod_cast hw
  have hd : |a - b| ≤ 2 * M := (abs_sub a b).trans (by linarith)
  have h1 : |A.rnd (a - b) / w - (a - b) / w| ≤ u * (2 * M) / w := by
    rw [← sub_div, abs_div, abs_of_pos hw']
    exact div_le_div_of_nonneg_right ((h.sub a b hra hrb).trans (mul_le_mul_of_nonneg_left hd hu)) hw'.le
  have h2 := h.rnd_near h1
  have h3 : |(a - b) / w| ≤ 2 * M / w := by
    rw [abs_div, abs_of_pos hw']; exact div_le_div_of_nonneg_right hd hw'.le
  have h4 : |A.rnd (A.rnd (a - b) / w) - (a - b) / w| ≤ u * (2 + u) * (2 * M / w) + η := by
    refine h2.trans ?_
    have := mul_le_mul_of_nonneg_left h3 hu
    have e : u * (2 * M) / w = u * (2 * M / w) := by ring
    rw [e]; nlinarith
  have h5 : |p + A.rnd (A.rnd (a - b) / w) - (t + (a - b) / w)| ≤
      B * (M * (1 + 2 * (1 + u) * (2 + u) / w)) + E + (u * (2 + u) * (2 * M / w) + η) := by
    have e : p + A.rnd (A.rnd (a - b) / w) - (t + (a - b) / w) = (p - t) + (A.rnd (A.rnd (a - b) / w) - (a - b) / w) := by
      ring
    rw [e]; exact (abs_add_le _ _).trans (add_le_add hp h4)
  refine (h.near_of_rel (h.add p _ hrp (h.rep _)) h5).trans ?_
  have h6 := mul_le_mul_of_nonneg_left ht hu
  have e : ((1 + u) * (B + 1) - 1) * (M * (1 + 2 * (1 + u) * (2 + u) / w)) =
      (1 + u) * (B * (M * (1 + 2 * (1 + u) * (2 + u) / w)) + u * (2 + u) * (2 * M / w)) + u * M := by ring
  rw [e]; linarith

/-- **C234** With underflow, entry `i` of `moving_average` has the error of C139 plus `(i + 1) (1 + u)^i η`: every step of the
running update can lose another `η`. -/
theorem C234_moving_average (A : Arith K) (u η : K) (Rep : K → Prop) (h : Gradual A u η Rep) (b : Bool) (xs : List K)
    (hrep : ∀ x ∈ xs, Rep x) (w : Nat) (hw : 1 ≤ w)
    (hwn : w ≤ xs.length) (hnat : ∀ n : ℕ, n ≤ w → A.rnd (n : K) = n) (M : K) (hM : ∀ x ∈ xs, |x| ≤ M) :
    ∃ ys : List K, movingAverage ⟨1, b, Rd.fins A xs⟩ (w : Int) = .ok (Rd.fins A ys) ∧ ys.length = xs.length ∧
      ∀ i, i < xs.length → |ys.getD i 0 - trailingMean xs w i| ≤
        ((1 + u) ^ (i + 2) - 1) * (M * (1 + 2 * (1 + u) * (2 + u) / w)) + (i + 1) * (1 + u) ^ i * η := by
  have hη := h.eta
  have hu := h.nonneg
  have hw' : (0 : K) < w := by exact_mod_cast hw
  have hne : xs ≠ [] := by rintro rfl; simp at hwn; omega
  have hM0 : 0 ≤ M := by
    obtain ⟨x, t, rfl⟩ := List.exists_cons_of_ne_nil hne
    exact (abs_nonneg x).trans (hM x (by simp))
  unfold movingAverage
  simp only [List.length_map, Int.toNat_natCast]
  rw [if_neg (by omega), if_neg (by simpa using hne), if_neg (by simp), if_neg (by omega)]
  have h1 : (List.range w).mapM (fun i => meanOf ((Rd.fins A xs).take (i + 1))) =
      .ok ((List.range w).map (fun i => Rd.fin A (A.rnd (A.sum (xs.take (i + 1)) / (xs.take (i + 1)).length)))) := by
    apply mapM_ok
    intro i hi
    have hi := List.mem_range.mp hi
    have hl : (xs.take (i + 1)).length = i + 1 := by rw [List.length_take]; omega
    rw [← List.map_take]
    exact Rd.meanOf_fins A _ (by rintro h0; rw [h0] at hl; simp at hl) (hnat _ (by omega))
  rw [h1]
  simp only [bind, Except.bind]
  have key : ∀ m, m ≤ xs.length - w → ∃ ys : List K,
      (List.range m).foldl (fun ma t => maStep (Rd.fins A xs) w ma (w + t))
        ((List.range w).map (fun i => Rd.fin A (A.rnd (A.sum (xs.take (i + 1)) / (xs.take (i + 1)).length)))) =
        Rd.fins A ys ∧ ys.length = w + m ∧ (∀ y ∈ ys, Rep y) ∧ ∀ i, i < w + m → |ys.getD i 0 - trailingMean xs w i| ≤
        ((1 + u) ^ (i + 2) - 1) * (M * (1 + 2 * (1 + u) * (2 + u) / w)) + (i + 1) * (1 + u) ^ i * η := by
    intro m
    induction m with
    | zero =>
      intro _
      refine ⟨(List.range w).map (fun i => A.rnd (A.sum (xs.take (i + 1)) / (xs.take (i + 1)).length)), ?_, by simp,
        by intro y hy; obtain ⟨z, -, rfl⟩ := List.mem_map.mp hy; exact h.rep _, ?_⟩
      · simp only [List.range_zero, List.foldl_nil, List.map_map]; rfl
      · intro i hi
        have hi : i < w := by omega
        have hl : (xs.take (i + 1)).length = i + 1 := by rw [List.length_take]; omega
        have e1 : ((List.range w).map (fun i => A.rnd (A.sum (xs.take (i + 1)) / (xs.take (i + 1)).length))).getD i 0 =
            A.rnd (A.sum (xs.take (i + 1)) / (xs.take (i + 1)).length) := by
          rw [List.getD, List.getElem?_map, List.getElem?_range hi]; rfl
        have e2 : trailingMean xs w i = (xs.take (i + 1)).sum / (xs.take (i + 1)).length := by
          unfold trailingMean
          rw [hl, show i + 1 - w = 0 by omega, List.drop_zero, show Min.min (i + 1) w = i + 1 from Nat.min_eq_left (by omega)]
        rw [e1, e2]
        have hne1 : xs.take (i + 1) ≠ [] := by rintro h0; rw [h0] at hl; simp at hl
        have hm := mean_near_u A u η Rep h (xs.take (i + 1)) hne1 (fun x hx => hrep x (List.mem_of_mem_take hx))
        rw [hl] at hm
        have hav : Spec.avg ((xs.take (i + 1)).map (fun x => |x|)) ≤ M :=
          Spec.avg_le (by simpa using hne1) (by
            intro y hy
            obtain ⟨z, hz, rfl⟩ := List.mem_map.mp hy
            exact hM z (List.mem_of_mem_take hz))
        have hP : 1 ≤ (1 + u) ^ (i + 2) := one_le_pow₀ (by linarith)
        have hQ : 1 ≤ (1 + u) ^ i := one_le_pow₀ (by linarith)
        have e3 : Spec.avg (xs.take (i + 1)) = (xs.take (i + 1)).sum / (xs.take (i + 1)).length := rfl
        rw [e3, hl] at hm
        rw [hl]
        refine hm.trans (add_le_add ?_ ?_)
        · refine mul_le_mul_of_nonneg_left (hav.trans ?_) (sub_nonneg.mpr hP)
          have : 0 ≤ 2 * (1 + u) * (2 + u) / w := by positivity
          nlinarith
        · have hi0 : (1 : K) ≤ (i : K) + 1 := by
            have : (0 : K) ≤ i := Nat.cast_nonneg i
            linarith
          have : 1 ≤ ((i : K) + 1) * (1 + u) ^ i := by nlinarith
          nlinarith
    | succ m ih =>
      intro hm
      obtain ⟨ys, hys, hl, hry, hv⟩ := ih (by omega)
      rw [List.range_succ, List.foldl_append, hys]
      simp only [List.foldl_cons, List.foldl_nil, maStep]
      have g1 : (Rd.fins A ys).getD (w + m - 1) PyNum.nan = Rd.fin A (ys.getD (w + m - 1) 0) := by
        have : w + m - 1 < ys.length := by omega
        simp [List.getD, this]
      have g2 : ∀ j, j < xs.length → (Rd.fins A xs).getD j PyNum.nan = Rd.fin A (xs.getD j 0) := by
        intro j hj; simp [List.getD, hj]
      rw [g1, g2 _ (by omega), g2 _ (by omega), Rd.sub_fin, Rd.ofNat_fin, hnat w le_rfl, Rd.div_fin A hw'.ne', Rd.add_fin]
      refine ⟨ys ++ [A.rnd (ys.getD (w + m - 1) 0 + A.rnd (A.rnd (xs.getD (w + m) 0 - xs.getD (w + m - w) 0) / w))], ?_,
        by rw [List.length_append, hl]; rfl, ?_, ?_⟩
      · simp [Rd.fins]
      · intro y hy
        rcases List.mem_append.mp hy with hy | hy
        · exact hry y hy
        · rw [List.mem_singleton.mp hy]; exact h.rep _
      · intro i hi
        rcases Nat.lt_or_ge i (w + m) with h2 | h2
        · have e0 : ∀ v : K, (ys ++ [v]).getD i 0 = ys.getD i 0 := by
            intro v; rw [List.getD, List.getD, List.getElem?_append_left (by omega)]
          rw [e0]; exact hv i h2
        · have hi' : i = w + m := by omega
          subst hi'
          have e1 : ∀ v : K, (ys ++ [v]).getD (w + m) 0 = v := by
            intro v; rw [List.getD, List.getElem?_append_right (by omega), hl]; simp
          have hmem : ∀ j, j < xs.length → |xs.getD j 0| ≤ M := by
            intro j hj
            have : xs.getD j 0 = xs[j] := by simp [List.getD, hj]
            rw [this]; exact hM _ (List.getElem_mem hj)
          have hmemr : ∀ j, j < xs.length → Rep (xs.getD j 0) := by
            intro j hj
            have : xs.getD j 0 = xs[j] := by simp [List.getD, hj]
            rw [this]; exact hrep _ (List.getElem_mem hj)
          have hyr : Rep (ys.getD (w + m - 1) 0) := by
            have h3 : w + m - 1 < ys.length := by omega
            have : ys.getD (w + m - 1) 0 = ys[w + m - 1] := by simp [List.getD, h3]
            rw [this]; exact hry _ (List.getElem_mem h3)
          have ht := trailing_step xs w (w + m) (by omega) (by omega) (by omega)
          rw [e1, ht]
          have hp := hv (w + m - 1) (by omega)
          have := ma_step_u A u η Rep h w hw (xs.getD (w + m) 0) (xs.getD (w + m - w) 0) (ys.getD (w + m - 1) 0)
            (trailingMean xs w (w + m - 1)) M ((1 + u) ^ (w + m - 1 + 2) - 1)
            (((w + m - 1 : ℕ) + 1) * (1 + u) ^ (w + m - 1) * η) (hmemr _ (by omega)) (hmemr _ (by omega)) hyr (hmem _ (by omega)) (hmem _ (by omega))
            (by rw [← ht]; exact trailing_abs_u xs w (w + m) hw (by omega) M hM) hp
          obtain ⟨q, hq⟩ : ∃ q, w + m = q + 1 := ⟨w + m - 1, by omega⟩
          rw [hq] at this ⊢
          simp only [Nat.add_sub_cancel] at this
          refine this.trans ?_
          have hQ : 1 ≤ (1 + u) ^ q := one_le_pow₀ (by linarith)
          have h8 : (1 + u) * η ≤ (1 + u) ^ q * ((1 + u) * η) := by
            have : 0 ≤ (1 + u) * η := by positivity
            nlinarith
          rw [show q + 1 + 2 = (q + 2) + 1 by omega, pow_succ _ (q + 2), pow_succ _ q]
          push_cast
          refine add_le_add (le_of_eq (by ring)) ?_
          linarith
  obtain ⟨ys, hys, hl, -, hv⟩ := key (xs.length - w) le_rfl
  exact ⟨ys, by rw [hys], by omega, fun i hi => hv i (by omega)⟩

/-! ## `weighted_moving_average` -/

/-- rounded products and their rounded sum, against the exact weighted sum -/
private theorem wsum_near_u (A : Arith K) (u η : K) (Rep : K → Prop) (h : Gradual A u η Rep) (p : ℕ) (y : ℕ → K) (M : K) 
    (hM : ∀ j < p, |y j| ≤ M) :
    |A.sum ((List.range p).map (fun j : ℕ => A.rnd (((j : K) + 1) * y j))) -
      ((List.range p).map (fun j : ℕ => ((j : K) + 1) * y j)).sum| ≤
      ((1 + u) ^ (p + 1) - 1) * ((((List.range p).map (fun j => j + 1)).sum : ℕ) * M) + (1 + u) ^ p * (p * η) ∧
    |((List.range p).map (fun j : ℕ => ((j : K) + 1) * y j)).sum| ≤
      (((List.range p).map (fun j => j + 1)).sum : ℕ) * M := by
  have hu := h.nonneg
  have key : ∀ q, q ≤ p →
      |((List.range q).map (fun j : ℕ => A.rnd (((j : K) + 1) * y j))).sum -
        ((List.range q).map (fun j : ℕ => ((j : K) + 1) * y j)).sum| ≤
        u * ((((List.range q).map (fun j => j + 1)).sum : ℕ) * M) + q * η ∧
      (((List.range q).map (fun j : ℕ => A.rnd (((j : K) + 1) * y j))).map (fun x => |x|)).sum ≤
        (1 + u) * ((((List.range q).map (fun j => j + 1)).sum : ℕ) * M) + q * η ∧
      (((List.range q).map (fun j : ℕ => ((j : K) + 1) * y j)).map (fun x => |x|)).sum ≤
        (((List.range q).map (fun j => j + 1)).sum : ℕ) * M := by
    intro q
    induction q with
    | zero => intro _; simp
    | succ q ih =>
      intro hq
      obtain ⟨h1, h2, h3⟩ := ih (by omega)
      have hy := hM q (by omega)
      have hj : (0 : K) < (q : K) + 1 := by positivity
      have h4 : |((q : K) + 1) * y q| ≤ ((q : K) + 1) * M := by
        rw [abs_mul, abs_of_pos hj]; exact mul_le_mul_of_nonneg_left hy hj.le
      have h5 := (h.rnd (((q : K) + 1) * y q)).trans (add_le_add_left (mul_le_mul_of_nonneg_left h4 hu) η)
      have h6 : |A.rnd (((q : K) + 1) * y q)| ≤ (1 + u) * (((q : K) + 1) * M) + η := by
        have := abs_add_le (A.rnd (((q : K) + 1) * y q) - ((q : K) + 1) * y q) (((q : K) + 1) * y q)
        simp only [sub_add_cancel] at this
        linarith
      simp only [List.range_succ, List.map_append, List.sum_append, List.map_cons, List.map_nil, List.sum_cons,
        List.sum_nil, add_zero, Nat.cast_add, Nat.cast_one]
      refine ⟨?_, by linarith, by linarith⟩
      rw [add_sub_add_comm]
      refine (abs_add_le _ _).trans ?_
      linarith
  obtain ⟨h1, h2, h3⟩ := key p le_rfl
  refine ⟨?_, (abs_sum_le_u _).trans h3⟩
  have h4 := h.sum ((List.range p).map (fun j : ℕ => A.rnd (((j : K) + 1) * y j)))
    (by intro q hq; obtain ⟨z, -, rfl⟩ := List.mem_map.mp hq; exact h.rep _)
  rw [List.length_map, List.length_range] at h4
  have hP : 1 ≤ (1 + u) ^ p := one_le_pow₀ (by linarith)
  have h5 := h4.trans (mul_le_mul_of_nonneg_left h2 (sub_nonneg.mpr hP))
  have h6 := (abs_sub_le _ _ _).trans (add_le_add h5 h1)
  refine h6.trans (le_of_eq ?_)
  rw [pow_succ]; ring

/-- **C234** With underflow, each entry of `weighted_moving_average` has the error of C140 plus `((1 + u)^(p+1) + 1) η`; the
windows stay independent of each other. -/
theorem C234_weighted_moving_average (A : Arith K) (u η : K) (Rep : K → Prop) (h : Gradual A u η Rep) (xs : List K)
    (p : Nat) (hp : 1 ≤ p)
    (hpn : p ≤ xs.length) (hnat : ∀ n : ℕ, n ≤ p * (p + 1) / 2 → A.rnd (n : K) = n) :
    ∃ ys : List K, weightedMovingAverage (Rd.fins A xs) (p : Int) = .ok ⟨decide (p = xs.length), Rd.fins A ys⟩ ∧
      ys.length = xs.length - p ∧
      ∀ k, k < ys.length → ∀ M, (∀ j < p, |xs.getD (k + j) 0| ≤ M) →
        |ys.getD k 0 - linearMean xs p k| ≤ ((1 + u) ^ (p + 2) - 1) * M + ((1 + u) ^ (p + 1) + 1) * η := by
  have hη := h.eta
  have hu := h.nonneg
  have hw := weights_sum_u p
  have hWe : ((List.range p).map (fun j => j + 1)).sum = p * (p + 1) / 2 := by omega
  set W := ((List.range p).map (fun j => j + 1)).sum with hW
  have hWK : (W : K) = ((p * (p + 1) : ℕ) : K) / 2 := by
    rw [← hw]; push_cast; ring
  have hW0 : (0 : K) < (W : K) := by
    rw [hWK]; positivity
  have hpW : p ≤ W := by nlinarith
  refine ⟨(List.range (xs.length - p)).map (fun k =>
    A.rnd (A.sum ((List.range p).map (fun j : ℕ => A.rnd (((j : K) + 1) * xs.getD (k + j) 0))) / W)), ?_, by simp, ?_⟩
  · unfold weightedMovingAverage
    simp only [List.length_map, Int.toNat_natCast]
    rw [if_neg (by omega), if_neg (by omega)]
    have h1 : (List.range (xs.length - p)).map (fun t => wmaAt (Rd.fins A xs) p (p + t)) =
        Rd.fins A ((List.range (xs.length - p)).map (fun k =>
          A.rnd (A.sum ((List.range p).map (fun j : ℕ => A.rnd (((j : K) + 1) * xs.getD (k + j) 0))) / W))) := by
      simp only [Rd.fins, List.map_map]
      apply List.map_congr_left
      intro k hk
      have hk := List.mem_range.mp hk
      show PyNum.sum (List.zipWith _ _ _) /. ofNat W = Rd.fin A _
      have hz : List.zipWith (fun (w : Nat) x => (ofNat w : Rd A) *. x) ((List.range p).map (fun j => j + 1))
          (slice (Rd.fins A xs) (p + k - p) (p + k)) =
          Rd.fins A ((List.range p).map (fun j : ℕ => A.rnd (((j : K) + 1) * xs.getD (k + j) 0))) := by
        have hkk : p + k - p = k := by omega
        rw [hkk]
        have hlen : (slice (Rd.fins A xs) k (p + k)).length = p := by
          simp [slice]; omega
        apply List.ext_getElem
        · simp [hlen]
        · intro j h1 h2
          have hj : j < p := by simpa using h2
          have h3 : k + j < xs.length := by omega
          have h4 : A.rnd ((j : K) + 1) = (j : K) + 1 := by
            have := hnat (j + 1) (by omega)
            simpa using this
          simp [slice, List.getElem_drop, List.getElem_take, List.getD, h3, Rd.ofNat_fin, Rd.mul_fin, h4]
      rw [hz, Rd.sum_fins, Rd.ofNat_fin, hnat W (by omega), Rd.div_fin A hW0.ne']
    rw [h1]
    congr 2
    rw [Bool.eq_iff_iff]; simp
    omega
  · intro k hk M hM
    simp only [List.length_map, List.length_range] at hk
    have e1 : ((List.range (xs.length - p)).map (fun k =>
        A.rnd (A.sum ((List.range p).map (fun j : ℕ => A.rnd (((j : K) + 1) * xs.getD (k + j) 0))) / W))).getD k 0 =
        A.rnd (A.sum ((List.range p).map (fun j : ℕ => A.rnd (((j : K) + 1) * xs.getD (k + j) 0))) / W) := by
      rw [List.getD, List.getElem?_map, List.getElem?_range hk]; rfl
    rw [e1]
    unfold linearMean
    rw [← hWK]
    obtain ⟨h1, h2⟩ := wsum_near_u A u η Rep h p (fun j => xs.getD (k + j) 0) M hM
    rw [← hW] at h1 h2
    set S := A.sum ((List.range p).map (fun j : ℕ => A.rnd (((j : K) + 1) * xs.getD (k + j) 0))) with hS
    set T := ((List.range p).map (fun j : ℕ => ((j : K) + 1) * xs.getD (k + j) 0)).sum with hT
    have h3 : |S / W - T / W| ≤ ((1 + u) ^ (p + 1) - 1) * M + (1 + u) ^ p * η := by
      rw [← sub_div, abs_div, abs_of_pos hW0, div_le_iff₀ hW0]
      have h8 : (p : K) * η ≤ W * η := mul_le_mul_of_nonneg_right (by exact_mod_cast hpW) hη
      have h9 := mul_le_mul_of_nonneg_left h8 (pow_nonneg (by linarith : 0 ≤ 1 + u) p)
      linarith
    have h4 : |T / W| ≤ M := by
      rw [abs_div, abs_of_pos hW0, div_le_iff₀ hW0]; linarith
    refine (h.rnd_near h3).trans ?_
    have := mul_le_mul_of_nonneg_left h4 h.nonneg
    rw [pow_succ (1 + u) (p + 1), pow_succ (1 + u) p]
    linarith

/-! ## `exponential_moving_average` -/

private theorem ema_step_u (A : Arith K) (u η : K) (Rep : K → Prop) (h : Gradual A u η Rep) (alpha : K) (h0 : 0 < alpha)
    (h1 : alpha ≤ 1) (hra : Rep alpha) (hr1 : Rep 1)
    (x p t M e : K) (hx : |x| ≤ M) (ht : |t| ≤ M) (hp : |p - t| ≤ e) :
    |A.rnd (A.rnd (alpha * x) + A.rnd (A.rnd (1 - alpha) * p)) - (alpha * x + (1 - alpha) * t)| ≤
      (1 - alpha) * (1 + u) ^ 3 * e + (((1 + u) ^ 3 - 1) * M + 2 * (1 + u) * η) := by
  have hu := h.nonneg
  have ha : 0 ≤ 1 - alpha := by linarith
  have hM : 0 ≤ M := (abs_nonneg x).trans hx
  have he : 0 ≤ e := (abs_nonneg _).trans hp
  have h2 : |alpha * x| ≤ alpha * M := by
    rw [abs_mul, abs_of_pos h0]; exact mul_le_mul_of_nonneg_left hx h0.le
  have h3 := (h.rnd (alpha * x)).trans (add_le_add_left (mul_le_mul_of_nonneg_left h2 hu) η)
  have h4 := h.sub 1 alpha hr1 hra
  rw [abs_of_nonneg ha] at h4
  have hpM : |p| ≤ M + e := by
    have := abs_add_le (p - t) t
    simp only [sub_add_cancel] at this
    linarith
  have h5 : |A.rnd (1 - alpha) * p - (1 - alpha) * t| ≤ u * (1 - alpha) * (M + e) + (1 - alpha) * e := by
    have e1 : A.rnd (1 - alpha) * p - (1 - alpha) * t = (A.rnd (1 - alpha) - (1 - alpha)) * p + (1 - alpha) * (p - t) := by
      ring
    rw [e1]
    refine (abs_add_le _ _).trans (add_le_add ?_ ?_)
    · rw [abs_mul]; exact mul_le_mul h4 hpM (abs_nonneg _) (by positivity)
    · rw [abs_mul, abs_of_nonneg ha]; exact mul_le_mul_of_nonneg_left hp ha
  have h6 := h.rnd_near h5
  have h7 : |(1 - alpha) * t| ≤ (1 - alpha) * M := by
    rw [abs_mul, abs_of_nonneg ha]; exact mul_le_mul_of_nonneg_left ht ha
  have h8 : |A.rnd (alpha * x) + A.rnd (A.rnd (1 - alpha) * p) - (alpha * x + (1 - alpha) * t)| ≤
      u * (alpha * M) + η + ((1 + u) * (u * (1 - alpha) * (M + e) + (1 - alpha) * e) + u * ((1 - alpha) * M) + η) := by
    rw [add_sub_add_comm]
    refine (abs_add_le _ _).trans (add_le_add h3 (h6.trans ?_))
    have := mul_le_mul_of_nonneg_left h7 hu
    linarith
  have h9 := h.near_of_rel (h.add _ _ (h.rep _) (h.rep _)) h8
  have h10 : |alpha * x + (1 - alpha) * t| ≤ M := (abs_add_le _ _).trans (by linarith)
  refine h9.trans ?_
  have h11 := mul_le_mul_of_nonneg_left h10 hu
  have h12 : 0 ≤ u * u * alpha * M := by positivity
  have h13 : 0 ≤ u * (u * u * alpha * M) := by positivity
  have h14 : 0 ≤ u * alpha * M := by positivity
  nlinarith

private theorem ema_loop_u (A : Arith K) (u η : K) (Rep : K → Prop) (h : Gradual A u η Rep) (hone : A.rnd 1 = 1) (alpha : K)
    (h0 : 0 < alpha) (h1 : alpha ≤ 1) (hra : Rep alpha) (x : ℕ → K) (M : K) (B : ℕ → K)
    (hB : ∀ i, (1 - alpha) * (1 + u) ^ 3 * B i + (((1 + u) ^ 3 - 1) * M + 2 * (1 + u) * η) ≤ B (i + 1)) :
    ∀ (t : List K) (i0 : ℕ) (p : K), (∀ j, j ≤ i0 + t.length → |x j| ≤ M) →
      (∀ j (hj : j < t.length), t[j] = x (i0 + 1 + j)) → |p - emaClosed alpha x i0| ≤ B i0 →
      ∃ ys : List K, emaLoop false (Rd.fin A alpha) (Rd.fin A p) (Rd.fins A t) = Rd.fins A ys ∧ ys.length = t.length ∧
        ∀ j, j < t.length → |ys.getD j 0 - emaClosed alpha x (i0 + 1 + j)| ≤ B (i0 + 1 + j) := by
  intro t
  induction t with
  | nil => intro i0 p _ _ _; exact ⟨[], rfl, rfl, by simp⟩
  | cons z t ih =>
    intro i0 p hM hx hp
    have hz : z = x (i0 + 1) := hx 0 (by simp)
    have hstep := ema_step_u A u η Rep h alpha h0 h1 hra (hone ▸ h.rep 1) (x (i0 + 1)) p (emaClosed alpha x i0) M (B i0)
      (hM _ (by simp)) (emaClosed_abs_u alpha h0 h1 x M i0 (fun j hj => hM j (by omega))) hp
    rw [← emaClosed_succ] at hstep
    have hstep := hstep.trans (hB i0)
    set p' := A.rnd (A.rnd (alpha * x (i0 + 1)) + A.rnd (A.rnd (1 - alpha) * p)) with hp'
    obtain ⟨ys, hy, hl, hv⟩ := ih (i0 + 1) p' (fun j hj => hM j (by simp only [List.length_cons]; omega))
      (fun j hj => by
        have := hx (j + 1) (by simpa using hj)
        simp only [List.getElem_cons_succ] at this
        rw [this]; congr 1; omega) hstep
    refine ⟨p' :: ys, ?_, by simp [hl], ?_⟩
    · have e1 : (lit 1 : Rd A) = Rd.fin A 1 := by rw [Rd.lit_fin, Rat.cast_one, hone]
      simp only [Rd.fins, List.map_cons, emaLoop, store, Bool.false_eq_true, if_false]
      rw [e1, Rd.mul_fin, Rd.sub_fin, Rd.mul_fin, Rd.add_fin, hz, ← hp', hy]
    · intro j hj
      cases j with
      | zero => simpa using hstep
      | succ j =>
        have := hv j (by simpa using hj)
        rw [show i0 + 1 + (j + 1) = i0 + 1 + 1 + j by omega]
        simpa using this

/-- **C234** With underflow, `exponential_moving_average` has the error of C141 plus `2 i (1 + u)^(3 i) η` at index `i`; when
`(1 - α) (1 + u)³ < 1` the bound still does not grow with the length of the record. -/
theorem C234_ema (A : Arith K) (u η : K) (Rep : K → Prop) (h : Gradual A u η Rep) (hone : A.rnd 1 = 1) (xs : List K) (hne : xs ≠ []) (alpha : K)
    (h0 : 0 < alpha) (h1 : alpha ≤ 1) (hra : Rep alpha) (M : K) (hM : ∀ x ∈ xs, |x| ≤ M) :
    ∃ ys : List K, exponentialMovingAverage ⟨1, false, Rd.fins A xs⟩ (Rd.fin A alpha) = .ok (Rd.fins A ys) ∧
      ys.length = xs.length ∧
      (∀ i, i < xs.length → |ys.getD i 0 - emaClosed alpha (fun j => xs.getD j 0) i| ≤
        ((1 + u) ^ (3 * i) - 1) * M + 2 * i * (1 + u) ^ (3 * i) * η) ∧
      ((1 - alpha) * (1 + u) ^ 3 < 1 → ∀ i, i < xs.length →
        |ys.getD i 0 - emaClosed alpha (fun j => xs.getD j 0) i| ≤
          (((1 + u) ^ 3 - 1) * M + 2 * (1 + u) * η) / (1 - (1 - alpha) * (1 + u) ^ 3)) := by
  obtain ⟨x0, t, rfl⟩ := List.exists_cons_of_ne_nil hne
  have hu := h.nonneg
  have hη := h.eta
  have ha : 0 ≤ 1 - alpha := by linarith
  have hM0 : 0 ≤ M := (abs_nonneg x0).trans (hM x0 (by simp))
  have hP : 1 ≤ (1 + u) ^ 3 := one_le_pow₀ (by linarith)
  set x : ℕ → K := fun j => (x0 :: t).getD j 0 with hx
  have hx0 : emaClosed alpha x 0 = x0 := by simp [emaClosed, hx]
  have hMx : ∀ j, |x j| ≤ M := by
    intro j
    by_cases hj : j < (x0 :: t).length
    · have : x j = (x0 :: t)[j] := by simp only [hx, List.getD]; rw [List.getElem?_eq_getElem hj]; rfl
      rw [this]; exact hM _ (List.getElem_mem hj)
    · have : x j = 0 := by simp only [hx, List.getD]; rw [List.getElem?_eq_none (by omega)]; rfl
      rw [this]; simpa using hM0
  have hxt : ∀ j (hj : j < t.length), t[j] = x (0 + 1 + j) := by
    intro j hj; simp [hx, List.getD, hj, Nat.add_comm 1 j]
  have hc : (((Rd.fin A alpha) ≤. lit 0) || (lit 1 <. (Rd.fin A alpha))) = false := by
    rw [Rd.lit_fin, Rd.lit_fin, Rat.cast_zero, Rat.cast_one, hone, h.rnd_zero, Rd.le_fin, Rd.lt_fin]
    simp [h0, h1]
  have main : ∀ B : ℕ → K, (∀ i, (1 - alpha) * (1 + u) ^ 3 * B i + (((1 + u) ^ 3 - 1) * M + 2 * (1 + u) * η) ≤ B (i + 1)) → 0 ≤ B 0 →
      ∃ ys : List K, emaLoop false (Rd.fin A alpha) (Rd.fin A x0) (Rd.fins A t) = Rd.fins A ys ∧ ys.length = t.length ∧
        ∀ i, i < (x0 :: t).length → |(x0 :: ys).getD i 0 - emaClosed alpha x i| ≤ B i := by
    intro B hB hB0
    obtain ⟨ys, hy, hl, hv⟩ := ema_loop_u A u η Rep h hone alpha h0 h1 hra x M B hB t 0 x0 (fun j _ => hMx j) hxt
      (by rw [hx0]; simpa using hB0)
    refine ⟨ys, hy, hl, ?_⟩
    intro i hi
    cases i with
    | zero => rw [hx0]; simpa using hB0
    | succ i =>
      have := hv i (by simpa using hi)
      rw [show 0 + 1 + i = i + 1 by omega] at this
      simpa using this
  obtain ⟨ys, hy, hl, hv⟩ := main (fun i => ((1 + u) ^ (3 * i) - 1) * M + 2 * i * (1 + u) ^ (3 * i) * η) (by
    intro i
    have h2 : 1 ≤ (1 + u) ^ (3 * i) := one_le_pow₀ (by linarith)
    have e : (1 + u) ^ (3 * (i + 1)) = (1 + u) ^ (3 * i) * (1 + u) ^ 3 := by rw [← pow_add]; congr 1
    have h3 : 0 ≤ ((1 + u) ^ (3 * i) - 1) * M := mul_nonneg (by linarith) hM0
    have h4 : (1 - alpha) * (1 + u) ^ 3 * (((1 + u) ^ (3 * i) - 1) * M) ≤
        (1 + u) ^ 3 * (((1 + u) ^ (3 * i) - 1) * M) := by
      refine mul_le_mul_of_nonneg_right ?_ h3
      nlinarith
    have h5 : (1 - alpha) * (1 + u) ^ 3 * (2 * i * (1 + u) ^ (3 * i) * η) ≤ (1 + u) ^ 3 * (2 * i * (1 + u) ^ (3 * i) * η) := by
      refine mul_le_mul_of_nonneg_right ?_ (by positivity)
      nlinarith
    have h6 : 2 * (1 + u) * η ≤ 2 * ((1 + u) ^ (3 * i) * (1 + u) ^ 3) * η := by
      have h7 : 1 + u ≤ (1 + u) ^ 3 := by nlinarith [pow_pos (by linarith : (0 : K) < 1 + u) 2]
      have h8 : 1 + u ≤ (1 + u) ^ (3 * i) * (1 + u) ^ 3 := by nlinarith
      nlinarith
    rw [e]
    push_cast
    nlinarith) (by simp)
  refine ⟨x0 :: ys, ?_, by simp [hl], hv, ?_⟩
  · simp only [exponentialMovingAverage, hc, Bool.false_eq_true, if_false, Rd.fins, List.map_cons]
    rw [hy]
  · intro hr
    have hr' : 0 < 1 - (1 - alpha) * (1 + u) ^ 3 := by linarith
    have hC : 0 ≤ (((1 + u) ^ 3 - 1) * M + 2 * (1 + u) * η) := add_nonneg (mul_nonneg (by linarith) hM0) (by positivity)
    obtain ⟨zs, hz, hzl, hzv⟩ := main (fun _ => (((1 + u) ^ 3 - 1) * M + 2 * (1 + u) * η) / (1 - (1 - alpha) * (1 + u) ^ 3)) (by
      intro _
      apply le_of_eq
      field_simp
      ring) (div_nonneg hC hr'.le)
    have hinj : ∀ a b : List K, Rd.fins A a = Rd.fins A b → a = b := fun a b hab =>
      List.map_injective_iff.mpr (fun p q hpq => by injection hpq) hab
    have : zs = ys := hinj _ _ (hz.symm.trans hy)
    rw [← this]
    exact hzv

/-- the hypotheses of C234 hold in binary64 with subnormal numbers: the contract, exact counts below `2⁵³`, and a data set -/
example : Gradual bin64g (1 / 2 ^ 53) (2 ^ (-1075 : ℤ)) Grid ∧ (∀ n : ℕ, n < 2 ^ 53 → bin64g.rnd n = n) ∧
    Grid (3 * 2 ^ (-1074 : ℤ)) ∧ Grid (rndSub (1 / 10)) :=
  ⟨bin64g_gradual, rndSub_nat, ⟨3, by push_cast; rfl⟩, rndSub_grid _⟩

/-! ## What underflow can do -/

private theorem pow_le_two (N : ℕ) (hN : N ≤ 2 ^ 51) : (1 + 1 / 2 ^ 53 : ℚ) ^ N ≤ 2 := by
  have h1 : (1 : ℚ) + N * (-(1 / 2 ^ 53)) ≤ (1 + -(1 / 2 ^ 53)) ^ N := one_add_mul_le_pow (by norm_num) N
  have h2 : (N : ℚ) ≤ 2 ^ 51 := by exact_mod_cast hN
  have h3 : (1 / 2 : ℚ) ≤ (1 + -(1 / 2 ^ 53)) ^ N := by
    refine le_trans ?_ h1
    have : (N : ℚ) * (1 / 2 ^ 53) ≤ 2 ^ 51 * (1 / 2 ^ 53) := mul_le_mul_of_nonneg_right h2 (by positivity)
    norm_num at this ⊢
    linarith
  have h4 : (1 + 1 / 2 ^ 53 : ℚ) ^ N * (1 + -(1 / 2 ^ 53)) ^ N ≤ 1 := by
    rw [← mul_pow]
    exact pow_le_one₀ (by norm_num) (by norm_num)
  have h5 : 0 < (1 + 1 / 2 ^ 53 : ℚ) ^ N := by positivity
  nlinarith

/-- **C234** In binary64 with subnormal numbers the variance of every recording whose samples are at most `2⁻⁵⁴⁰` in absolute
value is zero, whether or not the samples are equal. -/
theorem C234_variance_vanishes (b : Bool) (xs : List ℚ) (hne : xs ≠ []) (hgrid : ∀ x ∈ xs, Grid x)
    (hlen : xs.length < 2 ^ 51) (hsmall : ∀ x ∈ xs, |x| ≤ 2 ^ (-540 : ℤ)) :
    variance ⟨1, b, numItems (Rd.fins bin64g xs)⟩ = .ok (Rd.fin bin64g 0) := by
  have h := bin64g_gradual
  have hn : bin64g.rnd (xs.length : ℚ) = xs.length := rndSub_nat _ (by omega)
  have hpos : (0 : ℚ) < xs.length := by exact_mod_cast List.length_pos_of_ne_nil hne
  set m := bin64g.rnd (bin64g.sum xs / xs.length) with hm
  have ht : (0 : ℚ) < 2 ^ (-540 : ℤ) := by positivity
  set τ : ℚ := 2 ^ (-540 : ℤ) with hτ
  have hη : (2 : ℚ) ^ (-1075 : ℤ) = 32 * τ ^ 2 := by
    rw [hτ, ← zpow_natCast, ← zpow_mul, show (-1075 : ℤ) = 5 + -540 * ((2 : ℕ) : ℤ) by norm_num, zpow_add₀ (by norm_num)]
    norm_num
  have hτ1 : τ ≤ 1 / 2 ^ 20 := by
    rw [hτ, show (1 : ℚ) / 2 ^ 20 = 2 ^ (-20 : ℤ) by norm_num]
    exact zpow_le_zpow_right₀ (by norm_num) (by norm_num)
  have hmean := mean_near_u bin64g _ _ Grid h xs hne hgrid
  have hav : Spec.avg (xs.map (fun x => |x|)) ≤ τ := Spec.avg_le (by simpa using hne) (by
    intro y hy; obtain ⟨z, hz, rfl⟩ := List.mem_map.mp hy; exact hsmall z hz)
  have hav0 : |Spec.avg xs| ≤ τ := by
    rw [abs_le]
    exact ⟨Spec.le_avg hne (fun x hx => (abs_le.mp (hsmall x hx)).1),
      Spec.avg_le hne (fun x hx => (abs_le.mp (hsmall x hx)).2)⟩
  have h2 := pow_le_two (xs.length + 1) (by omega)
  have hP : 1 ≤ (1 + 1 / 2 ^ 53 : ℚ) ^ (xs.length + 1) := one_le_pow₀ (by norm_num)
  have hmτ : |m| ≤ 2 * τ + 32 * τ ^ 2 := by
    rw [hη] at hmean
    have h3 : ((1 + 1 / 2 ^ 53 : ℚ) ^ (xs.length + 1) - 1) * Spec.avg (xs.map (fun x => |x|)) ≤ 1 * τ :=
      (mul_le_mul_of_nonneg_left hav (by linarith)).trans (mul_le_mul_of_nonneg_right (by linarith) ht.le)
    have h4 : |m| ≤ |m - Spec.avg xs| + |Spec.avg xs| := by
      have := abs_add_le (m - Spec.avg xs) (Spec.avg xs); simpa using this
    linarith
  have hzero : ∀ x ∈ xs, bin64g.rnd (bin64g.rnd (x - m) * bin64g.rnd (x - m)) = 0 := by
    intro x hx
    have h3 := h.sub x m (hgrid x hx) (h.rep _)
    have h4 : |x - m| ≤ 3 * τ + 32 * τ ^ 2 := (abs_sub x m).trans (by linarith [hsmall x hx])
    have h5 : |bin64g.rnd (x - m)| ≤ 4 * τ := by
      have h6 : |bin64g.rnd (x - m)| ≤ |bin64g.rnd (x - m) - (x - m)| + |x - m| := by
        have := abs_add_le (bin64g.rnd (x - m) - (x - m)) (x - m); simpa using this
      have h7 : 32 * τ ^ 2 ≤ 1 / 2 * τ := by nlinarith
      have h8 : (1 : ℚ) / 2 ^ 53 * |x - m| ≤ 1 / 8 * |x - m| :=
        mul_le_mul_of_nonneg_right (by norm_num) (abs_nonneg _)
      linarith
    refine rndSub_flush _ ?_
    rw [hη, abs_mul]
    have := mul_le_mul h5 h5 (abs_nonneg _) (by positivity)
    nlinarith [pow_pos ht 2]
  have hv : (numItems (Rd.fins bin64g xs)).filterMap Item.val? = Rd.fins bin64g xs := by
    simp [numItems, List.filterMap_map, Function.comp_def, Item.val?]
  have hs : (numItems (Rd.fins bin64g xs)).any Item.isStr = false := by simp [numItems, Item.isStr]
  unfold variance
  simp only [hs]
  rw [if_neg (by simp), if_neg (by simp), if_neg (by simpa [numItems] using hne), hv]
  unfold npVar
  simp only
  rw [npMean_u bin64g xs hne hn, List.map_map]
  have e : (xs.map ((fun x => (x -. Rd.fin bin64g m) *. (x -. Rd.fin bin64g m)) ∘ Rd.fin bin64g)) =
      Rd.fins bin64g (List.replicate xs.length 0) := by
    rw [Rd.fins, ← List.map_const', List.map_map]
    apply List.map_congr_left
    intro x hx
    show (Rd.fin bin64g x -. _) *. _ = Rd.fin bin64g 0
    rw [Rd.sub_fin, Rd.mul_fin, hzero x hx]
  have hsum : bin64g.sum (List.replicate xs.length 0) = 0 := by
    have := h.sum (List.replicate xs.length 0) (by
      intro x hx; rw [List.eq_of_mem_replicate hx]; exact h.rep_zero)
    simpa using this
  rw [← hm, e, Rd.sum_fins, List.length_map, Rd.ofNat_fin, hn, Rd.div_fin _ hpos.ne', hsum, zero_div, h.rnd_zero]

/-- a recording that is not constant and meets the hypotheses of `C234_variance_vanishes` -/
example : (∀ x ∈ ([0, 2 ^ (-540 : ℤ)] : List ℚ), Grid x ∧ |x| ≤ 2 ^ (-540 : ℤ)) ∧
    Spec.var ([0, 2 ^ (-540 : ℤ)] : List ℚ) = (2 ^ (-541 : ℤ)) ^ 2 := by
  have h0 : (0 : ℚ) < 2 ^ (-540 : ℤ) := by positivity
  refine ⟨?_, ?_⟩
  · intro x hx
    simp only [List.mem_cons, List.not_mem_nil, or_false] at hx
    rcases hx with rfl | rfl
    · exact ⟨⟨0, by simp⟩, by simp⟩
    · refine ⟨⟨2 ^ 534, ?_⟩, by rw [abs_of_pos h0]⟩
      push_cast
      rw [← zpow_natCast, ← zpow_add₀ (by norm_num)]
      rfl
  · have e : (2 : ℚ) ^ (-541 : ℤ) = 2 ^ (-540 : ℤ) / 2 := by
      rw [show (-541 : ℤ) = -540 - 1 by norm_num, zpow_sub_one₀ (by norm_num)]; rfl
    rw [e]
    generalize (2 : ℚ) ^ (-540 : ℤ) = t
    simp only [Spec.var, Spec.cmoment, Spec.avg, List.map_cons, List.map_nil, List.sum_cons, List.sum_nil, List.length_cons,
      List.length_nil]
    push_cast
    ring

/-- **C234** An exponential moving average need not decay to zero: in binary64 with subnormal numbers, after a sample of `k` times
the smallest positive number with `k (α + 2⁻⁵³) < 1/2`, any number of zeros leaves the average where it is. -/
theorem C234_ema_stalls (alpha : ℚ) (h0 : 0 < alpha) (h1 : alpha ≤ 1) (hga : Grid alpha) (k : ℕ)
    (hk : (k : ℚ) * (alpha + 1 / 2 ^ 53) < 1 / 2) (n : ℕ) :
    exponentialMovingAverage ⟨1, false, Rd.fins bin64g ((k : ℚ) * 2 ^ (-1074 : ℤ) :: List.replicate n 0)⟩
      (Rd.fin bin64g alpha) = .ok (Rd.fins bin64g (List.replicate (n + 1) ((k : ℚ) * 2 ^ (-1074 : ℤ)))) := by
  have h := bin64g_gradual
  have hone : bin64g.rnd 1 = 1 := by have := rndSub_nat 1 (by norm_num); simpa using this
  have hg1 : Grid 1 := by have := rndSub_grid 1; rwa [show rndSub 1 = 1 from hone] at this
  have hp0 : (0 : ℚ) < 2 ^ (-1074 : ℤ) := by positivity
  set δ : ℚ := 2 ^ (-1074 : ℤ) with hδ
  have hk52 : (k : ℚ) < 2 ^ 52 := by
    have : (k : ℚ) * (1 / 2 ^ 53) ≤ k * (alpha + 1 / 2 ^ 53) := mul_le_mul_of_nonneg_left (by linarith) (Nat.cast_nonneg k)
    have h2 := this.trans_lt hk
    have h3 : (k : ℚ) * (1 / 2 ^ 53) * 2 ^ 53 < 1 / 2 * 2 ^ 53 := mul_lt_mul_of_pos_right h2 (by positivity)
    rw [mul_assoc, one_div_mul_cancel (by positivity), mul_one] at h3
    refine h3.trans_eq (by norm_num)
  -- the factor `1 - α` as computed
  set r := bin64g.rnd (1 - alpha) with hr
  have hr1 : |r - 1| ≤ alpha + 1 / 2 ^ 53 := by
    have h2 := h.sub 1 alpha hg1 hga
    rw [← hr, abs_of_nonneg (by linarith : 0 ≤ 1 - alpha)] at h2
    have h3 : |r - 1| ≤ |r - (1 - alpha)| + |(1 - alpha) - 1| := abs_sub_le _ _ _
    have h4 : |(1 - alpha) - 1| = alpha := by
      rw [show (1 - alpha) - 1 = -alpha by ring, abs_neg, abs_of_pos h0]
    have h5 : (1 : ℚ) / 2 ^ 53 * (1 - alpha) ≤ 1 / 2 ^ 53 := by
      have : (0 : ℚ) < 1 / 2 ^ 53 := by positivity
      nlinarith
    linarith
  have hrk : |r * k - k| < 1 / 2 := by
    rw [show r * k - k = k * (r - 1) by ring, abs_mul, abs_of_nonneg (Nat.cast_nonneg k)]
    exact (mul_le_mul_of_nonneg_left hr1 (Nat.cast_nonneg k)).trans_lt hk
  have small : ∀ y : ℚ, |y| < 2 ^ 53 → rndSub (y * δ) = (Fl.rint y : ℚ) * δ := by
    intro y hy
    rcases eq_or_ne y 0 with rfl | hy0
    · have : Fl.rint (0 : ℚ) = 0 := by have := rint_int (K := ℚ) 0; simpa using this
      simp [rndSub, this]
    · have h2 : (2 : ℚ) ^ Int.log 2 |y * δ| ≤ |y * δ| :=
        Int.zpow_log_le_self (by norm_num) (abs_pos.mpr (mul_ne_zero hy0 hp0.ne'))
      have h3 : |y * δ| < 2 ^ (-1021 : ℤ) := by
        rw [abs_mul, abs_of_pos hp0, show (-1021 : ℤ) = (53 : ℕ) + -1074 by norm_num, zpow_add₀ (by norm_num), zpow_natCast]
        exact mul_lt_mul_of_pos_right hy hp0
      have h4 : Int.log 2 |y * δ| < -1021 := (zpow_lt_zpow_iff_right₀ (by norm_num : (1 : ℚ) < 2)).mp (h2.trans_lt h3)
      rw [rndSub_small _ (by omega), ← hδ, mul_div_cancel_right₀ _ hp0.ne']
  have hk53 : |r * k| < 2 ^ 53 := by
    have h2 := abs_lt.mp hrk
    have : (0 : ℚ) ≤ k := Nat.cast_nonneg k
    rw [abs_lt]
    constructor <;> linarith
  have hrint : Fl.rint (r * k) = k := by
    have h2 := abs_le.mp (abs_rint_sub (r * k))
    have h3 := abs_lt.mp hrk
    have a : ((Fl.rint (r * k) : ℤ) : ℚ) < ((k + 1 : ℤ) : ℚ) := by push_cast; linarith
    have b : ((k - 1 : ℤ) : ℚ) < ((Fl.rint (r * k) : ℤ) : ℚ) := by push_cast; linarith
    have a := Int.cast_lt.mp a
    have b := Int.cast_lt.mp b
    omega
  have e2 : bin64g.rnd (r * (k * δ)) = k * δ := by
    show rndSub _ = _
    rw [← mul_assoc, small _ hk53, hrint]; push_cast; ring
  have e3 : bin64g.rnd (0 + k * δ) = k * δ := by
    show rndSub _ = _
    have : Fl.rint (k : ℚ) = k := by have := rint_int (K := ℚ) k; push_cast at this; exact this
    rw [zero_add, small _ (by rw [abs_of_nonneg (Nat.cast_nonneg k)]; linarith), this]; push_cast; ring
  have e1 : (lit 1 : Rd bin64g) = Rd.fin bin64g 1 := by rw [Rd.lit_fin, Rat.cast_one, hone]
  have step : (store false (Rd.fin bin64g alpha *. Rd.fin bin64g 0 +. (lit 1 -. Rd.fin bin64g alpha) *. Rd.fin bin64g (k * δ)) :
      Rd bin64g) = Rd.fin bin64g (k * δ) := by
    rw [e1, Rd.mul_fin, Rd.sub_fin, Rd.mul_fin, Rd.add_fin, mul_zero, h.rnd_zero, ← hr, e2, e3]
    rfl
  have loop : ∀ n, emaLoop false (Rd.fin bin64g alpha) (Rd.fin bin64g (k * δ)) (Rd.fins bin64g (List.replicate n 0)) =
      Rd.fins bin64g (List.replicate n (k * δ)) := by
    intro n
    induction n with
    | zero => rfl
    | succ n ih =>
      simp only [List.replicate_succ, Rd.fins, List.map_cons, emaLoop]
      rw [step]
      exact congrArg _ ih
  have hc : (((Rd.fin bin64g alpha) ≤. lit 0) || (lit 1 <. (Rd.fin bin64g alpha))) = false := by
    rw [Rd.lit_fin, Rd.lit_fin, Rat.cast_zero, Rat.cast_one, hone, h.rnd_zero, Rd.le_fin, Rd.lt_fin]
    simp [h0, h1]
  simp only [exponentialMovingAverage, hc, Bool.false_eq_true, if_false, Rd.fins, List.map_cons]
  rw [show List.map (Rd.fin bin64g) (List.replicate n 0) = Rd.fins bin64g (List.replicate n 0) from rfl, loop n]
  rfl

/-- with `α = 0.1` (as stored) the average stalls at four times the smallest positive number -/
example : 0 < rndSub (1 / 10) ∧ rndSub (1 / 10) ≤ 1 ∧ Grid (rndSub (1 / 10)) ∧
    ((4 : ℕ) : ℚ) * (rndSub (1 / 10) + 1 / 2 ^ 53) < 1 / 2 := by
  have h := abs_le.mp (rndSub_near (1 / 10))
  have h2 : (2 : ℚ) ^ (-1075 : ℤ) ≤ 1 / 2 ^ 20 := by
    rw [show (1 : ℚ) / 2 ^ 20 = 2 ^ (-20 : ℤ) by norm_num]
    exact zpow_le_zpow_right₀ (by norm_num) (by norm_num)
  rw [abs_of_pos (by norm_num : (0 : ℚ) < 1 / 10)] at h
  refine ⟨?_, ?_, rndSub_grid _, ?_⟩ <;> push_cast <;> linarith [h.1, h.2]

end Proadv.Props
