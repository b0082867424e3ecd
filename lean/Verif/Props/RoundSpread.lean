import Verif.Lemmas.Round
import Verif.Model.Spread
import Verif.Lemmas.Descriptive

/-!
# Property C142: `mean` and `variance` under rounding
-/

set_option linter.unusedSectionVars false

namespace Proadv.Props

open Proadv Descriptive Spread

variable {K : Type} [Field K] [LinearOrder K] [FloorRing K] [IsStrictOrderedRing K]

/-- computed mean with rounding -/
private def rmean (A : Arith K) (xs : List K) : K := A.rnd (A.sum xs / xs.length)

private theorem npMean_rd (A : Arith K) (xs : List K) (hne : xs ≠ []) (hn : A.rnd (xs.length : K) = xs.length) :
    npMean (Rd.fins A xs) = Rd.fin A (rmean A xs) := by
  have h0 : (xs.length : K) ≠ 0 := by
    have := List.length_pos_of_ne_nil hne
    exact_mod_cast this.ne'
  unfold npMean
  rw [Rd.sum_fins, List.length_map, Rd.ofNat_fin, hn, Rd.div_fin A h0]
  rfl

private theorem abs_sum_le' (l : List K) : |l.sum| ≤ (l.map (fun x => |x|)).sum := by
  induction l with
  | nil => simp
  | cons x t ih =>
    simp only [List.sum_cons, List.map_cons]
    exact (abs_add_le _ _).trans (by linarith)

private theorem rmean_near (A : Arith K) (u : K) (h : Std A u) (xs : List K) (hne : xs ≠ []) :
    |rmean A xs - Spec.avg xs| ≤ ((1 + u) ^ (xs.length + 1) - 1) * Spec.avg (xs.map (fun x => |x|)) := by
  have hn : (0 : K) < xs.length := by exact_mod_cast List.length_pos_of_ne_nil hne
  have h1 := h.sum xs
  have h3 := abs_sum_le' xs
  unfold rmean Spec.avg
  rw [List.length_map]
  set T := (xs.map (fun x => |x|)).sum with hT
  have h4 : |A.sum xs / xs.length - xs.sum / xs.length| ≤ ((1 + u) ^ xs.length - 1) * (T / xs.length) := by
    rw [← sub_div, abs_div, abs_of_pos hn, div_le_iff₀ hn, mul_assoc, div_mul_cancel₀ _ hn.ne']
    exact h1
  have h5 : |xs.sum / xs.length| ≤ T / xs.length := by
    rw [abs_div, abs_of_pos hn]; exact div_le_div_of_nonneg_right h3 hn.le
  refine (h.rnd_near h4).trans ?_
  have := mul_le_mul_of_nonneg_left h5 h.nonneg
  rw [pow_succ]
  linarith

/-- **C142** Under rounding with unit roundoff `u`, the mean of `n` numbers is within `((1 + u)^(n+1) - 1)` times the mean
absolute value of the true mean. -/
theorem C142_mean (A : Arith K) (u : K) (h : Std A u) (parse : String → Option (Rd A)) (xs : List K) (hne : xs ≠ [])
    (hn : A.rnd (xs.length : K) = xs.length) :
    ∃ m : K, mean parse (.seq (numItems (Rd.fins A xs))) = .ok (.val (Rd.fin A m)) ∧
      |m - Spec.avg xs| ≤ ((1 + u) ^ (xs.length + 1) - 1) * Spec.avg (xs.map (fun x => |x|)) :=
  ⟨rmean A xs, by rw [mean_numItems parse _ (by simpa using hne), npMean_rd A xs hne hn], rmean_near A u h xs hne⟩

/-- **C142** For non-negative data the error of the mean is relative. -/
theorem C142_mean_relative (A : Arith K) (u : K) (h : Std A u) (parse : String → Option (Rd A)) (xs : List K)
    (hne : xs ≠ []) (hn : A.rnd (xs.length : K) = xs.length) (h0 : ∀ x ∈ xs, 0 ≤ x) :
    ∃ m : K, mean parse (.seq (numItems (Rd.fins A xs))) = .ok (.val (Rd.fin A m)) ∧
      |m - Spec.avg xs| ≤ ((1 + u) ^ (xs.length + 1) - 1) * Spec.avg xs := by
  obtain ⟨m, h1, h2⟩ := C142_mean A u h parse xs hne hn
  refine ⟨m, h1, ?_⟩
  have : xs.map (fun x => |x|) = xs := by
    conv_rhs => rw [← List.map_id xs]
    exact List.map_congr_left (fun x hx => abs_of_nonneg (h0 x hx))
  rwa [this] at h2

/-- mean square about any point -/
private theorem mean_sq_about (xs : List K) (hne : xs ≠ []) (m : K) :
    (xs.map (fun x => (x - m) * (x - m))).sum / xs.length = Spec.var xs + (m - Spec.avg xs) ^ 2 := by
  have hn : (xs.length : K) ≠ 0 := Spec.length_ne hne
  have key : ∀ (a : K) (l : List K), (l.map (fun x => (x - m) * (x - m))).sum =
      (l.map (fun x => (x - a) ^ 2)).sum + 2 * (a - m) * (l.sum - l.length * a) + l.length * (a - m) ^ 2 := by
    intro a l
    induction l with
    | nil => simp
    | cons x t ih =>
      simp only [List.map_cons, List.sum_cons, ih, List.length_cons]
      push_cast
      ring
  rw [key (Spec.avg xs) xs]
  have hs : xs.sum = xs.length * Spec.avg xs := by unfold Spec.avg; field_simp
  have e : Spec.var xs = (xs.map (fun x => (x - Spec.avg xs) ^ 2)).sum / xs.length := by
    unfold Spec.var Spec.cmoment
    rw [show ∀ l : List K, Spec.avg l = l.sum / l.length from fun _ => rfl, List.length_map]
  rw [e, ← hs]
  field_simp
  ring

private theorem sq_sum_near (A : Arith K) (u : K) (h : Std A u) (m : K) (xs : List K) :
    |(xs.map (fun x => A.rnd (A.rnd (x - m) * A.rnd (x - m)))).sum - (xs.map (fun x => (x - m) * (x - m))).sum| ≤
      ((1 + u) ^ 3 - 1) * (xs.map (fun x => (x - m) * (x - m))).sum ∧
    ((xs.map (fun x => A.rnd (A.rnd (x - m) * A.rnd (x - m)))).map (fun x => |x|)).sum ≤
      (1 + u) ^ 3 * (xs.map (fun x => (x - m) * (x - m))).sum := by
  have hu := h.nonneg
  induction xs with
  | nil => simp
  | cons x t ih =>
    obtain ⟨h1, h2⟩ := ih
    simp only [List.map_cons, List.sum_cons]
    have hd := h.rnd (x - m)
    have hsq : |x - m| * |x - m| = (x - m) * (x - m) := abs_mul_abs_self _
    have h3 : |A.rnd (x - m) + (x - m)| ≤ (2 + u) * |x - m| := by
      have e : A.rnd (x - m) + (x - m) = (A.rnd (x - m) - (x - m)) + 2 * (x - m) := by ring
      rw [e]
      refine (abs_add_le _ _).trans ?_
      rw [abs_mul, abs_of_pos (by norm_num : (0 : K) < 2)]
      linarith
    have h4 : |A.rnd (x - m) * A.rnd (x - m) - (x - m) * (x - m)| ≤ (u * (2 + u)) * ((x - m) * (x - m)) := by
      have e : A.rnd (x - m) * A.rnd (x - m) - (x - m) * (x - m) =
          (A.rnd (x - m) - (x - m)) * (A.rnd (x - m) + (x - m)) := by ring
      rw [e, abs_mul]
      refine (mul_le_mul hd h3 (abs_nonneg _) (by positivity)).trans (le_of_eq ?_)
      rw [← hsq]; ring
    have h5 := h.rnd_near h4
    rw [abs_of_nonneg (mul_self_nonneg (x - m))] at h5
    have h6 : |A.rnd (A.rnd (x - m) * A.rnd (x - m)) - (x - m) * (x - m)| ≤
        ((1 + u) ^ 3 - 1) * ((x - m) * (x - m)) := h5.trans (le_of_eq (by ring))
    have h7 : |A.rnd (A.rnd (x - m) * A.rnd (x - m))| ≤ (1 + u) ^ 3 * ((x - m) * (x - m)) := by
      have := abs_add_le (A.rnd (A.rnd (x - m) * A.rnd (x - m)) - (x - m) * (x - m)) ((x - m) * (x - m))
      rw [sub_add_cancel, abs_of_nonneg (mul_self_nonneg (x - m))] at this
      linarith
    refine ⟨?_, by linarith⟩
    rw [add_sub_add_comm]
    refine (abs_add_le _ _).trans ?_
    linarith

/-- **C142** Under rounding, the variance of `n` numbers is off by a relative error of `(1 + u)^(n+4) - 1` plus
the square of the error of the mean. -/
theorem C142_variance (A : Arith K) (u : K) (h : Std A u) (b : Bool) (xs : List K) (hne : xs ≠ [])
    (hn : A.rnd (xs.length : K) = xs.length) :
    ∃ v : K, variance ⟨1, b, numItems (Rd.fins A xs)⟩ = .ok (Rd.fin A v) ∧
      |v - Spec.var xs| ≤ ((1 + u) ^ (xs.length + 4) - 1) * Spec.var xs +
        (1 + u) ^ (xs.length + 4) * (((1 + u) ^ (xs.length + 1) - 1) * Spec.avg (xs.map (fun x => |x|))) ^ 2 := by
  have hu := h.nonneg
  have hpos : (0 : K) < xs.length := by exact_mod_cast List.length_pos_of_ne_nil hne
  set m := rmean A xs with hm
  set D := (xs.map (fun x => (x - m) * (x - m))).sum with hD
  set Q := xs.map (fun x => A.rnd (A.rnd (x - m) * A.rnd (x - m))) with hQ
  refine ⟨A.rnd (A.sum Q / xs.length), ?_, ?_⟩
  · have hv : (numItems (Rd.fins A xs)).filterMap Item.val? = Rd.fins A xs := by
      simp [numItems, List.filterMap_map, Function.comp_def, Item.val?]
    have hs : (numItems (Rd.fins A xs)).any Item.isStr = false := by simp [numItems, Item.isStr]
    unfold variance
    simp only [hs]
    rw [if_neg (by simp), if_neg (by simp), if_neg (by simpa [numItems] using hne), hv]
    unfold npVar
    simp only
    rw [npMean_rd A xs hne hn, List.map_map]
    have e : (xs.map ((fun x => (x -. Rd.fin A (rmean A xs)) *. (x -. Rd.fin A (rmean A xs))) ∘ Rd.fin A)) = Rd.fins A Q := by
      rw [hQ, Rd.fins, List.map_map]
      apply List.map_congr_left
      intro x _
      show (Rd.fin A x -. _) *. _ = _
      rw [Rd.sub_fin, Rd.mul_fin]; rfl
    rw [e, Rd.sum_fins, List.length_map, Rd.ofNat_fin, hn, Rd.div_fin A hpos.ne']
  · obtain ⟨h1, h2⟩ := sq_sum_near A u h m xs
    have h3 := h.sum Q
    have hlQ : Q.length = xs.length := by simp [hQ]
    rw [hlQ] at h3
    have hP : 1 ≤ (1 + u) ^ xs.length := one_le_pow₀ (by linarith)
    have h4 : |A.sum Q - D| ≤ ((1 + u) ^ (xs.length + 3) - 1) * D := by
      have h5 := h3.trans (mul_le_mul_of_nonneg_left h2 (sub_nonneg.mpr hP))
      refine ((abs_sub_le _ _ _).trans (add_le_add h5 h1)).trans (le_of_eq ?_)
      rw [pow_add]; ring
    have hD0 : 0 ≤ D := List.sum_nonneg (by
      intro y hy; obtain ⟨z, -, rfl⟩ := List.mem_map.mp hy; exact mul_self_nonneg _)
    have h6 : |A.sum Q / xs.length - D / xs.length| ≤ ((1 + u) ^ (xs.length + 3) - 1) * (D / xs.length) := by
      rw [← sub_div, abs_div, abs_of_pos hpos, div_le_iff₀ hpos, mul_assoc, div_mul_cancel₀ _ hpos.ne']
      exact h4
    have h7 := h.rnd_near h6
    rw [abs_of_nonneg (div_nonneg hD0 hpos.le), mean_sq_about xs hne m] at h7
    have h8 : (m - Spec.avg xs) ^ 2 ≤ (((1 + u) ^ (xs.length + 1) - 1) * Spec.avg (xs.map (fun x => |x|))) ^ 2 := by
      rw [← sq_abs]
      exact pow_le_pow_left₀ (abs_nonneg _) (rmean_near A u h xs hne) 2
    set E := (m - Spec.avg xs) ^ 2 with hE
    have hE0 : 0 ≤ E := sq_nonneg _
    have h9 : |A.rnd (A.sum Q / xs.length) - Spec.var xs| ≤
        |A.rnd (A.sum Q / xs.length) - (Spec.var xs + E)| + E := by
      have := abs_sub_le (A.rnd (A.sum Q / xs.length)) (Spec.var xs + E) (Spec.var xs)
      rwa [add_sub_cancel_left, abs_of_nonneg hE0] at this
    have h10 : (1 + u) ^ (xs.length + 4) * E ≤ (1 + u) ^ (xs.length + 4) *
        (((1 + u) ^ (xs.length + 1) - 1) * Spec.avg (xs.map (fun x => |x|))) ^ 2 :=
      mul_le_mul_of_nonneg_left h8 (by positivity)
    have e4 : (1 + u) ^ (xs.length + 4) = (1 + u) * (1 + u) ^ (xs.length + 3) := by rw [pow_succ]; ring
    rw [e4] at h10 ⊢
    linarith

/-- **C142** In binary64 a constant series can have a positive variance (three times the double nearest to 0.1), so C07's
"variance vanishes on constant data" needs exact arithmetic. -/
theorem C142_constant_series : ∃ c v : ℚ, bin64.rnd c = c ∧ 0 < v ∧
    variance ⟨1, false, numItems (Rd.fins bin64 [c, c, c])⟩ = .ok (Rd.fin bin64 v) := by
  refine ⟨3602879701896397 / 2 ^ 55, 1 / 2 ^ 112, by decide +kernel, by norm_num, ?_⟩
  have : npVar (Rd.fins bin64 [3602879701896397 / 2 ^ 55, 3602879701896397 / 2 ^ 55, 3602879701896397 / 2 ^ 55]) =
      Rd.fin bin64 (1 / 2 ^ 112) := by
    decide +kernel
  exact congrArg Except.ok this

/-- the hypotheses of C142 hold in binary64 for every series of fewer than `2⁵³` samples -/
example (xs : List ℚ) (h : xs.length < 2 ^ 53) : Std bin64 (1 / 2 ^ 53) ∧ bin64.rnd (xs.length : ℚ) = xs.length :=
  ⟨bin64_std, rnd53_nat _ h⟩

end Proadv.Props
