import Verif.Props.SeriesFull
import Verif.Props.InterpOverflow
import Verif.Props.Replace

/-!
# Property C261: mean_value and median_value with rounding, underflow and overflow
-/

set_option linter.unusedSectionVars false

namespace Proadv.Props

open Proadv Replace Descriptive

variable {K : Type} [Field K] [LinearOrder K] [IsStrictOrderedRing K] [FloorRing K] {O : OArith K} {u η : K} {Rep : K → Prop}

private theorem abs_sum_le_map (xs : List K) : |xs.sum| ≤ (xs.map (fun x => |x|)).sum := by
  induction xs with
  | nil => simp
  | cons x t ih => simp only [List.sum_cons, List.map_cons]; exact (abs_add_le _ _).trans (by linarith)

/-- **C261** `mean_value` on finite samples with in-range spikes (negative ones count from the end): all other samples stay, all
spikes get the same value; if that value is a number it is within the error of C234 of the exact mean; it is a number when the sum of
the magnitudes is below the largest float by the rounding error. -/
theorem C261_mean_value (O : OArith K) (u η : K) (Rep : K → Prop) (h : OGrad O u η Rep) (xs : List K) (hne : xs ≠ [])
    (hrep : ∀ x ∈ xs, Rep x) (hn : Over.Nat? O xs.length) (sp : List Int) (hin : ∀ i ∈ sp, ∃ k, pyIdx xs.length i = some k) :
    ∃ (v : Ov O) (out : List (Ov O)), meanValue ⟨1, false, Ov.fins O xs⟩ sp = .ok out ∧ KeepsRest (Ov.fins O xs) sp out ∧
      (∀ k, Hits xs.length sp k → out[k]? = some v) ∧
      (∀ m, v = Ov.fin O m → |m - Spec.avg xs| ≤ ((1 + u) ^ (xs.length + 1) - 1) * Spec.avg (xs.map (fun x => |x|)) + η) ∧
      ((1 + u) ^ (xs.length + 1) * (xs.map (fun x => |x|)).sum + η ≤ O.top → Ov.IsNum v) := by
  have hl : (Ov.fins O xs).length = xs.length := List.length_map _
  have hne' : Ov.fins O xs ≠ [] := by rw [← List.length_pos_iff, hl]; exact List.length_pos_iff.mpr hne
  obtain ⟨v, hv, hb⟩ := C255_mean O u η Rep h (fun _ => none) xs hne hrep hn
  rw [mean_numItems _ _ hne'] at hv
  have hv' : npMean (Ov.fins O xs) = v := by injection hv with hv; injection hv
  obtain ⟨c1, c2, -⟩ := C48_mean_value (⟨1, false, Ov.fins O xs⟩ : Arr (Ov O)) sp hne'
  obtain ⟨out, ho⟩ := c2 (by rw [show (⟨1, false, Ov.fins O xs⟩ : Arr (Ov O)).data.length = xs.length from hl]; exact hin)
  refine ⟨v, out, ho, C44_mean _ _ _ ho, fun k hk => ?_, hb, fun hs => ?_⟩
  · rw [c1 out ho k (by rw [show (⟨1, false, Ov.fins O xs⟩ : Arr (Ov O)).data.length = xs.length from hl]; exact hk)]
    rw [← hv']
    rfl
  · have hu := h.grad.nonneg
    have he := h.grad.eta
    have hT : 0 ≤ (xs.map (fun x => |x|)).sum := List.sum_nonneg (by
      intro y hy; obtain ⟨z, -, rfl⟩ := List.mem_map.mp hy; exact abs_nonneg z)
    have hp : 1 ≤ (1 + u) ^ xs.length := one_le_pow₀ (by linarith)
    have hpT : 0 ≤ (1 + u) ^ xs.length * (xs.map (fun x => |x|)).sum := mul_nonneg (by linarith) hT
    have hs' : (1 + u) ^ xs.length * (xs.map (fun x => |x|)).sum * (1 + u) + η ≤ O.top := by
      rw [pow_succ] at hs
      calc _ = (1 + u) ^ xs.length * (1 + u) * (xs.map (fun x => |x|)).sum + η := by ring
        _ ≤ _ := hs
    have hs1 : (1 + u) ^ xs.length * (xs.map (fun x => |x|)).sum ≤ O.top := by nlinarith
    have hsum := h.fits xs hrep hs1
    have habs : |O.sum xs| ≤ (1 + u) ^ xs.length * (xs.map (fun x => |x|)).sum := by
      have e1 := h.grad.sum xs hrep
      have e2 : |xs.sum| ≤ (xs.map (fun x => |x|)).sum := abs_sum_le_map xs
      have e3 : |O.sum xs| ≤ |O.sum xs - xs.sum| + |xs.sum| := by
        have := abs_add_le (O.sum xs - xs.sum) xs.sum; simpa using this
      linarith
    have hn0 : (1 : K) ≤ xs.length := by exact_mod_cast List.length_pos_iff.mpr hne
    have hq : |O.sum xs / xs.length| ≤ (1 + u) ^ xs.length * (xs.map (fun x => |x|)).sum := by
      rw [abs_div, abs_of_nonneg (by linarith : (0 : K) ≤ xs.length)]
      exact (div_le_self (abs_nonneg _) hn0).trans habs
    have hr : |O.rnd (O.sum xs / xs.length)| ≤ O.top := by
      have e1 := h.grad.rnd (O.sum xs / xs.length)
      have e3 : |O.rnd (O.sum xs / xs.length)| ≤ |O.rnd (O.sum xs / xs.length) - O.sum xs / xs.length| + |O.sum xs / xs.length| := by
        have := abs_add_le (O.rnd (O.sum xs / xs.length) - O.sum xs / xs.length) (O.sum xs / xs.length); simpa using this
      nlinarith
    refine ⟨O.rnd (O.sum xs / xs.length), ?_⟩
    rw [← hv']
    unfold npMean
    rw [hl, Ov.ofNat_num hn.1 hn.2]
    have e : (PyNum.sum (Ov.fins O xs) : Ov O) = Ov.fin O (O.sum xs) := hsum
    rw [e]
    show Ov.squash O (Fl.div (Fl.fin _) (Fl.fin _)) = _
    simp only [Fl.div, (by linarith : (xs.length : K) ≠ 0), if_false]
    exact Ov.squash_ok hr

theorem npSort_ov (xs : List K) : npSort (Ov.fins O xs) = Ov.fins O (xs.insertionSort (· ≤ ·)) :=
  npSort_fins xs

/-- Specification: the two middle samples of sorted data (equal for odd length) -/
def lowMid (s : List K) : K := s.getD ((s.length - 1) / 2) 0

/-- Specification: see `lowMid` -/
def highMid (s : List K) : K := s.getD (s.length / 2) 0

/-- **C261** `median` on finite samples, `s` the sorted samples: for odd length the middle sample itself, with no rounding and no
overflow; for even length an infinity exactly when the sum of the two middle samples overflows, otherwise a number within two
roundings of the exact median. -/
theorem C261_median (O : OArith K) (u η : K) (Rep : K → Prop) (h : OGrad O u η Rep) (h2 : Over.Nat? O 2)
    (ht : (1 + u) * (O.top / 2) + η ≤ O.top) (b : Bool) (xs : List K) (hne : xs ≠ []) (hrep : ∀ x ∈ xs, Rep x) (s : List K)
    (hp : s.Perm xs) (hs : s.Pairwise (· ≤ ·)) :
    ∃ v : Ov O, median ⟨1, b, (Ov.fins O xs).map Item.num⟩ = .ok v ∧
      (xs.length % 2 = 1 → v = Ov.fin O (midpoint s)) ∧
      (xs.length % 2 = 0 → O.top < |O.rnd (lowMid s + highMid s)| → v = sinf O (O.rnd (lowMid s + highMid s))) ∧
      (xs.length % 2 = 0 → |O.rnd (lowMid s + highMid s)| ≤ O.top →
        ∃ m, v = Ov.fin O m ∧ |m - midpoint s| ≤ ((1 + u) ^ 2 - 1) * |midpoint s| + η) := by
  have hse : s = xs.insertionSort (· ≤ ·) :=
    List.Perm.eq_of_pairwise (fun a b _ _ => le_antisymm) hs (List.pairwise_insertionSort _ _)
      (hp.trans (List.perm_insertionSort _ _).symm)
  have hlen : s.length = xs.length := hp.length_eq
  have hpos := List.length_pos_iff.mpr hne
  have hl : (Ov.fins O s).length = s.length := List.length_map _
  have hget : ∀ i, i < s.length → (Ov.fins O s).getD i PyNum.nan = Ov.fin O (s.getD i 0) := fun i hi => by
    simp [List.getD_eq_getElem?_getD, hi]
  have hfl : ∀ i, i < s.length → Rep (s.getD i 0) := fun i hi => by
    have : s.getD i 0 = s[i] := by simp [List.getD_eq_getElem?_getD, hi]
    rw [this]; exact hrep _ (hp.subset (List.getElem_mem hi))
  have hnan : (Ov.fins O xs).any PyNum.isNaN = false := by
    rw [List.any_eq_false]
    intro x hx'
    obtain ⟨z, -, rfl⟩ := List.mem_map.mp hx'
    show ¬ (Fl.isNaN (Fl.fin z) = true)
    simp [Fl.isNaN]
  have hmed : median ⟨1, b, (Ov.fins O xs).map Item.num⟩ = .ok (npMedian (Ov.fins O xs)) := by
    have h1 := filterMap_val_numItems (Ov.fins O xs)
    have h2 := any_isStr_numItems (Ov.fins O xs)
    unfold median
    unfold numItems at h1 h2
    simp only [h1, h2, List.length_map, ne_eq, not_true_eq_false, if_false, Bool.false_eq_true]
    rw [if_neg (by omega)]
  have e2 : (lit 2 : Ov O) = Ov.fin O 2 := by
    have := Ov.lit_num (O := O) (q := 2) (by simpa using h2.1) (by simpa using h2.2)
    rw [this]; norm_num
  have hm : npMedian (Ov.fins O xs) = if s.length % 2 = 1 then Ov.fin O (highMid s) else
      (Ov.fin O (lowMid s) +. Ov.fin O (highMid s)) /. Ov.fin O 2 := by
    unfold npMedian
    rw [hnan, npSort_ov, ← hse]
    simp only [Bool.false_eq_true, if_false, hl]
    rw [if_neg (by omega), e2]
    unfold lowMid highMid
    split_ifs with ho
    · rw [hget _ (by omega)]
    · rw [hget _ (by omega), hget _ (by omega), show (s.length - 1) / 2 = s.length / 2 - 1 by omega]
  refine ⟨_, hmed, fun ho => ?_, fun ho hbig => ?_, fun ho hok => ?_⟩
  · rw [hm, if_pos (by omega)]
    unfold midpoint
    rw [if_pos (by omega)]; rfl
  · rw [hm, if_neg (by omega)]
    have e : (Ov.fin O (lowMid s) +. Ov.fin O (highMid s)) = sinf O (O.rnd (lowMid s + highMid s)) := by
      show Ov.squash O (Fl.fin _) = _
      exact if_neg (not_le.mpr hbig)
    rw [e]
    by_cases h0 : 0 < O.rnd (lowMid s + highMid s)
    · rw [show sinf O (O.rnd (lowMid s + highMid s)) = (Fl.pinf : Fl K) from if_pos h0]
      show Ov.squash O (Fl.div Fl.pinf (Fl.fin 2)) = Fl.pinf
      simp [Fl.div, Ov.squash]
    · rw [show sinf O (O.rnd (lowMid s + highMid s)) = (Fl.ninf : Fl K) from if_neg h0]
      show Ov.squash O (Fl.div Fl.ninf (Fl.fin 2)) = Fl.ninf
      simp [Fl.div, Ov.squash]
  · have hu := h.grad.nonneg
    have f1 : Rep (lowMid s) := hfl _ (by omega)
    have f2 : Rep (highMid s) := hfl _ (by omega)
    have em : midpoint s = (lowMid s + highMid s) / 2 := by
      unfold midpoint lowMid highMid
      rw [if_neg (by omega), show (s.length - 1) / 2 = s.length / 2 - 1 by omega]
    rw [hm, if_neg (by omega), em]
    set a := lowMid s
    set c := highMid s
    have hr : |O.rnd (O.rnd (a + c) / 2)| ≤ O.top := by
      have e1 := h.grad.rnd (O.rnd (a + c) / 2)
      have e3 : |O.rnd (O.rnd (a + c) / 2)| ≤ |O.rnd (O.rnd (a + c) / 2) - O.rnd (a + c) / 2| + |O.rnd (a + c) / 2| := by
        have := abs_add_le (O.rnd (O.rnd (a + c) / 2) - O.rnd (a + c) / 2) (O.rnd (a + c) / 2); simpa using this
      have e4 : |O.rnd (a + c) / 2| ≤ O.top / 2 := by
        rw [abs_div, abs_of_pos (by norm_num : (0 : K) < 2)]; linarith
      nlinarith
    refine ⟨O.rnd (O.rnd (a + c) / 2), ?_, ?_⟩
    · have e : (Ov.fin O a +. Ov.fin O c) = Ov.fin O (O.rnd (a + c)) := Ov.squash_ok hok
      rw [e]
      show Ov.squash O (Fl.div (Fl.fin _) (Fl.fin 2)) = _
      simp only [Fl.div, (by norm_num : (2 : K) ≠ 0), if_false]
      exact Ov.squash_ok hr
    · have h3 : |O.rnd (a + c) / 2 - (a + c) / 2| ≤ u * |(a + c) / 2| := by
        rw [← sub_div, abs_div, abs_div, abs_of_pos (by norm_num : (0 : K) < 2), ← mul_div_assoc]
        exact div_le_div_of_nonneg_right (h.grad.add a c f1 f2) (by norm_num)
      refine (h.grad.rnd_near h3).trans (le_of_eq ?_)
      ring

/-- **C261** `median_value` writes the value of `median` into every spike and keeps the other samples, in any arithmetic with overflow. -/
theorem C261_median_value (O : OArith K) (xs : List K) (v : Ov O) (hv : median ⟨1, false, (Ov.fins O xs).map Item.num⟩ = .ok v)
    (sp : List Int) (hin : ∀ i ∈ sp, ∃ k, pyIdx xs.length i = some k) :
    ∃ out : List (Ov O), medianValue ⟨1, false, Ov.fins O xs⟩ sp = .ok out ∧ KeepsRest (Ov.fins O xs) sp out ∧
      ∀ k, Hits xs.length sp k → out[k]? = some v := by
  have hl : (Ov.fins O xs).length = xs.length := List.length_map _
  have e : medianValue ⟨1, false, Ov.fins O xs⟩ sp = setMany (Ov.fins O xs) sp v := by
    unfold medianValue
    rw [hv]; rfl
  obtain ⟨out, ho⟩ := setMany_total (Ov.fins O xs) sp v (by rw [hl]; exact hin)
  exact ⟨out, e.trans ho, setMany_frame ho, fun k hk => setMany_value ho k (by rw [hl]; exact hk)⟩

/-- **C261** binary64: two samples of `2 ^ 1023` make `mean_value` write infinity although the exact mean is smaller; the median of
an even number of such samples is infinite, of an odd number it is the sample -/
theorem C261_binary64 :
    meanValue ⟨1, false, Ov.fins bin64f [2 ^ 1023, 2 ^ 1023, 7, 1]⟩ [2] =
      .ok [Ov.fin bin64f (2 ^ 1023), Ov.fin bin64f (2 ^ 1023), Ov.inf bin64f, Ov.fin bin64f 1] ∧
    medianValue ⟨1, false, Ov.fins bin64f [2 ^ 1023, 2 ^ 1023, 7, 2 ^ 1023]⟩ [-2] =
      .ok [Ov.fin bin64f (2 ^ 1023), Ov.fin bin64f (2 ^ 1023), Ov.inf bin64f, Ov.fin bin64f (2 ^ 1023)] ∧
    medianValue ⟨1, false, Ov.fins bin64f [2 ^ 1023, 2 ^ 1023, 7]⟩ [2] =
      .ok [Ov.fin bin64f (2 ^ 1023), Ov.fin bin64f (2 ^ 1023), Ov.fin bin64f (2 ^ 1023)] ∧
    Spec.avg [2 ^ 1023, 2 ^ 1023, 7, (1 : ℚ)] < 2 ^ 1023 ∧ midpoint [7, 2 ^ 1023, 2 ^ 1023, (2 ^ 1023 : ℚ)] = 2 ^ 1023 := by
  refine ⟨?_, ?_, ?_, ?_, ?_⟩ <;> decide +kernel

/-- the hypotheses of C261 are met by binary64 -/
example : OGrad bin64f (1 / 2 ^ 53) (2 ^ (-1075 : ℤ)) Grid ∧ Over.Nat? bin64f 2 ∧ Over.Nat? bin64f 4 ∧
    (1 + 1 / 2 ^ 53) * (bin64f.top / 2) + 2 ^ (-1075 : ℤ) ≤ bin64f.top ∧
    (1 + 1 / 2 ^ 53) ^ (4 + 1) * (([1, -2, 7, 2 ^ 1000] : List ℚ).map (fun x => |x|)).sum + 2 ^ (-1075 : ℤ) ≤ bin64f.top := by
  refine ⟨bin64f_grad, ⟨rndSub_nat 2 (by norm_num), ?_⟩, ⟨rndSub_nat 4 (by norm_num), ?_⟩, ?_, ?_⟩ <;> decide +kernel

end Proadv.Props
