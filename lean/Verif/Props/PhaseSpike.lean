import Verif.Props.Phase2
import Verif.Props.Spherical2
import Verif.Props.CorrelationSpike

/-!
# C200 A high spike in `phasespace_thresholding`: it is flagged, and so are its two neighbours
-/

set_option linter.unusedSectionVars false

namespace Proadv.Props

open Proadv Proadv.Detect Proadv.Fl Finset

/-- a sample whose value or whose derivative exceeds `√(2 ln n)` standard deviations is flagged -/
theorem phase_flag (xs : List ℝ) (hn : 2 ≤ xs.length) (h0 : Spec.var xs ≠ 0) (h1 : Spec.var (cdiff false xs) ≠ 0) :
    ∃ r, phasespaceThresholding (⟨1, false, fins xs⟩ : Arr (Fl ℝ)) = .ok r ∧
      ∀ i x y, xs[i]? = some x → (cdiff false xs)[i]? = some y →
        (2 * Real.log xs.length * Spec.var xs < x ^ 2 ∨ 2 * Real.log xs.length * Spec.var (cdiff false xs) < y ^ 2) →
        i ∈ r := by
  have hne : xs ≠ [] := by rintro rfl; simp at hn
  have hd1 : cdiff false xs ≠ [] := by
    intro h; have := cdiff_length false xs; rw [h] at this; simp at this; exact hne (List.length_eq_zero_iff.mp this.symm)
  have hlog : 0 < 2 * Real.log xs.length := by
    have : (1 : ℝ) < xs.length := by exact_mod_cast hn
    have := Real.log_pos this
    linarith
  set l := √(2 * Real.log xs.length) with hl
  have hlpos : 0 < l := Real.sqrt_pos.mpr hlog
  have hl2 : l ^ 2 = 2 * Real.log xs.length := Real.sq_sqrt hlog.le
  set s0 := √(Spec.var xs) with hs0
  have hs0p : 0 < s0 := Real.sqrt_pos.mpr (lt_of_le_of_ne (Spec.var_nonneg xs) (Ne.symm h0))
  have hs02 : s0 ^ 2 = Spec.var xs := Real.sq_sqrt (Spec.var_nonneg xs)
  set s1 := √(Spec.var (cdiff false xs)) with hs1
  have hs1p : 0 < s1 := Real.sqrt_pos.mpr (lt_of_le_of_ne (Spec.var_nonneg _) (Ne.symm h1))
  have hs12 : s1 ^ 2 = Spec.var (cdiff false xs) := Real.sq_sqrt (Spec.var_nonneg _)
  have hc : fins xs ≠ [] := by simpa using hne
  obtain ⟨r, hr⟩ := (C64_errors (⟨1, false, fins xs⟩ : Arr (Fl ℝ))).1.mpr ⟨rfl, hc⟩
  refine ⟨r, hr, fun i x y hx hy hbig => ((C64_char false _ r hr).2 i).mpr ?_⟩
  have hi : i < xs.length := by
    by_contra hcc; rw [List.getElem?_eq_none (by omega)] at hx; cases hx
  have hdc : centralDiff false (fins xs) = (fins (cdiff false xs) : List (Fl ℝ)) := centralDiff_fins false _
  have hdc2 : centralDiff false (fins (cdiff false xs)) = (fins (cdiff false (cdiff false xs)) : List (Fl ℝ)) :=
    centralDiff_fins false _
  obtain ⟨z, hz⟩ : ∃ z, (cdiff false (cdiff false xs))[i]? = some z :=
    ⟨_, List.getElem?_eq_getElem (by rw [cdiff_length, cdiff_length]; exact hi)⟩
  refine ⟨fin x, fin y, fin z, ?_, ?_, ?_, Or.inl ?_⟩
  · rw [List.getElem?_map, hx]; rfl
  · rw [hdc, List.getElem?_map, hy]; rfl
  · rw [hdc, hdc2, List.getElem?_map, hz]; rfl
  · have ea : (phaseP false (fins xs) : PhaseParams (Fl ℝ)).a1 = fin (l * s0) := by
      show lambdaOf _ *. npStd _ = _
      rw [npStd_fins _ hne, List.length_map, lambdaOf_fin (by omega)]; rfl
    have eb : (phaseP false (fins xs) : PhaseParams (Fl ℝ)).b1 = fin (l * s1) := by
      show lambdaOf _ *. npStd _ = _
      rw [hdc, npStd_fins _ hd1, List.length_map, lambdaOf_fin (by omega)]; rfl
    rw [ea, eb]
    have e0 : (lit 0 : Fl ℝ) = fin 0 := by simp
    have p1 : 0 < l * s0 := mul_pos hlpos hs0p
    have p2 : 0 < l * s1 := mul_pos hlpos hs1p
    rw [e0, rhoAt_fin _ _ _ p1.ne' p2.ne']
    have hlt : 1 < rhoR 0 (l * s0) (l * s1) x y := by
      unfold rhoR
      rw [Real.cos_zero, Real.sin_zero, mul_one, mul_zero, add_zero, mul_one, mul_zero, sub_zero]
      have q1 : 0 ≤ (x / (l * s0)) ^ 2 := sq_nonneg _
      have q2 : 0 ≤ (y / (l * s1)) ^ 2 := sq_nonneg _
      rcases hbig with hb | hb
      · have : 1 < (x / (l * s0)) ^ 2 := by
          rw [div_pow, lt_div_iff₀ (by positivity), one_mul, mul_pow, hl2, hs02]; exact hb
        linarith
      · have : 1 < (y / (l * s1)) ^ 2 := by
          rw [div_pow, lt_div_iff₀ (by positivity), one_mul, mul_pow, hl2, hs12]; exact hb
        linarith
    simpa using hlt

private theorem quad (a b K C : ℝ) (hab : b < a) (hb : 0 ≤ b) (hK : 0 ≤ K) (hC : 0 ≤ C) :
    ∃ s0, ∀ s, s0 ≤ s → b * (s + K) ^ 2 + C < a * (s - K) ^ 2 := by
  have hd : 0 < a - b := by linarith
  refine ⟨(2 * K * (a + b) + C + 1) / (a - b) + 1, fun s hs => ?_⟩
  have h0 : 0 ≤ (2 * K * (a + b) + C + 1) / (a - b) := div_nonneg (by nlinarith [mul_nonneg hK hb, mul_nonneg hK (hb.trans hab.le)]) hd.le
  have h1 : 1 ≤ s := by linarith
  have h2 : 2 * K * (a + b) + C + 1 ≤ (a - b) * s := by
    have : (2 * K * (a + b) + C + 1) / (a - b) ≤ s := by linarith
    rw [div_le_iff₀ hd] at this; linarith
  have h3 : (C + 1) * 1 ≤ ((a - b) * s - 2 * K * (a + b)) * s :=
    mul_le_mul (by linarith) h1 (by norm_num) (by linarith)
  have h4 : 0 ≤ (a - b) * K ^ 2 := by positivity
  nlinarith

private theorem var_le (zs : List ℝ) (h : zs ≠ []) (S : ℝ) (hS : ∑ k ∈ range zs.length, zs.getD k 0 ^ 2 ≤ S) :
    zs.length * Spec.var zs ≤ S := by
  have hn : (zs.length : ℝ) ≠ 0 := by
    have := List.length_pos_iff.mpr h
    positivity
  rw [Spec.var_eq_sub h]
  have e : Spec.avg (zs.map (fun x => x ^ 2)) = (∑ k ∈ range zs.length, zs.getD k 0 ^ 2) / zs.length := by
    conv_lhs => rw [list_range zs, List.map_map]
    exact avg_range _ _
  rw [e]
  have : (zs.length : ℝ) * ((∑ k ∈ range zs.length, zs.getD k 0 ^ 2) / zs.length - Spec.avg zs ^ 2) =
    ∑ k ∈ range zs.length, zs.getD k 0 ^ 2 - zs.length * Spec.avg zs ^ 2 := by field_simp
  rw [this]
  have : 0 ≤ (zs.length : ℝ) * Spec.avg zs ^ 2 := by positivity
  linarith

private theorem sum_one (n i : ℕ) (A : ℝ) (hA : 0 ≤ A) : ∑ k ∈ range n, (if k = i then A else 0) ≤ A := by
  rw [sum_ite_eq']; split_ifs <;> linarith

private theorem get_of (zs : List ℝ) (k : Nat) (hk : k < zs.length) : zs[k]? = some (zs.getD k 0) := by
  rw [List.getD, List.getElem?_eq_getElem hk]; rfl

private theorem cdiff_getD (zs : List ℝ) (k : Nat) (hk : k < zs.length) : (cdiff false zs).getD k 0 =
    if 1 ≤ k ∧ k + 1 < zs.length then aroundK ((zs.getD (k + 1) 0 - zs.getD (k - 1) 0) / 2) 4 else 0 := by
  unfold cdiff
  simp only [List.getD, List.getElem?_map, List.getElem?_range hk, Option.map_some, Option.getD_some]
  rfl

theorem four_log_lt (n : ℕ) (hn : 9 ≤ n) : 4 * Real.log n < n := by
  have h9 : (9 : ℝ) ≤ n := by exact_mod_cast hn
  have h1 : Real.log (n / 9) ≤ n / 9 - 1 := Real.log_le_sub_one_of_pos (by positivity)
  rw [Real.log_div (by positivity) (by norm_num)] at h1
  have h2 : 4 * Real.log 9 < 9 := by
    rw [show (4 : ℝ) * Real.log 9 = Real.log (9 ^ 4) by rw [Real.log_pow]; norm_num]
    rw [Real.log_lt_iff_lt_exp (by norm_num)]
    have e : Real.exp 9 = Real.exp 1 ^ 9 := by rw [← Real.exp_nat_mul]; norm_num
    rw [e]
    have := Real.exp_one_gt_d9
    calc (9 : ℝ) ^ 4 < 2.7 ^ 9 := by norm_num
      _ < Real.exp 1 ^ 9 := by gcongr; linarith
  linarith

theorem two_log_lt (n : ℕ) (hn : 1 ≤ n) : 2 * Real.log n < n := by
  have h0 : (1 : ℝ) ≤ n := by exact_mod_cast hn
  have h1 : Real.log (n / 2) ≤ n / 2 - 1 := Real.log_le_sub_one_of_pos (by positivity)
  rw [Real.log_div (by positivity) (by norm_num)] at h1
  have := Real.log_two_lt_d9
  linarith

/-- **C200** whatever the other samples (at least four), a sufficiently high spike at sample `i` is flagged; in a series
of at least nine samples its neighbours are flagged with it (unless they are the first or the last sample). -/
theorem C200_spike (xs : List ℝ) (hn : 4 ≤ xs.length) (i : Nat) (hi : i < xs.length) :
    ∃ M0, ∀ M, M0 ≤ |M| → ∃ r,
      phasespaceThresholding (⟨1, false, fins (spiked xs i M)⟩ : Arr (Fl ℝ)) = .ok r ∧ i ∈ r ∧
        (9 ≤ xs.length → ∀ j, 1 ≤ j → j + 1 < xs.length → (j + 1 = i ∨ j = i + 1) → j ∈ r) := by
  set n := xs.length with hnl
  have hn0 : (0 : ℝ) < n := by exact_mod_cast (by omega : 0 < n)
  obtain ⟨K, hK1, hK⟩ : ∃ K : ℝ, 1 ≤ K ∧ ∀ k, |xs.getD k 0| ≤ K := by
    refine ⟨1 + (xs.map (fun x => |x|)).sum, ?_, fun k => ?_⟩
    · have : 0 ≤ (xs.map (fun x => |x|)).sum := List.sum_nonneg (by
        intro y hy; obtain ⟨x, -, rfl⟩ := List.mem_map.mp hy; exact abs_nonneg x)
      linarith
    · have h0 : 0 ≤ (xs.map (fun x => |x|)).sum := List.sum_nonneg (by
        intro y hy; obtain ⟨x, -, rfl⟩ := List.mem_map.mp hy; exact abs_nonneg x)
      by_cases hk : k < xs.length
      · have := List.single_le_sum (l := xs.map (fun x => |x|)) (by
          intro y hy; obtain ⟨x, -, rfl⟩ := List.mem_map.mp hy; exact abs_nonneg x) (|xs.getD k 0|)
          (List.mem_map.mpr ⟨xs.getD k 0, by
            rw [List.getD, List.getElem?_eq_getElem hk]; exact List.getElem_mem hk, rfl⟩)
        linarith
      · rw [List.getD, List.getElem?_eq_none (by omega)]
        simp only [Option.getD_none, abs_zero]; linarith
  have hL0 : 0 ≤ Real.log n := Real.log_nonneg (by exact_mod_cast (by omega : 1 ≤ n))
  obtain ⟨s1, H1⟩ := quad n (2 * Real.log n) K (2 * Real.log n * (n * K ^ 2)) (two_log_lt n (by omega)) (by linarith)
    (by linarith) (by positivity)
  obtain ⟨s2, H2⟩ : ∃ s0, 9 ≤ n → ∀ s, s0 ≤ s → 4 * Real.log n * (s + 2 * K) ^ 2 + 2 * Real.log n * (n * (2 * K) ^ 2) <
      n * (s - 2 * K) ^ 2 := by
    by_cases h9 : 9 ≤ n
    · obtain ⟨s0, H⟩ := quad n (4 * Real.log n) (2 * K) (2 * Real.log n * (n * (2 * K) ^ 2)) (four_log_lt n h9)
        (by linarith) (by linarith) (by positivity)
      exact ⟨s0, fun _ => H⟩
    · exact ⟨0, fun h => absurd h h9⟩
  refine ⟨max (max s1 (2 * s2)) (8 * K), fun M hM => ?_⟩
  have hM1 : s1 ≤ |M| := (le_max_left _ _).trans ((le_max_left _ _).trans hM)
  have hM2 : s2 ≤ |M| / 2 := by
    have := (le_max_right s1 (2 * s2)).trans ((le_max_left _ (8 * K)).trans hM)
    linarith
  have hM3 : 8 * K ≤ |M| := (le_max_right _ _).trans hM
  set cs := spiked xs i M with hcs
  have lcs : cs.length = n := spiked_length xs i M
  have hcne : cs ≠ [] := by intro h; rw [h] at lcs; simp at lcs; omega
  have gcs : ∀ k, cs.getD k 0 = xs.getD k 0 + if k = i then M else 0 := spiked_getD xs i M hi
  have ci_lo : |M| - K ≤ |cs.getD i 0| := by
    rw [gcs, if_pos rfl]
    have h1 := abs_sub (xs.getD i 0 + M) (xs.getD i 0)
    rw [add_sub_cancel_left] at h1
    linarith [hK i]
  have ci_hi : |cs.getD i 0| ≤ |M| + K := by
    rw [gcs, if_pos rfl]
    linarith [abs_add_le (xs.getD i 0) M, hK i]
  have ck : ∀ k, k ≠ i → |cs.getD k 0| ≤ K := fun k hk => by
    rw [gcs, if_neg hk, add_zero]; exact hK k
  set ds := cdiff false cs with hds
  have lds : ds.length = n := by rw [hds, cdiff_length, lcs]
  have hdne : ds ≠ [] := by intro h; rw [h] at lds; simp at lds; omega
  have gds : ∀ k, k < n → ds.getD k 0 =
      if 1 ≤ k ∧ k + 1 < n then aroundK ((cs.getD (k + 1) 0 - cs.getD (k - 1) 0) / 2) 4 else 0 := fun k hk => by
    rw [hds, cdiff_getD cs k (by rw [lcs]; exact hk), lcs]
  have dk : ∀ k, k < n → k + 1 ≠ i → k ≠ i + 1 → |ds.getD k 0| ≤ 2 * K := fun k hk h1 h2 => by
    rw [gds k hk]
    split_ifs with h
    · have a := around4_near ((cs.getD (k + 1) 0 - cs.getD (k - 1) 0) / 2)
      have b1 := ck (k + 1) h1
      have b2 := ck (k - 1) (by omega)
      rw [abs_le] at *
      constructor <;> linarith [a.1, a.2, b1.1, b1.2, b2.1, b2.2]
    · rw [abs_zero]; linarith
  have dj : ∀ j, 1 ≤ j → j + 1 < n → (j + 1 = i ∨ j = i + 1) →
      |M| / 2 - 2 * K ≤ |ds.getD j 0| ∧ |ds.getD j 0| ≤ |M| / 2 + 2 * K := fun j h1 h2 h => by
    rw [gds j (by omega), if_pos ⟨h1, h2⟩]
    have a := around4_near ((cs.getD (j + 1) 0 - cs.getD (j - 1) 0) / 2)
    set v := aroundK ((cs.getD (j + 1) 0 - cs.getD (j - 1) 0) / 2) 4
    have b : |(cs.getD (j + 1) 0 - cs.getD (j - 1) 0)| ≤ |M| + 2 * K ∧ |M| - 2 * K ≤ |(cs.getD (j + 1) 0 - cs.getD (j - 1) 0)| := by
      rcases h with h | h
      · have b2 := ck (j - 1) (by omega)
        rw [h]
        refine ⟨by linarith [abs_sub (cs.getD i 0) (cs.getD (j - 1) 0)], by linarith [abs_sub_abs_le_abs_sub (cs.getD i 0) (cs.getD (j - 1) 0)]⟩
      · have b2 := ck (j + 1) (by omega)
        rw [show j - 1 = i by omega, abs_sub_comm]
        refine ⟨by linarith [abs_sub (cs.getD i 0) (cs.getD (j + 1) 0)], by linarith [abs_sub_abs_le_abs_sub (cs.getD i 0) (cs.getD (j + 1) 0)]⟩
    set w := cs.getD (j + 1) 0 - cs.getD (j - 1) 0
    have e : |w / 2| = |w| / 2 := by rw [abs_div]; norm_num
    have t1 := abs_sub_abs_le_abs_sub v (w / 2)
    have t2 := abs_sub_abs_le_abs_sub (w / 2) v
    rw [abs_sub_comm] at t2
    constructor <;> linarith [b.1, b.2]
  have Sc : ∑ k ∈ range cs.length, cs.getD k 0 ^ 2 ≤ (|M| + K) ^ 2 + n * K ^ 2 := by
    rw [lcs]
    have : ∀ k ∈ range n, cs.getD k 0 ^ 2 ≤ (if k = i then (|M| + K) ^ 2 else 0) + K ^ 2 := fun k _ => by
      rw [← sq_abs (cs.getD k 0)]
      split_ifs with hk
      · subst hk
        have := pow_le_pow_left₀ (abs_nonneg _) ci_hi 2
        nlinarith [sq_nonneg K]
      · rw [zero_add]; exact pow_le_pow_left₀ (abs_nonneg _) (ck k hk) 2
    refine (sum_le_sum this).trans ?_
    rw [sum_add_distrib, sum_const, card_range, nsmul_eq_mul]
    linarith [sum_one n i ((|M| + K) ^ 2) (sq_nonneg _)]
  have Sd : ∑ k ∈ range ds.length, ds.getD k 0 ^ 2 ≤ 2 * (|M| / 2 + 2 * K) ^ 2 + n * (2 * K) ^ 2 := by
    rw [lds]
    have : ∀ k ∈ range n, ds.getD k 0 ^ 2 ≤ (if k = i - 1 then (|M| / 2 + 2 * K) ^ 2 else 0) +
        (if k = i + 1 then (|M| / 2 + 2 * K) ^ 2 else 0) + (2 * K) ^ 2 := fun k hk => by
      rw [mem_range] at hk
      rw [← sq_abs (ds.getD k 0)]
      have A : 0 ≤ (|M| / 2 + 2 * K) ^ 2 := sq_nonneg _
      have B : 0 ≤ (2 * K) ^ 2 := sq_nonneg _
      have f1 : 0 ≤ if k = i - 1 then (|M| / 2 + 2 * K) ^ 2 else 0 := by split_ifs <;> linarith
      have f2 : 0 ≤ if k = i + 1 then (|M| / 2 + 2 * K) ^ 2 else 0 := by split_ifs <;> linarith
      by_cases hin : 1 ≤ k ∧ k + 1 < n ∧ (k + 1 = i ∨ k = i + 1)
      · have := pow_le_pow_left₀ (abs_nonneg _) (dj k hin.1 hin.2.1 hin.2.2).2 2
        rcases hin.2.2 with h | h
        · rw [if_pos (by omega : k = i - 1)]; linarith
        · rw [if_pos h]; linarith
      · have hs : |ds.getD k 0| ≤ 2 * K := by
          by_cases hint : 1 ≤ k ∧ k + 1 < n
          · exact dk k hk (fun h => hin ⟨hint.1, hint.2, Or.inl h⟩) (fun h => hin ⟨hint.1, hint.2, Or.inr h⟩)
          · rw [gds k hk, if_neg hint, abs_zero]; linarith
        have := pow_le_pow_left₀ (abs_nonneg _) hs 2
        linarith
    refine (sum_le_sum this).trans ?_
    rw [sum_add_distrib, sum_add_distrib, sum_const, card_range, nsmul_eq_mul]
    linarith [sum_one n (i - 1) ((|M| / 2 + 2 * K) ^ 2) (sq_nonneg _), sum_one n (i + 1) ((|M| / 2 + 2 * K) ^ 2) (sq_nonneg _)]
  have v0 : Spec.var cs ≠ 0 := by
    intro h
    obtain ⟨k, hk, hki⟩ : ∃ k, k < n ∧ k ≠ i := by
      by_cases h0 : i = 0
      · exact ⟨1, by omega, by omega⟩
      · exact ⟨0, by omega, fun h => h0 h.symm⟩
    have := Spec.var_eq_zero.mp h _ (List.mem_of_getElem? (get_of cs k (by omega))) _
      (List.mem_of_getElem? (get_of cs i (by omega)))
    have a := ck k hki
    rw [this] at a
    linarith
  have v1 : Spec.var ds ≠ 0 := by
    intro h
    obtain ⟨j, h1, h2, h3⟩ : ∃ j, 1 ≤ j ∧ j + 1 < n ∧ (j + 1 = i ∨ j = i + 1) := by
      by_cases h0 : i ≤ 1
      · exact ⟨i + 1, by omega, by omega, Or.inr rfl⟩
      · exact ⟨i - 1, by omega, by omega, Or.inl (by omega)⟩
    have := Spec.var_eq_zero.mp h _ (List.mem_of_getElem? (get_of ds j (by omega))) _
      (List.mem_of_getElem? (get_of ds 0 (by omega)))
    have a := (dj j h1 h2 h3).1
    rw [this, gds 0 (by omega), if_neg (by omega), abs_zero] at a
    linarith
  obtain ⟨r, hr, hm⟩ := phase_flag cs (by omega) v0 v1
  refine ⟨r, hr, ?_, fun h9 j h1 h2 h3 => ?_⟩
  · refine hm i _ _ (get_of cs i (by omega)) (get_of ds i (by omega)) (Or.inl ?_)
    rw [lcs]
    have h := var_le cs hcne _ Sc
    rw [lcs] at h
    have h2 := H1 |M| hM1
    have h3 := pow_le_pow_left₀ (by linarith : 0 ≤ |M| - K) ci_lo 2
    rw [sq_abs] at h3
    have h4 := mul_le_mul_of_nonneg_left h (by linarith : 0 ≤ 2 * Real.log n)
    have h5 := mul_le_mul_of_nonneg_left h3 hn0.le
    have h6 : (n : ℝ) * (2 * Real.log n * Spec.var cs) < n * cs.getD i 0 ^ 2 := by linarith
    exact (mul_lt_mul_iff_right₀ hn0).mp h6
  · refine hm j _ _ (get_of cs j (by omega)) (get_of ds j (by omega)) (Or.inr ?_)
    rw [lcs]
    have h := var_le ds hdne _ Sd
    rw [lds] at h
    have h2' := H2 h9 (|M| / 2) hM2
    have h3' := pow_le_pow_left₀ (by linarith : 0 ≤ |M| / 2 - 2 * K) (dj j h1 h2 h3).1 2
    rw [sq_abs] at h3'
    have h4 := mul_le_mul_of_nonneg_left h (by linarith : 0 ≤ 2 * Real.log n)
    have h5 := mul_le_mul_of_nonneg_left h3' hn0.le
    have h6 : (n : ℝ) * (2 * Real.log n * Spec.var ds) < n * ds.getD j 0 ^ 2 := by linarith
    exact (mul_lt_mul_iff_right₀ hn0).mp h6

/-- the case of a spike in a constant series of nine samples: samples 3, 4 and 5 are flagged -/
example : ∃ M0, ∀ M, M0 ≤ |M| → ∃ r,
    phasespaceThresholding (⟨1, false, fins (spiked [2, 2, 2, 2, 2, 2, 2, 2, 2] 4 M)⟩ : Arr (Fl ℝ)) = .ok r ∧
      3 ∈ r ∧ 4 ∈ r ∧ 5 ∈ r := by
  obtain ⟨M0, H⟩ := C200_spike [2, 2, 2, 2, 2, 2, 2, 2, 2] (by simp) 4 (by simp)
  refine ⟨M0, fun M hM => ?_⟩
  obtain ⟨r, hr, h1, h2⟩ := H M hM
  exact ⟨r, hr, h2 (by simp) 3 (by simp) (by simp) (Or.inl rfl), h1, h2 (by simp) 5 (by simp) (by simp) (Or.inr rfl)⟩

end Proadv.Props
