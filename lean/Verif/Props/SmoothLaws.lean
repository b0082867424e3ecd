import Verif.Props.MovingAverage

/-!
# C160–C162: linearity, causality and lag of the moving averages of `statistics/series.py`
-/

set_option linter.unusedSectionVars false

namespace Proadv.Props

open Proadv Fl Descriptive Series

variable {K : Type} [Field K] [LinearOrder K] [FloorRing K] [IsStrictOrderedRing K]

/-- `a x + b y`, sample by sample -/
def comb (a b : K) (xs ys : List K) : List K := List.zipWith (fun x y => a * x + b * y) xs ys

theorem comb_getD (a b : K) (xs ys : List K) (h : xs.length = ys.length) (i : Nat) :
    (comb a b xs ys).getD i 0 = a * xs.getD i 0 + b * ys.getD i 0 := by
  unfold comb
  by_cases hi : i < xs.length
  · have hi' : i < ys.length := h ▸ hi
    simp [List.getD, List.getElem?_zipWith, List.getElem?_eq_getElem hi, List.getElem?_eq_getElem hi']
  · have hi' : ¬ i < ys.length := h ▸ hi
    simp [List.getD, List.getElem?_zipWith, List.getElem?_eq_none (not_lt.mp hi), List.getElem?_eq_none (not_lt.mp hi')]

theorem comb_length (a b : K) (xs ys : List K) (h : xs.length = ys.length) : (comb a b xs ys).length = xs.length := by
  simp [comb, h]

/-- `trailingMean` as a sum over indices -/
theorem trailingMean_sum (xs : List K) (w i : Nat) (hi : i < xs.length) :
    trailingMean xs w i = (∑ j ∈ Finset.range (Min.min (i + 1) w), xs.getD (i + 1 - Min.min (i + 1) w + j) 0) /
      (Min.min (i + 1) w : Nat) := by
  unfold trailingMean
  congr 1
  have e : (xs.take (i + 1)).drop (i + 1 - w) =
      (List.range (Min.min (i + 1) w)).map (fun j => xs.getD (i + 1 - Min.min (i + 1) w + j) 0) := by
    apply List.ext_getElem
    · simp; omega
    · intro j h1 h2
      simp only [List.length_drop, List.length_take] at h1
      have : i + 1 - Min.min (i + 1) w = i + 1 - w := by omega
      have hlt : i + 1 - w + j < xs.length := by omega
      simp [this, List.getD, hlt]
  rw [e, Finset.sum_range, ← List.sum_ofFn]
  congr 1
  apply List.ext_getElem
  · simp
  · intro j h1 h2; simp

/-! ## C160: superposition and order -/

/-- **C160** `moving_average` of a linear combination is the linear combination of the moving averages. -/
theorem C160_ma (b₁ b₂ b₃ : Bool) (a b : K) (xs ys : List K) (h : xs.length = ys.length) (w : Nat) (hw : 1 ≤ w)
    (hwn : w ≤ xs.length) :
    ∃ us vs : List K, movingAverage ⟨1, b₁, xs.map fin⟩ (w : Int) = .ok (us.map fin) ∧
      movingAverage ⟨1, b₂, ys.map fin⟩ (w : Int) = .ok (vs.map fin) ∧
      movingAverage ⟨1, b₃, (comb a b xs ys).map fin⟩ (w : Int) = .ok ((comb a b us vs).map fin) := by
  have hl := comb_length a b xs ys h
  refine ⟨(List.range xs.length).map (trailingMean xs w), (List.range ys.length).map (trailingMean ys w), ?_, ?_, ?_⟩
  · rw [C12_moving_average b₁ xs w hw hwn, List.map_map]; rfl
  · rw [C12_moving_average b₂ ys w hw (h ▸ hwn), List.map_map]; rfl
  · rw [C12_moving_average b₃ _ w hw (by rw [hl]; exact hwn), hl, ← h]
    congr 1
    apply List.ext_getElem
    · simp [comb]
    · intro i h1 h2
      have hi : i < xs.length := by simpa using h1
      simp only [List.getElem_map, List.getElem_range, comb, List.getElem_zipWith]
      congr 1
      change trailingMean (comb a b xs ys) w i = _
      rw [trailingMean_sum _ _ _ (by rw [hl]; exact hi), trailingMean_sum _ _ _ hi, trailingMean_sum _ _ _ (h ▸ hi)]
      simp only [comb_getD a b xs ys h, Finset.sum_add_distrib, ← Finset.mul_sum]
      ring

/-- **C160** the same for `exponential_moving_average` on float arrays. -/
theorem C160_ema (a b : K) (xs ys : List K) (h : xs.length = ys.length) (hne : xs ≠ []) (alpha : K) (h0 : 0 < alpha)
    (h1 : alpha ≤ 1) :
    ∃ us vs : List K, exponentialMovingAverage ⟨1, false, xs.map fin⟩ (fin alpha) = .ok (us.map fin) ∧
      exponentialMovingAverage ⟨1, false, ys.map fin⟩ (fin alpha) = .ok (vs.map fin) ∧
      exponentialMovingAverage ⟨1, false, (comb a b xs ys).map fin⟩ (fin alpha) = .ok ((comb a b us vs).map fin) := by
  have hl := comb_length a b xs ys h
  have hp : 0 < xs.length := List.length_pos_iff.mpr hne
  obtain ⟨us, hu, lu, cu, -, -⟩ := C15_ema xs hne alpha h0 h1
  obtain ⟨vs, hv, lv, cv, -, -⟩ := C15_ema ys (List.length_pos_iff.mp (h ▸ hp)) alpha h0 h1
  obtain ⟨ws, hw, lw, cw, -, -⟩ := C15_ema (comb a b xs ys) (List.length_pos_iff.mp (by rw [hl]; exact hp)) alpha h0 h1
  refine ⟨us, vs, hu, hv, ?_⟩
  rw [hw]
  congr 2
  apply List.ext_getElem
  · simp only [comb, List.length_zipWith, lu, lv, lw] at *
  · intro i i1 i2
    rw [cw i i1]
    simp only [comb, List.getElem_zipWith]
    rw [cu i (by simp [comb] at i2; omega), cv i (by simp [comb] at i2; omega)]
    unfold emaClosed
    change _ * (comb a b xs ys).getD 0 0 + ∑ j ∈ _, alpha * (1 - alpha) ^ (i - j) * (comb a b xs ys).getD j 0 = _
    simp only [comb_getD a b xs ys h, mul_add, Finset.sum_add_distrib, Finset.mul_sum]
    rw [Finset.sum_congr rfl (fun j _ => show alpha * (1 - alpha) ^ (i - j) * (a * xs.getD j 0) =
      a * (alpha * (1 - alpha) ^ (i - j) * xs.getD j 0) by ring), Finset.sum_congr rfl (fun j _ =>
      show alpha * (1 - alpha) ^ (i - j) * (b * ys.getD j 0) = b * (alpha * (1 - alpha) ^ (i - j) * ys.getD j 0) by ring)]
    ring

/-- **C160** … but not on integer arrays: doubling the data does not double the average. -/
theorem C160_ema_int : ∃ (xs ys us vs : List ℚ) (alpha : Fl ℚ), ys = xs.map (2 * ·) ∧
    exponentialMovingAverage ⟨1, true, xs.map fin⟩ alpha = .ok (us.map fin) ∧
    exponentialMovingAverage ⟨1, true, ys.map fin⟩ alpha = .ok (vs.map fin) ∧ vs ≠ us.map (2 * ·) :=
  ⟨[1, 2], [2, 4], [1, 1], [2, 3], fin (1 / 2), by decide +kernel, by decide +kernel, by decide +kernel, by decide +kernel⟩

/-- **C160** the same for `weighted_moving_average`. -/
theorem C160_wma (a b : K) (xs ys : List K) (h : xs.length = ys.length) (p : Nat) (hp : 1 ≤ p) (hpn : p ≤ xs.length) :
    ∃ (us vs : List K) (l : Bool), weightedMovingAverage (xs.map fin : List (Fl K)) (p : Int) = .ok ⟨l, us.map fin⟩ ∧
      weightedMovingAverage (ys.map fin : List (Fl K)) (p : Int) = .ok ⟨l, vs.map fin⟩ ∧
      weightedMovingAverage ((comb a b xs ys).map fin : List (Fl K)) (p : Int) = .ok ⟨l, (comb a b us vs).map fin⟩ := by
  have hl := comb_length a b xs ys h
  let W (zs : List K) (k : Nat) : K :=
    ((List.range p).map (fun j : ℕ => ((j : K) + 1) * zs.getD (k + j) 0)).sum / ((p * (p + 1) : ℕ) / 2)
  refine ⟨(List.range (xs.length - p)).map (W xs), (List.range (ys.length - p)).map (W ys), decide (p = xs.length), ?_, ?_, ?_⟩
  · rw [C17_wma xs p hp hpn, List.map_map]; rfl
  · rw [C17_wma ys p hp (h ▸ hpn), List.map_map, h]; rfl
  · rw [C17_wma _ p hp (by rw [hl]; exact hpn), hl, ← h]
    congr 2
    apply List.ext_getElem
    · simp [comb]
    · intro k k1 k2
      simp only [List.getElem_map, List.getElem_range]
      congr 1
      change W (comb a b xs ys) k = _
      simp only [comb, List.getElem_zipWith, List.getElem_map, List.getElem_range]
      change ((List.range p).map (fun j : ℕ => ((j : K) + 1) * (comb a b xs ys).getD (k + j) 0)).sum / _ = a * W xs k + b * W ys k
      simp only [comb_getD a b xs ys h, W]
      have : ∀ l : List ℕ, (l.map (fun j : ℕ => ((j : K) + 1) * (a * xs.getD (k + j) 0 + b * ys.getD (k + j) 0))).sum =
          a * (l.map (fun j : ℕ => ((j : K) + 1) * xs.getD (k + j) 0)).sum +
          b * (l.map (fun j : ℕ => ((j : K) + 1) * ys.getD (k + j) 0)).sum := by
        intro l
        induction l with
        | nil => simp
        | cons j l ih => simp only [List.map_cons, List.sum_cons, ih]; ring
      rw [this]; ring

/-! ## C161: causality — later samples do not change earlier averages (any number type) -/

/-- **C161** `moving_average` is causal: samples appended later do not change the averages already computed. -/
theorem C161_ma {F : Type} [PyNum F] (b c : Bool) (xs ys : List F) (w : Int) (hw : 0 < w) (hwn : w ≤ xs.length) :
    ∃ r s, movingAverage ⟨1, b, xs⟩ w = .ok r ∧ movingAverage ⟨1, c, xs ++ ys⟩ w = .ok s ∧ s.take xs.length = r := by
  obtain ⟨n, rfl⟩ : ∃ n : Nat, w = n := ⟨w.toNat, by omega⟩
  have hxs : xs ≠ [] := by rintro rfl; simp at hwn; omega
  have main : ∀ (c : Bool) (d : List F), d ≠ [] → n ≤ d.length → movingAverage ⟨1, c, d⟩ n = .ok
      ((List.range (d.length - n)).foldl (fun ma t => maStep d n ma (n + t)) ((List.range n).map (fun i => npMean (d.take (i + 1))))) := by
    intro c d hd hn
    unfold movingAverage
    simp only [Int.toNat_natCast]
    rw [if_neg (by omega), if_neg (by simpa using hd), if_neg (by simp), if_neg (by omega)]
    have h1 : (List.range n).mapM (fun i => meanOf (d.take (i + 1))) =
        .ok ((List.range n).map (fun i => npMean (d.take (i + 1)))) := by
      apply mapM_ok
      intro i _
      exact meanOf_eq _ (by simpa using hd)
    rw [h1]; rfl
  have hwn' : n ≤ xs.length := by exact_mod_cast hwn
  refine ⟨_, _, main b xs hxs hwn', main c (xs ++ ys) (by simp [hxs]) (by simp; omega), ?_⟩
  have init : (List.range n).map (fun i => npMean ((xs ++ ys).take (i + 1))) = (List.range n).map (fun i => npMean (xs.take (i + 1))) := by
    apply List.map_congr_left
    intro i hi
    have := List.mem_range.mp hi
    rw [List.take_append_of_le_length (by omega)]
  have len : ∀ (d : List F) (l : List Nat) (ma : List F),
      (l.foldl (fun ma t => maStep d n ma (n + t)) ma).length = ma.length + l.length := by
    intro d l
    induction l with
    | nil => simp
    | cons x t ih => intro ma; rw [List.foldl_cons, ih]; simp [maStep]; omega
  have pre : ∀ (d : List F) (l : List Nat) (ma : List F), ma <+: l.foldl (fun ma t => maStep d n ma (n + t)) ma := by
    intro d l
    induction l with
    | nil => intro ma; exact List.prefix_refl _
    | cons x t ih =>
      intro ma
      rw [List.foldl_cons]
      exact (List.prefix_append ma _).trans (ih _)
  have cong : ∀ (l : List Nat) (ma : List F), (∀ t ∈ l, n + t < xs.length) →
      l.foldl (fun ma t => maStep (xs ++ ys) n ma (n + t)) ma = l.foldl (fun ma t => maStep xs n ma (n + t)) ma := by
    intro l
    induction l with
    | nil => intro ma _; rfl
    | cons x t ih =>
      intro ma hl
      have hx : n + x < xs.length := hl x List.mem_cons_self
      rw [List.foldl_cons, List.foldl_cons, ih _ (fun t ht => hl t (List.mem_cons_of_mem _ ht))]
      have e1 : (xs ++ ys).getD (n + x) PyNum.nan = xs.getD (n + x) PyNum.nan := by
        simp [List.getD, List.getElem?_append_left hx]
      have e2 : (xs ++ ys).getD (n + x - n) PyNum.nan = xs.getD (n + x - n) PyNum.nan := by
        simp [List.getD, List.getElem?_append_left (show x < xs.length by omega)]
      rw [show maStep (xs ++ ys) n ma (n + x) = maStep xs n ma (n + x) by unfold maStep; rw [e1, e2]]
  rw [init]
  have hsplit : List.range ((xs ++ ys).length - n) =
      List.range (xs.length - n) ++ (List.range ys.length).map (fun t => xs.length - n + t) := by
    rw [← List.range_add]; congr 1; simp; omega
  rw [hsplit, List.foldl_append]
  set A := (List.range n).map (fun i => npMean (xs.take (i + 1)))
  rw [cong _ A (fun t ht => by have := List.mem_range.mp ht; omega)]
  obtain ⟨t, ht⟩ := pre (xs ++ ys) ((List.range ys.length).map (fun t => xs.length - n + t))
    ((List.range (xs.length - n)).foldl (fun ma t => maStep xs n ma (n + t)) A)
  rw [← ht]
  have hl : ((List.range (xs.length - n)).foldl (fun ma t => maStep xs n ma (n + t)) A).length = xs.length := by
    rw [len]; simp [A]; omega
  rw [List.take_append_of_le_length (by omega), List.take_of_length_le (by omega)]

/-- **C161** `exponential_moving_average` is causal. -/
theorem C161_ema {F : Type} [PyNum F] (b : Bool) (nd : Nat) (xs ys : List F) (hx : xs ≠ []) (alpha : F) (s : List F)
    (h : exponentialMovingAverage ⟨nd, b, xs ++ ys⟩ alpha = .ok s) :
    exponentialMovingAverage ⟨nd, b, xs⟩ alpha = .ok (s.take xs.length) := by
  obtain ⟨x, t, rfl⟩ := List.exists_cons_of_ne_nil hx
  unfold exponentialMovingAverage at h ⊢
  split at h
  · cases h
  · rename_i hc
    rw [if_neg hc]
    simp only [List.cons_append] at h ⊢
    cases h
    have key : ∀ (t : List F) (p : F), (emaLoop b alpha p (t ++ ys)).take t.length = emaLoop b alpha p t := by
      intro t
      induction t with
      | nil => intro p; rfl
      | cons y t ih => intro p; simp [emaLoop, ih]
    simp [key]

/-- **C161** `weighted_moving_average` is causal; the average with index `k` comes after sample `k + period - 1`. -/
theorem C161_wma {F : Type} [PyNum F] (xs ys : List F) (p : Int) (hp : 0 < p) (hpn : p ≤ xs.length) :
    ∃ r s, weightedMovingAverage xs p = .ok r ∧ weightedMovingAverage (xs ++ ys) p = .ok s ∧
      s.data.take (xs.length - p.toNat) = r.data ∧ r.data.length = xs.length - p.toNat := by
  unfold weightedMovingAverage
  rw [if_neg (by omega), if_neg (by omega), if_neg (by omega), if_neg (by simp; omega)]
  refine ⟨_, _, rfl, rfl, ?_, by simp⟩
  simp only
  rw [← List.map_take, List.take_range, Nat.min_eq_left (by simp; omega)]
  apply List.map_congr_left
  intro t ht
  have := List.mem_range.mp ht
  have e : slice (xs ++ ys) (p.toNat + t - p.toNat) (p.toNat + t) = slice xs (p.toNat + t - p.toNat) (p.toNat + t) := by
    unfold slice
    rw [List.take_append_of_le_length (by omega)]
  unfold wmaAt
  rw [e]

/-- **C161** two recordings of equal length that agree on their first `m` samples have the same first `m` moving averages, also when
`m` is less than the window. -/
theorem C161_ma_prefix {F : Type} [PyNum F] (b c : Bool) (xs ys : List F) (hl : xs.length = ys.length) (m : Nat)
    (h : ∀ i < m, xs[i]? = ys[i]?) (w : Int) (r s : List F) (hr : movingAverage ⟨1, b, xs⟩ w = .ok r)
    (hs : movingAverage ⟨1, c, ys⟩ w = .ok s) : ∀ i < m, r[i]? = s[i]? := by
  have hw : 0 < w := by
    by_contra hw
    unfold movingAverage at hr
    rw [if_pos (by omega)] at hr
    cases hr
  obtain ⟨n, rfl⟩ : ∃ n : Nat, w = n := ⟨w.toNat, by omega⟩
  by_cases hx : xs = []
  · subst hx
    have hy : ys = [] := List.length_eq_zero_iff.mp hl.symm
    subst hy
    unfold movingAverage at hr hs
    rw [if_neg (by omega), if_pos (by simp)] at hr hs
    cases hr
    cases hs
    exact fun i _ => rfl
  have hy : ys ≠ [] := by rintro rfl; exact hx (List.length_eq_zero_iff.mp hl)
  have hn : n ≤ xs.length := by
    by_contra hn
    unfold movingAverage at hr
    rw [if_neg (by omega), if_neg (by simpa using hx), if_neg (by simp), if_pos (by simp only; omega)] at hr
    cases hr
  have main : ∀ (c : Bool) (d : List F), d ≠ [] → n ≤ d.length → movingAverage ⟨1, c, d⟩ n = .ok
      ((List.range (d.length - n)).foldl (fun ma t => maStep d n ma (n + t)) ((List.range n).map (fun i => npMean (d.take (i + 1))))) := by
    intro c d hd hn
    unfold movingAverage
    simp only [Int.toNat_natCast]
    rw [if_neg (by omega), if_neg (by simpa using hd), if_neg (by simp), if_neg (by omega)]
    have h1 : (List.range n).mapM (fun i => meanOf (d.take (i + 1))) =
        .ok ((List.range n).map (fun i => npMean (d.take (i + 1)))) := by
      apply mapM_ok
      intro i _
      exact meanOf_eq _ (by simpa using hd)
    rw [h1]; rfl
  rw [main b xs hx hn, Except.ok.injEq] at hr
  rw [main c ys hy (hl ▸ hn), Except.ok.injEq] at hs
  rw [← hl] at hs
  subst hr hs
  have key : ∀ k, ((List.range k).foldl (fun ma t => maStep xs n ma (n + t))
        ((List.range n).map (fun i => npMean (xs.take (i + 1))))).length = n + k ∧
      ((List.range k).foldl (fun ma t => maStep ys n ma (n + t))
        ((List.range n).map (fun i => npMean (ys.take (i + 1))))).length = n + k ∧
      ∀ i < m, ((List.range k).foldl (fun ma t => maStep xs n ma (n + t))
        ((List.range n).map (fun i => npMean (xs.take (i + 1)))))[i]? =
      ((List.range k).foldl (fun ma t => maStep ys n ma (n + t))
        ((List.range n).map (fun i => npMean (ys.take (i + 1)))))[i]? := by
    intro k
    induction k with
    | zero =>
      refine ⟨by simp, by simp, fun i hi => ?_⟩
      simp only [List.range_zero, List.foldl_nil, List.getElem?_map]
      have : xs.take (i + 1) = ys.take (i + 1) := by
        apply List.ext_getElem?
        intro j
        rw [List.getElem?_take, List.getElem?_take]
        split
        · exact h j (by omega)
        · rfl
      rcases Nat.lt_or_ge i n with h1 | h1
      · rw [List.getElem?_range h1]
        simp only [Option.map_some, this]
      · rw [List.getElem?_eq_none (by simpa using h1)]; rfl
    | succ k ih =>
      obtain ⟨l1, l2, e⟩ := ih
      simp only [List.range_succ, List.foldl_append, List.foldl_cons, List.foldl_nil]
      generalize (List.range k).foldl (fun ma t => maStep xs n ma (n + t)) ((List.range n).map (fun i => npMean (xs.take (i + 1)))) = A at *
      generalize (List.range k).foldl (fun ma t => maStep ys n ma (n + t)) ((List.range n).map (fun i => npMean (ys.take (i + 1)))) = B at *
      unfold maStep
      refine ⟨by simp; omega, by simp; omega, fun i hi => ?_⟩
      rcases Nat.lt_trichotomy i (n + k) with h1 | h1 | h1
      · rw [List.getElem?_append_left (by omega), List.getElem?_append_left (by omega), e i hi]
      · subst h1
        have e1 : A.getD (n + k - 1) PyNum.nan = B.getD (n + k - 1) PyNum.nan := by
          rw [List.getD_eq_getElem?_getD, List.getD_eq_getElem?_getD, e (n + k - 1) (by omega)]
        have e2 : xs.getD (n + k) PyNum.nan = ys.getD (n + k) PyNum.nan := by
          rw [List.getD_eq_getElem?_getD, List.getD_eq_getElem?_getD, h _ hi]
        have e3 : xs.getD (n + k - n) PyNum.nan = ys.getD (n + k - n) PyNum.nan := by
          rw [List.getD_eq_getElem?_getD, List.getD_eq_getElem?_getD, h _ (by omega)]
        rw [List.getElem?_append_right (by omega), List.getElem?_append_right (by omega), e1, e2, e3, l1, l2]
      · rw [List.getElem?_eq_none (by simp; omega), List.getElem?_eq_none (by simp; omega)]
  exact (key _).2.2

/-- **C161** entry `k` of `weighted_moving_average` depends on samples `k, …, k + period - 1` only. -/
theorem C161_wma_window {F : Type} [PyNum F] (xs ys : List F) (hl : xs.length = ys.length) (p : Int) (k : Nat)
    (h : ∀ j : Nat, (j : Int) < p → xs[k + j]? = ys[k + j]?) (r s : WmaOut F) (hr : weightedMovingAverage xs p = .ok r)
    (hs : weightedMovingAverage ys p = .ok s) : r.data[k]? = s.data[k]? := by
  unfold weightedMovingAverage at hr hs
  rw [← hl] at hs
  split at hr
  · cases hr
  rename_i h1
  rw [if_neg h1] at hs
  split at hr
  · cases hr
  rename_i h2
  rw [if_neg h2] at hs
  rw [Except.ok.injEq] at hr hs
  subst hr hs
  simp only [List.getElem?_map]
  rcases Nat.lt_or_ge k (xs.length - p.toNat) with h3 | h3
  · rw [List.getElem?_range h3]
    simp only [Option.map_some]
    have e : slice xs (p.toNat + k - p.toNat) (p.toNat + k) = slice ys (p.toNat + k - p.toNat) (p.toNat + k) := by
      apply List.ext_getElem?
      intro j
      unfold slice
      rw [List.getElem?_drop, List.getElem?_drop, List.getElem?_take, List.getElem?_take]
      split
      · rw [show p.toNat + k - p.toNat + j = k + j by omega]
        exact h j (by omega)
      · rfl
    unfold wmaAt
    rw [e]
  · rw [List.getElem?_eq_none (by simpa using h3)]; rfl

/-- the hypotheses of the two theorems hold: three samples, the last one differs, a window of two -/
example : movingAverage ⟨1, false, ([Fl.fin 1, Fl.fin 3, Fl.fin 5] : List (Fl ℚ))⟩ 2 = .ok [Fl.fin 1, Fl.fin 2, Fl.fin 4] ∧
    movingAverage ⟨1, false, ([Fl.fin 1, Fl.fin 3, Fl.nan] : List (Fl ℚ))⟩ 2 = .ok [Fl.fin 1, Fl.fin 2, Fl.nan] := by
  decide +kernel

/-! ## C162: response to a straight line -/

private theorem sum_lin (m : Nat) (c d : K) : ∑ j ∈ Finset.range m, (c + d * (j : K)) = m * c + d * (m * (m - 1) / 2) := by
  induction m with
  | zero => simp
  | succ m ih => rw [Finset.sum_range_succ, ih]; push_cast; ring

/-- the first `n` samples of the line `a + b i` -/
def line (a b : K) (n : Nat) : List K := (List.range n).map (fun i : ℕ => a + b * (i : K))

theorem line_getD (a b : K) (n i : Nat) (h : i < n) : (line a b n).getD i 0 = a + b * i := by
  simp [line, List.getD, h]

/-- **C162** on a straight line the moving average is the line delayed by half a window: `(w − 1)/2` samples once the window is
full, `i/2` samples before. -/
theorem C162_ma (fl : Bool) (a b : K) (n w : Nat) (hw : 1 ≤ w) (hwn : w ≤ n) :
    ∃ ys : List K, movingAverage ⟨1, fl, (line a b n).map fin⟩ (w : Int) = .ok (ys.map fin) ∧ ys.length = n ∧
      ∀ i < n, ys.getD i 0 = a + b * ((i : K) - ((Min.min (i + 1) w : Nat) - 1) / 2) := by
  have hl : (line a b n).length = n := by simp [line]
  refine ⟨(List.range n).map (trailingMean (line a b n) w), ?_, by simp, ?_⟩
  · rw [C12_moving_average fl _ w hw (by rw [hl]; exact hwn), List.map_map, hl]; rfl
  · intro i hi
    rw [show ((List.range n).map (trailingMean (line a b n) w)).getD i 0 = trailingMean (line a b n) w i by simp [List.getD, hi],
      trailingMean_sum _ _ _ (by rw [hl]; exact hi)]
    set m := Min.min (i + 1) w with hm
    have hm1 : 1 ≤ m := by omega
    have hmi : m ≤ i + 1 := by omega
    have hmK : (m : K) ≠ 0 := by exact_mod_cast (by omega : m ≠ 0)
    rw [Finset.sum_congr rfl (g := fun j : ℕ => (a + b * (i + 1 - m : K)) + b * (j : K))]
    · rw [sum_lin]; field_simp; ring
    · intro j hj
      have := Finset.mem_range.mp hj
      rw [line_getD _ _ _ _ (by omega)]
      push_cast [Nat.cast_sub hmi]
      ring

/-- **C162** on a straight line the exponential moving average lags by `(1 − α)/α · (1 − (1 − α)^i)` samples. -/
theorem C162_ema (a b : K) (n : Nat) (hn : 1 ≤ n) (alpha : K) (h0 : 0 < alpha) (h1 : alpha ≤ 1) :
    ∃ ys : List K, exponentialMovingAverage ⟨1, false, (line a b n).map fin⟩ (fin alpha) = .ok (ys.map fin) ∧ ys.length = n ∧
      ∀ i < n, ys.getD i 0 = a + b * ((i : K) - (1 - alpha) / alpha * (1 - (1 - alpha) ^ i)) := by
  have hl : (line a b n).length = n := by simp [line]
  obtain ⟨ys, hy, ly, cy, -, -⟩ := C15_ema (line a b n) (List.length_pos_iff.mp (by omega)) alpha h0 h1
  refine ⟨ys, hy, by omega, ?_⟩
  intro i hi
  rw [show ys.getD i 0 = ys[i]'(by omega) by simp [List.getD, show i < ys.length by omega], cy i (by omega)]
  have key : ∀ i, i < n → emaClosed alpha (fun j => (line a b n).getD j 0) i =
      a + b * ((i : K) - (1 - alpha) / alpha * (1 - (1 - alpha) ^ i)) := by
    intro i
    induction i with
    | zero => intro h; have := line_getD a b n 0 h; simp only [emaClosed, this]; simp
    | succ i ih =>
      intro h
      rw [emaClosed_succ, ih (by omega), line_getD _ _ _ _ h]
      push_cast
      field_simp
      ring
  exact key i hi

/-- **C162** on a straight line entry `k` of the weighted moving average is the line at `k + 2(p − 1)/3`, a third of a window before
the newest sample of its window. -/
theorem C162_wma (a b : K) (n p : Nat) (hp : 1 ≤ p) (hpn : p ≤ n) :
    ∃ (l : Bool) (ys : List K), weightedMovingAverage ((line a b n).map fin : List (Fl K)) (p : Int) = .ok ⟨l, ys.map fin⟩ ∧
      ys.length = n - p ∧ ∀ k < n - p, ys.getD k 0 = a + b * ((k : K) + 2 * ((p : K) - 1) / 3) := by
  have hl : (line a b n).length = n := by simp [line]
  refine ⟨decide (p = n), (List.range (n - p)).map (fun k : ℕ =>
    ((List.range p).map (fun j : ℕ => ((j : K) + 1) * (line a b n).getD (k + j) 0)).sum / ((p * (p + 1) : ℕ) / 2)), ?_, by simp, ?_⟩
  · rw [C17_wma _ p hp (by rw [hl]; exact hpn), List.map_map, hl]; rfl
  · intro k hk
    have hpK : (p : K) ≠ 0 := by exact_mod_cast (by omega : p ≠ 0)
    have hpK' : (p : K) + 1 ≠ 0 := by exact_mod_cast (by omega : p + 1 ≠ 0)
    simp only [List.getD, List.getElem?_map, List.getElem?_range hk, Option.map_some, Option.getD_some]
    have e : ((List.range p).map (fun j : ℕ => ((j : K) + 1) * ((line a b n)[k + j]?).getD 0)) =
        (List.range p).map (fun j : ℕ => ((j : K) + 1) * (a + b * (k + j : K))) := by
      apply List.map_congr_left
      intro j hj
      have := List.mem_range.mp hj
      have e := line_getD a b n (k + j) (by omega)
      simp only [List.getD] at e
      rw [e]; push_cast; ring
    rw [e]
    have s : ∀ p : ℕ, ((List.range p).map (fun j : ℕ => ((j : K) + 1) * (a + b * (k + j : K)))).sum =
        (a + b * k) * (p * (p + 1) / 2) + b * ((p - 1) * p * (p + 1) / 3) := by
      intro p
      induction p with
      | zero => simp
      | succ p ih => rw [List.range_succ, List.map_append, List.sum_append, ih]; push_cast; simp; field_simp; ring
    rw [s]
    push_cast
    field_simp
    ring

/-! ## The hypotheses are met -/

example : movingAverage ⟨1, false, (line (1 : ℚ) 2 6).map fin⟩ 3 = .ok ([1, 2, 3, 5, 7, 9].map fin) := by decide +kernel
example : exponentialMovingAverage ⟨1, false, (line (1 : ℚ) 2 4).map fin⟩ (fin (1 / 2)) = .ok ([1, 2, 7 / 2, 21 / 4].map fin) := by
  decide +kernel
example : weightedMovingAverage ((line (0 : ℚ) 3 6).map fin) 4 = .ok ⟨false, [6, 9].map fin⟩ := by decide +kernel
example : movingAverage ⟨1, false, (comb (2 : ℚ) (-1) [1, 2, 3] [0, 4, 4]).map fin⟩ 2 = .ok ([2, 1, 1].map fin) := by decide +kernel
example : exponentialMovingAverage ⟨1, false, [fin (1 : ℚ), fin 2] ++ [nan, pinf]⟩ (fin (1 / 2)) = .ok [fin 1, fin (3 / 2), nan, nan] := by
  decide +kernel

end Proadv.Props
