import Verif.Props.SpikeOrder
import Verif.Props.MovingAverage
import Verif.Props.SsaLaws

set_option linter.unusedSectionVars false

/-!
# C221: negative entries in the list of spikes
-/

namespace Proadv.Props

open Proadv Replace Descriptive Series Fl

/-- the position a Python index means in an array of length `n` -/
def wrap (n : Nat) (i : Int) : Int := if i < 0 then n + i else i

theorem pyIdx_wrap (n : Nat) (i : Int) (h : -(n : Int) ≤ i) : pyIdx n (wrap n i) = pyIdx n i := by
  unfold wrap pyIdx
  split_ifs <;> first | rfl | omega

section generic

variable {F : Type} [PyNum F]

theorem setMany_wrap (l : List F) (x : F) : ∀ s : List Int, (∀ i ∈ s, -(l.length : Int) ≤ i) →
    setMany l (s.map (wrap l.length)) x = setMany l s x := by
  intro s h
  unfold setMany
  rw [List.foldlM_map]
  have key : ∀ (s : List Int) (a : List F), a.length = l.length → (∀ i ∈ s, -(l.length : Int) ≤ i) →
      s.foldlM (fun a i => setIdx a (wrap l.length i) x) a = s.foldlM (fun a i => setIdx a i x) a := by
    intro s
    induction s with
    | nil => intro a _ _; rfl
    | cons i t ih =>
      intro a ha hi
      rw [List.foldlM_cons, List.foldlM_cons]
      have e : setIdx a (wrap l.length i) x = setIdx a i x := by
        unfold setIdx
        rw [ha, pyIdx_wrap _ _ (hi i (by simp))]
      rw [e]
      cases hb : setIdx a i x with
      | error e => rfl
      | ok b =>
        obtain ⟨k, hk, rfl⟩ := setIdx_ok.mp hb
        exact ih _ (by simpa using ha) (fun j hj => hi j (by simp [hj]))
  exact key s l rfl h

theorem setFromStore_wrap (isInt : Bool) (l b : List F) (hb : b.length = l.length) (s : List Int)
    (h : ∀ i ∈ s, -(l.length : Int) ≤ i) :
    setFromStore isInt l (s.map (wrap l.length)) b = setFromStore isInt l s b := by
  unfold setFromStore
  rw [List.foldlM_map]
  have key : ∀ (s : List Int) (a : List F), a.length = l.length → (∀ i ∈ s, -(l.length : Int) ≤ i) →
      s.foldlM (fun a i => do let x ← getIdx b (wrap l.length i); setIdx a (wrap l.length i) (store isInt x)) a =
        s.foldlM (fun a i => do let x ← getIdx b i; setIdx a i (store isInt x)) a := by
    intro s
    induction s with
    | nil => intro a _ _; rfl
    | cons i t ih =>
      intro a ha hi
      rw [List.foldlM_cons, List.foldlM_cons]
      have e1 : getIdx b (wrap l.length i) = getIdx b i := by
        unfold getIdx
        rw [hb, pyIdx_wrap _ _ (hi i (by simp))]
      have e2 : ∀ y, setIdx a (wrap l.length i) y = setIdx a i y := by
        intro y
        unfold setIdx
        rw [ha, pyIdx_wrap _ _ (hi i (by simp))]
      rw [e1]
      simp only [e2, bind, Except.bind]
      cases getIdx b i with
      | error e => rfl
      | ok y =>
        simp only
        cases hc : setIdx a i (store isInt y) with
        | error e => rfl
        | ok c =>
          obtain ⟨k, hk, rfl⟩ := setIdx_ok.mp hc
          exact ih _ (by simpa using ha) (fun j hj => hi j (by simp [hj]))
  exact key s l rfl h

theorem emaLoop_length (isInt : Bool) (alpha : F) : ∀ (l : List F) (p : F), (emaLoop isInt alpha p l).length = l.length := by
  intro l
  induction l with
  | nil => intro p; rfl
  | cons x t ih => intro p; simp [emaLoop, ih]

/-- **C221** a negative index `-k` means position `n-k` for `mean_value`, `median_value`, the simple and the exponential
moving average (errors included, in every arithmetic) and for `ssa` whenever its filtered signal has the length of the
record. -/
theorem C221_same (v : Arr F) (s : List Int) (h : ∀ i ∈ s, -(v.data.length : Int) ≤ i) (w : Int) (alpha : F) :
    meanValue v (s.map (wrap v.data.length)) = meanValue v s ∧
    medianValue v (s.map (wrap v.data.length)) = medianValue v s ∧
    simpleMovingAverage v (s.map (wrap v.data.length)) w = simpleMovingAverage v s w ∧
    exponentialMovingAverageR v (s.map (wrap v.data.length)) alpha = exponentialMovingAverageR v s alpha := by
  refine ⟨?_, ?_, ?_, ?_⟩
  · unfold meanValue
    simp only [setMany_wrap v.data _ s h]
  · unfold medianValue
    simp only [setMany_wrap v.data _ s h]
  · unfold simpleMovingAverage
    simp only [bind, Except.bind]
    cases hm : movingAverage { v with ndim := 1 } w with
    | error e => rfl
    | ok r =>
      simp only
      refine setFromStore_wrap _ _ _ ?_ s h
      obtain ⟨e1, e2, -, e4, e5⟩ := C12_errors { v with ndim := 1 } w
      by_cases hw : w ≤ 0
      · rw [e1 hw] at hm; cases hm
      by_cases h0 : v.data = []
      · rw [e2 (by omega) h0] at hm
        rw [← Except.ok.inj hm, h0]
      by_cases hl : (v.data.length : Int) < w
      · rw [e4 (by omega) h0 hl] at hm; cases hm
      · obtain ⟨r', hr, hlen⟩ := e5 (by omega) (by simpa using hl) rfl
        rw [hr] at hm
        rw [← Except.ok.inj hm]
        exact hlen
  · unfold exponentialMovingAverageR
    simp only [bind, Except.bind]
    cases hm : exponentialMovingAverage v alpha with
    | error e => rfl
    | ok r =>
      refine setFromStore_wrap _ _ _ ?_ s h
      unfold exponentialMovingAverage at hm
      split_ifs at hm
      split at hm
      · cases hm
      · rename_i x t hd
        rw [← Except.ok.inj hm, hd]
        simp [emaLoop_length]

/-- **C221** the same for `ssa`; C23 gives the length of the filtered signal. -/
theorem C221_ssa {G : Type} [PyMath G] (ceilInt : G → Py Int) (eigh : Mat G → Py (Mat G)) (v : Arr G) (fs f : G)
    (hlen : ∀ r, ssa ceilInt eigh v.data fs f = .ok r → r.length = v.data.length) (s : List Int)
    (h : ∀ i ∈ s, -(v.data.length : Int) ≤ i) :
    ssaReplacement ceilInt eigh v (s.map (wrap v.data.length)) fs f = ssaReplacement ceilInt eigh v s fs f := by
  unfold ssaReplacement
  simp only [bind, Except.bind]
  cases hm : ssa ceilInt eigh v.data fs f with
  | error e => rfl
  | ok r => exact setFromStore_wrap _ _ _ (hlen r hm) s h

/-- **C221** `last_valid_data`: the same, except that `-n` is rejected (index 0 would have been filled with the last sample,
C46). -/
theorem C221_last (v : Arr F) (s : List Int) (h : ∀ i ∈ s, -(v.data.length : Int) < i) :
    lastValidData v (s.map (wrap v.data.length)) = lastValidData v s := by
  unfold lastValidData
  rw [List.foldlM_map]
  have key : ∀ (s : List Int) (a : List F), a.length = v.data.length → (∀ i ∈ s, -(v.data.length : Int) < i) →
      s.foldlM (fun a i => do let x ← getIdx a (wrap v.data.length i - 1); setIdx a (wrap v.data.length i) x) a =
        s.foldlM (fun a i => do let x ← getIdx a (i - 1); setIdx a i x) a := by
    intro s
    induction s with
    | nil => intro a _ _; rfl
    | cons i t ih =>
      intro a ha hi
      rw [List.foldlM_cons, List.foldlM_cons]
      have hi' := hi i (by simp)
      have e1 : getIdx a (wrap v.data.length i - 1) = getIdx a (i - 1) := by
        unfold getIdx
        rw [ha]
        have : pyIdx v.data.length (wrap v.data.length i - 1) = pyIdx v.data.length (i - 1) := by
          unfold wrap pyIdx
          split_ifs <;> first | rfl | omega | (congr 1; omega)
        rw [this]
      have e2 : ∀ y, setIdx a (wrap v.data.length i) y = setIdx a i y := by
        intro y
        unfold setIdx
        rw [ha, pyIdx_wrap _ _ (by omega)]
      rw [e1]
      simp only [e2, bind, Except.bind]
      cases getIdx a (i - 1) with
      | error e => rfl
      | ok y =>
        simp only
        cases hc : setIdx a i y with
        | error e => rfl
        | ok c =>
          obtain ⟨k, hk, rfl⟩ := setIdx_ok.mp hc
          exact ih _ (by simpa using ha) (fun j hj => hi j (by simp [hj]))
  exact key s v.data rfl h

/-- **C221** `-n` is rejected by `last_valid_data`, although the same sample as index 0 is accepted. -/
theorem C221_last_error (v : Arr F) (s : List Int) (h0 : v.data ≠ []) :
    lastValidData v (-(v.data.length : Int) :: s) = .error .indexError ∧
      lastValidData v [0] = .ok (v.data.set 0 (v.data.getLast h0)) := by
  have hn : 0 < v.data.length := List.length_pos_iff.mpr h0
  constructor
  · unfold lastValidData
    rw [List.foldlM_cons]
    have : getIdx v.data (-(v.data.length : Int) - 1) = .error .indexError := by
      unfold getIdx pyIdx
      rw [if_neg (by omega), if_neg (by omega)]
    rw [this]
    rfl
  · unfold lastValidData
    have e : getIdx v.data (0 - 1) = .ok (v.data.getLast h0) := by
      refine getIdx_ok.mpr ⟨v.data.length - 1, ?_, ?_⟩
      · unfold pyIdx
        rw [if_neg (by omega), if_pos (by omega)]
        congr 1
        omega
      · rw [List.getElem?_eq_getElem (by omega), List.getLast_eq_getElem]
    rw [List.foldlM_cons, e]
    simp only [bind, Except.bind]
    have e2 : setIdx v.data 0 (v.data.getLast h0) = .ok (v.data.set 0 (v.data.getLast h0)) :=
      setIdx_ok.mpr ⟨0, by simp [pyIdx, hn], rfl⟩
    rw [e2]
    rfl

/-- the hypotheses hold for the indices -1, 0, -3 of a record of four samples -/
example : ∀ i ∈ [(-1 : Int), 0, -3], -(([fin 1, fin 2, fin 3, fin 4] : List (Fl ℚ)).length : Int) < i := by decide

end generic

section exact

variable {K : Type} [Field K] [LinearOrder K] [IsStrictOrderedRing K] [FloorRing K]

theorem pyIdx_neg (n k : Nat) (h1 : 1 ≤ k) (hk : k ≤ n) : pyIdx n (-(k : Int)) = some (n - k) := by
  unfold pyIdx
  rw [if_neg (by omega), if_pos (by omega)]
  congr 1
  omega

/-- **C221** `weighted_moving_average`: for `1 ≤ k ≤ n - p` the index `-k` is replaced by the linearly weighted mean of the
`p` samples *before* the spike, the window of the documentation; the index `n - k` of the same sample takes the window that
starts at the spike (C54), and is rejected when `k ≤ p`. -/
theorem C221_weighted (xs : List K) (p : Nat) (hp : 1 ≤ p) (ks : List Nat) (hne : ks ≠ [])
    (hks : ∀ k ∈ ks, 1 ≤ k ∧ k + p ≤ xs.length) :
    (∃ out, weightedMovingAverageR (F := Fl K) ⟨1, false, xs.map fin⟩ (ks.map (fun k : Nat => -(k : Int))) p = .ok out ∧
      out.length = xs.length ∧
      (∀ k ∈ ks, out[xs.length - k]? = some (fin (((List.range p).map (fun j : ℕ =>
        ((j : K) + 1) * xs.getD (xs.length - k - p + j) 0)).sum / ((p * (p + 1) : ℕ) / 2)))) ∧
      ∀ i, (∀ k ∈ ks, i ≠ xs.length - k) → out[i]? = (xs.map fin)[i]?) ∧
    ((∃ k ∈ ks, k ≤ p) → weightedMovingAverageR (F := Fl K) ⟨1, false, xs.map fin⟩
      (ks.map (fun k : Nat => ((xs.length - k : ℕ) : Int))) p = .error .indexError) := by
  obtain ⟨k0, hk0⟩ := List.exists_mem_of_ne_nil ks hne
  have hpn : p < xs.length := by have := hks k0 hk0; omega
  constructor
  · have hm := C17_wma xs p hp hpn.le
    have hd : decide (p = xs.length) = false := by simp; omega
    set ws : List (Fl K) := (List.range (xs.length - p)).map (fun k : ℕ =>
        fin (((List.range p).map (fun j : ℕ => ((j : K) + 1) * xs.getD (k + j) 0)).sum / ((p * (p + 1) : ℕ) / 2))) with hws
    have hwl : ws.length = xs.length - p := by simp [hws]
    have e : weightedMovingAverageR (F := Fl K) ⟨1, false, xs.map fin⟩ (ks.map (fun k : Nat => -(k : Int))) p =
        setFromStore false (xs.map fin) (ks.map (fun k : Nat => -(k : Int))) ws := by
      unfold weightedMovingAverageR
      simp only [hm, hd, bind, Except.bind, Bool.false_eq_true, if_false]
    rw [e]
    unfold setFromStore
    have hget : ∀ k ∈ ks, getIdx ws (-(k : Int)) = .ok (fin (((List.range p).map (fun j : ℕ =>
        ((j : K) + 1) * xs.getD (xs.length - k - p + j) 0)).sum / ((p * (p + 1) : ℕ) / 2))) := by
      intro k hk
      have := hks k hk
      refine getIdx_ok.mpr ⟨xs.length - p - k, ?_, ?_⟩
      · rw [hwl]
        exact pyIdx_neg _ _ this.1 (by omega)
      · rw [hws, List.getElem?_map, List.getElem?_range (by omega)]
        simp only [Option.map_some]
        rw [show xs.length - p - k = xs.length - k - p by omega]
    obtain ⟨out, h1, h2, h3, h4⟩ := (fold_writes (n := xs.length) (f := fun a i => do
        let x ← getIdx ws i
        setIdx a i (store false x)) (fun i => match getIdx ws i with
      | .error _ => none
      | .ok x => (pyIdx xs.length i).map (fun k => (k, store false x)))
      (by
        intro i a ha
        simp only [bind, Except.bind]
        cases hg : getIdx ws i with
        | error e =>
          have : e = .indexError := by
            unfold getIdx at hg
            split at hg
            · cases hg; rfl
            · split at hg <;> cases hg; rfl
          rw [this]
        | ok x =>
          simp only
          unfold setIdx
          rw [ha]
          cases pyIdx xs.length i <;> rfl)
      (by
        intro i q hq
        split at hq
        · cases hq
        · obtain ⟨k, hk, rfl⟩ := Option.map_eq_some_iff.mp hq
          exact pyIdx_lt hk)
      (ks.map (fun k : Nat => -(k : Int))) (xs.map fin) (by simp)).2
      (by
        intro i hi
        obtain ⟨k, hk, rfl⟩ := List.mem_map.mp hi
        have := hks k hk
        rw [hget k hk, pyIdx_neg _ _ this.1 (by omega)]
        simp)
      (by
        intro i hi j hj q r hq hr he
        obtain ⟨k, hk, rfl⟩ := List.mem_map.mp hi
        obtain ⟨l, hl, rfl⟩ := List.mem_map.mp hj
        have ak := hks k hk
        have al := hks l hl
        rw [hget k hk, pyIdx_neg _ _ ak.1 (by omega)] at hq
        rw [hget l hl, pyIdx_neg _ _ al.1 (by omega)] at hr
        cases hq
        cases hr
        simp only at he
        have : k = l := by omega
        rw [this])
    refine ⟨out, h1, h2, ?_, ?_⟩
    · intro k hk
      have ak := hks k hk
      have := h3 (-(k : Int)) (List.mem_map.mpr ⟨k, hk, rfl⟩) _ (by
        rw [hget k hk, pyIdx_neg _ _ ak.1 (by omega)]
        rfl)
      exact this
    · intro i hi
      apply h4
      intro j hj q hq
      obtain ⟨k, hk, rfl⟩ := List.mem_map.mp hj
      have ak := hks k hk
      rw [hget k hk, pyIdx_neg _ _ ak.1 (by omega)] at hq
      cases hq
      exact fun h => hi k hk h.symm
  · rintro ⟨k, hk, hkp⟩
    have := (C54_fails (F := Fl K) ⟨1, false, xs.map fin⟩ p hp (ks.map (fun k => xs.length - k))).1 (by simpa using hpn)
      ⟨xs.length - k, List.mem_map.mpr ⟨k, hk, rfl⟩, by simp; omega⟩
    rw [List.map_map] at this
    exact this

theorem around_nan (d : Int) : PyNum.around (nan : Fl K) d = nan := rfl

/-- **C221** `linear_interpolation` of finite data: the index -1 is left NaN, and an index `-k` with `k ≥ 2` is replaced by
the next sample alone, not by the mean of its two neighbours. -/
theorem C221_linear (xs : List K) (d : Int) (hn : 2 ≤ xs.length) :
    linearInterpolation (F := Fl K) ⟨1, false, xs.map fin⟩ [-1] d =
      .ok ((xs.map (fun x => (fin (aroundK x d) : Fl K))).set (xs.length - 1) nan) ∧
    ∀ k : Nat, 2 ≤ k → k ≤ xs.length → linearInterpolation (F := Fl K) ⟨1, false, xs.map fin⟩ [-(k : Int)] d =
      .ok ((xs.set (xs.length - k) (xs.getD (xs.length - k + 1) 0)).map (fun x => fin (aroundK x d))) := by
  have hset : ∀ k : Nat, 1 ≤ k → k ≤ xs.length → setMany (xs.map fin : List (Fl K)) [-(k : Int)] PyNum.nan =
      .ok ((xs.map fin).set (xs.length - k) nan) := by
    intro k h1 h2
    unfold setMany
    rw [List.foldlM_cons]
    have : setIdx (xs.map fin : List (Fl K)) (-(k : Int)) PyNum.nan = .ok ((xs.map fin).set (xs.length - k) nan) :=
      setIdx_ok.mpr ⟨xs.length - k, by rw [List.length_map]; exact pyIdx_neg _ _ h1 h2, rfl⟩
    rw [this]
    rfl
  have hrun : ∀ k : Nat, 1 ≤ k → k ≤ xs.length → linearInterpolationRaw (F := Fl K) ⟨1, false, xs.map fin⟩ [-(k : Int)] =
      liRun (xs.map fin) ((xs.map fin).set (xs.length - k) nan) (-(k : Int), -(k : Int)) := by
    intro k h1 h2
    unfold linearInterpolationRaw
    simp only [Bool.false_eq_true, if_false, bind, Except.bind]
    rw [hset k h1 h2]
    simp only [List.isEmpty_cons, Bool.false_eq_true, if_false]
    have : spikeRuns [-(k : Int)] = [(-(k : Int), -(k : Int))] := rfl
    rw [this, List.foldlM_cons]
    cases liRun (xs.map fin) ((xs.map fin).set (xs.length - k) nan) (-(k : Int), -(k : Int)) <;> rfl
  have hwrite : ∀ (k : Nat) (b : K), 1 ≤ k → k ≤ xs.length →
      getIdx ((xs.map fin).set (xs.length - k) nan) (-(k : Int) + 1) = .ok (fin b : Fl K) →
      linearInterpolationRaw (F := Fl K) ⟨1, false, xs.map fin⟩ [-(k : Int)] =
        .ok (setSlice ((xs.map fin).set (xs.length - k) nan) (-(k : Int)) (-(k : Int) + 1) (fin b)) := by
    intro k b h1 h2 hb
    rw [hrun k h1 h2]
    unfold liRun validStart validEnd
    rw [if_neg (by omega), if_pos (by simp; omega), hb]
    simp only [bind, Except.bind]
    unfold liWrite
    have hnan : (PyNum.isNaN (PyNum.nan : Fl K)) = true := rfl
    have hfin : (PyNum.isNaN (fin b : Fl K)) = false := rfl
    rw [hnan, hfin]
    simp only [Bool.not_true, Bool.false_and, Bool.false_eq_true, if_false]
    have : npNanmean [PyNum.nan, (fin b : Fl K)] = fin b := by
      unfold npNanmean
      have : [PyNum.nan, (fin b : Fl K)].filter (fun x => !(PyNum.isNaN x)) = [b].map fin := by simp [hfin]
      rw [this, npMean_fins [b] (by simp)]
      simp
    rw [this]
  constructor
  · unfold linearInterpolation
    have hg : getIdx ((xs.map fin).set (xs.length - 1) nan : List (Fl K)) (-((1 : Nat) : Int) + 1) = .ok (fin (xs.getD 0 0)) := by
      refine getIdx_ok.mpr ⟨0, ?_, ?_⟩
      · have : 0 < xs.length := by omega
        simp [pyIdx, this]
      · rw [List.getElem?_set_ne (by omega)]
        have : 0 < xs.length := by omega
        simp [List.getD, this]
    have := hwrite 1 (xs.getD 0 0) le_rfl (by omega) hg
    rw [show (-1 : Int) = -((1 : Nat) : Int) by norm_num, this]
    simp only [bind, Except.bind]
    congr 1
    apply List.ext_getElem?
    intro j
    have hb : sliceBound ((xs.map fin).set (xs.length - 1) nan : List (Fl K)).length (-((1 : Nat) : Int) + 1) = 0 := by
      simp [sliceBound]
    unfold setSlice
    rw [hb, List.getElem?_map, List.getElem?_mapIdx, List.getElem?_set, List.getElem?_set, List.getElem?_map, List.getElem?_map,
      List.length_map, List.length_map]
    have hno : ¬ (sliceBound ((xs.map fin).set (xs.length - 1) nan : List (Fl K)).length (-((1 : Nat) : Int)) ≤ j ∧ j < 0) := by omega
    simp only [hno, if_false]
    split_ifs
    · simp [around_nan]
    · rfl
    · cases xs[j]? <;> simp
  · intro k h2 hk
    unfold linearInterpolation
    have hg : getIdx ((xs.map fin).set (xs.length - k) nan : List (Fl K)) (-(k : Int) + 1) = .ok (fin (xs.getD (xs.length - k + 1) 0)) := by
      refine getIdx_ok.mpr ⟨xs.length - k + 1, ?_, ?_⟩
      · rw [List.length_set, List.length_map, show -(k : Int) + 1 = -((k - 1 : Nat) : Int) by omega,
          pyIdx_neg _ _ (by omega) (by omega)]
        congr 1
        omega
      · rw [List.getElem?_set_ne (by omega)]
        have : xs.length - k + 1 < xs.length := by omega
        simp [List.getD, this]
    rw [hwrite k _ (by omega) hk hg]
    simp only [bind, Except.bind]
    congr 1
    apply List.ext_getElem?
    intro j
    have b1 : sliceBound ((xs.map fin).set (xs.length - k) nan : List (Fl K)).length (-(k : Int)) = xs.length - k := by
      simp only [sliceBound, List.length_set, List.length_map]
      rw [if_pos (by omega)]
      omega
    have b2 : sliceBound ((xs.map fin).set (xs.length - k) nan : List (Fl K)).length (-(k : Int) + 1) = xs.length - k + 1 := by
      simp only [sliceBound, List.length_set, List.length_map]
      rw [if_pos (by omega)]
      omega
    unfold setSlice
    rw [b1, b2, List.getElem?_map, List.getElem?_mapIdx, List.getElem?_set, List.getElem?_map, List.getElem?_map, List.getElem?_set,
      List.length_map]
    by_cases hj : xs.length - k = j
    · rw [if_pos hj, if_pos hj, if_pos (by omega), if_pos (by omega)]
      simp only [Option.map_some]
      rw [if_pos (by omega)]
      simp
    · rw [if_neg hj, if_neg hj]
      have : ¬ (xs.length - k ≤ j ∧ j < xs.length - k + 1) := by omega
      simp only [this, if_false]
      cases xs[j]? <;> simp

/-- **C221** `cubic_12points_polynomial` of finite data: an index `-k` takes the mean of its two neighbours whatever the
position of the sample, and -1 is rejected. -/
theorem C221_cubic (interp : List (Fl K) → List (Fl K) → Fl K → Py (Fl K)) (xs : List K) (d : Int) :
    (2 ≤ xs.length → cubic12 interp ⟨1, false, xs.map fin⟩ [-1] d = .error .indexError) ∧
    ∀ k : Nat, 2 ≤ k → k < xs.length → cubic12 interp ⟨1, false, xs.map fin⟩ [-(k : Int)] d =
      .ok ((xs.set (xs.length - k) (aroundK ((xs.getD (xs.length - k - 1) 0 + xs.getD (xs.length - k + 1) 0) / 2) 4)).map
        (fun x => fin (aroundK x d))) := by
  have hset : ∀ k : Nat, 1 ≤ k → k ≤ xs.length → setMany (xs.map fin : List (Fl K)) [-(k : Int)] PyNum.nan =
      .ok ((xs.map fin).set (xs.length - k) nan) := by
    intro k h1 h2
    unfold setMany
    rw [List.foldlM_cons]
    have : setIdx (xs.map fin : List (Fl K)) (-(k : Int)) PyNum.nan = .ok ((xs.map fin).set (xs.length - k) nan) :=
      setIdx_ok.mpr ⟨xs.length - k, by rw [List.length_map]; exact pyIdx_neg _ _ h1 h2, rfl⟩
    rw [this]
    rfl
  have hvalid : ∀ k : Nat, 1 ≤ k → k ≤ xs.length → validFrom ((xs.map fin).set (xs.length - k) nan : List (Fl K)) (-(k : Int)) =
      (xs.drop (xs.length - k + 1)).map fin := by
    intro k h1 h2
    have b1 : sliceBound ((xs.map fin).set (xs.length - k) nan : List (Fl K)).length (-(k : Int)) = xs.length - k := by
      simp only [sliceBound, List.length_set, List.length_map]
      rw [if_pos (by omega)]
      omega
    unfold validFrom
    rw [b1]
    have hd : ((xs.map fin).set (xs.length - k) nan : List (Fl K)).drop (xs.length - k) = nan :: (xs.drop (xs.length - k + 1)).map fin := by
      rw [List.drop_eq_getElem_cons (by simp; omega), List.getElem_set_self, List.drop_set_of_lt (by omega), List.map_drop]
    rw [hd, List.filter_cons_of_neg (by rw [show PyNum.isNaN (nan : Fl K) = true from rfl]; decide)]
    rw [List.filter_eq_self]
    intro x hx
    obtain ⟨y, _, rfl⟩ := List.mem_map.mp hx
    rfl
  have hget : ∀ k : Nat, k + 1 ≤ xs.length → getIdx (xs.map fin : List (Fl K)) (-(k : Int) - 1) = .ok (fin (xs.getD (xs.length - k - 1) 0)) := by
    intro k hk
    refine getIdx_ok.mpr ⟨xs.length - k - 1, ?_, ?_⟩
    · rw [List.length_map, show -(k : Int) - 1 = -((k + 1 : Nat) : Int) by omega, pyIdx_neg _ _ (by omega) hk]
      congr 1
    · have : xs.length - k - 1 < xs.length := by omega
      simp [List.getD, this]
  constructor
  · intro hn
    unfold cubic12
    simp only [Bool.false_eq_true, if_false, bind, Except.bind]
    rw [show (-1 : Int) = -((1 : Nat) : Int) by norm_num, hset 1 le_rfl (by omega)]
    simp only
    rw [List.foldlM_cons]
    unfold cubicStep
    rw [if_pos (by omega), hget 1 (by omega), hvalid 1 le_rfl (by omega), List.drop_of_length_le (by omega)]
    rfl
  · intro k h2 hk
    unfold cubic12
    simp only [Bool.false_eq_true, if_false, bind, Except.bind]
    rw [hset k (by omega) hk.le]
    simp only
    rw [List.foldlM_cons]
    unfold cubicStep
    have hq : getIdx ((xs.drop (xs.length - k + 1)).map fin : List (Fl K)) 0 = .ok (fin (xs.getD (xs.length - k + 1) 0)) := by
      have : xs.length - k + 1 < xs.length := by omega
      refine getIdx_ok.mpr ⟨0, ?_, ?_⟩
      · simp [pyIdx]; omega
      · simp [List.getD, this]
    rw [if_pos (by omega), hget k (by omega), hvalid k (by omega) hk.le]
    simp only [bind, Except.bind]
    rw [hq]
    simp only
    have hval : PyNum.around ((fin (xs.getD (xs.length - k - 1) 0) +. fin (xs.getD (xs.length - k + 1) 0)) /. lit 2) 4 =
        (fin (aroundK ((xs.getD (xs.length - k - 1) 0 + xs.getD (xs.length - k + 1) 0) / 2) 4) : Fl K) := by
      rw [padd_fin, lit_eq, pdiv_fin (by norm_num)]
      norm_num
    rw [hval]
    have hs : ∀ y : Fl K, setIdx ((xs.map fin).set (xs.length - k) nan : List (Fl K)) (-(k : Int)) y = .ok ((xs.map fin).set (xs.length - k) y) := by
      intro y
      refine setIdx_ok.mpr ⟨xs.length - k, ?_, by simp⟩
      rw [List.length_set, List.length_map]
      exact pyIdx_neg _ _ (by omega) hk.le
    rw [hs]
    simp only [List.foldlM_nil, pure, Except.pure]
    congr 1
    rw [← List.map_set, List.map_map]
    apply List.map_congr_left
    intro x _
    simp

/-- the record 0, 1, 2, 3 with the second sample a spike: as index 1 linear interpolation fills in 1, as index -3 it fills in 2 -/
example : linearInterpolation (F := Fl ℚ) ⟨1, false, [0, 9, 2, 3].map fin⟩ [1] 4 = .ok ([0, 1, 2, 3].map fin) ∧
    linearInterpolation (F := Fl ℚ) ⟨1, false, [0, 9, 2, 3].map fin⟩ [-3] 4 = .ok ([0, 2, 2, 3].map fin) := by
  decide +kernel

end exact

end Proadv.Props
