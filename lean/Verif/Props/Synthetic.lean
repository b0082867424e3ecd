import Verif.Model.Fluid
import Verif.Lemmas.Descriptive
import Verif.Lemmas.Lists
import Verif.Lemmas.Ssa
import Mathlib.Data.List.Sort
import Mathlib.Data.Finset.Card
import Mathlib.Tactic.Linarith
import Mathlib.Tactic.FieldSimp

/-!
# C27–C30: synthetic pollution, power spectra
-/

set_option linter.unusedSectionVars false

namespace Proadv.Props

open Proadv Signal Fl Descriptive

theorem drawState_inv (draw : Nat → Nat) (n target : Nat) (hd : ∀ t, draw t < n) (t : Nat) :
    (drawState draw target t).Nodup ∧ (∀ i ∈ drawState draw target t, i < n) ∧ (drawState draw target t).length ≤ target := by
  induction t with
  | zero => simp [drawState]
  | succ t ih =>
    obtain ⟨h1, h2, h3⟩ := ih
    simp only [drawState]
    split
    · unfold drawStep
      split
      · exact ⟨h1, h2, h3⟩
      · rename_i hlt hni
        refine ⟨?_, ?_, ?_⟩
        · rw [List.nodup_append]
          refine ⟨h1, by simp, ?_⟩
          intro a ha b hb
          rw [List.mem_singleton] at hb
          rintro rfl
          exact hni (hb ▸ ha)
        · intro i hi
          rcases List.mem_append.mp hi with hi | hi
          · exact h2 i hi
          · rw [List.mem_singleton.mp hi]; exact hd t
        · simp; omega
    · exact ⟨h1, h2, h3⟩

/-- **C27** whatever the generator draws, the indices returned are strictly increasing, in range, and exactly
`int(n * percent / 100)` many. -/
theorem C27_random_index (draw : Nat → Nat) (n : Nat) (percent : Rat) (hd : ∀ t, draw t < n) (t : Nat) (l : List Nat)
    (h : randomIndexReturns draw n percent t l) :
    l.Pairwise (· < ·) ∧ (∀ i ∈ l, i < n) ∧ (l.length : Int) = max 0 (truncK ((n : Rat) * percent / 100)) := by
  obtain ⟨h1, rfl⟩ := h
  obtain ⟨a, b, c⟩ := drawState_inv draw n (targetCount n percent) hd t
  have hp := List.perm_insertionSort (· ≤ ·) (drawState draw (targetCount n percent) t)
  refine ⟨?_, fun i hi => b i (hp.mem_iff.mp hi), ?_⟩
  · have hs := List.pairwise_insertionSort (· ≤ ·) (drawState draw (targetCount n percent) t)
    have hn : (List.insertionSort (· ≤ ·) (drawState draw (targetCount n percent) t)).Nodup := hp.nodup_iff.mpr a
    exact (hs.and hn).imp (fun ⟨h1, h2⟩ => lt_of_le_of_ne h1 h2)
  · rw [hp.length_eq, le_antisymm c h1, targetCount, Int.toNat_eq_max]
    exact max_comm _ _

/-- **C27** for a percentage between 0 and 100 the number is the integer part of `n * percent / 100` and at most `n`. -/
theorem C27_count (n : Nat) (percent : Rat) (h0 : 0 ≤ percent) (h1 : percent ≤ 100) :
    targetCount n percent = ⌊(n : Rat) * percent / 100⌋₊ ∧ targetCount n percent ≤ n := by
  have hx : (0 : Rat) ≤ (n : Rat) * percent / 100 := by positivity
  have e : targetCount n percent = ⌊(n : Rat) * percent / 100⌋₊ := by
    unfold targetCount truncK
    rw [if_pos hx, Int.floor_toNat]
  refine ⟨e, ?_⟩
  rw [e]
  have : (n : Rat) * percent / 100 ≤ n := by
    rw [div_le_iff₀ (by norm_num)]
    have : (0 : Rat) ≤ n := by positivity
    nlinarith
  exact Nat.floor_le_of_le this

/-- **C28** when more indices are requested than there are samples the loop never ends. -/
theorem C28_diverges (draw : Nat → Nat) (n : Nat) (percent : Rat) (hd : ∀ t, draw t < n) (h : n < targetCount n percent)
    (t : Nat) (l : List Nat) : ¬ randomIndexReturns draw n percent t l := by
  rintro ⟨h1, -⟩
  obtain ⟨a, b, c⟩ := drawState_inv draw n (targetCount n percent) hd t
  have : (drawState draw (targetCount n percent) t).length ≤ n := by
    have hsub : (drawState draw (targetCount n percent) t).toFinset ⊆ Finset.range n := by
      intro i hi
      exact Finset.mem_range.mpr (b i (List.mem_toFinset.mp hi))
    have := Finset.card_le_card hsub
    rwa [List.toFinset_card_of_nodup a, Finset.card_range] at this
  omega

theorem drawState_seen (draw : Nat → Nat) (target t : Nat) :
    target ≤ (drawState draw target t).length ∨ ∀ s < t, draw s ∈ drawState draw target t := by
  induction t with
  | zero => right; intro s hs; omega
  | succ t ih =>
    simp only [drawState]
    by_cases hlt : (drawState draw target t).length < target
    · rw [if_pos hlt]
      rcases ih with ih | ih
      · omega
      · right
        intro s hs
        unfold drawStep
        rcases Nat.lt_or_ge s t with h | h
        · split
          · exact ih s h
          · exact List.mem_append_left _ (ih s h)
        · obtain rfl : s = t := by omega
          split
          · assumption
          · simp
    · left; rw [if_neg hlt]; omega

/-- **C28** when the number requested does not exceed `n`, every stream that eventually visits every index makes the loop
end. -/
theorem C28_terminates (draw : Nat → Nat) (n : Nat) (percent : Rat) (h : targetCount n percent ≤ n)
    (hv : ∀ i < n, ∃ t, draw t = i) : ∃ t l, randomIndexReturns draw n percent t l := by
  choose! T hT using hv
  set B := (Finset.range n).sup T + 1 with hB
  refine ⟨B, _, ?_, rfl⟩
  rcases drawState_seen draw (targetCount n percent) B with h1 | h1
  · exact h1
  · refine h.trans ?_
    have hsub : Finset.range n ⊆ (drawState draw (targetCount n percent) B).toFinset := by
      intro i hi
      rw [List.mem_toFinset]
      have hi' := Finset.mem_range.mp hi
      have := h1 (T i) (Nat.lt_succ_of_le (Finset.le_sup (f := T) hi))
      rwa [hT i hi'] at this
    have := Finset.card_le_card hsub
    rw [Finset.card_range] at this
    exact this.trans (List.toFinset_card_le _)

-- non-vacuous: 4 samples, 50 %, a stream with repetitions
example : randomIndexReturns (fun t => [3, 3, 1, 0, 2].getD t 0) 4 50 3 [1, 3] := by
  unfold randomIndexReturns; decide +kernel
example : 4 < targetCount 4 150 := by decide +kernel

section
variable {K : Type} [Field K] [LinearOrder K] [FloorRing K] [IsStrictOrderedRing K]

/-- the spike added at the `k`-th selected index: sign alternates, amplitude `(|r_k| + percent) * mean` -/
def spike (percent m : K) (r : List K) (k : Nat) : K := (-1) ^ k * ((|r.getD k 0| + percent) * m)

theorem foldlM_setMany (idx : List Nat) (n : Nat) (hin : ∀ i ∈ idx, i < n) (hnd : idx.Nodup) (v : Nat → Fl K)
    (body : List (Fl K) → Nat → Py (List (Fl K)))
    (hb : ∀ k < idx.length, ∀ s, body s k = setIdx s ((idx.getD k 0 : Nat) : Int) (v k)) (l : List (Fl K))
    (hl : l.length = n) (c : Nat) (hc : c ≤ idx.length) :
    ∃ l', (List.range c).foldlM body l = .ok l' ∧ l'.length = n ∧
      (∀ k < c, l'[idx.getD k 0]? = some (v k)) ∧ ∀ i, (∀ k < c, idx.getD k 0 ≠ i) → l'[i]? = l[i]? := by
  induction c with
  | zero => exact ⟨l, rfl, hl, by simp, by simp⟩
  | succ c ih =>
    obtain ⟨l', h1, h2, h3, h4⟩ := ih (by omega)
    have hg : ∀ k (hk : k < idx.length), idx.getD k 0 = idx[k] := fun k hk => by simp [hk]
    have hcn : idx.getD c 0 < n := by rw [hg c (by omega)]; exact hin _ (List.getElem_mem _)
    refine ⟨l'.set (idx.getD c 0) (v c), ?_, by simpa using h2, ?_, ?_⟩
    · rw [List.range_succ, List.foldlM_append, h1]
      simp only [bind, Except.bind, List.foldlM_cons, List.foldlM_nil]
      rw [hb c (by omega), setIdx_nat _ _ _ (by omega)]
      rfl
    · intro k hk
      rw [List.getElem?_set]
      by_cases hkc : k = c
      · subst hkc; rw [if_pos rfl, if_pos (by omega)]
      · have : idx.getD c 0 ≠ idx.getD k 0 := by
          rw [hg c (by omega), hg k (by omega)]
          intro e
          exact hkc ((List.Nodup.getElem_inj_iff hnd).mp e).symm
        rw [if_neg this]
        exact h3 k (by omega)
    · intro i hi
      rw [List.getElem?_set, if_neg (hi c (by omega))]
      exact h4 i (fun k hk => hi k (by omega))

/-- **C29** `synthetic_noise` leaves every sample that was not selected unchanged and adds the alternating spike
`spike percent (mean data) r k` to the `k`-th selected one. -/
theorem C29_synthetic_noise (data r : List K) (percent : K) (idx : List Nat) (hne : data ≠ [])
    (hin : ∀ i ∈ idx, i < data.length) (hs : idx.Pairwise (· < ·)) (hr : r.length = data.length) :
    ∃ out : List (Fl K), syntheticNoise (data.map fin) (fin percent) idx (r.map fin) = .ok out ∧
      out.length = data.length ∧
      (∀ i < data.length, i ∉ idx → out[i]? = some (fin (data.getD i 0))) ∧
      (∀ k < idx.length, out[idx.getD k 0]? =
        some (fin (data.getD (idx.getD k 0) 0 + spike percent (Spec.avg data) r k))) := by
  have hnd : idx.Nodup := hs.imp (fun h => ne_of_lt h)
  have hcard : idx.length ≤ data.length := by
    have hsub : idx.toFinset ⊆ Finset.range data.length := by
      intro i hi
      exact Finset.mem_range.mpr (hin i (List.mem_toFinset.mp hi))
    have := Finset.card_le_card hsub
    rwa [List.toFinset_card_of_nodup hnd, Finset.card_range] at this
  have hg : ∀ k (hk : k < idx.length), idx.getD k 0 = idx[k] := fun k hk => by simp [hk]
  unfold syntheticNoise
  obtain ⟨s, h1, h2, h3, h4⟩ := foldlM_setMany (K := K) idx data.length hin hnd (fun k => fin (spike percent (Spec.avg data) r k))
    (fun s (k : Nat) => do
      let m ← meanOf (data.map fin)
      let rk ← getIdx (r.map fin) (k : Int)
      let v := if k % 2 = 0 then (PyNum.abs rk +. fin percent) *. m else (PyNum.neg (PyNum.abs rk) -. fin percent) *. m
      setIdx s ((idx.getD k 0 : Nat) : Int) v)
    (fun k hk s => by
      have hk' : k < r.length := by omega
      rw [show (data.map fin : List (Fl K)) = fins data from rfl, meanOf_fins data hne]
      have hgi : getIdx (r.map fin : List (Fl K)) (k : Int) = .ok (fin (r.getD k 0)) := by
        simp [getIdx, pyIdx, hk']
      simp only [bind, Except.bind, hgi]
      congr 1
      unfold spike
      split
      · rename_i he
        rw [Even.neg_one_pow (Nat.even_iff.mpr he)]
        simp
      · rename_i he
        rw [Odd.neg_one_pow (Nat.odd_iff.mpr (by omega))]
        simp only [pabs_fin, pneg_fin, psub_fin, pmul_fin]
        congr 1; ring)
    (List.replicate (data.map (fin : K → Fl K)).length (lit 0)) (by simp) idx.length le_rfl
  rw [h1]
  simp only [bind, Except.bind]
  refine ⟨List.zipWith (· +. ·) (data.map fin) s, ?_, by simp [h2], ?_, ?_⟩
  · unfold bcast; rw [if_pos (by simpa using h2.symm)]
  · intro i hi hni
    have := h4 i (fun k hk e => hni (by rw [← e, hg k hk]; exact List.getElem_mem _))
    rw [List.getElem?_zipWith, this, List.getElem?_map, List.getElem?_eq_getElem hi,
      List.getElem?_replicate_of_lt (by simpa using hi)]
    simp [hi]
  · intro k hk
    have hlt : idx.getD k 0 < data.length := by rw [hg k hk]; exact hin _ (List.getElem_mem _)
    rw [List.getElem?_zipWith, h3 k hk, List.getElem?_map, List.getElem?_eq_getElem hlt]
    simp only [Option.map_some]
    have e : data.getD (idx.getD k 0) 0 = data[idx.getD k 0] := by
      rw [List.getD_eq_getElem?_getD, List.getElem?_eq_getElem hlt]; rfl
    rw [padd_fin, e]

/-- **C29** the amplitude of every spike is at least `percent * |mean|`, and consecutive spikes have opposite signs. -/
theorem C29_amplitude (percent m : K) (r : List K) (hp : 0 ≤ percent) (k : Nat) :
    percent * |m| ≤ |spike percent m r k| ∧ spike percent m r k * spike percent m r (k + 1) ≤ 0 := by
  constructor
  · unfold spike
    rw [abs_mul, abs_pow, abs_neg, abs_one, one_pow, one_mul, abs_mul, abs_of_nonneg (by positivity : 0 ≤ |r.getD k 0| + percent)]
    have := abs_nonneg (r.getD k 0)
    have := abs_nonneg m
    nlinarith
  · unfold spike
    have e : (-1 : K) ^ k * ((|r.getD k 0| + percent) * m) * ((-1) ^ (k + 1) * ((|r.getD (k + 1) 0| + percent) * m)) =
        -(((-1 : K) ^ k) ^ 2 * ((|r.getD k 0| + percent) * (|r.getD (k + 1) 0| + percent)) * m ^ 2) := by ring
    rw [e]
    have : 0 ≤ (((-1 : K) ^ k) ^ 2 * ((|r.getD k 0| + percent) * (|r.getD (k + 1) 0| + percent)) * m ^ 2) := by positivity
    linarith

end

example : syntheticNoise ([1, 2, 3].map fin : List (Fl ℚ)) (fin 10) [0, 2] ([1/10, -1/5, 0].map fin) =
    .ok [fin (1 + 101 / 5), fin 2, fin (3 - 102 / 5)] := by decide +kernel

/-- **C30** (what the code does) consecutive segments share `overlap` samples, and `overlap ≥ block` is rejected. -/
theorem C30_hop (overlap block : Int) (onesided : Bool) :
    (powerSpectraArgs overlap block onesided).hop =
      if block ≤ overlap then .error .valueError else .ok (block - overlap) := rfl

/-- **C30** (documented: consecutive blocks share `overlap` percent) holds exactly when `overlap = 0` or `block = 100`. -/
theorem C30_overlap_partial (overlap block h : Int) (onesided : Bool)
    (hh : (powerSpectraArgs overlap block onesided).hop = .ok h) :
    ((block - h : ℤ) : ℚ) = (overlap : ℚ) / 100 * block ↔ overlap = 0 ∨ block = 100 := by
  rw [C30_hop] at hh
  split at hh
  · cases hh
  · cases hh
    push_cast
    constructor
    · intro he
      have : (overlap : ℚ) * (block - 100) = 0 := by linarith
      rcases mul_eq_zero.mp this with h | h
      · left; exact_mod_cast h
      · right
        have : (block : ℚ) = 100 := by linarith
        exact_mod_cast this
    · rintro (h | h) <;> subst h <;> push_cast <;> ring

/-- **C30** is false of the defaults (`overlap = 50`, `block = 2048`): the blocks share 50 samples instead of 1024. -/
theorem C30_overlap_false : ∃ overlap block h : Int, (powerSpectraArgs overlap block true).hop = .ok h ∧
    ((block - h : ℤ) : ℚ) = 50 ∧ (overlap : ℚ) / 100 * block = 1024 :=
  ⟨50, 2048, 1998, rfl, by norm_num, by norm_num⟩

end Proadv.Props
