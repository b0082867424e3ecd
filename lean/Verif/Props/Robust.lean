import Verif.Props.Replace
import Verif.Props.MedianMode

/-!
# C179: how far outliers can drag a statistic and the replacements built on it
-/

set_option linter.unusedSectionVars false

namespace Proadv.Props

open Proadv Fl Descriptive Replace

variable {K : Type} [Field K] [LinearOrder K] [IsStrictOrderedRing K] [FloorRing K]

/-- **C179** as long as fewer than half of the samples lie outside `[lo, hi]`, the median lies in `[lo, hi]`. -/
theorem C179_median (b : Bool) (xs : List K) (lo hi : K)
    (h : 2 * xs.countP (fun x => decide (x < lo ∨ hi < x)) < xs.length) :
    ∃ m, median ⟨1, b, xs.map (fun x => .num (fin x))⟩ = .ok (fin m) ∧ lo ≤ m ∧ m ≤ hi := by
  obtain ⟨m, hm, h1, h2, -⟩ := C04_median_halves b xs (by rintro rfl; simp at h)
  refine ⟨m, hm, ?_, ?_⟩
  · by_contra hlt
    have : xs.countP (fun x => decide (x ≤ m)) ≤ xs.countP (fun x => decide (x < lo ∨ hi < x)) := by
      apply List.countP_mono_left
      intro x _ hx
      simp only [decide_eq_true_eq] at hx ⊢
      exact Or.inl (lt_of_le_of_lt hx (not_le.mp hlt))
    omega
  · by_contra hlt
    have : xs.countP (fun x => decide (m ≤ x)) ≤ xs.countP (fun x => decide (x < lo ∨ hi < x)) := by
      apply List.countP_mono_left
      intro x _ hx
      simp only [decide_eq_true_eq] at hx ⊢
      exact Or.inr (lt_of_lt_of_le (not_le.mp hlt) hx)
    omega

example : ∃ m, median ⟨1, false, [(1 : ℚ), 2, 3, 10 ^ 9, -(10 ^ 9)].map (fun x => .num (fin x))⟩ = .ok (fin m) ∧ 1 ≤ m ∧ m ≤ 3 :=
  C179_median false _ 1 3 (by decide +kernel)

/-- **C179** half of the samples are enough: with `k` zeros and `k` outliers the median is wherever the outliers put it. -/
theorem C179_median_sharp (b : Bool) (k : Nat) (hk : 0 < k) (v : K) :
    2 * (List.replicate k (0 : K) ++ List.replicate k (2 * v)).countP (fun x => decide (x < 0 ∨ 0 < x)) ≤
      (List.replicate k (0 : K) ++ List.replicate k (2 * v)).length ∧
    median ⟨1, b, (List.replicate k (0 : K) ++ List.replicate k (2 * v)).map (fun x => .num (fin x))⟩ = .ok (fin v) := by
  constructor
  · rw [List.countP_append, List.length_append, List.length_replicate, List.length_replicate]
    have h1 : (List.replicate k (0 : K)).countP (fun x => decide (x < 0 ∨ 0 < x)) = 0 := by
      rw [List.countP_eq_zero]
      intro x hx
      rw [List.eq_of_mem_replicate hx]; simp
    have h2 := List.countP_le_length (p := fun x => decide (x < 0 ∨ 0 < x)) (l := List.replicate k (2 * v))
    rw [List.length_replicate] at h2
    omega
  · have hne : List.replicate k (0 : K) ++ List.replicate k (2 * v) ≠ [] := by simp; omega
    rcases le_total 0 v with hv | hv
    · rw [C04_median_value b _ _ hne (List.Perm.refl _) (by
        rw [List.pairwise_append]
        refine ⟨by simp [List.pairwise_replicate], by simp [List.pairwise_replicate], ?_⟩
        intro x hx y hy
        rw [List.eq_of_mem_replicate hx, List.eq_of_mem_replicate hy]; linarith)]
      congr 2
      unfold midpoint
      rw [List.length_append, List.length_replicate, List.length_replicate, if_neg (by omega),
        show (k + k) / 2 = k by omega]
      have e1 : (List.replicate k (0 : K) ++ List.replicate k (2 * v)).getD (k - 1) 0 = 0 := by
        rw [List.getD_eq_getElem?_getD, List.getElem?_append_left (by simp; omega)]; simp [hk]
      have e2 : (List.replicate k (0 : K) ++ List.replicate k (2 * v)).getD k 0 = 2 * v := by
        rw [List.getD_eq_getElem?_getD, List.getElem?_append_right (by simp)]; simp [hk]
      rw [e1, e2]; ring
    · rw [C04_median_value b _ (List.replicate k (2 * v) ++ List.replicate k 0) hne List.perm_append_comm (by
        rw [List.pairwise_append]
        refine ⟨by simp [List.pairwise_replicate], by simp [List.pairwise_replicate], ?_⟩
        intro x hx y hy
        rw [List.eq_of_mem_replicate hx, List.eq_of_mem_replicate hy]; linarith)]
      congr 2
      unfold midpoint
      rw [List.length_append, List.length_replicate, List.length_replicate, if_neg (by omega),
        show (k + k) / 2 = k by omega]
      have e1 : (List.replicate k (2 * v) ++ List.replicate k (0 : K)).getD (k - 1) 0 = 2 * v := by
        rw [List.getD_eq_getElem?_getD, List.getElem?_append_left (by simp; omega)]; simp [hk]
      have e2 : (List.replicate k (2 * v) ++ List.replicate k (0 : K)).getD k 0 = 0 := by
        rw [List.getD_eq_getElem?_getD, List.getElem?_append_right (by simp)]; simp [hk]
      rw [e1, e2]; ring

/-- **C179** a single sample can put the mean anywhere. -/
theorem C179_mean (xs : List K) (i : Nat) (hi : i < xs.length) (t : K) :
    ∃ v, meanOf ((xs.set i v).map fin : List (Fl K)) = .ok (fin t) := by
  have hn : (xs.length : K) ≠ 0 := by exact_mod_cast (by omega : xs.length ≠ 0)
  have hs : ∀ v, (xs.set i v).sum = xs.sum - xs[i] + v := by
    intro v
    have e := List.sum_set' xs i v
    rw [dif_pos hi] at e
    rw [e]; ring
  refine ⟨xs.length * t - (xs.sum - xs[i]), ?_⟩
  have := meanOf_fins (xs.set i (xs.length * t - (xs.sum - xs[i]))) (by
    rw [← List.length_pos_iff]; simp; omega)
  rw [show ((xs.set i (xs.length * t - (xs.sum - xs[i]))).map fin : List (Fl K)) = fins _ from rfl, this]
  congr 2
  unfold Spec.avg
  rw [hs, List.length_set]
  field_simp
  ring

/-- **C179** `median_value`: if every sample outside `[lo, hi]` is listed as a spike and fewer than half of the samples are spikes, the
repaired series lies in `[lo, hi]` — whatever the spikes are. -/
theorem C179_median_value (xs : List K) (sp : List Nat) (hin : ∀ i ∈ sp, i < xs.length) (lo hi : K)
    (hc : ∀ i (h : i < xs.length), i ∉ sp → lo ≤ xs[i] ∧ xs[i] ≤ hi) (hh : 2 * sp.length < xs.length) :
    ∃ out : List K, medianValue ⟨1, false, xs.map fin⟩ (sp.map (fun i : Nat => (i : Int))) = .ok (out.map fin) ∧
      out.length = xs.length ∧ ∀ y ∈ out, lo ≤ y ∧ y ≤ hi := by
  have hne : xs ≠ [] := by rintro rfl; simp at hh
  have hcount : xs.countP (fun x => decide (x < lo ∨ hi < x)) ≤ sp.length := by
    have e : xs.countP (fun x => decide (x < lo ∨ hi < x)) =
        ((List.range xs.length).filter (fun i => decide (xs.getD i 0 < lo ∨ hi < xs.getD i 0))).length := by
      conv_lhs => rw [show xs = (List.range xs.length).map (fun i => xs.getD i 0) from by
        apply List.ext_getElem <;> simp +contextual [List.getD]]
      rw [List.countP_map, List.countP_eq_length_filter]
      rfl
    rw [e]
    apply List.Subperm.length_le
    apply List.subperm_of_subset (List.nodup_range.filter _)
    intro i hi'
    obtain ⟨h1, h2⟩ := List.mem_filter.mp hi'
    have h1 := List.mem_range.mp h1
    by_contra hni
    obtain ⟨c1, c2⟩ := hc i h1 hni
    simp only [decide_eq_true_eq, List.getD_eq_getElem?_getD, List.getElem?_eq_getElem h1, Option.getD_some] at h2
    rcases h2 with h2 | h2
    · exact absurd h2 (not_lt.mpr c1)
    · exact absurd h2 (not_lt.mpr c2)
  obtain ⟨m, hm, m1, m2⟩ := C179_median false xs lo hi (by omega)
  have e : medianValue (F := Fl K) ⟨1, false, xs.map fin⟩ (sp.map (fun i : Nat => (i : Int))) =
      setMany (xs.map fin) (sp.map (fun i : Nat => (i : Int))) (fin m) := by
    unfold medianValue
    simp only [List.map_map]
    rw [show (Item.num ∘ fin : K → Item (Fl K)) = fun x => .num (fin x) from rfl, hm]
    rfl
  obtain ⟨o, ho⟩ := setMany_total (xs.map fin : List (Fl K)) (sp.map (fun i : Nat => (i : Int))) (fin m) (by
    intro i hi'
    obtain ⟨k, hk, rfl⟩ := List.mem_map.mp hi'
    have := (hits_nat (n := xs.length) hin k).mpr hk
    refine ⟨k, ?_⟩
    rw [List.length_map]
    have hlt := hin k hk
    simp [pyIdx, hlt])
  obtain ⟨hl, hf⟩ := setMany_frame ho
  have hw := setMany_value ho
  rw [List.length_map] at hl hf hw
  have hval : ∀ k < xs.length, ∃ y : K, o[k]? = some (fin y) ∧ lo ≤ y ∧ y ≤ hi := by
    intro k hk
    by_cases hs : k ∈ sp
    · exact ⟨m, hw k ((hits_nat hin k).mpr hs), m1, m2⟩
    · refine ⟨xs[k], ?_, hc k hk hs⟩
      rw [hf k (fun h => hs ((hits_nat hin k).mp h))]
      simp [hk]
  refine ⟨o.map (fun v => match v with | .fin x => x | _ => 0), ?_, by simpa using hl, ?_⟩
  · rw [e, ho, List.map_map]
    congr 1
    conv_lhs => rw [← List.map_id o]
    apply List.map_congr_left
    intro v hv
    obtain ⟨k, hk, rfl⟩ := List.mem_iff_getElem.mp hv
    obtain ⟨y, hy, -⟩ := hval k (by omega)
    rw [List.getElem?_eq_getElem hk] at hy
    rw [Option.some.inj hy]; rfl
  · intro y hy
    obtain ⟨v, hv, rfl⟩ := List.mem_map.mp hy
    obtain ⟨k, hk, rfl⟩ := List.mem_iff_getElem.mp hv
    obtain ⟨y, hy, b⟩ := hval k (by omega)
    rw [List.getElem?_eq_getElem hk] at hy
    rw [Option.some.inj hy]; exact b

/-- the hypotheses are met by a series of five samples with two wild ones -/
example : ∃ out : List ℚ, medianValue ⟨1, false, [(10 ^ 9 : ℚ), 2, 3, 1, -(10 ^ 9)].map fin⟩ [0, 4] = .ok (out.map fin) ∧
    out.length = 5 ∧ ∀ y ∈ out, 1 ≤ y ∧ y ≤ 3 :=
  C179_median_value [(10 ^ 9 : ℚ), 2, 3, 1, -(10 ^ 9)] [0, 4] (by decide) 1 3 (by decide +kernel) (by decide)

/-- **C179** `mean_value`: one spike, correctly detected, can still put its replacement anywhere. -/
theorem C179_mean_value (xs : List K) (i : Nat) (hi : i < xs.length) (t : K) :
    ∃ v, ∃ out, meanValue ⟨1, false, (xs.set i v).map fin⟩ [(i : Int)] = .ok out ∧ out[i]? = some (fin t : Fl K) := by
  obtain ⟨v, hv⟩ := C179_mean xs i hi t
  have hne : xs.set i v ≠ [] := by rw [← List.length_pos_iff]; simp; omega
  have hne' : ((xs.set i v).map fin : List (Fl K)) ≠ [] := by simpa using hne
  obtain ⟨h1, h2, -⟩ := C48_mean_value (⟨1, false, (xs.set i v).map fin⟩ : Arr (Fl K)) [(i : Int)] hne'
  have hidx : pyIdx ((xs.set i v).map fin : List (Fl K)).length (i : Int) = some i := by
    rw [List.length_map, List.length_set]; simp [pyIdx, hi]
  obtain ⟨out, ho⟩ := h2 (by
    intro j hj
    rw [List.mem_singleton] at hj
    exact ⟨i, by rw [hj]; exact hidx⟩)
  refine ⟨v, out, ho, ?_⟩
  rw [h1 out ho i ⟨(i : Int), by simp, hidx⟩]
  have := meanOf_eq _ hne'
  rw [hv] at this
  have e := Except.ok.inj this
  simp only [npMean] at e
  rw [← e]; rfl

/-- **C179** `last_valid_data` (any arithmetic): the values of the spikes are irrelevant unless the first sample is one. -/
theorem C179_last_valid {F : Type} [PyNum F] (a b : Bool) (v w : List F) (sp : List Nat) (hs : sp.Pairwise (· < ·))
    (hin : ∀ i ∈ sp, i < v.length) (h0 : 0 ∉ sp) (hl : v.length = w.length) (hvw : ∀ i, i ∉ sp → v[i]? = w[i]?) :
    lastValidData ⟨1, a, v⟩ (sp.map (fun i : Nat => (i : Int))) = lastValidData ⟨1, b, w⟩ (sp.map (fun i : Nat => (i : Int))) := by
  obtain ⟨o, h1, l1, c1⟩ := C45_carry_forward ⟨1, a, v⟩ sp hs hin
  obtain ⟨p, h2, l2, c2⟩ := C45_carry_forward ⟨1, b, w⟩ sp hs (fun i hi => by show i < w.length; rw [← hl]; exact hin i hi)
  rw [h1, h2]
  congr 1
  apply List.ext_getElem?
  intro k
  obtain ⟨j, hj, hjs, hm⟩ := C45_exists sp h0 k
  rw [c1 k j hj hjs hm, c2 k j hj hjs hm]
  exact hvw j hjs

example : lastValidData ⟨1, false, [(fin 1 : Fl ℚ), fin 7, fin 3]⟩ [1] = lastValidData ⟨1, false, [fin 1, nan, fin 3]⟩ [1] :=
  C179_last_valid false false [(fin 1 : Fl ℚ), fin 7, fin 3] [fin 1, nan, fin 3] [1] (by simp) (by simp) (by simp) rfl
    (by intro i hi; rcases i with _ | _ | _ | i <;> simp_all)

end Proadv.Props
