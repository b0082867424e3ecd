import Verif.Model.Detect
import Verif.Lemmas.Sets
import Verif.Lemmas.Index
import Verif.Lemmas.FlAlg
import Verif.Props.MedianMode

/-!
# Properties C62, C63: `phasespace_thresholding_premodification`
-/

set_option linter.unusedSectionVars false

namespace Proadv.Props

open Proadv Fl Detect

/-! ## The loop of phasespace.py:170-171, for every float arithmetic -/

/-- in-place loop over increasing indices: untouched outside, each visited sample equals its (new) predecessor, and
sample 0 takes the last sample -/
private theorem backfill {F : Type} (idx : List Nat) :
    ∀ (d : List F), idx.Pairwise (· < ·) → (∀ i ∈ idx, i < d.length) →
    ∃ r, idx.foldlM (fun (d : List F) (i : Nat) => do
        let x ← getIdx d ((i : Int) - 1)
        setIdx d (i : Int) x) d = (.ok r : Py (List F)) ∧ r.length = d.length ∧
      (∀ k, k ∉ idx → r[k]? = d[k]?) ∧ (∀ k ∈ idx, 0 < k → r[k]? = r[k - 1]?) ∧
      (0 ∈ idx → r[0]? = d[d.length - 1]?) := by
  induction idx with
  | nil => intro d _ _; exact ⟨d, rfl, rfl, fun _ _ => rfl, by simp, by simp⟩
  | cons i t ih =>
    intro d hs hlt
    rw [List.pairwise_cons] at hs
    have hi := hlt i (by simp)
    -- the value read
    obtain ⟨x, hx, hx'⟩ : ∃ x, getIdx d ((i : Int) - 1) = .ok x ∧
        d[if i = 0 then d.length - 1 else i - 1]? = some x := by
      by_cases h0 : i = 0
      · subst h0
        refine ⟨d[d.length - 1], getIdx_ok.mpr ⟨d.length - 1, ?_, ?_⟩, ?_⟩
        · unfold pyIdx
          rw [if_neg (by omega), if_pos (by omega)]
          congr 1; omega
        · rw [List.getElem?_eq_getElem]
        · rw [if_pos rfl, List.getElem?_eq_getElem]
      · refine ⟨d[i - 1], getIdx_ok.mpr ⟨i - 1, ?_, ?_⟩, ?_⟩
        · have : ((i : Int) - 1) = ((i - 1 : Nat) : Int) := by omega
          rw [this, pyIdx_nat (by omega)]
        · rw [List.getElem?_eq_getElem]
        · rw [if_neg h0, List.getElem?_eq_getElem]
    have hset : setIdx d (i : Int) x = .ok (d.set i x) := setIdx_ok.mpr ⟨i, pyIdx_nat hi, rfl⟩
    obtain ⟨r, h1, h2, h3, h4, h5⟩ := ih (d.set i x) hs.2 (by
      intro j hj; rw [List.length_set]; exact hlt j (by simp [hj]))
    have hit : i ∉ t := fun h => lt_irrefl _ (hs.1 i h)
    refine ⟨r, ?_, by simpa using h2, ?_, ?_, ?_⟩
    · rw [List.foldlM_cons]
      simp only [bind, Except.bind, hx, hset] at h1 ⊢
      exact h1
    · intro k hk
      rw [List.mem_cons, not_or] at hk
      rw [h3 k hk.2, List.getElem?_set_ne (fun h => hk.1 h.symm)]
    · intro k hk hk0
      rcases List.mem_cons.mp hk with rfl | hk
      · rw [h3 k hit, List.getElem?_set_self hi]
        have hkt : k - 1 ∉ t := fun h => by have := hs.1 _ h; omega
        rw [h3 _ hkt, List.getElem?_set_ne (by omega)]
        rw [if_neg (by omega)] at hx'
        exact hx'.symm
      · exact h4 k hk hk0
    · intro h0
      have h0t : 0 ∉ t := fun h => by have := hs.1 _ h; omega
      have hi0 : i = 0 := by
        rcases List.mem_cons.mp h0 with h | h
        · exact h.symm
        · exact absurd h h0t
      subst hi0
      rw [h3 0 h0t, List.getElem?_set_self hi, ← hx', if_pos rfl]

section generic
variable {F : Type} [PyMath F]

/-- **C62** (every float arithmetic) the call never fails; with `t = c2 * MAD * sqrt(2 ln n)` a sample is touched only if
it is *both* above `t` and below `-t`; a touched sample takes the new value of its predecessor (sample 0: the last
sample). -/
theorem C62_general (data : List F) (c1 c2 t : F)
    (ht : t = c2 *. medianAbsDev data *. PyMath.sqrt (lit 2 *. PyMath.log (ofNat data.length))) :
    ∃ r u, premodification data c1 c2 = .ok (r, u) ∧ r.length = data.length ∧
      ∀ k x, data[k]? = some x →
        (¬ ((t <. x) = true ∧ (x <. PyNum.neg t) = true) → r[k]? = some x) ∧
        ((t <. x) = true ∧ (x <. PyNum.neg t) = true → 0 < k → r[k]? = r[k - 1]?) ∧
        ((t <. x) = true ∧ (x <. PyNum.neg t) = true → k = 0 → r[k]? = data[data.length - 1]?) := by
  subst ht
  set t := c2 *. medianAbsDev data *. PyMath.sqrt (lit 2 *. PyMath.log (ofNat data.length))
  set idx := intersect1d (whereTrue (data.map (fun x => t <. x)))
    (whereTrue (data.map (fun x => x <. PyNum.neg t))) with hidx
  have hm : ∀ k x, data[k]? = some x → (k ∈ idx ↔ (t <. x) = true ∧ (x <. PyNum.neg t) = true) := by
    intro k x hx
    rw [hidx, mem_intersect1d, mem_whereTrue_map, mem_whereTrue_map]
    simp [hx]
  obtain ⟨r, h1, h2, h3, h4, h5⟩ := backfill idx data (intersect1d_sorted _ _) (by
    intro i hi
    have := whereTrue_lt (mem_intersect1d.mp hi).1
    simpa using this)
  refine ⟨r, intersect1d (whereTrue (data.map (fun x => (PyNum.neg c1 *. medianAbsDev data) ≤. x)))
    (whereTrue (data.map (fun x => x ≤. (c1 *. medianAbsDev data)))), ?_, h2, fun k x hx => ⟨fun h => ?_, fun h => h4 k ((hm k x hx).mpr h), fun h h0 => ?_⟩⟩
  · unfold premodification
    simp only [bind, Except.bind] at h1 ⊢
    rw [h1]
  · rw [h3 k (fun hk => h ((hm k x hx).mp hk)), hx]
  · subst h0; exact h5 ((hm 0 x hx).mpr h)

/-- **C63** (every float arithmetic) the second output lists, increasingly, exactly the positions with
`-c1*MAD ≤ x ≤ c1*MAD` in float comparisons. -/
theorem C63_general (data : List F) (c1 c2 : F) (r : List F) (u : List Nat)
    (h : premodification data c1 c2 = .ok (r, u)) :
    u.Pairwise (· < ·) ∧ ∀ i, i ∈ u ↔ ∃ x, data[i]? = some x ∧
      ((PyNum.neg c1 *. medianAbsDev data) ≤. x) = true ∧ (x ≤. (c1 *. medianAbsDev data)) = true := by
  unfold premodification at h
  simp only [bind, Except.bind] at h
  split at h
  · cases h
  · simp only [Except.ok.injEq, Prod.mk.injEq] at h
    rw [← h.2]
    refine ⟨intersect1d_sorted _ _, fun i => ?_⟩
    rw [mem_intersect1d, mem_whereTrue_map, mem_whereTrue_map]
    constructor
    · rintro ⟨⟨x, hx, h1⟩, y, hy, h2⟩
      rw [hx] at hy; cases hy
      exact ⟨x, hx, h1, h2⟩
    · rintro ⟨x, hx, h1, h2⟩; exact ⟨⟨x, hx, h1⟩, x, hx, h2⟩

end generic

/-! ## C62: the premodification is a no-op -/

/-- not a negative number (NaN allowed) -/
private def NN (x : Fl ℝ) : Prop := (x <. (fin 0)) = false

private theorem NN_mul {x y : Fl ℝ} (hx : NN x) (hy : NN y) : NN (x *. y) := by
  unfold NN at *
  cases x with
  | fin a =>
    have ha : 0 ≤ a := by simpa using hx
    cases y with
    | fin b =>
      have hb : 0 ≤ b := by simpa using hy
      have := mul_nonneg ha hb
      simpa using this
    | nan => simp
    | pinf =>
      show (infSgn a <. fin 0) = false
      unfold infSgn
      split_ifs with h1 h2
      · rfl
      · rfl
      · exact absurd (lt_of_le_of_ne ha (Ne.symm h1)) h2
    | ninf => simp [PyNum.lt, Fl.lt] at hy
  | nan => simp
  | pinf =>
    cases y with
    | fin b =>
      have hb : 0 ≤ b := by simpa using hy
      show (infSgn b <. fin 0) = false
      unfold infSgn
      split_ifs with h1 h2
      · rfl
      · rfl
      · exact absurd (lt_of_le_of_ne hb (Ne.symm h1)) h2
    | nan => simp
    | pinf => rfl
    | ninf => simp [PyNum.lt, Fl.lt] at hy
  | ninf => simp [PyNum.lt, Fl.lt] at hx

private theorem NN_abs (x : Fl ℝ) : NN (PyNum.abs x) := by
  unfold NN
  cases x with
  | fin a => simp [abs_nonneg]
  | nan => rfl
  | pinf => rfl
  | ninf => rfl

private theorem NN_half {x y : Fl ℝ} (hx : NN x) (hy : NN y) : NN ((x +. y) /. lit 2) := by
  unfold NN at *
  cases x <;> cases y <;>
    simp_all [add_def, Fl.add, div_def, Fl.div, PyNum.lt, Fl.lt]
  positivity

private theorem NN_sqrt (x : Fl ℝ) : NN (PyMath.sqrt x) := by
  unfold NN
  cases x with
  | fin a =>
    by_cases h : a < 0
    · rw [psqrt_neg h]; rfl
    · rw [psqrt_fin (not_lt.mp h)]; simp
  | nan => rfl
  | pinf => rfl
  | ninf => rfl

private theorem NN_median {l : List (Fl ℝ)} (h : ∀ x ∈ l, NN x) : NN (npMedian l) := by
  have hg : ∀ i, NN ((npSort l).getD i PyNum.nan) := by
    intro i
    rw [List.getD_eq_getElem?_getD]
    cases hi : (npSort l)[i]? with
    | none => exact (rfl : ((nan : Fl ℝ) <. fin 0) = false)
    | some x =>
      exact h x ((npSort_perm l).mem_iff.mp (List.mem_of_getElem? hi))
  unfold npMedian
  split_ifs
  · exact (rfl : ((nan : Fl ℝ) <. fin 0) = false)
  · simp only
    split_ifs
    · exact (rfl : ((nan : Fl ℝ) <. fin 0) = false)
    · exact hg _
    · exact NN_half (hg _) (hg _)

/-- **C62** contradicts the documentation: for every array (NaN and infinities included), every `c1` and every
`c2` that is not negative, the data is returned unchanged. -/
theorem C62_noop (data : List (Fl ℝ)) (c1 c2 : Fl ℝ) (hc : (c2 <. lit 0) = false) :
    ∃ u, premodification data c1 c2 = .ok (data, u) := by
  have hc' : NN c2 := by simpa [NN] using hc
  obtain ⟨r, u, h1, h2, h3⟩ := C62_general data c1 c2 _ rfl
  set t := c2 *. medianAbsDev data *. PyMath.sqrt (lit 2 *. PyMath.log (ofNat data.length)) with ht
  have hN : NN t := NN_mul (NN_mul hc' (NN_median (by
    intro x hx
    obtain ⟨y, _, rfl⟩ := List.mem_map.mp hx
    exact NN_abs _))) (NN_sqrt _)
  have hno : ∀ x : Fl ℝ, ¬ ((t <. x) = true ∧ (x <. PyNum.neg t) = true) := by
    intro x
    unfold NN at hN
    clear_value t
    clear h1 h2 h3
    cases t with
    | fin a =>
      have ha : 0 ≤ a := by simpa using hN
      cases x with
      | fin y => simp; intro h; linarith
      | nan => simp
      | pinf => simp [PyNum.lt, Fl.lt]
      | ninf => simp [PyNum.lt, Fl.lt]
    | nan => simp
    | pinf => cases x <;> simp [PyNum.lt, Fl.lt]
    | ninf => simp [PyNum.lt, Fl.lt] at hN
  refine ⟨u, ?_⟩
  have : r = data := by
    apply List.ext_getElem?
    intro k
    cases hk : data[k]? with
    | none =>
      rw [List.getElem?_eq_none_iff] at hk ⊢
      omega
    | some x => exact (h3 k x hk).1 (hno x)
  rw [h1, this]

/-- **C62** documented: a sample beyond the threshold `c2*MAD*sqrt(2 ln n)` takes the value of the preceding sample. -/
def C62_documented : Prop :=
  ∀ (data r : List (Fl ℝ)) (c1 c2 : Fl ℝ) (u : List Nat), premodification data c1 c2 = .ok (r, u) →
    ∀ k x, 0 < k → data[k]? = some x →
      ((c2 *. medianAbsDev data *. PyMath.sqrt (lit 2 *. PyMath.log (ofNat data.length))) <. x) = true →
      r[k]? = r[k - 1]?

/-- **C62** the documented behaviour fails: in `[0, 0, 0, 0, 100]` with the defaults `c1 = 1.5`, `c2 = 1.35` the spike
100 exceeds the threshold (which is 0) and is kept. -/
theorem C62_false : ¬ C62_documented := by
  intro hd
  set data : List (Fl ℝ) := fins [0, 0, 0, 0, 100] with hdata
  obtain ⟨u, hu⟩ := C62_noop data (lit (3 / 2)) (lit (27 / 20)) (by simp; norm_num)
  have hmed : ∀ m : ℝ, npMedian (fins [(0 : ℝ), 0, 0, 0, m]) = fin (midpoint ([(0 : ℝ), 0, 0, 0, m].insertionSort (· ≤ ·))) :=
    fun m => npMedian_fins _ (by simp)
  have hsort : ∀ m : ℝ, 0 ≤ m → [(0 : ℝ), 0, 0, 0, m].insertionSort (· ≤ ·) = [0, 0, 0, 0, m] := by
    intro m hm
    apply List.Pairwise.insertionSort_eq
    simp [hm]
  have h0 : npMedian data = (fin 0 : Fl ℝ) := by
    rw [hdata]
    have := hmed 100
    rw [hsort 100 (by norm_num)] at this
    rw [show npMedian (fins [(0 : ℝ), 0, 0, 0, 100]) = _ from this]
    simp [midpoint]
  have hmad : medianAbsDev data = (fin 0 : Fl ℝ) := by
    unfold medianAbsDev
    rw [h0]
    have e : data.map (fun x => PyNum.abs (x -. fin 0)) = fins [(0 : ℝ), 0, 0, 0, 100] := by
      simp [hdata, fins]
    rw [e]; exact h0
  have := hd data data _ _ u hu 4 (fin 100) (by norm_num) (by simp [hdata]) (by
    rw [hmad]
    have hl : (0 : ℝ) < ((data.length : Nat) : ℝ) := by simp [hdata]
    have hlog : 0 ≤ 2 * Real.log ((data.length : Nat) : ℝ) := by
      have : 1 ≤ ((data.length : Nat) : ℝ) := by norm_num [hdata]
      have := Real.log_nonneg this
      linarith
    rw [ofNat_eq, plog_fin hl]
    simp only [lit_eq, pmul_fin, Rat.cast_ofNat]
    rw [psqrt_fin hlog]
    simp)
  simp [hdata] at this

/-- **C63** exact: for finite data the second output lists exactly the positions with `|x| ≤ c1 * MAD`, where MAD is the
median (middle of any sorted rearrangement) of the absolute deviations from the median. -/
theorem C63_unremovable (xs s d : List ℝ) (hne : xs ≠ []) (c1 : ℝ) (c2 : Fl ℝ)
    (hs : s.Perm xs) (hs' : s.Pairwise (· ≤ ·))
    (hd : d.Perm (xs.map (fun x => |x - midpoint s|))) (hd' : d.Pairwise (· ≤ ·))
    (r : List (Fl ℝ)) (u : List Nat) (h : premodification (fins xs) (fin c1) c2 = .ok (r, u)) :
    u.Pairwise (· < ·) ∧ ∀ i, i ∈ u ↔ ∃ x, xs[i]? = some x ∧ |x| ≤ c1 * midpoint d := by
  have hse : ∀ {s xs : List ℝ}, s.Perm xs → s.Pairwise (· ≤ ·) → xs.insertionSort (· ≤ ·) = s := by
    intro s xs hs hs'
    exact (List.Perm.eq_of_pairwise (fun a b _ _ => le_antisymm) hs' (List.pairwise_insertionSort _ _)
      (hs.trans (List.perm_insertionSort _ _).symm)).symm
  have hmed : npMedian (fins xs) = (fin (midpoint s) : Fl ℝ) := by
    have := npMedian_fins xs hne
    rw [hse hs hs'] at this; exact this
  have hmad : medianAbsDev (fins xs) = (fin (midpoint d) : Fl ℝ) := by
    unfold medianAbsDev
    rw [hmed]
    have e : (fins xs).map (fun x => PyNum.abs (x -. fin (midpoint s))) =
        fins (xs.map (fun x => |x - midpoint s|)) := by simp [fins]
    rw [e]
    have := npMedian_fins (xs.map (fun x => |x - midpoint s|)) (by simpa using hne)
    rw [hse hd hd'] at this; exact this
  obtain ⟨h1, h2⟩ := C63_general _ _ _ _ _ h
  refine ⟨h1, fun i => (h2 i).trans ?_⟩
  rw [hmad]
  constructor
  · rintro ⟨x, hx, h3, h4⟩
    rw [List.getElem?_map, Option.map_eq_some_iff] at hx
    obtain ⟨y, hy, rfl⟩ := hx
    have h3 : -c1 * midpoint d ≤ y := by simpa using h3
    have h4 : y ≤ c1 * midpoint d := by simpa using h4
    exact ⟨y, hy, abs_le.mpr ⟨by linarith, h4⟩⟩
  · rintro ⟨y, hy, h3⟩
    have h5 := abs_le.mp h3
    refine ⟨fin y, by simp [hy], ?_, ?_⟩
    · have : -c1 * midpoint d ≤ y := by linarith [h5.1]
      simpa using this
    · simpa using h5.2

/-- the hypotheses are met: data `[3, 1, 2]`, median 2, deviations `[1, 1, 0]`, MAD 1 -/
example : ([1, 2, 3] : List ℝ).Perm [3, 1, 2] ∧ ([1, 2, 3] : List ℝ).Pairwise (· ≤ ·) ∧ midpoint ([1, 2, 3] : List ℝ) = 2 ∧
    ([0, 1, 1] : List ℝ).Perm (([3, 1, 2] : List ℝ).map (fun x => |x - 2|)) ∧ midpoint ([0, 1, 1] : List ℝ) = 1 := by
  refine ⟨?_, by simp; norm_num, by simp [midpoint], ?_, by simp [midpoint]⟩
  · exact List.perm_append_comm (l₁ := [(1 : ℝ), 2]) (l₂ := [3])
  · have e : ([3, 1, 2] : List ℝ).map (fun x => |x - 2|) = [1, 1, 0] := by norm_num
    rw [e]
    exact ((List.perm_append_comm (l₁ := [(1 : ℝ), 1]) (l₂ := [0]))).symm

end Proadv.Props
