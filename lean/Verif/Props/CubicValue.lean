import Verif.Props.Cubic
import Verif.Spec.SplineWeights
import Mathlib.Data.List.GetD

/-!
# C207–C208: the exact value computed by `cubic_12points_polynomial`
-/

set_option linter.unusedSectionVars false

namespace Proadv.Props

open Proadv Replace Fl Spec

variable {K : Type} [Field K] [LinearOrder K] [IsStrictOrderedRing K] [FloorRing K]

/-- specification: the indices after `i` that are not spikes, in increasing order -/
def laterValid (n : ℕ) (sp : List ℕ) (i : ℕ) : List ℕ := (List.range n).filter (fun k => decide (i < k ∧ k ∉ sp))

/-- specification: the weighted sum of the samples `i-13, …, i-2` (spikes included) and of the 12 nearest non-spikes after `i` -/
def cubicPoint (xs : List K) (sp : List ℕ) (i : ℕ) : K :=
  ∑ k ∈ Finset.range 12, splineWeight k * (xs.getD (i - 13 + k) 0 + xs.getD ((laterValid xs.length sp i).getD (11 - k) 0) 0)

theorem laterValid_mem {n : ℕ} {sp : List ℕ} {i j : ℕ} : j ∈ laterValid n sp i ↔ j < n ∧ i < j ∧ j ∉ sp := by
  simp [laterValid]

theorem laterValid_last {n : ℕ} {sp : List ℕ} {i : ℕ} (hi : i < n) (h : ∀ j ∈ sp, j ≤ i) :
    laterValid n sp i = List.range' (i + 1) (n - (i + 1)) := by
  unfold laterValid
  have hr : List.range n = List.range (i + 1) ++ List.range' (i + 1) (n - (i + 1)) := by
    rw [List.range_eq_range', List.range_eq_range']
    have := List.range'_append (s := 0) (m := i + 1) (n := n - (i + 1)) (step := 1)
    simp only [one_mul, zero_add] at this
    rw [this]
    congr 1; omega
  rw [hr, List.filter_append]
  have he : (List.range (i + 1)).filter (fun k => decide (i < k ∧ k ∉ sp)) = [] := by
    rw [List.filter_eq_nil_iff]
    intro k hk
    have := List.mem_range.mp hk
    simp; omega
  have hf : (List.range' (i + 1) (n - (i + 1))).filter (fun k => decide (i < k ∧ k ∉ sp)) =
      List.range' (i + 1) (n - (i + 1)) := by
    rw [List.filter_eq_self]
    intro k hk
    rw [List.mem_range'_1] at hk
    simp only [decide_eq_true_eq]
    exact ⟨by omega, fun hs => by have := h k hs; omega⟩
  rw [he, List.nil_append, hf]

private theorem validAfter_fin (xs : List K) (sp : List ℕ) (i : ℕ) :
    validAfter (xs.map fin : List (Fl K)) sp i = ((laterValid xs.length sp i).map (fun k => xs.getD k 0)).map fin := by
  unfold validAfter
  rw [List.length_map, List.map_map]
  apply List.map_congr_left
  intro k hk
  have hk' := (laterValid_mem.mp hk).1
  simp [List.getD_eq_getElem?_getD, hk']

/-- the value computed for an interior spike -/
private theorem interior_value (interp : List (Fl K) → List (Fl K) → Fl K → Py (Fl K)) (hI : IsCubicInterp interp) (xs : List K)
    (sp : List ℕ) (i : ℕ) (h1 : 30 < i) (h2 : i + 30 < xs.length) (h12 : 12 ≤ (laterValid xs.length sp i).length) :
    cubicValue interp (xs.map fin) sp i = .ok (fin (cubicPoint xs sp i)) := by
  set R := (laterValid xs.length sp i).map (fun k => xs.getD k 0) with hR
  set ys : List K := (xs.drop (i - 13)).take 12 ++ R.take 12 with hys
  have hlR : 12 ≤ R.length := by simpa [hR] using h12
  have hlen : ys.length = 24 := by simp [hys]; omega
  obtain ⟨z, hz1, b, c, d, hsp, hz2⟩ := hI ys hlen
  rw [spline_weights hsp] at hz2
  have hz : z = cubicPoint xs sp i := by
    rw [hz2]
    unfold cubicPoint
    apply Finset.sum_congr rfl
    intro k hk
    have hk' := Finset.mem_range.mp hk
    have hl12 : ((xs.drop (i - 13)).take 12).length = 12 := by simp; omega
    have e1 : ys.getD k 0 = xs.getD (i - 13 + k) 0 := by
      rw [List.getD_eq_getElem?_getD, List.getD_eq_getElem?_getD, hys,
        List.getElem?_append_left (by omega), List.getElem?_take, if_pos hk', List.getElem?_drop]
    have e2 : ys.getD (23 - k) 0 = xs.getD ((laterValid xs.length sp i).getD (11 - k) 0) 0 := by
      have hb : 11 - k < (laterValid xs.length sp i).length := by omega
      rw [List.getD_eq_getElem?_getD, hys, List.getElem?_append_right (by omega), hl12,
        show 23 - k - 12 = 11 - k by omega, List.getElem?_take, if_pos (by omega), hR, List.getElem?_map,
        List.getElem?_eq_getElem hb, List.getD_eq_getElem _ _ hb]
      rfl
    simp only [e1, e2]
  unfold cubicValue
  rw [List.length_map, if_neg (by omega), validAfter_fin, if_neg (by rw [List.length_map, List.length_map]; omega), ← hz, ← hz1, cubicX_eq]
  congr 1
  rw [hys, List.map_append, List.map_take, List.map_drop, List.map_take]

/-- **C207** what the routine returns is determined: at 13 the not-a-knot spline through any 24 ordinates is the weighted sum with
the fixed weights `splineWeight`. -/
theorem C207_interp (interp : List (Fl K) → List (Fl K) → Fl K → Py (Fl K)) (hI : IsCubicInterp interp) (ys : List K)
    (hlen : ys.length = 24) :
    interp nodePlaces (ys.map fin) (lit 13) =
      .ok (fin (∑ k ∈ Finset.range 12, splineWeight k * (ys.getD k 0 + ys.getD (23 - k) 0))) := by
  obtain ⟨z, hz1, b, c, d, hsp, hz2⟩ := hI ys hlen
  rw [hz1, hz2, spline_weights hsp]

/-- **C207** exactly when the call succeeds (finite float data, strictly increasing in-range spikes, a correct spline routine):
every spike within 30 samples of an end has at least one non-spike after it, every other spike at least twelve. -/
theorem C207_success (interp : List (Fl K) → List (Fl K) → Fl K → Py (Fl K)) (hI : IsCubicInterp interp) (xs : List K)
    (sp : List ℕ) (hs : sp.Pairwise (· < ·)) (hin : ∀ i ∈ sp, i < xs.length) (decimals : Int) :
    (∃ out, cubic12 interp ⟨1, false, xs.map fin⟩ (sp.map (fun i : Nat => (i : Int))) decimals = .ok out) ↔
      ∀ i ∈ sp, (if i ≤ 30 ∨ xs.length ≤ i + 30 then 1 else 12) ≤ (laterValid xs.length sp i).length := by
  obtain ⟨c1, c2⟩ := C56_char (F := Fl K) rfl interp (xs.map fin) (by simp) sp hs (by simpa using hin) decimals
  constructor
  · rintro ⟨out, h⟩ i hi
    cases hm : sp.mapM (cubicValue interp (xs.map fin) sp) with
    | error e => rw [c1 e hm] at h; cases h
    | ok zs =>
      obtain ⟨x, hx⟩ := mapM_mem_ok hm i hi
      unfold cubicValue at hx
      rw [validAfter_fin, List.length_map] at hx
      by_cases hc : i ≤ 30 ∨ xs.length ≤ i + 30
      · rw [if_pos hc]
        rw [if_pos hc] at hx
        by_contra h0
        have : laterValid xs.length sp i = [] := List.length_eq_zero_iff.mp (by omega)
        rw [this] at hx
        split at hx
        · rename_i h2; simp at h2
        · cases hx
      · rw [if_neg hc]
        rw [if_neg hc] at hx
        by_contra h0
        rw [if_pos (by simp only [List.length_map]; omega)] at hx
        cases hx
  · intro h
    have hok : ∀ i ∈ sp, ∃ x, cubicValue interp (xs.map fin) sp i = .ok x := by
      intro i hi
      have hl := h i hi
      have hil := hin i hi
      by_cases hc : i ≤ 30 ∨ xs.length ≤ i + 30
      · rw [if_pos hc] at hl
        unfold cubicValue
        rw [validAfter_fin, List.length_map, if_pos hc]
        have hp : ∃ p, (if i = 0 then (xs.map (fin : K → Fl K))[xs.length - 1]? else (xs.map (fin : K → Fl K))[i - 1]?) = some p := by
          split_ifs
          · exact ⟨_, List.getElem?_eq_getElem (by simp; omega)⟩
          · exact ⟨_, List.getElem?_eq_getElem (by simp; omega)⟩
        obtain ⟨p, hp⟩ := hp
        rw [hp, List.getElem?_eq_getElem (by simp only [List.length_map]; omega)]
        exact ⟨_, rfl⟩
      · rw [if_neg hc] at hl
        exact ⟨_, interior_value interp hI xs sp i (by omega) (by omega) hl⟩
    have : ∃ zs, sp.mapM (cubicValue interp (xs.map fin) sp) = .ok zs := by
      have key : ∀ l : List ℕ, (∀ i ∈ l, ∃ x, cubicValue interp (xs.map fin) sp i = .ok x) →
          ∃ zs, l.mapM (cubicValue interp (xs.map fin) sp) = .ok zs := by
        intro l
        induction l with
        | nil => intro _; exact ⟨[], rfl⟩
        | cons a t ih =>
          intro hl
          obtain ⟨x, hx⟩ := hl a (by simp)
          obtain ⟨zs, hz⟩ := ih (fun i hi => hl i (by simp [hi]))
          exact ⟨x :: zs, by rw [List.mapM_cons, hx, hz]; rfl⟩
      exact key sp hok
    obtain ⟨zs, hz⟩ := this
    obtain ⟨out, o, -⟩ := c2 zs hz
    exact ⟨out, o⟩

/-- **C207** the value of an interior spike in a successful call is `cubicPoint`, rounded: a fixed weighted sum of the twelve
raw samples `i-13, …, i-2` — whether or not they are spikes — and of the twelve nearest non-spikes after `i`. -/
theorem C207_value (interp : List (Fl K) → List (Fl K) → Fl K → Py (Fl K)) (hI : IsCubicInterp interp) (xs : List K)
    (sp : List ℕ) (hs : sp.Pairwise (· < ·)) (hin : ∀ i ∈ sp, i < xs.length) (decimals : Int) (out : List (Fl K))
    (h : cubic12 interp ⟨1, false, xs.map fin⟩ (sp.map (fun i : Nat => (i : Int))) decimals = .ok out)
    (i : ℕ) (hi : i ∈ sp) (h1 : 30 < i) (h2 : i + 30 < xs.length) :
    out[i]? = some (fin (aroundK (cubicPoint xs sp i) decimals)) := by
  have h12 := (C207_success interp hI xs sp hs hin decimals).mp ⟨out, h⟩ i hi
  rw [if_neg (by omega)] at h12
  obtain ⟨c1, c2⟩ := C56_char (F := Fl K) rfl interp (xs.map fin) (by simp) sp hs (by simpa using hin) decimals
  cases hm : sp.mapM (cubicValue interp (xs.map fin) sp) with
  | error e => rw [c1 e hm] at h; cases h
  | ok zs =>
    obtain ⟨out', o1, o2⟩ := c2 zs hm
    rw [o1] at h
    cases h
    obtain ⟨x, hx, ho⟩ := o2 i hi
    rw [interior_value interp hI xs sp i h1 h2 h12] at hx
    cases hx
    rw [ho, paround_fin]

/-! ## consequences -/

theorem laterValid_length (n : ℕ) (sp : List ℕ) (i : ℕ) : n - (i + 1) ≤ (laterValid n sp i).length + sp.length := by
  have hnd : (laterValid n sp i).Nodup := List.Nodup.filter _ List.nodup_range
  have he : (laterValid n sp i).toFinset = Finset.Ico (i + 1) n \ sp.toFinset := by
    ext j
    simp only [List.mem_toFinset, laterValid_mem, Finset.mem_sdiff, Finset.mem_Ico]
    constructor
    · rintro ⟨a, b, c⟩; exact ⟨⟨b, a⟩, c⟩
    · rintro ⟨⟨b, a⟩, c⟩; exact ⟨a, b, c⟩
  rw [← List.toFinset_card_of_nodup hnd, he]
  have h1 := Finset.le_card_sdiff sp.toFinset (Finset.Ico (i + 1) n)
  have h2 := List.toFinset_card_le sp
  rw [Nat.card_Ico] at h1
  omega

/-- **C207** in particular at most 18 spikes always leave enough samples for the spikes away from the ends: then the call succeeds
if the last sample is not a spike. -/
theorem C207_few (interp : List (Fl K) → List (Fl K) → Fl K → Py (Fl K)) (hI : IsCubicInterp interp) (xs : List K)
    (sp : List ℕ) (hs : sp.Pairwise (· < ·)) (hin : ∀ i ∈ sp, i < xs.length) (hfew : sp.length ≤ 18)
    (hlast : xs.length - 1 ∉ sp) (decimals : Int) :
    ∃ out, cubic12 interp ⟨1, false, xs.map fin⟩ (sp.map (fun i : Nat => (i : Int))) decimals = .ok out := by
  rw [C207_success interp hI xs sp hs hin decimals]
  intro i hi
  have hil := hin i hi
  have := laterValid_length xs.length sp i
  split_ifs with hc
  · have hne : i ≠ xs.length - 1 := fun h => hlast (h ▸ hi)
    have : xs.length - 1 ∈ laterValid xs.length sp i := laterValid_mem.mpr ⟨by omega, by omega, hlast⟩
    exact List.length_pos_of_mem this
  · omega

private theorem range'_getD (a n j : ℕ) (h : j < n) : (List.range' a n).getD j 0 = a + j := by
  rw [List.getD_eq_getElem _ _ (by simpa using h), List.getElem_range']
  omega

/-- **C208** an earlier spike leaks: the samples two to thirteen places before a spike are used raw, so a spike of height `h` two
places earlier (all other samples 0) puts `872783/1169983 * h`, about three quarters of it, in place of the later spike. -/
theorem C208_leak (interp : List (Fl K) → List (Fl K) → Fl K → Py (Fl K)) (hI : IsCubicInterp interp) (xs : List K) (i : ℕ)
    (h1 : 30 < i) (h2 : i + 30 < xs.length) (h : K) (hh : xs.getD (i - 2) 0 = h)
    (h0 : ∀ j, j ≠ i → j ≠ i - 2 → xs.getD j 0 = 0) (decimals : Int) :
    ∃ out, cubic12 interp ⟨1, false, xs.map fin⟩ [((i - 2 : ℕ) : Int), (i : Int)] decimals = .ok out ∧
      out[i]? = some (fin (aroundK (872783 / 1169983 * h) decimals)) := by
  have hs : [i - 2, i].Pairwise (· < ·) := by simp; omega
  have hin : ∀ j ∈ [i - 2, i], j < xs.length := by simp; omega
  obtain ⟨out, ho⟩ := C207_few interp hI xs [i - 2, i] hs hin (by simp) (by simp; omega) decimals
  refine ⟨out, ho, ?_⟩
  rw [C207_value interp hI xs [i - 2, i] hs hin decimals out ho i (by simp) h1 h2]
  have hl := laterValid_last (sp := [i - 2, i]) (by omega : i < xs.length) (by simp)
  congr 3
  unfold cubicPoint
  rw [hl]
  have hr : ∀ k, k < 12 → xs.getD ((List.range' (i + 1) (xs.length - (i + 1))).getD (11 - k) 0) 0 = 0 := by
    intro k hk
    rw [range'_getD _ _ _ (by omega)]
    exact h0 _ (by omega) (by omega)
  have hlft : ∀ k, k < 11 → xs.getD (i - 13 + k) 0 = 0 := fun k hk => h0 _ (by omega) (by omega)
  rw [Finset.sum_range_succ, Finset.sum_eq_zero (fun k hk => by
    have := Finset.mem_range.mp hk
    rw [hr k (by omega), hlft k this]; ring), hr 11 (by omega), show i - 13 + 11 = i - 2 by omega, hh]
  simp only [splineWeight, splineNum]
  norm_num

/-- **C208** the value can leave the range of the samples it is computed from, but only so far: if they lie in `[lo, hi]`, it lies
within `786259/1169983` (about 0.672) of the width `hi - lo` outside that interval. -/
theorem C208_range (interp : List (Fl K) → List (Fl K) → Fl K → Py (Fl K)) (hI : IsCubicInterp interp) (xs : List K)
    (sp : List ℕ) (hs : sp.Pairwise (· < ·)) (hin : ∀ i ∈ sp, i < xs.length) (decimals : Int) (out : List (Fl K))
    (h : cubic12 interp ⟨1, false, xs.map fin⟩ (sp.map (fun i : Nat => (i : Int))) decimals = .ok out)
    (i : ℕ) (hi : i ∈ sp) (h1 : 30 < i) (h2 : i + 30 < xs.length) (lo hi' : K)
    (hb : ∀ j, j < xs.length → (i < j ∧ j ∉ sp) ∨ (i - 13 ≤ j ∧ j ≤ i - 2) → lo ≤ xs.getD j 0 ∧ xs.getD j 0 ≤ hi') :
    ∃ z, out[i]? = some (fin (aroundK z decimals)) ∧ lo - 786259 / 1169983 * (hi' - lo) ≤ z ∧
      z ≤ hi' + 786259 / 1169983 * (hi' - lo) := by
  refine ⟨_, C207_value interp hI xs sp hs hin decimals out h i hi h1 h2, ?_⟩
  have h12 := (C207_success interp hI xs sp hs hin decimals).mp ⟨out, h⟩ i hi
  rw [if_neg (by omega)] at h12
  have hl : ∀ k, k < 12 → lo ≤ xs.getD (i - 13 + k) 0 ∧ xs.getD (i - 13 + k) 0 ≤ hi' :=
    fun k hk => hb _ (by omega) (Or.inr ⟨by omega, by omega⟩)
  have hr : ∀ k, k < 12 → lo ≤ xs.getD ((laterValid xs.length sp i).getD (11 - k) 0) 0 ∧
      xs.getD ((laterValid xs.length sp i).getD (11 - k) 0) 0 ≤ hi' := by
    intro k hk
    have hlt : 11 - k < (laterValid xs.length sp i).length := by omega
    rw [List.getD_eq_getElem _ _ hlt]
    obtain ⟨a, b⟩ := laterValid_mem.mp (List.getElem_mem hlt)
    exact hb _ a (Or.inl b)
  unfold cubicPoint
  generalize laterValid xs.length sp i = L at hr
  simp only [Finset.sum_range_succ, Finset.sum_range_zero, splineWeight, splineNum]
  have l0 := hl 0 (by omega)
  have l1 := hl 1 (by omega)
  have l2 := hl 2 (by omega)
  have l3 := hl 3 (by omega)
  have l4 := hl 4 (by omega)
  have l5 := hl 5 (by omega)
  have l6 := hl 6 (by omega)
  have l7 := hl 7 (by omega)
  have l8 := hl 8 (by omega)
  have l9 := hl 9 (by omega)
  have l10 := hl 10 (by omega)
  have l11 := hl 11 (by omega)
  have r0 := hr 0 (by omega)
  have r1 := hr 1 (by omega)
  have r2 := hr 2 (by omega)
  have r3 := hr 3 (by omega)
  have r4 := hr 4 (by omega)
  have r5 := hr 5 (by omega)
  have r6 := hr 6 (by omega)
  have r7 := hr 7 (by omega)
  have r8 := hr 8 (by omega)
  have r9 := hr 9 (by omega)
  have r10 := hr 10 (by omega)
  have r11 := hr 11 (by omega)
  generalize xs.getD (i - 13 + 0) 0 = a0 at *
  generalize xs.getD (i - 13 + 1) 0 = a1 at *
  generalize xs.getD (i - 13 + 2) 0 = a2 at *
  generalize xs.getD (i - 13 + 3) 0 = a3 at *
  generalize xs.getD (i - 13 + 4) 0 = a4 at *
  generalize xs.getD (i - 13 + 5) 0 = a5 at *
  generalize xs.getD (i - 13 + 6) 0 = a6 at *
  generalize xs.getD (i - 13 + 7) 0 = a7 at *
  generalize xs.getD (i - 13 + 8) 0 = a8 at *
  generalize xs.getD (i - 13 + 9) 0 = a9 at *
  generalize xs.getD (i - 13 + 10) 0 = a10 at *
  generalize xs.getD (i - 13 + 11) 0 = a11 at *
  generalize xs.getD (L.getD (11 - 0) 0) 0 = b0 at *
  generalize xs.getD (L.getD (11 - 1) 0) 0 = b1 at *
  generalize xs.getD (L.getD (11 - 2) 0) 0 = b2 at *
  generalize xs.getD (L.getD (11 - 3) 0) 0 = b3 at *
  generalize xs.getD (L.getD (11 - 4) 0) 0 = b4 at *
  generalize xs.getD (L.getD (11 - 5) 0) 0 = b5 at *
  generalize xs.getD (L.getD (11 - 6) 0) 0 = b6 at *
  generalize xs.getD (L.getD (11 - 7) 0) 0 = b7 at *
  generalize xs.getD (L.getD (11 - 8) 0) 0 = b8 at *
  generalize xs.getD (L.getD (11 - 9) 0) 0 = b9 at *
  generalize xs.getD (L.getD (11 - 10) 0) 0 = b10 at *
  generalize xs.getD (L.getD (11 - 11) 0) 0 = b11 at *
  clear hl hr hb h12 h
  push_cast
  constructor <;> linarith

/-- **C208** the bound is attained: samples 0 and 1 only, and the spike is replaced by 1.6720. -/
theorem C208_overshoot : ∃ (xs : List ℚ) (i : ℕ), (∀ x ∈ xs, x = 0 ∨ x = 1) ∧ 30 < i ∧ i + 30 < xs.length ∧
    cubicPoint xs [i] i = 1 + 786259 / 1169983 ∧
    ∀ interp, IsCubicInterp interp → ∃ out, cubic12 interp ⟨1, false, xs.map fin⟩ [(i : Int)] 4 = .ok out ∧
      out[i]? = some (fin (16720 / 10000)) := by
  set xs : List ℚ := (List.range 70).map (fun j => if (j ≤ 35 ∧ j % 2 = 1) ∨ (35 < j ∧ j % 2 = 0) then 1 else 0) with hxs
  have hv : cubicPoint xs [35] 35 = 1 + 786259 / 1169983 := by rw [hxs]; decide +kernel
  refine ⟨xs, 35, ?_, by omega, by simp [hxs], hv, fun interp hI => ?_⟩
  · intro x hx
    obtain ⟨j, -, rfl⟩ := List.mem_map.mp hx
    split_ifs <;> simp
  · have hs : [35].Pairwise (· < ·) := by simp
    have hin : ∀ i ∈ [35], i < xs.length := by simp [hxs]
    obtain ⟨out, ho⟩ := C207_few interp hI xs [35] hs hin (by simp) (by simp [hxs]) 4
    refine ⟨out, ho, ?_⟩
    rw [C207_value interp hI xs [35] hs hin 4 out ho 35 (by simp) (by omega) (by simp [hxs]), hv]
    congr 2
    decide +kernel

/-- **C208** samples on a parabola `α + β j + γ j²`, one interior spike: besides the half-step shift of the straight line the
curvature adds a constant, `γ (i² - i + 2602053/2339966)`. -/
theorem C208_parabola (interp : List (Fl K) → List (Fl K) → Fl K → Py (Fl K)) (hI : IsCubicInterp interp) (xs : List K)
    (i : Nat) (h1 : 30 < i) (h2 : i + 30 < xs.length) (alpha beta gamma : K)
    (hpar : ∀ j, j < xs.length → j ≠ i → xs.getD j 0 = alpha + beta * j + gamma * j ^ 2) (decimals : Int) :
    ∃ out, cubic12 interp ⟨1, false, xs.map fin⟩ [(i : Int)] decimals = .ok out ∧
      out[i]? = some (fin (aroundK (alpha + beta * ((i : K) - 1 / 2) + gamma * ((i : K) ^ 2 - i + 2602053 / 2339966)) decimals)) := by
  have hs : [i].Pairwise (· < ·) := by simp
  have hin : ∀ j ∈ [i], j < xs.length := by simp; omega
  obtain ⟨out, ho⟩ := C207_few interp hI xs [i] hs hin (by simp) (by simp; omega) decimals
  refine ⟨out, ho, ?_⟩
  rw [C207_value interp hI xs [i] hs hin decimals out ho i (by simp) h1 h2]
  have hl := laterValid_last (sp := [i]) (by omega : i < xs.length) (by simp)
  congr 3
  unfold cubicPoint
  rw [hl]
  obtain ⟨m, rfl⟩ : ∃ m, i = m + 13 := ⟨i - 13, by omega⟩
  have hr : ∀ k, k < 12 → xs.getD ((List.range' (m + 13 + 1) (xs.length - (m + 13 + 1))).getD (11 - k) 0) 0 =
      alpha + beta * ((m : K) + 25 - k) + gamma * ((m : K) + 25 - k) ^ 2 := by
    intro k hk
    rw [range'_getD _ _ _ (by omega), hpar _ (by omega) (by omega), show m + 13 + 1 + (11 - k) = m + 25 - k by omega]
    push_cast [Nat.cast_sub (by omega : k ≤ m + 25)]
    ring
  have hlft : ∀ k, k < 12 → xs.getD (m + 13 - 13 + k) 0 = alpha + beta * ((m : K) + k) + gamma * ((m : K) + k) ^ 2 := by
    intro k hk
    rw [Nat.add_sub_cancel, hpar _ (by omega) (by omega)]
    push_cast
    ring
  rw [Finset.sum_congr rfl (fun k hk => by
    have := Finset.mem_range.mp hk
    rw [hr k this, hlft k this])]
  simp only [Finset.sum_range_succ, Finset.sum_range_zero, splineWeight, splineNum]
  push_cast
  ring

/-- the twelve weights: positive and negative in turn, and (counted twice) of sum 1 -/
example : (∑ k ∈ Finset.range 12, (splineWeight k + splineWeight k : ℚ)) = 1 ∧ (splineWeight 11 : ℚ) = 872783 / 1169983 ∧
    (splineWeight 10 : ℚ) < 0 := by decide +kernel

/-- a concrete recording meets the hypotheses: 70 samples, spikes 33 and 35 -/
example : ∃ interp : List (Fl ℚ) → List (Fl ℚ) → Fl ℚ → Py (Fl ℚ), IsCubicInterp interp ∧
    (laterValid 70 [33, 35] 33).length = 35 ∧ (laterValid 70 [33, 35] 35).take 12 = List.range' 36 12 := by
  obtain ⟨f, hf⟩ := isCubicInterp_exists (K := ℚ)
  exact ⟨f, hf, by decide +kernel, by decide +kernel⟩

end Proadv.Props
