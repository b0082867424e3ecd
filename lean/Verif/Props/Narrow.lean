import Verif.Model.Narrow
import Verif.Props.MovingAverage
import Verif.Props.Acceleration
import Mathlib.Data.Int.ModEq

/-!
# C225, C226: recordings stored in fixed-width integers
-/

set_option linter.unusedSectionVars false

namespace Proadv.Props

open Proadv Fl

/-- specification: the numbers an integer type represents -/
def Represents (t : Narrow.IntType) (z : ℤ) : Prop :=
  if t.signed then -2 ^ (t.bits - 1) ≤ z ∧ z < 2 ^ (t.bits - 1) else 0 ≤ z ∧ z < 2 ^ t.bits

/-- what wraps around is represented by the type and congruent to the exact value -/
theorem wrap_spec (t : Narrow.IntType) (hb : 1 ≤ t.bits) (z : ℤ) : Represents t (t.wrap z) ∧ t.wrap z ≡ z [ZMOD 2 ^ t.bits] := by
  obtain ⟨b, s⟩ := t
  have hp : (2 : ℤ) ^ b = 2 * 2 ^ (b - 1) := by
    obtain ⟨k, rfl⟩ : ∃ k, b = k + 1 := ⟨b - 1, by simp only at hb; omega⟩
    rw [Nat.add_sub_cancel, pow_succ]; ring
  have h0 : (0 : ℤ) < 2 ^ b := by positivity
  cases s
  · simp only [Represents, Narrow.IntType.wrap, if_neg Bool.false_ne_true]
    exact ⟨⟨Int.emod_nonneg _ h0.ne', Int.emod_lt_of_pos _ h0⟩, Int.mod_modEq _ _⟩
  · simp only [Represents, Narrow.IntType.wrap, if_true]
    have h1 := Int.emod_nonneg (z + 2 ^ (b - 1)) h0.ne'
    have h2 := Int.emod_lt_of_pos (z + 2 ^ (b - 1)) h0
    refine ⟨⟨by omega, by omega⟩, ?_⟩
    have := (Int.mod_modEq (z + 2 ^ (b - 1)) (2 ^ b)).sub_right (2 ^ (b - 1))
    simpa using this

/-- and there is only one such number -/
theorem represents_unique (t : Narrow.IntType) (hb : 1 ≤ t.bits) (y z : ℤ) (hy : Represents t y) (hz : Represents t z)
    (h : y ≡ z [ZMOD 2 ^ t.bits]) : y = z := by
  obtain ⟨b, s⟩ := t
  have hp : (2 : ℤ) ^ b = 2 * 2 ^ (b - 1) := by
    obtain ⟨k, rfl⟩ : ∃ k, b = k + 1 := ⟨b - 1, by simp only at hb; omega⟩
    rw [Nat.add_sub_cancel, pow_succ]; ring
  have h0 : (0 : ℤ) < 2 ^ b := by positivity
  have hd := h.symm.dvd
  have : |y - z| < 2 ^ b := by
    cases s
    · simp only [Represents, if_neg Bool.false_ne_true] at hy hz
      rw [abs_lt]; omega
    · simp only [Represents, if_true] at hy hz
      rw [abs_lt]; omega
  have := Int.eq_zero_of_abs_lt_dvd hd this
  omega

theorem wrap_id (t : Narrow.IntType) (hb : 1 ≤ t.bits) (z : ℤ) (h : Represents t z) : t.wrap z = z :=
  represents_unique t hb _ _ (wrap_spec t hb z).1 h (wrap_spec t hb z).2

theorem wrap_unsigned (b : ℕ) (hb : 1 ≤ b) (x y : ℤ) (hx : Represents ⟨b, false⟩ x) (hy : Represents ⟨b, false⟩ y) :
    Narrow.IntType.wrap ⟨b, false⟩ (x - y) = x - y + if x < y then 2 ^ b else 0 := by
  simp only [Represents, if_neg Bool.false_ne_true] at hx hy
  refine represents_unique ⟨b, false⟩ hb _ _ (wrap_spec ⟨b, false⟩ hb _).1 ?_ ((wrap_spec ⟨b, false⟩ hb _).2.trans ?_)
  · simp only [Represents, if_neg Bool.false_ne_true]
    split_ifs <;> omega
  · split_ifs
    · exact (Int.modEq_iff_dvd.mpr ⟨1, by simp⟩)
    · simp

theorem wrap_signed (b : ℕ) (hb : 1 ≤ b) (x y : ℤ) (hx : Represents ⟨b, true⟩ x) (hy : Represents ⟨b, true⟩ y) :
    Narrow.IntType.wrap ⟨b, true⟩ (x - y) =
      x - y + (if x - y < -2 ^ (b - 1) then 2 ^ b else 0) - (if 2 ^ (b - 1) ≤ x - y then 2 ^ b else 0) := by
  have hp : (2 : ℤ) ^ b = 2 * 2 ^ (b - 1) := by
    obtain ⟨k, rfl⟩ : ∃ k, b = k + 1 := ⟨b - 1, by omega⟩
    rw [Nat.add_sub_cancel, pow_succ]; ring
  have h0 : (0 : ℤ) < 2 ^ (b - 1) := by positivity
  simp only [Represents, if_true] at hx hy
  refine represents_unique ⟨b, true⟩ hb _ _ (wrap_spec ⟨b, true⟩ hb _).1 ?_ ((wrap_spec ⟨b, true⟩ hb _).2.trans ?_)
  · simp only [Represents, if_true]
    split_ifs <;> omega
  · split_ifs
    · omega
    · exact (Int.modEq_iff_dvd.mpr ⟨1, by simp⟩)
    · exact (Int.modEq_iff_dvd.mpr ⟨-1, by simp⟩)
    · simp

/-! ## C225: `moving_average` -/

section MA
variable {K : Type} [Field K] [LinearOrder K] [IsStrictOrderedRing K] [FloorRing K]

/-- the samples as numbers -/
abbrev toK (K : Type) [Field K] (xs : List ℤ) : List K := xs.map (fun z : ℤ => (z : K))

/-- accumulated effect of the wrapped differences -/
private def excess (t : Narrow.IntType) (xs : List ℤ) (w i : ℕ) : ℤ :=
  ∑ j ∈ (Finset.range (i + 1)).filter (w ≤ ·), (t.wrap (xs.getD j 0 - xs.getD (j - w) 0) - (xs.getD j 0 - xs.getD (j - w) 0))

private theorem ma_general (t : Narrow.IntType) (xs : List ℤ) (w : ℕ) (hw : 1 ≤ w) (hwn : w ≤ xs.length)
    (hs : ∀ i < w, Narrow.npSum t (xs.take (i + 1)) = (xs.take (i + 1)).sum) :
    Narrow.movingAverage t xs (w : ℤ) =
      .ok ((List.range xs.length).map (fun i => (fin (trailingMean (toK K xs) w i + (excess t xs w i : K) / w) : Fl K))) := by
  have hw0 : (w : K) ≠ 0 := by exact_mod_cast (by omega : w ≠ 0)
  unfold Narrow.movingAverage
  simp only [Int.toNat_natCast]
  rw [if_neg (by omega), if_neg (by omega), if_neg (by omega)]
  have hsum : ∀ l : List ℤ, (toK K l).sum = ((l.sum : ℤ) : K) := by
    intro l; induction l with
    | nil => simp [toK]
    | cons a l ih => simp only [toK, List.map_cons, List.sum_cons] at ih ⊢; rw [ih]; push_cast; rfl
  have h1 : (List.range w).map (fun i => (Narrow.mean t (xs.take (i + 1)) : Fl K)) =
      (List.range w).map (fun i => (fin (trailingMean (toK K xs) w i + (excess t xs w i : K) / w) : Fl K)) := by
    apply List.map_congr_left
    intro i hi
    have hi := List.mem_range.mp hi
    have he : excess t xs w i = 0 := by
      unfold excess
      apply Finset.sum_eq_zero
      intro j hj
      simp only [Finset.mem_filter, Finset.mem_range] at hj
      omega
    unfold Narrow.mean trailingMean
    rw [hs i hi, he, lit_eq, ofNat_eq, List.length_take, Nat.min_eq_left (by omega), show i + 1 - w = 0 by omega, List.drop_zero,
      Nat.min_eq_left (by omega), pdiv_fin (by exact_mod_cast (by omega : i + 1 ≠ 0)), show (toK K xs).take (i + 1) = toK K (xs.take (i + 1)) from List.map_take.symm, hsum]
    rw [Rat.cast_intCast, Int.cast_zero, zero_div, add_zero]
  rw [h1]
  congr 1
  have key : ∀ m, m ≤ xs.length - w →
      (List.range m).foldl (fun ma k => Narrow.maStep t xs w ma (w + k))
        ((List.range w).map (fun i => (fin (trailingMean (toK K xs) w i + (excess t xs w i : K) / w) : Fl K))) =
      (List.range (w + m)).map (fun i => (fin (trailingMean (toK K xs) w i + (excess t xs w i : K) / w) : Fl K)) := by
    intro m
    induction m with
    | zero => intro _; rfl
    | succ m ih =>
      intro hm
      rw [List.range_succ, List.foldl_append, ih (by omega)]
      simp only [List.foldl_cons, List.foldl_nil, Narrow.maStep]
      rw [show w + (m + 1) = w + m + 1 by omega, List.range_succ, List.map_append]
      congr 1
      simp only [List.map_cons, List.map_nil, List.cons.injEq, and_true]
      have g1 : ((List.range (w + m)).map (fun i => (fin (trailingMean (toK K xs) w i + (excess t xs w i : K) / w) : Fl K))).getD
          (w + m - 1) nan = fin (trailingMean (toK K xs) w (w + m - 1) + (excess t xs w (w + m - 1) : K) / w) := by
        rw [List.getD, List.getElem?_map, List.getElem?_range (by omega)]; rfl
      rw [pynan, g1, lit_eq, ofNat_eq, pdiv_fin hw0, padd_fin]
      congr 1
      have g2 : ∀ j, j < xs.length → (toK K xs).getD j 0 = ((xs.getD j 0 : ℤ) : K) := by
        intro j hj; simp [toK, List.getD, hj]
      have he : excess t xs w (w + m) = excess t xs w (w + m - 1) +
          (t.wrap (xs.getD (w + m) 0 - xs.getD (w + m - w) 0) - (xs.getD (w + m) 0 - xs.getD (w + m - w) 0)) := by
        unfold excess
        rw [show w + m - 1 + 1 = w + m by omega, Finset.range_add_one, Finset.filter_insert, if_pos (by omega),
          Finset.sum_insert (by simp), add_comm]
      rw [trailing_step (toK K xs) w (w + m) (by omega) (by omega) (by simp; omega), he, g2 _ (by omega), g2 _ (by omega)]
      push_cast
      field_simp
      ring
  rw [key _ le_rfl]
  congr 2
  omega

private theorem npSum_fits (t : Narrow.IntType) (hb : 1 ≤ t.bits) (xs : List ℤ) (hx : ∀ x ∈ xs, Represents t x) (w : ℕ)
    (h64 : 2 ^ t.bits * w ≤ 2 ^ 64) (i : ℕ) (hi : i < w) :
    Narrow.npSum t (xs.take (i + 1)) = (xs.take (i + 1)).sum := by
  obtain ⟨b, s⟩ := t
  have hp : (2 : ℤ) ^ b = 2 * 2 ^ (b - 1) := by
    obtain ⟨k, rfl⟩ : ∃ k, b = k + 1 := ⟨b - 1, by simp only at hb; omega⟩
    rw [Nat.add_sub_cancel, pow_succ]; ring
  have h0 : (0 : ℤ) < 2 ^ (b - 1) := by positivity
  have h64' : (2 : ℤ) ^ b * w ≤ 2 ^ 64 := by exact_mod_cast h64
  have hx' : ∀ x ∈ xs.take (i + 1), Represents ⟨b, s⟩ x := fun x h => hx x (List.mem_of_mem_take h)
  have hl : (xs.take (i + 1)).length ≤ w := by rw [List.length_take]; omega
  generalize xs.take (i + 1) = l at hx' hl
  refine wrap_id ⟨64, s⟩ (by norm_num) _ ?_
  have hl' : (l.length : ℤ) ≤ w := by exact_mod_cast hl
  cases s
  · simp only [Represents, if_neg Bool.false_ne_true] at hx' ⊢
    have : 0 ≤ l.sum ∧ l.sum ≤ (2 ^ b - 1) * l.length := by
      clear hl hl'
      induction l with
      | nil => simp
      | cons a l ih =>
        have h1 := hx' a (by simp)
        have h2 := ih (fun x h => hx' x (by simp [h]))
        simp only [List.sum_cons, List.length_cons]
        push_cast
        constructor
        · omega
        · have : (2 ^ b - 1) * ((l.length : ℤ) + 1) = (2 ^ b - 1) * l.length + (2 ^ b - 1) := by ring
          omega
    refine ⟨this.1, ?_⟩
    have hwpos : (0 : ℤ) < w := by exact_mod_cast (by omega : 0 < w)
    have : (2 ^ b - 1) * (l.length : ℤ) ≤ (2 ^ b - 1) * w := mul_le_mul_of_nonneg_left hl' (by omega)
    have : (2 ^ b - 1) * (w : ℤ) = 2 ^ b * w - w := by ring
    omega
  · simp only [Represents, if_true] at hx' ⊢
    have : -(2 ^ (b - 1)) * (l.length : ℤ) ≤ l.sum ∧ l.sum ≤ (2 ^ (b - 1) - 1) * l.length := by
      clear hl hl'
      induction l with
      | nil => simp
      | cons a l ih =>
        have h1 := hx' a (by simp)
        have h2 := ih (fun x h => hx' x (by simp [h]))
        simp only [List.sum_cons, List.length_cons]
        push_cast
        constructor
        · have : -(2 : ℤ) ^ (b - 1) * ((l.length : ℤ) + 1) = -(2 ^ (b - 1)) * l.length - 2 ^ (b - 1) := by ring
          omega
        · have : ((2 : ℤ) ^ (b - 1) - 1) * ((l.length : ℤ) + 1) = (2 ^ (b - 1) - 1) * l.length + (2 ^ (b - 1) - 1) := by ring
          omega
    have hwpos : (0 : ℤ) < w := by exact_mod_cast (by omega : 0 < w)
    have e1 : (2 ^ (b - 1) - 1) * (l.length : ℤ) ≤ (2 ^ (b - 1) - 1) * w := mul_le_mul_of_nonneg_left hl' (by omega)
    have e2 : (2 ^ (b - 1)) * (l.length : ℤ) ≤ (2 ^ (b - 1)) * w := mul_le_mul_of_nonneg_left hl' (by omega)
    have e3 : ((2 : ℤ) ^ (b - 1) - 1) * (w : ℤ) = 2 ^ (b - 1) * w - w := by ring
    have e4 : (2 : ℤ) ^ b * w = 2 * (2 ^ (b - 1) * w) := by rw [hp]; ring
    have e5 : -(2 : ℤ) ^ (b - 1) * (l.length : ℤ) = -(2 ^ (b - 1) * l.length) := by ring
    norm_num at h64' ⊢
    omega

/-- specification: the number of samples up to index `i` that are lower than the sample `w` before, by more than `m` -/
def dropsBelow (xs : List ℤ) (w : ℕ) (m : ℤ) (i : ℕ) : ℕ :=
  ((Finset.range (i + 1)).filter (fun j => w ≤ j ∧ xs.getD j 0 < xs.getD (j - w) 0 - m)).card

/-- specification: the number of samples up to index `i` that exceed the sample `w` before by `m` or more -/
def risesTo (xs : List ℤ) (w : ℕ) (m : ℤ) (i : ℕ) : ℕ :=
  ((Finset.range (i + 1)).filter (fun j => w ≤ j ∧ xs.getD (j - w) 0 + m ≤ xs.getD j 0)).card

private theorem rep_getD (t : Narrow.IntType) (xs : List ℤ) (hx : ∀ x ∈ xs, Represents t x) (j : ℕ) (hj : j < xs.length) :
    Represents t (xs.getD j 0) := by
  rw [show xs.getD j 0 = xs[j] by simp [List.getD, hj]]; exact hx _ (List.getElem_mem hj)

/-- **C225** `moving_average` of an unsigned `b`-bit recording: each sample that is lower than the sample `w` before adds `2^b / w`
to its own and to every later output. -/
theorem C225_unsigned (b : ℕ) (hb : 1 ≤ b) (xs : List ℤ) (hx : ∀ x ∈ xs, Represents ⟨b, false⟩ x) (w : ℕ) (hw : 1 ≤ w)
    (hwn : w ≤ xs.length) (h64 : 2 ^ b * w ≤ 2 ^ 64) :
    Narrow.movingAverage ⟨b, false⟩ xs (w : ℤ) =
      .ok ((List.range xs.length).map (fun i => (fin (trailingMean (toK K xs) w i + 2 ^ b * (dropsBelow xs w 0 i : K) / w) : Fl K))) := by
  rw [ma_general ⟨b, false⟩ xs w hw hwn (npSum_fits ⟨b, false⟩ hb xs hx w h64)]
  congr 1
  apply List.map_congr_left
  intro i hi
  have hi := List.mem_range.mp hi
  have he : excess ⟨b, false⟩ xs w i = 2 ^ b * (dropsBelow xs w 0 i : ℤ) := by
    unfold excess dropsBelow
    rw [Finset.card_eq_sum_ones, Nat.cast_sum, Finset.mul_sum, Finset.sum_filter, Finset.sum_filter]
    apply Finset.sum_congr rfl
    intro j hj
    have hj := Finset.mem_range.mp hj
    by_cases hwj : w ≤ j
    · rw [if_pos hwj, wrap_unsigned b hb _ _ (rep_getD _ xs hx j (by omega)) (rep_getD _ xs hx (j - w) (by omega))]
      by_cases hlt : xs.getD j 0 < xs.getD (j - w) 0
      · rw [if_pos hlt, if_pos ⟨hwj, by omega⟩]; push_cast; ring
      · rw [if_neg hlt, if_neg (by rintro ⟨_, h⟩; omega)]; ring
    · rw [if_neg hwj, if_neg (fun h => hwj h.1)]
  rw [he]
  push_cast
  rfl

/-- **C225** of a signed one: a drop by more than half the range of the type adds `2^b / w`, a rise by half the range or more
subtracts it. -/
theorem C225_signed (b : ℕ) (hb : 1 ≤ b) (xs : List ℤ) (hx : ∀ x ∈ xs, Represents ⟨b, true⟩ x) (w : ℕ) (hw : 1 ≤ w)
    (hwn : w ≤ xs.length) (h64 : 2 ^ b * w ≤ 2 ^ 64) :
    Narrow.movingAverage ⟨b, true⟩ xs (w : ℤ) =
      .ok ((List.range xs.length).map (fun i => (fin (trailingMean (toK K xs) w i +
        2 ^ b * ((dropsBelow xs w (2 ^ (b - 1)) i : K) - (risesTo xs w (2 ^ (b - 1)) i : K)) / w) : Fl K))) := by
  rw [ma_general ⟨b, true⟩ xs w hw hwn (npSum_fits ⟨b, true⟩ hb xs hx w h64)]
  congr 1
  apply List.map_congr_left
  intro i hi
  have hi := List.mem_range.mp hi
  have he : excess ⟨b, true⟩ xs w i = 2 ^ b * ((dropsBelow xs w (2 ^ (b - 1)) i : ℤ) - (risesTo xs w (2 ^ (b - 1)) i : ℤ)) := by
    unfold excess dropsBelow risesTo
    rw [Finset.card_eq_sum_ones, Finset.card_eq_sum_ones, Nat.cast_sum, Nat.cast_sum, Finset.sum_filter, Finset.sum_filter,
      Finset.sum_filter, ← Finset.sum_sub_distrib, Finset.mul_sum]
    apply Finset.sum_congr rfl
    intro j hj
    have hj := Finset.mem_range.mp hj
    by_cases hwj : w ≤ j
    · rw [if_pos hwj, wrap_signed b hb _ _ (rep_getD _ xs hx j (by omega)) (rep_getD _ xs hx (j - w) (by omega))]
      simp only [hwj, true_and]
      rw [if_congr (show xs.getD j 0 - xs.getD (j - w) 0 < -2 ^ (b - 1) ↔ xs.getD j 0 < xs.getD (j - w) 0 - 2 ^ (b - 1) by omega) rfl rfl,
        if_congr (show 2 ^ (b - 1) ≤ xs.getD j 0 - xs.getD (j - w) 0 ↔ xs.getD (j - w) 0 + 2 ^ (b - 1) ≤ xs.getD j 0 by omega) rfl rfl]
      split_ifs <;> push_cast <;> ring
    · simp only [hwj, if_false, false_and]; simp
  rw [he]
  push_cast
  rfl

/-- **C225** so on an unsigned recording `moving_average` is the trailing mean everywhere iff no sample is lower than the sample `w`
before it. -/
theorem C225_unsigned_iff (b : ℕ) (hb : 1 ≤ b) (xs : List ℤ) (hx : ∀ x ∈ xs, Represents ⟨b, false⟩ x) (w : ℕ) (hw : 1 ≤ w)
    (hwn : w ≤ xs.length) (h64 : 2 ^ b * w ≤ 2 ^ 64) :
    Narrow.movingAverage ⟨b, false⟩ xs (w : ℤ) = (.ok ((List.range xs.length).map (fun i => (fin (trailingMean (toK K xs) w i) : Fl K)))) ↔
      ∀ j, w ≤ j → j < xs.length → xs.getD (j - w) 0 ≤ xs.getD j 0 := by
  have hw0 : (0 : K) < w := by exact_mod_cast hw
  rw [C225_unsigned b hb xs hx w hw hwn h64]
  constructor
  · intro h j hwj hj
    have h1 := congrArg (fun r => match r with | .ok l => l[j]? | .error _ => none) h
    simp only [List.getElem?_map, List.getElem?_range hj, Option.map_some, Option.some.injEq, Fl.fin.injEq] at h1
    have h2 : (dropsBelow xs w 0 j : K) = 0 := by
      have h3 : 2 ^ b * (dropsBelow xs w 0 j : K) / w = 0 := by linarith
      rw [div_eq_zero_iff, mul_eq_zero] at h3
      rcases h3 with (h3 | h3) | h3
      · exact absurd h3 (by positivity)
      · exact h3
      · exact absurd h3 hw0.ne'
    have h4 : dropsBelow xs w 0 j = 0 := by exact_mod_cast h2
    by_contra hlt
    unfold dropsBelow at h4
    rw [Finset.card_eq_zero] at h4
    have : j ∈ (∅ : Finset ℕ) := by
      rw [← h4, Finset.mem_filter, Finset.mem_range]; exact ⟨by omega, hwj, by omega⟩
    simp at this
  · intro h
    congr 1
    apply List.map_congr_left
    intro i hi
    have hi := List.mem_range.mp hi
    have : dropsBelow xs w 0 i = 0 := by
      unfold dropsBelow
      rw [Finset.card_eq_zero, Finset.filter_eq_empty_iff]
      rintro j hj ⟨hwj, hlt⟩
      have := h j hwj (by have := Finset.mem_range.mp hj; omega)
      omega
    rw [this]; simp

/-- **C225** on a signed recording it is the trailing mean when all samples lie within a quarter of the range of the type. -/
theorem C225_signed_small (b : ℕ) (hb : 2 ≤ b) (xs : List ℤ) (hx : ∀ x ∈ xs, -2 ^ (b - 2) ≤ x ∧ x < 2 ^ (b - 2)) (w : ℕ) (hw : 1 ≤ w)
    (hwn : w ≤ xs.length) (h64 : 2 ^ b * w ≤ 2 ^ 64) :
    Narrow.movingAverage ⟨b, true⟩ xs (w : ℤ) = (.ok ((List.range xs.length).map (fun i => (fin (trailingMean (toK K xs) w i) : Fl K)))) := by
  have hp : (2 : ℤ) ^ (b - 1) = 2 * 2 ^ (b - 2) := by
    obtain ⟨k, rfl⟩ : ∃ k, b = k + 2 := ⟨b - 2, by omega⟩
    rw [Nat.add_sub_cancel, show k + 2 - 1 = k + 1 by omega, pow_succ]; ring
  have h0 : (0 : ℤ) < 2 ^ (b - 2) := by positivity
  have hx' : ∀ x ∈ xs, Represents ⟨b, true⟩ x := by
    intro x h; have := hx x h; simp only [Represents, if_true]; omega
  rw [C225_signed b (by omega) xs hx' w hw hwn h64]
  congr 1
  apply List.map_congr_left
  intro i hi
  have hi := List.mem_range.mp hi
  have hg : ∀ j, j < xs.length → -2 ^ (b - 2) ≤ xs.getD j 0 ∧ xs.getD j 0 < 2 ^ (b - 2) := by
    intro j hj; rw [show xs.getD j 0 = xs[j] by simp [List.getD, hj]]; exact hx _ (List.getElem_mem hj)
  have h1 : dropsBelow xs w (2 ^ (b - 1)) i = 0 := by
    unfold dropsBelow
    rw [Finset.card_eq_zero, Finset.filter_eq_empty_iff]
    rintro j hj ⟨hwj, hlt⟩
    have hj := Finset.mem_range.mp hj
    have := hg j (by omega); have := hg (j - w) (by omega); omega
  have h2 : risesTo xs w (2 ^ (b - 1)) i = 0 := by
    unfold risesTo
    rw [Finset.card_eq_zero, Finset.filter_eq_empty_iff]
    rintro j hj ⟨hwj, hlt⟩
    have hj := Finset.mem_range.mp hj
    have := hg j (by omega); have := hg (j - w) (by omega); omega
  rw [h1, h2]; simp

end MA

/-- an unsigned 16-bit recording: one drop by one count -/
example : Narrow.movingAverage ⟨16, false⟩ [5, 6, 5, 5, 5, 5] 1 =
    (.ok ([5, 6, 5 + 65536, 5 + 65536, 5 + 65536, 5 + 65536].map fin) : Py (List (Fl ℚ))) := by decide +kernel

/-- a signed one: a rise by more than half the range -/
example : Narrow.movingAverage ⟨16, true⟩ [-20000, 20000, 20000] 1 =
    (.ok ([-20000, 20000 - 65536, 20000 - 65536].map fin) : Py (List (Fl ℚ))) := by decide +kernel

/-! ## C226: differences of neighbouring samples -/

private theorem mem_differences (t : Narrow.IntType) (v : List ℤ) (f : Fl ℝ) (p : Fl ℝ → Bool) (hp : p (lit 0) = false) (i : ℕ) :
    i ∈ whereTrue ((Narrow.differences t v f).map p) ↔
      ∃ x y, 0 < i ∧ v[i]? = some x ∧ v[i - 1]? = some y ∧ p (lit (t.wrap (x - y) : ℤ) *. f) = true := by
  rw [mem_whereTrue_map]
  unfold Narrow.differences
  rcases i with _ | i
  · rw [lit_eq] at hp; simp at hp ⊢; exact hp
  · simp only [List.getElem?_cons_succ, List.getElem?_zipWith, List.getElem?_tail, Nat.add_sub_cancel]
    constructor
    · rintro ⟨z, hz, hpz⟩
      cases h1 : v[i]? with
      | none => rw [h1] at hz; simp at hz
      | some y =>
        cases h2 : v[i + 1]? with
        | none => rw [h1, h2] at hz; simp at hz
        | some x =>
          rw [h1, h2] at hz
          simp only [Option.some.injEq] at hz
          exact ⟨x, y, by omega, rfl, rfl, by rw [hz]; exact hpz⟩
    · rintro ⟨x, y, -, h2, h1, hpz⟩
      rw [h1, h2]
      exact ⟨_, rfl, hpz⟩

private theorem lits (xs : List ℤ) : xs.map (fun z : ℤ => (lit (z : ℤ) : Fl ℝ)) = fins (toK ℝ xs) := by
  simp [toK, fins]

/-- the mean of the recording -/
noncomputable def avgZ (xs : List ℤ) : ℝ := (toK ℝ xs).sum / xs.length

/-- the standard deviation of the recording -/
noncomputable def sdZ (xs : List ℤ) : ℝ := √(Spec.var (toK ℝ xs))

private theorem bound_eq (xs : List ℤ) (hne : xs ≠ []) (ks : ℝ) :
    (npMean (fins (toK ℝ xs)) +. fin ks *. npStd (fins (toK ℝ xs)) : Fl ℝ) = fin (avgZ xs + ks * sdZ xs) ∧
    (npMean (fins (toK ℝ xs)) -. fin ks *. npStd (fins (toK ℝ xs)) : Fl ℝ) = fin (avgZ xs - ks * sdZ xs) := by
  have hne' : toK ℝ xs ≠ [] := by simpa [toK] using hne
  rw [npStd_fins _ hne', show npMean (fins (toK ℝ xs)) = (fin ((toK ℝ xs).sum / (toK ℝ xs).length) : Fl ℝ) from npMean_fins _ hne']
  unfold avgZ sdZ
  simp only [toK, List.length_map]
  exact ⟨rfl, rfl⟩

private theorem std_ok (xs : List ℤ) (hne : xs ≠ []) :
    (Spread.std ⟨1, true, fins (toK ℝ xs)⟩ : Py (Fl ℝ)) = .ok (npStd (fins (toK ℝ xs))) := by
  have hne' : toK ℝ xs ≠ [] := by simpa [toK] using hne
  rw [npStd_fins _ hne']
  exact std_fins true _ hne'

/-- **C226** `acceleration_thresholding` of a recording in any integer type, upward: a sample is listed iff it is above the upper
threshold and the number that the type has for the difference to its predecessor (the one congruent to it modulo `2^bits`) exceeds the
acceleration threshold. -/
theorem C226_up (t : Narrow.IntType) (hb : 1 ≤ t.bits) (xs : List ℤ) (hne : xs ≠ []) (f g kg ks : ℝ) (ht : 0 ≤ kg * g) :
    ∃ r, Narrow.acceleration t xs (fin f : Fl ℝ) 1 (fin g) (fin kg) (fin ks) = .ok r ∧ r.Pairwise (· < ·) ∧
      ∀ i, i ∈ r ↔ ∃ x y d, 0 < i ∧ xs[i]? = some x ∧ xs[i - 1]? = some y ∧ Represents t d ∧ d ≡ x - y [ZMOD 2 ^ t.bits] ∧
        kg * g < d * f ∧ avgZ xs + ks * sdZ xs < x := by
  unfold Narrow.acceleration
  simp only [if_true, lits, std_ok xs hne, bind, Except.bind]
  refine ⟨_, rfl, intersect1d_sorted _ _, fun i => ?_⟩
  rw [mem_intersect1d, mem_differences _ _ _ _ (by simpa using ht), mem_whereTrue_map, (bound_eq xs hne ks).1]
  constructor
  · rintro ⟨⟨x, y, hi, hx, hy, h1⟩, z, hz, h2⟩
    have hz' : z = fin (x : ℝ) := by
      simp only [fins, toK, List.map_map, List.getElem?_map, hx, Option.map_some, Option.some.injEq] at hz
      exact hz.symm
    refine ⟨x, y, t.wrap (x - y), hi, hx, hy, (wrap_spec t hb _).1, (wrap_spec t hb _).2, ?_, ?_⟩
    · simpa using h1
    · rw [hz'] at h2; simpa using h2
  · rintro ⟨x, y, d, hi, hx, hy, hd, hm, h1, h2⟩
    have hw : t.wrap (x - y) = d := represents_unique t hb _ _ (wrap_spec t hb _).1 hd ((wrap_spec t hb _).2.trans hm.symm)
    refine ⟨⟨x, y, hi, hx, hy, by rw [hw]; simpa using h1⟩, fin (x : ℝ), ?_, by simpa using h2⟩
    simp [fins, toK, hx]

/-- **C226** downward. -/
theorem C226_down (t : Narrow.IntType) (hb : 1 ≤ t.bits) (xs : List ℤ) (hne : xs ≠ []) (f g kg ks : ℝ) (ht : 0 ≤ kg * g) :
    ∃ r, Narrow.acceleration t xs (fin f : Fl ℝ) 2 (fin g) (fin kg) (fin ks) = .ok r ∧ r.Pairwise (· < ·) ∧
      ∀ i, i ∈ r ↔ ∃ x y d, 0 < i ∧ xs[i]? = some x ∧ xs[i - 1]? = some y ∧ Represents t d ∧ d ≡ x - y [ZMOD 2 ^ t.bits] ∧
        d * f < -(kg * g) ∧ x < avgZ xs - ks * sdZ xs := by
  unfold Narrow.acceleration
  rw [if_neg (by norm_num)]
  simp only [if_true, lits, std_ok xs hne, bind, Except.bind]
  refine ⟨_, rfl, intersect1d_sorted _ _, fun i => ?_⟩
  rw [mem_intersect1d, mem_differences _ _ _ _ (by simpa using ht), mem_whereTrue_map, (bound_eq xs hne ks).2]
  constructor
  · rintro ⟨⟨x, y, hi, hx, hy, h1⟩, z, hz, h2⟩
    have hz' : z = fin (x : ℝ) := by
      simp only [fins, toK, List.map_map, List.getElem?_map, hx, Option.map_some, Option.some.injEq] at hz
      exact hz.symm
    refine ⟨x, y, t.wrap (x - y), hi, hx, hy, (wrap_spec t hb _).1, (wrap_spec t hb _).2, ?_, ?_⟩
    · simpa using h1
    · rw [hz'] at h2; simpa using h2
  · rintro ⟨x, y, d, hi, hx, hy, hd, hm, h1, h2⟩
    have hw : t.wrap (x - y) = d := represents_unique t hb _ _ (wrap_spec t hb _).1 hd ((wrap_spec t hb _).2.trans hm.symm)
    refine ⟨⟨x, y, hi, hx, hy, by rw [hw]; simpa using h1⟩, fin (x : ℝ), ?_, by simpa using h2⟩
    simp [fins, toK, hx]

/-- **C226** on an unsigned recording no downward acceleration is ever found. -/
theorem C226_unsigned_down (b : ℕ) (hb : 1 ≤ b) (xs : List ℤ) (hne : xs ≠ []) (f g kg ks : ℝ) (hf : 0 ≤ f) (ht : 0 ≤ kg * g) :
    Narrow.acceleration ⟨b, false⟩ xs (fin f : Fl ℝ) 2 (fin g) (fin kg) (fin ks) = .ok [] := by
  obtain ⟨r, hr, -, hm⟩ := C226_down ⟨b, false⟩ hb xs hne f g kg ks ht
  rw [hr]
  congr 1
  rw [List.eq_nil_iff_forall_not_mem]
  intro i hi
  obtain ⟨x, y, d, -, -, -, hd, -, h, -⟩ := (hm i).mp hi
  simp only [Represents, if_neg Bool.false_ne_true] at hd
  have : (0 : ℝ) ≤ d := by exact_mod_cast hd.1
  have := mul_nonneg this hf
  linarith

/-- **C226** and every decrease counts as an upward acceleration, when `2^b - (drop)` counts per sample exceed the threshold: on an
unsigned recording a sample above the upper threshold is listed iff it rises fast enough or falls slowly enough. -/
theorem C226_unsigned_up (b : ℕ) (hb : 1 ≤ b) (xs : List ℤ) (hx : ∀ x ∈ xs, Represents ⟨b, false⟩ x) (hne : xs ≠ []) (f g kg ks : ℝ)
    (hf : 0 < f) (ht : 0 ≤ kg * g) :
    ∃ r, Narrow.acceleration ⟨b, false⟩ xs (fin f : Fl ℝ) 1 (fin g) (fin kg) (fin ks) = .ok r ∧ r.Pairwise (· < ·) ∧
      ∀ i, i ∈ r ↔ ∃ x y, 0 < i ∧ xs[i]? = some x ∧ xs[i - 1]? = some y ∧
        (kg * g / f < (x : ℝ) - y ∨ (x < y ∧ (y : ℝ) - x < 2 ^ b - kg * g / f)) ∧ avgZ xs + ks * sdZ xs < x := by
  obtain ⟨r, hr, hs, hm⟩ := C226_up ⟨b, false⟩ hb xs hne f g kg ks ht
  refine ⟨r, hr, hs, fun i => (hm i).trans ?_⟩
  have hq : 0 ≤ kg * g / f := div_nonneg ht hf.le
  have hiff : ∀ z : ℝ, kg * g < z * f ↔ kg * g / f < z := fun z => (div_lt_iff₀ hf).symm
  constructor
  · rintro ⟨x, y, d, hi, h1, h2, hd, hdm, h3, h4⟩
    have hd' : d = x - y + if x < y then 2 ^ b else 0 := by
      rw [← wrap_unsigned b hb x y (hx _ (List.mem_of_getElem? h1)) (hx _ (List.mem_of_getElem? h2))]
      exact represents_unique ⟨b, false⟩ hb _ _ hd (wrap_spec _ hb _).1 (hdm.trans (wrap_spec ⟨b, false⟩ hb (x - y)).2.symm)
    refine ⟨x, y, hi, h1, h2, ?_, h4⟩
    rw [hiff, hd'] at h3
    split_ifs at h3 with hlt
    · right; push_cast at h3; exact ⟨hlt, by linarith⟩
    · left; push_cast at h3; linarith
  · rintro ⟨x, y, hi, h1, h2, h3, h4⟩
    refine ⟨x, y, _, hi, h1, h2, (wrap_spec ⟨b, false⟩ hb (x - y)).1, (wrap_spec ⟨b, false⟩ hb (x - y)).2, ?_, h4⟩
    rw [wrap_unsigned b hb x y (hx _ (List.mem_of_getElem? h1)) (hx _ (List.mem_of_getElem? h2)), hiff]
    split_ifs with hlt
    · have hlt' : (x : ℝ) < y := by exact_mod_cast hlt
      push_cast
      rcases h3 with h3 | h3
      · linarith
      · linarith [h3.2]
    · push_cast
      rcases h3 with h3 | h3
      · linarith
      · exact absurd h3.1 hlt

/-- **C226** when all differences are representable, nothing wraps: the result is that of the model without wrapping. -/
theorem C226_agrees (t : Narrow.IntType) (hb : 1 ≤ t.bits) (xs : List ℤ)
    (h : ∀ i x y, xs[i]? = some x → xs[i + 1]? = some y → Represents t (y - x)) (f g kg ks : Fl ℝ) (tag : Int) :
    Narrow.acceleration t xs f tag g kg ks = Detect.acceleration ⟨1, true, fins (toK ℝ xs)⟩ f tag g kg ks := by
  have hd : Narrow.differences t xs f = Detect.differences (fins (toK ℝ xs)) f := by
    unfold Narrow.differences Detect.differences diff
    congr 1
    apply List.ext_getElem?
    intro i
    rw [List.getElem?_map, List.getElem?_zipWith, List.getElem?_zipWith, List.getElem?_tail, List.getElem?_tail]
    simp only [fins, toK, List.map_map, List.getElem?_map]
    cases h1 : xs[i]? with
    | none => simp
    | some x =>
      cases h2 : xs[i + 1]? with
      | none => simp
      | some y =>
        simp only [Option.map_some, Function.comp, wrap_id t hb _ (h i x y h1 h2), psub_fin, lit_eq]
        push_cast
        rfl
  unfold Narrow.acceleration Detect.acceleration
  simp only [lits, hd]
  rfl

/-- **C226** the derivatives of the phase-space and kernel detectors: on an unsigned recording none is negative; where the signal falls
the derivative is off by `2^(b-1)`. -/
theorem C226_derivatives (b : ℕ) (hb : 1 ≤ b) (xs : List ℤ) (hx : ∀ x ∈ xs, Represents ⟨b, false⟩ x) :
    (Narrow.centralDiff ⟨b, false⟩ xs).length = xs.length ∧ (∀ d ∈ Narrow.centralDiff ⟨b, false⟩ xs, 0 ≤ d) ∧
    ∀ i x y, xs[i]? = some x → xs[i + 2]? = some y →
      (Narrow.centralDiff ⟨b, false⟩ xs)[i + 1]? = some (if y < x then 2 ^ (b - 1) - (x - y + 1) / 2 else (y - x) / 2) := by
  have hp : (2 : ℤ) ^ b = 2 * 2 ^ (b - 1) := by
    obtain ⟨k, rfl⟩ : ∃ k, b = k + 1 := ⟨b - 1, by omega⟩
    rw [Nat.add_sub_cancel, pow_succ]; ring
  have hnn : ∀ z, 0 ≤ Narrow.IntType.wrap ⟨b, false⟩ z := by
    intro z
    have := (wrap_spec ⟨b, false⟩ hb z).1
    simp only [Represents, if_neg Bool.false_ne_true] at this
    exact this.1
  refine ⟨by simp [Narrow.centralDiff], ?_, ?_⟩
  · intro d hd
    unfold Narrow.centralDiff at hd
    obtain ⟨i, -, rfl⟩ := List.mem_map.mp hd
    split_ifs
    · exact Int.tdiv_nonneg (hnn _) (by norm_num)
    · exact le_rfl
  · intro i x y h1 h2
    have hl : i + 2 < xs.length := by
      by_contra hc
      rw [List.getElem?_eq_none (by omega)] at h2; cases h2
    unfold Narrow.centralDiff
    rw [List.getElem?_map, List.getElem?_range (by omega), Option.map_some, if_pos ⟨by omega, by omega⟩]
    congr 1
    rw [Nat.add_sub_cancel, show i + 1 + 1 = i + 2 by omega]
    simp only [List.getD, h1, h2, Option.getD_some]
    rw [Int.tdiv_eq_ediv_of_nonneg (hnn _), wrap_unsigned b hb y x (hx _ (List.mem_of_getElem? h2)) (hx _ (List.mem_of_getElem? h1))]
    split_ifs <;> omega

/-- a recording with one falling sample above the upper threshold, 16 bits unsigned, 100 Hz: the falling sample is listed as rising -/
example : ∃ r, Narrow.acceleration ⟨16, false⟩ [0, 0, 0, 0, 0, 0, 10, 9] (fin 100 : Fl ℝ) 1 (fin 980) (fin (3 / 2)) (fin 1) = .ok r ∧ 7 ∈ r := by
  obtain ⟨r, hr, -, hm⟩ := C226_unsigned_up 16 (by norm_num) [0, 0, 0, 0, 0, 0, 10, 9] (by simp [Represents]) (by simp) 100 980 (3 / 2) 1 (by norm_num)
    (by norm_num)
  refine ⟨r, hr, (hm 7).mpr ⟨9, 10, by norm_num, rfl, rfl, Or.inr ⟨by norm_num, by norm_num⟩, ?_⟩⟩
  have h : sdZ [0, 0, 0, 0, 0, 0, 10, 9] ≤ 5 := by
    unfold sdZ
    rw [Real.sqrt_le_left (by norm_num)]
    norm_num [Spec.var, Spec.cmoment, Spec.avg, toK]
  norm_num [avgZ, toK]
  linarith

end Proadv.Props
