import Verif.Props.LinearInterp
import Verif.Props.MedianMode
import Verif.Lemmas.Round
import Verif.Lemmas.RoundMono

set_option linter.unusedSectionVars false

/-!
# `linear_interpolation` and `median` in rounded arithmetic (C217)

Both stay exactly within the range of the samples they are computed from: the rounding is monotone, and the samples are representable.
-/

namespace Proadv.Props

open Proadv Replace Descriptive

variable {K : Type} [Field K] [LinearOrder K] [IsStrictOrderedRing K] [FloorRing K] {A : Arith K} {u : K}

/-- the value written at position `i` of a gap of `n` steps between the samples `a` and `b` -/
def chordR (A : Arith K) (a b : K) (n i : Nat) : K := A.rnd (a + A.rnd (A.rnd (A.rnd (b - a) / n) * i))

/-- the increment of a rising gap does not overshoot -/
theorem rise (h : Rounding A.rnd u) {d : K} (hd : 0 ≤ d) {n i : Nat} (hi : i < n) (hn : 4 * u * n ≤ 1) :
    0 ≤ A.rnd (A.rnd (A.rnd d / n) * i) ∧ A.rnd (A.rnd (A.rnd d / n) * i) ≤ d ∧
      |A.rnd (A.rnd (A.rnd d / n) * i) - d * i / n| ≤ 4 * u * d := by
  have h0 := h.nonneg
  have hs := h.small
  have hn0 : (0 : K) < n := by exact_mod_cast (by omega : 0 < n)
  have hi0 : (0 : K) ≤ i := by positivity
  have hin : (i : K) + 1 ≤ n := by exact_mod_cast hi
  have nn : ∀ x : K, 0 ≤ x → 0 ≤ A.rnd x := fun x hx => by have := h.mono hx; rwa [h.zero] at this
  have a0 := nn d hd
  have b0 : 0 ≤ A.rnd d / n := by positivity
  have b1 := nn _ b0
  have c0 : 0 ≤ A.rnd (A.rnd d / n) * i := by positivity
  have c1 := nn _ c0
  have le : ∀ x : K, 0 ≤ x → (1 - u) * x ≤ A.rnd x ∧ A.rnd x ≤ (1 + u) * x := fun x hx => by
    have e1 := h.le x
    have e2 := h.ge x
    rw [abs_of_nonneg (nn x hx), abs_of_nonneg hx] at e1 e2
    exact ⟨e2, e1⟩
  obtain ⟨l1, u1⟩ := le d hd
  obtain ⟨l2, u2⟩ := le _ b0
  obtain ⟨l3, u3⟩ := le _ c0
  have hup : A.rnd (A.rnd (A.rnd d / n) * i) ≤ (1 + u) ^ 3 * (d * i / n) := by
    calc A.rnd (A.rnd (A.rnd d / n) * i) ≤ (1 + u) * (A.rnd (A.rnd d / n) * i) := u3
      _ ≤ (1 + u) * (((1 + u) * (A.rnd d / n)) * i) := by gcongr
      _ ≤ (1 + u) * (((1 + u) * ((1 + u) * d / n)) * i) := by gcongr
      _ = (1 + u) ^ 3 * (d * i / n) := by ring
  have h1u : 0 ≤ 1 - u := by linarith
  have hlo : (1 - u) ^ 3 * (d * i / n) ≤ A.rnd (A.rnd (A.rnd d / n) * i) := by
    calc (1 - u) ^ 3 * (d * i / n) = (1 - u) * (((1 - u) * ((1 - u) * d / n)) * i) := by ring
      _ ≤ (1 - u) * (((1 - u) * (A.rnd d / n)) * i) := by gcongr
      _ ≤ (1 - u) * (A.rnd (A.rnd d / n) * i) := by gcongr
      _ ≤ _ := l3
  have hcube : (1 + u) ^ 3 ≤ 1 + 4 * u := by nlinarith [mul_nonneg h0 h0, mul_nonneg (mul_nonneg h0 h0) h0]
  have hcube' : 1 - 4 * u ≤ (1 - u) ^ 3 := by nlinarith [mul_nonneg h0 h0, mul_nonneg (mul_nonneg h0 h0) h0]
  have hf : d * i / n = d * ((i : K) / n) := by ring
  have hr1 : (i : K) / n ≤ 1 := by rw [div_le_one hn0]; linarith
  have hr0 : 0 ≤ (i : K) / n := by positivity
  have hx0 : 0 ≤ d * i / n := by positivity
  have hx1 : d * i / n ≤ d := by rw [hf]; nlinarith
  have m1 : (1 + u) ^ 3 * (d * i / n) ≤ (1 + 4 * u) * (d * i / n) := mul_le_mul_of_nonneg_right hcube hx0
  have m2 : (1 - 4 * u) * (d * i / n) ≤ (1 - u) ^ 3 * (d * i / n) := mul_le_mul_of_nonneg_right hcube' hx0
  have m3 : 4 * u * (d * i / n) ≤ 4 * u * d := mul_le_mul_of_nonneg_left hx1 (by linarith)
  refine ⟨c1, ?_, ?_⟩
  · have k : (1 + 4 * u) * ((i : K) / n) ≤ 1 := by
      rw [← mul_div_assoc, div_le_one hn0]
      have : 4 * u * (i : K) ≤ 4 * u * n := mul_le_mul_of_nonneg_left (by linarith) (by linarith)
      linarith
    have k2 : d * ((1 + 4 * u) * ((i : K) / n)) ≤ d * 1 := mul_le_mul_of_nonneg_left k hd
    have k3 : (1 + 4 * u) * (d * i / n) = d * ((1 + 4 * u) * ((i : K) / n)) := by ring
    linarith
  · rw [abs_le]
    constructor <;> linarith

theorem chordR_up (h : Rounding A.rnd u) {a b : K} (ha : A.rnd a = a) (hb : A.rnd b = b) (hab : a ≤ b) {n i : Nat} (hi : i < n)
    (hn : 4 * u * n ≤ 1) :
    a ≤ chordR A a b n i ∧ chordR A a b n i ≤ b ∧ |chordR A a b n i - (a + (b - a) * i / n)| ≤ 4 * u * (b - a) + u * max |a| |b| := by
  obtain ⟨r1, r2, r3⟩ := rise h (sub_nonneg.mpr hab) hi hn
  unfold chordR
  set t := A.rnd (A.rnd (A.rnd (b - a) / n) * i)
  refine ⟨?_, ?_, ?_⟩
  · have := h.mono (show a ≤ a + t by linarith); rwa [ha] at this
  · have := h.mono (show a + t ≤ b by linarith); rwa [hb] at this
  · have e1 := h.err (a + t)
    have e2 : |a + t| ≤ max |a| |b| := by
      rw [abs_le]
      have p1 := neg_abs_le a
      have p2 := le_abs_self b
      have p3 := le_max_left |a| |b|
      have p4 := le_max_right |a| |b|
      constructor <;> linarith
    have e3 : u * |a + t| ≤ u * max |a| |b| := mul_le_mul_of_nonneg_left e2 h.nonneg
    have e4 := abs_add_le (A.rnd (a + t) - (a + t)) (t - (b - a) * i / n)
    have e5 : A.rnd (a + t) - (a + t) + (t - (b - a) * i / n) = A.rnd (a + t) - (a + (b - a) * i / n) := by ring
    rw [e5] at e4
    linarith

/-- turning the signal upside down turns the interpolation upside down -/
theorem chordR_neg (hodd : ∀ x, A.rnd (-x) = -A.rnd x) (a b : K) (n i : Nat) : chordR A (-a) (-b) n i = -chordR A a b n i := by
  unfold chordR
  rw [show -b - -a = -(b - a) by ring, hodd, neg_div, hodd, neg_mul, hodd, ← neg_add, hodd]

theorem chordR_range (h : Rounding A.rnd u) (hodd : ∀ x, A.rnd (-x) = -A.rnd x) {a b : K} (ha : A.rnd a = a) (hb : A.rnd b = b)
    {n i : Nat} (hi : i < n) (hn : 4 * u * n ≤ 1) :
    min a b ≤ chordR A a b n i ∧ chordR A a b n i ≤ max a b ∧
      |chordR A a b n i - (a + (b - a) * i / n)| ≤ 4 * u * |b - a| + u * max |a| |b| := by
  rcases le_total a b with hab | hab
  · obtain ⟨r1, r2, r3⟩ := chordR_up h ha hb hab hi hn
    rw [min_eq_left hab, max_eq_right hab, abs_of_nonneg (sub_nonneg.mpr hab)]
    exact ⟨r1, r2, r3⟩
  · obtain ⟨r1, r2, r3⟩ := chordR_up h (a := -a) (b := -b) (by rw [hodd, ha]) (by rw [hodd, hb]) (neg_le_neg hab) hi hn
    rw [chordR_neg hodd] at r1 r2 r3
    rw [min_eq_right hab, max_eq_left hab, abs_of_nonpos (sub_nonpos.mpr hab)]
    refine ⟨by linarith, by linarith, ?_⟩
    rw [abs_neg, abs_neg] at r3
    have e : -chordR A a b n i - (-a + (-b - -a) * i / n) = -(chordR A a b n i - (a + (b - a) * i / n)) := by ring
    rw [e, abs_neg] at r3
    linarith

/-- **C217** In rounded arithmetic, a block of spikes `s … e` between two samples is filled by numbers between these two samples — never
beyond them, however large they are — and each is within `4 u |b - a| + u max(|a|, |b|)` of the chord, `a`, `b` the two samples.  Needed:
the gap `n = e - s + 2` satisfies `4 u n ≤ 1` (binary64: fewer than `2⁵¹` samples) and its integers are exact. -/
theorem C217_interpolation (h : Rounding A.rnd u) (hodd : ∀ x, A.rnd (-x) = -A.rnd x) (xs : List K) (hx : ∀ x ∈ xs, A.rnd x = x)
    (sp : List Nat) (hs : sp.Pairwise (· < ·)) (hin : ∀ i ∈ sp, i < xs.length) (s e : Nat) (hr : IsRun sp s e) (h0 : 0 < s)
    (h1 : e + 1 < xs.length) (hn : 4 * u * (e - s + 2 : ℕ) ≤ 1) (hnat : ∀ m : ℕ, m ≤ e - s + 2 → A.rnd (m : K) = m) :
    ∃ out, linearInterpolationRaw ⟨1, false, Rd.fins A xs⟩ (sp.map (fun i : Nat => (i : Int))) = .ok out ∧
      ∀ k, s ≤ k → k ≤ e → ∃ y : K, out[k]? = some (Rd.fin A y) ∧
        min (xs.getD (s - 1) 0) (xs.getD (e + 1) 0) ≤ y ∧ y ≤ max (xs.getD (s - 1) 0) (xs.getD (e + 1) 0) ∧
        |y - (xs.getD (s - 1) 0 + (xs.getD (e + 1) 0 - xs.getD (s - 1) 0) * (k - s + 1 : ℕ) / (e - s + 2 : ℕ))| ≤
          4 * u * |xs.getD (e + 1) 0 - xs.getD (s - 1) 0| + u * max |xs.getD (s - 1) 0| |xs.getD (e + 1) 0| := by
  have hne : sp ≠ [] := by rintro rfl; exact absurd (hr.2.1 s (le_refl _) hr.1) (by simp)
  have hse := hr.1
  obtain ⟨out, o1, -, -, o4⟩ := li_raw (F := Rd A) rfl (Rd.fins A xs) (by
    intro x hx'
    obtain ⟨z, -, rfl⟩ := List.mem_map.mp hx'
    rfl) sp hne hs (by simpa using hin)
  refine ⟨out, o1, fun k k1 k2 => ?_⟩
  have hget : ∀ i, i < xs.length → (Rd.fins A xs).getD i PyNum.nan = Rd.fin A (xs.getD i 0) := fun i hi => by
    simp [List.getD_eq_getElem?_getD, hi]
  have hmem : ∀ i, i < xs.length → A.rnd (xs.getD i 0) = xs.getD i 0 := fun i hi => by
    have : xs.getD i 0 = xs[i] := by simp [List.getD_eq_getElem?_getD, hi]
    rw [this]; exact hx _ (List.getElem_mem hi)
  have hg : (lit (((e : Int) - s + 2 : Int) : ℚ) : Rd A) = Rd.fin A ((e - s + 2 : ℕ) : K) := by
    have e1 : (((e : Int) - s + 2 : Int) : ℚ) = ((e - s + 2 : ℕ) : ℚ) := by
      push_cast [Nat.cast_sub hse]; ring
    rw [e1, Rd.lit_fin, Rat.cast_natCast, hnat _ (le_refl _)]
  have hg0 : ((e - s + 2 : ℕ) : K) ≠ 0 := by exact_mod_cast (by omega : e - s + 2 ≠ 0)
  refine ⟨chordR A (xs.getD (s - 1) 0) (xs.getD (e + 1) 0) (e - s + 2) (k - s + 1), ?_, ?_⟩
  · rw [o4 s e hr k k1 k2]
    congr 1
    unfold runVal
    rw [List.length_map, if_pos h1, if_pos h0]
    simp only [hget _ h1, hget (s - 1) (by omega)]
    rw [hg, Rd.ofNat_fin, hnat _ (by omega), Rd.sub_fin, Rd.div_fin A hg0, Rd.mul_fin, Rd.add_fin]
    rfl
  · exact chordR_range h hodd (hmem _ (by omega)) (hmem _ h1) (by omega) hn

/-! ## The median -/

theorem npSort_rd (xs : List K) : npSort (Rd.fins A xs) = Rd.fins A (xs.insertionSort (· ≤ ·)) :=
  npSort_fins xs

/-- **C217** In rounded arithmetic in which doubling is exact, the median of representable samples lies between the two middle samples
(it is the middle sample for odd length), and is within `u |m|` of the exact median `m`. -/
theorem C217_median (h : Rounding A.rnd u) (hdbl : ∀ x, A.rnd (2 * x) = 2 * A.rnd x) (h2 : A.rnd 2 = 2) (b : Bool) (xs : List K) (hne : xs ≠ [])
    (hx : ∀ x ∈ xs, A.rnd x = x) (s : List K) (hp : s.Perm xs) (hs : s.Pairwise (· ≤ ·)) :
    ∃ m : K, median ⟨1, b, (Rd.fins A xs).map Item.num⟩ = .ok (Rd.fin A m) ∧
      s.getD ((s.length - 1) / 2) 0 ≤ m ∧ m ≤ s.getD (s.length / 2) 0 ∧ |m - midpoint s| ≤ u * |midpoint s| := by
  have hse : s = xs.insertionSort (· ≤ ·) :=
    List.Perm.eq_of_pairwise (fun a b _ _ => le_antisymm) hs (List.pairwise_insertionSort _ _)
      (hp.trans (List.perm_insertionSort _ _).symm)
  have hlen : s.length = xs.length := hp.length_eq
  have hpos := List.length_pos_iff.mpr hne
  have hget : ∀ i, i < s.length → (Rd.fins A s).getD i PyNum.nan = Rd.fin A (s.getD i 0) := fun i hi => by
    simp [List.getD_eq_getElem?_getD, hi]
  have hfl : ∀ i, i < s.length → A.rnd (s.getD i 0) = s.getD i 0 := fun i hi => by
    have : s.getD i 0 = s[i] := by simp [List.getD_eq_getElem?_getD, hi]
    rw [this]; exact hx _ (hp.subset (List.getElem_mem hi))
  have hnan : (Rd.fins A xs).any PyNum.isNaN = false := by
    rw [List.any_eq_false]
    intro x hx'
    obtain ⟨z, -, rfl⟩ := List.mem_map.mp hx'
    show ¬ (Fl.isNaN (Fl.fin z) = true)
    simp [Fl.isNaN]
  have hmed : median ⟨1, b, (Rd.fins A xs).map Item.num⟩ = .ok (npMedian (Rd.fins A xs)) := by
    have h1 := filterMap_val_numItems (Rd.fins A xs)
    have h2 := any_isStr_numItems (Rd.fins A xs)
    simp only [numItems] at h1 h2
    unfold median
    simp only [h1, h2, List.length_map, ne_eq, not_true_eq_false, if_false, Bool.false_eq_true]
    rw [if_neg (by omega)]
  rw [hmed]
  unfold npMedian
  rw [hnan, npSort_rd, ← hse]
  simp only [Bool.false_eq_true, if_false, List.length_map]
  rw [if_neg (by omega)]
  unfold midpoint
  by_cases hodd : s.length % 2 = 1
  · rw [if_pos hodd, if_pos hodd, hget _ (by omega)]
    refine ⟨_, rfl, ?_, le_refl _, ?_⟩
    · rw [show (s.length - 1) / 2 = s.length / 2 by omega]
    · rw [sub_self, abs_zero]; exact mul_nonneg h.nonneg (abs_nonneg _)
  · rw [if_neg hodd, if_neg hodd, hget _ (by omega), hget _ (by omega)]
    rw [show (s.length - 1) / 2 = s.length / 2 - 1 by omega]
    have f1 := hfl (s.length / 2 - 1) (by omega)
    have f2 := hfl (s.length / 2) (by omega)
    have hle : s.getD (s.length / 2 - 1) 0 ≤ s.getD (s.length / 2) 0 := by
      have e1 : s.getD (s.length / 2 - 1) 0 = s[s.length / 2 - 1]'(by omega) := by
        simp [List.getD_eq_getElem?_getD, (by omega : s.length / 2 - 1 < s.length)]
      have e2 : s.getD (s.length / 2) 0 = s[s.length / 2]'(by omega) := by
        simp [List.getD_eq_getElem?_getD, (by omega : s.length / 2 < s.length)]
      rw [e1, e2]
      exact List.pairwise_iff_getElem.mp hs _ _ _ _ (by omega)
    generalize s.getD (s.length / 2 - 1) 0 = a at *
    generalize s.getD (s.length / 2) 0 = c at *
    have hl2 : (lit 2 : Rd A) = Rd.fin A 2 := by rw [Rd.lit_fin, Rat.cast_ofNat, h2]
    have hhalf : A.rnd (A.rnd (a + c) / 2) = A.rnd (a + c) / 2 := by
      have := hdbl (A.rnd (a + c) / 2)
      rw [mul_div_cancel₀ _ (two_ne_zero), h.idem] at this
      linarith
    refine ⟨A.rnd (a + c) / 2, ?_, ?_, ?_, ?_⟩
    · rw [hl2, Rd.add_fin, Rd.div_fin A two_ne_zero, hhalf]
    · have := h.mono (show 2 * a ≤ a + c by linarith)
      rw [hdbl, f1] at this
      linarith
    · have := h.mono (show a + c ≤ 2 * c by linarith)
      rw [hdbl, f2] at this
      linarith
    · have := h.err (a + c)
      rw [← sub_div, abs_div, abs_div, abs_of_pos (two_pos : (0 : K) < 2), ← mul_div_assoc]
      exact div_le_div_of_nonneg_right this two_pos.le

/-! ## Binary64 -/

theorem rnd53_double (x : ℚ) : rnd53 (2 * x) = 2 * rnd53 x := by
  unfold rnd53
  by_cases hx : x = 0
  · simp [hx]
  · have hx2 : 2 * x ≠ 0 := by simpa using hx
    rw [if_neg hx, if_neg hx2]
    have hlog : Int.log 2 |2 * x| = Int.log 2 |x| + 1 := by
      rw [abs_mul, abs_of_pos (two_pos : (0 : ℚ) < 2), mul_comm]
      have hp : 0 < |x| := abs_pos.mpr hx
      have l1 := Int.zpow_log_le_self (b := 2) (by norm_num) hp
      have l2 := Int.lt_zpow_succ_log_self (b := 2) (by norm_num) |x|
      push_cast at l1 l2
      apply le_antisymm
      · have : Int.log 2 (|x| * 2) < Int.log 2 |x| + 1 + 1 := by
          rw [← Int.lt_zpow_iff_log_lt (by norm_num) (by positivity)]
          push_cast
          rw [zpow_add₀ (by norm_num : (2 : ℚ) ≠ 0) (Int.log 2 |x| + 1) 1, zpow_one]
          linarith
        omega
      · rw [← Int.zpow_le_iff_le_log (by norm_num) (by positivity)]
        push_cast
        rw [zpow_add₀ (by norm_num : (2 : ℚ) ≠ 0), zpow_one]
        linarith
    simp only [hlog]
    have e1 : (2 : ℚ) ^ (Int.log 2 |x| + 1 - 52) = 2 * 2 ^ (Int.log 2 |x| - 52) := by
      rw [show Int.log 2 |x| + 1 - 52 = Int.log 2 |x| - 52 + 1 by ring, zpow_add₀ (by norm_num : (2 : ℚ) ≠ 0), zpow_one]
      ring
    rw [e1, mul_div_mul_left _ _ (two_ne_zero)]
    ring

/-- **C217** `linear_interpolation` in binary64: blocks of fewer than `2⁵⁰` spikes between two samples are filled by values between them -/
theorem C217_interpolation_binary64 (xs : List ℚ) (hx : ∀ x ∈ xs, rnd53 x = x) (sp : List Nat) (hs : sp.Pairwise (· < ·))
    (hin : ∀ i ∈ sp, i < xs.length) (s e : Nat) (hr : IsRun sp s e) (h0 : 0 < s) (h1 : e + 1 < xs.length) (hn : e - s + 2 ≤ 2 ^ 50) :
    ∃ out, linearInterpolationRaw ⟨1, false, Rd.fins bin64 xs⟩ (sp.map (fun i : Nat => (i : Int))) = .ok out ∧
      ∀ k, s ≤ k → k ≤ e → ∃ y : ℚ, out[k]? = some (Rd.fin bin64 y) ∧
        min (xs.getD (s - 1) 0) (xs.getD (e + 1) 0) ≤ y ∧ y ≤ max (xs.getD (s - 1) 0) (xs.getD (e + 1) 0) := by
  have hn' : ((e - s + 2 : ℕ) : ℚ) ≤ 2 ^ 50 := by exact_mod_cast hn
  obtain ⟨out, o1, o2⟩ := C217_interpolation (A := bin64) (u := 1 / 2 ^ 53) rnd53_rounding rnd53_neg xs hx sp hs hin s e hr h0 h1
    (by linarith) (fun m hm => rnd53_nat m (lt_of_le_of_lt (le_trans hm hn) (by norm_num)))
  exact ⟨out, o1, fun k k1 k2 => by obtain ⟨y, y1, y2, y3, -⟩ := o2 k k1 k2; exact ⟨y, y1, y2, y3⟩⟩

/-- **C217** the median in binary64 lies between the middle samples -/
theorem C217_median_binary64 (b : Bool) (xs : List ℚ) (hne : xs ≠ []) (hx : ∀ x ∈ xs, rnd53 x = x) (s : List ℚ) (hp : s.Perm xs)
    (hs : s.Pairwise (· ≤ ·)) :
    ∃ m : ℚ, median ⟨1, b, (Rd.fins bin64 xs).map Item.num⟩ = .ok (Rd.fin bin64 m) ∧
      s.getD ((s.length - 1) / 2) 0 ≤ m ∧ m ≤ s.getD (s.length / 2) 0 := by
  obtain ⟨m, m1, m2, m3, -⟩ := C217_median (A := bin64) (u := 1 / 2 ^ 53) rnd53_rounding rnd53_double (by decide +kernel) b xs hne hx s hp hs
  exact ⟨m, m1, m2, m3⟩

/-- **C217** The mean does not have this property: in binary64 the mean of three samples `0.1` exceeds all of them, -/
theorem C217_mean_leaves_range : ∃ c m : ℚ, rnd53 c = c ∧ c = rnd53 (1 / 10) ∧ c < m ∧
    mean (fun _ => none) (.seq (numItems (Rd.fins bin64 [c, c, c]))) = .ok (.val (Rd.fin bin64 m)) :=
  ⟨rnd53 (1 / 10), rnd53 (rnd53 (rnd53 (rnd53 (1 / 10) + rnd53 (1 / 10)) + rnd53 (1 / 10)) / 3), by decide +kernel, rfl, by decide +kernel, by
    decide +kernel⟩

/-- and so `linear_interpolation`, which fills a block at the end with the mean, exceeds all samples. -/
theorem C217_end_block_leaves_range : ∃ c m : ℚ, rnd53 c = c ∧ c < m ∧
    linearInterpolationRaw ⟨1, false, Rd.fins bin64 [c, c, c]⟩ [2] = .ok (Rd.fins bin64 [c, c, m]) :=
  ⟨rnd53 (1 / 10), rnd53 (rnd53 (rnd53 (rnd53 (1 / 10) + rnd53 (1 / 10)) + rnd53 (1 / 10)) / 3), by decide +kernel, by decide +kernel, by
    decide +kernel⟩

/-- the hypotheses of C217 are met: one spike between `0.1` and `0.3` -/
example : IsRun [1] 1 1 ∧ (∀ x ∈ ([rnd53 (1 / 10), 99, rnd53 (3 / 10)] : List ℚ), rnd53 x = x) := by
  refine ⟨⟨le_refl _, ?_, ?_, ?_⟩, ?_⟩
  · intro k h1 h2; simp; omega
  · simp
  · simp
  · decide +kernel

end Proadv.Props
