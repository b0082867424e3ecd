import Verif.Props.InterpRnd
import Verif.Lemmas.Around
import Verif.Props.Cubic

set_option linter.unusedSectionVars false

/-!
# The final rounding of `linear_interpolation` in rounded arithmetic (C251)

`np.around(x, d)` multiplies by `10 ** d`, rounds to an integer and divides again; product and quotient are rounded.
-/

namespace Proadv.Props

open Proadv Replace Descriptive Fl

variable {K : Type} [Field K] [LinearOrder K] [IsStrictOrderedRing K] [FloorRing K] {A : Arith K} {u : K}

private theorem ten_pos (d : Int) : (0 : K) < 10 ^ d := zpow_pos (by norm_num) d

private theorem rint_near {z : K} {m : ℤ} (h : |z - m| < 1 / 2) : rint z = m := by
  rw [abs_lt] at h
  have f1 : rint z = ⌊z⌋ ∨ rint z = ⌊z⌋ + 1 := by
    unfold rint
    dsimp only
    split_ifs <;> simp
  have f2 := Int.floor_le z
  have f3 := Int.lt_floor_add_one z
  rcases lt_or_ge z m with h1 | h1
  · have e : ⌊z⌋ = m - 1 := by
      rw [Int.floor_eq_iff]; push_cast; constructor <;> linarith
    unfold rint
    dsimp only
    rw [e]
    push_cast
    rw [if_neg (by linarith), if_pos (by linarith)]
    ring
  · have e : ⌊z⌋ = m := by
      rw [Int.floor_eq_iff]; constructor <;> linarith
    unfold rint
    dsimp only
    rw [e, if_pos (by linarith)]

private theorem rint_err (z : K) : |(rint z : K) - z| ≤ 1 / 2 := by
  have f2 := Int.floor_le z
  have f3 := Int.lt_floor_add_one z
  unfold rint
  dsimp only
  rw [abs_le]
  split_ifs with h1 h2 h3 <;> push_cast <;> constructor <;> linarith

private theorem around_rd (x : K) (d : Int) :
    PyNum.around (Rd.fin A x) d = Rd.fin A (A.rnd ((rint (A.rnd (x * 10 ^ d)) : K) / 10 ^ d)) := rfl

/-- the decimal number `k · 10⁻ᵈ` as it is stored -/
def decimal (A : Arith K) (d : Int) (k : ℤ) : K := A.rnd ((k : K) / 10 ^ d)

/-- a stored decimal number is kept -/
private theorem around_decimal (hA : Std A u) (d : Int) (k : ℤ) (hk : ((1 + u) ^ 2 - 1) * |(k : K)| < 1 / 2) :
    PyNum.around (Rd.fin A (decimal A d k)) d = Rd.fin A (decimal A d k) := by
  rw [around_rd]
  have hp := ten_pos (K := K) d
  have hu := hA.nonneg
  unfold decimal
  set x := A.rnd ((k : K) / 10 ^ d) with hx
  have e1 : |x * 10 ^ d - k| ≤ u * |(k : K)| := by
    have h1 := hA.rnd ((k : K) / 10 ^ d)
    rw [← hx] at h1
    have h2 : x * 10 ^ d - k = (x - k / 10 ^ d) * 10 ^ d := by field_simp
    rw [h2, abs_mul, abs_of_pos hp]
    calc |x - k / 10 ^ d| * 10 ^ d ≤ (u * |(k : K) / 10 ^ d|) * 10 ^ d := mul_le_mul_of_nonneg_right h1 hp.le
      _ = u * |(k : K)| := by rw [abs_div, abs_of_pos hp]; field_simp
  have e2 := hA.rnd (x * 10 ^ d)
  have e3 : |x * 10 ^ d| ≤ (1 + u) * |(k : K)| := by
    have := abs_sub_abs_le_abs_sub (x * 10 ^ d) (k : K)
    linarith
  have e4 : |A.rnd (x * 10 ^ d) - k| < 1 / 2 := by
    have h1 := abs_sub_le (A.rnd (x * 10 ^ d)) (x * 10 ^ d) (k : K)
    have h2 := mul_le_mul_of_nonneg_left e3 hu
    have h3 : ((1 + u) ^ 2 - 1) * |(k : K)| = u * ((1 + u) * |(k : K)|) + u * |(k : K)| := by ring
    linarith
  rw [rint_near e4, ← hx]

private theorem around_decimals (hA : Std A u) (d : Int) (ks : List ℤ) (hk : ∀ k ∈ ks, ((1 + u) ^ 2 - 1) * |(k : K)| < 1 / 2) (i : ℕ) :
    ((Rd.fins A (ks.map (decimal A d)))[i]?).map (fun x => PyNum.around x d) = (Rd.fins A (ks.map (decimal A d)))[i]? := by
  rcases h : (Rd.fins A (ks.map (decimal A d)))[i]? with _ | x
  · rfl
  · obtain ⟨z, hz, rfl⟩ := List.mem_map.mp (List.mem_of_getElem? h)
    obtain ⟨k, hk', rfl⟩ := List.mem_map.mp hz
    rw [Option.map_some]
    exact congrArg some (around_decimal hA d k (hk k hk'))

/-- **C251** In rounded arithmetic of accuracy `u`, `linear_interpolation(velocities, spikes, d)` returns every sample that is not a
spike exactly as it was, if the recording was given with at most `d` decimals: the samples are the numbers `k · 10⁻ᵈ` as stored, the
integers `k` satisfying `((1 + u)² - 1) |k| < 1/2` (binary64: `|k| < 2⁵¹`).  -/
theorem C251_kept (hA : Std A u) (d : Int) (ks : List ℤ) (hk : ∀ k ∈ ks, ((1 + u) ^ 2 - 1) * |(k : K)| < 1 / 2) (sp : List Nat)
    (hne : sp ≠ []) (hs : sp.Pairwise (· < ·)) (hin : ∀ i ∈ sp, i < ks.length) :
    ∃ out, linearInterpolation ⟨1, false, Rd.fins A (ks.map (decimal A d))⟩ (sp.map (fun i : Nat => (i : Int))) d = .ok out ∧
      ∀ i, i ∉ sp → out[i]? = (Rd.fins A (ks.map (decimal A d)))[i]? := by
  obtain ⟨raw, r1, -, r3, -⟩ := li_raw (F := Rd A) rfl (Rd.fins A (ks.map (decimal A d))) (by
    intro x hx'
    obtain ⟨z, -, rfl⟩ := List.mem_map.mp hx'
    rfl) sp hne hs (by simpa using hin)
  refine ⟨raw.map (fun x => PyNum.around x d), ?_, fun i hi => ?_⟩
  · unfold linearInterpolation
    rw [r1]; rfl
  · rw [List.getElem?_map, r3 i hi]
    exact around_decimals hA d ks hk i

/-- **C251** The same for `cubic_12points_polynomial`, whatever the interpolation routine and the (possibly negative) spike indices. -/
theorem C251_kept_cubic (hA : Std A u) (d : Int) (ks : List ℤ) (hk : ∀ k ∈ ks, ((1 + u) ^ 2 - 1) * |(k : K)| < 1 / 2)
    (interp : List (Rd A) → List (Rd A) → Rd A → Py (Rd A)) (sp : List Int) (out : List (Rd A))
    (h : cubic12 interp ⟨1, false, Rd.fins A (ks.map (decimal A d))⟩ sp d = .ok out) (i : ℕ) (hi : ¬ Hits ks.length sp i) :
    out[i]? = (Rd.fins A (ks.map (decimal A d)))[i]? := by
  rw [(C44_cubic interp _ sp d out h).2 i (by simpa using hi)]
  exact around_decimals hA d ks hk i

/-- **C251** The same for `polynomial_replacement`, whatever the regression routine; the sample at index 10 is kept even if it is a
spike. -/
theorem C251_kept_polynomial (hA : Std A u) (d : Int) (ks : List ℤ) (hk : ∀ k ∈ ks, ((1 + u) ^ 2 - 1) * |(k : K)| < 1 / 2)
    (predict : List (Rd A) → Int → Int → Py (Rd A)) (sp : List Nat) (hs : sp.Pairwise (· < ·)) (hin : ∀ i ∈ sp, i < ks.length)
    (window : Int) (out : List (Rd A))
    (h : polynomialReplacement predict ⟨1, false, Rd.fins A (ks.map (decimal A d))⟩ (sp.map (fun i : Nat => (i : Int))) window d = .ok out)
    (i : ℕ) (hi : i ∉ sp ∨ i = 10) : out[i]? = (Rd.fins A (ks.map (decimal A d)))[i]? := by
  have e := around_decimals hA d ks hk i
  rcases (C58_kept predict _ sp hs (by simpa using hin) window d out h).2 i hi with h1 | h1
  · rw [h1]; exact e
  · rw [h1]
    have e2 : ((Rd.fins A (ks.map (decimal A d)))[i]?).map (fun x => PyNum.around (PyNum.around x d) d) =
        (((Rd.fins A (ks.map (decimal A d)))[i]?).map (fun x => PyNum.around x d)).map (fun x => PyNum.around x d) := by
      rw [Option.map_map]; rfl
    exact e2.trans (by rw [e, e])

/-- **C251** In rounded arithmetic, the values that `linear_interpolation` returns for a block of spikes between two samples lie between
the values it returns for these two samples, for every number of decimals. -/
theorem C251_between (h : Rounding A.rnd u) (hodd : ∀ x, A.rnd (-x) = -A.rnd x) (xs : List K) (hx : ∀ x ∈ xs, A.rnd x = x)
    (sp : List Nat) (hs : sp.Pairwise (· < ·)) (hin : ∀ i ∈ sp, i < xs.length) (s e : Nat) (hr : IsRun sp s e) (h0 : 0 < s)
    (h1 : e + 1 < xs.length) (hn : 4 * u * (e - s + 2 : ℕ) ≤ 1) (hnat : ∀ m : ℕ, m ≤ e - s + 2 → A.rnd (m : K) = m) (d : Int) :
    ∃ out, linearInterpolation ⟨1, false, Rd.fins A xs⟩ (sp.map (fun i : Nat => (i : Int))) d = .ok out ∧
      ∃ p q : K, out[s - 1]? = some (Rd.fin A p) ∧ out[e + 1]? = some (Rd.fin A q) ∧
        ∀ k, s ≤ k → k ≤ e → ∃ y : K, out[k]? = some (Rd.fin A y) ∧ min p q ≤ y ∧ y ≤ max p q := by
  have hne : sp ≠ [] := by rintro rfl; exact absurd (hr.2.1 s (le_refl _) hr.1) (by simp)
  have hse := hr.1
  obtain ⟨raw, r1, -, r3, -⟩ := li_raw (F := Rd A) rfl (Rd.fins A xs) (by
    intro x hx'
    obtain ⟨z, -, rfl⟩ := List.mem_map.mp hx'
    rfl) sp hne hs (by simpa using hin)
  obtain ⟨raw', q1, q2⟩ := C217_interpolation h hodd xs hx sp hs hin s e hr h0 h1 hn hnat
  rw [r1] at q1
  cases q1
  let g : K → K := fun x => A.rnd ((rint (A.rnd (x * 10 ^ d)) : K) / 10 ^ d)
  have hg : Monotone g := fun x y hxy => h.mono (div_le_div_of_nonneg_right
    (by exact_mod_cast rint_mono (h.mono (mul_le_mul_of_nonneg_right hxy (ten_pos d).le))) (ten_pos d).le)
  have hget : ∀ i, i < xs.length → (Rd.fins A xs)[i]? = some (Rd.fin A (xs.getD i 0)) := fun i hi => by
    simp [List.getD_eq_getElem?_getD, hi]
  refine ⟨raw.map (fun x => PyNum.around x d), ?_, g (xs.getD (s - 1) 0), g (xs.getD (e + 1) 0), ?_, ?_, fun k k1 k2 => ?_⟩
  · unfold linearInterpolation
    rw [r1]; rfl
  · rw [List.getElem?_map, r3 _ (hr.2.2.1 h0), hget _ (by omega)]; rfl
  · rw [List.getElem?_map, r3 _ hr.2.2.2, hget _ h1]; rfl
  · obtain ⟨y, y1, y2, y3, -⟩ := q2 k k1 k2
    refine ⟨g y, ?_, ?_, ?_⟩
    · rw [List.getElem?_map, y1]; rfl
    · rw [← hg.map_min]; exact hg y2
    · rw [← hg.map_max]; exact hg y3

/-- **C251** Every returned value is within half a unit of the last decimal, plus `(2u + u²)|x| + (u/2) 10⁻ᵈ`, of the value `x` before
the rounding. -/
theorem C251_error (hA : Std A u) (xs : List K) (raw : List (Rd A)) (sp : List Int) (d : Int)
    (hraw : linearInterpolationRaw ⟨1, false, Rd.fins A xs⟩ sp = .ok raw) :
    ∃ out, linearInterpolation ⟨1, false, Rd.fins A xs⟩ sp d = .ok out ∧ ∀ (i : Nat) (x : K), raw[i]? = some (Rd.fin A x) →
      ∃ y : K, out[i]? = some (Rd.fin A y) ∧ |y - x| ≤ (1 + u) / 2 / 10 ^ d + ((1 + u) ^ 2 - 1) * |x| := by
  refine ⟨raw.map (fun x => PyNum.around x d), ?_, fun i x hi => ?_⟩
  · unfold linearInterpolation
    rw [hraw]; rfl
  · have hp := ten_pos (K := K) d
    have hu := hA.nonneg
    refine ⟨A.rnd ((rint (A.rnd (x * 10 ^ d)) : K) / 10 ^ d), ?_, ?_⟩
    · rw [List.getElem?_map, hi]; rfl
    · have e1 := hA.rnd (x * 10 ^ d)
      have e2 := rint_err (A.rnd (x * 10 ^ d))
      have e3 := abs_sub_le (rint (A.rnd (x * 10 ^ d)) : K) (A.rnd (x * 10 ^ d)) (x * 10 ^ d)
      set m : K := (rint (A.rnd (x * 10 ^ d)) : K)
      have e4 : |m / 10 ^ d - x| ≤ 1 / 2 / 10 ^ d + u * |x| := by
        have h1 : m / 10 ^ d - x = (m - x * 10 ^ d) / 10 ^ d := by field_simp
        rw [h1, abs_div, abs_of_pos hp, div_le_iff₀ hp]
        have h2 : (1 / 2 / 10 ^ d + u * |x|) * 10 ^ d = 1 / 2 + u * |x * 10 ^ d| := by
          rw [abs_mul, abs_of_pos hp]; field_simp
        rw [h2]; linarith
      have e5 := hA.rnd (m / 10 ^ d)
      have e6 : |m / 10 ^ d| ≤ |x| + (1 / 2 / 10 ^ d + u * |x|) := by
        have := abs_sub_abs_le_abs_sub (m / 10 ^ d) x
        linarith
      have e7 := mul_le_mul_of_nonneg_left e6 hu
      have e8 := abs_sub_le (A.rnd (m / 10 ^ d)) (m / 10 ^ d) x
      have e9 : (1 + u) / 2 / 10 ^ d + ((1 + u) ^ 2 - 1) * |x| =
          u * (|x| + (1 / 2 / 10 ^ d + u * |x|)) + (1 / 2 / 10 ^ d + u * |x|) := by ring
      linarith

/-- the binary64 number written `0.00005`, a little more than `5 · 10⁻⁵` -/
def fivee5 : ℚ := 7378697629483821 / 2 ^ 67

/-- **C251** `np.around` in binary64 is not the nearest decimal: the number stored for 0.00005 exceeds 0.00005, so 0.0001 is the nearer
multiple of 0.0001, but it becomes 0 (the product with 10000 is rounded to exactly 0.5). -/
theorem C251_not_nearest : rnd53 (1 / 20000) = fivee5 ∧ |1 / 10000 - fivee5| < |0 - fivee5| ∧
    linearInterpolation ⟨1, false, Rd.fins bin64 [fivee5, 7, fivee5]⟩ [1] 4 = .ok (Rd.fins bin64 [0, 0, 0]) := by
  decide +kernel

/-- a recording of three decimals in binary64 is returned unchanged -/
example : ∃ out, linearInterpolation ⟨1, false, Rd.fins bin64 ([1001, -70, 2003].map (decimal bin64 3))⟩ [1] 3 = .ok out ∧
    out[0]? = some (Rd.fin bin64 (rnd53 (1001 / 10 ^ (3 : ℤ)))) := by
  obtain ⟨out, h1, h2⟩ := C251_kept bin64_std 3 [1001, -70, 2003] (by decide +kernel) [1] (by simp) (by simp) (by simp)
  exact ⟨out, h1, by rw [h2 0 (by simp)]; rfl⟩

example : ∃ out, polynomialReplacement (fun _ _ _ => .ok (Rd.fin bin64 0)) ⟨1, false, Rd.fins bin64 ([11, 12, 13, 14].map (decimal bin64 1))⟩
    [1, 2] 100 1 = .ok out ∧ out[0]? = some (Rd.fin bin64 (rnd53 (11 / 10))) :=
  ⟨Rd.fins bin64 [rnd53 (11 / 10), rnd53 (12 / 10), rnd53 (13 / 10), rnd53 (14 / 10)], by decide +kernel, by decide +kernel⟩

/-- the sample between 0.1 and 0.3 in binary64 -/
example : ∃ out, linearInterpolation ⟨1, false, Rd.fins bin64 [rnd53 (1 / 10), 99, rnd53 (3 / 10)]⟩ [1] 2 = .ok out ∧
    ∃ p q y : ℚ, out = Rd.fins bin64 [p, y, q] ∧ p < y ∧ y < q := by
  refine ⟨Rd.fins bin64 [rnd53 (1 / 10), rnd53 (2 / 10), rnd53 (3 / 10)], ?_, _, _, _, rfl, ?_, ?_⟩ <;> decide +kernel

example : IsRun [1] 1 1 ∧ (∀ x ∈ ([rnd53 (1 / 10), 99, rnd53 (3 / 10)] : List ℚ), bin64.rnd x = x) ∧
    Rounding bin64.rnd (1 / 2 ^ 53) ∧ (∀ x, bin64.rnd (-x) = -bin64.rnd x) ∧ (4 : ℚ) * (1 / 2 ^ 53) * (1 - 1 + 2 : ℕ) ≤ 1 ∧
    ∀ m : ℕ, m ≤ 1 - 1 + 2 → bin64.rnd (m : ℚ) = m := by
  refine ⟨⟨le_refl _, ?_, ?_, ?_⟩, ?_, rnd53_rounding, rnd53_neg, by norm_num, ?_⟩
  · intro k h1 h2; simp; omega
  · simp
  · simp
  · decide +kernel
  · decide +kernel

end Proadv.Props
