import Verif.Props.NarrowPhase

/-!
# C232: the trivariate kernel on fixed-width integer recordings
-/

set_option linter.unusedSectionVars false

namespace Proadv.Props

open Proadv Fl Detect

/-- **C232** what `_transform` does to an unsigned sample: it is rotated by `θ`, and unless its first component is 0 it is then
moved by `2^b sin θ` along the second axis. -/
theorem C232_unsigned (b : ℕ) (hb : 1 ≤ b) (θ : ℝ) (x y : ℤ) (hx : Represents ⟨b, false⟩ x) :
    (Narrow.transform ⟨b, false⟩ (fin θ) x y : Fl ℝ × Fl ℝ) =
      (fin (x * Real.cos θ + y * Real.sin θ),
        fin (-x * Real.sin θ + y * Real.cos θ + if x = 0 then 0 else 2 ^ b * Real.sin θ)) := by
  have hw : Narrow.IntType.wrap ⟨b, false⟩ (-x) = -x + if x = 0 then 0 else 2 ^ b := by
    have h0 := wrap_unsigned b hb 0 x (by simp [Represents]) hx
    rw [zero_sub] at h0
    rw [h0]
    have hx0 : 0 ≤ x := by simp only [Represents, if_neg Bool.false_ne_true] at hx; exact hx.1
    by_cases h : x = 0
    · simp [h]
    · rw [if_pos (by omega), if_neg h]
  unfold Narrow.transform
  rw [hw]
  simp only [pcos_fin, psin_fin, lit_eq, pmul_fin, padd_fin, Prod.mk.injEq, fin.injEq]
  constructor
  · push_cast; ring
  · split_ifs <;> push_cast <;> ring

/-- **C232** and to a signed sample: a rotation, except for the lowest number of the type, which is moved by `-2^b sin θ`. -/
theorem C232_signed (b : ℕ) (hb : 1 ≤ b) (θ : ℝ) (x y : ℤ) (hx : Represents ⟨b, true⟩ x) :
    (Narrow.transform ⟨b, true⟩ (fin θ) x y : Fl ℝ × Fl ℝ) =
      (fin (x * Real.cos θ + y * Real.sin θ),
        fin (-x * Real.sin θ + y * Real.cos θ - if x = -2 ^ (b - 1) then 2 ^ b * Real.sin θ else 0)) := by
  have hp : (2 : ℤ) ^ b = 2 * 2 ^ (b - 1) := by
    obtain ⟨k, rfl⟩ : ∃ k, b = k + 1 := ⟨b - 1, by omega⟩
    rw [Nat.add_sub_cancel, pow_succ]; ring
  have h0 : (0 : ℤ) < 2 ^ (b - 1) := by positivity
  have hw : Narrow.IntType.wrap ⟨b, true⟩ (-x) = -x - if x = -2 ^ (b - 1) then 2 ^ b else 0 := by
    simp only [Represents, if_true] at hx
    apply represents_unique ⟨b, true⟩ hb _ _ (wrap_spec _ hb _).1
    · simp only [Represents, if_true]
      split_ifs with h <;> omega
    · refine (wrap_spec _ hb _).2.trans ?_
      rw [Int.modEq_iff_dvd]
      split_ifs with h
      · exact ⟨-1, by simp only; ring⟩
      · simp
  unfold Narrow.transform
  rw [hw]
  simp only [pcos_fin, psin_fin, lit_eq, pmul_fin, padd_fin, Prod.mk.injEq, fin.injEq]
  constructor
  · push_cast; ring
  · split_ifs <;> push_cast <;> ring

private theorem lits (xs : List ℤ) : xs.map (fun z : ℤ => (lit (z : ℤ) : Fl ℝ)) = fins (toK ℝ xs) := by
  simp [toK, fins]

/-- **C232** when nothing wraps, `kernel` returns what it returns for the same samples in floats: it suffices that a number `M` with
`M² < 2^(bits-1)` bounds all samples of both signed arrays and that `2 n² M² < 2^63`. -/
theorem C232_exact (b : ℕ) (us ws : List ℤ) (h : us.length = ws.length) (M : ℤ) (hu : ∀ x ∈ us, |x| ≤ M) (hw : ∀ x ∈ ws, |x| ≤ M)
    (hsq : M ^ 2 < 2 ^ (b - 1)) (hn : 2 * us.length ^ 2 * M ^ 2 < 2 ^ 63) (hb : 1 ≤ b)
    (kde : List (Fl ℝ × Fl ℝ) → List (Fl ℝ) → List (Fl ℝ) → Py (List (List (Fl ℝ)))) (grid : ℕ) :
    Narrow.kernel kde ⟨b, true⟩ us ws grid = KernelDetect.kernel kde (fins (toK ℝ us)) (fins (toK ℝ ws)) grid := by
  by_cases hne : us = []
  · subst hne
    have : ws = [] := List.length_eq_zero_iff.mp h.symm
    subst this
    rfl
  set t : Narrow.IntType := ⟨b, true⟩ with ht
  have hM0 : 0 ≤ M := by
    obtain ⟨x, hx⟩ := List.exists_mem_of_ne_nil us hne
    exact (abs_nonneg x).trans (hu x hx)
  set n : ℤ := (us.length : ℤ) with hnd
  have hn1 : 1 ≤ n := by
    have : 0 < us.length := List.length_pos_iff.mpr hne
    omega
  have rep : ∀ z : ℤ, |z| < 2 ^ (b - 1) → Represents t z := by
    intro z hz
    simp only [Represents, ht, if_true]
    have := abs_lt.mp hz
    exact ⟨by omega, this.2⟩
  have rep64 : ∀ z : ℤ, |z| ≤ 2 * n ^ 2 * M ^ 2 → (Narrow.IntType.mk 64 t.signed).wrap z = z := by
    intro z hz
    apply wrap_id _ (by norm_num)
    simp only [Represents, ht, if_true]
    have := abs_lt.mp (lt_of_le_of_lt hz hn)
    norm_num at this ⊢
    constructor <;> omega
  have hMM : M ≤ M ^ 2 ∨ M = 0 := by
    by_cases h0 : M = 0
    · right; exact h0
    · left; have : 1 ≤ M := by omega
      nlinarith
  have hnn : n ≤ n ^ 2 := by nlinarith
  have hnM : n * M ≤ n ^ 2 * M ^ 2 := by
    rcases hMM with h | h
    · exact mul_le_mul hnn h hM0 (sq_nonneg n)
    · rw [h]; simp
  have hM2 : 0 ≤ M ^ 2 := sq_nonneg M
  have hn2 : 0 ≤ n ^ 2 * M ^ 2 := by positivity
  have prodle : ∀ x y : ℤ, |x| ≤ M → |y| ≤ M → |x * y| ≤ M ^ 2 := by
    intro x y hx hy
    rw [abs_mul, sq]
    exact mul_le_mul hx hy (abs_nonneg _) hM0
  have sumb : ∀ (B : ℤ) (ys : List ℤ), (∀ y ∈ ys, |y| ≤ B) → |ys.sum| ≤ ys.length * B := by
    intro B ys hy
    induction ys with
    | nil => simp
    | cons a l ih =>
      have i1 := ih (fun y h => hy y (by simp [h]))
      have i2 := hy a (by simp)
      rw [List.sum_cons, List.length_cons]
      push_cast
      calc |a + l.sum| ≤ |a| + |l.sum| := abs_add_le _ _
        _ ≤ _ := by nlinarith
  have sum1 : ∀ ys : List ℤ, ys.length = us.length → (∀ y ∈ ys, |y| ≤ M) → Narrow.npSum t ys = ys.sum ∧ |ys.sum| ≤ n * M := by
    intro ys hl hy
    have h1 := sumb M ys hy
    rw [hl] at h1
    exact ⟨rep64 _ (by linarith), h1⟩
  have prod1 : ∀ ys : List ℤ, ys.length = us.length → (∀ y ∈ ys, |y| ≤ M) →
      Narrow.sumProd t us ys = (List.zipWith (fun a b => a * b) us ys).sum ∧ |(List.zipWith (fun a b => a * b) us ys).sum| ≤ n * M ^ 2 := by
    intro ys hl hy
    have hmem : ∀ p ∈ List.zipWith (fun a b => a * b) us ys, |p| ≤ M ^ 2 := by
      intro p hp
      obtain ⟨i, hi⟩ := List.getElem?_of_mem hp
      rw [List.getElem?_zipWith] at hi
      cases h1 : us[i]? with
      | none => simp [h1] at hi
      | some x =>
        cases h2 : ys[i]? with
        | none => simp [h1, h2] at hi
        | some z =>
          simp only [h1, h2, Option.some.injEq] at hi
          rw [← hi]
          exact prodle x z (hu x (List.mem_of_getElem? h1)) (hy z (List.mem_of_getElem? h2))
    have hz : List.zipWith (fun a b => t.wrap (a * b)) us ys = List.zipWith (fun a b => a * b) us ys := by
      apply List.ext_getElem?
      intro i
      rw [List.getElem?_zipWith, List.getElem?_zipWith]
      cases h1 : us[i]? with
      | none => rfl
      | some x =>
        cases h2 : ys[i]? with
        | none => rfl
        | some y =>
          simp only [Option.some.injEq]
          exact wrap_id t hb _ (rep _ (lt_of_le_of_lt (prodle x y (hu x (List.mem_of_getElem? h1))
            (hy y (List.mem_of_getElem? h2))) hsq))
    have hb2 := sumb (M ^ 2) _ hmem
    rw [List.length_zipWith, hl, min_self] at hb2
    refine ⟨?_, hb2⟩
    unfold Narrow.sumProd
    rw [hz]
    apply rep64
    have : n * M ^ 2 ≤ n ^ 2 * M ^ 2 := mul_le_mul_of_nonneg_right hnn hM2
    linarith
  have term : ∀ ys : List ℤ, ys.length = us.length → (∀ y ∈ ys, |y| ≤ M) → (Narrow.angleTerm t us ys : Fl ℝ) =
      (ofNat (fins (toK ℝ us)).length *. PyNum.sum (List.zipWith (fun x y => x *. y) (fins (toK ℝ us)) (fins (toK ℝ ys))) -.
        PyNum.sum (fins (toK ℝ us)) *. PyNum.sum (fins (toK ℝ ys)) : Fl ℝ) := by
    intro ys hl hy
    obtain ⟨p1, p2⟩ := prod1 ys hl hy
    obtain ⟨s1, s2⟩ := sum1 us rfl hu
    obtain ⟨r1, r2⟩ := sum1 ys hl hy
    unfold Narrow.angleTerm
    simp only [p1, s1, r1]
    have q1 : |us.sum * ys.sum| ≤ n ^ 2 * M ^ 2 := by
      rw [abs_mul]
      calc |us.sum| * |ys.sum| ≤ (n * M) * (n * M) := mul_le_mul s2 r2 (abs_nonneg _) (by positivity)
        _ = _ := by ring
    set P := (List.zipWith (fun a b => a * b) us ys).sum with hP
    have q2 : |n * P| ≤ n ^ 2 * M ^ 2 := by
      rw [abs_mul, abs_of_nonneg (by omega : (0 : ℤ) ≤ n)]
      calc n * |P| ≤ n * (n * M ^ 2) := mul_le_mul_of_nonneg_left p2 (by omega)
        _ = _ := by ring
    have q3 : |n * P - us.sum * ys.sum| ≤ 2 * n ^ 2 * M ^ 2 := by
      calc _ ≤ |n * P| + |us.sum * ys.sum| := abs_sub _ _
        _ ≤ _ := by linarith
    rw [rep64 (n * P) (by linarith), rep64 (us.sum * ys.sum) (by linarith), rep64 _ q3, if_pos (by rw [ht])]
    rw [zipWith_fins _ (fun x y => x * y) (fun _ _ => rfl),
      show PyNum.sum (fins (List.zipWith (fun x y => x * y) (toK ℝ us) (toK ℝ ys))) = (fin _ : Fl ℝ) from psum_fin _,
      show PyNum.sum (fins (toK ℝ us)) = (fin _ : Fl ℝ) from psum_fin _,
      show PyNum.sum (fins (toK ℝ ys)) = (fin _ : Fl ℝ) from psum_fin _]
    simp only [lit_eq, ofNat_eq, pmul_fin, psub_fin, fin.injEq]
    have e1 : ((P : ℤ) : ℝ) = (List.zipWith (fun x y : ℝ => x * y) (toK ℝ us) (toK ℝ ys)).sum := by
      rw [hP]
      push_cast
      rw [List.map_zipWith]
      unfold toK
      rw [List.zipWith_map]
      simp
    have e2 : ∀ zs : List ℤ, ((zs.sum : ℤ) : ℝ) = (toK ℝ zs).sum := by
      intro zs; push_cast; simp [toK]
    rw [← e1, ← e2, ← e2]
    have e3 : (fins (toK ℝ us)).length = us.length := by simp [toK]
    rw [e3, Rat.cast_intCast, Int.cast_sub, Int.cast_mul, Int.cast_mul, hnd, Int.cast_natCast]
  have hrot : (Narrow.rotation t us ws : Fl ℝ) = KernelDetect.rotation (fins (toK ℝ us)) (fins (toK ℝ ws)) := by
    unfold Narrow.rotation KernelDetect.rotation
    rw [term ws h.symm hw, term us rfl hu]
    congr 2
    congr 2
    rw [List.zipWith_self]
  have hpts : (Narrow.rotated t us ws : List (Fl ℝ × Fl ℝ)) = KernelDetect.rotated (fins (toK ℝ us)) (fins (toK ℝ ws)) := by
    unfold Narrow.rotated KernelDetect.rotated
    rw [hrot]
    generalize KernelDetect.rotation (fins (toK ℝ us)) (fins (toK ℝ ws)) = θ
    apply List.ext_getElem?
    intro i
    simp only [List.getElem?_zipWith, fins, toK, List.map_map, List.getElem?_map]
    cases h1 : us[i]? with
    | none => rfl
    | some x =>
      cases h2 : ws[i]? with
      | none => rfl
      | some y =>
        simp only [Option.map_some, Function.comp, Option.some.injEq]
        unfold Narrow.transform KernelDetect.transform
        have hx := hu x (List.mem_of_getElem? h1)
        have hxM : |(-x)| < 2 ^ (b - 1) := by
          rw [abs_neg]
          rcases hMM with h | h
          · omega
          · rw [h] at hx
            have : (0 : ℤ) < 2 ^ (b - 1) := by positivity
            omega
        rw [wrap_id t hb _ (rep _ hxM)]
        simp only [lit_eq, pneg_fin]
        push_cast
        rfl
  unfold Narrow.kernel KernelDetect.kernel
  rw [hpts, lits, lits]

/-- 16-bit samples up to 100 -/
example (kde : List (Fl ℝ × Fl ℝ) → List (Fl ℝ) → List (Fl ℝ) → Py (List (List (Fl ℝ)))) :
    Narrow.kernel kde ⟨16, true⟩ [3, -100, 7] [1, 2, 50] 64 = KernelDetect.kernel kde (fins [3, -100, 7]) (fins [1, 2, 50]) 64 := by
  have := C232_exact 16 [3, -100, 7] [1, 2, 50] rfl 100 (by simp) (by simp) (by norm_num) (by norm_num) (by norm_num) kde 64
  simpa [toK] using this

/-- **C232** the lengths do not survive: at `θ = π/2` the samples `(0, 0)` and `(1, 0)` of an 8-bit unsigned recording, one count apart,
end up 255 apart. -/
theorem C232_apart : (Narrow.transform ⟨8, false⟩ (fin (Real.pi / 2)) 0 0 : Fl ℝ × Fl ℝ) = (fin 0, fin 0) ∧
    (Narrow.transform ⟨8, false⟩ (fin (Real.pi / 2)) 1 0 : Fl ℝ × Fl ℝ) = (fin 0, fin 255) := by
  constructor
  · rw [C232_unsigned 8 (by norm_num) _ 0 0 (by simp [Represents])]; simp
  · rw [C232_unsigned 8 (by norm_num) _ 1 0 (by simp [Represents])]; norm_num

end Proadv.Props
