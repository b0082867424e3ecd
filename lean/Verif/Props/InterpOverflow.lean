import Verif.Props.AroundRnd
import Verif.Props.Overflow

set_option linter.unusedSectionVars false

/-!
# Overflow in `linear_interpolation` (C252)

Two intermediate results can overflow although samples and result are far from the largest number: the difference of the two
neighbours of a block, and the product with `10 ** decimals` in the final `np.around`, which is applied to every sample.
-/

namespace Proadv.Props

open Proadv Replace Descriptive Fl

variable {K : Type} [Field K] [LinearOrder K] [IsStrictOrderedRing K] [FloorRing K] {O : OArith K} {u : K}

/-- the infinity of the sign of `y` -/
def sinf (O : OArith K) (y : K) : Ov O := if 0 < y then Ov.inf O else (Fl.ninf : Fl K)

private theorem sinf_pos {y : K} (h : 0 < y) : sinf O y = (Fl.pinf : Fl K) := if_pos h

private theorem sinf_neg {y : K} (h : ¬ 0 < y) : sinf O y = (Fl.ninf : Fl K) := if_neg h

/-- the product and the quotient of `np.around(x, d)` do not overflow -/
def AroundFits (O : OArith K) (d : Int) (x : K) : Prop :=
  |O.rnd (x * 10 ^ d)| ≤ O.top ∧ |O.rnd ((rint (O.rnd (x * 10 ^ d)) : K) / 10 ^ d)| ≤ O.top

private theorem ten_pos' (d : Int) : (0 : K) < 10 ^ d := zpow_pos (by norm_num) d

private theorem squash_big {y : K} (h : O.top < |O.rnd y|) : Ov.squash O (Fl.fin y) = sinf O (O.rnd y) := by
  show (if |O.rnd y| ≤ O.top then Fl.fin (O.rnd y) else if 0 < O.rnd y then Fl.pinf else Fl.ninf) = _
  rw [if_neg (not_le.mpr h)]; rfl

private theorem around_big {d : Int} {x : K} (h : O.top < |O.rnd (x * 10 ^ d)|) :
    PyNum.around (Ov.fin O x) d = sinf O (O.rnd (x * 10 ^ d)) := by
  show Ov.around O (Fl.fin x) d = _
  unfold Ov.around
  dsimp only
  rw [squash_big h]
  by_cases hp : 0 < O.rnd (x * 10 ^ d)
  · rw [sinf_pos hp]
  · rw [sinf_neg hp]

private theorem around_fits {d : Int} {x : K} (h : AroundFits O d x) :
    PyNum.around (Ov.fin O x) d = Ov.fin O (O.rnd ((rint (O.rnd (x * 10 ^ d)) : K) / 10 ^ d)) := by
  show Ov.around O (Fl.fin x) d = _
  unfold Ov.around
  dsimp only
  rw [Ov.squash_ok h.1]
  dsimp only
  rw [Ov.squash_ok h.2]
  rfl

private theorem around_sinf (y : K) (d : Int) : PyNum.around (sinf O y) d = sinf O y := by
  by_cases hp : 0 < y
  · rw [sinf_pos hp]; rfl
  · rw [sinf_neg hp]; rfl

private theorem sinf_div (y : K) {c : K} (hc : 0 < c) : (sinf O y /. Ov.fin O c) = sinf O y := by
  show Ov.squash O (Fl.div (sinf O y) (Fl.fin c)) = sinf O y
  by_cases hp : 0 < y
  · rw [sinf_pos hp]; simp only [Fl.div]; rw [if_pos hc.le]; rfl
  · rw [sinf_neg hp]; simp only [Fl.div]; rw [if_pos hc.le]; rfl

private theorem sinf_mul (y : K) {c : K} (hc : 0 < c) : (sinf O y *. Ov.fin O c) = sinf O y := by
  show Ov.squash O (Fl.mul (sinf O y) (Fl.fin c)) = sinf O y
  by_cases hp : 0 < y
  · rw [sinf_pos hp]; simp only [Fl.mul, Fl.infSgn]; rw [if_neg hc.ne', if_pos hc]; rfl
  · rw [sinf_neg hp]; simp only [Fl.mul, Fl.infSgn]
    rw [if_neg (neg_ne_zero.mpr hc.ne'), if_neg (by linarith)]; rfl

private theorem add_sinf (a y : K) : (Ov.fin O a +. sinf O y) = sinf O y := by
  show Ov.squash O (Fl.add (Fl.fin a) (sinf O y)) = sinf O y
  by_cases hp : 0 < y
  · rw [sinf_pos hp]; rfl
  · rw [sinf_neg hp]; rfl

private theorem raw_ov (xs : List K) (sp : List Nat) (hne : sp ≠ []) (hs : sp.Pairwise (· < ·)) (hin : ∀ i ∈ sp, i < xs.length) (d : Int) :
    ∃ raw out : List (Ov O), linearInterpolation ⟨1, false, Ov.fins O xs⟩ (sp.map (fun i : Nat => (i : Int))) d = .ok out ∧
      out = raw.map (fun x => PyNum.around x d) ∧ (∀ k, k ∉ sp → raw[k]? = (Ov.fins O xs)[k]?) ∧
      ∀ s e, IsRun sp s e → ∀ k, s ≤ k → k ≤ e → raw[k]? = some (runVal (Ov.fins O xs) s e k) := by
  obtain ⟨raw, r1, -, r3, r4⟩ := li_raw (F := Ov O) rfl (Ov.fins O xs) (by
    intro x hx'
    obtain ⟨z, -, rfl⟩ := List.mem_map.mp hx'
    rfl) sp hne hs (by simpa using hin)
  refine ⟨raw, _, ?_, rfl, r3, r4⟩
  unfold linearInterpolation
  rw [r1]; rfl

/-- **C252** A sample that is not a spike is returned as an infinity of its sign when its product with `10 ** decimals` overflows, and as
an ordinary number when product and quotient of the rounding do not; no assumption on the arithmetic. -/
theorem C252_samples (O : OArith K) (xs : List K) (sp : List Nat) (hne : sp ≠ []) (hs : sp.Pairwise (· < ·)) (hin : ∀ i ∈ sp, i < xs.length)
    (d : Int) :
    ∃ out, linearInterpolation ⟨1, false, Ov.fins O xs⟩ (sp.map (fun i : Nat => (i : Int))) d = .ok out ∧
      ∀ (i : ℕ) (x : K), i ∉ sp → xs[i]? = some x →
        (O.top < |O.rnd (x * 10 ^ d)| → out[i]? = some (sinf O (O.rnd (x * 10 ^ d)))) ∧
        (AroundFits O d x → out[i]? = some (Ov.fin O (O.rnd ((rint (O.rnd (x * 10 ^ d)) : K) / 10 ^ d)))) := by
  obtain ⟨raw, out, h1, rfl, h2, -⟩ := raw_ov (O := O) xs sp hne hs hin d
  refine ⟨_, h1, fun i x hi hx => ?_⟩
  have e : (Ov.fins O xs)[i]? = some (Ov.fin O x) := by rw [List.getElem?_map, hx]; rfl
  rw [List.getElem?_map, h2 i hi, e, Option.map_some]
  exact ⟨fun h => congrArg some (around_big h), fun h => congrArg some (around_fits h)⟩

/-- **C252** When the difference of the two samples next to a block of spikes overflows, the whole block is filled with infinities,
whatever the number of decimals. -/
theorem C252_gap (O : OArith K) (xs : List K) (sp : List Nat) (hs : sp.Pairwise (· < ·)) (hin : ∀ i ∈ sp, i < xs.length)
    (s e : Nat) (hr : IsRun sp s e) (h0 : 0 < s) (h1 : e + 1 < xs.length) (hnat : ∀ m : ℕ, m ≤ e - s + 2 → Over.Nat? O m) (d : Int)
    (hbig : O.top < |O.rnd (xs.getD (e + 1) 0 - xs.getD (s - 1) 0)|) :
    ∃ out, linearInterpolation ⟨1, false, Ov.fins O xs⟩ (sp.map (fun i : Nat => (i : Int))) d = .ok out ∧
      ∀ k, s ≤ k → k ≤ e → out[k]? = some (sinf O (O.rnd (xs.getD (e + 1) 0 - xs.getD (s - 1) 0))) := by
  have hne : sp ≠ [] := by rintro rfl; exact absurd (hr.2.1 s (le_refl _) hr.1) (by simp)
  have hse := hr.1
  obtain ⟨raw, out, p1, rfl, -, p2⟩ := raw_ov (O := O) xs sp hne hs hin d
  refine ⟨_, p1, fun k k1 k2 => ?_⟩
  have hget : ∀ i, i < xs.length → (Ov.fins O xs).getD i PyNum.nan = Ov.fin O (xs.getD i 0) := fun i hi => by
    simp [List.getD_eq_getElem?_getD, hi]
  have hg : (lit (((e : Int) - s + 2 : Int) : ℚ) : Ov O) = Ov.fin O ((e - s + 2 : ℕ) : K) := by
    have e1 : (((e : Int) - s + 2 : Int) : ℚ) = ((e - s + 2 : ℕ) : ℚ) := by
      push_cast [Nat.cast_sub hse]; ring
    obtain ⟨q1, q2⟩ := hnat (e - s + 2) (le_refl _)
    rw [e1, Ov.lit_num (by rw [Rat.cast_natCast]; exact q1) (by rw [Rat.cast_natCast]; exact q2), Rat.cast_natCast]
  have hg0 : (0 : K) < ((e - s + 2 : ℕ) : K) := by exact_mod_cast (by omega : 0 < e - s + 2)
  have hk0 : (0 : K) < ((k - s + 1 : ℕ) : K) := by exact_mod_cast (by omega : 0 < k - s + 1)
  rw [List.getElem?_map, p2 s e hr k k1 k2, Option.map_some]
  congr 1
  have hv : runVal (Ov.fins O xs) s e k = sinf O (O.rnd (xs.getD (e + 1) 0 - xs.getD (s - 1) 0)) := by
    unfold runVal
    rw [List.length_map, if_pos h1, if_pos h0]
    simp only [hget _ h1, hget (s - 1) (by omega)]
    obtain ⟨q1, q2⟩ := hnat (k - s + 1) (by omega)
    rw [hg, Ov.ofNat_num q1 q2]
    generalize xs.getD (e + 1) 0 = b at *
    generalize xs.getD (s - 1) 0 = a at *
    have t1 : (Ov.fin O b -. Ov.fin O a) = sinf O (O.rnd (b - a)) := by
      show Ov.squash O (Fl.sub (Fl.fin b) (Fl.fin a)) = _
      have : Fl.sub (Fl.fin b) (Fl.fin a) = Fl.fin (b - a) := by simp [Fl.sub, sub_eq_add_neg]
      rw [this, squash_big hbig]
    rw [t1]
    rw [sinf_div _ hg0, sinf_mul _ hk0, add_sinf]
  rw [hv]
  exact around_sinf _ _

/-- **C252** When that difference does not overflow, nor the rounding of the two samples, the block is filled with ordinary numbers between
the values returned for the two samples. -/
theorem C252_block (O : OArith K) (h : Rounding O.rnd u) (hodd : ∀ x, O.rnd (-x) = -O.rnd x) (xs : List K)
    (hx : ∀ x ∈ xs, O.rnd x = x ∧ |x| ≤ O.top) (sp : List Nat) (hs : sp.Pairwise (· < ·)) (hin : ∀ i ∈ sp, i < xs.length) (s e : Nat)
    (hr : IsRun sp s e) (h0 : 0 < s) (h1 : e + 1 < xs.length) (hn : 4 * u * (e - s + 2 : ℕ) ≤ 1)
    (hnat : ∀ m : ℕ, m ≤ e - s + 2 → Over.Nat? O m) (d : Int)
    (hgap : |O.rnd (xs.getD (e + 1) 0 - xs.getD (s - 1) 0)| ≤ O.top) (ha : AroundFits O d (xs.getD (s - 1) 0))
    (hb : AroundFits O d (xs.getD (e + 1) 0)) :
    ∃ out, linearInterpolation ⟨1, false, Ov.fins O xs⟩ (sp.map (fun i : Nat => (i : Int))) d = .ok out ∧
      ∃ p q : K, out[s - 1]? = some (Ov.fin O p) ∧ out[e + 1]? = some (Ov.fin O q) ∧
        ∀ k, s ≤ k → k ≤ e → ∃ y : K, out[k]? = some (Ov.fin O y) ∧ min p q ≤ y ∧ y ≤ max p q := by
  have hne : sp ≠ [] := by rintro rfl; exact absurd (hr.2.1 s (le_refl _) hr.1) (by simp)
  have hse := hr.1
  obtain ⟨raw, out, p1, rfl, p3, p2⟩ := raw_ov (O := O) xs sp hne hs hin d
  have hget : ∀ i, i < xs.length → (Ov.fins O xs).getD i PyNum.nan = Ov.fin O (xs.getD i 0) := fun i hi => by
    simp [List.getD_eq_getElem?_getD, hi]
  have hget' : ∀ i, i < xs.length → (Ov.fins O xs)[i]? = some (Ov.fin O (xs.getD i 0)) := fun i hi => by
    simp [List.getD_eq_getElem?_getD, hi]
  have hmem : ∀ i, i < xs.length → O.rnd (xs.getD i 0) = xs.getD i 0 ∧ |xs.getD i 0| ≤ O.top := fun i hi => by
    have : xs.getD i 0 = xs[i] := by simp [List.getD_eq_getElem?_getD, hi]
    rw [this]; exact hx _ (List.getElem_mem hi)
  obtain ⟨ra, ta⟩ := hmem (s - 1) (by omega)
  obtain ⟨rb, tb⟩ := hmem (e + 1) h1
  have hg : (lit (((e : Int) - s + 2 : Int) : ℚ) : Ov O) = Ov.fin O ((e - s + 2 : ℕ) : K) := by
    have e1 : (((e : Int) - s + 2 : Int) : ℚ) = ((e - s + 2 : ℕ) : ℚ) := by
      push_cast [Nat.cast_sub hse]; ring
    obtain ⟨q1, q2⟩ := hnat (e - s + 2) (le_refl _)
    rw [e1, Ov.lit_num (by rw [Rat.cast_natCast]; exact q1) (by rw [Rat.cast_natCast]; exact q2), Rat.cast_natCast]
  have hg0 : (0 : K) < ((e - s + 2 : ℕ) : K) := by exact_mod_cast (by omega : 0 < e - s + 2)
  have hg1 : (1 : K) ≤ ((e - s + 2 : ℕ) : K) := by exact_mod_cast (by omega : 1 ≤ e - s + 2)
  let g : K → K := fun x => O.rnd ((rint (O.rnd (x * 10 ^ d)) : K) / 10 ^ d)
  have hp : Monotone (fun x : K => O.rnd (x * 10 ^ d)) := fun x y hxy => h.mono (mul_le_mul_of_nonneg_right hxy (ten_pos' d).le)
  have hgm : Monotone g := fun x y hxy => h.mono (div_le_div_of_nonneg_right (by exact_mod_cast rint_mono (hp hxy)) (ten_pos' d).le)
  -- a monotone function of a number between two others is bounded by its values there
  have between : ∀ {f : K → K}, Monotone f → ∀ {a b y : K}, min a b ≤ y → y ≤ max a b → |f a| ≤ O.top → |f b| ≤ O.top → |f y| ≤ O.top := by
    intro f hf a b y y1 y2 fa fb
    have m1 := hf y1
    have m2 := hf y2
    rw [hf.map_min] at m1
    rw [hf.map_max] at m2
    rw [abs_le] at fa fb ⊢
    exact ⟨le_trans (le_min fa.1 fb.1) m1, le_trans m2 (max_le fa.2 fb.2)⟩
  have habs : ∀ y : K, |O.rnd y| = O.rnd |y| := fun y => by
    rcases le_total 0 y with hy | hy
    · rw [abs_of_nonneg hy, abs_of_nonneg]
      have := h.mono hy; rwa [h.zero] at this
    · rw [abs_of_nonpos hy, hodd, abs_of_nonpos]
      have := h.mono hy; rwa [h.zero] at this
  refine ⟨_, p1, g (xs.getD (s - 1) 0), g (xs.getD (e + 1) 0), ?_, ?_, fun k k1 k2 => ?_⟩
  · rw [List.getElem?_map, p3 _ (hr.2.2.1 h0), hget' _ (by omega), Option.map_some, around_fits ha]
  · rw [List.getElem?_map, p3 _ hr.2.2.2, hget' _ h1, Option.map_some, around_fits hb]
  · have hk0 : (0 : K) ≤ ((k - s + 1 : ℕ) : K) := Nat.cast_nonneg _
    obtain ⟨c1, c2, -⟩ := chordR_range (A := O.toArith) h hodd ra rb (i := k - s + 1) (n := e - s + 2) (by omega) hn
    have hv : runVal (Ov.fins O xs) s e k = Ov.fin O (chordR O.toArith (xs.getD (s - 1) 0) (xs.getD (e + 1) 0) (e - s + 2) (k - s + 1)) := by
      unfold runVal
      rw [List.length_map, if_pos h1, if_pos h0]
      simp only [hget _ h1, hget (s - 1) (by omega)]
      obtain ⟨q1, q2⟩ := hnat (k - s + 1) (by omega)
      rw [hg, Ov.ofNat_num q1 q2]
      have hlt : k - s + 1 < e - s + 2 := by omega
      revert c1 c2
      generalize hn' : e - s + 2 = n at *
      generalize k - s + 1 = i at *
      generalize xs.getD (e + 1) 0 = b at *
      generalize xs.getD (s - 1) 0 = a at *
      intro c1 c2
      have t1 : (Ov.fin O b -. Ov.fin O a) = Ov.fin O (O.rnd (b - a)) := by
        show Ov.squash O (Fl.sub (Fl.fin b) (Fl.fin a)) = _
        have : Fl.sub (Fl.fin b) (Fl.fin a) = Fl.fin (b - a) := by simp [Fl.sub, sub_eq_add_neg]
        rw [this, Ov.squash_ok hgap]; rfl
      have t2 : (Ov.fin O (O.rnd (b - a)) /. Ov.fin O (n : K)) = Ov.fin O (O.rnd (O.rnd (b - a) / n)) := by
        show Ov.squash O (Fl.div (Fl.fin (O.rnd (b - a))) (Fl.fin (n : K))) = _
        have : Fl.div (Fl.fin (O.rnd (b - a))) (Fl.fin (n : K)) = Fl.fin (O.rnd (b - a) / n) := by simp [Fl.div, hg0.ne']
        rw [this, Ov.squash_ok]; rfl
        refine le_trans ?_ hgap
        rw [habs, habs (b - a)]
        have l1 : |O.rnd (b - a) / (n : K)| ≤ O.rnd |b - a| := by
          rw [abs_div, abs_of_pos hg0, ← habs]
          exact div_le_self (abs_nonneg _) hg1
        have l2 := h.mono l1
        rwa [h.idem] at l2
      have t3 : (Ov.fin O (O.rnd (O.rnd (b - a) / n)) *. Ov.fin O (i : K)) = Ov.fin O (O.rnd (O.rnd (O.rnd (b - a) / n) * i)) := by
        show Ov.squash O (Fl.fin (O.rnd (O.rnd (b - a) / n) * i)) = _
        rw [Ov.squash_ok]; rfl
        refine le_trans ?_ hgap
        have r := (rise (A := O.toArith) h (abs_nonneg (b - a)) hlt hn).2.1
        have l1 : |O.rnd (O.rnd (O.rnd (b - a) / n) * i)| = O.rnd (O.rnd (O.rnd |b - a| / n) * i) := by
          rw [habs, abs_mul, habs, abs_div, habs, abs_of_pos hg0, abs_of_nonneg hk0]
        rw [l1, habs]
        have l2 := h.mono r
        rwa [h.idem] at l2
      have t4 : (Ov.fin O a +. Ov.fin O (O.rnd (O.rnd (O.rnd (b - a) / n) * i))) = Ov.fin O (chordR O.toArith a b n i) := by
        show Ov.squash O (Fl.fin (a + O.rnd (O.rnd (O.rnd (b - a) / n) * i))) = _
        rw [Ov.squash_ok]; rfl
        exact between monotone_id c1 c2 ta tb
      rw [t1, t2, t3, t4]
    refine ⟨g (chordR O.toArith (xs.getD (s - 1) 0) (xs.getD (e + 1) 0) (e - s + 2) (k - s + 1)), ?_, ?_, ?_⟩
    · rw [List.getElem?_map, p2 s e hr k k1 k2, Option.map_some, hv,
        around_fits ⟨between hp c1 c2 ha.1 hb.1, between hgm c1 c2 ha.2 hb.2⟩]
    · rw [← hgm.map_min]; exact hgm c1
    · rw [← hgm.map_max]; exact hgm c2

/-- **C252** binary64: with the default of 4 decimals the sample 2¹⁰²⁰ is returned as infinity although it is not a spike, and the spike
between `-2¹⁰²³` and `2¹⁰²³` is replaced by infinity although the chord passes through 0. -/
theorem C252_binary64 :
    linearInterpolation ⟨1, false, Ov.fins bin64o [2 ^ 1020, 7, 1]⟩ [1] 4 =
      .ok [Ov.inf bin64o, Ov.inf bin64o, Ov.fin bin64o 1] ∧
    linearInterpolation ⟨1, false, Ov.fins bin64o [-2 ^ 1023, 7, 2 ^ 1023]⟩ [1] 0 =
      .ok [Ov.fin bin64o (-2 ^ 1023), Ov.inf bin64o, Ov.fin bin64o (2 ^ 1023)] := by
  decide +kernel

/-- the hypotheses of `C252_block` are met -/
example : ∃ out, linearInterpolation ⟨1, false, Ov.fins bin64o [1, 7, 2]⟩ [1] 4 = .ok out ∧
    ∃ p q : ℚ, out[0]? = some (Ov.fin bin64o p) ∧ out[2]? = some (Ov.fin bin64o q) ∧
      ∀ k, 1 ≤ k → k ≤ 1 → ∃ y : ℚ, out[k]? = some (Ov.fin bin64o y) ∧ min p q ≤ y ∧ y ≤ max p q :=
  C252_block bin64o rnd53_rounding rnd53_neg [1, 7, 2] (by decide +kernel) [1] (by simp) (by simp) 1 1
    ⟨le_refl _, fun m h1 h2 => by simp; omega, by simp, by simp⟩ (by norm_num) (by simp) (by norm_num)
    (fun m hm => bin64o_nat m (by omega)) 4 (by decide +kernel) ⟨by decide +kernel, by decide +kernel⟩ ⟨by decide +kernel, by decide +kernel⟩

end Proadv.Props
