import Verif.Props.Bivariate
import Mathlib.Analysis.SpecialFunctions.Trigonometric.Basic

/-!
# Properties C88–C90, C109: cosine transform, functional recursion and the estimator of `kernel/bivariate.py`
-/

set_option linter.unusedSectionVars false

namespace Proadv.Props

open Proadv Fl Bivariate KernelDetect

/-! ## C88 -/

theorem everyOther_getElem? {α : Type} : ∀ (l : List α) (i : Nat), (everyOther l)[i]? = l[2 * i]?
  | [], i => by simp [everyOther]
  | [a], 0 => by simp [everyOther]
  | [a], i + 1 => by
    rw [everyOther]; rw [List.getElem?_eq_none (by simp), List.getElem?_eq_none (by simp; omega)]
  | a :: b :: t, 0 => by simp [everyOther]
  | a :: b :: t, i + 1 => by
    rw [everyOther, List.getElem?_cons_succ, everyOther_getElem? t i, show 2 * (i + 1) = 2 * i + 1 + 1 by ring]
    simp

theorem everyOther_length {α : Type} : ∀ l : List α, (everyOther l).length = (l.length + 1) / 2
  | [] => by simp [everyOther]
  | [a] => by simp [everyOther]
  | a :: b :: t => by
    rw [everyOther, List.length_cons, everyOther_length t]
    simp only [List.length_cons]; omega

/-- **C88.** number of reordered rows: the order if even, one more if odd -/
theorem C88_reorder_length {α : Type} (l : List α) : (reorder l).length = l.length + l.length % 2 := by
  unfold reorder
  rw [List.length_append, everyOther_length, everyOther_length, List.length_reverse]; omega

theorem everyOther_append {α : Type} : ∀ (u v : List α), u.length % 2 = 0 → everyOther (u ++ v) = everyOther u ++ everyOther v
  | [], v, _ => by simp [everyOther]
  | [a], v, h => by simp at h
  | a :: b :: t, v, h => by
    simp only [List.cons_append, everyOther]
    rw [everyOther_append t v (by simp only [List.length_cons] at h; omega)]

/-- **C88.** for even order the reordering is a permutation of the rows -/
theorem C88_reorder_perm {α : Type} : ∀ (l : List α), l.length % 2 = 0 → (reorder l).Perm l
  | [], _ => by simp [reorder, everyOther]
  | [a], h => by simp at h
  | a :: b :: t, h => by
    have ht : t.length % 2 = 0 := by simp only [List.length_cons] at h; omega
    have ih := C88_reorder_perm t ht
    unfold reorder at ih ⊢
    have e : (a :: b :: t).reverse = t.reverse ++ [b, a] := by simp
    rw [e, everyOther_append _ _ (by rw [List.length_reverse]; exact ht)]
    simp only [everyOther, List.cons_append]
    refine List.Perm.cons a ?_
    rw [← List.append_assoc]
    exact (List.perm_append_singleton b _).trans (List.Perm.cons b ih)

/-- **C88.** a matrix whose number of rows differs from its number of columns is refused, over any number type -/
theorem C88_square {F : Type} [PyMath F] (m : List (List F)) (h : m.length ≠ (m.headD []).length) : dct2 m = .error .valueError := by
  unfold dct2; rw [if_pos h]

/-- **C88.** a square matrix of odd order `≥ 3` is refused, over any number type; so is the empty matrix -/
theorem C88_odd {F : Type} [PyMath F] (m : List (List F)) (h : m.length % 2 = 1) (h3 : 3 ≤ m.length) : dct2 m = .error .valueError := by
  unfold dct2
  split
  · rfl
  · have hw : (weights m.length : List (F × F)).length = m.length := by simp [weights]; omega
    have : dct1 m (weights m.length) = .error .valueError := by
      unfold dct1
      simp only
      split
      · rfl
      · rw [if_pos]
        rw [hw, C88_reorder_length]; omega
    rw [this]; rfl

theorem C88_empty {F : Type} [PyMath F] : dct2 ([] : List (List F)) = .error .valueError := rfl

/-! ### the transform in closed form -/

theorem sum_range_list (k : Nat) (f : Nat → ℝ) : ((List.range k).map f).sum = ∑ i ∈ Finset.range k, f i := by
  induction k with
  | zero => simp
  | succ k ih => rw [List.range_succ, List.map_append, List.sum_append, ih, Finset.sum_range_succ]; simp

theorem mapIdx_range {α β : Type} (n : Nat) (f : Nat → α) (g : Nat → α → β) :
    ((List.range n).map f).mapIdx g = (List.range n).map (fun k => g k (f k)) := by
  apply List.ext_getElem (by simp)
  intro i h1 h2; simp

theorem transpose_matOf (n m : Nat) (hn : 0 < n) (c : Nat → Nat → ℝ) : transpose (matOf n m c) = matOf m n (fun i j => c j i) := by
  unfold transpose matOf
  obtain ⟨k, rfl⟩ : ∃ k, n = k + 1 := ⟨n - 1, by omega⟩
  have hh : (((List.range (k + 1)).map (fun i => (List.range m).map (fun j => (fin (c i j) : Fl ℝ)))).headD []).length = m := by
    rw [List.range_succ_eq_map]; simp
  rw [hh]
  refine List.map_congr_left fun j hj => ?_
  rw [List.map_map]
  refine List.map_congr_left fun i _ => ?_
  have : j < m := List.mem_range.mp hj
  simp [this]

theorem matOf_length (n m : Nat) (c : Nat → Nat → ℝ) : (matOf n m c).length = n := by simp [matOf]

theorem matOf_head (n m : Nat) (hn : 0 < n) (c : Nat → Nat → ℝ) : ((matOf n m c).headD []).length = m := by
  obtain ⟨k, rfl⟩ : ∃ k, n = k + 1 := ⟨n - 1, by omega⟩
  unfold matOf; rw [List.range_succ_eq_map]; simp

namespace BSpec

/-- source row of reordered row `i`: 0, 2, 4, …, then n-1, n-3, …, 1 -/
def src (n i : Nat) : Nat := if 2 * i < n then 2 * i else 2 * n - 1 - 2 * i

/-- weight modulus -/
def w (i : Nat) : ℝ := if i = 0 then 1 else 2

/-- DCT-II down the columns of an `n × n` matrix -/
noncomputable def dctII (n : Nat) (c : Nat → Nat → ℝ) (i j : Nat) : ℝ :=
  w i * ∑ k ∈ Finset.range n, c k j * Real.cos (Real.pi * i * (2 * k + 1) / (2 * n))

/-- what `_discrete_cosine_1d` computes -/
noncomputable def step (n : Nat) (c : Nat → Nat → ℝ) (i j : Nat) : ℝ :=
  w i * ∑ k ∈ Finset.range n, c (src n i) k * Real.cos (Real.pi * i / (2 * n) + 2 * Real.pi * (j * k) / n)

/-- the same with the Fourier transform taken down the columns -/
noncomputable def stepColumns (n : Nat) (c : Nat → Nat → ℝ) (i j : Nat) : ℝ :=
  w i * ∑ k ∈ Finset.range n, c (src n k) j * Real.cos (Real.pi * i / (2 * n) + 2 * Real.pi * (i * k) / n)

end BSpec

theorem reorder_range {α : Type} (n : Nat) (h : n % 2 = 0) (f : Nat → α) :
    reorder ((List.range n).map f) = (List.range n).map (fun i => f (BSpec.src n i)) := by
  apply List.ext_getElem?
  intro i
  unfold reorder
  have hl : (everyOther ((List.range n).map f)).length = n / 2 := by rw [everyOther_length]; simp; omega
  rw [List.getElem?_append, hl]
  split
  · rename_i hi
    rw [everyOther_getElem?]
    have h1 : 2 * i < n := by omega
    have h2 : i < n := by omega
    simp [h1, h2, BSpec.src]
  · rename_i hi
    rw [everyOther_getElem?]
    by_cases h2 : i < n
    · rw [List.getElem?_reverse (by simp; omega)]
      have h1 : ¬ 2 * i < n := by omega
      have e : ((List.range n).map f).length - 1 - 2 * (i - n / 2) = 2 * n - 1 - 2 * i := by simp; omega
      rw [e]
      have h3 : 2 * n - 1 - 2 * i < n := by omega
      simp [h1, h2, h3, BSpec.src]
    · rw [List.getElem?_eq_none (by simp; omega), List.getElem?_eq_none (by simp; omega)]

theorem fft_row (m : Nat) (hm : 0 < m) (x : Nat → ℝ) (j : Nat) :
    fftEntry ((List.range m).map (fun k => (fin (x k) : Fl ℝ))) j =
      (fin (∑ k ∈ Finset.range m, x k * Real.cos (2 * Real.pi * (j * k) / m)),
       fin (-∑ k ∈ Finset.range m, x k * Real.sin (2 * Real.pi * (j * k) / m))) := by
  have hm' : (m : ℝ) ≠ 0 := by exact_mod_cast hm.ne'
  have ang : ∀ k : Nat, (lit (-2) *. PyMath.pi *. ofNat (j * k) /. ofNat m : Fl ℝ) = fin (-(2 * Real.pi * (j * k) / m)) := by
    intro k
    show (lit (-2) *. fin Real.pi *. ofNat (j * k) /. ofNat m : Fl ℝ) = _
    simp only [lit_eq, ofNat_eq, pmul_fin, pdiv_fin hm']
    congr 1; push_cast; ring
  unfold fftEntry
  simp only [List.length_map, List.length_range, ang, mapIdx_range]
  have e1 : (List.range m).map (fun k => (fin (x k) *. PyMath.cos (fin (-(2 * Real.pi * (j * k) / m))) : Fl ℝ))
      = fins ((List.range m).map (fun k : Nat => x k * Real.cos (2 * Real.pi * (j * k) / m))) := by
    unfold fins; rw [List.map_map]
    exact List.map_congr_left fun k _ => by simp
  have e2 : (List.range m).map (fun k => (fin (x k) *. PyMath.sin (fin (-(2 * Real.pi * (j * k) / m))) : Fl ℝ))
      = fins ((List.range m).map (fun k : Nat => -(x k * Real.sin (2 * Real.pi * (j * k) / m)))) := by
    unfold fins; rw [List.map_map]
    exact List.map_congr_left fun k _ => by simp
  rw [e1, e2, show PyNum.sum (fins _) = (fin _ : Fl ℝ) from psum_fin _, show PyNum.sum (fins _) = (fin _ : Fl ℝ) from psum_fin _,
    sum_range_list, sum_range_list, Finset.sum_neg_distrib]

theorem weights_getD (n i : Nat) (hi : i < n) (d : Fl ℝ × Fl ℝ) :
    (weights n : List (Fl ℝ × Fl ℝ)).getD i d =
      (fin (BSpec.w i * Real.cos (Real.pi * i / (2 * n))), fin (-(BSpec.w i * Real.sin (Real.pi * i / (2 * n))))) := by
  have hn : ((2 * n : ℕ) : ℝ) ≠ 0 := by
    have : 2 * n ≠ 0 := by omega
    exact_mod_cast this
  unfold weights
  rcases i with _ | i
  · simp [BSpec.w]
  · rw [List.getD_cons_succ, List.getD_eq_getElem?_getD (l := _), List.getElem?_map, List.getElem?_range (by omega)]
    have ang : (PyNum.neg (ofNat (i + 1)) *. PyMath.pi /. ofNat (2 * n) : Fl ℝ) = fin (-(Real.pi * ((i : ℝ) + 1) / (2 * n))) := by
      show (PyNum.neg (ofNat (i + 1)) *. fin Real.pi /. ofNat (2 * n) : Fl ℝ) = _
      simp only [ofNat_eq, pneg_fin, pmul_fin, pdiv_fin hn]
      congr 1; push_cast; ring
    simp only [Option.map_some, Option.getD_some, ang]
    simp [BSpec.w]

/-- **C88 / C109.** on a square matrix of even order the pass succeeds and computes `BSpec.step`: the Fourier sum runs along the
row, with frequency the column index -/
theorem C109_formula (n : Nat) (h0 : 0 < n) (h : n % 2 = 0) (c : Nat → Nat → ℝ) :
    dct1 (matOf n n c) (weights n) = .ok (matOf n n (BSpec.step n c)) := by
  have hw : (weights n : List (Fl ℝ × Fl ℝ)).length = n := by simp [weights]; omega
  unfold dct1
  simp only
  rw [matOf_head n n h0, if_neg h0.ne', hw, if_neg (by
    rw [C88_reorder_length, matOf_length]; omega)]
  congr 1
  unfold matOf
  rw [reorder_range n h, mapIdx_range]
  refine List.map_congr_left fun i hi => ?_
  rw [List.length_map, List.length_range]
  refine List.map_congr_left fun j _ => ?_
  have hi' := List.mem_range.mp hi
  have hb : bidx n i = i := by unfold bidx; rw [if_neg (by omega)]
  rw [hb, fft_row n h0, weights_getD n i hi']
  simp only [pmul_fin, psub_fin]
  congr 1
  unfold BSpec.step
  rw [Finset.sum_congr rfl (fun k _ => by
    rw [Real.cos_add, mul_sub] :
    ∀ k ∈ Finset.range n, c (BSpec.src n i) k * Real.cos (Real.pi * i / (2 * n) + 2 * Real.pi * (j * k) / n) = _)]
  rw [Finset.sum_sub_distrib]
  have e1 : ∑ k ∈ Finset.range n, c (BSpec.src n i) k * (Real.cos (Real.pi * i / (2 * n)) * Real.cos (2 * Real.pi * (j * k) / n))
      = Real.cos (Real.pi * i / (2 * n)) * ∑ k ∈ Finset.range n, c (BSpec.src n i) k * Real.cos (2 * Real.pi * (j * k) / n) := by
    rw [Finset.mul_sum]; exact Finset.sum_congr rfl fun k _ => by ring
  have e2 : ∑ k ∈ Finset.range n, c (BSpec.src n i) k * (Real.sin (Real.pi * i / (2 * n)) * Real.sin (2 * Real.pi * (j * k) / n))
      = Real.sin (Real.pi * i / (2 * n)) * ∑ k ∈ Finset.range n, c (BSpec.src n i) k * Real.sin (2 * Real.pi * (j * k) / n) := by
    rw [Finset.mul_sum]; exact Finset.sum_congr rfl fun k _ => by ring
  rw [e1, e2]; ring

/-- **C88.** the two-dimensional transform on a square matrix of even order -/
theorem C88_even (n : Nat) (h0 : 0 < n) (h : n % 2 = 0) (c : Nat → Nat → ℝ) :
    dct2 (matOf n n c) = .ok (matOf n n (fun i j => BSpec.step n (fun a b => BSpec.step n c b a) j i)) := by
  unfold dct2
  rw [matOf_head n n h0, matOf_length, if_neg (by simp), C109_formula n h0 h]
  simp only [bind, Except.bind]
  rw [transpose_matOf n n h0, C109_formula n h0 h]
  simp only
  rw [transpose_matOf n n h0]

/-- **C88.** order 1 is accepted but gives a 2 × 2 matrix -/
theorem C88_order_one (x : ℝ) : ∃ m, dct2 [[(fin x : Fl ℝ)]] = .ok m ∧ m.length = 2 ∧ ∀ r ∈ m, r.length = 2 := by
  refine ⟨_, rfl, ?_, ?_⟩
  · rfl
  · intro r hr
    have : ∀ m : List (List (Fl ℝ)), m.length = 2 → ∀ r ∈ transpose m, r.length = 2 := by
      intro m hm r hr
      obtain ⟨j, -, rfl⟩ := List.mem_map.mp hr
      simpa using hm
    exact this _ (by rfl) r hr

/-! ## C109 -/

theorem cos_two_pi_sub (i : Nat) (x : ℝ) : Real.cos (2 * Real.pi * i - x) = Real.cos x := by
  rw [show 2 * Real.pi * i - x = (i : ℝ) * (2 * Real.pi) - x by ring]
  exact Real.cos_nat_mul_two_pi_sub x i

theorem src_lt (n i : Nat) (h : n % 2 = 0) (hi : i < n) : BSpec.src n i < n := by
  unfold BSpec.src; split <;> omega

/-- **C109.** with the Fourier transform down the columns the same reordering and weights would give the DCT-II -/
theorem C109_intended (n : Nat) (h0 : 0 < n) (h : n % 2 = 0) (c : Nat → Nat → ℝ) (i j : Nat) :
    BSpec.stepColumns n c i j = BSpec.dctII n c i j := by
  have hn : (n : ℝ) ≠ 0 := by exact_mod_cast h0.ne'
  unfold BSpec.stepColumns BSpec.dctII
  congr 1
  refine Finset.sum_bij (fun k _ => BSpec.src n k) (fun k hk => ?_) (fun a ha b hb hab => ?_) (fun b hb => ?_) (fun k hk => ?_)
  · exact Finset.mem_range.mpr (src_lt n k h (Finset.mem_range.mp hk))
  · have := Finset.mem_range.mp ha; have := Finset.mem_range.mp hb
    unfold BSpec.src at hab
    split at hab <;> split at hab <;> omega
  · have hb' := Finset.mem_range.mp hb
    by_cases hp : b % 2 = 0
    · exact ⟨b / 2, Finset.mem_range.mpr (by omega), by unfold BSpec.src; rw [if_pos (by omega)]; omega⟩
    · exact ⟨(2 * n - 1 - b) / 2, Finset.mem_range.mpr (by omega), by unfold BSpec.src; rw [if_neg (by omega)]; omega⟩
  · congr 1
    have hk' := Finset.mem_range.mp hk
    unfold BSpec.src
    split
    · congr 1
      push_cast; field_simp; ring
    · rename_i hlt
      rw [← cos_two_pi_sub i]
      congr 1
      have : ((2 * n - 1 - 2 * k : ℕ) : ℝ) = 2 * n - 1 - 2 * k := by
        rw [Nat.cast_sub (by omega), Nat.cast_sub (by omega)]; push_cast; ring
      rw [this]; field_simp; ring

/-- a concrete input -/
noncomputable def unit2 : Nat → Nat → ℝ := fun i j => if i = 0 ∧ j = 0 then 1 else 0

/-- **C109.** the transform computed is not the DCT-II: on `[[1, 0], [0, 0]]` the pass gives `[[1, 1], [0, 0]]`, the DCT-II is
`[[1, 0], [√2, 0]]` -/
theorem C109_not_dct :
    dct1 (matOf 2 2 unit2) (weights 2) = .ok (matOf 2 2 (fun i _ => if i = 0 then 1 else 0)) ∧
    BSpec.dctII 2 unit2 0 0 = 1 ∧ BSpec.dctII 2 unit2 0 1 = 0 ∧ BSpec.dctII 2 unit2 1 0 = Real.sqrt 2 ∧ BSpec.dctII 2 unit2 1 1 = 0 := by
  refine ⟨?_, ?_, ?_, ?_, ?_⟩
  · rw [C109_formula 2 (by norm_num) (by norm_num)]
    congr 1
    apply matOf_congr
    intro i hi j hj
    interval_cases i
    · simp [BSpec.step, BSpec.w, BSpec.src, unit2]
    · simp [BSpec.step, BSpec.w, BSpec.src, unit2]
  · simp [BSpec.dctII, BSpec.w, unit2]
  · simp [BSpec.dctII, BSpec.w, unit2]
  · have e : Real.pi / (2 * 2) = Real.pi / 4 := by ring
    simp [BSpec.dctII, BSpec.w, unit2]
    rw [e, Real.cos_pi_div_four]; ring
  · simp [BSpec.dctII, BSpec.w, unit2]

/-! ## C90 -/

/-- **C90.** the instrumented recursion returns the value of `_func` and the exact number of `psi` evaluations, over any
number type -/
theorem C90_calls {F : Type} [PyMath F] (s0 s1 : Nat) (t : F) (n : Nat) (ic : List F) (ac2 : List (List F)) :
    funcCounted s0 s1 t n ic ac2 = (func s0 s1 t n ic ac2, if s0 + s1 ≤ 4 then 2 ^ (6 - (s0 + s1)) - 1 else 1) := by
  have key : ∀ d s0 s1 : Nat, 5 - (s0 + s1) ≤ d →
      funcCounted s0 s1 t n ic ac2 = (func s0 s1 t n ic ac2, if s0 + s1 ≤ 4 then 2 ^ (6 - (s0 + s1)) - 1 else 1) := by
    intro d
    induction d with
    | zero =>
      intro s0 s1 h
      rw [funcCounted, func, if_neg (by omega), if_neg (by omega), if_neg (by omega)]
    | succ d ih =>
      intro s0 s1 h
      rw [funcCounted, func]
      by_cases hs : s0 + s1 ≤ 4
      · rw [if_pos hs, if_pos hs, if_pos hs]
        simp only
        rw [ih (s0 + 1) s1 (by omega), ih s0 (s1 + 1) (by omega)]
        refine Prod.ext rfl ?_
        simp only
        have e1 : s0 + 1 + s1 = s0 + s1 + 1 := by omega
        have e2 : s0 + (s1 + 1) = s0 + s1 + 1 := by omega
        rw [e1, e2]
        generalize s0 + s1 = s at *
        interval_cases s <;> rfl
      · rw [if_neg hs, if_neg hs, if_neg hs]
  exact key _ s0 s1 le_rfl

/-- **C90.** five indices or more: no recursion -/
theorem C90_base {F : Type} [PyMath F] (s0 s1 : Nat) (h : 4 < s0 + s1) (t : F) (n : Nat) (ic : List F) (ac2 : List (List F)) :
    func s0 s1 t n ic ac2 = psi s0 s1 t ic ac2 := by
  rw [func, if_neg (by omega)]

/-- the frequency array `[0, 1, 4, 9, …]` -/
noncomputable def freqSq (n : Nat) : List (Fl ℝ) := (List.range n).map (fun i => ofNat i ^. 2)

theorem zipWith_range {α β γ : Type} (n : Nat) (f : Nat → α) (g : Nat → β) (h : α → β → γ) :
    List.zipWith h ((List.range n).map f) ((List.range n).map g) = (List.range n).map (fun k => h (f k) (g k)) := by
  apply List.ext_getElem (by simp)
  intro i h1 h2; simp

/-- the weights of `_psi` -/
noncomputable def BSpec.wt (t : ℝ) (i : Nat) : ℝ := Real.exp (-(i : ℝ) ^ 2 * Real.pi ^ 2 * t) * (if i = 0 then 1 else 1 / 2)

theorem psiWeights_eq (n : Nat) (t : ℝ) : psiWeights (fin t) (freqSq n) = (List.range n).map (fun i => (fin (BSpec.wt t i) : Fl ℝ)) := by
  unfold psiWeights freqSq
  rw [List.map_map, List.length_map, List.length_range]
  rcases n with _ | n
  · simp
  · have e : ((lit 1 : Fl ℝ) :: List.replicate (n + 1 - 1) (lit (1 / 2) *. lit 1)) =
        (List.range (n + 1)).map (fun i => if i = 0 then (fin 1 : Fl ℝ) else fin (1 / 2)) := by
      rw [List.range_succ_eq_map, List.map_cons, List.map_map]
      simp [Function.comp_def, List.map_const']
    rw [e, zipWith_range]
    refine List.map_congr_left fun i _ => ?_
    have hp : (PyMath.pi ^. 2 : Fl ℝ) = fin (Real.pi ^ 2) := by
      show (fin Real.pi ^. 2 : Fl ℝ) = _; rw [pnpow_fin]
    simp only [Function.comp, ofNat_eq, pnpow_fin, pneg_fin, hp, pmul_fin, pexp_fin]
    unfold BSpec.wt
    split <;> rw [pmul_fin]

theorem dot_range (n : Nat) (f g : Nat → ℝ) :
    dot ((List.range n).map (fun i => (fin (f i) : Fl ℝ))) ((List.range n).map (fun i => (fin (g i) : Fl ℝ)))
      = fin (∑ i ∈ Finset.range n, f i * g i) := by
  unfold dot
  rw [zipWith_range]
  have : (List.range n).map (fun k => (fin (f k) *. fin (g k) : Fl ℝ)) = fins ((List.range n).map (fun k => f k * g k)) := by
    unfold fins; rw [List.map_map]; exact List.map_congr_left fun k _ => by simp
  rw [this, show PyNum.sum (fins _) = (fin _ : Fl ℝ) from psum_fin _, sum_range_list]

/-- **C90.** `_psi` in closed form -/
theorem C90_psi (s0 s1 n : Nat) (hn : 0 < n) (t : ℝ) (c : Nat → Nat → ℝ) :
    psi s0 s1 (fin t) (freqSq n) (matOf n n c) =
      fin ((-1) ^ (s0 + s1) * (∑ j ∈ Finset.range n, (∑ i ∈ Finset.range n, BSpec.wt t i * ((i : ℝ) ^ 2) ^ s1 * c i j) *
        (BSpec.wt t j * ((j : ℝ) ^ 2) ^ s0)) * Real.pi ^ (2 * (s0 + s1))) := by
  unfold psi
  simp only
  rw [psiWeights_eq, transpose_matOf n n hn]
  have hw : ∀ s : Nat, List.zipWith (fun x y => x *. y) ((List.range n).map (fun i => (fin (BSpec.wt t i) : Fl ℝ)))
      ((freqSq n).map (fun i => i ^. s)) = (List.range n).map (fun i : Nat => (fin (BSpec.wt t i * ((i : ℝ) ^ 2) ^ s) : Fl ℝ)) := by
    intro s
    unfold freqSq
    rw [List.map_map, zipWith_range]
    refine List.map_congr_left fun i _ => ?_
    simp only [Function.comp, ofNat_eq, pnpow_fin, pmul_fin]
  rw [hw, hw]
  have hcol : (matOf n n (fun i j => c j i)).map (fun col => dot ((List.range n).map (fun i : Nat =>
      (fin (BSpec.wt t i * ((i : ℝ) ^ 2) ^ s1) : Fl ℝ))) col)
      = (List.range n).map (fun j => (fin (∑ i ∈ Finset.range n, BSpec.wt t i * ((i : ℝ) ^ 2) ^ s1 * c i j) : Fl ℝ)) := by
    unfold matOf
    rw [List.map_map]
    refine List.map_congr_left fun j _ => ?_
    simp only [Function.comp]
    rw [dot_range]
  rw [hcol, dot_range]
  have hp : (PyMath.pi ^. (2 * (s0 + s1)) : Fl ℝ) = fin (Real.pi ^ (2 * (s0 + s1))) := by
    show (fin Real.pi ^. _ : Fl ℝ) = _; rw [pnpow_fin]
  rw [hp, lit_eq, pmul_fin, pmul_fin]
  congr 2
  push_cast; rfl

/-- a non-negative matrix with a positive entry outside the first row and column -/
def BSpec.Charged (n : Nat) (c : Nat → Nat → ℝ) : Prop :=
  (∀ i < n, ∀ j < n, 0 ≤ c i j) ∧ ∃ i j, 0 < i ∧ i < n ∧ 0 < j ∧ j < n ∧ 0 < c i j

theorem psi_sign (s0 s1 n : Nat) (t : ℝ) (c : Nat → Nat → ℝ) (hc : BSpec.Charged n c) :
    ∃ P : ℝ, 0 < P ∧ psi s0 s1 (fin t) (freqSq n) (matOf n n c) = fin ((-1) ^ (s0 + s1) * P) := by
  obtain ⟨hnn, i, j, hi, hin, hj, hjn, hp⟩ := hc
  have hwt : ∀ i, 0 < BSpec.wt t i := by
    intro i; unfold BSpec.wt; split <;> positivity
  rw [C90_psi s0 s1 n (by omega), mul_assoc]
  refine ⟨_, ?_, rfl⟩
  refine mul_pos ?_ (by positivity)
  have hin0 : ∀ j < n, 0 ≤ ∑ i ∈ Finset.range n, BSpec.wt t i * ((i : ℝ) ^ 2) ^ s1 * c i j := by
    intro j hj
    refine Finset.sum_nonneg fun i hi => ?_
    exact mul_nonneg (mul_nonneg (hwt i).le (by positivity)) (hnn i (Finset.mem_range.mp hi) j hj)
  refine Finset.sum_pos' (fun j hj => ?_) ⟨j, Finset.mem_range.mpr hjn, ?_⟩
  · exact mul_nonneg (hin0 j (Finset.mem_range.mp hj)) (mul_nonneg (hwt j).le (by positivity))
  · have hj' : (0 : ℝ) < j := by exact_mod_cast hj
    have hi' : (0 : ℝ) < i := by exact_mod_cast hi
    refine mul_pos ?_ (mul_pos (hwt j) (by positivity))
    refine Finset.sum_pos' (fun i hi => ?_) ⟨i, Finset.mem_range.mpr hin, ?_⟩
    · exact mul_nonneg (mul_nonneg (hwt i).le (by positivity)) (hnn i (Finset.mem_range.mp hi) j hjn)
    · exact mul_pos (mul_pos (hwt i) (by positivity)) hp

/-- **C90.** every functional is a finite non-zero real of sign `(-1)^(s0+s1)`: no fractional power of a negative number, no
division by zero -/
theorem C90_sign (n N : Nat) (hN : 0 < N) (t : ℝ) (c : Nat → Nat → ℝ) (hc : BSpec.Charged n c) (s0 s1 : Nat) :
    ∃ P : ℝ, 0 < P ∧ func s0 s1 (fin t) N (freqSq n) (matOf n n c) = fin ((-1) ^ (s0 + s1) * P) := by
  have hN' : (0 : ℝ) < N := by exact_mod_cast hN
  have key : ∀ d s0 s1 : Nat, 5 - (s0 + s1) ≤ d →
      ∃ P : ℝ, 0 < P ∧ func s0 s1 (fin t) N (freqSq n) (matOf n n c) = fin ((-1) ^ (s0 + s1) * P) := by
    intro d
    induction d with
    | zero => intro s0 s1 h; rw [C90_base s0 s1 (by omega)]; exact psi_sign s0 s1 n t c hc
    | succ d ih =>
      intro s0 s1 h
      by_cases hs : s0 + s1 ≤ 4
      · obtain ⟨P, hP, eP⟩ := ih (s0 + 1) s1 (by omega)
        obtain ⟨Q, hQ, eQ⟩ := ih s0 (s1 + 1) (by omega)
        rw [func, if_pos hs]
        simp only
        rw [eP, eQ, padd_fin, C86_k, C86_k]
        have hr : 0 < Real.sqrt (2 * Real.pi) := Real.sqrt_pos.mpr (by positivity)
        have hsum : ((-1 : ℝ) ^ (s0 + 1 + s1) * P + (-1) ^ (s0 + (s1 + 1)) * Q) = -((-1) ^ (s0 + s1) * (P + Q)) := by
          rw [show s0 + 1 + s1 = s0 + s1 + 1 by omega, show s0 + (s1 + 1) = s0 + s1 + 1 by omega, pow_succ]; ring
        have hsgn : ((-1 : ℝ) ^ (s0 + s1)) * (-1) ^ (s0 + s1) = 1 := by rw [← mul_pow]; norm_num
        have hsne : ((-1 : ℝ) ^ (s0 + s1)) ≠ 0 := by intro hc; rw [hc] at hsgn; norm_num at hsgn
        have hne : -((-1 : ℝ) ^ (s0 + s1) * (P + Q)) ≠ 0 := neg_ne_zero.mpr (mul_ne_zero hsne (by positivity))
        rw [hsum]
        have h2 : (((2 ^ (s0 + s1 + 1) : ℕ) : ℝ)) ≠ 0 := by positivity
        have he : (((2 + (s0 + s1) : ℕ) : ℝ)) ≠ 0 := by positivity
        simp only [lit_eq, ofNat_eq]
        rw [pdiv_fin h2, padd_fin, pdiv_fin (by norm_num), pmul_fin, pmul_fin, pmul_fin, pdiv_fin hN'.ne', pdiv_fin hne,
          pdiv_fin he]
        have hd0 : (0 : ℝ) < ((Nat.doubleFactorial (2 * s0 - 1) : ℕ) : ℝ) := by exact_mod_cast Nat.doubleFactorial_pos _
        have hd1 : (0 : ℝ) < ((Nat.doubleFactorial (2 * s1 - 1) : ℕ) : ℝ) := by exact_mod_cast Nat.doubleFactorial_pos _
        generalize hbase : (((-2 : ℚ) : ℝ) * ((((1 : ℚ) : ℝ) + ((1 : ℚ) : ℝ) / ((2 ^ (s0 + s1 + 1) : ℕ) : ℝ)) / ((3 : ℚ) : ℝ)) *
          ((-1) ^ s0 * ((Nat.doubleFactorial (2 * s0 - 1) : ℕ) : ℝ) / Real.sqrt (2 * Real.pi)) *
          ((-1) ^ s1 * ((Nat.doubleFactorial (2 * s1 - 1) : ℕ) : ℝ) / Real.sqrt (2 * Real.pi)) / (N : ℝ) /
          (-((-1) ^ (s0 + s1) * (P + Q)))) = base
        have hpos : 0 < base := by
          have : base = 2 * ((1 + 1 / ((2 ^ (s0 + s1 + 1) : ℕ) : ℝ)) / 3) *
              (((Nat.doubleFactorial (2 * s0 - 1) : ℕ) : ℝ) / Real.sqrt (2 * Real.pi)) *
              (((Nat.doubleFactorial (2 * s1 - 1) : ℕ) : ℝ) / Real.sqrt (2 * Real.pi)) / N / (P + Q) := by
            rw [← hbase, div_eq_div_iff hne (by positivity)]
            push_cast
            rw [pow_add]
            ring
          rw [this]; positivity
        have hrp : (PyMath.rpow (fin base) (fin (((1 : ℚ) : ℝ) / ((2 + (s0 + s1) : ℕ) : ℝ))) : Fl ℝ)
            = fin (base ^ (((1 : ℚ) : ℝ) / ((2 + (s0 + s1) : ℕ) : ℝ))) := by
          have hex : ((1 : ℚ) : ℝ) / ((2 + (s0 + s1) : ℕ) : ℝ) ≠ 0 := div_ne_zero (by norm_num) he
          show rpowR _ _ = _
          simp only [rpowR]
          rw [if_neg hex, if_pos hpos]
        rw [hrp]
        exact psi_sign s0 s1 n _ c hc
      · rw [C90_base s0 s1 (by omega)]; exact psi_sign s0 s1 n t c hc
  exact key _ s0 s1 le_rfl

/-- **C90.** hence the objective of the bandwidth search is a real function: the stationary time is a positive real -/
theorem C90_evolve (n N : Nat) (hN : 0 < N) (t : ℝ) (c : Nat → Nat → ℝ) (hc : BSpec.Charged n c) :
    ∃ a : ℝ, 0 < a ∧ evolve (fin t) N (freqSq n) (matOf n n c) = (fin ((t - a) / a), fin a) := by
  have hN' : (0 : ℝ) < N := by exact_mod_cast hN
  obtain ⟨P, hP, eP⟩ := C90_sign n N hN t c hc 0 2
  obtain ⟨Q, hQ, eQ⟩ := C90_sign n N hN t c hc 2 0
  obtain ⟨R, hR, eR⟩ := C90_sign n N hN t c hc 1 1
  have hpos : 0 < 2 * Real.pi * N * ((-1) ^ (0 + 2) * P + (-1) ^ (2 + 0) * Q + 2 * ((-1) ^ (1 + 1) * R)) := by
    norm_num; positivity
  refine ⟨_, Real.rpow_pos_of_pos hpos (-1 / 3), ?_⟩
  have hac : (PyMath.rpow (lit 2 *. PyMath.pi *. ofNat N *. (func 0 2 (fin t) N (freqSq n) (matOf n n c) +.
      func 2 0 (fin t) N (freqSq n) (matOf n n c) +. lit 2 *. func 1 1 (fin t) N (freqSq n) (matOf n n c))) (lit (-1) /. lit 3) : Fl ℝ)
      = fin ((2 * Real.pi * N * ((-1) ^ (0 + 2) * P + (-1) ^ (2 + 0) * Q + 2 * ((-1) ^ (1 + 1) * R))) ^ (-1 / 3 : ℝ)) := by
    rw [eP, eQ, eR]
    show (PyMath.rpow (lit 2 *. fin Real.pi *. ofNat N *. _) _ : Fl ℝ) = _
    simp only [lit_eq, ofNat_eq, pmul_fin, padd_fin]
    rw [pdiv_fin (by norm_num)]
    show rpowR _ _ = _
    simp only [rpowR]
    rw [if_neg (by norm_num), if_pos (by push_cast; exact hpos)]
    push_cast; rfl
  unfold Bivariate.evolve
  simp only
  rw [hac, psub_fin, pdiv_fin (Real.rpow_pos_of_pos hpos _).ne']

end Proadv.Props
