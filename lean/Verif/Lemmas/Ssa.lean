import Verif.Model.Series
import Verif.Lemmas.Fl
import Verif.Spec.Ssa
import Mathlib.Algebra.BigOperators.NatAntidiagonal
import Mathlib.Algebra.BigOperators.Intervals
import Mathlib.Tactic.Linarith
import Mathlib.Tactic.Ring

/-! # Lemmas about `_diagonal_average` -/

set_option linter.unusedSectionVars false

namespace Proadv

open Series

section generic
variable {F : Type}

theorem setIdx_nat (l : List F) (i : Nat) (x : F) (h : i < l.length) : setIdx l (i : Int) x = .ok (l.set i x) := by
  simp [setIdx, pyIdx, h]

theorem setIdx_length (l l' : List F) (i : Int) (x : F) (h : setIdx l i x = .ok l') : l'.length = l.length := by
  unfold setIdx at h
  split at h
  · cases h
  · cases h; simp

/-- filling consecutive positions -/
theorem foldlM_set (c base : Nat) (l : List F) (body : List F → Nat → Py (List F)) (v : Nat → F)
    (hb : ∀ t < c, ∀ fr, body fr t = setIdx fr ((base + t : Nat) : Int) (v (base + t)))
    (h : base + c ≤ l.length) :
    ∃ l', (List.range c).foldlM body l = .ok l' ∧ l'.length = l.length ∧
      ∀ i, l'[i]? = if base ≤ i ∧ i < base + c then some (v i) else l[i]? := by
  induction c with
  | zero => exact ⟨l, rfl, rfl, fun i => by rw [if_neg (by omega)]⟩
  | succ c ih =>
    obtain ⟨l', h1, h2, h3⟩ := ih (fun t ht fr => hb t (by omega) fr) (by omega)
    refine ⟨l'.set (base + c) (v (base + c)), ?_, by simp [h2], fun i => ?_⟩
    · rw [List.range_succ, List.foldlM_append, h1]
      simp only [bind, Except.bind, List.foldlM_cons, List.foldlM_nil]
      rw [hb c (by omega), setIdx_nat _ _ _ (by omega)]
      rfl
    · rw [List.getElem?_set]
      by_cases hi : base + c = i
      · subst hi
        rw [if_pos rfl, if_pos (by omega), if_pos (by omega)]
      · rw [if_neg hi, h3 i]
        by_cases h4 : base ≤ i ∧ i < base + c
        · rw [if_pos h4, if_pos (by omega)]
        · rw [if_neg h4, if_neg (by omega)]

variable [PyNum F]

/-- value of the inner loop -/
def dtot (m : Mat F) (i : Nat) (js : List Nat) : F := js.foldl (fun tot j => tot +. m.get j (i - j)) (lit 0)

theorem diagTotal_ok (m : Mat F) (i : Nat) (js : List Nat)
    (h : ∀ j ∈ js, j < m.rows ∧ i - j < m.cols) : diagTotal m i js = .ok (dtot m i js) := by
  unfold diagTotal dtot
  generalize (lit 0 : F) = a
  induction js generalizing a with
  | nil => rfl
  | cons j t ih =>
    rw [List.foldlM_cons]
    simp only [Mat.at, h j (by simp), and_self, if_true, bind, Except.bind, List.foldl_cons]
    exact ih (fun x hx => h x (by simp [hx])) _

/-- value written at position `i` by `_diagonal_average` on an `a × b` matrix with `1 ≤ a ≤ b` -/
def dval (m : Mat F) (a b i : Nat) : F :=
  if i < a - 1 then (lit 1 /. ofNat (i + 1)) *. dtot m i (List.range (i + 1))
  else if i < b then (lit 1 /. ofNat a) *. dtot m i (List.range a)
  else (lit 1 /. ofNat (a + b - 1 - i)) *. dtot m i ((List.range (a + b - 1 - i)).map (fun s => i - b + 1 + s))

theorem diagonalAverage_eq (matrix : Mat F) (L k : Nat) (hL : 1 ≤ L) (hk : 1 ≤ k) (hr : matrix.rows = L)
    (hc : matrix.cols = k) :
    diagonalAverage matrix L (L + k - 1) = .ok ((List.range (L + k - 1)).map (fun i =>
      PyNum.around (dval (if L < k then matrix else matrix.tr) (Nat.min L k) (Nat.max L k) i) 4)) := by
  have hkk : (((L + k - 1 : Nat) : Int) - (L : Int) + 1) = (k : Int) := by omega
  unfold diagonalAverage
  simp only [hkk, Int.toNat_natCast]
  rw [if_neg (by omega)]
  set m := if L < k then matrix else matrix.tr with hm
  set a := Nat.min L k with ha
  set b := Nat.max L k with hb
  have ha' : a = min L k := rfl
  have hb' : b = max L k := rfl
  clear_value a b m
  have hab : a ≤ b := by omega
  have ha1 : 1 ≤ a := by omega
  have hs : L + k - 1 = a + b - 1 := by omega
  have hmr : m.rows = a := by
    rw [hm]; split
    · omega
    · simp only [Mat.tr]; omega
  have hmc : m.cols = b := by
    rw [hm]; split
    · omega
    · simp only [Mat.tr]; omega
  rw [hs]
  -- the three loops
  obtain ⟨l1, e1, len1, v1⟩ := foldlM_set (a - 1) 0 (List.replicate (a + b - 1) (lit 0 : F))
    (fun freq t => do
      let total ← diagTotal m (t + 1 - 1) (List.range (t + 1))
      setIdx freq (((t + 1 : Nat) : Int) - 1) ((lit 1 /. ofNat (t + 1)) *. total)) (dval m a b)
    (fun t ht fr => by
      rw [diagTotal_ok _ _ _ (fun j hj => by have := List.mem_range.mp hj; omega)]
      simp only [bind, Except.bind]
      rw [show (((t + 1 : Nat) : Int) - 1) = ((0 + t : Nat) : Int) by omega]
      congr 1
      rw [dval, if_pos (by omega)]; simp)
    (by simp; omega)
  obtain ⟨l2, e2, len2, v2⟩ := foldlM_set (b + 1 - a) (a - 1) l1
    (fun freq t => do
      let total ← diagTotal m (a + t - 1) (List.range a)
      setIdx freq (((a + t : Nat) : Int) - 1) ((lit 1 /. ofNat a) *. total)) (dval m a b)
    (fun t ht fr => by
      rw [diagTotal_ok _ _ _ (fun j hj => by have := List.mem_range.mp hj; omega)]
      simp only [bind, Except.bind]
      rw [show (((a + t : Nat) : Int) - 1) = ((a - 1 + t : Nat) : Int) by omega]
      congr 1
      rw [dval, if_neg (by omega), if_pos (by omega), show a + t - 1 = a - 1 + t by omega])
    (by simp [len1]; omega)
  obtain ⟨l3, e3, len3, v3⟩ := foldlM_set (a + b - 1 - b) b l2
    (fun freq t => do
      let total ← diagTotal m (b + t) ((List.range (a + b - 1 - (b + t))).map (fun s => b + t - b + 1 + s))
      setIdx freq ((b + t : Nat) : Int) ((lit 1 /. ofNat (a + b - 1 - (b + t))) *. total)) (dval m a b)
    (fun t ht fr => by
      rw [diagTotal_ok _ _ _ (fun j hj => by
        obtain ⟨s, hs, rfl⟩ := List.mem_map.mp hj
        have := List.mem_range.mp hs
        omega)]
      simp only [bind, Except.bind]
      congr 1
      rw [dval, if_neg (by omega), if_neg (by omega)])
    (by simp [len2, len1]; omega)
  simp only [bind, Except.bind] at e2 e3 ⊢
  simp only [bind, Except.bind] at e1
  rw [e1]
  simp only
  rw [e2]
  simp only
  rw [e3]
  simp only
  congr 1
  apply List.ext_getElem?
  intro i
  rw [List.getElem?_map, List.getElem?_map, v3 i, v2 i, v1 i]
  by_cases hi : i < a + b - 1
  · rw [List.getElem?_range hi]
    by_cases h1 : i < a - 1
    · rw [if_neg (by omega), if_neg (by omega), if_pos (by omega)]; rfl
    · by_cases h2 : i < b
      · rw [if_neg (by omega), if_pos (by omega)]; rfl
      · rw [if_pos (by omega)]; rfl
  · rw [if_neg (by omega), if_neg (by omega), if_neg (by omega)]
    rw [List.getElem?_eq_none (by simp; omega), List.getElem?_eq_none (by simp; omega)]; rfl

/-- with `k = 0` columns the second loop runs past the end of the array -/
theorem diagonalAverage_k0 (matrix : Mat F) (n : Nat) : ∃ e, diagonalAverage matrix (n + 1) n = .error e := by
  unfold diagonalAverage
  have hkk : ((n : Int) - ((n + 1 : Nat) : Int) + 1) = ((0 : Nat) : Int) := by omega
  simp only [hkk, Int.toNat_natCast]
  rw [if_neg (by omega)]
  have h0 : Nat.min (n + 1) 0 = 0 := Nat.min_zero _
  have h1 : Nat.max (n + 1) 0 = n + 1 := Nat.max_zero _
  simp only [h0, h1]
  simp only [Nat.zero_sub, List.range_zero, List.foldlM_nil, Nat.sub_zero]
  rw [show (pure (List.replicate n (lit 0 : F)) : Py (List F)) = .ok (List.replicate n (lit 0)) from rfl]
  simp only [bind, Except.bind]
  -- the last iteration writes at index `n`
  set body : List F → Nat → Py (List F) := fun freq t =>
    Except.bind (diagTotal (if n + 1 < 0 then matrix else matrix.tr) (0 + t - 1) [])
      (fun v => setIdx freq (((0 + t : Nat) : Int) - 1) ((lit 1 /. ofNat 0) *. v)) with hbody
  have hlen : ∀ (js : List Nat) (l l' : List F), js.foldlM body l = .ok l' → l'.length = l.length := by
    intro js
    induction js with
    | nil => intro l l' h; cases h; rfl
    | cons j t ih =>
      intro l l' h
      rw [List.foldlM_cons] at h
      cases hj : body l j with
      | error e => rw [hj] at h; cases h
      | ok l1 =>
        rw [hj] at h
        have h2 := ih l1 l' h
        rw [h2]
        simp only [hbody, diagTotal, List.foldlM_nil, pure, Except.pure, Except.bind] at hj
        exact setIdx_length _ _ _ _ hj
  have : ∃ e, (List.range (n + 1 + 1)).foldlM body (List.replicate n (lit 0)) = .error e := by
    rw [List.range_succ, List.foldlM_append]
    cases hj : (List.range (n + 1)).foldlM body (List.replicate n (lit 0)) with
    | error e => exact ⟨e, rfl⟩
    | ok l1 =>
      have hl := hlen _ _ _ hj
      rw [List.length_replicate] at hl
      simp only [bind, Except.bind, List.foldlM_cons, List.foldlM_nil]
      refine ⟨.indexError, ?_⟩
      have : body l1 (n + 1) = .error .indexError := by
        simp only [hbody, diagTotal, List.foldlM_nil, pure, Except.pure, Except.bind]
        rw [show (((0 + (n + 1) : Nat) : Int) - 1) = ((n : Nat) : Int) by omega]
        simp [setIdx, pyIdx, hl]
      rw [this]
  obtain ⟨e, he⟩ := this
  refine ⟨e, ?_⟩
  simp only [hbody, Except.bind] at he
  rw [he]

end generic

section exact
open Fl
variable {K : Type} [Field K] [LinearOrder K] [FloorRing K] [IsStrictOrderedRing K]

theorem dtot_fin (m : Mat (Fl K)) (M : Nat → Nat → K) (i lo c : Nat)
    (h : ∀ s < c, m.get (lo + s) (i - (lo + s)) = fin (M (lo + s) (i - (lo + s)))) :
    dtot m i ((List.range c).map (fun s => lo + s)) = fin (∑ s ∈ Finset.range c, M (lo + s) (i - (lo + s))) := by
  unfold dtot
  rw [List.foldl_map]
  induction c with
  | zero => simp
  | succ c ih =>
    rw [List.range_succ, List.foldl_append, ih (fun s hs => h s (by omega)), Finset.sum_range_succ]
    simp only [List.foldl_cons, List.foldl_nil]
    rw [h c (by omega), padd_fin]

omit [FloorRing K] [IsStrictOrderedRing K] [LinearOrder K] in
theorem antiDiagMean_swap (M : Nat → Nat → K) (a b m : Nat) :
    antiDiagMean (fun r s => M s r) b a m = antiDiagMean M a b m := by
  have e : ((Finset.antidiagonal m).filter (fun p => p.1 < b ∧ p.2 < a)) =
      ((Finset.antidiagonal m).filter (fun p => p.1 < a ∧ p.2 < b)).map ⟨Prod.swap, Prod.swap_injective⟩ := by
    ext ⟨x, y⟩
    simp only [Finset.mem_filter, Finset.mem_antidiagonal, Finset.mem_map, Function.Embedding.coeFn_mk, Prod.exists,
      Prod.swap_prod_mk, Prod.mk.injEq]
    constructor
    · rintro ⟨h1, h2, h3⟩; exact ⟨y, x, ⟨by omega, h3, h2⟩, rfl, rfl⟩
    · rintro ⟨y', x', ⟨h1, h2, h3⟩, rfl, rfl⟩; exact ⟨by omega, h3, h2⟩
  unfold antiDiagMean
  rw [e, Finset.sum_map, Finset.card_map]
  rfl

omit [FloorRing K] [IsStrictOrderedRing K] [LinearOrder K] in
theorem antiDiag_eq (M : Nat → Nat → K) (a b m : Nat) :
    (∑ p ∈ (Finset.antidiagonal m).filter (fun p => p.1 < a ∧ p.2 < b), M p.1 p.2) =
      ∑ s ∈ Finset.range (min (m + 1) a - (m + 1 - b)), M (m + 1 - b + s) (m - (m + 1 - b + s)) := by
  rw [Finset.sum_filter, Finset.Nat.sum_antidiagonal_eq_sum_range_succ_mk, ← Finset.sum_filter]
  rw [← Finset.sum_Ico_eq_sum_range (fun j => M j (m - j))]
  apply Finset.sum_congr _ (fun _ _ => rfl)
  ext j
  simp only [Finset.mem_filter, Finset.mem_range, Finset.mem_Ico, Nat.succ_eq_add_one]
  omega

theorem antiDiag_card (a b m : Nat) :
    ((Finset.antidiagonal m).filter (fun p => p.1 < a ∧ p.2 < b)).card = min (m + 1) a - (m + 1 - b) := by
  have := antiDiag_eq (K := ℚ) (fun _ _ => 1) a b m
  simp only [Finset.sum_const, nsmul_eq_mul, mul_one, Finset.card_range] at this
  exact_mod_cast this

theorem dval_fin (m : Mat (Fl K)) (M : Nat → Nat → K) (a b i : Nat) (ha : 1 ≤ a) (hab : a ≤ b) (hi : i < a + b - 1)
    (h : ∀ r < a, ∀ s < b, m.get r s = fin (M r s)) :
    dval m a b i = fin (antiDiagMean M a b i) := by
  have hr : ∀ c, List.range c = (List.range c).map (fun s => 0 + s) := fun c => by simp
  have one_div : ∀ n : Nat, 0 < n → (lit 1 : Fl K) /. ofNat n = fin (1 / (n : K)) := by
    intro n hn
    rw [ofNat_eq, lit_eq, pdiv_fin (by exact_mod_cast hn.ne')]; simp
  unfold dval antiDiagMean
  rw [antiDiag_eq, antiDiag_card]
  split
  · rw [hr, dtot_fin m M _ _ _ (fun s hs => h _ (by omega) _ (by omega)), one_div (i + 1) (by omega), pmul_fin]
    have e1 : min (i + 1) a - (i + 1 - b) = i + 1 := by omega
    have e2 : i + 1 - b = 0 := by omega
    rw [e1, e2]; congr 1; ring
  · split
    · rw [hr, dtot_fin m M _ _ _ (fun s hs => h _ (by omega) _ (by omega)), one_div a (by omega), pmul_fin]
      have e1 : min (i + 1) a - (i + 1 - b) = a := by omega
      have e2 : i + 1 - b = 0 := by omega
      rw [e1, e2]; congr 1; ring
    · rw [dtot_fin m M _ _ _ (fun s hs => h _ (by omega) _ (by omega)), one_div (a + b - 1 - i) (by omega), pmul_fin]
      have e1 : min (i + 1) a - (i + 1 - b) = a + b - 1 - i := by omega
      have e2 : i + 1 - b = i - b + 1 := by omega
      rw [e1, e2]; congr 1; ring

theorem diagonalAverage_fin (m : Mat (Fl K)) (M : Nat → Nat → K) (L k : Nat) (hL : 1 ≤ L) (hk : 1 ≤ k)
    (hr : m.rows = L) (hc : m.cols = k) (h : ∀ r < L, ∀ s < k, m.get r s = fin (M r s)) :
    diagonalAverage m L (L + k - 1) = .ok ((List.range (L + k - 1)).map (fun i =>
      PyNum.around (fin (antiDiagMean M L k i)) 4)) := by
  rw [diagonalAverage_eq m L k hL hk hr hc]
  congr 1
  apply List.map_congr_left
  intro i hi
  have hi := List.mem_range.mp hi
  by_cases hlt : L < k
  · have e1 : Nat.min L k = L := Nat.min_eq_left hlt.le
    have e2 : Nat.max L k = k := Nat.max_eq_right hlt.le
    rw [if_pos hlt, e1, e2, dval_fin m M L k i hL hlt.le hi h]
  · have hle : k ≤ L := by omega
    have e1 : Nat.min L k = k := Nat.min_eq_right hle
    have e2 : Nat.max L k = L := Nat.max_eq_left hle
    rw [if_neg hlt, e1, e2, dval_fin m.tr (fun r s => M s r) k L i hk hle (by omega) (fun r hr s hs => h s hs r hr),
      antiDiagMean_swap]

end exact

end Proadv
