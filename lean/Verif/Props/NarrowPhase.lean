import Verif.Props.Narrow
import Verif.Props.PhaseFlat
import Verif.Props.PhaseSpike

/-!
# C231: `phasespace_thresholding` of fixed-width integer recordings
-/

set_option linter.unusedSectionVars false

namespace Proadv.Props

open Proadv Fl Detect

private theorem lits (xs : List ℤ) : xs.map (fun z : ℤ => (lit (z : ℤ) : Fl ℝ)) = fins (toK ℝ xs) := by
  simp [toK, fins]

theorem ncd_length (t : Narrow.IntType) (xs : List ℤ) : (Narrow.centralDiff t xs).length = xs.length := by simp [Narrow.centralDiff]

/-- the coefficients computed for an integer recording -/
noncomputable def narrowP (t : Narrow.IntType) (c : List ℤ) : PhaseParams (Fl ℝ) :=
  phaseCoefs (npStd (fins (toK ℝ c))) (npStd (fins (toK ℝ (Narrow.centralDiff t c))))
    (npStd (fins (toK ℝ (Narrow.centralDiff t (Narrow.centralDiff t c))))) (lambdaOf c.length)
    (Narrow.phaseAngle t c (Narrow.centralDiff t (Narrow.centralDiff t c)))

theorem narrow_ok (t : Narrow.IntType) (c : List ℤ) (hc : c ≠ []) :
    (Narrow.phasespace (F := Fl ℝ) t c) = .ok (uniqueNat
      (outside (List.zipWith (rhoAt (lit 0) (narrowP t c).a1 (narrowP t c).b1) (fins (toK ℝ c)) (fins (toK ℝ (Narrow.centralDiff t c)))) ++
       outside (List.zipWith (rhoAt (lit 0) (narrowP t c).a2 (narrowP t c).b2) (fins (toK ℝ (Narrow.centralDiff t c)))
         (fins (toK ℝ (Narrow.centralDiff t (Narrow.centralDiff t c))))) ++
       outside (List.zipWith (rhoAt (narrowP t c).theta (narrowP t c).a3 (narrowP t c).b3) (fins (toK ℝ c))
         (fins (toK ℝ (Narrow.centralDiff t (Narrow.centralDiff t c))))))) := by
  have hlen : ∀ xs : List ℤ, (fins (toK ℝ xs) : List (Fl ℝ)).length = xs.length := fun xs => by simp [toK]
  have hne : ∀ xs : List ℤ, xs ≠ [] → (fins (toK ℝ xs) : List (Fl ℝ)) ≠ [] := fun xs h => by simpa [toK] using h
  have h1 : Narrow.centralDiff t c ≠ [] := by
    intro h; have := ncd_length t c; rw [h] at this; exact hc (List.length_eq_zero_iff.mp this.symm)
  have h2 : Narrow.centralDiff t (Narrow.centralDiff t c) ≠ [] := by
    intro h; have := ncd_length t (Narrow.centralDiff t c); rw [h] at this; exact h1 (List.length_eq_zero_iff.mp this.symm)
  unfold Narrow.phasespace
  simp only [calculateRho, lits]
  rw [std_eq true _ (hne _ hc), std_eq true _ (hne _ h1), std_eq true _ (hne _ h2)]
  simp only [bind, Except.bind]
  rw [bcast_same _ (by simp only [hlen, ncd_length]), bcast_same _ (by simp only [hlen, ncd_length]),
    bcast_same _ (by simp only [hlen, ncd_length])]
  rfl

/-- sample `i` is returned iff its rho exceeds 1 in one of the three planes -/
theorem narrow_char (t : Narrow.IntType) (c : List ℤ) (hc : c ≠ []) : ∃ r, (Narrow.phasespace (F := Fl ℝ) t c) = .ok r ∧
    ∀ i, i ∈ r ↔ ∃ x y z, c[i]? = some x ∧ (Narrow.centralDiff t c)[i]? = some y ∧
      (Narrow.centralDiff t (Narrow.centralDiff t c))[i]? = some z ∧
      ((lit 1 <. rhoAt (lit 0) (narrowP t c).a1 (narrowP t c).b1 (fin (x : ℝ)) (fin (y : ℝ))) = true ∨
       (lit 1 <. rhoAt (lit 0) (narrowP t c).a2 (narrowP t c).b2 (fin (y : ℝ)) (fin (z : ℝ))) = true ∨
       (lit 1 <. rhoAt (narrowP t c).theta (narrowP t c).a3 (narrowP t c).b3 (fin (x : ℝ)) (fin (z : ℝ))) = true) := by
  refine ⟨_, narrow_ok t c hc, fun i => ?_⟩
  rw [mem_uniqueNat, List.mem_append, List.mem_append, mem_outside_zip, mem_outside_zip, mem_outside_zip]
  have l1 := ncd_length t c
  have l2 := ncd_length t (Narrow.centralDiff t c)
  have hget : ∀ (xs : List ℤ) (a : Fl ℝ), (fins (toK ℝ xs))[i]? = some a ↔ ∃ z, xs[i]? = some z ∧ a = fin (z : ℝ) := by
    intro xs a
    simp only [fins, toK, List.map_map, List.getElem?_map]
    cases xs[i]? <;> simp [eq_comm]
  simp only [hget]
  by_cases hi : i < c.length
  · obtain ⟨x, hx⟩ : ∃ x, c[i]? = some x := ⟨_, List.getElem?_eq_getElem hi⟩
    obtain ⟨y, hy⟩ : ∃ y, (Narrow.centralDiff t c)[i]? = some y := ⟨_, List.getElem?_eq_getElem (by omega)⟩
    obtain ⟨z, hz⟩ : ∃ z, (Narrow.centralDiff t (Narrow.centralDiff t c))[i]? = some z := ⟨_, List.getElem?_eq_getElem (by omega)⟩
    simp only [hx, hy, hz, Option.some.injEq]
    constructor
    · rintro ((⟨_, _, ⟨_, rfl, rfl⟩, ⟨_, rfl, rfl⟩, h⟩ | ⟨_, _, ⟨_, rfl, rfl⟩, ⟨_, rfl, rfl⟩, h⟩) |
        ⟨_, _, ⟨_, rfl, rfl⟩, ⟨_, rfl, rfl⟩, h⟩)
      · exact ⟨_, _, _, rfl, rfl, rfl, Or.inl h⟩
      · exact ⟨_, _, _, rfl, rfl, rfl, Or.inr (Or.inl h)⟩
      · exact ⟨_, _, _, rfl, rfl, rfl, Or.inr (Or.inr h)⟩
    · rintro ⟨_, _, _, rfl, rfl, rfl, h | h | h⟩
      · exact Or.inl (Or.inl ⟨_, _, ⟨_, rfl, rfl⟩, ⟨_, rfl, rfl⟩, h⟩)
      · exact Or.inl (Or.inr ⟨_, _, ⟨_, rfl, rfl⟩, ⟨_, rfl, rfl⟩, h⟩)
      · exact Or.inr ⟨_, _, ⟨_, rfl, rfl⟩, ⟨_, rfl, rfl⟩, h⟩
  · have hx : c[i]? = none := List.getElem?_eq_none (by omega)
    have hy : (Narrow.centralDiff t c)[i]? = none := List.getElem?_eq_none (by omega)
    simp [hx, hy]

/-! ## No wrapping -/

theorem trunc_half (z : ℤ) : storeK true (aroundK ((z : ℝ) / 2) 4) = ((z.tdiv 2 : ℤ) : ℝ) := by
  have hcast : (z : ℝ) / 2 = ((5000 * z : ℤ) : ℝ) / 10000 := by push_cast; ring
  have hr4 : aroundK ((z : ℝ) / 2) 4 = (z : ℝ) / 2 := by
    rw [hcast]; exact around4_eq _ _ (by simp)
  rw [hr4]
  show ((truncK ((z : ℝ) / 2) : ℤ) : ℝ) = _
  congr 1
  unfold truncK
  by_cases hz : 0 ≤ z
  · rw [if_pos (by have : (0 : ℝ) ≤ z := by exact_mod_cast hz
                   positivity), Int.tdiv_eq_ediv_of_nonneg hz, Int.floor_eq_iff]
    have h1 : 2 * (z / 2) ≤ z ∧ z < 2 * (z / 2) + 2 := by omega
    have h2 : (2 : ℝ) * ((z / 2 : ℤ) : ℝ) ≤ z := by exact_mod_cast h1.1
    have h3 : (z : ℝ) < 2 * ((z / 2 : ℤ) : ℝ) + 2 := by exact_mod_cast h1.2
    constructor <;> linarith
  · have hz' : z ≤ 0 := by omega
    have hneg : ¬ (0 : ℝ) ≤ (z : ℝ) / 2 := by
      have : (z : ℝ) < 0 := by exact_mod_cast not_le.mp hz
      linarith
    rw [if_neg hneg, Int.ceil_eq_iff]
    obtain ⟨k, hk⟩ : ∃ k : ℤ, z = -k := ⟨-z, by ring⟩
    have hk0 : 0 ≤ k := by omega
    subst hk
    rw [Int.neg_tdiv, Int.tdiv_eq_ediv_of_nonneg hk0]
    have h1 : 2 * (k / 2) ≤ k ∧ k < 2 * (k / 2) + 2 := by omega
    have h2 : (2 : ℝ) * ((k / 2 : ℤ) : ℝ) ≤ k := by exact_mod_cast h1.1
    have h3 : (k : ℝ) < 2 * ((k / 2 : ℤ) : ℝ) + 2 := by exact_mod_cast h1.2
    push_cast
    constructor <;> linarith

theorem tdiv_two_le (z M : ℤ) (h : |z| ≤ 2 * M) : |z.tdiv 2| ≤ M := by
  have := abs_le.mp h
  rw [abs_le]
  by_cases hz : 0 ≤ z
  · rw [Int.tdiv_eq_ediv_of_nonneg hz]; omega
  · obtain ⟨k, hk⟩ : ∃ k : ℤ, z = -k := ⟨-z, by ring⟩
    subst hk
    rw [Int.neg_tdiv, Int.tdiv_eq_ediv_of_nonneg (by omega : 0 ≤ k)]; omega

theorem ncd_agrees (t : Narrow.IntType) (hb : 1 ≤ t.bits) (xs : List ℤ)
    (h : ∀ i x y, xs[i]? = some x → xs[i + 2]? = some y → Represents t (y - x)) :
    toK ℝ (Narrow.centralDiff t xs) = cdiff true (toK ℝ xs) := by
  unfold Narrow.centralDiff cdiff toK
  rw [List.map_map, List.length_map]
  apply List.map_congr_left
  intro i hi
  simp only [Function.comp]
  split_ifs with hc
  · have h1 : xs[i - 1]? = some xs[i - 1] := List.getElem?_eq_getElem (by omega)
    have h2 : xs[i + 1]? = some xs[i + 1] := List.getElem?_eq_getElem (by omega)
    simp only [List.getD_eq_getElem?_getD, List.getElem?_map, h1, h2, Option.map_some, Option.getD_some]
    have hh := h (i - 1) _ _ h1 (by rw [show i - 1 + 2 = i + 1 by omega]; exact h2)
    rw [wrap_id t hb _ hh, ← trunc_half]
    push_cast; rfl
  · simp

/-- **C231** when neither differences nor products leave the type, the result is that for exact integers: it suffices that a
number `M` with `M² < 2^(bits-1)` bounds all samples and that `n M² < 2^63`. -/
theorem C231_exact (b : ℕ) (hb : 3 ≤ b) (xs : List ℤ) (M : ℤ) (hM : ∀ x ∈ xs, |x| ≤ M) (hsq : M ^ 2 < 2 ^ (b - 1))
    (hn : xs.length * M ^ 2 < 2 ^ 63) :
    (Narrow.phasespace (F := Fl ℝ) ⟨b, true⟩ xs) = phasespaceThresholding ⟨1, true, fins (toK ℝ xs)⟩ := by
  by_cases hne : xs = []
  · subst hne
    rfl
  set t : Narrow.IntType := ⟨b, true⟩ with ht
  have hb1 : 1 ≤ t.bits := by simp only [ht]; omega
  have hM0 : 0 ≤ M := by
    obtain ⟨x, hx⟩ := List.exists_mem_of_ne_nil xs hne
    exact (abs_nonneg x).trans (hM x hx)
  have h4 : (4 : ℤ) ≤ 2 ^ (b - 1) := by
    calc (4 : ℤ) = 2 ^ 2 := by norm_num
      _ ≤ 2 ^ (b - 1) := pow_le_pow_right₀ (by norm_num) (by omega)
  have h2M : 2 * M < 2 ^ (b - 1) := by
    by_cases h : 2 ≤ M
    · nlinarith
    · have : M ≤ 1 := by omega
      omega
  have rep : ∀ z : ℤ, |z| < 2 ^ (b - 1) → Represents t z := by
    intro z hz
    simp only [Represents, ht, if_true]
    have := abs_lt.mp hz
    exact ⟨by omega, this.2⟩
  have step : ∀ ys : List ℤ, (∀ y ∈ ys, |y| ≤ M) → (∀ i x y, ys[i]? = some x → ys[i + 2]? = some y → Represents t (y - x)) := by
    intro ys hy i x y hx hy'
    apply rep
    have h1 := abs_le.mp (hy x (List.mem_of_getElem? hx))
    have h2 := abs_le.mp (hy y (List.mem_of_getElem? hy'))
    rw [abs_lt]; constructor <;> omega
  have bnd : ∀ ys : List ℤ, (∀ y ∈ ys, |y| ≤ M) → ∀ d ∈ Narrow.centralDiff t ys, |d| ≤ M := by
    intro ys hy d hd
    unfold Narrow.centralDiff at hd
    obtain ⟨i, -, rfl⟩ := List.mem_map.mp hd
    split_ifs with hc
    · have h1 : ys[i - 1]? = some ys[i - 1] := List.getElem?_eq_getElem (by omega)
      have h2 : ys[i + 1]? = some ys[i + 1] := List.getElem?_eq_getElem (by omega)
      have hh := step ys hy (i - 1) _ _ h1 (by rw [show i - 1 + 2 = i + 1 by omega]; exact h2)
      simp only [List.getD_eq_getElem?_getD, h1, h2, Option.getD_some]
      rw [wrap_id t hb1 _ hh]
      have a1 := abs_le.mp (hy _ (List.mem_of_getElem? h1))
      have a2 := abs_le.mp (hy _ (List.mem_of_getElem? h2))
      exact tdiv_two_le _ _ (by rw [abs_le]; constructor <;> omega)
    · simpa using hM0
  set dc := Narrow.centralDiff t xs with hdc
  set dc2 := Narrow.centralDiff t dc with hdc2
  have e1 : toK ℝ dc = cdiff true (toK ℝ xs) := ncd_agrees t hb1 xs (step xs hM)
  have e2 : toK ℝ dc2 = cdiff true (toK ℝ dc) := ncd_agrees t hb1 dc (step dc (bnd xs hM))
  have hB2 : ∀ d ∈ dc2, |d| ≤ M := bnd dc (bnd xs hM)
  have l2 : dc2.length = xs.length := by rw [hdc2, ncd_length, hdc, ncd_length]
  have prodle : ∀ x y : ℤ, |x| ≤ M → |y| ≤ M → |x * y| ≤ M ^ 2 := by
    intro x y hx hy
    rw [abs_mul, sq]
    exact mul_le_mul hx hy (abs_nonneg _) hM0
  have sumle : ∀ ys : List ℤ, ys.length ≤ xs.length → (∀ y ∈ ys, |y| ≤ M ^ 2) → Narrow.npSum t ys = ys.sum := by
    intro ys hl hy
    unfold Narrow.npSum
    apply wrap_id _ (by norm_num)
    have : |ys.sum| ≤ ys.length * M ^ 2 := by
      clear hl
      induction ys with
      | nil => simp
      | cons a l ih =>
        have i1 := ih (fun y h => hy y (by simp [h]))
        have i2 := hy a (by simp)
        rw [List.sum_cons, List.length_cons]
        push_cast
        calc |a + l.sum| ≤ |a| + |l.sum| := abs_add_le _ _
          _ ≤ _ := by nlinarith
    have h3 : (ys.length : ℤ) * M ^ 2 ≤ xs.length * M ^ 2 := by
      apply mul_le_mul_of_nonneg_right _ (sq_nonneg M)
      exact_mod_cast hl
    have := abs_lt.mp (lt_of_le_of_lt (this.trans h3) hn)
    simp only [Represents, ht, if_true]
    norm_num at this ⊢
    constructor <;> omega
  have s1 : Narrow.sumProd t xs dc2 = (List.zipWith (fun a b => a * b) xs dc2).sum := by
    unfold Narrow.sumProd
    have hz : List.zipWith (fun a b => t.wrap (a * b)) xs dc2 = List.zipWith (fun a b => a * b) xs dc2 := by
      apply List.ext_getElem?
      intro i
      rw [List.getElem?_zipWith, List.getElem?_zipWith]
      cases h1 : xs[i]? with
      | none => rfl
      | some x =>
        cases h2 : dc2[i]? with
        | none => rfl
        | some y =>
          simp only [Option.some.injEq]
          exact wrap_id t hb1 _ (rep _ (lt_of_le_of_lt (prodle x y (hM x (List.mem_of_getElem? h1))
            (hB2 y (List.mem_of_getElem? h2))) hsq))
    rw [hz]
    apply sumle
    · simp
    · intro y hy
      obtain ⟨i, hi⟩ := List.getElem?_of_mem hy
      rw [List.getElem?_zipWith] at hi
      cases h1 : xs[i]? with
      | none => simp [h1] at hi
      | some x =>
        cases h2 : dc2[i]? with
        | none => simp [h1, h2] at hi
        | some z =>
          simp only [h1, h2, Option.some.injEq] at hi
          rw [← hi]
          exact prodle x z (hM x (List.mem_of_getElem? h1)) (hB2 z (List.mem_of_getElem? h2))
  have s2 : Narrow.npSum t (xs.map (fun a => t.wrap (a ^ 2))) = (xs.map (fun a => a ^ 2)).sum := by
    have hz : xs.map (fun a => t.wrap (a ^ 2)) = xs.map (fun a => a ^ 2) := by
      apply List.map_congr_left
      intro x hx
      rw [sq]
      exact wrap_id t hb1 _ (rep _ (lt_of_le_of_lt (prodle x x (hM x hx) (hM x hx)) hsq))
    rw [hz]
    apply sumle
    · simp
    · intro y hy
      obtain ⟨x, hx, rfl⟩ := List.mem_map.mp hy
      rw [sq]
      exact prodle x x (hM x hx) (hM x hx)
  have hne' : (fins (toK ℝ xs) : List (Fl ℝ)) ≠ [] := by simpa [toK] using hne
  have c1 : centralDiff true (fins (toK ℝ xs)) = (fins (toK ℝ dc) : List (Fl ℝ)) := by
    rw [e1]; exact centralDiff_fins true _
  have c2 : centralDiff true (fins (toK ℝ dc)) = (fins (toK ℝ dc2) : List (Fl ℝ)) := by
    rw [e2]; exact centralDiff_fins true _
  have ang : (Narrow.phaseAngle t xs dc2 : Fl ℝ) = phaseAngle (fins (toK ℝ xs)) (fins (toK ℝ dc2)) := by
    unfold Narrow.phaseAngle phaseAngle
    rw [s1, s2, zipWith_fins _ (fun x y => x * y) (fun _ _ => rfl), map_fins _ (fun x => x ^ 2) (fun x => pnpow_fin x 2)]
    rw [show PyNum.sum (fins (List.zipWith (fun x y => x * y) (toK ℝ xs) (toK ℝ dc2))) = (fin _ : Fl ℝ) from psum_fin _,
      show PyNum.sum (fins ((toK ℝ xs).map (fun x => x ^ 2))) = (fin _ : Fl ℝ) from psum_fin _]
    congr 2
    · simp only [lit_eq]
      congr 1
      push_cast
      rw [List.map_zipWith]
      unfold toK
      rw [List.zipWith_map]
      simp
    · simp only [lit_eq]
      congr 1
      push_cast
      simp [toK, Function.comp_def]
  have hP : narrowP t xs = phaseP true (fins (toK ℝ xs)) := by
    unfold narrowP phaseP
    rw [c1, c2, ← hdc, ← hdc2, ang]
    simp [toK]
  rw [narrow_ok t xs hne, phase_ok true _ hne', hP, c1, c2]

/-! ## A dip by one count -/

theorem rep_get (n k i : ℕ) (a d : ℤ) (hi : i < n) : ((List.replicate n a).set k d).getD i 0 = if i = k then d else a := by
  rw [List.getD_eq_getElem?_getD, List.getElem?_set]
  by_cases h : k = i
  · subst h; simp [hi]
  · rw [if_neg h, if_neg (Ne.symm h), List.getElem?_replicate, if_pos hi]; rfl

/-- the wrapped derivative of a dip by one count: a single value of half the range -/
theorem dip_diff (b : ℕ) (hb : 1 ≤ b) (n j : ℕ) (a : ℤ) (h2 : 2 ≤ j) (hj : j < n) :
    Narrow.centralDiff ⟨b, false⟩ ((List.replicate n a).set j (a - 1)) = (List.replicate n 0).set (j - 1) (2 ^ (b - 1) - 1) := by
  have hp : (2 : ℤ) ^ b = 2 * 2 ^ (b - 1) := by
    obtain ⟨k, rfl⟩ : ∃ k, b = k + 1 := ⟨b - 1, by omega⟩
    rw [Nat.add_sub_cancel, pow_succ]; ring
  have h1 : (1 : ℤ) ≤ 2 ^ (b - 1) := one_le_pow₀ (by norm_num)
  apply List.ext_getElem?
  intro i
  unfold Narrow.centralDiff
  rw [List.length_set, List.length_replicate, List.getElem?_map, List.getElem?_set]
  by_cases hi : i < n
  · rw [List.getElem?_range hi, Option.map_some, List.length_replicate, List.getElem?_replicate, if_pos hi]
    by_cases hc : 1 ≤ i ∧ i + 1 < n
    · rw [if_pos hc, rep_get _ _ _ _ _ (by omega), rep_get _ _ _ _ _ (by omega)]
      by_cases e1 : i + 1 = j
      · rw [if_pos e1, if_neg (by omega), if_pos (by omega), if_pos (by omega)]
        congr 1
        have : Narrow.IntType.wrap ⟨b, false⟩ (a - 1 - a) = 2 ^ b - 1 := by
          apply represents_unique ⟨b, false⟩ hb _ _ (wrap_spec _ hb _).1
          · simp only [Represents, if_neg Bool.false_ne_true]; omega
          · refine (wrap_spec _ hb _).2.trans ?_
            rw [Int.modEq_iff_dvd]
            exact ⟨1, by ring⟩
        rw [this, Int.tdiv_eq_ediv_of_nonneg (by omega)]
        omega
      · rw [if_neg e1, if_neg (by omega : ¬ j - 1 = i)]
        congr 1
        by_cases e2 : i - 1 = j
        · rw [if_pos e2]
          have : Narrow.IntType.wrap ⟨b, false⟩ (a - (a - 1)) = 1 := by
            apply represents_unique ⟨b, false⟩ hb _ _ (wrap_spec _ hb _).1
            · simp only [Represents, if_neg Bool.false_ne_true]; omega
            · refine (wrap_spec _ hb _).2.trans ?_
              rw [show a - (a - 1) = 1 by ring]
          rw [this]; rfl
        · rw [if_neg e2, sub_self, show Narrow.IntType.wrap ⟨b, false⟩ 0 = 0 by simp [Narrow.IntType.wrap]]; rfl
    · rw [if_neg hc, if_neg (by omega : ¬ j - 1 = i)]
  · rw [List.getElem?_eq_none (by simpa using hi), if_neg (by omega), List.getElem?_replicate, if_neg hi]; rfl

theorem rep_sum (n k : ℕ) (a d : ℝ) (hk : k < n) : ((List.replicate n a).set k d).sum = n * a + (d - a) := by
  rw [List.sum_set', dif_pos (by simpa using hk)]
  simp
  ring

/-- the variance of a constant series with one value off -/
theorem rep_var (n k : ℕ) (a d : ℝ) (hk : k < n) :
    Spec.var ((List.replicate n a).set k d) = (d - a) ^ 2 / n * (1 - 1 / n) := by
  have hn : (n : ℝ) ≠ 0 := by
    have : n ≠ 0 := by omega
    exact_mod_cast this
  have hne : (List.replicate n a).set k d ≠ [] := by
    intro h
    have := congrArg List.length h
    simp at this; omega
  rw [Spec.var_eq_sub hne]
  unfold Spec.avg
  rw [List.map_set, List.map_replicate, rep_sum _ _ _ _ hk, rep_sum _ _ _ _ hk]
  simp only [List.length_set, List.length_replicate]
  field_simp
  ring

/-- a sample whose derivative exceeds `√(2 ln n)` standard deviations is flagged -/
theorem narrow_flag (t : Narrow.IntType) (xs : List ℤ) (hn : 2 ≤ xs.length) (h0 : Spec.var (toK ℝ xs) ≠ 0)
    (h1 : Spec.var (toK ℝ (Narrow.centralDiff t xs)) ≠ 0) :
    ∃ r, (Narrow.phasespace (F := Fl ℝ) t xs) = .ok r ∧ ∀ (i : ℕ) (y : ℤ), (Narrow.centralDiff t xs)[i]? = some y →
      2 * Real.log xs.length * Spec.var (toK ℝ (Narrow.centralDiff t xs)) < (y : ℝ) ^ 2 → i ∈ r := by
  have hne : xs ≠ [] := by rintro rfl; simp at hn
  obtain ⟨r, hr, hm⟩ := narrow_char t xs hne
  refine ⟨r, hr, fun i y hy hbig => (hm i).mpr ?_⟩
  have l1 := ncd_length t xs
  have l2 := ncd_length t (Narrow.centralDiff t xs)
  have hi : i < xs.length := by
    by_contra hc; rw [List.getElem?_eq_none (by omega)] at hy; cases hy
  refine ⟨xs[i], y, (Narrow.centralDiff t (Narrow.centralDiff t xs))[i], List.getElem?_eq_getElem hi, hy,
    List.getElem?_eq_getElem (by omega), Or.inl ?_⟩
  have hlog : 0 < 2 * Real.log xs.length := by
    have : (1 : ℝ) < xs.length := by exact_mod_cast hn
    have := Real.log_pos this
    linarith
  have hneK : toK ℝ xs ≠ [] := by simpa [toK] using hne
  have hneD : toK ℝ (Narrow.centralDiff t xs) ≠ [] := by
    intro h; have := congrArg List.length h; simp only [toK, List.length_map, l1, List.length_nil] at this; omega
  set l := √(2 * Real.log xs.length) with hl
  have hlpos : 0 < l := Real.sqrt_pos.mpr hlog
  have hl2 : l ^ 2 = 2 * Real.log xs.length := Real.sq_sqrt hlog.le
  set s0 := √(Spec.var (toK ℝ xs)) with hs0
  have hs0p : 0 < s0 := Real.sqrt_pos.mpr (lt_of_le_of_ne (Spec.var_nonneg _) (Ne.symm h0))
  set s1 := √(Spec.var (toK ℝ (Narrow.centralDiff t xs))) with hs1
  have hs1p : 0 < s1 := Real.sqrt_pos.mpr (lt_of_le_of_ne (Spec.var_nonneg _) (Ne.symm h1))
  have hs12 : s1 ^ 2 = Spec.var (toK ℝ (Narrow.centralDiff t xs)) := Real.sq_sqrt (Spec.var_nonneg _)
  have ea : (narrowP t xs).a1 = fin (l * s0) := by
    show lambdaOf _ *. npStd _ = _
    rw [npStd_fins _ hneK, lambdaOf_fin (by omega)]; rfl
  have eb : (narrowP t xs).b1 = fin (l * s1) := by
    show lambdaOf _ *. npStd _ = _
    rw [npStd_fins _ hneD, lambdaOf_fin (by omega)]; rfl
  have p1 : 0 < l * s0 := mul_pos hlpos hs0p
  have p2 : 0 < l * s1 := mul_pos hlpos hs1p
  have e0 : (lit 0 : Fl ℝ) = fin 0 := by simp
  rw [ea, eb, e0, rhoAt_fin _ _ _ p1.ne' p2.ne']
  have hlt : 1 < rhoR 0 (l * s0) (l * s1) (xs[i] : ℝ) y := by
    unfold rhoR
    rw [Real.cos_zero, Real.sin_zero, mul_one, mul_zero, add_zero, mul_one, mul_zero, sub_zero]
    have q1 : 0 ≤ ((xs[i] : ℝ) / (l * s0)) ^ 2 := sq_nonneg _
    have : 1 < ((y : ℝ) / (l * s1)) ^ 2 := by
      rw [div_pow, lt_div_iff₀ (by positivity), one_mul, mul_pow, hl2, hs12]; exact hbig
    linarith
  simpa using hlt

/-- **C231** one count is enough: in an otherwise constant recording of unsigned integers of `b ≥ 2` bits, the sample before a
dip by a single count is flagged.  The same samples as 64-bit signed integers: nothing is flagged. -/
theorem C231_dip (b : ℕ) (hb : 2 ≤ b) (n j : ℕ) (a : ℤ) (h2 : 2 ≤ j) (hj : j < n) :
    (∃ r, (Narrow.phasespace (F := Fl ℝ) ⟨b, false⟩ ((List.replicate n a).set j (a - 1))) = .ok r ∧ j - 1 ∈ r) ∧
    (∀ M : ℤ, |a| ≤ M → |a - 1| ≤ M → n * M ^ 2 < 2 ^ 63 →
      (Narrow.phasespace (F := Fl ℝ) ⟨64, true⟩ ((List.replicate n a).set j (a - 1))) = .ok []) := by
  have hn3 : 3 ≤ n := by omega
  have hlen : ((List.replicate n a).set j (a - 1)).length = n := by simp
  have hn0 : (3 : ℝ) ≤ n := by exact_mod_cast hn3
  have hfac : 0 < 1 - 1 / (n : ℝ) := by
    have : 1 / (n : ℝ) < 1 := by rw [div_lt_one (by linarith)]; linarith
    linarith
  constructor
  · have hD1 : (1 : ℤ) ≤ 2 ^ (b - 1) - 1 := by
      have : (2 : ℤ) ^ 1 ≤ 2 ^ (b - 1) := pow_le_pow_right₀ (by norm_num) (by omega)
      omega
    set D : ℤ := 2 ^ (b - 1) - 1 with hD
    have hDr : (1 : ℝ) ≤ D := by exact_mod_cast hD1
    have v0 : Spec.var (toK ℝ ((List.replicate n a).set j (a - 1))) = 1 / n * (1 - 1 / n) := by
      have : toK ℝ ((List.replicate n a).set j (a - 1)) = (List.replicate n (a : ℝ)).set j (a - 1) := by
        simp [toK, List.map_set]
      rw [this, rep_var n j _ _ hj]; ring
    have hd := dip_diff b (by omega) n j a h2 hj
    have v1 : Spec.var (toK ℝ (Narrow.centralDiff ⟨b, false⟩ ((List.replicate n a).set j (a - 1)))) =
        (D : ℝ) ^ 2 / n * (1 - 1 / n) := by
      rw [hd, ← hD]
      have : toK ℝ ((List.replicate n 0).set (j - 1) D) = (List.replicate n (0 : ℝ)).set (j - 1) D := by
        simp [toK, List.map_set]
      rw [this, rep_var n (j - 1) _ _ (by omega), sub_zero]
    obtain ⟨r, hr, hm⟩ := narrow_flag ⟨b, false⟩ ((List.replicate n a).set j (a - 1)) (by omega)
      (by rw [v0]; positivity) (by rw [v1]; positivity)
    refine ⟨r, hr, hm (j - 1) D ?_ ?_⟩
    · rw [hd, List.getElem?_set, if_pos rfl, List.length_replicate, if_pos (by omega)]
    · rw [v1, hlen]
      have hl := two_log_lt n (by omega)
      have hl0 : 0 ≤ 2 * Real.log n := by
        have := Real.log_nonneg (by linarith : (1 : ℝ) ≤ n)
        linarith
      have hD2 : 0 < (D : ℝ) ^ 2 := by positivity
      calc 2 * Real.log n * ((D : ℝ) ^ 2 / n * (1 - 1 / n)) = (2 * Real.log n / n) * (1 - 1 / n) * (D : ℝ) ^ 2 := by ring
        _ < 1 * (D : ℝ) ^ 2 := by
          apply mul_lt_mul_of_pos_right _ hD2
          have h1 : 2 * Real.log n / n < 1 := by rw [div_lt_one (by linarith)]; exact hl
          have h3 : 0 ≤ 2 * Real.log n / n := by positivity
          have h4 : 1 - 1 / (n : ℝ) ≤ 1 := by
            have : 0 ≤ 1 / (n : ℝ) := by positivity
            linarith
          nlinarith
        _ = _ := one_mul _
  · intro M h1 h3 hM
    have hmem : ∀ x ∈ (List.replicate n a).set j (a - 1), x = a ∨ x = a - 1 := by
      intro x hx
      rcases List.mem_or_eq_of_mem_set hx with h | h
      · left; exact List.eq_of_mem_replicate h
      · right; exact h
    have hne : (List.replicate n a).set j (a - 1) ≠ [] := by
      intro h; rw [h] at hlen; simp at hlen; omega
    have hM0 : 0 ≤ M ^ 2 := sq_nonneg M
    rw [C231_exact 64 (by norm_num) _ M (by
      intro x hx
      rcases hmem x hx with rfl | rfl
      · exact h1
      · exact h3) (by
      have : (3 : ℤ) ≤ n := by exact_mod_cast hn3
      norm_num at hM ⊢
      nlinarith) (by rw [hlen]; exact hM)]
    refine C136_integers _ hne (fun i l r hl hr => ?_)
    rcases hmem l (List.mem_of_getElem? hl) with rfl | rfl <;> rcases hmem r (List.mem_of_getElem? hr) with rfl | rfl <;> simp

/-- an 8-bit recording of ten samples -/
example : ∃ r, (Narrow.phasespace (F := Fl ℝ) ⟨8, false⟩ [100, 100, 100, 100, 99, 100, 100, 100, 100, 100]) = .ok r ∧ 3 ∈ r :=
  (C231_dip 8 (by norm_num) 10 4 100 (by norm_num) (by norm_num)).1

example : (Narrow.phasespace (F := Fl ℝ) ⟨64, true⟩ [100, 100, 100, 100, 99, 100, 100, 100, 100, 100]) = .ok [] :=
  (C231_dip 8 (by norm_num) 10 4 100 (by norm_num) (by norm_num)).2 100 (by norm_num) (by norm_num) (by norm_num)

/-! ## Coarse recordings -/

theorem angle_coarse (t : Narrow.IntType) (hb : 1 ≤ t.bits) (xs zs : List ℤ) (hx : ∀ x ∈ xs, (2 : ℤ) ^ t.bits ∣ x ^ 2) :
    (Narrow.phaseAngle t xs zs : Fl ℝ) = nan ∨ (Narrow.phaseAngle t xs zs : Fl ℝ) = fin (Real.pi / 2) ∨
      (Narrow.phaseAngle t xs zs : Fl ℝ) = fin (-(Real.pi / 2)) := by
  have hz : xs.map (fun a => t.wrap (a ^ 2)) = xs.map (fun _ => 0) := by
    apply List.map_congr_left
    intro x h
    apply represents_unique t hb _ _ (wrap_spec t hb _).1
    · unfold Represents
      split_ifs
      · exact ⟨by simp, by positivity⟩
      · exact ⟨le_rfl, by positivity⟩
    · exact (wrap_spec t hb _).2.trans (Int.modEq_zero_iff_dvd.mpr (hx x h))
  have h0 : Narrow.npSum t (xs.map (fun a => t.wrap (a ^ 2))) = 0 := by
    rw [hz]
    unfold Narrow.npSum Narrow.IntType.wrap
    simp
  unfold Narrow.phaseAngle
  rw [h0]
  simp only [lit_eq]
  generalize Narrow.sumProd t xs zs = S
  have e : (((0 : ℤ) : ℚ) : ℝ) = 0 := by norm_num
  rw [e]
  rcases lt_trichotomy S 0 with h | h | h
  · right; right
    rw [show ((fin ((S : ℚ) : ℝ) : Fl ℝ) /. fin 0) = ninf by simp [pdiv_fin', infSgn, h.ne, h.not_gt]]
    rfl
  · left
    rw [h]
    simp [pdiv_fin', infSgn]
  · right; left
    rw [show ((fin ((S : ℚ) : ℝ) : Fl ℝ) /. fin 0) = pinf by simp [pdiv_fin', infSgn, h.ne', h]]
    rfl

/-- **C231** coarse recordings: when the squares of all samples are multiples of `2^bits` (as for multiples of 256 in 16 bits), the
plane of value and second derivative is never used: a sample is flagged iff it is outside the ellipse of the plane of value and first
derivative or outside that of the plane of the two derivatives. -/
theorem C231_coarse (t : Narrow.IntType) (hb : 1 ≤ t.bits) (xs : List ℤ) (hn : 2 ≤ xs.length)
    (hx : ∀ x ∈ xs, (2 : ℤ) ^ t.bits ∣ x ^ 2) (dc dc2 : List ℤ) (h1 : dc = Narrow.centralDiff t xs) (h2 : dc2 = Narrow.centralDiff t dc)
    (l s0 s1 s2 : ℝ) (hl : l = √(2 * Real.log xs.length)) (hs0 : s0 = √(Spec.var (toK ℝ xs))) (hs1 : s1 = √(Spec.var (toK ℝ dc)))
    (hs2 : s2 = √(Spec.var (toK ℝ dc2))) (n0 : s0 ≠ 0) (n1 : s1 ≠ 0) (n2 : s2 ≠ 0) :
    ∃ r, (Narrow.phasespace (F := Fl ℝ) t xs) = .ok r ∧ ∀ i, i ∈ r ↔ ∃ x y z, xs[i]? = some x ∧ dc[i]? = some y ∧ dc2[i]? = some z ∧
      (¬ EllipseDisc 0 (l * s0) (l * s1) x y ∨ ¬ EllipseDisc 0 (l * s1) (l * s2) y z) := by
  have hne : xs ≠ [] := by rintro rfl; simp at hn
  obtain ⟨r, hr, hm⟩ := narrow_char t xs hne
  refine ⟨r, hr, fun i => (hm i).trans ?_⟩
  have hlog : 0 < 2 * Real.log xs.length := by
    have : (1 : ℝ) < xs.length := by exact_mod_cast hn
    have := Real.log_pos this
    linarith
  have l0 : l ≠ 0 := by rw [hl]; exact (Real.sqrt_pos.mpr hlog).ne'
  have ne : ∀ ys : List ℤ, ys.length = xs.length → toK ℝ ys ≠ [] := by
    intro ys h h'; have := congrArg List.length h'; simp only [toK, List.length_map, h, List.length_nil] at this; omega
  have e0 : npStd (fins (toK ℝ xs)) = (fin s0 : Fl ℝ) := by rw [npStd_fins _ (ne _ rfl), hs0]
  have e1 : npStd (fins (toK ℝ dc)) = (fin s1 : Fl ℝ) := by rw [npStd_fins _ (ne _ (by rw [h1, ncd_length])), hs1]
  have e2 : npStd (fins (toK ℝ dc2)) = (fin s2 : Fl ℝ) := by rw [npStd_fins _ (ne _ (by rw [h2, ncd_length, h1, ncd_length])), hs2]
  have hP : narrowP t xs = phaseCoefs (fin s0) (fin s1) (fin s2) (fin l) (Narrow.phaseAngle t xs dc2) := by
    unfold narrowP
    rw [← h1, ← h2, e0, e1, e2, lambdaOf_fin (by omega), ← hl]
  have third : ∀ x z : ℤ, (lit 1 <. rhoAt (narrowP t xs).theta (narrowP t xs).a3 (narrowP t xs).b3 (fin (x : ℝ)) (fin (z : ℝ))) = false := by
    intro x z
    have hneg : (0 : ℝ) < (l * s2) ^ 2 := by positivity
    have a3n : ∀ θ : ℝ, Real.cos θ = 0 → Real.sin θ ^ 2 = 1 →
        (phaseCoefs (fin s0) (fin s1) (fin s2) (fin l) (fin θ) : PhaseParams (Fl ℝ)).a3 = nan := by
      intro θ hc hs
      show PyMath.sqrt _ /. _ = _
      simp only [pcos_fin, psin_fin, pnpow_fin, pmul_fin, psub_fin, hc, hs]
      rw [psqrt_neg (by norm_num; positivity), nan_div]
    have fin3 : ∀ (θ : Fl ℝ) (b x z : Fl ℝ), ((lit 1 : Fl ℝ) <. rhoAt θ nan b x z) = false := by
      intro θ b x z
      unfold rhoAt
      rw [show rotX θ x z /. nan = (nan : Fl ℝ) by simp, show ((nan : Fl ℝ) ^. 2) = nan from rfl, nan_add, lt_nan]
    rw [hP]
    rcases angle_coarse t hb xs dc2 hx with h | h | h <;> rw [h]
    · have : (phaseCoefs (fin s0) (fin s1) (fin s2) (fin l) nan : PhaseParams (Fl ℝ)).theta = nan := rfl
      rw [this]
      unfold rhoAt rotX rotY
      simp [npow_def, Fl.npow]
    · rw [a3n _ (by simp) (by simp)]; exact fin3 _ _ _ _
    · rw [a3n _ (by simp) (by simp)]; exact fin3 _ _ _ _
  have z0 : (lit 0 : Fl ℝ) = fin 0 := by simp
  have p1 : (narrowP t xs).a1 = fin (l * s0) := by rw [hP]; rfl
  have p2 : (narrowP t xs).b1 = fin (l * s1) := by rw [hP]; rfl
  have p3 : (narrowP t xs).a2 = fin (l * s1) := by rw [hP]; rfl
  have p4 : (narrowP t xs).b2 = fin (l * s2) := by rw [hP]; rfl
  have key : ∀ (θ a b x y : ℝ), a ≠ 0 → b ≠ 0 →
      (((lit 1 : Fl ℝ) <. rhoAt (fin θ) (fin a) (fin b) (fin x) (fin y)) = true ↔ ¬ EllipseDisc θ a b x y) := by
    intro θ a b x y ha hb
    obtain ⟨ρ, h1, _, h2, _⟩ := C70_rho θ a b x y ha hb
    rw [h1]; exact h2
  rw [← h1, ← h2]
  simp only [third, p1, p2, p3, p4, z0, key _ _ _ _ _ (mul_ne_zero l0 n0) (mul_ne_zero l0 n1),
    key _ _ _ _ _ (mul_ne_zero l0 n1) (mul_ne_zero l0 n2), Bool.false_eq_true, or_false]

/-- a 16-bit recording with samples 0 and 256 meets the hypotheses -/
example : (∀ x ∈ ([0, 0, 256, 0, 0] : List ℤ), (2 : ℤ) ^ 16 ∣ x ^ 2) ∧
    Narrow.centralDiff ⟨16, true⟩ [0, 0, 256, 0, 0] = [0, 128, 0, -128, 0] ∧
    Narrow.centralDiff ⟨16, true⟩ [0, 128, 0, -128, 0] = [0, 0, -128, 0, 0] ∧ √(Spec.var (toK ℝ [0, 0, 256, 0, 0])) ≠ 0 ∧
    √(Spec.var (toK ℝ [0, 128, 0, -128, 0])) ≠ 0 ∧ √(Spec.var (toK ℝ [0, 0, -128, 0, 0])) ≠ 0 := by
  refine ⟨by decide, by decide, by decide, ?_, ?_, ?_⟩ <;>
    exact (Real.sqrt_pos.mpr (by norm_num [Spec.var, Spec.cmoment, Spec.avg, toK])).ne'

end Proadv.Props
