import Verif.Props.Butter

/-! # `xyz_to_ptf` for several rows of zeros: C124 -/

namespace Proadv.Props

open Proadv.Butter Proadv.Spec Complex

set_option linter.unusedSectionVars false

noncomputable section

/-- the gain that belongs to row `i`: a single gain serves every row -/
def gainOf (ks : List ℝ) (i : Nat) : ℝ := if ks.length = 1 then ks.getD 0 0 else ks.getD i 0

theorem rowGains_ok {n : Nat} {ks : List ℝ} (h : ks.length = 1 ∨ n ≤ ks.length) :
    ∃ k, rowGains n ks = .ok k ∧ k.length = n ∧ ∀ i < n, k[i]? = some (gainOf ks i) := by
  unfold rowGains gainOf
  by_cases h1 : ks.length = 1
  · refine ⟨_, if_pos h1, by simp, fun i hi => ?_⟩
    rw [if_pos h1, List.getElem?_replicate, if_pos hi]
  · have h2 : n ≤ ks.length := h.resolve_left h1
    refine ⟨ks.take n, ?_, by simp [h2], fun i hi => ?_⟩
    · rw [if_neg h1, if_neg (by omega)]
    · rw [if_neg h1, List.getElem?_take_of_lt hi, List.getD_eq_getElem?_getD, List.getElem?_eq_getElem (by omega)]
      rfl

theorem evalHi_re (a : List ℂ) (s : ℝ) : evalHi (a.map (fun c => ((c.re : ℝ) : ℂ))) s = ((evalHi a s).re : ℂ) := by
  induction a using List.reverseRecOn with
  | nil => simp [evalHi]
  | append_singleton t c ih =>
    rw [List.map_append, List.map_singleton, evalHi_append, evalHi_append, ih]
    apply Complex.ext <;> simp

/-- **C124** rows whose first row comes in conjugate pairs: one polynomial per row, of the right degree, agreeing at every
real point with the real part of `gain * prod (s - zero)`; for rows that come in conjugate pairs the polynomial is exact
everywhere.  The denominator is the expanded one. -/
theorem C124_rows (rows : List (List ℂ)) (p : List ℂ) (ks : List ℝ) (m : Nat) (hm : 0 < m) (hr : rows ≠ [])
    (hw : ∀ r ∈ rows, r.length = m) (hk : ks.length = 1 ∨ rows.length ≤ ks.length) (hc : ConjClosed (rows.headD [])) :
    ∃ g h, xyzToPtfRows rows p ks = .ok (g, h) ∧ g.length = rows.length ∧
      (∀ s, evalHi h s = (p.map (fun q => s - q)).prod) ∧
      ∀ i row, rows[i]? = some row → ∃ gi, g[i]? = some gi ∧ gi.length = m + 1 ∧ (∀ c ∈ gi, c.im = 0) ∧
        (∀ s : ℝ, evalHi gi s = (((gainOf ks i : ℂ) * (row.map (fun z => (s : ℂ) - z)).prod).re : ℂ)) ∧
        (ConjClosed row → ∀ s : ℂ, evalHi gi s = (gainOf ks i : ℂ) * (row.map (fun z => s - z)).prod) := by
  obtain ⟨k, hk1, hk2, hk3⟩ := rowGains_ok (n := rows.length) hk
  have hhead : (rows.headD []).isEmpty = false := by
    obtain ⟨r, t, rfl⟩ := List.exists_cons_of_ne_nil hr
    have := hw r (by simp)
    cases r with
    | nil => simp at this; omega
    | cons => rfl
  refine ⟨List.zipWith (fun (k : ℝ) row => (npPoly row).map (fun c => (((k : ℂ) * c).re : ℂ))) k rows, (xyzToPtf ⟨[], p, 1⟩).2,
    ?_, by simp [hk2], fun s => (C102_expansion ⟨[], p, 1⟩ s).2, ?_⟩
  · unfold xyzToPtfRows
    rw [if_neg (by simpa using hr), hhead, if_neg (by simp), hk1]
    simp only [bind, Except.bind]
    exact if_pos hc
  · intro i row hi
    have hlt : i < rows.length := (List.getElem?_eq_some_iff.mp hi).1
    have hlen : row.length = m := hw row (List.mem_of_getElem? hi)
    refine ⟨(npPoly row).map (fun c => (((gainOf ks i : ℂ) * c).re : ℂ)), ?_, ?_, ?_, ?_, ?_⟩
    · rw [List.getElem?_zipWith, hk3 i hlt, hi]
    · simp [npPoly_eq, length_foldl, hlen, add_comm]
    · intro c hc
      obtain ⟨d, -, rfl⟩ := List.mem_map.mp hc
      simp
    · intro s
      have := evalHi_re ((npPoly row).map (fun c => (gainOf ks i : ℂ) * c)) s
      rw [List.map_map] at this
      rw [evalHi_smul, npPoly_eq, evalHi_foldl, evalHi_one, one_mul] at this
      rw [← this, npPoly_eq]
      rfl
    · intro hcl s
      have : (npPoly row).map (fun c => (((gainOf ks i : ℂ) * c).re : ℂ)) = (npPoly row).map (fun c => (gainOf ks i : ℂ) * c) := by
        apply List.map_congr_left
        intro c hcm
        rw [npPoly_eq] at hcm
        have := coeffs_real hcl c hcm
        apply Complex.ext <;> simp [this]
      rw [this, evalHi_smul, npPoly_eq, evalHi_foldl, evalHi_one, one_mul]

/-- **C124** everything else is rejected: a first row without conjugate pairs (ValueError, although a single such row given
as 1-D is accepted), too few gains or no rows (IndexError), rows without entries (AttributeError). -/
theorem C124_errors (rows : List (List ℂ)) (p : List ℂ) (ks : List ℝ) :
    (rows = [] → xyzToPtfRows rows p ks = .error .indexError) ∧
    (rows ≠ [] → rows.headD [] = [] → xyzToPtfRows rows p ks = .error .attributeError) ∧
    (rows.headD [] ≠ [] → ks.length ≠ 1 → ks.length < rows.length → xyzToPtfRows rows p ks = .error .indexError) ∧
    (rows.headD [] ≠ [] → (ks.length = 1 ∨ rows.length ≤ ks.length) → ¬ ConjClosed (rows.headD []) →
      xyzToPtfRows rows p ks = .error .valueError) := by
  have hne : rows.headD [] ≠ [] → rows ≠ [] := by rintro h rfl; simp at h
  refine ⟨?_, ?_, ?_, ?_⟩
  · rintro rfl; rfl
  · intro h1 h2
    unfold xyzToPtfRows
    rw [if_neg (by simpa using h1), h2]; rfl
  · intro h1 h2 h3
    unfold xyzToPtfRows
    rw [if_neg (by simpa using hne h1), if_neg (by simpa using h1), rowGains, if_neg h2, if_pos h3]
    rfl
  · intro h1 h2 h3
    obtain ⟨k, hk1, -, -⟩ := rowGains_ok (n := rows.length) h2
    unfold xyzToPtfRows
    rw [if_neg (by simpa using hne h1), if_neg (by simpa using h1), hk1]
    simp only [bind, Except.bind]
    exact if_neg h3

/-- the documented claim: whatever is returned for several rows of zeros is one numerator polynomial per row -/
def C124_documented : Prop := ∀ (rows : List (List ℂ)) (p : List ℂ) (ks : List ℝ) (g : List (List ℂ)) (h : List ℂ),
  xyzToPtfRows rows p ks = .ok (g, h) → ∀ i row gi, rows[i]? = some row → g[i]? = some gi →
    ∀ s, evalHi gi s = (gainOf ks i : ℂ) * (row.map (fun z => s - z)).prod

/-- **C124** the documented claim is false: for the rows `[1]` and `[i]` the second polynomial returned is `s`, not `s - i`,
and swapping the rows raises ValueError. -/
theorem C124_documented_false : ¬ C124_documented ∧
    (∃ g h, xyzToPtfRows [[1], [I]] [] [1] = .ok (g, h) ∧ g[1]? = some [1, 0]) ∧
    xyzToPtfRows [[I], [1]] [] [1] = .error .valueError := by
  have hp : npPoly [I] = [1, -I] := by rw [npPoly_eq]; simp [convRoot]
  have hc : ConjClosed (([[1], [I]] : List (List ℂ)).headD []) := by
    show List.Perm _ _
    simp
  have hval : ∃ g h, xyzToPtfRows [[1], [I]] [] [1] = .ok (g, h) ∧ g[1]? = some [1, 0] := by
    refine ⟨List.zipWith (fun (k : ℝ) row => (npPoly row).map (fun c => (((k : ℂ) * c).re : ℂ))) (List.replicate 2 1) [[1], [I]],
      (xyzToPtf ⟨[], [], 1⟩).2, ?_, ?_⟩
    · unfold xyzToPtfRows
      rw [if_neg (by simp), if_neg (by simp), rowGains, if_pos (by simp)]
      simp only [bind, Except.bind]
      exact if_pos hc
    · simp [List.replicate, hp]
  refine ⟨fun hd => ?_, hval, ?_⟩
  · obtain ⟨g, h, h1, h2⟩ := hval
    have := hd _ _ _ _ _ h1 1 [I] [1, 0] rfl h2 0
    simp [evalHi, gainOf] at this
  · refine (C124_errors _ _ _).2.2.2 (by simp) (Or.inl rfl) ?_
    intro h
    have h := List.Perm.mem_iff (a := I) h
    have h2 : I = -I := by simpa using h
    have := congrArg Complex.im h2
    norm_num at this

/-- non-vacuity of `C124_rows`: two rows of two zeros, the first a conjugate pair -/
example : ∃ g h, xyzToPtfRows [[I, -I], [2, I]] [-1] [3] = .ok (g, h) ∧ g.length = 2 := by
  have hc : ConjClosed (([[I, -I], [2, I]] : List (List ℂ)).headD []) := by
    show List.Perm [I, -I] ([I, -I].map (starRingEnd ℂ))
    simpa using List.Perm.swap (-I) I []
  obtain ⟨g, h, h1, h2, -⟩ := C124_rows [[I, -I], [2, I]] [-1] [3] 2 (by norm_num) (by simp) (by simp) (Or.inl rfl) hc
  exact ⟨g, h, h1, h2⟩

end

end Proadv.Props
