import Verif.Props.PipelineLaws

/-!
# C147 (second half), C149: the bivariate kernel program and its ellipse test
-/

set_option linter.unusedSectionVars false

namespace Proadv.Props

open Proadv Descriptive Detect Replace KernelDetect Pipeline Fl

section generic
variable {F : Type} [PyMath F]

theorem findBivariate_shape (kde : List (F × F) → List F → List F → Py (List (List F))) (v : List F) (r : List Nat)
    (h : findBivariate kde v = .ok r) :
    ∃ ul uu wl wu, r = whereTrue ((rotated v (minmod v)).map (fun p => bivariateSpike ul uu wl wu p.1 p.2)) := by
  unfold findBivariate at h
  simp only [bind, Except.bind] at h
  split at h <;> [cases h; skip]
  split at h <;> [cases h; skip]
  split at h <;> [cases h; skip]
  split at h <;> [cases h; skip]
  split at h <;> [cases h; skip]
  split at h <;> [cases h; skip]
  split at h <;> [cases h; skip]
  split at h <;> [cases h; skip]
  exact ⟨_, _, _, _, (Except.ok.inj h).symm⟩

theorem findBivariate_positions (kde : List (F × F) → List F → List F → Py (List (List F))) (v : List F) (r : List Nat)
    (h : findBivariate kde v = .ok r) : Positions v.length r := by
  obtain ⟨ul, uu, wl, wu, rfl⟩ := findBivariate_shape kde v r h
  refine ⟨whereTrue_sorted _, fun i hi => ?_⟩
  have := whereTrue_lt hi
  simp only [List.length_map, rotated_length] at this
  omega

/-- **C147** the bivariate kernel example: one pass; IndexError when nothing is detected, ValueError on an empty record;
otherwise the length is kept, at least one sample was detected and every other sample is only rounded to 4 decimals. -/
theorem C147_bivariate (kde : List (F × F) → List F → List F → Py (List (List F))) (v : List F) :
    (findBivariate kde v = .ok [] → bivariateExample kde v = .error .indexError) ∧
    (v = [] → bivariateExample kde v = .error .valueError) ∧
    (∀ e, findBivariate kde v = .error e → bivariateExample kde v = .error e) ∧
    ∀ out, bivariateExample kde v = .ok out → out.length = v.length ∧
      ∃ sp, findBivariate kde v = .ok sp ∧ sp ≠ [] ∧ Positions v.length sp ∧
        ∀ k, k ∉ sp → out[k]? = (v[k]?).map (fun x => PyNum.around x 4) := by
  refine ⟨fun h => ?_, ?_, fun e h => ?_, fun out h => ?_⟩
  · unfold bivariateExample
    rw [h]; rfl
  · rintro rfl; rfl
  · unfold bivariateExample
    rw [h]; rfl
  · unfold bivariateExample at h
    simp only [bind, Except.bind] at h
    cases hf : findBivariate kde v with
    | error e => rw [hf] at h; cases h
    | ok sp =>
      rw [hf] at h
      have hp := findBivariate_positions kde v sp hf
      obtain ⟨h1, h2⟩ := C44_linear v sp hp.1 hp.2 false 4 out h
      exact ⟨h1, sp, rfl, (by rintro rfl; cases h), hp, h2⟩

end generic

/-- the two-branch test of the example on finite cutoffs, in centred coordinates -/
theorem bivariateSpike_fin (a b c d x y : ℝ) (h1 : a < b) (h2 : c ≤ d) :
    (bivariateSpike (fin a) (fin b) (fin c) (fin d) (fin x) (fin y) : Bool) = true ↔
      ((b - a) / 2 < |x - (a + b) / 2| ∨
        ((d - c) / 2) ^ 2 * (1 - (x - (a + b) / 2) ^ 2 / ((b - a) / 2) ^ 2) < (y - (c + d) / 2) ^ 2) := by
  unfold bivariateSpike
  simp only [lit_eq, padd_fin, pmul_fin, psub_fin, pnpow_fin]
  have e1 : b - ((1 / 2 : ℚ) : ℝ) * (b + a) = (b - a) / 2 := by push_cast; ring
  have e1' : a - ((1 / 2 : ℚ) : ℝ) * (b + a) = -((b - a) / 2) := by push_cast; ring
  have e2 : d - ((1 / 2 : ℚ) : ℝ) * (d + c) = (d - c) / 2 := by push_cast; ring
  have e2' : c - ((1 / 2 : ℚ) : ℝ) * (d + c) = -((d - c) / 2) := by push_cast; ring
  have e3 : x - ((1 / 2 : ℚ) : ℝ) * (b + a) = x - (a + b) / 2 := by push_cast; ring
  have e4 : y - ((1 / 2 : ℚ) : ℝ) * (d + c) = y - (c + d) / 2 := by push_cast; ring
  rw [e1, e1', e2, e2', e3, e4]
  have e5 : ((1 / 2 : ℚ) : ℝ) * ((b - a) / 2 - -((b - a) / 2)) = (b - a) / 2 := by push_cast; ring
  have e6 : ((1 / 2 : ℚ) : ℝ) * ((d - c) / 2 - -((d - c) / 2)) = (d - c) / 2 := by push_cast; ring
  rw [e5, e6]
  generalize hA : (b - a) / 2 = A
  generalize hB : (d - c) / 2 = B
  generalize x - (a + b) / 2 = X
  generalize y - (c + d) / 2 = Y
  have hA0 : 0 < A := by rw [← hA]; linarith
  have hB0 : 0 ≤ B := by rw [← hB]; linarith
  simp only [plt_fin, Bool.or_eq_true, decide_eq_true_eq]
  by_cases hX : A < X ∨ X < -A
  · rw [if_pos hX]
    simp only [true_iff]
    left
    rcases hX with h | h
    · exact lt_of_lt_of_le h (le_abs_self X)
    · exact lt_of_lt_of_le (by linarith) (neg_le_abs X)
  · rw [if_neg hX, pdiv_fin (by positivity)]
    push Not at hX
    have hab : |X| ≤ A := abs_le.mpr ⟨hX.2, hX.1⟩
    have hq : X ^ 2 / A ^ 2 ≤ 1 := by
      rw [div_le_one (by positivity)]
      exact sq_le_sq' hX.2 hX.1
    have hr : 0 ≤ B ^ 2 * (1 - X ^ 2 / A ^ 2) := mul_nonneg (sq_nonneg B) (by linarith)
    simp only [psub_fin, pmul_fin, Rat.cast_one]
    rw [psqrt_fin hr]
    simp only [pneg_fin, plt_fin, Bool.or_eq_true, decide_eq_true_eq]
    generalize B ^ 2 * (1 - X ^ 2 / A ^ 2) = W at hr ⊢
    have hs : 0 ≤ √W := Real.sqrt_nonneg W
    have hsq : √W ^ 2 = W := Real.sq_sqrt hr
    constructor
    · intro h
      right
      rcases h with h | h <;> nlinarith
    · rintro (h | h)
      · exact absurd h (not_lt.mpr hab)
      · by_contra hc
        push Not at hc
        nlinarith [hc.1, hc.2]

/-- **C149** for cutoffs of positive width the example's two-branch test (range test first, then ±√) marks exactly the points
strictly outside the ellipse centred at the cutoff mid-points with half-axes half the cutoff widths; this is also what the
library's one-expression test `rho > 1` marks. -/
theorem C149_ellipse (a b c d x y : ℝ) (h1 : a < b) (h2 : c < d) :
    ((bivariateSpike (fin a) (fin b) (fin c) (fin d) (fin x) (fin y) : Bool) = true ↔
      1 < ((x - (a + b) / 2) / ((b - a) / 2)) ^ 2 + ((y - (c + d) / 2) / ((d - c) / 2)) ^ 2) ∧
    bivariateSpike (fin a) (fin b) (fin c) (fin d) (fin x) (fin y) =
      ((lit 1 : Fl ℝ) <. kernelRho (fin a) (fin b) (fin c) (fin d) (fin x) (fin y)) := by
  have key : (bivariateSpike (fin a) (fin b) (fin c) (fin d) (fin x) (fin y) : Bool) = true ↔
      1 < ((x - (a + b) / 2) / ((b - a) / 2)) ^ 2 + ((y - (c + d) / 2) / ((d - c) / 2)) ^ 2 := by
    rw [bivariateSpike_fin a b c d x y h1 h2.le]
    have hA0 : 0 < (b - a) / 2 := by linarith
    have hB0 : 0 < (d - c) / 2 := by linarith
    generalize (b - a) / 2 = A at hA0 ⊢
    generalize (d - c) / 2 = B at hB0 ⊢
    generalize x - (a + b) / 2 = X
    generalize y - (c + d) / 2 = Y
    rw [div_pow, div_pow]
    have hB2 : 0 < B ^ 2 := by positivity
    have hA2 : 0 < A ^ 2 := by positivity
    have e : B ^ 2 * (1 - X ^ 2 / A ^ 2) < Y ^ 2 ↔ 1 < X ^ 2 / A ^ 2 + Y ^ 2 / B ^ 2 := by
      rw [mul_comm, ← lt_div_iff₀ hB2]
      constructor <;> intro h <;> linarith
    rw [e]
    constructor
    · rintro (h | h)
      · have h' : A ^ 2 < X ^ 2 := by
          rw [← sq_abs X]
          exact pow_lt_pow_left₀ h hA0.le two_ne_zero
        have : 1 < X ^ 2 / A ^ 2 := by rwa [lt_div_iff₀ hA2, one_mul]
        have : 0 ≤ Y ^ 2 / B ^ 2 := by positivity
        linarith
      · exact h
    · exact Or.inr
  refine ⟨key, ?_⟩
  rw [Bool.eq_iff_iff, key, kernelRho_fin a b c d x y h1 h2]

/-- **C149** an empty first cutoff interval: as in the library, exactly the samples off its line are marked. -/
theorem C149_degenerate_first (a c d x y : ℝ) :
    (bivariateSpike (fin a) (fin a) (fin c) (fin d) (fin x) (fin y) : Bool) = true ↔ x ≠ a := by
  unfold bivariateSpike
  simp only [lit_eq, padd_fin, pmul_fin, psub_fin, pnpow_fin]
  have e1 : a - ((1 / 2 : ℚ) : ℝ) * (a + a) = 0 := by push_cast; ring
  have e3 : x - ((1 / 2 : ℚ) : ℝ) * (a + a) = x - a := by push_cast; ring
  have e5 : ((1 / 2 : ℚ) : ℝ) * ((0 : ℝ) - 0) = 0 := by ring
  rw [e1, e3, e5]
  simp only [plt_fin, Bool.or_eq_true, decide_eq_true_eq]
  by_cases hx : x = a
  · subst hx
    simp only [sub_self, lt_irrefl, or_self, if_false, ne_eq, not_true_eq_false, iff_false]
    have : (fin ((0 : ℝ) ^ 2) : Fl ℝ) /. fin ((0 : ℝ) ^ 2) = nan := by
      rw [pdiv_fin', if_pos (by norm_num)]
      unfold infSgn; rw [if_pos (by norm_num)]
    rw [this]
    have hn : PyMath.sqrt ((fin ((((1 / 2 : ℚ) : ℝ) * (d - ((1 / 2 : ℚ) : ℝ) * (d + c) - (c - ((1 / 2 : ℚ) : ℝ) * (d + c)))) ^ 2)) *.
        ((fin ((1 : ℚ) : ℝ) : Fl ℝ) -. nan)) = (nan : Fl ℝ) := rfl
    rw [hn]
    simp [show PyNum.neg (nan : Fl ℝ) = nan from rfl, show ∀ t : ℝ, ((nan : Fl ℝ) <. fin t) = false from fun _ => rfl,
      show ∀ t : ℝ, ((fin t : Fl ℝ) <. nan) = false from fun _ => rfl]
  · have : 0 < x - a ∨ x - a < 0 := by
      rcases lt_or_gt_of_ne hx with h | h
      · right; linarith
      · left; linarith
    rw [if_pos this]
    simp [hx]

/-- **C149** an empty second cutoff interval: the example marks every sample off its line or outside the first interval,
whereas the library's `rho > 1` never marks a sample on that line, however far out it lies. -/
theorem C149_degenerate_second (a b c x y : ℝ) (h1 : a < b) :
    ((bivariateSpike (fin a) (fin b) (fin c) (fin c) (fin x) (fin y) : Bool) = true ↔ (x < a ∨ b < x) ∨ y ≠ c) ∧
    (((lit 1 : Fl ℝ) <. kernelRho (fin a) (fin b) (fin c) (fin c) (fin x) (fin y)) = true ↔ y ≠ c) := by
  constructor
  · rw [bivariateSpike_fin a b c c x y h1 le_rfl]
    have e : (y - (c + c) / 2) = y - c := by ring
    rw [e, sub_self]
    simp only [zero_div, ne_eq, OfNat.ofNat_ne_zero, not_false_eq_true, zero_pow, zero_mul]
    apply or_congr
    · rw [lt_abs]
      constructor
      · rintro (h | h)
        · right; linarith
        · left; linarith
      · rintro (h | h)
        · right; linarith
        · left; linarith
    · rw [sq_pos_iff, sub_ne_zero]
  · unfold kernelRho
    simp only [lit_eq, padd_fin, pmul_fin, psub_fin]
    have e1 : b - ((1 / 2 : ℚ) : ℝ) * (b + a) = (b - a) / 2 := by push_cast; ring
    have e2 : c - ((1 / 2 : ℚ) : ℝ) * (c + c) = 0 := by push_cast; ring
    have e4 : y - ((1 / 2 : ℚ) : ℝ) * (c + c) = y - c := by push_cast; ring
    rw [e1, e2, e4, pdiv_fin (by linarith : (b - a) / 2 ≠ 0), pdiv_fin', if_pos rfl]
    rcases lt_trichotomy (y - c) 0 with h | h | h
    · have : infSgn (y - c) = (ninf : Fl ℝ) := by unfold infSgn; rw [if_neg h.ne, if_neg (not_lt.mpr h.le)]
      rw [this]
      have hx : y ≠ c := by intro h'; rw [h'] at h; simp at h
      simp only [hx, ne_eq, not_false_eq_true, iff_true]
      rfl
    · rw [h]
      have : infSgn (0 : ℝ) = (nan : Fl ℝ) := by unfold infSgn; rw [if_pos rfl]
      rw [this]
      have hx : y = c := by linarith
      simp only [hx, ne_eq, not_true_eq_false, iff_false]
      exact Bool.false_ne_true
    · have : infSgn (y - c) = (pinf : Fl ℝ) := by unfold infSgn; rw [if_neg h.ne', if_pos h]
      rw [this]
      have hx : y ≠ c := by intro h'; rw [h'] at h; simp at h
      simp only [hx, ne_eq, not_false_eq_true, iff_true]
      rfl

/-- a sample far outside the first interval but on the line of an empty second one: marked by the example, never by the
library -/
example : (bivariateSpike (fin (-1) : Fl ℝ) (fin 1) (fin 0) (fin 0) (fin 100) (fin 0) : Bool) = true ∧
    ¬ ((lit 1 : Fl ℝ) <. kernelRho (fin (-1)) (fin 1) (fin 0) (fin 0) (fin 100) (fin 0)) = true := by
  obtain ⟨h1, h2⟩ := C149_degenerate_second (-1) 1 0 100 0 (by norm_num)
  exact ⟨h1.mpr (Or.inl (Or.inr (by norm_num))), fun h => h2.mp h rfl⟩

/-! ## C149 the whole detection of the example -/

/-- specification of the derivative of the example: 0 at both ends, inside the one-sided difference of smaller size -/
noncomputable def minmodR (xs : List ℝ) : List ℝ := (List.range xs.length).map (fun i =>
  if 1 ≤ i ∧ i + 1 < xs.length then smaller (xs.getD i 0 - xs.getD (i - 1) 0) (xs.getD (i + 1) 0 - xs.getD i 0) else 0)

/-- **C149** the detection of the bivariate kernel example as a function of the density estimate: given a non-empty finite
record, the extreme coordinates of the rotated pairs (value, derivative) and a 256 × 256 density with positive peak at
`(P, Q)`, the detection succeeds; its four cutoffs are grid values at the positions found along the column and the row of
the peak, both with the constant 0.4; and when both cutoff widths are positive it marks exactly the samples whose rotated
position is outside the ellipse centred at the cutoff mid-points with half-axes half the cutoff widths. -/
theorem C149_program (us : List ℝ) (hne : us ≠ []) (x0 x1 y0 y1 : ℝ)
    (hx0 : x0 ∈ (rotR us (minmodR us)).map Prod.fst ∧ ∀ x ∈ (rotR us (minmodR us)).map Prod.fst, x0 ≤ x)
    (hx1 : x1 ∈ (rotR us (minmodR us)).map Prod.fst ∧ ∀ x ∈ (rotR us (minmodR us)).map Prod.fst, x ≤ x1)
    (hy0 : y0 ∈ (rotR us (minmodR us)).map Prod.snd ∧ ∀ x ∈ (rotR us (minmodR us)).map Prod.snd, y0 ≤ x)
    (hy1 : y1 ∈ (rotR us (minmodR us)).map Prod.snd ∧ ∀ x ∈ (rotR us (minmodR us)).map Prod.snd, x ≤ y1)
    (pdf : List (List ℝ)) (hrows : pdf.length = 256) (hcols : ∀ r ∈ pdf, r.length = 256) (P Q : Nat) (m : ℝ) (hm : 0 < m)
    (hpk : IsPeak pdf P Q m)
    (kde : List (Fl ℝ × Fl ℝ) → List (Fl ℝ) → List (Fl ℝ) → Py (List (List (Fl ℝ))))
    (hkde : kde ((rotR us (minmodR us)).map (fun p => ((fin p.1 : Fl ℝ), (fin p.2 : Fl ℝ)))) (fins (gridR x0 x1 256))
      (fins (gridR y0 y1 256)) = .ok (pdf.map (fun r => (fins r : List (Fl ℝ))))) :
    ∃ l u l' u' r, LowerR (pdf.map (fun row => row.getD Q 0)) (2 / 5) 256 P l ∧
      UpperR (pdf.map (fun row => row.getD Q 0)) (2 / 5) 256 P u ∧
      LowerR (pdf.getD P []) (2 / 5) 256 Q l' ∧ UpperR (pdf.getD P []) (2 / 5) 256 Q u' ∧
      findBivariate kde (fins us) = .ok r ∧
      (l < u → x0 < x1 → l' < u' → y0 < y1 → ∀ i, i ∈ r ↔ ∃ p, (rotR us (minmodR us))[i]? = some p ∧
        1 < ((p.1 - (x0 + (x1 - x0) * ((l : ℝ) + u) / 510)) / ((x1 - x0) * ((u : ℝ) - l) / 510)) ^ 2 +
          ((p.2 - (y0 + (y1 - y0) * ((l' : ℝ) + u') / 510)) / ((y1 - y0) * ((u' : ℝ) - l') / 510)) ^ 2) := by
  set ws := minmodR us with hws
  have hlen : us.length = ws.length := by simp [hws, minmodR]
  have hmm : minmod (fins us) = (fins ws : List (Fl ℝ)) := minmod_fin us
  have hP : P < 256 := hrows ▸ hpk.2.1
  have hPm : pdf.getD P [] ∈ pdf := by
    rw [List.getD_eq_getElem?_getD, List.getElem?_eq_getElem hpk.2.1]; exact List.getElem_mem hpk.2.1
  have hPl : (pdf.getD P []).length = 256 := hcols _ hPm
  have hQ : Q < 256 := by
    by_contra hc
    have := hpk.1
    rw [List.getElem?_eq_none (by omega)] at this; cases this
  have hrowQ : (pdf.getD P []).getD Q 0 = m := by rw [List.getD_eq_getElem?_getD (l := pdf.getD P []), hpk.1]; rfl
  have hcolP : (pdf.map (fun row => row.getD Q 0)).getD P 0 = m := by
    rw [List.getD_eq_getElem?_getD, List.getElem?_map, List.getElem?_eq_getElem hpk.2.1]
    rw [List.getD_eq_getElem?_getD (l := pdf), List.getElem?_eq_getElem hpk.2.1] at hrowQ
    exact hrowQ
  obtain ⟨l, u, hL, hU, hl, hu, hc1⟩ := cutoff_fins (pdf.map (fun row => row.getD Q 0)) x0 x1 (2 / 5) 256 P (by norm_num)
    (by simpa using hrows) hP (by rw [hcolP]; exact hm.ne')
  obtain ⟨l', u', hL', hU', hl', hu', hc2⟩ := cutoff_fins (pdf.getD P []) y0 y1 (2 / 5) 256 Q (by norm_num) hPl hQ
    (by rw [hrowQ]; exact hm.ne')
  rw [hcolP] at hc1
  rw [hrowQ] at hc2
  have e25 : (lit (2 / 5) : Fl ℝ) = fin (2 / 5) := by rw [lit_eq]; norm_num
  have ec : (pdf.map (fun r => (fins r : List (Fl ℝ)))).map (fun r => r.getD Q PyNum.nan) =
      fins (pdf.map (fun row => row.getD Q 0)) := by
    unfold fins
    rw [List.map_map, List.map_map]
    apply List.map_congr_left
    intro r hr
    exact fins_getD (by rw [hcols r hr]; exact hQ)
  have er : (pdf.map (fun r => (fins r : List (Fl ℝ)))).getD P [] = fins (pdf.getD P []) := by
    rw [List.getD_eq_getElem?_getD, List.getD_eq_getElem?_getD, List.getElem?_map]
    cases pdf[P]? <;> rfl
  refine ⟨l, u, l', u', whereTrue (((rotR us ws).map (fun p => ((fin p.1 : Fl ℝ), (fin p.2 : Fl ℝ)))).map (fun p =>
    bivariateSpike (fin (x0 + (x1 - x0) * l / ((256 : ℕ) - 1))) (fin (x0 + (x1 - x0) * u / ((256 : ℕ) - 1)))
      (fin (y0 + (y1 - y0) * l' / ((256 : ℕ) - 1))) (fin (y0 + (y1 - y0) * u' / ((256 : ℕ) - 1))) p.1 p.2)),
    hL, hU, hL', hU', ?_, ?_⟩
  · unfold findBivariate
    rw [hmm, rotated_fins us ws hlen hne]
    have m1 : ((rotR us ws).map (fun p => ((fin p.1 : Fl ℝ), (fin p.2 : Fl ℝ)))).map Prod.fst = fins ((rotR us ws).map Prod.fst) := by
      unfold fins; rw [List.map_map, List.map_map]; rfl
    have m2 : ((rotR us ws).map (fun p => ((fin p.1 : Fl ℝ), (fin p.2 : Fl ℝ)))).map Prod.snd = fins ((rotR us ws).map Prod.snd) := by
      unfold fins; rw [List.map_map, List.map_map]; rfl
    simp only [bind, Except.bind]
    rw [m1, m2, npMin_fins _ x0 hx0.1 hx0.2, npMax_fins _ x1 hx1.1 hx1.2, npMin_fins _ y0 hy0.1 hy0.2,
      npMax_fins _ y1 hy1.1 hy1.2]
    simp only
    rw [gridAxis_fins _ _ _ (by norm_num), gridAxis_fins _ _ _ (by norm_num), hkde]
    simp only
    rw [peakPos_fins pdf P Q m hpk]
    simp only
    rw [e25, ec, er, hc1]
    simp only
    rw [hc2]
  · intro h1 h2 h3 h4 i
    have hlu : (l : ℝ) < u := by exact_mod_cast h1
    have hlu' : (l' : ℝ) < u' := by exact_mod_cast h3
    have e255 : (((256 : ℕ) : ℝ) - 1) = 255 := by norm_num
    rw [e255]
    have a1 : x0 + (x1 - x0) * l / 255 < x0 + (x1 - x0) * u / 255 := by
      have : 0 < x1 - x0 := by linarith
      gcongr
    have a2 : y0 + (y1 - y0) * l' / 255 < y0 + (y1 - y0) * u' / 255 := by
      have : 0 < y1 - y0 := by linarith
      gcongr
    have conv : ∀ p : ℝ × ℝ, bivariateSpike (fin (x0 + (x1 - x0) * l / 255) : Fl ℝ)
        (fin (x0 + (x1 - x0) * u / 255)) (fin (y0 + (y1 - y0) * l' / 255))
        (fin (y0 + (y1 - y0) * u' / 255)) (fin p.1) (fin p.2) = true ↔
        1 < ((p.1 - (x0 + (x1 - x0) * ((l : ℝ) + u) / 510)) / ((x1 - x0) * ((u : ℝ) - l) / 510)) ^ 2 +
          ((p.2 - (y0 + (y1 - y0) * ((l' : ℝ) + u') / 510)) / ((y1 - y0) * ((u' : ℝ) - l') / 510)) ^ 2 := by
      intro p
      rw [(C149_ellipse _ _ _ _ _ _ a1 a2).1]
      have b1 : (x0 + (x1 - x0) * l / 255 + (x0 + (x1 - x0) * u / 255)) / 2 = x0 + (x1 - x0) * ((l : ℝ) + u) / 510 := by ring
      have b2 : (x0 + (x1 - x0) * u / 255 - (x0 + (x1 - x0) * l / 255)) / 2 = (x1 - x0) * ((u : ℝ) - l) / 510 := by ring
      have b3 : (y0 + (y1 - y0) * l' / 255 + (y0 + (y1 - y0) * u' / 255)) / 2 = y0 + (y1 - y0) * ((l' : ℝ) + u') / 510 := by ring
      have b4 : (y0 + (y1 - y0) * u' / 255 - (y0 + (y1 - y0) * l' / 255)) / 2 = (y1 - y0) * ((u' : ℝ) - l') / 510 := by ring
      rw [b1, b2, b3, b4]
    rw [mem_whereTrue_map]
    constructor
    · rintro ⟨q, hq, ht⟩
      rw [List.getElem?_map] at hq
      cases hp : (rotR us ws)[i]? with
      | none => rw [hp] at hq; cases hq
      | some p =>
        rw [hp] at hq
        cases hq
        exact ⟨p, rfl, (conv p).mp ht⟩
    · rintro ⟨p, hp, ht⟩
      refine ⟨((fin p.1 : Fl ℝ), (fin p.2 : Fl ℝ)), ?_, (conv p).mpr ht⟩
      rw [List.getElem?_map, hp]; rfl

/-- the hypotheses of C149 hold for the record 0, 1, 2 and a density with a single non-zero value -/
example : ∃ r, findBivariate (fun _ _ _ => .ok (((List.range 256).map (fun i => (List.range 256).map (fun j =>
    if i = 128 ∧ j = 128 then (1 : ℝ) else 0))).map (fun r => (fins r : List (Fl ℝ))))) (fins [0, 1, 2]) = .ok r := by
  have hd : minmodR [0, 1, 2] = [0, 1, 0] := by
    norm_num [minmodR, smaller, List.range_succ]
  have hc : Spec.cov ([0, 1, 2] : List ℝ) [0, 1, 0] = 0 := by norm_num [Spec.cov, Spec.avg]
  have hv : Spec.var ([0, 1, 2] : List ℝ) = ((2 / 3 : ℝ)) := by norm_num [Spec.var, Spec.cmoment, Spec.avg]
  have ha : Complex.arg ⟨Spec.var ([0, 1, 2] : List ℝ), Spec.cov ([0, 1, 2] : List ℝ) [0, 1, 0]⟩ = 0 := by
    rw [hc]; exact Complex.arg_ofReal_of_nonneg (by rw [hv]; norm_num)
  have hr : rotR [0, 1, 2] (minmodR [0, 1, 2]) = [(0, 0), (1, 1), (2, 0)] := by
    rw [hd]; unfold rotR; rw [ha]; simp
  obtain ⟨l, u, l', u', r, -, -, -, -, h, -⟩ := C149_program [0, 1, 2] (by simp) 0 2 0 1
    (by rw [hr]; simp) (by rw [hr]; norm_num) (by rw [hr]; simp) (by rw [hr]; simp)
    ((List.range 256).map (fun i => (List.range 256).map (fun j => if i = 128 ∧ j = 128 then (1 : ℝ) else 0)))
    (by simp) (by simp) 128 128 1 one_pos
    (by
      have hg : ∀ i, i < 256 → ((List.range 256).map (fun i => (List.range 256).map (fun j =>
          if i = 128 ∧ j = 128 then (1 : ℝ) else 0))).getD i [] = (List.range 256).map (fun j => if i = 128 ∧ j = 128 then (1 : ℝ) else 0) := by
        intro i hi
        rw [List.getD_eq_getElem?_getD, List.getElem?_map, List.getElem?_range hi]
        rfl
      refine ⟨?_, by simp, ?_, ?_, ?_⟩
      · rw [hg 128 (by norm_num), List.getElem?_map, List.getElem?_range (by norm_num)]
        simp
      · intro row hrow v hv
        obtain ⟨i, _, rfl⟩ := List.mem_map.mp hrow
        obtain ⟨j, _, rfl⟩ := List.mem_map.mp hv
        split_ifs <;> norm_num
      · intro i hi v hv
        rw [hg i (by omega)] at hv
        obtain ⟨j, _, rfl⟩ := List.mem_map.mp hv
        rw [if_neg (by omega)]
        norm_num
      · intro j v hj hv
        rw [hg 128 (by norm_num), List.getElem?_map, List.getElem?_range (by omega)] at hv
        obtain rfl := Option.some.inj hv
        show (if 128 = 128 ∧ j = 128 then (1 : ℝ) else 0) < 1
        rw [if_neg (by omega)]
        norm_num)
    (fun _ _ _ => .ok (((List.range 256).map (fun i => (List.range 256).map (fun j =>
      if i = 128 ∧ j = 128 then (1 : ℝ) else 0))).map (fun r => (fins r : List (Fl ℝ))))) rfl
  exact ⟨r, h⟩

end Proadv.Props
