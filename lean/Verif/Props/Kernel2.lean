import Verif.Props.Kernel
import Mathlib.Tactic.IntervalCases

/-!
# Properties C59 (3-D kernel), C82: the kernel detector given its density estimate
-/

set_option linter.unusedSectionVars false

namespace Proadv.Props

open Proadv Fl KernelDetect Spread Detect

/-! ## C59, C82 for every float arithmetic -/

section generic
variable {F : Type} [PyMath F]

theorem rotated_length (u w : List F) : (rotated u w).length = Min.min u.length w.length := by simp [rotated]

/-- `_profile` gives back the axes of a mesh -/
theorem profile_mesh {uf wf : List F} (h1 : uf ≠ []) (h2 : wf ≠ []) : profile (meshX uf wf) (meshY uf wf) = .ok (uf, wf) := by
  obtain ⟨b, bs, rfl⟩ := List.exists_cons_of_ne_nil h2
  have : (meshX uf (b :: bs)).mapM firstEntry = .ok uf := by
    clear h1
    unfold meshX
    induction uf with
    | nil => rfl
    | cons a as ih =>
      rw [List.map_cons, List.mapM_cons, ih]
      rfl
  unfold profile
  rw [this]
  obtain ⟨a, as, rfl⟩ := List.exists_cons_of_ne_nil h1
  rfl

theorem profile_nil : profile (meshX [] ([] : List F)) (meshY [] []) = .error .indexError := rfl

theorem gridAxis_ne (lo hi : F) {g : Nat} (hg : g ≠ 0) : gridAxis lo hi g ≠ [] := by
  unfold gridAxis
  split_ifs
  · simp
  · simpa using hg

theorem profile_grid (x0 x1 y0 y1 : F) {g : Nat} (hg : g ≠ 0) :
    profile (meshX (gridAxis x0 x1 g) (gridAxis y0 y1 g)) (meshY (gridAxis x0 x1 g) (gridAxis y0 y1 g)) =
      .ok (gridAxis x0 x1 g, gridAxis y0 y1 g) := profile_mesh (gridAxis_ne _ _ hg) (gridAxis_ne _ _ hg)

/-- **C117** a grid without points: IndexError for any samples (ValueError when there are none), every float arithmetic. -/
theorem C117_no_grid (kde : List (F × F) → List F → List F → Py (List (List F))) (u w : List F) :
    kernel kde u w 0 = .error (if u = [] ∨ w = [] then .valueError else .indexError) := by
  unfold kernel
  cases u with
  | nil => rfl
  | cons a as =>
    cases w with
    | nil => rfl
    | cons b bs => rfl

theorem kernel_shape (kde : List (F × F) → List F → List F → Py (List (List F))) (u w : List F) (grid : Nat) (r : List Nat)
    (h : kernel kde u w grid = .ok r) :
    ∃ ul uu wl wu, r = outside ((rotated u w).map (fun p => kernelRho ul uu wl wu p.1 p.2)) := by
  unfold kernel at h
  simp only [bind, Except.bind] at h
  split at h <;> [cases h; skip]
  split at h <;> [cases h; skip]
  split at h <;> [cases h; skip]
  split at h <;> [cases h; skip]
  split at h <;> [cases h; skip]
  split at h <;> [cases h; skip]
  split at h <;> [cases h; skip]
  rename_i v _
  exact ⟨_, _, _, _, (Except.ok.inj h).symm⟩

/-- **C82** one plane: strictly increasing positions of samples -/
theorem C82_increasing (kde : List (F × F) → List F → List F → Py (List (List F))) (u w : List F) (grid : Nat) (r : List Nat)
    (h : kernel kde u w grid = .ok r) : r.Pairwise (· < ·) ∧ ∀ i ∈ r, i < u.length ∧ i < w.length := by
  obtain ⟨ul, uu, wl, wu, rfl⟩ := kernel_shape kde u w grid r h
  refine ⟨whereTrue_sorted _, ?_⟩
  intro i hi
  have := whereTrue_lt hi
  simp only [List.length_map, rotated_length] at this
  omega

theorem centralDiff3_length {F : Type} [PyNum F] (b : Bool) (c : List F) : (centralDiff3 b c).length = c.length := by
  simp [centralDiff3]

/-- **C82** `three_dimensional_kernel` returns exactly the union over the three planes, and fails with the error of the
first failing plane (every float arithmetic, every density estimate). -/
theorem C82_union (kde : List (F × F) → List F → List F → Py (List (List F))) (c : Arr F) (grid : Nat) :
    (∀ r, threeDimensionalKernel kde c grid = .ok r ↔ ∃ x1 x2 x3,
      kernel kde c.data (derivatives c).1 grid = .ok x1 ∧ kernel kde c.data (derivatives c).2 grid = .ok x2 ∧
      kernel kde (derivatives c).1 (derivatives c).2 grid = .ok x3 ∧ r.Pairwise (· < ·) ∧
      ∀ i, i ∈ r ↔ i ∈ x1 ∨ i ∈ x2 ∨ i ∈ x3) ∧
    (∀ e, kernel kde c.data (derivatives c).1 grid = .error e → threeDimensionalKernel kde c grid = .error e) ∧
    (∀ x1 e, kernel kde c.data (derivatives c).1 grid = .ok x1 → kernel kde c.data (derivatives c).2 grid = .error e →
      threeDimensionalKernel kde c grid = .error e) ∧
    (∀ x1 x2 e, kernel kde c.data (derivatives c).1 grid = .ok x1 → kernel kde c.data (derivatives c).2 grid = .ok x2 →
      kernel kde (derivatives c).1 (derivatives c).2 grid = .error e → threeDimensionalKernel kde c grid = .error e) := by
  refine ⟨?_, ?_, ?_, ?_⟩
  · intro r
    unfold threeDimensionalKernel
    simp only [bind, Except.bind]
    cases h1 : kernel kde c.data (derivatives c).1 grid with
    | error e => simp
    | ok x1 =>
      cases h2 : kernel kde c.data (derivatives c).2 grid with
      | error e => simp
      | ok x2 =>
        cases h3 : kernel kde (derivatives c).1 (derivatives c).2 grid with
        | error e => simp
        | ok x3 =>
          simp only
          constructor
          · intro h
            cases h
            refine ⟨x1, x2, x3, rfl, rfl, rfl, uniqueNat_sorted _, ?_⟩
            intro i
            rw [mem_uniqueNat, List.mem_append, List.mem_append, or_assoc]
          · rintro ⟨y1, y2, y3, e1, e2, e3, hs, hm⟩
            cases e1; cases e2; cases e3
            congr 1
            apply sorted_ext (uniqueNat_sorted _) hs
            intro i
            rw [mem_uniqueNat, List.mem_append, List.mem_append, or_assoc, hm]
  · intro e h
    unfold threeDimensionalKernel
    simp only [bind, Except.bind, h]
  · intro x1 e h1 h2
    unfold threeDimensionalKernel
    simp only [bind, Except.bind, h1, h2]
  · intro x1 x2 e h1 h2 h3
    unfold threeDimensionalKernel
    simp only [bind, Except.bind, h1, h2, h3]

/-- **C59** (every float arithmetic) `three_dimensional_kernel` returns strictly increasing sample positions. -/
theorem C59_kernel (kde : List (F × F) → List F → List F → Py (List (List F))) (c : Arr F) (grid : Nat) (r : List Nat)
    (h : threeDimensionalKernel kde c grid = .ok r) : r.Pairwise (· < ·) ∧ ∀ i ∈ r, i < c.data.length := by
  obtain ⟨x1, x2, x3, h1, h2, h3, hs, hm⟩ := ((C82_union kde c grid).1 r).mp h
  refine ⟨hs, ?_⟩
  intro i hi
  rcases (hm i).mp hi with h | h | h
  · exact ((C82_increasing kde _ _ _ _ h1).2 i h).1
  · exact ((C82_increasing kde _ _ _ _ h2).2 i h).1
  · have := ((C82_increasing kde _ _ _ _ h3).2 i h).1
    simpa [derivatives, centralDiff3_length] using this

/-- **C82** empty data always raise ValueError. -/
theorem C82_empty (kde : List (F × F) → List F → List F → Py (List (List F))) (d : Nat) (b : Bool) (grid : Nat) :
    threeDimensionalKernel kde ⟨d, b, []⟩ grid = .error .valueError := rfl

end generic

/-! ## C82 in exact arithmetic -/

theorem npMin_fins (xs : List ℝ) (lo : ℝ) (h : lo ∈ xs) (hle : ∀ x ∈ xs, lo ≤ x) : npMin (fins xs) = .ok (fin lo : Fl ℝ) := by
  cases xs with
  | nil => cases h
  | cons x t =>
    have hn : ∀ y ∈ (fins (x :: t) : List (Fl ℝ)), PyNum.isNaN y = false := by
      intro y hy
      obtain ⟨z, _, rfl⟩ := List.mem_map.mp hy
      rfl
    have hany : (fins (x :: t) : List (Fl ℝ)).any PyNum.isNaN = false := by
      rw [List.any_eq_false]; intro y hy; simp [hn y hy]
    obtain ⟨hm, hl⟩ := foldl_min_spec (fins t) (fin x : Fl ℝ) rfl (fun y hy => hn y (by simp only [fins, List.map_cons, List.mem_cons] at hy ⊢; exact Or.inr hy))
    show Except.ok (if (fins (x :: t) : List (Fl ℝ)).any PyNum.isNaN then _ else _) = _
    rw [hany]
    simp only [Bool.false_eq_true, if_false]
    congr 1
    have hm' : (List.foldl (fun m y : Fl ℝ => if y <. m then y else m) (fin x) (fins t)) ∈ (fins (x :: t) : List (Fl ℝ)) := hm
    obtain ⟨z, hz, e⟩ := List.mem_map.mp hm'
    have := hl (fin lo) (show _ ∈ (fins (x :: t) : List (Fl ℝ)) from List.mem_map.mpr ⟨lo, h, rfl⟩)
    rw [← e] at this ⊢
    rw [ple_fin, decide_eq_true_eq] at this
    rw [le_antisymm this (hle z hz)]

theorem npMax_fins (xs : List ℝ) (hi : ℝ) (h : hi ∈ xs) (hle : ∀ x ∈ xs, x ≤ hi) : npMax (fins xs) = .ok (fin hi : Fl ℝ) := by
  cases xs with
  | nil => cases h
  | cons x t =>
    have hn : ∀ y ∈ (fins (x :: t) : List (Fl ℝ)), PyNum.isNaN y = false := by
      intro y hy
      obtain ⟨z, _, rfl⟩ := List.mem_map.mp hy
      rfl
    have hany : (fins (x :: t) : List (Fl ℝ)).any PyNum.isNaN = false := by
      rw [List.any_eq_false]; intro y hy; simp [hn y hy]
    obtain ⟨hm, hl⟩ := foldl_max_spec (fins t) (fin x : Fl ℝ) rfl (fun y hy => hn y (by simp only [fins, List.map_cons, List.mem_cons] at hy ⊢; exact Or.inr hy))
    show Except.ok (if (fins (x :: t) : List (Fl ℝ)).any PyNum.isNaN then _ else _) = _
    rw [hany]
    simp only [Bool.false_eq_true, if_false]
    congr 1
    have hm' : (List.foldl (fun m y : Fl ℝ => if m <. y then y else m) (fin x) (fins t)) ∈ (fins (x :: t) : List (Fl ℝ)) := hm
    obtain ⟨z, hz, e⟩ := List.mem_map.mp hm'
    have := hl (fin hi) (show _ ∈ (fins (x :: t) : List (Fl ℝ)) from List.mem_map.mpr ⟨hi, h, rfl⟩)
    rw [← e] at this ⊢
    rw [ple_fin, decide_eq_true_eq] at this
    rw [le_antisymm (hle z hz) this]

/-- specification: `(P, Q)` is the first position, in row-major order, of the largest entry `m` -/
def IsPeak (pdf : List (List ℝ)) (P Q : Nat) (m : ℝ) : Prop :=
  (pdf.getD P [])[Q]? = some m ∧ P < pdf.length ∧ (∀ row ∈ pdf, ∀ v ∈ row, v ≤ m) ∧
    (∀ i, i < P → ∀ v ∈ pdf.getD i [], v < m) ∧ ∀ j v, j < Q → (pdf.getD P [])[j]? = some v → v < m

theorem peakPos_fins (pdf : List (List ℝ)) (P Q : Nat) (m : ℝ) (h : IsPeak pdf P Q m) :
    peakPos (pdf.map (fun r => (fins r : List (Fl ℝ)))) = .ok (fin m, P, Q) := by
  obtain ⟨hPQ, hP, hmax, hrow, hcol⟩ := h
  have hrowP : pdf.getD P [] ∈ pdf := by
    rw [List.getD_eq_getElem?_getD, List.getElem?_eq_getElem hP]; exact List.getElem_mem hP
  have hget : ∀ i, (pdf.map (fun r => (fins r : List (Fl ℝ)))).getD i [] = fins (pdf.getD i []) := by
    intro i
    rw [List.getD_eq_getElem?_getD, List.getD_eq_getElem?_getD, List.getElem?_map]
    cases pdf[i]? <;> rfl
  have hfl : (pdf.map (fun r => (fins r : List (Fl ℝ)))).flatten = fins pdf.flatten := by
    unfold fins; rw [List.map_flatten]
  unfold peakPos
  rw [hfl, npMax_fins pdf.flatten m (List.mem_flatten.mpr ⟨_, hrowP, List.mem_of_getElem? hPQ⟩)
    (fun x hx => by obtain ⟨row, hr, hv⟩ := List.mem_flatten.mp hx; exact hmax row hr x hv)]
  simp only [bind, Except.bind, List.length_map]
  have key : (List.range pdf.length).findSome? (fun i =>
      (((pdf.map (fun r => (fins r : List (Fl ℝ)))).getD i []).findIdx? (fun v => v ==. (fin m : Fl ℝ))).map
        (fun j => (i, j))) = some (P, Q) := by
    have hr : List.range pdf.length = List.range P ++ (P :: (List.range (pdf.length - P - 1)).map (fun k => P + (k + 1))) := by
      have : pdf.length = P + (pdf.length - P - 1 + 1) := by omega
      conv_lhs => rw [this]
      rw [List.range_add, List.range_succ_eq_map, List.map_cons, List.map_map]
      simp [Function.comp_def]
    rw [List.findSome?_eq_some_iff]
    refine ⟨_, _, _, hr, ?_, ?_⟩
    · rw [hget]
      have hq : (fins (pdf.getD P []) : List (Fl ℝ)).findIdx? (fun v => v ==. (fin m : Fl ℝ)) = some Q := by
        rw [List.findIdx?_eq_some_iff_getElem]
        have hQ : Q < (pdf.getD P []).length := by
          by_contra hc; rw [List.getElem?_eq_none (not_lt.mp hc)] at hPQ; cases hPQ
        refine ⟨by simpa using hQ, ?_, ?_⟩
        · have : (pdf.getD P [])[Q] = m := by rw [List.getElem?_eq_getElem hQ] at hPQ; exact Option.some.inj hPQ
          simp only [fins, List.getElem_map, this, peq_fin, decide_true]
        · intro j hj
          have hj' : j < (pdf.getD P []).length := by omega
          have := hcol j _ hj (List.getElem?_eq_getElem hj')
          simp only [fins, List.getElem_map, peq_fin, decide_eq_true_eq]
          exact this.ne
      rw [hq]; rfl
    · intro i hi
      rw [List.mem_range] at hi
      rw [hget]
      have : (fins (pdf.getD i []) : List (Fl ℝ)).findIdx? (fun v => v ==. (fin m : Fl ℝ)) = none := by
        rw [List.findIdx?_eq_none_iff]
        intro x hx
        obtain ⟨v, hv, rfl⟩ := List.mem_map.mp hx
        simp only [peq_fin, decide_eq_false_iff_not]
        exact (hrow i hi v hv).ne
      rw [this]; rfl
  rw [key]

/-- specification: profile point `i` is acceptable for the peak at `p` -/
def AcceptR (f : List ℝ) (c : ℝ) (g p i : Nat) : Prop :=
  f.getD i 0 / f.getD p 0 ≤ c ∧ |(f.getD i 0 - f.getD (i - 1) 0) * g / f.getD p 0| ≤ c

theorem fins_getD {xs : List ℝ} {j : Nat} (hj : j < xs.length) :
    (fins xs : List (Fl ℝ)).getD j PyNum.nan = fin (xs.getD j 0) := by
  simp [fins, List.getD_eq_getElem?_getD, List.getElem?_eq_getElem hj]

theorem accept_fins (f : List ℝ) (c : ℝ) (g p i : Nat) (hp : p < f.length) (hi : i < f.length) (h0 : f.getD p 0 ≠ 0) :
    acceptable [(fin (f.getD p 0) : Fl ℝ)] (fins f) (fin c) (fin c) g p i = true ↔ AcceptR f c g p i := by
  unfold acceptable AcceptR densAt
  rw [fins_getD hi, fins_getD hp, fins_getD (by omega : i - 1 < f.length), ofNat_eq]
  simp only [List.length_singleton, if_true, List.getD_cons_zero, psub_fin, pmul_fin]
  rw [pdiv_fin h0, pdiv_fin h0]
  simp

/-- specification of the grid: `g` equally spaced values from `lo` to `hi` -/
noncomputable def gridR (lo hi : ℝ) (g : Nat) : List ℝ := (List.range g).map (fun i : Nat => lo + (hi - lo) * i / ((g : ℝ) - 1))

theorem gridAxis_fins (lo hi : ℝ) (g : Nat) (hg : 2 ≤ g) : gridAxis (fin lo : Fl ℝ) (fin hi) g = fins (gridR lo hi g) := by
  have h2 : (2 : ℝ) ≤ g := by exact_mod_cast hg
  unfold gridAxis gridR fins
  rw [if_neg (by omega), List.map_map]
  apply List.map_congr_left
  intro i _
  have e : (ofNat (g - 1) : Fl ℝ) = fin ((g : ℝ) - 1) := by
    rw [ofNat_eq, Nat.cast_sub (by omega)]; simp
  simp only [Function.comp]
  rw [e, ofNat_eq, psub_fin, pdiv_fin (by linarith), pmul_fin, padd_fin]
  congr 1; ring

theorem gridR_getD (lo hi : ℝ) (g i : Nat) (h : i < g) : (gridR lo hi g).getD i 0 = lo + (hi - lo) * i / ((g : ℝ) - 1) := by
  unfold gridR
  rw [List.getD_eq_getElem?_getD, List.getElem?_map, List.getElem?_range h]; rfl

/-- the threshold `√(2 ln n)·σ/√n` of one component -/
noncomputable def thrR (xs : List ℝ) : ℝ := √(2 * Real.log xs.length) * √(Spec.var xs) / √(xs.length : ℝ)

/-- specification of `lower` / `upper` cutoff positions along a real profile -/
def LowerR (f : List ℝ) (c : ℝ) (g p l : Nat) : Prop :=
  (1 ≤ l ∧ l < p ∧ AcceptR f c g p l ∧ ∀ j, l < j → j < p → ¬AcceptR f c g p j) ∨
    (l = 1 ∧ ∀ j, 1 ≤ j → j < p → ¬AcceptR f c g p j)

def UpperR (f : List ℝ) (c : ℝ) (g p u : Nat) : Prop :=
  (p < u ∧ u + 1 < f.length ∧ AcceptR f c g p u ∧ ∀ j, p < j → j < u → ¬AcceptR f c g p j) ∨
    (u = f.length - 1 ∧ ∀ j, p < j → j + 1 < f.length → ¬AcceptR f c g p j)

/-- the cutoff search on a real profile -/
theorem cutoff_fins (f : List ℝ) (lo hi c : ℝ) (g p : Nat) (hg : 2 ≤ g) (hf : f.length = g) (hp : p < g)
    (h0 : f.getD p 0 ≠ 0) :
    ∃ l u, LowerR f c g p l ∧ UpperR f c g p u ∧ l < g ∧ u < g ∧
      cutoff [(fin (f.getD p 0) : Fl ℝ)] (fins (gridR lo hi g)) (fin c) (fin c) (fins f) (p : Int) g =
        .ok (fin (lo + (hi - lo) * l / ((g : ℝ) - 1)), fin (lo + (hi - lo) * u / ((g : ℝ) - 1))) := by
  obtain ⟨l, u, hL, hU, hl, hu, hc⟩ := C76_cutoff [(fin (f.getD p 0) : Fl ℝ)] (fins (gridR lo hi g)) (fin c) (fin c)
    (fins f) p g (by simp [hf, hg]) (by simp [hf, hp]) (Or.inr rfl) (by simp [gridR, hf])
  have hlen : (fins f : List (Fl ℝ)).length = g := by simp [hf]
  rw [hlen] at hl hu hU
  have acc : ∀ j, j < g → (acceptable [(fin (f.getD p 0) : Fl ℝ)] (fins f) (fin c) (fin c) g p j = true ↔ AcceptR f c g p j) :=
    fun j hj => accept_fins f c g p j (by omega) (by omega) h0
  have accn : ∀ j, j < g → acceptable [(fin (f.getD p 0) : Fl ℝ)] (fins f) (fin c) (fin c) g p j = false → ¬AcceptR f c g p j := by
    intro j hj h ha
    rw [(acc j hj).mpr ha] at h; cases h
  refine ⟨l, u, ?_, ?_, hl, hu, ?_⟩
  · rcases hL with ⟨a, b, d, e⟩ | ⟨a, b⟩
    · exact Or.inl ⟨a, b, (acc l hl).mp d, fun j h1 h2 => accn j (by omega) (e j h1 h2)⟩
    · exact Or.inr ⟨a, fun j h1 h2 => accn j (by omega) (b j h1 h2)⟩
  · rcases hU with ⟨a, b, d, e⟩ | ⟨a, b⟩
    · exact Or.inl ⟨a, by omega, (acc u hu).mp d, fun j h1 h2 => accn j (by omega) (e j h1 h2)⟩
    · exact Or.inr ⟨by omega, fun j h1 h2 => accn j (by omega) (b j h1 (by omega))⟩
  · rw [hc, fins_getD (by simpa [gridR] using hl), fins_getD (by simpa [gridR] using hu), gridR_getD _ _ _ _ hl,
      gridR_getD _ _ _ _ hu]

/-- the ellipse condition of `kernel` at one point, for cutoffs of positive width -/
theorem kernelRho_fin (a b c d x y : ℝ) (h1 : a < b) (h2 : c < d) :
    ((lit 1 : Fl ℝ) <. kernelRho (fin a) (fin b) (fin c) (fin d) (fin x) (fin y)) = true ↔
      1 < ((x - (a + b) / 2) / ((b - a) / 2)) ^ 2 + ((y - (c + d) / 2) / ((d - c) / 2)) ^ 2 := by
  unfold kernelRho
  simp only [lit_eq, padd_fin, pmul_fin, psub_fin]
  have e1 : b - ((1 / 2 : ℚ) : ℝ) * (b + a) = (b - a) / 2 := by push_cast; ring
  have e2 : d - ((1 / 2 : ℚ) : ℝ) * (d + c) = (d - c) / 2 := by push_cast; ring
  have e3 : x - ((1 / 2 : ℚ) : ℝ) * (b + a) = x - (a + b) / 2 := by push_cast; ring
  have e4 : y - ((1 / 2 : ℚ) : ℝ) * (d + c) = y - (c + d) / 2 := by push_cast; ring
  rw [e1, e2, e3, e4, pdiv_fin (by linarith), pdiv_fin (by linarith)]
  simp only [pnpow_fin, padd_fin, plt_fin, decide_eq_true_eq]
  norm_num

/-- **C82** a cutoff interval of width zero (C108): every sample not exactly on its line is flagged, the others never. -/
theorem C82_degenerate (a c d x y : ℝ) (h2 : c < d) :
    ((lit 1 : Fl ℝ) <. kernelRho (fin a) (fin a) (fin c) (fin d) (fin x) (fin y)) = true ↔ x ≠ a := by
  unfold kernelRho
  simp only [lit_eq, padd_fin, pmul_fin, psub_fin]
  have e1 : a - ((1 / 2 : ℚ) : ℝ) * (a + a) = 0 := by push_cast; ring
  have e2 : d - ((1 / 2 : ℚ) : ℝ) * (d + c) = (d - c) / 2 := by push_cast; ring
  have e3 : x - ((1 / 2 : ℚ) : ℝ) * (a + a) = x - a := by push_cast; ring
  have e4 : y - ((1 / 2 : ℚ) : ℝ) * (d + c) = y - (c + d) / 2 := by push_cast; ring
  rw [e1, e2, e3, e4, pdiv_fin (by linarith : (d - c) / 2 ≠ 0), pdiv_fin', if_pos rfl]
  rcases lt_trichotomy (x - a) 0 with h | h | h
  · have : infSgn (x - a) = (ninf : Fl ℝ) := by unfold infSgn; rw [if_neg h.ne, if_neg (not_lt.mpr h.le)]
    rw [this]
    have hx : x ≠ a := by intro h'; rw [h'] at h; simp at h
    simp only [hx, ne_eq, not_false_eq_true, iff_true]
    rfl
  · rw [h]
    have : infSgn (0 : ℝ) = (nan : Fl ℝ) := by unfold infSgn; rw [if_pos rfl]
    rw [this]
    have hx : x = a := by linarith
    simp only [hx, ne_eq, not_true_eq_false, iff_false]
    exact Bool.false_ne_true
  · have : infSgn (x - a) = (pinf : Fl ℝ) := by unfold infSgn; rw [if_neg h.ne', if_pos h]
    rw [this]
    have hx : x ≠ a := by intro h'; rw [h'] at h; simp at h
    simp only [hx, ne_eq, not_false_eq_true, iff_true]
    rfl

/-- **C82** the kernel detector as a function of the density estimate: given finite components of length `n`, the extreme
rotated coordinates and a `g × g` density with positive peak at `(P, Q)`, the detector succeeds; its cutoffs are grid values
at the positions found along the column and the row of the peak with thresholds `√(2 ln n)·σ/√n`; and when both cutoff
widths are positive it flags exactly the samples whose rotated position is outside the ellipse centred at the cutoff
mid-points with half-axes half the cutoff widths. -/
theorem C82_kernel (us ws : List ℝ) (hlen : us.length = ws.length) (hne : us ≠ []) (g : Nat) (hg : 2 ≤ g)
    (x0 x1 y0 y1 : ℝ)
    (hx0 : x0 ∈ (rotR us ws).map Prod.fst ∧ ∀ x ∈ (rotR us ws).map Prod.fst, x0 ≤ x)
    (hx1 : x1 ∈ (rotR us ws).map Prod.fst ∧ ∀ x ∈ (rotR us ws).map Prod.fst, x ≤ x1)
    (hy0 : y0 ∈ (rotR us ws).map Prod.snd ∧ ∀ x ∈ (rotR us ws).map Prod.snd, y0 ≤ x)
    (hy1 : y1 ∈ (rotR us ws).map Prod.snd ∧ ∀ x ∈ (rotR us ws).map Prod.snd, x ≤ y1)
    (pdf : List (List ℝ)) (hrows : pdf.length = g) (hcols : ∀ r ∈ pdf, r.length = g) (P Q : Nat) (m : ℝ) (hm : 0 < m)
    (hpk : IsPeak pdf P Q m)
    (kde : List (Fl ℝ × Fl ℝ) → List (Fl ℝ) → List (Fl ℝ) → Py (List (List (Fl ℝ))))
    (hkde : kde ((rotR us ws).map (fun p => ((fin p.1 : Fl ℝ), (fin p.2 : Fl ℝ)))) (fins (gridR x0 x1 g))
      (fins (gridR y0 y1 g)) = .ok (pdf.map (fun r => (fins r : List (Fl ℝ))))) :
    ∃ l u l' u' r, LowerR (pdf.map (fun row => row.getD Q 0)) (thrR us) g P l ∧
      UpperR (pdf.map (fun row => row.getD Q 0)) (thrR us) g P u ∧
      LowerR (pdf.getD P []) (thrR ws) g Q l' ∧ UpperR (pdf.getD P []) (thrR ws) g Q u' ∧
      kernel kde (fins us) (fins ws) g = .ok r ∧
      (l < u → x0 < x1 → l' < u' → y0 < y1 → ∀ i, i ∈ r ↔ ∃ p, (rotR us ws)[i]? = some p ∧
        1 < ((p.1 - (x0 + (x1 - x0) * ((l : ℝ) + u) / (2 * ((g : ℝ) - 1)))) / ((x1 - x0) * ((u : ℝ) - l) / (2 * ((g : ℝ) - 1)))) ^ 2 +
          ((p.2 - (y0 + (y1 - y0) * ((l' : ℝ) + u') / (2 * ((g : ℝ) - 1)))) / ((y1 - y0) * ((u' : ℝ) - l') / (2 * ((g : ℝ) - 1)))) ^ 2) := by
  have hws : ws ≠ [] := by rintro rfl; simp at hlen; exact hne hlen
  have hn : (0 : ℝ) < us.length := Spec.length_pos' hne
  have hg2 : (2 : ℝ) ≤ g := by exact_mod_cast hg
  have hP : P < g := hrows ▸ hpk.2.1
  have hPm : pdf.getD P [] ∈ pdf := by
    rw [List.getD_eq_getElem?_getD, List.getElem?_eq_getElem hpk.2.1]; exact List.getElem_mem hpk.2.1
  have hPl : (pdf.getD P []).length = g := hcols _ hPm
  have hQ : Q < g := by
    by_contra hc
    have := hpk.1
    rw [List.getElem?_eq_none (by omega)] at this; cases this
  have hrowQ : (pdf.getD P []).getD Q 0 = m := by rw [List.getD_eq_getElem?_getD (l := pdf.getD P []), hpk.1]; rfl
  have hcolP : (pdf.map (fun row => row.getD Q 0)).getD P 0 = m := by
    rw [List.getD_eq_getElem?_getD, List.getElem?_map, List.getElem?_eq_getElem hpk.2.1]
    rw [List.getD_eq_getElem?_getD (l := pdf), List.getElem?_eq_getElem hpk.2.1] at hrowQ
    exact hrowQ
  obtain ⟨l, u, hL, hU, hl, hu, hc1⟩ := cutoff_fins (pdf.map (fun row => row.getD Q 0)) x0 x1 (thrR us) g P hg (by simpa using hrows)
    hP (by rw [hcolP]; exact hm.ne')
  obtain ⟨l', u', hL', hU', hl', hu', hc2⟩ := cutoff_fins (pdf.getD P []) y0 y1 (thrR ws) g Q hg hPl hQ (by rw [hrowQ]; exact hm.ne')
  rw [hcolP] at hc1
  rw [hrowQ] at hc2
  have thr : ∀ xs : List ℝ, xs.length = us.length →
      (lambdaOf (fins us : List (Fl ℝ)).length : Fl ℝ) *. fin √(Spec.var xs) /. PyMath.sqrt (ofNat (fins us : List (Fl ℝ)).length : Fl ℝ) =
        fin (thrR xs) := by
    intro xs hxs
    have e : (fins us : List (Fl ℝ)).length = us.length := by simp
    rw [e, lambdaOf_fin (List.length_pos_iff.mpr hne), ofNat_eq, psqrt_fin hn.le, pmul_fin,
      pdiv_fin (Real.sqrt_pos.mpr hn).ne']
    unfold thrR
    rw [hxs]
  have hcut : kernelCutoffs (fins us) (fins ws) g (fins (gridR x0 x1 g)) (fins (gridR y0 y1 g))
      (pdf.map (fun r => (fins r : List (Fl ℝ)))) =
      .ok (fin (x0 + (x1 - x0) * l / ((g : ℝ) - 1)), fin (x0 + (x1 - x0) * u / ((g : ℝ) - 1)),
        fin (y0 + (y1 - y0) * l' / ((g : ℝ) - 1)), fin (y0 + (y1 - y0) * u' / ((g : ℝ) - 1))) := by
    unfold kernelCutoffs
    rw [peakPos_fins pdf P Q m hpk]
    simp only [bind, Except.bind]
    rw [show std (Arr.flt (fins us) : Arr (Fl ℝ)) = _ from std_fins false us hne,
      show std (Arr.flt (fins ws) : Arr (Fl ℝ)) = _ from std_fins false ws hws]
    simp only
    rw [thr us rfl, thr ws hlen.symm]
    have ec : (pdf.map (fun r => (fins r : List (Fl ℝ)))).map (fun r => r.getD Q PyNum.nan) =
        fins (pdf.map (fun row => row.getD Q 0)) := by
      unfold fins
      rw [List.map_map, List.map_map]
      apply List.map_congr_left
      intro r hr
      exact fins_getD (by rw [hcols r hr]; exact hQ)
    have er : (pdf.map (fun r => (fins r : List (Fl ℝ)))).getD P [] = fins (pdf.getD P []) := by
      rw [List.getD_eq_getElem?_getD, List.getD_eq_getElem?_getD, List.getElem?_map]
      cases pdf[P]? <;> rfl
    rw [ec, er, hc1]
    simp only
    rw [hc2]
  refine ⟨l, u, l', u', outside (((rotR us ws).map (fun p => ((fin p.1 : Fl ℝ), (fin p.2 : Fl ℝ)))).map (fun p =>
    kernelRho (fin (x0 + (x1 - x0) * l / ((g : ℝ) - 1))) (fin (x0 + (x1 - x0) * u / ((g : ℝ) - 1)))
      (fin (y0 + (y1 - y0) * l' / ((g : ℝ) - 1))) (fin (y0 + (y1 - y0) * u' / ((g : ℝ) - 1))) p.1 p.2)),
    hL, hU, hL', hU', ?_, ?_⟩
  · unfold kernel
    rw [rotated_fins us ws hlen hne]
    have m1 : ((rotR us ws).map (fun p => ((fin p.1 : Fl ℝ), (fin p.2 : Fl ℝ)))).map Prod.fst = fins ((rotR us ws).map Prod.fst) := by
      unfold fins; rw [List.map_map, List.map_map]; rfl
    have m2 : ((rotR us ws).map (fun p => ((fin p.1 : Fl ℝ), (fin p.2 : Fl ℝ)))).map Prod.snd = fins ((rotR us ws).map Prod.snd) := by
      unfold fins; rw [List.map_map, List.map_map]; rfl
    simp only [bind, Except.bind]
    rw [m1, m2, npMin_fins _ x0 hx0.1 hx0.2, npMax_fins _ x1 hx1.1 hx1.2, npMin_fins _ y0 hy0.1 hy0.2,
      npMax_fins _ y1 hy1.1 hy1.2]
    simp only
    rw [profile_grid _ _ _ _ (by omega : g ≠ 0)]
    simp only
    rw [gridAxis_fins _ _ _ hg, gridAxis_fins _ _ _ hg, hkde]
    simp only
    rw [hcut]
  · intro h1 h2 h3 h4 i
    have g1 : (0 : ℝ) < (g : ℝ) - 1 := by linarith
    have hlu : (l : ℝ) < u := by exact_mod_cast h1
    have hlu' : (l' : ℝ) < u' := by exact_mod_cast h3
    have a1 : x0 + (x1 - x0) * l / ((g : ℝ) - 1) < x0 + (x1 - x0) * u / ((g : ℝ) - 1) := by
      have : 0 < x1 - x0 := by linarith
      gcongr
    have a2 : y0 + (y1 - y0) * l' / ((g : ℝ) - 1) < y0 + (y1 - y0) * u' / ((g : ℝ) - 1) := by
      have : 0 < y1 - y0 := by linarith
      gcongr
    have conv : ∀ p : ℝ × ℝ, ((lit 1 : Fl ℝ) <. kernelRho (fin (x0 + (x1 - x0) * l / ((g : ℝ) - 1)))
        (fin (x0 + (x1 - x0) * u / ((g : ℝ) - 1))) (fin (y0 + (y1 - y0) * l' / ((g : ℝ) - 1)))
        (fin (y0 + (y1 - y0) * u' / ((g : ℝ) - 1))) (fin p.1) (fin p.2)) = true ↔
        1 < ((p.1 - (x0 + (x1 - x0) * ((l : ℝ) + u) / (2 * ((g : ℝ) - 1)))) / ((x1 - x0) * ((u : ℝ) - l) / (2 * ((g : ℝ) - 1)))) ^ 2 +
          ((p.2 - (y0 + (y1 - y0) * ((l' : ℝ) + u') / (2 * ((g : ℝ) - 1)))) / ((y1 - y0) * ((u' : ℝ) - l') / (2 * ((g : ℝ) - 1)))) ^ 2 := by
      intro p
      rw [kernelRho_fin _ _ _ _ _ _ a1 a2]
      have b1 : (x0 + (x1 - x0) * l / ((g : ℝ) - 1) + (x0 + (x1 - x0) * u / ((g : ℝ) - 1))) / 2 =
          x0 + (x1 - x0) * ((l : ℝ) + u) / (2 * ((g : ℝ) - 1)) := by field_simp; ring
      have b2 : (x0 + (x1 - x0) * u / ((g : ℝ) - 1) - (x0 + (x1 - x0) * l / ((g : ℝ) - 1))) / 2 =
          (x1 - x0) * ((u : ℝ) - l) / (2 * ((g : ℝ) - 1)) := by field_simp; ring
      have b3 : (y0 + (y1 - y0) * l' / ((g : ℝ) - 1) + (y0 + (y1 - y0) * u' / ((g : ℝ) - 1))) / 2 =
          y0 + (y1 - y0) * ((l' : ℝ) + u') / (2 * ((g : ℝ) - 1)) := by field_simp; ring
      have b4 : (y0 + (y1 - y0) * u' / ((g : ℝ) - 1) - (y0 + (y1 - y0) * l' / ((g : ℝ) - 1))) / 2 =
          (y1 - y0) * ((u' : ℝ) - l') / (2 * ((g : ℝ) - 1)) := by field_simp; ring
      rw [b1, b2, b3, b4]
    rw [mem_outside]
    constructor
    · rintro ⟨rr, hr, ht⟩
      rw [List.getElem?_map, List.getElem?_map] at hr
      cases hp : (rotR us ws)[i]? with
      | none => rw [hp] at hr; cases hr
      | some p =>
        rw [hp] at hr
        cases hr
        exact ⟨p, rfl, (conv p).mp ht⟩
    · rintro ⟨p, hp, ht⟩
      refine ⟨_, ?_, (conv p).mpr ht⟩
      rw [List.getElem?_map, List.getElem?_map, hp]; rfl

/-- the hypotheses of C82 are met by the corners of a square and a density with one central peak -/
example : ∃ r, kernel (fun _ _ _ => .ok ([[0, 0, 0], [0, 1, 0], [0, 0, 0]].map (fun r => (fins r : List (Fl ℝ)))))
    (fins [0, 1, 0, 1]) (fins [0, 0, 1, 1]) 3 = .ok r := by
  have hc : Spec.cov ([0, 1, 0, 1] : List ℝ) [0, 0, 1, 1] = 0 := by norm_num [Spec.cov, Spec.avg]
  have hv : Spec.var ([0, 1, 0, 1] : List ℝ) = ((1 / 4 : ℝ)) := by norm_num [Spec.var, Spec.cmoment, Spec.avg]
  have ha : Complex.arg ⟨Spec.var ([0, 1, 0, 1] : List ℝ), Spec.cov ([0, 1, 0, 1] : List ℝ) [0, 0, 1, 1]⟩ = 0 := by
    rw [hc]; exact Complex.arg_ofReal_of_nonneg (by rw [hv]; norm_num)
  have hr : rotR [0, 1, 0, 1] [0, 0, 1, 1] = [(0, 0), (1, 0), (0, 1), (1, 1)] := by
    unfold rotR; rw [ha]; simp
  obtain ⟨l, u, l', u', r, -, -, -, -, h, -⟩ := C82_kernel [0, 1, 0, 1] [0, 0, 1, 1] rfl (by simp) 3 (by norm_num) 0 1 0 1
    (by rw [hr]; simp) (by rw [hr]; simp) (by rw [hr]; simp) (by rw [hr]; simp)
    [[0, 0, 0], [0, 1, 0], [0, 0, 0]] rfl (by simp) 1 1 1 one_pos
    ⟨rfl, by simp, by simp, by intro i hi; interval_cases i; simp, by intro j v hj; interval_cases j; simp; rintro rfl; norm_num⟩
    (fun _ _ _ => .ok ([[0, 0, 0], [0, 1, 0], [0, 0, 0]].map (fun r => (fins r : List (Fl ℝ))))) rfl
  exact ⟨r, h⟩

end Proadv.Props
