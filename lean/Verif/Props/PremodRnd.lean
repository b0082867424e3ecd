import Verif.Props.RoundDetect
import Verif.Props.InterpRnd
import Verif.Props.Premod

/-!
# Property C249: `phasespace_thresholding_premodification` in rounded arithmetic (phasespace.py)

The data is still returned unchanged, and the list of unremovable samples is that of exact arithmetic outside an explicit margin.  The
median absolute deviation is computed from rounded deviations, so its error is bounded by comparing two sorted lists.
-/

set_option linter.unusedSectionVars false

namespace Proadv.Props

open Proadv Fl Descriptive Spread Detect

/-! ## Sorted lists of nearby numbers are near -/

private theorem sorted_le_iff (s : List ℝ) (hs : s.Pairwise (· ≤ ·)) (i : ℕ) (hi : i < s.length) (c : ℝ) :
    s.getD i 0 ≤ c ↔ i < s.countP (fun x => x ≤ c) := by
  induction s generalizing i with
  | nil => simp at hi
  | cons a t ih =>
    obtain ⟨h1, h2⟩ := List.pairwise_cons.mp hs
    rw [List.countP_cons]
    by_cases hac : a ≤ c
    · simp only [hac, decide_true, if_true]
      cases i with
      | zero => simp [hac]
      | succ j =>
        rw [List.getD_cons_succ, ih h2 j (by simpa using hi)]
        omega
    · have h0 : t.countP (fun x => x ≤ c) = 0 := by
        rw [List.countP_eq_zero]
        intro x hx
        have := h1 x hx
        simp only [decide_eq_true_eq, not_le]
        linarith [not_le.mp hac]
      simp only [hac, decide_false, h0]
      constructor
      · intro h
        exfalso
        apply hac
        cases i with
        | zero => exact h
        | succ j =>
          rw [List.getD_cons_succ] at h
          have hj : j < t.length := by simpa using hi
          rw [List.getD_eq_getElem?_getD, List.getElem?_eq_getElem hj] at h
          exact (h1 _ (List.getElem_mem hj)).trans h
      · intro h; simp at h

private theorem count_near {xs ys : List ℝ} {e : ℝ} (h : List.Forall₂ (fun x y => |x - y| ≤ e) xs ys) (c : ℝ) :
    ys.countP (fun y => y ≤ c) ≤ xs.countP (fun x => x ≤ c + e) := by
  induction h with
  | nil => simp
  | @cons x y _ _ h1 _ ih =>
    rw [List.countP_cons, List.countP_cons]
    have h2 := abs_le.mp h1
    by_cases hy : y ≤ c
    · have : x ≤ c + e := by linarith
      simp only [hy, this, decide_true, if_true]; omega
    · simp only [hy, decide_false, Bool.false_eq_true, if_false, add_zero]
      split_ifs <;> omega

private theorem sorted_near {xs ys s t : List ℝ} {e : ℝ} (h : List.Forall₂ (fun x y => |x - y| ≤ e) xs ys) (hs : s.Pairwise (· ≤ ·))
    (ht : t.Pairwise (· ≤ ·)) (hp : s.Perm xs) (hq : t.Perm ys) (i : ℕ) (hi : i < xs.length) : |s.getD i 0 - t.getD i 0| ≤ e := by
  have hl := h.length_eq
  have hsl : i < s.length := by rw [hp.length_eq]; exact hi
  have htl : i < t.length := by rw [hq.length_eq]; omega
  have h' : List.Forall₂ (fun y x => |y - x| ≤ e) ys xs := by
    refine h.flip.imp ?_
    intro a b hab
    rw [abs_sub_comm]; exact hab
  rw [abs_le]
  constructor
  · have h1 := (sorted_le_iff s hs i hsl (s.getD i 0)).mp le_rfl
    have h2 := count_near h' (s.getD i 0)
    rw [hp.countP_eq] at h1
    have h3 := (sorted_le_iff t ht i htl (s.getD i 0 + e)).mpr (by rw [hq.countP_eq]; omega)
    linarith
  · have h1 := (sorted_le_iff t ht i htl (t.getD i 0)).mp le_rfl
    have h2 := count_near h (t.getD i 0)
    rw [hq.countP_eq] at h1
    have h3 := (sorted_le_iff s hs i hsl (t.getD i 0 + e)).mpr (by rw [hp.countP_eq]; omega)
    linarith

private theorem midpoint_near {xs ys s t : List ℝ} {e : ℝ} (hne : xs ≠ []) (h : List.Forall₂ (fun x y => |x - y| ≤ e) xs ys)
    (hs : s.Pairwise (· ≤ ·)) (ht : t.Pairwise (· ≤ ·)) (hp : s.Perm xs) (hq : t.Perm ys) : |midpoint s - midpoint t| ≤ e := by
  have hl := h.length_eq
  have hpos := List.length_pos_of_ne_nil hne
  have l1 := hp.length_eq
  have l2 := hq.length_eq
  have key := fun i hi => abs_le.mp (sorted_near h hs ht hp hq i hi)
  unfold midpoint
  rw [l1, l2, ← hl]
  split_ifs
  · exact abs_le.mpr (key _ (by omega))
  · have k1 := key (xs.length / 2 - 1) (by omega)
    have k2 := key (xs.length / 2) (by omega)
    rw [abs_le]; constructor <;> linarith

/-! ## The median absolute deviation -/

variable {A : Arith ℝ} {u η : ℝ} {Rep : ℝ → Prop}

/-- the computed median: representable, and within two roundings of the exact one -/
private theorem median_rd (h : Gradual A u η Rep) (h2 : A.rnd 2 = 2) (xs : List ℝ) (hne : xs ≠ []) (hx : ∀ x ∈ xs, Rep x) (s : List ℝ)
    (hp : s.Perm xs) (hs : s.Pairwise (· ≤ ·)) :
    ∃ m : ℝ, npMedian (Rd.fins A xs) = Rd.fin A m ∧ Rep m ∧ |m - midpoint s| ≤ ((1 + u) ^ 2 - 1) * |midpoint s| + η := by
  have hse : s = xs.insertionSort (· ≤ ·) :=
    List.Perm.eq_of_pairwise (fun a b _ _ => le_antisymm) hs (List.pairwise_insertionSort _ _)
      (hp.trans (List.perm_insertionSort _ _).symm)
  have hlen : s.length = xs.length := hp.length_eq
  have hpos := List.length_pos_iff.mpr hne
  have hget : ∀ i, i < s.length → (Rd.fins A s).getD i PyNum.nan = Rd.fin A (s.getD i 0) := fun i hi => by
    simp [List.getD_eq_getElem?_getD, hi]
  have hfl : ∀ i, i < s.length → Rep (s.getD i 0) := fun i hi => by
    have : s.getD i 0 = s[i] := by simp [List.getD_eq_getElem?_getD, hi]
    rw [this]; exact hx _ (hp.subset (List.getElem_mem hi))
  have hnan : (Rd.fins A xs).any PyNum.isNaN = false := by
    rw [List.any_eq_false]
    intro x hx'
    obtain ⟨z, -, rfl⟩ := List.mem_map.mp hx'
    show ¬ (Fl.isNaN (Fl.fin z) = true)
    simp [Fl.isNaN]
  have hu := h.nonneg
  have he := h.eta
  have hu2 : 0 ≤ (1 + u) ^ 2 - 1 := by nlinarith
  unfold npMedian
  rw [hnan, npSort_rd, ← hse]
  simp only [Bool.false_eq_true, if_false, List.length_map]
  rw [if_neg (by omega)]
  unfold midpoint
  by_cases hodd : s.length % 2 = 1
  · rw [if_pos hodd, if_pos hodd, hget _ (by omega)]
    refine ⟨_, rfl, hfl _ (by omega), ?_⟩
    rw [sub_self, abs_zero]
    positivity
  · rw [if_neg hodd, if_neg hodd, hget _ (by omega), hget _ (by omega)]
    have f1 := hfl (s.length / 2 - 1) (by omega)
    have f2 := hfl (s.length / 2) (by omega)
    set a := s.getD (s.length / 2 - 1) 0
    set b := s.getD (s.length / 2) 0
    have e2 : (lit 2 : Rd A) = Rd.fin A 2 := by
      have := Rd.lit_fin A 2
      rw [this, show (((2 : ℚ)) : ℝ) = 2 by norm_num, h2]
    refine ⟨A.rnd (A.rnd (a + b) / 2), ?_, h.rep _, ?_⟩
    · rw [e2, Rd.add_fin, Rd.div_fin A (by norm_num)]
    · have h3 : |A.rnd (a + b) / 2 - (a + b) / 2| ≤ u * |(a + b) / 2| := by
        rw [← sub_div, abs_div, abs_div, abs_of_pos (by norm_num : (0 : ℝ) < 2), ← mul_div_assoc]
        exact div_le_div_of_nonneg_right (h.add a b f1 f2) (by norm_num)
      refine (h.rnd_near h3).trans (le_of_eq ?_)
      ring

/-- Specification: bound on the error of a computed median whose exact value is `M` -/
def medErr (u η M : ℝ) : ℝ := ((1 + u) ^ 2 - 1) * |M| + η

/-- Specification: bound on the error of the computed median absolute deviation, whose exact value is `T`, when no sample is further than
`D` from the exact median `M` -/
def madErr (u η M D T : ℝ) : ℝ := (1 + u) ^ 2 * ((1 + u) * medErr u η M + u * D) + medErr u η T

private theorem midpoint_nonneg {d : List ℝ} (h : ∀ x ∈ d, 0 ≤ x) : 0 ≤ midpoint d := by
  have hg : ∀ i, 0 ≤ d.getD i 0 := by
    intro i
    rw [List.getD_eq_getElem?_getD]
    cases hi : d[i]? with
    | none => exact le_rfl
    | some x => exact h x (List.mem_of_getElem? hi)
  unfold midpoint
  split_ifs
  · exact hg _
  · have := hg (d.length / 2 - 1); have := hg (d.length / 2); linarith

private theorem mad_rd (h : Gradual A u η Rep) (h2 : A.rnd 2 = 2) (habs : ∀ x, Rep x → Rep |x|) (xs s d : List ℝ) (hne : xs ≠ [])
    (hx : ∀ x ∈ xs, Rep x) (hs : s.Perm xs) (hs' : s.Pairwise (· ≤ ·))
    (hd : d.Perm (xs.map (fun x => |x - midpoint s|))) (hd' : d.Pairwise (· ≤ ·)) (D : ℝ) (hD : ∀ x ∈ xs, |x - midpoint s| ≤ D) :
    ∃ T : ℝ, medianAbsDev (Rd.fins A xs) = Rd.fin A T ∧ |T - midpoint d| ≤ madErr u η (midpoint s) D (midpoint d) := by
  have hu := h.nonneg
  obtain ⟨m, m1, m2, m3⟩ := median_rd h h2 xs hne hx s hs hs'
  have e : (Rd.fins A xs).map (fun x => PyNum.abs (x -. npMedian (Rd.fins A xs))) = Rd.fins A (xs.map (fun x => |A.rnd (x - m)|)) := by
    rw [m1, Rd.fins, Rd.fins, List.map_map, List.map_map]
    apply List.map_congr_left
    intro x _
    rfl
  have hne' : xs.map (fun x => |A.rnd (x - m)|) ≠ [] := by simpa using hne
  obtain ⟨T, t1, -, t3⟩ := median_rd h h2 (xs.map (fun x => |A.rnd (x - m)|)) hne' (by
    intro y hy
    obtain ⟨x, -, rfl⟩ := List.mem_map.mp hy
    exact habs _ (h.rep _)) _ (List.perm_insertionSort (· ≤ ·) _) (List.pairwise_insertionSort _ _)
  refine ⟨T, by unfold medianAbsDev; rw [e]; exact t1, ?_⟩
  set E := (1 + u) * medErr u η (midpoint s) + u * D with hE
  have hnear : List.Forall₂ (fun x y => |x - y| ≤ E) (xs.map (fun x => |A.rnd (x - m)|)) (xs.map (fun x => |x - midpoint s|)) := by
    rw [List.forall₂_map_left_iff, List.forall₂_map_right_iff, List.forall₂_same]
    intro x hx'
    refine (abs_abs_sub_abs_le _ _).trans ?_
    have k := h.near_of_rel (h.sub x m (hx x hx') m2) (t := x - midpoint s) (e := medErr u η (midpoint s)) (by
      rw [sub_sub_sub_cancel_left, abs_sub_comm]; exact m3)
    have := mul_le_mul_of_nonneg_left (hD x hx') hu
    linarith
  have hmid := midpoint_near hne' hnear (List.pairwise_insertionSort (· ≤ ·) _) hd' (List.perm_insertionSort (· ≤ ·) _) hd
  set P := midpoint ((xs.map (fun x => |A.rnd (x - m)|)).insertionSort (· ≤ ·))
  have hu2 : 0 ≤ (1 + u) ^ 2 - 1 := by nlinarith
  have hP : |P| ≤ |midpoint d| + E := by
    have := abs_sub_abs_le_abs_sub P (midpoint d)
    linarith
  have h3 : |T - midpoint d| ≤ |T - P| + |P - midpoint d| := abs_sub_le _ _ _
  have h4 := mul_le_mul_of_nonneg_left hP hu2
  unfold madErr
  rw [← hE]
  have : (1 + u) ^ 2 * E + medErr u η (midpoint d) = E + (((1 + u) ^ 2 - 1) * (|midpoint d| + E) + η) := by unfold medErr; ring
  rw [this]
  linarith

/-! ## The data is returned unchanged -/

/-- not a negative number (NaN allowed) -/
private def NNI : Fl ℝ → Prop
  | .fin a => 0 ≤ a
  | .ninf => False
  | _ => True

private theorem NNI_round (hs : KeepsSign A) {x : Fl ℝ} (h : NNI x) : NNI (Rd.round A x) := by
  cases x with
  | fin a => exact hs.rnd a h
  | nan => trivial
  | pinf => trivial
  | ninf => exact h

private theorem NNI_fin {a : ℝ} (h : 0 ≤ a) : NNI (Fl.fin a) := h

private theorem NNI_nan : NNI (Fl.nan : Fl ℝ) := trivial

private theorem NNI_pinf : NNI (Fl.pinf : Fl ℝ) := trivial

private theorem NNI_infSgn {a : ℝ} (h : 0 ≤ a) : NNI (infSgn a) := by
  unfold infSgn
  split_ifs with h1 h2
  · exact NNI_nan
  · exact NNI_pinf
  · exact absurd (lt_of_le_of_ne h (Ne.symm h1)) h2

private theorem NNI_mul {x y : Fl ℝ} (hx : NNI x) (hy : NNI y) : NNI (Fl.mul x y) := by
  cases x with
  | fin a =>
    have ha : 0 ≤ a := hx
    cases y with
    | fin b => exact NNI_fin (mul_nonneg ha (hy))
    | nan => exact NNI_nan
    | pinf => exact NNI_infSgn ha
    | ninf => exact hy.elim
  | nan => cases y <;> exact NNI_nan
  | pinf =>
    cases y with
    | fin b => exact NNI_infSgn (hy)
    | nan => exact NNI_nan
    | pinf => exact NNI_pinf
    | ninf => exact hy.elim
  | ninf => exact hx.elim

private theorem NNI_add {x y : Fl ℝ} (hx : NNI x) (hy : NNI y) : NNI (Fl.add x y) := by
  cases x with
  | fin a =>
    cases y with
    | fin b => exact NNI_fin (add_nonneg (hx) (hy))
    | nan => exact NNI_nan
    | pinf => exact NNI_pinf
    | ninf => exact hy.elim
  | nan => cases y <;> exact NNI_nan
  | pinf =>
    cases y with
    | fin b => exact NNI_pinf
    | nan => exact NNI_nan
    | pinf => exact NNI_pinf
    | ninf => exact hy.elim
  | ninf => exact hx.elim

private theorem NNI_div {x : Fl ℝ} {b : ℝ} (hx : NNI x) (hb : 0 ≤ b) : NNI (Fl.div x (Fl.fin b)) := by
  cases x with
  | fin a =>
    have ha : 0 ≤ a := hx
    show NNI (if b = 0 then infSgn a else Fl.fin (a / b))
    split_ifs
    · exact NNI_infSgn ha
    · exact NNI_fin (div_nonneg ha hb)
  | nan => exact NNI_nan
  | pinf =>
    have e : Fl.div Fl.pinf (Fl.fin b) = Fl.pinf := by simp [Fl.div, hb]
    rw [e]; trivial
  | ninf => exact hx.elim

private theorem NNI_abs (x : Fl ℝ) : NNI (Fl.abs x) := by
  cases x with
  | fin a => exact NNI_fin (abs_nonneg a)
  | nan => exact NNI_nan
  | pinf => exact NNI_pinf
  | ninf => exact NNI_pinf

private theorem NNI_sqrt (x : Fl ℝ) : NNI (Fl.sqrtR x) := by
  cases x with
  | fin a =>
    by_cases h : a < 0
    · have e : Fl.sqrtR (Fl.fin a) = Fl.nan := by simp [Fl.sqrtR, h]
      rw [e]; trivial
    · have e : Fl.sqrtR (Fl.fin a) = Fl.fin (√a) := by simp [Fl.sqrtR, h]
      rw [e]; exact Real.sqrt_nonneg a
  | nan => exact NNI_nan
  | pinf => exact NNI_pinf
  | ninf => exact NNI_nan

private def NNA (A : Arith ℝ) (x : Rd A) : Prop := NNI x

private theorem NNI_median (hs : KeepsSign A) {l : List (Rd A)} (h : ∀ x ∈ l, NNI x) : NNA A (npMedian l) := by
  have hg : ∀ i, NNA A ((npSort l).getD i PyNum.nan) := by
    intro i
    rw [List.getD_eq_getElem?_getD]
    cases hi : (npSort l)[i]? with
    | none => exact NNI_nan
    | some x => exact h x ((npSort_perm (K := ℝ) l).mem_iff.mp (List.mem_of_getElem? hi))
  unfold npMedian
  split_ifs
  · exact NNI_nan
  · simp only
    split_ifs
    · exact NNI_nan
    · exact hg _
    · have h2 : (0 : ℝ) ≤ A.rnd ((2 : ℚ) : ℝ) := hs.rnd _ (by norm_num)
      exact NNI_round hs (NNI_div (NNI_round hs (NNI_add (hg _) (hg _))) h2)

/-- **C249** In every arithmetic that keeps signs, for all data (NaN and infinities included) and every `c2` that is not negative, the data
is returned unchanged. -/
theorem C249_noop (A : Arith ℝ) (hs : KeepsSign A) (data : List (Rd A)) (c1 c2 : Rd A) (hc : (c2 <. Rd.fin A 0) = false) :
    ∃ v, premodification data c1 c2 = .ok (data, v) := by
  have hc' : NNI c2 := by
    have hc' : Fl.lt c2 (Fl.fin 0) = false := hc
    cases c2 with
    | fin a => exact NNI_fin (by simpa [Fl.lt] using hc')
    | nan => exact NNI_nan
    | pinf => exact NNI_pinf
    | ninf => exact absurd hc' (by simp [Fl.lt])
  obtain ⟨r, v, h1, h2, h3⟩ := C62_general data c1 c2 _ rfl
  set t : Rd A := c2 *. medianAbsDev data *. PyMath.sqrt (lit 2 *. PyMath.log (ofNat data.length)) with ht
  have hmad : NNA A (medianAbsDev data) := by
    unfold medianAbsDev
    apply NNI_median hs
    intro x hx
    obtain ⟨y, _, rfl⟩ := List.mem_map.mp hx
    exact NNI_abs _
  have hN : NNI t := NNI_round hs (NNI_mul (NNI_round hs (NNI_mul hc' hmad)) (NNI_round hs (NNI_sqrt _)))
  have hno : ∀ x : Fl ℝ, ¬ (Fl.lt t x = true ∧ Fl.lt x (Fl.neg t) = true) := by
    intro x
    clear_value t
    clear h1 h2 h3 ht
    cases t with
    | fin a =>
      have ha : 0 ≤ a := hN
      cases x with
      | fin y => simp [Fl.lt, Fl.neg]; intro h; linarith
      | nan => simp [Fl.lt]
      | pinf => simp [Fl.lt]
      | ninf => simp [Fl.lt]
    | nan => simp [Fl.lt]
    | pinf => cases x <;> simp [Fl.lt]
    | ninf => exact hN.elim
  refine ⟨v, ?_⟩
  have : r = data := by
    apply List.ext_getElem?
    intro k
    cases hk : data[k]? with
    | none =>
      rw [List.getElem?_eq_none_iff] at hk ⊢
      omega
    | some x => exact (h3 k x hk).1 (hno x)
  rw [h1, this]

/-! ## The unremovable samples -/

/-- **C249** Sample `i` is listed as unremovable exactly when `|x| ≤ c1 * MAD`, unless `|x|` is within the margin of that threshold. -/
theorem C249_unremovable (A : Arith ℝ) (u η : ℝ) (Rep : ℝ → Prop) (h : Gradual A u η Rep) (h2 : A.rnd 2 = 2)
    (habs : ∀ x, Rep x → Rep |x|) (xs s d : List ℝ) (hne : xs ≠ []) (hx : ∀ x ∈ xs, Rep x) (hs : s.Perm xs) (hs' : s.Pairwise (· ≤ ·))
    (hd : d.Perm (xs.map (fun x => |x - midpoint s|))) (hd' : d.Pairwise (· ≤ ·)) (D : ℝ) (hD : ∀ x ∈ xs, |x - midpoint s| ≤ D)
    (c1 : ℝ) (hc1 : 0 ≤ c1) (c2 : Rd A) (r : List (Rd A)) (v : List ℕ)
    (hr : premodification (Rd.fins A xs) (Rd.fin A c1) c2 = .ok (r, v)) :
    v.Pairwise (· < ·) ∧ (∀ i ∈ v, i < xs.length) ∧ ∀ (i : ℕ) (x : ℝ), xs[i]? = some x →
      (1 + u) * (c1 * madErr u η (midpoint s) D (midpoint d)) + u * (c1 * midpoint d) + η < |(|x| - c1 * midpoint d)| →
      (i ∈ v ↔ |x| ≤ c1 * midpoint d) := by
  obtain ⟨g1, g2⟩ := C63_general _ _ _ _ _ hr
  obtain ⟨T, t1, t2⟩ := mad_rd h h2 habs xs s d hne hx hs hs' hd hd' D hD
  have hT : 0 ≤ midpoint d := midpoint_nonneg (by
    intro y hy
    obtain ⟨x, -, rfl⟩ := List.mem_map.mp (hd.subset hy)
    exact abs_nonneg _)
  refine ⟨g1, fun i hi => ?_, fun i x hxi hm => ?_⟩
  · obtain ⟨z, hz, -⟩ := (g2 i).mp hi
    simpa using (List.getElem?_eq_some_iff.mp hz).1
  rw [g2, t1]
  set B := (1 + u) * (c1 * madErr u η (midpoint s) D (midpoint d)) + u * (c1 * midpoint d) + η with hB
  set θ := c1 * midpoint d with hθ
  have hθ0 : 0 ≤ θ := mul_nonneg hc1 hT
  have k1 : |A.rnd (c1 * T) - θ| ≤ B := by
    have := h.rnd_near (s := c1 * T) (t := θ) (e := c1 * madErr u η (midpoint s) D (midpoint d)) (by
      rw [hθ, ← mul_sub, abs_mul, abs_of_nonneg hc1]
      exact mul_le_mul_of_nonneg_left t2 hc1)
    rwa [abs_of_nonneg hθ0] at this
  have k2 : |A.rnd (-c1 * T) - -θ| ≤ B := by
    have := h.rnd_near (s := -c1 * T) (t := -θ) (e := c1 * madErr u η (midpoint s) D (midpoint d)) (by
      rw [hθ, show -c1 * T - -(c1 * midpoint d) = -(c1 * (T - midpoint d)) by ring, abs_neg, abs_mul, abs_of_nonneg hc1]
      exact mul_le_mul_of_nonneg_left t2 hc1)
    rwa [abs_neg, abs_of_nonneg hθ0] at this
  have a1 := abs_le.mp k1
  have a2 := abs_le.mp k2
  have hdec : (A.rnd (-c1 * T) ≤ x ∧ x ≤ A.rnd (c1 * T)) ↔ |x| ≤ θ := by
    have b1 := le_abs_self x
    have b2 := neg_abs_le x
    rcases abs_cases (|x| - θ) with ⟨h3, h4⟩ | ⟨h3, h4⟩ <;> rw [h3] at hm
    · constructor
      · rintro ⟨h5, h6⟩
        exfalso
        rcases abs_cases x with ⟨h7, -⟩ | ⟨h7, -⟩ <;> linarith
      · intro h5; linarith
    · exact ⟨fun _ => by linarith, fun _ => ⟨by linarith, by linarith⟩⟩
  rw [← hdec]
  constructor
  · rintro ⟨z, hz, h3, h4⟩
    rw [List.getElem?_map, hxi] at hz
    cases hz
    exact ⟨of_decide_eq_true h3, of_decide_eq_true h4⟩
  · rintro ⟨h3, h4⟩
    exact ⟨Rd.fin A x, by rw [List.getElem?_map, hxi]; rfl, decide_eq_true h3, decide_eq_true h4⟩

/-- the hypotheses are met: 53-bit arithmetic, `[3, 1, 2]`, median 2, deviations `[1, 1, 0]`, MAD 1, `c1 = 3/2`: only sample 1 is
unremovable (the test is on `|x|`, not on the deviation) -/
example : ∃ v, premodification (Rd.fins bin64R [3, 1, 2]) (Rd.fin bin64R (3 / 2)) (Rd.fin bin64R 1) = .ok (Rd.fins bin64R [3, 1, 2], v) ∧
    0 ∉ v ∧ 1 ∈ v ∧ (2 ∉ v) := by
  obtain ⟨v, hv⟩ := C249_noop bin64R bin64R_keeps (Rd.fins bin64R [3, 1, 2]) (Rd.fin bin64R (3 / 2)) (Rd.fin bin64R 1)
    (by show decide ((1 : ℝ) < 0) = false; norm_num)
  have m1 : midpoint ([1, 2, 3] : List ℝ) = 2 := by simp [midpoint]
  have m2 : midpoint ([0, 1, 1] : List ℝ) = 1 := by simp [midpoint]
  obtain ⟨-, -, h⟩ := C249_unremovable bin64R _ 0 _ bin64R_std.gradual (rnd53R_nat 2 (by norm_num)) (fun _ _ => trivial)
    [3, 1, 2] [1, 2, 3] [0, 1, 1] (by simp) (fun _ _ => trivial) (List.perm_append_comm (l₁ := [(1 : ℝ), 2]) (l₂ := [3]))
    (by simp; norm_num) (by
      rw [m1]
      have e : ([3, 1, 2] : List ℝ).map (fun x => |x - 2|) = [1, 1, 0] := by norm_num
      rw [e]
      exact ((List.perm_append_comm (l₁ := [(1 : ℝ), 1]) (l₂ := [0]))).symm) (by simp) 1 (by
      rw [m1]; intro x hx
      simp only [List.mem_cons, List.not_mem_nil, or_false] at hx
      rcases hx with rfl | rfl | rfl <;> norm_num) (3 / 2) (by norm_num) _ _ v hv
  rw [m1, m2] at h
  have hB : (1 + 1 / 2 ^ 53 : ℝ) * (3 / 2 * madErr (1 / 2 ^ 53) 0 2 1 1) + 1 / 2 ^ 53 * (3 / 2 * 1) + 0 < 1 / 4 := by
    norm_num [madErr, medErr]
  refine ⟨v, hv, ?_, ?_, ?_⟩
  · rw [h 0 3 rfl (hB.trans (by norm_num))]; norm_num
  · rw [h 1 1 rfl (hB.trans (by norm_num))]; norm_num
  · rw [h 2 2 rfl (hB.trans (by norm_num))]; norm_num

end Proadv.Props
