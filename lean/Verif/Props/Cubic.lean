import Verif.Lemmas.Cubic
import Verif.Props.LinearInterp
import Verif.Spec.Spline

/-!
# C56–C58 (and C44 for `cubic_12points_polynomial` and `polynomial_replacement`)
-/

set_option linter.unusedSectionVars false

namespace Proadv.Props

open Proadv Replace Fl

section generic
variable {F : Type} [PyNum F]

/-- **C44** for `cubic_12points_polynomial`: every float arithmetic, every interpolation routine, every index array -/
theorem C44_cubic (interp : List F → List F → F → Py F) (v : Arr F) (spikes : List Int) (decimals : Int) (out : List F)
    (h : cubic12 interp v spikes decimals = .ok out) :
    out.length = v.data.length ∧
      ∀ k, ¬ Hits v.data.length spikes k → out[k]? = (v.data[k]?).map (fun x => PyNum.around x decimals) := by
  unfold cubic12 at h
  split_ifs at h
  simp only [bind, Except.bind] at h
  cases h0 : setMany v.data spikes PyNum.nan with
  | error e => rw [h0] at h; cases h
  | ok md0 =>
    rw [h0] at h
    simp only at h
    cases h1 : spikes.foldlM (cubicStep interp v.data) md0 with
    | error e => rw [h1] at h; cases h
    | ok md =>
      rw [h1] at h
      cases h
      obtain ⟨a1, a2⟩ := setMany_frame h0
      obtain ⟨b1, b2⟩ := foldlM_frame (l := md0) (fun i _ a b _ hab => by
        unfold cubicStep at hab
        simp only [bind, Except.bind] at hab
        split_ifs at hab
        · split at hab
          · cases hab
          · split at hab
            · cases hab
            · exact ⟨_, hab⟩
        · split at hab
          · cases hab
          · exact ⟨_, hab⟩) h1
      refine ⟨by simp [b1, a1], fun k hk => ?_⟩
      rw [List.getElem?_map, b2 k (by rw [a1]; exact hk), a2 k hk]

/-- **C56** refinement: on NaN-free float data and strictly increasing in-range spikes the value of every spike is computed
from the raw data alone (`cubicValue`), and the call fails exactly when one of them fails, with the first failure. -/
theorem C56_char (hnan : PyNum.isNaN (PyNum.nan : F) = true) (interp : List F → List F → F → Py F) (v : List F)
    (hv : ∀ x ∈ v, PyNum.isNaN x = false) (sp : List Nat) (hs : sp.Pairwise (· < ·)) (hin : ∀ i ∈ sp, i < v.length)
    (decimals : Int) :
    (∀ e, sp.mapM (cubicValue interp v sp) = .error e →
      cubic12 interp ⟨1, false, v⟩ (sp.map (fun i : Nat => (i : Int))) decimals = .error e) ∧
    (∀ xs, sp.mapM (cubicValue interp v sp) = .ok xs →
      ∃ out, cubic12 interp ⟨1, false, v⟩ (sp.map (fun i : Nat => (i : Int))) decimals = .ok out ∧
        ∀ i ∈ sp, ∃ x, cubicValue interp v sp i = .ok x ∧ out[i]? = some (PyNum.around x decimals)) := by
  obtain ⟨md0, h0⟩ := setMany_total v (sp.map (fun i : Nat => (i : Int))) (PyNum.nan : F) (by
    intro i hi
    obtain ⟨j, hj, rfl⟩ := List.mem_map.mp hi
    exact ⟨j, pyIdx_nat (hin j hj)⟩)
  obtain ⟨a1, a2⟩ := setMany_frame h0
  have a3 := setMany_value h0
  obtain ⟨c1, c2⟩ := cubic_fold (interp := interp) hnan hv hin sp md0 hs (fun _ h => h)
    (fun k hk hk' => absurd hk hk') a1 (fun k hk => a2 k (fun hh => hk ((hits_nat hin k).mp hh)))
    (fun k hk => a3 k ((hits_nat hin k).mpr hk))
  constructor
  · intro e he
    unfold cubic12
    simp only [h0, c1 e he, bind, Except.bind, Bool.false_eq_true, if_false]
  · intro xs hx
    obtain ⟨out, o1, o2, o3, o4⟩ := c2 xs hx
    refine ⟨out.map (fun x => PyNum.around x decimals), ?_, fun i hi => ?_⟩
    · unfold cubic12
      simp only [h0, o1, bind, Except.bind, Bool.false_eq_true, if_false]
    · obtain ⟨x, hx, ho⟩ := o4 i hi
      exact ⟨x, hx, by rw [List.getElem?_map, ho]; rfl⟩

theorem mapM_mem_ok {α β : Type} {f : α → Py β} : ∀ {l : List α} {xs : List β}, l.mapM f = .ok xs →
    ∀ a ∈ l, ∃ b, f a = .ok b := by
  intro l
  induction l with
  | nil => intro xs _ a ha; cases ha
  | cons a t ih =>
    intro xs h b hb
    rw [List.mapM_cons] at h
    simp only [bind, Except.bind] at h
    cases hf : f a with
    | error e => rw [hf] at h; cases h
    | ok y =>
      rw [hf] at h
      simp only at h
      cases ht : t.mapM f with
      | error e => rw [ht] at h; cases h
      | ok ys =>
        rcases List.mem_cons.mp hb with rfl | hb
        · exact ⟨y, hf⟩
        · exact ih ht b hb

theorem mapM_error_of {α β : Type} {f : α → Py β} {e : PyErr} : ∀ {l : List α}, (∀ a ∈ l, (∃ b, f a = .ok b) ∨ f a = .error e) →
    (∃ a ∈ l, f a = .error e) → l.mapM f = .error e := by
  intro l
  induction l with
  | nil => rintro _ ⟨a, ha, _⟩; cases ha
  | cons a t ih =>
    rintro h ⟨b, hb, hbe⟩
    rw [List.mapM_cons]
    simp only [bind, Except.bind]
    rcases h a (by simp) with ⟨y, hy⟩ | hy
    · rw [hy]
      simp only
      rw [ih (fun a ha => h a (by simp [ha])) ⟨b, by
        rcases List.mem_cons.mp hb with rfl | hb
        · rw [hy] at hbe; cases hbe
        · exact hb, hbe⟩]
    · rw [hy]

theorem validAfter_nil_of_last {v : List F} {sp : List Nat} {i : Nat} (h : ∀ k, i < k → k < v.length → k ∈ sp) :
    validAfter v sp i = [] := by
  unfold validAfter
  rw [List.map_eq_nil_iff, List.filter_eq_nil_iff]
  intro k hk
  have hk' := List.mem_range.mp hk
  simp only [decide_eq_true_eq, not_and, not_not]
  exact fun h1 => h k h1 hk'

theorem validAfter_head {v : List F} {sp : List Nat} {i j : Nat} (hij : i < j) (hj : j < v.length) (hjs : j ∉ sp)
    (hmid : ∀ k, i < k → k < j → k ∈ sp) : (validAfter v sp i)[0]? = some v[j] := by
  unfold validAfter
  have hr : List.range v.length = List.range j ++ j :: List.range' (j + 1) (v.length - j - 1) := by
    rw [List.range_eq_range', List.range_eq_range', ← List.range'_succ]
    have := List.range'_append (s := 0) (m := j) (n := v.length - j - 1 + 1) (step := 1)
    simp only [one_mul, zero_add] at this
    rw [this]
    congr 1; omega
  rw [hr, List.filter_append]
  have he : (List.range j).filter (fun k => decide (i < k ∧ k ∉ sp)) = [] := by
    rw [List.filter_eq_nil_iff]
    intro k hk
    have := List.mem_range.mp hk
    simp only [decide_eq_true_eq, not_and, not_not]
    exact fun h => hmid k h this
  rw [he, List.nil_append, List.filter_cons, if_pos (by simp [hij, hjs])]
  simp [List.getD_eq_getElem?_getD, hj]

/-- **C56** near the boundary (`i ≤ 30` or `i ≥ n-30`): when the call succeeds, the spike `i` becomes the average of the raw
sample before it (the last sample for `i = 0`) and the next sample `j > i` that is not a spike, rounded to 4 decimals and
then to `decimals`. -/
theorem C56_boundary (hnan : PyNum.isNaN (PyNum.nan : F) = true) (interp : List F → List F → F → Py F) (v : List F)
    (hv : ∀ x ∈ v, PyNum.isNaN x = false) (sp : List Nat) (hs : sp.Pairwise (· < ·)) (hin : ∀ i ∈ sp, i < v.length)
    (decimals : Int) (out : List F)
    (h : cubic12 interp ⟨1, false, v⟩ (sp.map (fun i : Nat => (i : Int))) decimals = .ok out)
    (i j : Nat) (hi : i ∈ sp) (hb : i ≤ 30 ∨ v.length ≤ i + 30) (hij : i < j) (hj : j < v.length) (hjs : j ∉ sp)
    (hmid : ∀ k, i < k → k < j → k ∈ sp) :
    ∃ p, (if i = 0 then v[v.length - 1]? else v[i - 1]?) = some p ∧
      out[i]? = some (PyNum.around (PyNum.around ((p +. v[j]) /. lit 2) 4) decimals) := by
  obtain ⟨c1, c2⟩ := C56_char hnan interp v hv sp hs hin decimals
  cases hm : sp.mapM (cubicValue interp v sp) with
  | error e => rw [c1 e hm] at h; cases h
  | ok xs =>
    obtain ⟨out', o1, o2⟩ := c2 xs hm
    rw [o1] at h
    cases h
    obtain ⟨x, hx, ho⟩ := o2 i hi
    have hil := hin i hi
    unfold cubicValue at hx
    rw [if_pos hb, validAfter_head hij hj hjs hmid] at hx
    have hp : ∃ p, (if i = 0 then v[v.length - 1]? else v[i - 1]?) = some p := by
      split_ifs
      · exact ⟨_, List.getElem?_eq_getElem (by omega)⟩
      · exact ⟨_, List.getElem?_eq_getElem (by omega)⟩
    obtain ⟨p, hp⟩ := hp
    rw [hp] at hx
    refine ⟨p, hp, ?_⟩
    rw [ho]
    cases hx
    rfl

/-- **C56**: a spike with no valid sample to its right (in particular a spike at the last index) makes the call fail; if all
spikes are near the boundary the error is IndexError, and otherwise success requires valid samples after every spike. -/
theorem C56_trailing (hnan : PyNum.isNaN (PyNum.nan : F) = true) (interp : List F → List F → F → Py F) (v : List F)
    (hv : ∀ x ∈ v, PyNum.isNaN x = false) (sp : List Nat) (hs : sp.Pairwise (· < ·)) (hin : ∀ i ∈ sp, i < v.length)
    (decimals : Int) (i : Nat) (hi : i ∈ sp) (hlast : ∀ k, i < k → k < v.length → k ∈ sp) :
    (∀ out, cubic12 interp ⟨1, false, v⟩ (sp.map (fun i : Nat => (i : Int))) decimals ≠ .ok out) ∧
    ((∀ m ∈ sp, m ≤ 30 ∨ v.length ≤ m + 30) →
      cubic12 interp ⟨1, false, v⟩ (sp.map (fun i : Nat => (i : Int))) decimals = .error .indexError) := by
  obtain ⟨c1, c2⟩ := C56_char hnan interp v hv sp hs hin decimals
  have hnil := validAfter_nil_of_last hlast
  constructor
  · intro out h
    cases hm : sp.mapM (cubicValue interp v sp) with
    | error e => rw [c1 e hm] at h; cases h
    | ok xs =>
      obtain ⟨x, hx⟩ := mapM_mem_ok hm i hi
      unfold cubicValue at hx
      rw [hnil] at hx
      by_cases hc : i ≤ 30 ∨ v.length ≤ i + 30
      · rw [if_pos hc] at hx
        split at hx
        · rename_i h2; simp at h2
        · cases hx
      · rw [if_neg hc, if_pos (by simp)] at hx
        cases hx
  · intro hall
    apply c1
    refine mapM_error_of (fun m hm => ?_) ⟨i, hi, ?_⟩
    · unfold cubicValue
      rw [if_pos (hall m hm)]
      split
      · exact Or.inl ⟨_, rfl⟩
      · exact Or.inr rfl
    · unfold cubicValue
      rw [if_pos (hall i hi), hnil]
      split
      · rename_i h2; simp at h2
      · rfl

/-- **C56**: an interior spike with fewer than 12 valid samples to its right makes the call fail -/
theorem C56_interior_needs_twelve (hnan : PyNum.isNaN (PyNum.nan : F) = true) (interp : List F → List F → F → Py F)
    (v : List F) (hv : ∀ x ∈ v, PyNum.isNaN x = false) (sp : List Nat) (hs : sp.Pairwise (· < ·))
    (hin : ∀ i ∈ sp, i < v.length) (decimals : Int) (i : Nat) (hi : i ∈ sp) (h1 : 30 < i) (h2 : i + 30 < v.length)
    (hfew : ((List.range v.length).filter (fun k => decide (i < k ∧ k ∉ sp))).length < 12) (out : List F) :
    cubic12 interp ⟨1, false, v⟩ (sp.map (fun i : Nat => (i : Int))) decimals ≠ .ok out := by
  obtain ⟨c1, c2⟩ := C56_char hnan interp v hv sp hs hin decimals
  intro h
  cases hm : sp.mapM (cubicValue interp v sp) with
  | error e => rw [c1 e hm] at h; cases h
  | ok xs =>
    obtain ⟨x, hx⟩ := mapM_mem_ok hm i hi
    unfold cubicValue at hx
    rw [if_neg (by omega), if_pos (by unfold validAfter; rw [List.length_map]; exact hfew)] at hx
    cases hx

/-- **C56**: an integer array is rejected -/
theorem C56_int (interp : List F → List F → F → Py F) (v : List F) (spikes : List Int) (decimals : Int) :
    cubic12 interp ⟨1, true, v⟩ spikes decimals = .error .valueError := rfl

end generic

/-! ## C57 -/

section C57
variable {K : Type} [Field K] [LinearOrder K] [IsStrictOrderedRing K] [FloorRing K]

/-- the places of the 24 nodes: 1 to 12 and 14 to 25, with the spike at 13 in the gap (written out, independently of the model) -/
def nodePlaces : List (Fl K) :=
  [1, 2, 3, 4, 5, 6, 7, 8, 9, 10, 11, 12, 14, 15, 16, 17, 18, 19, 20, 21, 22, 23, 24, 25].map (fun m : ℕ => fin (m : K))

theorem cubicX_eq : (cubicX : List (Fl K)) = nodePlaces := by
  simp [cubicX, nodePlaces, List.range_succ]
  norm_num

/-- the interpolation routine returns the value at 13 of the not-a-knot cubic spline through the 24 nodes -/
def IsCubicInterp (interp : List (Fl K) → List (Fl K) → Fl K → Py (Fl K)) : Prop :=
  ∀ ys : List K, ys.length = 24 → ∃ z, interp nodePlaces (ys.map fin) (lit 13) = .ok (fin z) ∧
    Spec.SplineAt13 (fun k => ys.getD k 0) z

/-- such a routine exists -/
theorem isCubicInterp_exists : ∃ interp : List (Fl K) → List (Fl K) → Fl K → Py (Fl K), IsCubicInterp interp := by
  classical
  have h : ∀ ys : List K, ∃ z, Spec.SplineAt13 (fun k => ys.getD k 0) z := fun ys => by
    obtain ⟨b, c, d, h⟩ := Spec.spline_exists (fun k => ys.getD k 0)
    exact ⟨_, b, c, d, h, rfl⟩
  choose f hf using h
  refine ⟨fun _ y _ => .ok (fin (f (y.map (fun x => match x with | fin a => a | _ => 0)))), fun ys _ => ⟨_, rfl, ?_⟩⟩
  have : (ys.map fin).map (fun x : Fl K => match x with | fin a => a | _ => 0) = ys := by
    rw [List.map_map]; exact List.map_id ys
  rw [this]
  exact hf ys

theorem validAfter_single {F : Type} [PyNum F] (v : List F) (i : Nat) (hi : i < v.length) :
    validAfter v [i] i = v.drop (i + 1) := by
  unfold validAfter
  have hr : List.range v.length = List.range (i + 1) ++ List.range' (i + 1) (v.length - (i + 1)) := by
    rw [List.range_eq_range', List.range_eq_range']
    have := List.range'_append (s := 0) (m := i + 1) (n := v.length - (i + 1)) (step := 1)
    simp only [one_mul, zero_add] at this
    rw [this]
    congr 1; omega
  rw [hr, List.filter_append]
  have he : (List.range (i + 1)).filter (fun k => decide (i < k ∧ k ∉ [i])) = [] := by
    rw [List.filter_eq_nil_iff]
    intro k hk
    have := List.mem_range.mp hk
    simp; omega
  have hf : (List.range' (i + 1) (v.length - (i + 1))).filter (fun k => decide (i < k ∧ k ∉ [i])) =
      List.range' (i + 1) (v.length - (i + 1)) := by
    rw [List.filter_eq_self]
    intro k hk
    rw [List.mem_range'_1] at hk
    simp; omega
  rw [he, List.nil_append, hf]
  apply List.ext_getElem
  · simp
  · intro k k1 k2
    simp only [List.length_drop] at k2
    simp only [List.getElem_map, List.getElem_range', List.getElem_drop, one_mul]
    rw [List.getD_eq_getElem?_getD, List.getElem?_eq_getElem (by omega)]; rfl

/-- **C57** exact result: samples on the line `α + β j`, one interior spike `i`: the spike is replaced by
`α + β (i - 1/2)` — half a step off the line. -/
theorem C57_error (interp : List (Fl K) → List (Fl K) → Fl K → Py (Fl K)) (hI : IsCubicInterp interp) (xs : List K)
    (i : Nat) (h1 : 30 < i) (h2 : i + 30 < xs.length) (alpha beta : K)
    (hline : ∀ j, j < xs.length → j ≠ i → xs.getD j 0 = alpha + beta * j) (decimals : Int) :
    ∃ out, cubic12 interp ⟨1, false, xs.map fin⟩ [(i : Int)] decimals = .ok out ∧
      out[i]? = some (fin (aroundK (alpha + beta * ((i : K) - 1 / 2)) decimals)) := by
  obtain ⟨-, c2⟩ := C56_char (F := Fl K) rfl interp (xs.map fin) (by simp) [i] (by simp) (by simp; omega) decimals
  set ys : List K := (xs.drop (i - 13)).take 12 ++ (xs.drop (i + 1)).take 12 with hys
  have hlen : ys.length = 24 := by simp [hys]; omega
  obtain ⟨z, hz1, b, c, d, hsp, hz2⟩ := hI ys hlen
  have hyl : ∀ k, k < 12 → ys.getD k 0 = alpha + beta * ((i - 13 + k : ℕ) : K) := by
    intro k hk
    rw [← hline (i - 13 + k) (by omega) (by omega), List.getD_eq_getElem?_getD, List.getD_eq_getElem?_getD, hys,
      List.getElem?_append_left (by simp; omega), List.getElem?_take, if_pos hk, List.getElem?_drop]
  have hyr : ∀ k, k < 12 → ys.getD (12 + k) 0 = alpha + beta * ((i + 1 + k : ℕ) : K) := by
    intro k hk
    have hl12 : ((xs.drop (i - 13)).take 12).length = 12 := by simp; omega
    rw [← hline (i + 1 + k) (by omega) (by omega), List.getD_eq_getElem?_getD, List.getD_eq_getElem?_getD, hys,
      List.getElem?_append_right (by omega), hl12, Nat.add_sub_cancel_left, List.getElem?_take, if_pos hk,
      List.getElem?_drop]
  have hz : z = alpha + beta * ((i : K) - 1 / 2) := by
    have := Spec.spline_antisym hsp (2 * alpha + beta * (2 * i - 1)) (fun k hk => by
      by_cases hk12 : k < 12
      · rw [hyl k hk12, show 23 - k = 12 + (11 - k) by omega, hyr (11 - k) (by omega),
          show i + 1 + (11 - k) = i + 12 - k by omega]
        push_cast [Nat.cast_sub (by omega : 13 ≤ i), Nat.cast_sub (by omega : k ≤ i + 12)]
        ring
      · obtain ⟨m, rfl⟩ : ∃ m, k = 12 + m := ⟨k - 12, by omega⟩
        rw [hyr m (by omega), show 23 - (12 + m) = 11 - m by omega, hyl (11 - m) (by omega),
          show i - 13 + (11 - m) = i - 2 - m by omega]
        push_cast [Nat.cast_sub (by omega : 2 ≤ i), Nat.cast_sub (by omega : m ≤ i - 2)]
        ring)
    rw [hz2, this]
    ring
  have hcv : cubicValue interp (xs.map fin) [i] i = .ok (fin z) := by
    unfold cubicValue
    rw [List.length_map, if_neg (by omega), validAfter_single _ i (by simp; omega), if_neg (by simp; omega)]
    rw [← hz1, cubicX_eq]
    congr 1
    rw [hys, List.map_append, List.map_take, List.map_drop, List.map_take, List.map_drop]
  obtain ⟨out, o1, o2⟩ := c2 [fin z] (by
    rw [List.mapM_cons, hcv]; rfl)
  refine ⟨out, o1, ?_⟩
  obtain ⟨x, hx, ho⟩ := o2 i (by simp)
  rw [hcv] at hx
  cases hx
  rw [ho, paround_fin, hz]

/-- **C57** what remains of the claim: on constant data (slope 0) the spike is replaced by the constant.  Missing: lines of
non-zero slope, for which the claim is false (`C57_false`). -/
theorem C57_partial (interp : List (Fl K) → List (Fl K) → Fl K → Py (Fl K)) (hI : IsCubicInterp interp) (xs : List K)
    (i : Nat) (h1 : 30 < i) (h2 : i + 30 < xs.length) (alpha : K)
    (hconst : ∀ j, j < xs.length → j ≠ i → xs.getD j 0 = alpha) (decimals : Int) :
    ∃ out, cubic12 interp ⟨1, false, xs.map fin⟩ [(i : Int)] decimals = .ok out ∧
      out[i]? = some (fin (aroundK alpha decimals)) := by
  have := C57_error interp hI xs i h1 h2 alpha 0 (fun j hj hji => by rw [hconst j hj hji]; simp) decimals
  simpa using this

end C57

/-- **C57** is false: the line `v[j] = j` is not reproduced by any correct spline routine -/
theorem C57_false : ∃ (xs : List ℚ) (i : Nat), (∀ j, j < xs.length → xs.getD j 0 = j) ∧ i < xs.length ∧
    ∀ interp, IsCubicInterp interp → ∃ out, cubic12 interp ⟨1, false, xs.map fin⟩ [(i : Int)] 4 = .ok out ∧
      out[i]? ≠ some (fin (aroundK (i : ℚ) 4)) := by
  refine ⟨(List.range 70).map (fun j : ℕ => (j : ℚ)), 35, ?_, by simp, ?_⟩
  · intro j hj
    simp only [List.length_map, List.length_range] at hj
    simp [List.getD_eq_getElem?_getD, hj]
  · intro interp hI
    obtain ⟨out, h1, h2⟩ := C57_error interp hI ((List.range 70).map (fun j : ℕ => (j : ℚ))) 35 (by omega) (by simp) 0 1
      (fun j hj _ => by
        simp only [List.length_map, List.length_range] at hj
        simp [List.getD_eq_getElem?_getD, hj]) 4
    refine ⟨out, h1, ?_⟩
    rw [h2]
    have : aroundK (0 + 1 * (((35 : ℕ) : ℚ) - 1 / 2)) 4 ≠ aroundK ((35 : ℕ) : ℚ) 4 := by decide +kernel
    intro hc
    injection hc with hc
    injection hc with hc
    exact this hc

/-! ## C58 -/

section C58
variable {F : Type} [PyNum F]

/-- **C58**: a single spike is always a TypeError -/
theorem C58_single (predict : List F → Int → Int → Py F) (v : Arr F) (i : Int) (window decimals : Int) :
    polynomialReplacement predict v [i] window decimals = .error .typeError := rfl

/-- **C58**/**C44**: strictly increasing in-range spikes, successful call: the length is kept, and every sample that is not
a spike — as well as the sample at index 10 even when it is a spike — is only rounded (once or twice). -/
theorem C58_kept (predict : List F → Int → Int → Py F) (v : Arr F) (sp : List Nat) (hs : sp.Pairwise (· < ·))
    (hin : ∀ i ∈ sp, i < v.data.length) (window decimals : Int) (out : List F)
    (h : polynomialReplacement predict v (sp.map (fun i : Nat => (i : Int))) window decimals = .ok out) :
    out.length = v.data.length ∧ ∀ k, (k ∉ sp ∨ k = 10) →
      out[k]? = (v.data[k]?).map (fun x => PyNum.around x decimals) ∨
      out[k]? = (v.data[k]?).map (fun x => PyNum.around (PyNum.around x decimals) decimals) := by
  unfold polynomialReplacement at h
  split_ifs at h
  simp only [bind, Except.bind] at h
  cases hf : (sp.map (fun i : Nat => (i : Int))).foldlM
      (polyStep predict (sp.map (fun i : Nat => (i : Int))) window decimals) ⟨v, true⟩ with
  | error e => rw [hf] at h; cases h
  | ok st =>
    rw [hf] at h
    cases h
    have inv := foldlM_inv (fun st : PolyState F => st.arr.data.length = v.data.length ∧
      ∀ k, (k ∉ sp ∨ k = 10) → if st.first then st.arr.data[k]? = v.data[k]?
        else st.arr.data[k]? = (v.data[k]?).map (fun x => PyNum.around x decimals)) (b := ⟨v, true⟩) (by
      rintro i hi ⟨a, fst⟩ st' ⟨hl, hk⟩ hst
      obtain ⟨j, hj, rfl⟩ := List.mem_map.mp hi
      simp only at hl hk
      -- writes at the spike itself
      have hwrite : ∀ (x : F) (d : List F), j ≠ 10 → setIdx a.data (j : Int) x = .ok d →
          d.length = v.data.length ∧ ∀ k, (k ∉ sp ∨ k = 10) → if fst then d[k]? = v.data[k]?
            else d[k]? = (v.data[k]?).map (fun x => PyNum.around x decimals) := by
        intro x d hj10 hd
        obtain ⟨m, hm, rfl⟩ := setIdx_ok.mp hd
        rw [pyIdx_nat_some hm]
        refine ⟨by simpa using hl, fun k hk' => ?_⟩
        rw [List.getElem?_set_ne (by rcases hk' with h | h <;> [(rintro rfl; exact h hj); omega])]
        exact hk k hk'
      unfold polyStep at hst
      simp only [bind, Except.bind] at hst
      split_ifs at hst with c1 c2 c3 c4 c5
      · have : j = 0 := by omega
        subst this
        cases hd : setIdx a.data 0 (store a.isInt (npMean a.data)) with
        | error e => rw [hd] at hst; cases hst
        | ok d =>
          rw [hd] at hst
          cases hst
          exact hwrite _ _ (by omega) hd
      · -- linear interpolation of the spikes below 10
        have hearly : (sp.map (fun i : Nat => (i : Int))).filter (fun j => decide (j < 10)) =
            (sp.filter (fun j => decide (j < 10))).map (fun i : Nat => (i : Int)) := by
          rw [List.filter_map]
          congr 1
          apply List.filter_congr
          intro x _
          simp only [Function.comp, decide_eq_decide]
          omega
        rw [hearly] at hst
        cases hd : linearInterpolation a ((sp.filter (fun j => decide (j < 10))).map (fun i : Nat => (i : Int))) decimals with
        | error e => rw [hd] at hst; cases hst
        | ok d =>
          rw [hd] at hst
          cases hst
          obtain ⟨l1, l2⟩ := C44_linear a.data (sp.filter (fun j => decide (j < 10))) (hs.sublist List.filter_sublist)
            (fun i hi => by rw [hl]; exact hin i (List.mem_filter.mp hi).1) a.isInt decimals d hd
          refine ⟨by simp only; rw [l1, hl], fun k hk' => ?_⟩
          have := hk k hk'
          simp only [c3, if_true] at this
          simp only [Bool.false_eq_true, if_false]
          rw [l2 k (by
            intro hm
            obtain ⟨m1, m2⟩ := List.mem_filter.mp hm
            simp only [decide_eq_true_eq] at m2
            rcases hk' with h | h
            · exact h m1
            · omega), this]
      · cases hst
        exact ⟨hl, hk⟩
      · cases hy : predict (pySlice a.data 0 (j : Int)) 0 (j : Int) with
        | error e => rw [hy] at hst; cases hst
        | ok y =>
          rw [hy] at hst
          simp only at hst
          cases hd : setIdx a.data (j : Int) (store a.isInt y) with
          | error e => rw [hd] at hst; cases hst
          | ok d =>
            rw [hd] at hst
            cases hst
            exact hwrite _ _ (by omega) hd
      · cases hy : predict (pySlice a.data ((j : Int) - window) (j : Int)) ((j : Int) - window) (j : Int) with
        | error e => rw [hy] at hst; cases hst
        | ok y =>
          rw [hy] at hst
          simp only at hst
          cases hd : setIdx a.data (j : Int) (store a.isInt y) with
          | error e => rw [hd] at hst; cases hst
          | ok d =>
            rw [hd] at hst
            cases hst
            exact hwrite _ _ (by omega) hd) ⟨rfl, fun k _ => by simp⟩ hf
    refine ⟨by simp [inv.1], fun k hk => ?_⟩
    have := inv.2 k hk
    simp only [List.getElem?_map]
    split_ifs at this
    · left; rw [this]
    · right; rw [this, Option.map_map]; rfl

/-- agreement of two arrays below position `i` -/
def AgreeBelow (a b : List F) (i : Nat) : Prop := a.length = b.length ∧ ∀ k, k < i → a[k]? = b[k]?

theorem AgreeBelow.take {a b : List F} {i : Nat} (h : AgreeBelow a b i) : a.take i = b.take i := by
  apply List.ext_getElem?
  intro k
  rw [List.getElem?_take, List.getElem?_take]
  split_ifs with hk
  · exact h.2 k hk
  · rfl

theorem sliceBound_nat (n i : Nat) : sliceBound n (i : Int) = min i n := by
  unfold sliceBound
  rw [if_neg (by omega)]
  rfl

theorem AgreeBelow.slice {a b : List F} {i : Nat} (h : AgreeBelow a b i) (lo : Int) :
    pySlice a lo (i : Int) = pySlice b lo (i : Int) := by
  unfold pySlice Proadv.slice
  rw [h.1, sliceBound_nat, ← List.take_take, ← List.take_take, List.take_of_length_le (l := a) (by rw [h.1]),
    List.take_of_length_le (l := b) (le_refl _), h.take]

/-- **C58** no look-ahead: when all spikes are at or after index 11, the value written at a spike `i` depends only on the
samples before `i`: two inputs (same length and dtype) that agree below `i` get the same replacement at `i`. -/
theorem C58_no_lookahead (predict : List F → Int → Int → Py F) (v w : Arr F) (hdt : v.isInt = w.isInt) (sp : List Nat)
    (hs : sp.Pairwise (· < ·)) (h11 : ∀ i ∈ sp, 11 ≤ i) (window decimals : Int) (outv outw : List F)
    (hv : polynomialReplacement predict v (sp.map (fun i : Nat => (i : Int))) window decimals = .ok outv)
    (hw : polynomialReplacement predict w (sp.map (fun i : Nat => (i : Int))) window decimals = .ok outw)
    (i : Nat) (hi : i ∈ sp) (hagree : AgreeBelow v.data w.data i) : outv[i]? = outw[i]? := by
  have hstep : ∀ (allsp : List Int) (st st' : PolyState F) (j : Nat), 11 ≤ j →
      polyStep predict allsp window decimals st (j : Int) = .ok st' →
      ∃ lo y, predict (pySlice st.arr.data lo (j : Int)) lo (j : Int) = .ok y ∧ st'.arr.isInt = st.arr.isInt ∧
        lo = (if (j : Int) ≤ window - 1 then 0 else (j : Int) - window) ∧
        j < st.arr.data.length ∧ st'.arr.data = st.arr.data.set j (store st.arr.isInt y) := by
    intro allsp st st' j hj hst
    unfold polyStep at hst
    rw [if_neg (by omega), if_neg (by omega)] at hst
    simp only [bind, Except.bind] at hst
    split_ifs at hst with c
    · cases hy : predict (pySlice st.arr.data 0 (j : Int)) 0 (j : Int) with
      | error e => rw [hy] at hst; cases hst
      | ok y =>
        rw [hy] at hst
        simp only at hst
        cases hd : setIdx st.arr.data (j : Int) (store st.arr.isInt y) with
        | error e => rw [hd] at hst; cases hst
        | ok d =>
          rw [hd] at hst
          cases hst
          obtain ⟨m, hm, rfl⟩ := setIdx_ok.mp hd
          have := pyIdx_nat_some hm
          have hlt := pyIdx_lt hm
          subst this
          exact ⟨0, y, hy, rfl, by rw [if_pos (by omega)], hlt, rfl⟩
    · cases hy : predict (pySlice st.arr.data ((j : Int) - window) (j : Int)) ((j : Int) - window) (j : Int) with
      | error e => rw [hy] at hst; cases hst
      | ok y =>
        rw [hy] at hst
        simp only at hst
        cases hd : setIdx st.arr.data (j : Int) (store st.arr.isInt y) with
        | error e => rw [hd] at hst; cases hst
        | ok d =>
          rw [hd] at hst
          cases hst
          obtain ⟨m, hm, rfl⟩ := setIdx_ok.mp hd
          have := pyIdx_nat_some hm
          have hlt := pyIdx_lt hm
          subst this
          exact ⟨_, y, hy, rfl, by rw [if_neg (by omega)], hlt, rfl⟩
  have key : ∀ (allsp : List Int) (rest : List Nat) (s1 s2 r1 r2 : PolyState F), rest.Pairwise (· < ·) →
      (∀ j ∈ rest, 11 ≤ j) → s1.arr.isInt = s2.arr.isInt →
      (rest.map (fun i : Nat => (i : Int))).foldlM (polyStep predict allsp window decimals) s1 = .ok r1 →
      (rest.map (fun i : Nat => (i : Int))).foldlM (polyStep predict allsp window decimals) s2 = .ok r2 →
      (i ∈ rest ∧ AgreeBelow s1.arr.data s2.arr.data i) ∨ (i ∉ rest ∧ s1.arr.data[i]? = s2.arr.data[i]?) →
      r1.arr.data[i]? = r2.arr.data[i]? := by
    intro allsp rest
    induction rest with
    | nil =>
      intro s1 s2 r1 r2 _ _ _ h1 h2 hor
      cases h1; cases h2
      rcases hor with ⟨h, -⟩ | ⟨-, h⟩
      · cases h
      · exact h
    | cons j t ih =>
      intro s1 s2 r1 r2 hs h11 hd h1 h2 hor
      obtain ⟨p1, p2⟩ := List.pairwise_cons.mp hs
      rw [List.map_cons] at h1 h2
      obtain ⟨m1, a1, b1⟩ := foldlM_cons_ok.mp h1
      obtain ⟨m2, a2, b2⟩ := foldlM_cons_ok.mp h2
      obtain ⟨lo1, y1, x1, i1, e1, l1, d1⟩ := hstep allsp s1 m1 j (h11 j (by simp)) a1
      obtain ⟨lo2, y2, x2, i2, e2, l2, d2⟩ := hstep allsp s2 m2 j (h11 j (by simp)) a2
      refine ih m1 m2 r1 r2 p2 (fun k hk => h11 k (by simp [hk])) (by rw [i1, i2, hd]) b1 b2 ?_
      rcases hor with ⟨hmem, hag⟩ | ⟨hnm, heq⟩
      · have hji : j ≤ i := by
          rcases List.mem_cons.mp hmem with h | h
          · omega
          · have := p1 i h; omega
        have hagj : AgreeBelow s1.arr.data s2.arr.data j := ⟨hag.1, fun k hk => hag.2 k (by omega)⟩
        have hlo : lo1 = lo2 := by rw [e1, e2]
        have hy : y1 = y2 := by
          rw [hlo, hagj.slice, x2] at x1
          cases x1; rfl
        by_cases hij : i = j
        · right
          refine ⟨fun h => by have := p1 i h; omega, ?_⟩
          rw [d1, d2, hij, List.getElem?_set_self l1, List.getElem?_set_self l2, hy, hd]
        · left
          refine ⟨by rcases List.mem_cons.mp hmem with h | h <;> [exact absurd h hij; exact h], ?_, ?_⟩
          · rw [d1, d2]; simpa using hag.1
          · intro k hk
            rw [d1, d2, List.getElem?_set, List.getElem?_set, hag.1, hy, hd]
            split_ifs
            · rfl
            · exact hag.2 k hk
      · right
        simp only [List.mem_cons, not_or] at hnm
        refine ⟨hnm.2, ?_⟩
        rw [d1, d2, List.getElem?_set_ne (fun h => hnm.1 h.symm), List.getElem?_set_ne (fun h => hnm.1 h.symm)]
        exact heq
  unfold polynomialReplacement at hv hw
  split_ifs at hv hw
  simp only [bind, Except.bind] at hv hw
  split at hv
  · cases hv
  · rename_i st1 hf1
    split at hw
    · cases hw
    · rename_i st2 hf2
      cases hv; cases hw
      simp only [List.getElem?_map]
      rw [key _ sp _ _ _ _ hs h11 hdt hf1 hf2 (Or.inl ⟨hi, hagree⟩)]

/-- **C58** window: the predictor only ever sees at most `window` consecutive samples: two predictors that agree on samples
of length at most `window` give the same result, whatever the arguments (`window ≥ 0`). -/
theorem C58_window (p q : List F → Int → Int → Py F) (window decimals : Int) (hw : 0 ≤ window)
    (hpq : ∀ y lo i, (y.length : Int) ≤ window → p y lo i = q y lo i) (v : Arr F) (spikes : List Int) :
    polynomialReplacement p v spikes window decimals = polynomialReplacement q v spikes window decimals := by
  have hlen : ∀ (l : List F) (i : Int), ((pySlice l (i - window) i).length : Int) ≤ window := by
    intro l i
    unfold pySlice slice
    rw [List.length_drop, List.length_take]
    unfold sliceBound
    show ((min (if i < 0 then ((l.length : Int) + i).toNat else min i.toNat l.length) l.length -
      (if i - window < 0 then ((l.length : Int) + (i - window)).toNat else min (i - window).toNat l.length) : ℕ) : Int) ≤ window
    split_ifs <;> omega
  have hstep : ∀ all, polyStep p all window decimals = polyStep q all window decimals := by
    intro all
    funext st i
    unfold polyStep
    split_ifs with c1 c2 c3 c4
    · rfl
    · rfl
    · rfl
    · rw [hpq]
      unfold pySlice slice
      rw [List.length_drop, List.length_take]
      unfold sliceBound
      show ((min (if i < 0 then ((st.arr.data.length : Int) + i).toNat else min i.toNat st.arr.data.length) st.arr.data.length -
        (if (0 : Int) < 0 then ((st.arr.data.length : Int) + 0).toNat else min (0 : Int).toNat st.arr.data.length) : ℕ) : Int) ≤ window
      split_ifs <;> omega
    · rw [hpq _ _ _ (hlen _ _)]
  unfold polynomialReplacement
  rw [hstep]

/-- **C58**: spikes 1…10 with exactly one spike below 10 → ValueError (a squeezed 0-d index array), with none below 10
(spike 10 alone among them) → IndexError on float arrays; shown for the first spike of the array. -/
theorem C58_early_errors (predict : List F → Int → Int → Py F) (v : Arr F) (i : Nat) (t : List Nat) (ht : t ≠ [])
    (hs : (i :: t).Pairwise (· < ·)) (h1 : 1 ≤ i) (h10 : i ≤ 10) (window decimals : Int) :
    (i < 10 → (∀ j ∈ t, 10 ≤ j) → polynomialReplacement predict v ((i :: t).map (fun i : Nat => (i : Int))) window decimals =
      .error .valueError) ∧
    (i = 10 → v.isInt = false →
      polynomialReplacement predict v ((i :: t).map (fun i : Nat => (i : Int))) window decimals = .error .indexError) := by
  have hlen : ¬ ((i :: t).map (fun i : Nat => (i : Int))).length = 1 := by
    cases t with
    | nil => exact absurd rfl ht
    | cons a b => simp
  have hfil : ∀ P : Nat → Prop, (∀ j ∈ t, 10 ≤ j) →
      (t.map (fun i : Nat => (i : Int))).filter (fun j => decide (j < 10)) = [] := by
    intro _ h
    rw [List.filter_eq_nil_iff]
    intro x hx
    obtain ⟨j, hj, rfl⟩ := List.mem_map.mp hx
    have := h j hj
    simp; omega
  constructor
  · intro hi h
    unfold polynomialReplacement
    rw [if_neg hlen, List.map_cons, List.foldlM_cons]
    have : polyStep predict ((i : Int) :: t.map (fun i : Nat => (i : Int))) window decimals ⟨v, true⟩ (i : Int) =
        .error .valueError := by
      unfold polyStep
      rw [if_neg (by omega), if_pos (by omega), if_pos rfl]
      simp only [List.filter_cons]
      rw [hfil (fun _ => True) h]
      have : decide ((i : Int) < 10) = true := by simp; omega
      rw [this]
      rfl
    rw [this]
    rfl
  · intro hi hf
    subst hi
    have h : ∀ j ∈ t, 10 ≤ j := fun j hj => by have := (List.pairwise_cons.mp hs).1 j hj; omega
    unfold polynomialReplacement
    rw [if_neg hlen, List.map_cons, List.foldlM_cons]
    have : polyStep predict (((10 : ℕ) : Int) :: t.map (fun i : Nat => (i : Int))) window decimals ⟨v, true⟩ ((10 : ℕ) : Int) =
        .error .indexError := by
      unfold polyStep
      rw [if_neg (by omega), if_pos (by omega), if_pos rfl]
      simp only [List.filter_cons]
      rw [hfil (fun _ => True) h]
      obtain ⟨nd, b, d⟩ := v
      simp only at hf
      subst hf
      rfl
    rw [this]
    rfl

end C58

/-! ## Concrete cases -/

example : cubic12 (F := Fl ℚ) (fun _ _ _ => .error .valueError) (Arr.flt [fin 1, fin 50, fin 50, fin 4]) [1, 2] 4 =
    .ok [fin 1, fin (5 / 2), fin 27, fin 4] := by decide +kernel

example : cubic12 (F := Fl ℚ) (fun _ _ _ => .error .valueError) (Arr.flt [fin 1, fin 50]) [1] 4 =
    .error .indexError := by decide +kernel

/-- a predictor repeating the last sample: spikes 11 and 12 -/
example : polynomialReplacement (F := Fl ℚ) (fun y _ _ => getIdx y (-1))
    (Arr.flt ((List.range 14).map (fun k : ℕ => fin (k : ℚ)))) [11, 12] 100 4 =
    .ok (((List.range 11).map (fun k : ℕ => fin (k : ℚ))) ++ [fin 10, fin 10, fin 13]) := by decide +kernel

/-- spike 10 is left alone -/
example : polynomialReplacement (F := Fl ℚ) (fun y _ _ => getIdx y (-1))
    (Arr.flt ((List.range 14).map (fun k : ℕ => fin ((k * k : ℕ) : ℚ)))) [2, 3, 10] 100 4 =
    .ok ([fin 0, fin 1, fin 6, fin 11] ++ ((List.range 10).map (fun k : ℕ => fin (((k + 4) * (k + 4) : ℕ) : ℚ)))) := by
  decide +kernel

end Proadv.Props
