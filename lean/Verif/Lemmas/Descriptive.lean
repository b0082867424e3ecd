import Verif.Model.Moment
import Verif.Lemmas.Sort
import Verif.Spec.Stats

/-! # Helper lemmas about the model of `descriptive.py`, `spread.py` -/

set_option linter.unusedSectionVars false

namespace Proadv

open Fl Descriptive

section generic
variable {F : Type} [PyNum F]

/-- numeric items of a Python list of floats -/
abbrev numItems {F : Type} (l : List F) : List (Item F) := l.map Item.num

@[simp] theorem filterMap_val_numItems (l : List F) : (numItems l).filterMap Item.val? = l := by
  induction l with
  | nil => rfl
  | cons x t ih => simp_all [numItems, Item.val?]

@[simp] theorem any_isStr_numItems (l : List F) : (numItems l).any Item.isStr = false := by
  simp [numItems, Item.isStr]

@[simp] theorem all_isPyNum_numItems (l : List F) : (numItems l).all Item.isPyNum = true := by
  simp [numItems, Item.isPyNum]

theorem mean_numItems (parse : String → Option F) (l : List F) (h : l ≠ []) :
    mean parse (.seq (numItems l)) = .ok (.val (npMean l)) := by
  have : (numItems l).length ≠ 0 := by simpa using h
  simp only [mean, this, ne_eq, not_false_eq_true, all_isPyNum_numItems, and_self, if_true, sumOverSize,
    any_isStr_numItems, Bool.false_eq_true, if_false, filterMap_val_numItems, npMean]
  simp

theorem meanOf_eq (l : List F) (h : l ≠ []) : meanOf l = .ok (npMean l) := by
  unfold meanOf
  have := mean_numItems (fun _ => none) l h
  simp only [numItems] at this
  rw [this]

theorem meanOf_nil : meanOf ([] : List F) = .error .typeError := rfl

end generic

section items
variable {F : Type}

theorem any_isStr_iff (data : List (Item F)) : data.any Item.isStr = true ↔ ∃ s, Item.str s ∈ data := by
  rw [List.any_eq_true]
  constructor
  · rintro ⟨i, hi, h⟩
    cases i with
    | str s => exact ⟨s, hi⟩
    | num x => simp [Item.isStr] at h
    | npnum x => simp [Item.isStr] at h
  · rintro ⟨s, hs⟩; exact ⟨_, hs, rfl⟩

theorem length_filterMap_val (data : List (Item F)) (h : data.any Item.isStr = false) :
    (data.filterMap Item.val?).length = data.length := by
  induction data with
  | nil => rfl
  | cons i t ih =>
    rw [List.any_cons, Bool.or_eq_false_iff] at h
    cases i with
    | str s => simp [Item.isStr] at h
    | num x => simp [Item.val?, ih h.2]
    | npnum x => simp [Item.val?, ih h.2]

end items

variable {K : Type} [Field K] [LinearOrder K] [FloorRing K]

theorem ple_refl_of_not_nan (x : Fl K) (h : PyNum.isNaN x = false) : (x ≤. x) = true := by
  cases x <;> simp_all [ple_def, Fl.le]

theorem ple_of_not_plt (x y : Fl K) (hx : PyNum.isNaN x = false) (hy : PyNum.isNaN y = false)
    (h : (y <. x) = false) : (x ≤. y) = true := by
  cases x <;> cases y <;> simp_all [ple_def, Fl.le, PyNum.lt, Fl.lt]

theorem ple_of_plt (x y : Fl K) (h : (x <. y) = true) : (x ≤. y) = true := by
  cases x <;> cases y <;> simp_all [ple_def, Fl.le, PyNum.lt, Fl.lt]
  exact h.le

theorem ple_trans' (x y z : Fl K) (h : (x ≤. y) = true) (h' : (y ≤. z) = true) : (x ≤. z) = true := by
  cases x <;> cases y <;> cases z <;> simp_all [ple_def, Fl.le]
  exact h.trans h'

theorem foldl_min_spec (t : List (Fl K)) (x : Fl K) (hx : PyNum.isNaN x = false)
    (ht : ∀ y ∈ t, PyNum.isNaN y = false) :
    (t.foldl (fun m y => if y <. m then y else m) x ∈ x :: t) ∧
    ∀ y ∈ x :: t, ((t.foldl (fun m y => if y <. m then y else m) x) ≤. y) = true := by
  induction t generalizing x with
  | nil => simp [ple_refl_of_not_nan x hx]
  | cons a t ih =>
    have ha := ht a (by simp)
    have hb : PyNum.isNaN (if a <. x then a else x) = false := by split <;> assumption
    obtain ⟨h1, h2⟩ := ih (if a <. x then a else x) hb (fun y hy => ht y (by simp [hy]))
    simp only [List.foldl_cons]
    constructor
    · rcases List.mem_cons.mp h1 with h | h
      · rw [h]; split <;> simp
      · simp [h]
    · intro y hy
      rcases List.mem_cons.mp hy with rfl | hy
      · refine ple_trans' _ _ _ (h2 _ List.mem_cons_self) ?_
        split
        · rename_i h; exact ple_of_plt _ _ h
        · exact ple_refl_of_not_nan _ hx
      · rcases List.mem_cons.mp hy with rfl | hy
        · refine ple_trans' _ _ _ (h2 _ List.mem_cons_self) ?_
          split
          · exact ple_refl_of_not_nan _ ha
          · rename_i h; exact ple_of_not_plt _ _ hx ha (by simpa using h)
        · exact h2 y (by simp [hy])

theorem foldl_max_spec (t : List (Fl K)) (x : Fl K) (hx : PyNum.isNaN x = false)
    (ht : ∀ y ∈ t, PyNum.isNaN y = false) :
    (t.foldl (fun m y => if m <. y then y else m) x ∈ x :: t) ∧
    ∀ y ∈ x :: t, (y ≤. (t.foldl (fun m y => if m <. y then y else m) x)) = true := by
  induction t generalizing x with
  | nil => simp [ple_refl_of_not_nan x hx]
  | cons a t ih =>
    have ha := ht a (by simp)
    have hb : PyNum.isNaN (if x <. a then a else x) = false := by split <;> assumption
    obtain ⟨h1, h2⟩ := ih (if x <. a then a else x) hb (fun y hy => ht y (by simp [hy]))
    simp only [List.foldl_cons]
    constructor
    · rcases List.mem_cons.mp h1 with h | h
      · rw [h]; split <;> simp
      · simp [h]
    · intro y hy
      rcases List.mem_cons.mp hy with rfl | hy
      · refine ple_trans' _ _ _ ?_ (h2 _ List.mem_cons_self)
        split
        · rename_i h; exact ple_of_plt _ _ h
        · exact ple_refl_of_not_nan _ hx
      · rcases List.mem_cons.mp hy with rfl | hy
        · refine ple_trans' _ _ _ ?_ (h2 _ List.mem_cons_self)
          split
          · exact ple_refl_of_not_nan _ ha
          · rename_i h; exact ple_of_not_plt _ _ ha hx (by simpa using h)
        · exact h2 y (by simp [hy])

section
variable [IsStrictOrderedRing K]

theorem npMean_fins' (xs : List K) (h : xs ≠ []) : npMean (fins xs) = fin (Spec.avg xs) := npMean_fins xs h

theorem meanOf_fins (xs : List K) (h : xs ≠ []) : meanOf (fins xs) = .ok (fin (Spec.avg xs)) := by
  rw [meanOf_eq _ (by simpa using h), npMean_fins' xs h]

theorem npVar_fins (xs : List K) (h : xs ≠ []) : npVar (fins xs) = fin (Spec.var xs) := by
  unfold npVar
  rw [npMean_fins' xs h]
  have : (fins xs).map (fun x => (x -. fin (Spec.avg xs)) *. (x -. fin (Spec.avg xs))) =
      fins (xs.map (fun x => (x - Spec.avg xs) ^ 2)) := by
    simp [fins, pow_two]
  simp only [this, psum_fin, ofNat_eq, fins, List.length_map]
  rw [pdiv_fin (by simpa using h)]
  simp [Spec.var, Spec.cmoment, Spec.avg]

end

theorem npStd_fins (xs : List ℝ) (h : xs ≠ []) : npStd (fins xs) = fin (√(Spec.var xs)) := by
  unfold npStd
  have := npVar_fins xs h
  rw [show npVar (fins xs) = fin (Spec.var xs) from this]
  exact psqrt_fin (Spec.var_nonneg xs)

open Spread in
theorem std_eq {F : Type} [PyMath F] (b : Bool) (xs : List F) (h : xs ≠ []) :
    std (⟨1, b, xs⟩ : Arr F) = .ok (npStd xs) := by
  have := filterMap_val_numItems xs
  simp only [numItems] at this
  simp [std, stdItems, h, this, Item.isStr]

open Spread in
theorem std_fins (b : Bool) (xs : List ℝ) (h : xs ≠ []) :
    std (⟨1, b, fins xs⟩ : Arr (Fl ℝ)) = .ok (fin (√(Spec.var xs))) := by
  rw [std_eq b _ (by simpa using h), npStd_fins xs h]

end Proadv
