import Verif.Props.Descriptive

/-!
# C123: `mean` of a string argument

The docstring promises the message "Invalid input." for invalid input.  A string never produces it.
-/

namespace Proadv.Props

open Proadv Proadv.Descriptive Fl

set_option linter.unusedSectionVars false

/-- the numbers that the leading characters stand for, up to the first character that `float` rejects -/
def leadingNumbers {F : Type} (parse : String → Option F) : List String → List F
  | [] => []
  | c :: t => match parse c with
    | some v => v :: leadingNumbers parse t
    | none => []

section
variable {F : Type} [PyNum F]

private theorem mean_text_seq (parse : String → Option F) (chars : List String) (h : chars ≠ []) :
    mean parse (.text chars) = mean parse (.seq (chars.map Item.str)) := by
  obtain ⟨c, t, rfl⟩ := List.exists_cons_of_ne_nil h
  simp [mean, Item.isPyNum]

private theorem kept_text (parse : String → Option F) (chars : List String) :
    keptValues parse (chars.map Item.str) = leadingNumbers parse chars := by
  have key : ∀ l : List String, (l.map Item.str).any (badStr parse) = false →
      intendedValues parse (l.map Item.str) = leadingNumbers parse l := by
    intro l
    induction l with
    | nil => simp [intendedValues, leadingNumbers]
    | cons c t ih =>
      intro h
      cases hc : parse c with
      | none => simp [badStr, hc] at h
      | some v =>
        have ht : (t.map Item.str).any (badStr parse) = false := by
          simp only [List.map_cons, List.any_cons, Bool.or_eq_false_iff] at h
          exact h.2
        have := ih ht
        simp only [intendedValues, leadingNumbers, hc, List.map_cons] at this ⊢
        rw [List.filterMap_cons]
        simp only [hc, this]
  unfold keptValues
  split
  · rename_i hb
    clear hb
    induction chars with
    | nil => simp [leadingNumbers]
    | cons c t ih =>
      cases hc : parse c with
      | none =>
        simp only [List.map_cons, List.takeWhile_cons, List.dropWhile_cons, badStr, hc, leadingNumbers]
        simp
      | some v =>
        simp only [List.map_cons, List.takeWhile_cons, List.dropWhile_cons, badStr, hc, leadingNumbers]
        simp [hc] at ih ⊢
        exact ih
  · rename_i hb
    exact key chars (by simpa using hb)

/-- **C123** `mean` of a non-empty string is the average of the numbers its leading characters stand for, up to the first
character that is not a number by itself: the string is read character by character, and the rest of it is dropped. -/
theorem C123_text (parse : String → Option F) (chars : List String) (h : chars ≠ []) :
    mean parse (.text chars) =
      .ok (.val (PyNum.sum (leadingNumbers parse chars) /. ofNat (leadingNumbers parse chars).length)) := by
  rw [mean_text_seq parse chars h, C03_mean_exact parse _ (by simpa using h), kept_text]

/-- **C123** the empty string raises TypeError; no string yields the documented message. -/
theorem C123_never_invalid (parse : String → Option F) (chars : List String) :
    mean parse (.text []) = .error .typeError ∧ mean parse (.text chars) ≠ .ok .invalid := by
  refine ⟨rfl, ?_⟩
  by_cases h : chars = []
  · subst h; simp [mean]
  · rw [C123_text parse chars h]; simp

end

/-- **C123** in exact arithmetic: a string whose first character is not a number has mean NaN; otherwise the mean is the
average of the leading numbers. -/
theorem C123_values (parse : String → Option (Fl ℚ)) (c : String) (t : List String) :
    (parse c = none → mean parse (.text (c :: t)) = .ok (.val nan)) ∧
    (∀ (vs : List ℚ) (rest : List String), parse c ≠ none → c :: t = (c :: t).take vs.length ++ rest →
      ((c :: t).take vs.length).map parse = vs.map (fun v => some (fin v)) →
      (∀ d, rest.head? = some d → parse d = none) → mean parse (.text (c :: t)) = .ok (.val (fin (vs.sum / vs.length)))) := by
  constructor
  · intro h
    rw [C123_text parse _ (by simp)]
    simp only [leadingNumbers, h]
    decide +kernel
  · intro vs rest hc hsplit hvals hrest
    rw [C123_text parse _ (by simp)]
    have gen : ∀ (l : List String) (ws : List ℚ), l.map parse = ws.map (fun v => some (fin v)) →
        leadingNumbers parse (l ++ rest) = fins ws := by
      intro l
      induction l with
      | nil =>
        intro ws hw
        have : ws = [] := by simpa using hw.symm
        subst this
        cases rest with
        | nil => rfl
        | cons d r => simp [leadingNumbers, hrest d rfl, fins]
      | cons a l ih =>
        intro ws hw
        cases ws with
        | nil => simp at hw
        | cons v ws =>
          simp only [List.map_cons, List.cons.injEq] at hw
          simp only [List.cons_append, leadingNumbers, hw.1, ih ws hw.2]
          rfl
    have hne : vs ≠ [] := by
      rintro rfl
      simp only [List.length_nil, List.take_zero, List.nil_append] at hsplit
      exact hc (hrest c (by rw [← hsplit]; rfl))
    have hl : (vs.length : ℚ) ≠ 0 := by
      simpa using hne
    rw [hsplit, gen _ vs hvals]
    simp only [fins, List.length_map]
    rw [show List.map Fl.fin vs = fins vs from rfl, psum_fin, ofNat_eq, pdiv_fin hl]

/-- the conversion of single characters by Python's `float`, on the characters used below -/
private def digit : String → Option (Fl ℚ)
  | "1" => some (fin 1) | "2" => some (fin 2) | "5" => some (fin 5) | _ => none

/-- `mean("12")` is 1.5, `mean("1.5")` is 1, `mean("abc")` is NaN -/
example : mean digit (.text ["1", "2"]) = .ok (.val (fin (3 / 2))) ∧ mean digit (.text ["1", ".", "5"]) = .ok (.val (fin 1)) ∧
    mean digit (.text ["a", "b", "c"]) = .ok (.val nan) := by decide +kernel

/-- the hypotheses of the second part of `C123_values` hold for "1.5" -/
example : mean digit (.text ["1", ".", "5"]) = .ok (.val (fin (([1] : List ℚ).sum / ([1] : List ℚ).length))) :=
  (C123_values digit "1" [".", "5"]).2 [1] [".", "5"] (by decide +kernel) rfl (by decide +kernel)
    (fun d hd => by cases hd; decide +kernel)

end Proadv.Props
