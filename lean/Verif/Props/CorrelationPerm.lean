import Verif.Props.Correlation

/-!
# C135: `velocity_correlation` does not see the order of the samples
-/

set_option linter.unusedSectionVars false

namespace Proadv.Props

open Proadv Fl Detect

theorem avg_perm {xs ys : List ℝ} (h : xs.Perm ys) : Spec.avg xs = Spec.avg ys := by
  unfold Spec.avg; rw [h.sum_eq, h.length_eq]

theorem var_perm {xs ys : List ℝ} (h : xs.Perm ys) : Spec.var xs = Spec.var ys := by
  unfold Spec.var Spec.cmoment
  rw [avg_perm h]
  exact avg_perm (h.map _)

theorem cov_perm {α : Type} (f g : α → ℝ) {S T : List α} (h : S.Perm T) :
    Spec.cov (S.map f) (S.map g) = Spec.cov (T.map f) (T.map g) := by
  unfold Spec.cov
  rw [avg_perm (h.map f), avg_perm (h.map g), List.zipWith_map, List.zipWith_map, List.zipWith_self, List.zipWith_self]
  exact avg_perm (h.map _)

theorem pairOk_perm {α : Type} (f g : α → ℝ) {S T : List α} (h : S.Perm T) :
    PairOk (S.map f) (S.map g) ↔ PairOk (T.map f) (T.map g) := by
  unfold PairOk
  rw [cov_perm f g h, var_perm (h.map f), var_perm (h.map g)]

theorem beyond_perm {α : Type} (f g : α → ℝ) {S T : List α} (h : S.Perm T) {i j : ℕ} {t : α} (hi : S[i]? = some t)
    (hj : T[j]? = some t) : Beyond (S.map f) (S.map g) i ↔ Beyond (T.map f) (T.map g) j := by
  unfold Beyond
  simp only [List.getElem?_map, hi, hj, Option.map_some, Option.some.injEq, List.length_map, cov_perm f g h,
    var_perm (h.map f), var_perm (h.map g), avg_perm (h.map f), avg_perm (h.map g), h.length_eq]

private theorem order_aux {α : Type} (f g k : α → ℝ) (S T : List α) (h : S.Perm T) :
    (∃ e, velocityCorrelation (fins (S.map f)) (fins (S.map g)) (fins (S.map k) : List (Fl ℝ)) = .error e ∧
      velocityCorrelation (fins (T.map f)) (fins (T.map g)) (fins (T.map k) : List (Fl ℝ)) = .error e) ∨
    ∃ r r', velocityCorrelation (fins (S.map f)) (fins (S.map g)) (fins (S.map k) : List (Fl ℝ)) = .ok r ∧
      velocityCorrelation (fins (T.map f)) (fins (T.map g)) (fins (T.map k) : List (Fl ℝ)) = .ok r' ∧
      ∀ i j t, S[i]? = some t → T[j]? = some t → (i ∈ r ↔ j ∈ r') := by
  have hl := h.length_eq
  rcases Nat.eq_zero_or_pos S.length with h0 | h0
  · have hS : S = [] := List.length_eq_zero_iff.mp h0
    have hT : T = [] := List.length_eq_zero_iff.mp (by omega)
    subst hS hT
    exact Or.inl ⟨.typeError, C68_empty (F := Fl ℝ) [] [], C68_empty (F := Fl ℝ) [] []⟩
  have hSl : ∀ q : α → ℝ, (S.map q).length = S.length := fun q => List.length_map q
  have hTl : ∀ q : α → ℝ, (T.map q).length = S.length := fun q => by rw [List.length_map, hl]
  rcases Nat.lt_or_ge S.length 3 with h3 | h3
  · refine Or.inr ⟨[], [], ?_, ?_, fun i j t _ _ => Iff.rfl.trans (by simp)⟩
    · exact C67_small _ _ _ (by rw [hSl]; omega) (by rw [hSl]; omega) (by rw [hSl, hSl]) (by rw [hSl, hSl])
    · exact C67_small _ _ _ (by rw [hTl]; omega) (by rw [hTl]; omega) (by rw [hTl, hTl]) (by rw [hTl, hTl])
  have hiff := and_congr (pairOk_perm f g h) (and_congr (pairOk_perm f k h) (pairOk_perm g k h))
  by_cases hok : PairOk (S.map f) (S.map g) ∧ PairOk (S.map f) (S.map k) ∧ PairOk (S.map g) (S.map k)
  · have hok' := hiff.mp hok
    obtain ⟨r, hr, -, hm⟩ := C104_flagged (S.map f) (S.map g) (S.map k) (by rw [hSl]; exact h3)
      (by rw [hSl, hSl]) (by rw [hSl, hSl]) hok.1 hok.2.1 hok.2.2
    obtain ⟨r', hr', -, hm'⟩ := C104_flagged (T.map f) (T.map g) (T.map k) (by rw [hTl]; exact h3)
      (by rw [hTl, hTl]) (by rw [hTl, hTl]) hok'.1 hok'.2.1 hok'.2.2
    refine Or.inr ⟨r, r', hr, hr', ?_⟩
    intro i j t hi hj
    rw [hm, hm', beyond_perm f g h hi hj, beyond_perm f k h hi hj, beyond_perm g k h hi hj]
  · refine Or.inl ⟨.valueError, ?_, ?_⟩
    · exact (C104_success_iff _ _ _ (by rw [hSl]; exact h3) (by rw [hSl, hSl]) (by rw [hSl, hSl])).2 hok
    · exact (C104_success_iff _ _ _ (by rw [hTl]; exact h3) (by rw [hTl, hTl]) (by rw [hTl, hTl])).2
        (fun hh => hok (hiff.mpr hh))

/-- **C135** reordering the samples (the same way in all three components) reorders the flags: both calls raise the same
exception, or a sample is flagged in one series iff it is flagged in the other, wherever it stands.  With equal series:
equal samples get equal flags. -/
theorem C135_order (S T : List (ℝ × ℝ × ℝ)) (h : S.Perm T) :
    (∃ e, velocityCorrelation (fins (S.map (fun t => t.1))) (fins (S.map (fun t => t.2.1))) (fins (S.map (fun t => t.2.2)) : List (Fl ℝ)) = .error e ∧
      velocityCorrelation (fins (T.map (fun t => t.1))) (fins (T.map (fun t => t.2.1))) (fins (T.map (fun t => t.2.2)) : List (Fl ℝ)) = .error e) ∨
    ∃ r r', velocityCorrelation (fins (S.map (fun t => t.1))) (fins (S.map (fun t => t.2.1))) (fins (S.map (fun t => t.2.2)) : List (Fl ℝ)) = .ok r ∧
      velocityCorrelation (fins (T.map (fun t => t.1))) (fins (T.map (fun t => t.2.1))) (fins (T.map (fun t => t.2.2)) : List (Fl ℝ)) = .ok r' ∧
      ∀ i j t, S[i]? = some t → T[j]? = some t → (i ∈ r ↔ j ∈ r') :=
  order_aux _ _ _ S T h

/-- **C135** in particular time reversal mirrors the result. -/
theorem C135_reverse (S : List (ℝ × ℝ × ℝ)) (r : List ℕ)
    (h : velocityCorrelation (fins (S.map (fun t => t.1))) (fins (S.map (fun t => t.2.1))) (fins (S.map (fun t => t.2.2)) : List (Fl ℝ)) = .ok r) :
    ∃ r', velocityCorrelation (fins (S.reverse.map (fun t => t.1))) (fins (S.reverse.map (fun t => t.2.1)))
        (fins (S.reverse.map (fun t => t.2.2)) : List (Fl ℝ)) = .ok r' ∧
      ∀ i, i < S.length → (i ∈ r' ↔ S.length - 1 - i ∈ r) := by
  rcases C135_order S S.reverse (List.reverse_perm S).symm with ⟨e, he, -⟩ | ⟨r1, r', h1, h2, h3⟩
  · rw [h] at he; cases he
  · rw [h] at h1
    obtain rfl := Except.ok.inj h1
    refine ⟨r', h2, fun i hi => ?_⟩
    have hi' : S.length - 1 - i < S.length := by omega
    refine (h3 (S.length - 1 - i) i _ (List.getElem?_eq_getElem hi') ?_).symm
    rw [List.getElem?_reverse hi, List.getElem?_eq_getElem hi']

/-- a configuration on which the calls succeed, so the second alternative is the one that holds -/
example : ∃ r r', velocityCorrelation (fins [1, -1, 0, 0, 0, 0]) (fins [0, 0, 1, -1, 0, 0])
      (fins [(0 : ℝ), 0, 0, 0, 1, -1] : List (Fl ℝ)) = .ok r ∧
    velocityCorrelation (fins [0, 0, 0, 0, -1, 1]) (fins [0, 0, -1, 1, 0, 0])
      (fins [(-1 : ℝ), 1, 0, 0, 0, 0] : List (Fl ℝ)) = .ok r' ∧
    ∀ i, i < 6 → (i ∈ r' ↔ 5 - i ∈ r) := by
  obtain ⟨r, hr⟩ := (C104_success_iff [1, -1, 0, 0, 0, 0] [0, 0, 1, -1, 0, 0] [0, 0, 0, 0, 1, -1] (by simp) (by simp)
    (by simp)).1.mpr (by norm_num [PairOk, Spec.var, Spec.cov, Spec.cmoment, Spec.avg])
  obtain ⟨r', hr', h⟩ := C135_reverse [(1, 0, 0), (-1, 0, 0), (0, 1, 0), (0, -1, 0), (0, 0, 1), (0, 0, -1)] r hr
  exact ⟨r, r', hr, hr', h⟩

end Proadv.Props
