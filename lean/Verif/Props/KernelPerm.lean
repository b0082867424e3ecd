import Verif.Props.Kde5
import Verif.Props.CorrelationPerm

/-!
# C224: the trivariate `kernel` does not see the order of the samples
-/

set_option linter.unusedSectionVars false

namespace Proadv.Props

open Proadv Fl Detect KernelDetect Spread

theorem scov_perm {α : Type} (f g : α → ℝ) {S T : List α} (h : S.Perm T) :
    Spec.scov (S.map f) (S.map g) = Spec.scov (T.map f) (T.map g) := by
  unfold Spec.scov Spec.dot Spec.dev
  rw [avg_perm (h.map f), avg_perm (h.map g), List.length_map, List.length_map, h.length_eq]
  simp only [List.map_map, List.zipWith_map, List.zipWith_self]
  rw [(h.map _).sum_eq]

theorem kdeAt_perm (a b c : ℝ) {P Q : List (ℝ × ℝ)} (h : P.Perm Q) (x y : ℝ) : Spec.kdeAt a b c P x y = Spec.kdeAt a b c Q x y := by
  unfold Spec.kdeAt
  rw [(h.map _).sum_eq, h.length_eq]

/-- the grid density of reordered points -/
theorem kdeGrid_perm {P Q : List (ℝ × ℝ)} (h : P.Perm Q) (hn : 2 ≤ P.length) (uf wf : List ℝ) (g : Nat) (hu : uf.length = g)
    (hw : wf.length = g) :
    kdeGrid chol2 g (finPts P) (fins uf) (fins wf) = (kdeGrid chol2 g (finPts Q) (fins uf) (fins wf) : Py (List (List (Fl ℝ)))) := by
  have A := C116_density P hn uf wf g hu hw _ _ _ _ rfl rfl rfl rfl
  have B := C116_density Q (by rw [← h.length_eq]; exact hn) uf wf g hu hw _ _ _ _ rfl rfl rfl rfl
  rw [scov_perm _ _ h, scov_perm _ _ h, scov_perm _ _ h, h.length_eq] at A
  by_cases hpd : 0 < Spec.scov (Q.map Prod.fst) (Q.map Prod.fst) ∧
      0 < Spec.scov (Q.map Prod.fst) (Q.map Prod.fst) * Spec.scov (Q.map Prod.snd) (Q.map Prod.snd) -
        Spec.scov (Q.map Prod.fst) (Q.map Prod.snd) ^ 2
  · rw [A.1 hpd, B.1 hpd]
    simp only [kdeAt_perm _ _ _ h]
  · rw [A.2 hpd, B.2 hpd]

/-- the rotation of one sample -/
noncomputable def rotPt (θ : ℝ) (p : ℝ × ℝ) : ℝ × ℝ := (p.1 * Real.cos θ + p.2 * Real.sin θ, -p.1 * Real.sin θ + p.2 * Real.cos θ)

theorem rotR_map (S : List (ℝ × ℝ)) : rotR (S.map Prod.fst) (S.map Prod.snd) =
    S.map (rotPt (Complex.arg ⟨Spec.var (S.map Prod.fst), Spec.cov (S.map Prod.fst) (S.map Prod.snd)⟩)) := by
  unfold rotR rotPt
  rw [List.zipWith_map, List.zipWith_self]

theorem kernelCutoffs_perm {S T : List (ℝ × ℝ)} (h : S.Perm T) (hne : S ≠ []) (g : Nat) (uf wf : List (Fl ℝ)) (pdf : List (List (Fl ℝ))) :
    kernelCutoffs (fins (S.map Prod.fst)) (fins (S.map Prod.snd)) g uf wf pdf =
      kernelCutoffs (fins (T.map Prod.fst)) (fins (T.map Prod.snd)) g uf wf pdf := by
  have hT : T ≠ [] := by rintro rfl; exact hne h.eq_nil
  have hs : ∀ f : ℝ × ℝ → ℝ, std (Arr.flt (fins (S.map f))) = (std (Arr.flt (fins (T.map f))) : Py (Fl ℝ)) := by
    intro f
    rw [show std (Arr.flt (fins (S.map f)) : Arr (Fl ℝ)) = _ from std_fins false _ (by simpa using hne),
      show std (Arr.flt (fins (T.map f)) : Arr (Fl ℝ)) = _ from std_fins false _ (by simpa using hT), var_perm (h.map f)]
  unfold kernelCutoffs
  rw [hs, hs]
  simp only [List.length_map, h.length_eq]

/-- **C224** reordering the pairs of samples reorders the flags: both calls raise the same exception, or a pair is flagged in
one series iff it is flagged in the other, wherever it stands.  With equal series: equal pairs get equal flags. -/
theorem C224_kernel (S T : List (ℝ × ℝ)) (h : S.Perm T) (g : Nat) :
    (∃ e, kernel (kdeGrid chol2 g) (fins (S.map Prod.fst)) (fins (S.map Prod.snd) : List (Fl ℝ)) g = .error e ∧
      kernel (kdeGrid chol2 g) (fins (T.map Prod.fst)) (fins (T.map Prod.snd) : List (Fl ℝ)) g = .error e) ∨
    ∃ r r', kernel (kdeGrid chol2 g) (fins (S.map Prod.fst)) (fins (S.map Prod.snd) : List (Fl ℝ)) g = .ok r ∧
      kernel (kdeGrid chol2 g) (fins (T.map Prod.fst)) (fins (T.map Prod.snd) : List (Fl ℝ)) g = .ok r' ∧
      ∀ i j p, S[i]? = some p → T[j]? = some p → (i ∈ r ↔ j ∈ r') := by
  by_cases hg : g = 0
  · have he : S = [] ↔ T = [] := ⟨fun e => (e ▸ h).symm.eq_nil, fun e => (e ▸ h).eq_nil⟩
    left
    refine ⟨if S = [] then .valueError else .indexError, ?_, ?_⟩
    · rw [hg, C117_no_grid]; simp [fins]
    · rw [hg, C117_no_grid]; simp [fins, he]
  by_cases hn : S.length < 2
  · exact Or.inl ⟨.valueError, C117_too_short chol2 _ _ g hg (by simp) (by simpa using hn),
      C117_too_short chol2 _ _ g hg (by simp) (by simpa [← h.length_eq] using hn)⟩
  have hne : S ≠ [] := by rintro rfl; simp at hn
  have hneT : T ≠ [] := by rintro rfl; exact hne h.eq_nil
  obtain ⟨x0, x1, y0, y1, p1, p2, p3, p4⟩ := rot_extremes (S.map Prod.fst) (S.map Prod.snd) (by simp) (by simpa using hne)
  have hθ : (⟨Spec.var (S.map Prod.fst), Spec.cov (S.map Prod.fst) (S.map Prod.snd)⟩ : ℂ) =
      ⟨Spec.var (T.map Prod.fst), Spec.cov (T.map Prod.fst) (T.map Prod.snd)⟩ := by
    rw [var_perm (h.map _), cov_perm _ _ h]
  have eT := rotR_map T
  rw [← hθ] at eT
  have eS := rotR_map S
  generalize Complex.arg ⟨Spec.var (S.map Prod.fst), Spec.cov (S.map Prod.fst) (S.map Prod.snd)⟩ = θ at eS eT
  have hp : (rotR (S.map Prod.fst) (S.map Prod.snd)).Perm (rotR (T.map Prod.fst) (T.map Prod.snd)) := by
    rw [eS, eT]; exact h.map _
  have hf : ∀ f : ℝ × ℝ → ℝ, ∀ v, v ∈ (rotR (S.map Prod.fst) (S.map Prod.snd)).map f ↔ v ∈ (rotR (T.map Prod.fst) (T.map Prod.snd)).map f :=
    fun f v => (hp.map f).mem_iff
  rw [kernel_fins _ _ _ (by simp) (by simpa using hne) g hg x0 x1 y0 y1 p1 p2 p3 p4,
    kernel_fins _ (T.map Prod.fst) (T.map Prod.snd) (by simp) (by simpa using hneT) g hg x0 x1 y0 y1
      (by simpa only [hf] using p1) (by simpa only [hf] using p2) (by simpa only [hf] using p3) (by simpa only [hf] using p4)]
  obtain ⟨uf, lu, eu⟩ := gridAxis_all x0 x1 g
  obtain ⟨wf, lw, ew⟩ := gridAxis_all y0 y1 g
  rw [eu, ew, kdeGrid_perm hp (by rw [rotR_length _ _ (by simp), List.length_map]; omega) uf wf g lu lw]
  cases kdeGrid chol2 g (finPts (rotR (T.map Prod.fst) (T.map Prod.snd))) (fins uf) (fins wf) with
  | error e => exact Or.inl ⟨e, rfl, rfl⟩
  | ok pdf =>
    simp only [bind, Except.bind]
    rw [kernelCutoffs_perm h hne]
    cases kernelCutoffs (fins (T.map Prod.fst)) (fins (T.map Prod.snd)) g (fins uf) (fins wf) pdf with
    | error e => exact Or.inl ⟨e, rfl, rfl⟩
    | ok q =>
      obtain ⟨ul, uu, wl, wu⟩ := q
      refine Or.inr ⟨_, _, rfl, rfl, ?_⟩
      intro i j p hi hj
      rw [eS, eT]
      unfold outside
      rw [mem_whereTrue, mem_whereTrue]
      simp only [finPts, List.getElem?_map, hi, hj]

/-- **C224** in particular time reversal of both components mirrors the result. -/
theorem C224_reverse (S : List (ℝ × ℝ)) (g : Nat) (r : List ℕ)
    (h : kernel (kdeGrid chol2 g) (fins (S.map Prod.fst)) (fins (S.map Prod.snd) : List (Fl ℝ)) g = .ok r) :
    ∃ r', kernel (kdeGrid chol2 g) (fins (S.reverse.map Prod.fst)) (fins (S.reverse.map Prod.snd) : List (Fl ℝ)) g = .ok r' ∧
      ∀ i, i < S.length → (i ∈ r' ↔ S.length - 1 - i ∈ r) := by
  rcases C224_kernel S S.reverse (List.reverse_perm S).symm g with ⟨e, he, -⟩ | ⟨r1, r', h1, h2, h3⟩
  · rw [h] at he; cases he
  · rw [h] at h1
    obtain rfl := Except.ok.inj h1
    refine ⟨r', h2, fun i hi => ?_⟩
    have hi' : S.length - 1 - i < S.length := by omega
    refine (h3 (S.length - 1 - i) i _ (List.getElem?_eq_getElem hi') ?_).symm
    rw [List.getElem?_reverse hi, List.getElem?_eq_getElem hi']

/-- a recording on which both calls succeed -/
example : ∃ r r', kernel (kdeGrid chol2 64) (fins [0, 1, 0, 2]) (fins [(0 : ℝ), 0, 1, 5] : List (Fl ℝ)) 64 = .ok r ∧
    kernel (kdeGrid chol2 64) (fins [2, 0, 1, 0]) (fins [(5 : ℝ), 1, 0, 0] : List (Fl ℝ)) 64 = .ok r' ∧
    ∀ i, i < 4 → (i ∈ r' ↔ 3 - i ∈ r) := by
  obtain ⟨_, _, _, _, _, _, _, _, _, _, _, r, -, -, -, -, -, -, -, -, -, hr, -⟩ := C117_success [0, 1, 0, 2] [0, 0, 1, 5] rfl (by simp)
    (by norm_num [Spec.var, Spec.cov, Spec.cmoment, Spec.avg]) 64 (by norm_num)
  obtain ⟨r', hr', hi⟩ := C224_reverse [(0, 0), (1, 0), (0, 1), (2, 5)] 64 r hr
  exact ⟨r, r', hr, hr', hi⟩

end Proadv.Props
