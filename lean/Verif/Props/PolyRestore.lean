import Verif.Props.Cubic
import Mathlib.Algebra.Polynomial.Roots
import Mathlib.Analysis.InnerProductSpace.Projection.Basic
import Mathlib.Analysis.InnerProductSpace.PiL2
import Mathlib.Algebra.Polynomial.Degree.SmallDegree
import Mathlib.RingTheory.Polynomial.DegreeLT

/-!
# C125: `polynomial_replacement` restores a polynomial trend

Here the predictor is not arbitrary: `_create_model` fits a polynomial of the given degree by least squares.
-/

set_option linter.unusedSectionVars false

namespace Proadv.Props

open Proadv Replace Fl Polynomial

noncomputable section

/-- sum of the squared residuals of `q` on the samples `y` at the abscissae `lo, lo + 1, …` -/
def residual (q : ℝ[X]) (y : List ℝ) (lo : Int) : ℝ :=
  (y.mapIdx (fun k v => (q.eval ((lo : ℝ) + k) - v) ^ 2)).sum

/-- What the theorems need of `_create_model` — replacements.py:367-390: ordinary least squares on the features
`1, x, …, x^degree`; the prediction for the index `i` after the samples is the value at `i` of *some* minimiser.  The model
`createModel` of `_create_model` satisfies it (`C204_least_squares`). -/
def LeastSquares (degree : Nat) (predict : List (Fl ℝ) → Int → Int → Py (Fl ℝ)) : Prop :=
  ∀ (y : List ℝ) (lo i : Int), y ≠ [] → i = lo + y.length → ∃ q : ℝ[X], q.natDegree ≤ degree ∧
    (∀ p : ℝ[X], p.natDegree ≤ degree → residual q y lo ≤ residual p y lo) ∧
    predict (fins y) lo i = .ok (fin (q.eval (i : ℝ)))

theorem residual_nonneg (q : ℝ[X]) (y : List ℝ) (lo : Int) : 0 ≤ residual q y lo := by
  unfold residual
  apply List.sum_nonneg
  intro x hx
  rw [List.mem_mapIdx] at hx
  obtain ⟨i, h, rfl⟩ := hx
  positivity

theorem residual_zero {q : ℝ[X]} {y : List ℝ} {lo : Int} (h : residual q y lo ≤ 0) :
    ∀ (k : Nat) (v : ℝ), y[k]? = some v → q.eval ((lo : ℝ) + k) = v := by
  intro k v hk
  unfold residual at h
  obtain ⟨hlt, rfl⟩ := List.getElem?_eq_some_iff.mp hk
  have hmem : (q.eval ((lo : ℝ) + k) - y[k]) ^ 2 ∈ y.mapIdx (fun k v => (q.eval ((lo : ℝ) + k) - v) ^ 2) :=
    List.mem_mapIdx.mpr ⟨k, hlt, rfl⟩
  have hnn : ∀ x ∈ y.mapIdx (fun k v => (q.eval ((lo : ℝ) + k) - v) ^ 2), 0 ≤ x := by
    intro x hx
    rw [List.mem_mapIdx] at hx
    obtain ⟨i, h, rfl⟩ := hx
    positivity
  have := List.single_le_sum hnn _ hmem
  have h0 : (q.eval ((lo : ℝ) + k) - y[k]) ^ 2 = 0 := le_antisymm (this.trans h) (by positivity)
  exact sub_eq_zero.mp (by simpa using h0)

/-- a least-squares fit to more than `degree` samples of a polynomial of that degree is that polynomial -/
theorem fit_exact {d : Nat} {P q : ℝ[X]} (hP : P.natDegree ≤ d) (hq : q.natDegree ≤ d) {m : Nat} (hm : d < m) {lo : Int}
    (hmin : ∀ p : ℝ[X], p.natDegree ≤ d →
      residual q ((List.range m).map (fun k => P.eval ((lo : ℝ) + (k : ℕ)))) lo ≤
        residual p ((List.range m).map (fun k => P.eval ((lo : ℝ) + (k : ℕ)))) lo) : q = P := by
  have hz : residual P ((List.range m).map (fun k => P.eval ((lo : ℝ) + (k : ℕ)))) lo = 0 := by
    unfold residual
    apply List.sum_eq_zero
    intro x hx
    rw [List.mem_mapIdx] at hx
    obtain ⟨i, h, rfl⟩ := hx
    simp
  have h0 := residual_zero (hz ▸ hmin P hP)
  have : q - P = 0 := by
    apply eq_zero_of_natDegree_lt_card_of_eval_eq_zero' (q - P)
      ((Finset.range m).image (fun k : ℕ => (lo : ℝ) + k))
    · intro x hx
      obtain ⟨k, hk, rfl⟩ := Finset.mem_image.mp hx
      have hk' : k < m := Finset.mem_range.mp hk
      rw [eval_sub, h0 k (P.eval ((lo : ℝ) + k)) (by rw [List.getElem?_map, List.getElem?_range hk']; rfl), sub_self]
    · rw [Finset.card_image_of_injective _ (fun a b h => by simpa using h), Finset.card_range]
      exact lt_of_le_of_lt (natDegree_sub_le q P) (by omega)
  exact sub_eq_zero.mp this

/-- the window `lo … j-1` of an array that agrees with `P` below `j` -/
theorem slice_poly {P : ℝ[X]} {data : List (Fl ℝ)} {j lo : Nat} (hj : j ≤ data.length) (hlo : lo ≤ j)
    (h : ∀ k, k < j → data[k]? = some (fin (P.eval (k : ℝ)))) :
    pySlice data (lo : Int) (j : Int) = fins ((List.range (j - lo)).map (fun k => P.eval (((lo : Int) : ℝ) + (k : ℕ)))) := by
  unfold pySlice Proadv.slice
  rw [sliceBound_nat, sliceBound_nat, Nat.min_eq_left hj, Nat.min_eq_left (hlo.trans hj)]
  apply List.ext_getElem?
  intro k
  rw [List.getElem?_drop, List.getElem?_take]
  unfold fins
  rw [List.getElem?_map, List.getElem?_map]
  by_cases hk : lo + k < j
  · rw [if_pos hk, h _ hk, List.getElem?_range (by omega)]
    simp
  · rw [if_neg hk, List.getElem?_eq_none (by simp; omega)]
    rfl

/-- **C125** A signal that follows a polynomial of degree at most `degree` outside its spikes is restored exactly (up to the
final rounding) by `polynomial_replacement`, whatever the spike values (NaN included): spikes strictly increasing, not a
single one, none before index 11, and fewer coefficients than samples in every fit. -/
theorem C125_restore (degree : Nat) (predict : List (Fl ℝ) → Int → Int → Py (Fl ℝ)) (hls : LeastSquares degree predict)
    (P : ℝ[X]) (hP : P.natDegree ≤ degree) (v : Arr (Fl ℝ)) (hf : v.isInt = false) (sp : List Nat)
    (hs : sp.Pairwise (· < ·)) (h1 : sp.length ≠ 1) (h11 : ∀ i ∈ sp, 11 ≤ i) (hin : ∀ i ∈ sp, i < v.data.length)
    (hgood : ∀ k, k < v.data.length → k ∉ sp → v.data[k]? = some (fin (P.eval (k : ℝ))))
    (window decimals : Int) (hd : ∀ i ∈ sp, degree < i) (hw : (degree : Int) < window) :
    polynomialReplacement predict v (sp.map (fun i : Nat => (i : Int))) window decimals =
      .ok ((List.range v.data.length).map (fun k => PyNum.around (fin (P.eval ((k : ℕ) : ℝ))) decimals)) := by
  have key : ∀ (allsp : List Int) (rest : List Nat) (st : PolyState (Fl ℝ)), rest.Pairwise (· < ·) →
      (∀ j ∈ rest, j ∈ sp) → st.arr.isInt = false → st.arr.data.length = v.data.length →
      (∀ k, k < v.data.length → k ∉ rest → st.arr.data[k]? = some (fin (P.eval (k : ℝ)))) →
      ∃ r, (rest.map (fun i : Nat => (i : Int))).foldlM (polyStep predict allsp window decimals) st = .ok r ∧
        r.arr.data = (List.range v.data.length).map (fun k => fin (P.eval ((k : ℕ) : ℝ))) := by
    intro allsp rest
    induction rest with
    | nil =>
      intro st _ _ _ hl hk
      refine ⟨st, rfl, ?_⟩
      apply List.ext_getElem?
      intro k
      by_cases hlt : k < v.data.length
      · rw [hk k hlt (by simp), List.getElem?_map, List.getElem?_range hlt]; rfl
      · rw [List.getElem?_eq_none (by omega), List.getElem?_eq_none (by simp; omega)]
    | cons j t ih =>
      intro st hsr hmem hint hl hk
      obtain ⟨p1, p2⟩ := List.pairwise_cons.mp hsr
      have hj11 := h11 j (hmem j (by simp))
      have hjn := hin j (hmem j (by simp))
      have hdj := hd j (hmem j (by simp))
      have hbelow : ∀ k, k < j → st.arr.data[k]? = some (fin (P.eval (k : ℝ))) := by
        intro k hkj
        refine hk k (by omega) ?_
        intro hc
        rcases List.mem_cons.mp hc with h | h
        · omega
        · have := p1 k h; omega
      have hpred : ∀ lo : Nat, lo ≤ j → degree < j - lo →
          predict (pySlice st.arr.data (lo : Int) (j : Int)) (lo : Int) (j : Int) = .ok (fin (P.eval (j : ℝ))) := by
        intro lo hlo hdl
        rw [slice_poly (by omega) hlo hbelow]
        obtain ⟨q, hq1, hq2, hq3⟩ := hls ((List.range (j - lo)).map (fun k => P.eval (((lo : Int) : ℝ) + (k : ℕ)))) lo j
          (by simp; omega) (by simp; omega)
        rw [hq3, fit_exact hP hq1 hdl hq2]
        simp
      have hset : setIdx st.arr.data (j : Int) (store st.arr.isInt (fin (P.eval (j : ℝ)))) =
          .ok (st.arr.data.set j (fin (P.eval (j : ℝ)))) := by
        rw [hint]
        exact setIdx_ok.mpr ⟨j, pyIdx_nat (by omega), rfl⟩
      have hstep : polyStep predict allsp window decimals st (j : Int) =
          .ok { st with arr := { st.arr with data := st.arr.data.set j (fin (P.eval (j : ℝ))) } } := by
        unfold polyStep
        rw [if_neg (by omega), if_neg (by omega)]
        by_cases hc : (11 : Int) ≤ j ∧ (j : Int) ≤ window - 1
        · rw [if_pos hc]
          have := hpred 0 (by omega) (by omega)
          simp only [Nat.cast_zero] at this
          simp only [bind, Except.bind, this, hset]
        · rw [if_neg hc]
          have hwj : window ≤ j := by omega
          have hlo : ((j : Int) - window) = ((((j : Int) - window).toNat : Nat) : Int) := by omega
          have := hpred ((j : Int) - window).toNat (by omega) (by omega)
          rw [← hlo] at this
          simp only [bind, Except.bind, this, hset]
      obtain ⟨r, hr1, hr2⟩ := ih { st with arr := { st.arr with data := st.arr.data.set j (fin (P.eval (j : ℝ))) } } p2
        (fun k hk => hmem k (by simp [hk])) hint (by simpa using hl) (by
          intro k hkn hkt
          simp only
          by_cases hkj : k = j
          · subst hkj; rw [List.getElem?_set_self (by omega)]
          · rw [List.getElem?_set_ne (fun h => hkj h.symm)]
            exact hk k hkn (by simp [hkj, hkt]))
      exact ⟨r, by rw [List.map_cons]; exact foldlM_cons_ok.mpr ⟨_, hstep, hr1⟩, hr2⟩
  obtain ⟨r, hr1, hr2⟩ := key (sp.map (fun i : Nat => (i : Int))) sp ⟨v, true⟩ hs (fun _ h => h) hf rfl hgood
  unfold polynomialReplacement
  rw [if_neg (by simpa using h1), hr1]
  simp only [bind, Except.bind, hr2, List.map_map]
  rfl

/-! ## The hypotheses can be met -/

/-- evaluation of polynomials of degree `≤ d` at the abscissae of a window -/
def evalMap (d : Nat) (lo : Int) (n : Nat) : degreeLT ℝ (d + 1) →ₗ[ℝ] EuclideanSpace ℝ (Fin n) where
  toFun q := WithLp.toLp 2 (fun k : Fin n => (q : ℝ[X]).eval ((lo : ℝ) + (k : ℕ)))
  map_add' p q := by ext k; simp
  map_smul' c p := by ext k; simp

theorem residual_norm (d : Nat) (lo : Int) (y : List ℝ) (q : degreeLT ℝ (d + 1)) :
    residual (q : ℝ[X]) y lo = ‖WithLp.toLp 2 (fun k : Fin y.length => y[k]) - evalMap d lo y.length q‖ ^ 2 := by
  rw [EuclideanSpace.norm_sq_eq]
  unfold residual evalMap
  rw [← List.sum_ofFn]
  congr 1
  apply List.ext_getElem
  · simp
  · intro k h1 h2
    simp only [List.getElem_mapIdx, List.getElem_ofFn]
    simp only [LinearMap.coe_mk, AddHom.coe_mk, PiLp.sub_apply, Real.norm_eq_abs, sq_abs, Fin.getElem_fin]
    ring

theorem exists_fit (d : Nat) (y : List ℝ) (lo : Int) : ∃ q : ℝ[X], q.natDegree ≤ d ∧
    ∀ p : ℝ[X], p.natDegree ≤ d → residual q y lo ≤ residual p y lo := by
  set U := LinearMap.range (evalMap d lo y.length) with hU
  set Y : EuclideanSpace ℝ (Fin y.length) := WithLp.toLp 2 (fun k : Fin y.length => y[k]) with hY
  have hmem : U.starProjection Y ∈ U := Submodule.starProjection_apply_mem U Y
  obtain ⟨q, hq⟩ := LinearMap.mem_range.mp hmem
  have hdeg : ∀ p : ℝ[X], p.natDegree ≤ d ↔ p ∈ degreeLT ℝ (d + 1) := by
    intro p
    rw [mem_degreeLT]
    constructor
    · intro h
      exact lt_of_le_of_lt degree_le_natDegree (by exact_mod_cast Nat.lt_succ_of_le h)
    · intro h
      by_cases hp : p = 0
      · simp [hp]
      · rw [degree_eq_natDegree hp] at h
        exact Nat.lt_succ_iff.mp (by exact_mod_cast h)
  refine ⟨q, (hdeg _).mpr q.2, fun p hp => ?_⟩
  have h1 := residual_norm d lo y q
  have h2 := residual_norm d lo y ⟨p, (hdeg p).mp hp⟩
  rw [h1, h2, hq]
  have hmin := Submodule.starProjection_minimal (U := U) Y
  have hle : ‖Y - U.starProjection Y‖ ≤ ‖Y - evalMap d lo y.length ⟨p, (hdeg p).mp hp⟩‖ := by
    rw [hmin]
    exact ciInf_le ⟨0, by rintro _ ⟨x, rfl⟩; positivity⟩
      (⟨_, LinearMap.mem_range.mpr ⟨_, rfl⟩⟩ : U)
  exact pow_le_pow_left₀ (norm_nonneg _) hle 2

/-- **C125** there is a least-squares predictor for every degree, so the contract is satisfiable -/
theorem C125_contract (degree : Nat) : ∃ predict, LeastSquares degree predict := by
  classical
  refine ⟨fun z lo i => if h : ∃ y : List ℝ, z = fins y then .ok (fin ((exists_fit degree h.choose lo).choose.eval (i : ℝ)))
    else .error .valueError, ?_⟩
  intro y lo i _ _
  have h : ∃ y' : List ℝ, fins y = fins y' := ⟨y, rfl⟩
  have hy : h.choose = y := by
    have := h.choose_spec
    have hinj : Function.Injective (Fl.fin : ℝ → Fl ℝ) := fun a b h => by cases h; rfl
    exact (List.map_injective_iff.mpr hinj this).symm
  refine ⟨(exists_fit degree h.choose lo).choose, (exists_fit degree h.choose lo).choose_spec.1, ?_, ?_⟩
  · have := (exists_fit degree h.choose lo).choose_spec.2
    rw [hy] at this ⊢
    exact this
  · simp only
    rw [dif_pos h]

/-- a parabola of 40 samples with two spikes next to each other is restored -/
example (predict : List (Fl ℝ) → Int → Int → Py (Fl ℝ)) (hls : LeastSquares 2 predict) :
    polynomialReplacement predict
      ⟨1, false, (List.range 40).map (fun k : ℕ => if k = 20 ∨ k = 21 then nan else fin ((k : ℝ) ^ 2))⟩ [20, 21] 10 4 =
      .ok ((List.range 40).map (fun k => PyNum.around (fin (((k : ℕ) : ℝ) ^ 2)) 4)) := by
  have h := C125_restore 2 predict hls (X ^ 2) (by simp) ⟨1, false, (List.range 40).map
    (fun k : ℕ => if k = 20 ∨ k = 21 then nan else fin ((k : ℝ) ^ 2))⟩ rfl [20, 21] (by simp) (by simp) (by simp) (by simp)
    (by
      intro k hk hn
      simp only [List.length_map, List.length_range] at hk
      simp only [List.mem_cons, List.not_mem_nil, or_false] at hn
      rw [List.getElem?_map, List.getElem?_range hk]
      simp [hn]) 10 4 (by simp) (by norm_num)
  simpa using h

end

end Proadv.Props
