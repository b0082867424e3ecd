import Verif.Py.RoundReal
import Verif.Props.RoundFluid
import Verif.Props.Underflow
import Verif.Props.Acceleration

/-!
# Property C237: `std` and `acceleration_thresholding` in rounded arithmetic

The model definitions are evaluated with rounding and gradual underflow (`Rd A` over the reals).  The standard deviation is a
non-negative number close to the true one; a sample is flagged exactly as in exact arithmetic unless it lies within an explicit
margin of one of the two thresholds.
-/

set_option linter.unusedSectionVars false

namespace Proadv.Props

open Proadv Descriptive Spread Detect

/-! ## Specification -/

/-- bound on the error of a computed variance (C234) -/
noncomputable def varErr (u η : ℝ) (xs : List ℝ) : ℝ :=
  ((1 + u) ^ (xs.length + 4) - 1) * Spec.var xs + (1 + u) ^ (xs.length + 4) * meanErr u η xs ^ 2 +
    ((1 + u) ^ (xs.length + 1) + 1) * η

/-- bound on the error of a computed standard deviation -/
noncomputable def stdErr (u η : ℝ) (xs : List ℝ) : ℝ := (1 + u) * √(varErr u η xs) + u * √(Spec.var xs) + η

/-- bound on the error of the computed velocity threshold `mean ± ks * std`, whose exact value is `t` -/
noncomputable def levelErr (u η ks : ℝ) (xs : List ℝ) (t : ℝ) : ℝ :=
  (1 + u) * (meanErr u η xs + ((1 + u) * (|ks| * stdErr u η xs) + u * |ks * √(Spec.var xs)| + η)) + u * |t|

/-- acceleration before sample `i`; 0 for the first sample -/
noncomputable def accAt (xs : List ℝ) (f : ℝ) (i : Nat) : ℝ := if i = 0 then 0 else (xs.getD i 0 - xs.getD (i - 1) 0) * f

/-- bound on the errors of a computed acceleration `a` and of the computed acceleration threshold `t` -/
noncomputable def accErr (u η a t : ℝ) : ℝ := ((1 + u) ^ 2 - 1) * |a| + η + (u * |t| + η)

/-! ## Standard deviation -/

private theorem npMean_d (A : Arith ℝ) (xs : List ℝ) (hne : xs ≠ []) (hn : A.rnd (xs.length : ℝ) = xs.length) :
    npMean (Rd.fins A xs) = Rd.fin A (A.rnd (A.sum xs / xs.length)) := by
  have h0 : (xs.length : ℝ) ≠ 0 := by exact_mod_cast (List.length_pos_of_ne_nil hne).ne'
  unfold npMean
  rw [Rd.sum_fins, List.length_map, Rd.ofNat_fin, hn, Rd.div_fin A h0]

private theorem npVar_d (A : Arith ℝ) (hs : KeepsSign A) (xs : List ℝ) (hne : xs ≠ []) (hn : A.rnd (xs.length : ℝ) = xs.length) :
    ∃ v, npVar (Rd.fins A xs) = Rd.fin A v ∧ 0 ≤ v := by
  have hpos : (0 : ℝ) < xs.length := by exact_mod_cast List.length_pos_of_ne_nil hne
  set m := A.rnd (A.sum xs / xs.length) with hm
  set Q := xs.map (fun x => A.rnd (A.rnd (x - m) * A.rnd (x - m))) with hQ
  refine ⟨A.rnd (A.sum Q / xs.length), ?_, ?_⟩
  · unfold npVar
    simp only
    rw [npMean_d A xs hne hn, List.map_map]
    have e : (xs.map ((fun x => (x -. Rd.fin A (A.rnd (A.sum xs / xs.length))) *.
        (x -. Rd.fin A (A.rnd (A.sum xs / xs.length)))) ∘ Rd.fin A)) = Rd.fins A Q := by
      rw [hQ, Rd.fins, List.map_map]
      apply List.map_congr_left
      intro x _
      show (Rd.fin A x -. _) *. _ = _
      rw [Rd.sub_fin, Rd.mul_fin]; rfl
    rw [e, Rd.sum_fins, List.length_map, Rd.ofNat_fin, hn, Rd.div_fin A hpos.ne']
  · apply hs.rnd
    apply div_nonneg _ hpos.le
    apply hs.sum
    intro q hq
    obtain ⟨x, -, rfl⟩ := List.mem_map.mp hq
    exact hs.rnd _ (mul_self_nonneg _)

private theorem sqrt_sub_le (a b e : ℝ) (ha : 0 ≤ a) (hb : 0 ≤ b) (h : |a - b| ≤ e) : |√a - √b| ≤ √e := by
  have he : 0 ≤ e := (abs_nonneg _).trans h
  rw [Real.le_sqrt (abs_nonneg _) he, sq_abs]
  refine le_trans ?_ h
  have h1 : a - b = (√a - √b) * (√a + √b) := by
    have h2 := Real.sq_sqrt ha; have h3 := Real.sq_sqrt hb; nlinarith
  have h2 : |√a - √b| ≤ √a + √b := by
    have := Real.sqrt_nonneg a; have := Real.sqrt_nonneg b
    rw [abs_le]; constructor <;> linarith
  rw [h1, abs_mul, abs_of_nonneg (add_nonneg (Real.sqrt_nonneg a) (Real.sqrt_nonneg b)), ← sq_abs, sq]
  exact mul_le_mul_of_nonneg_left h2 (abs_nonneg _)

private theorem sqrt_sub_le_div (a b e : ℝ) (ha : 0 ≤ a) (hb : 0 < b) (h : |a - b| ≤ e) : |√a - √b| ≤ e / √b := by
  have hp := Real.sqrt_pos.mpr hb
  rw [le_div_iff₀ hp]
  refine le_trans ?_ h
  have h1 : a - b = (√a - √b) * (√a + √b) := by
    have h2 := Real.sq_sqrt ha; have h3 := Real.sq_sqrt hb.le; nlinarith
  have h0 := Real.sqrt_nonneg a
  rw [h1, abs_mul, abs_of_nonneg (add_nonneg h0 hp.le)]
  exact mul_le_mul_of_nonneg_left (by linarith) (abs_nonneg _)

private theorem npStd_d (A : Arith ℝ) (u η : ℝ) (Rep : ℝ → Prop) (h : Gradual A u η Rep) (hs : KeepsSign A) (xs : List ℝ)
    (hne : xs ≠ []) (hrep : ∀ x ∈ xs, Rep x) (hn : A.rnd (xs.length : ℝ) = xs.length) :
    ∃ s, npStd (Rd.fins A xs) = Rd.fin A s ∧ 0 ≤ s ∧ |s - √(Spec.var xs)| ≤ stdErr u η xs ∧
      (0 < Spec.var xs → |s - √(Spec.var xs)| ≤
        (1 + u) * (varErr u η xs / √(Spec.var xs)) + u * √(Spec.var xs) + η) := by
  obtain ⟨v, hv, hv0⟩ := npVar_d A hs xs hne hn
  have hvar : |v - Spec.var xs| ≤ varErr u η xs := by
    obtain ⟨v', h1, h2⟩ := C234_variance A u η Rep h false xs hne hrep hn
    have h3 : variance ⟨1, false, numItems (Rd.fins A xs)⟩ = .ok (npVar (Rd.fins A xs)) := by
      have e : (numItems (Rd.fins A xs)).filterMap Item.val? = Rd.fins A xs := by
        simp [numItems, List.filterMap_map, Function.comp_def, Item.val?]
      have e' : (numItems (Rd.fins A xs)).any Item.isStr = false := by simp [numItems, Item.isStr]
      unfold variance
      simp only [e']
      rw [if_neg (by simp), if_neg (by simp), if_neg (by simpa [numItems] using hne), e]
    rw [h3, hv] at h1
    have h4 : Rd.fin A v = Rd.fin A v' := by injection h1
    have h5 : v = v' := by
      have : (Fl.fin v : Fl ℝ) = Fl.fin v' := h4
      injection this
    rw [h5]
    exact h2
  refine ⟨A.rnd (√v), ?_, hs.rnd _ (Real.sqrt_nonneg _), ?_, ?_⟩
  · unfold npStd
    have := Rd.sqrt_fin A hv0
    rw [← hv] at this
    exact this
  · have h1 := h.rnd_near (sqrt_sub_le v _ _ hv0 (Spec.var_nonneg xs) hvar)
    rwa [abs_of_nonneg (Real.sqrt_nonneg _)] at h1
  · intro hp
    have h1 := h.rnd_near (sqrt_sub_le_div v _ _ hv0 hp hvar)
    rwa [abs_of_nonneg (Real.sqrt_nonneg _)] at h1

/-- **C237** `std` of `n` representable numbers is a non-negative number, off by at most `√varErr` plus rounding; when the variance
is not 0 the first part is `varErr / σ`, so that the relative error of the deviation is that of the variance. -/
theorem C237_std (A : Arith ℝ) (u η : ℝ) (Rep : ℝ → Prop) (h : Gradual A u η Rep) (hs : KeepsSign A) (b : Bool) (xs : List ℝ)
    (hne : xs ≠ []) (hrep : ∀ x ∈ xs, Rep x) (hn : A.rnd (xs.length : ℝ) = xs.length) :
    ∃ s, std ⟨1, b, Rd.fins A xs⟩ = .ok (Rd.fin A s) ∧ 0 ≤ s ∧
      |s - √(Spec.var xs)| ≤ (1 + u) * √(varErr u η xs) + u * √(Spec.var xs) + η ∧
      (0 < Spec.var xs → |s - √(Spec.var xs)| ≤
        (1 + u) * (varErr u η xs / √(Spec.var xs)) + u * √(Spec.var xs) + η) := by
  obtain ⟨s, h1, h2, h3, h4⟩ := npStd_d A u η Rep h hs xs hne hrep hn
  exact ⟨s, by rw [std_eq b _ (by simpa using hne), h1], h2, h3, h4⟩

/-! ## Thresholds -/

private theorem decide_lt {a b t s e1 e2 : ℝ} (h1 : |a - t| ≤ e1) (h2 : |b - s| ≤ e2) (h : e1 + e2 < |t - s|) :
    (a < b ↔ t < s) := by
  have ha := abs_le.mp h1
  have hb := abs_le.mp h2
  rcases abs_cases (t - s) with ⟨h3, h4⟩ | ⟨h3, h4⟩ <;> rw [h3] at h
  · constructor <;> intro h5 <;> linarith
  · constructor <;> intro h5 <;> linarith

private theorem fins_get_d (A : Arith ℝ) (xs : List ℝ) (i : Nat) (z : Rd A) :
    (Rd.fins A xs)[i]? = some z ↔ ∃ x, xs[i]? = some x ∧ z = Rd.fin A x := by
  rw [List.getElem?_map, Option.map_eq_some_iff]
  constructor
  · rintro ⟨x, h, rfl⟩; exact ⟨x, h, rfl⟩
  · rintro ⟨x, h, rfl⟩; exact ⟨x, h, rfl⟩

private theorem level_d (A : Arith ℝ) (u η : ℝ) (Rep : ℝ → Prop) (h : Gradual A u η Rep) (hs : KeepsSign A) (xs : List ℝ)
    (hne : xs ≠ []) (hrep : ∀ x ∈ xs, Rep x) (hn : A.rnd (xs.length : ℝ) = xs.length) (ks : ℝ) :
    (∃ t, npMean (Rd.fins A xs) +. Rd.fin A ks *. npStd (Rd.fins A xs) = Rd.fin A t ∧
      |t - (Spec.avg xs + ks * √(Spec.var xs))| ≤ levelErr u η ks xs (Spec.avg xs + ks * √(Spec.var xs))) ∧
    (∃ t, npMean (Rd.fins A xs) -. Rd.fin A ks *. npStd (Rd.fins A xs) = Rd.fin A t ∧
      |t - (Spec.avg xs - ks * √(Spec.var xs))| ≤ levelErr u η ks xs (Spec.avg xs - ks * √(Spec.var xs))) := by
  obtain ⟨s, h1, _, h3, _⟩ := npStd_d A u η Rep h hs xs hne hrep hn
  have hm : |A.rnd (A.sum xs / xs.length) - Spec.avg xs| ≤ meanErr u η xs := by
    obtain ⟨m', h4, h5⟩ := C234_mean A u η Rep h (fun _ => none) xs hne hrep hn
    rw [mean_numItems _ _ (by simpa using hne), npMean_d A xs hne hn] at h4
    have h6 : Rd.fin A (A.rnd (A.sum xs / xs.length)) = Rd.fin A m' := by injection h4 with h4; injection h4
    have h7 : A.rnd (A.sum xs / xs.length) = m' := by
      have : (Fl.fin (A.rnd (A.sum xs / xs.length)) : Fl ℝ) = Fl.fin m' := h6
      injection this
    rw [h7]; exact h5
  have hk : |A.rnd (ks * s) - ks * √(Spec.var xs)| ≤
      (1 + u) * (|ks| * stdErr u η xs) + u * |ks * √(Spec.var xs)| + η := by
    apply h.rnd_near
    rw [← mul_sub, abs_mul]
    exact mul_le_mul_of_nonneg_left h3 (abs_nonneg _)
  rw [npMean_d A xs hne hn, h1]
  refine ⟨⟨A.rnd (A.rnd (A.sum xs / xs.length) + A.rnd (ks * s)), ?_, ?_⟩,
    ⟨A.rnd (A.rnd (A.sum xs / xs.length) - A.rnd (ks * s)), ?_, ?_⟩⟩
  · rw [Rd.mul_fin, Rd.add_fin]
  · apply h.near_of_rel (h.add _ _ (h.rep _) (h.rep _))
    rw [add_sub_add_comm]
    exact (abs_add_le _ _).trans (add_le_add hm hk)
  · rw [Rd.mul_fin, Rd.sub_fin]
  · apply h.near_of_rel (h.sub _ _ (h.rep _) (h.rep _))
    rw [sub_sub_sub_comm]
    exact (abs_sub _ _).trans (add_le_add hm hk)

private theorem acc_d (A : Arith ℝ) (u η : ℝ) (Rep : ℝ → Prop) (h : Gradual A u η Rep) (x y f : ℝ) (hx : Rep x) (hy : Rep y) :
    |A.rnd (A.rnd (x - y) * f) - (x - y) * f| ≤ ((1 + u) ^ 2 - 1) * |(x - y) * f| + η := by
  have h1 : |A.rnd (x - y) * f - (x - y) * f| ≤ u * |x - y| * |f| := by
    rw [← sub_mul, abs_mul]
    exact mul_le_mul_of_nonneg_right (h.sub x y hx hy) (abs_nonneg _)
  refine (h.rnd_near h1).trans (le_of_eq ?_)
  rw [abs_mul]; ring

/-! ## `acceleration_thresholding` -/

/-- **C237** Upward events: sample `i` is flagged exactly when it is above the exact velocity threshold and its exact acceleration is
above `kg * g`, unless one of the two is within the margin of its threshold. -/
theorem C237_up (A : Arith ℝ) (u η : ℝ) (Rep : ℝ → Prop) (h : Gradual A u η Rep) (hs : KeepsSign A) (b : Bool) (xs : List ℝ)
    (hne : xs ≠ []) (hrep : ∀ x ∈ xs, Rep x) (hn : A.rnd (xs.length : ℝ) = xs.length) (f g kg ks : ℝ) :
    ∃ r, acceleration ⟨1, b, Rd.fins A xs⟩ (Rd.fin A f) 1 (Rd.fin A g) (Rd.fin A kg) (Rd.fin A ks) = .ok r ∧
      r.Pairwise (· < ·) ∧ (∀ i ∈ r, i < xs.length) ∧
      ∀ i < xs.length,
        levelErr u η ks xs (Spec.avg xs + ks * √(Spec.var xs)) < |xs.getD i 0 - (Spec.avg xs + ks * √(Spec.var xs))| →
        accErr u η (accAt xs f i) (kg * g) < |accAt xs f i - kg * g| →
        (i ∈ r ↔ Spec.avg xs + ks * √(Spec.var xs) < xs.getD i 0 ∧ kg * g < accAt xs f i) := by
  obtain ⟨r, hr⟩ := (C60_errors (⟨1, b, Rd.fins A xs⟩ : Arr (Rd A)) (Rd.fin A f) 1 (Rd.fin A g) (Rd.fin A kg)
    (Rd.fin A ks)).1.mpr ⟨rfl, by simpa using hne, Or.inl rfl⟩
  obtain ⟨h1, h2⟩ := C60_tag1 _ _ _ _ _ r hr
  simp only at h2
  obtain ⟨⟨t, ht, hte⟩, -⟩ := level_d A u η Rep h hs xs hne hrep hn ks
  refine ⟨r, hr, h1, ?_, ?_⟩
  · intro i hi
    obtain ⟨x, hx, -⟩ := (h2 i).mp hi
    obtain ⟨x, hx0, rfl⟩ := (fins_get_d A xs i x).mp hx
    exact (List.getElem?_eq_some_iff.mp hx0).1
  intro i hi m1 m2
  set T := Spec.avg xs + ks * √(Spec.var xs) with hT
  have hxi : xs[i]? = some (xs.getD i 0) := by rw [List.getD_eq_getElem?_getD, List.getElem?_eq_getElem hi]; rfl
  have hxm : xs.getD i 0 ∈ xs := List.mem_of_getElem? hxi
  have c1 : (t < xs.getD i 0) ↔ T < xs.getD i 0 :=
    decide_lt (e2 := 0) hte (by simp) (by rw [add_zero, abs_sub_comm]; exact m1)
  have hg : |A.rnd (kg * g) - kg * g| ≤ u * |kg * g| + η := h.rnd _
  rw [h2, ht]
  have hkg : (Rd.fin A kg *. Rd.fin A g : Rd A) = Rd.fin A (A.rnd (kg * g)) := Rd.mul_fin A kg g
  have hlt : ∀ a c : ℝ, ((Rd.fin A a <. Rd.fin A c) = true) ↔ a < c := fun a c => by
    have := Rd.lt_fin A a c
    rw [show (Rd.fin A a <. Rd.fin A c) = decide (a < c) from this]; exact decide_eq_true_iff
  have hl0 : (lit 0 : Rd A) = Rd.fin A 0 := by
    have := Rd.lit_fin A 0
    rw [this]; congr 1; simpa using h.rnd_zero
  by_cases h0 : i = 0
  · subst h0
    have ha : accAt xs f 0 = 0 := by simp [accAt]
    rw [ha] at m2 ⊢
    have c2 : A.rnd (kg * g) < 0 ↔ kg * g < 0 := by
      refine decide_lt (e2 := 0) hg (by simp) ?_
      unfold accErr at m2
      rw [abs_zero, mul_zero, zero_add, zero_sub, abs_neg] at m2
      rw [sub_zero]
      linarith [h.eta]
    constructor
    · rintro ⟨x, hx, hx', h3⟩
      rw [show (Rd.fins A xs)[0]? = some (Rd.fin A (xs.getD 0 0)) from (fins_get_d A xs 0 _).mpr ⟨_, hxi, rfl⟩] at hx
      cases hx
      refine ⟨c1.mp ((hlt _ _).mp hx'), ?_⟩
      rcases h3 with ⟨_, h3⟩ | ⟨y, hy, _⟩
      · rw [hl0] at h3
        exact c2.mp ((hlt _ _).mp h3)
      · exact absurd hy (lt_irrefl _)
    · rintro ⟨h3, h4⟩
      refine ⟨Rd.fin A (xs.getD 0 0), (fins_get_d A xs 0 _).mpr ⟨_, hxi, rfl⟩, (hlt _ _).mpr (c1.mpr h3), Or.inl ⟨rfl, ?_⟩⟩
      rw [hl0]
      exact (hlt _ _).mpr (c2.mpr h4)
  · have hyi : xs[i - 1]? = some (xs.getD (i - 1) 0) := by
      rw [List.getD_eq_getElem?_getD, List.getElem?_eq_getElem (show i - 1 < xs.length by omega)]; rfl
    have hym : xs.getD (i - 1) 0 ∈ xs := List.mem_of_getElem? hyi
    have ha : accAt xs f i = (xs.getD i 0 - xs.getD (i - 1) 0) * f := by simp [accAt, h0]
    rw [ha] at m2 ⊢
    have c2 : A.rnd (kg * g) < A.rnd (A.rnd (xs.getD i 0 - xs.getD (i - 1) 0) * f) ↔
        kg * g < (xs.getD i 0 - xs.getD (i - 1) 0) * f := by
      refine decide_lt hg (acc_d A u η Rep h _ _ f (hrep _ hxm) (hrep _ hym)) ?_
      unfold accErr at m2
      rw [abs_sub_comm (kg * g)]
      linarith
    constructor
    · rintro ⟨x, hx, hx', h3⟩
      rw [show (Rd.fins A xs)[i]? = some (Rd.fin A (xs.getD i 0)) from (fins_get_d A xs i _).mpr ⟨_, hxi, rfl⟩] at hx
      cases hx
      refine ⟨c1.mp ((hlt _ _).mp hx'), ?_⟩
      rcases h3 with ⟨h3, _⟩ | ⟨y, _, hy, h3⟩
      · exact absurd h3 h0
      · rw [show (Rd.fins A xs)[i - 1]? = some (Rd.fin A (xs.getD (i - 1) 0)) from
          (fins_get_d A xs (i - 1) _).mpr ⟨_, hyi, rfl⟩] at hy
        cases hy
        exact c2.mp ((hlt _ _).mp h3)
    · rintro ⟨h3, h4⟩
      exact ⟨Rd.fin A (xs.getD i 0), (fins_get_d A xs i _).mpr ⟨_, hxi, rfl⟩, (hlt _ _).mpr (c1.mpr h3),
        Or.inr ⟨Rd.fin A (xs.getD (i - 1) 0), by omega, (fins_get_d A xs (i - 1) _).mpr ⟨_, hyi, rfl⟩,
          (hlt _ _).mpr (c2.mpr h4)⟩⟩

/-- **C237** Downward events, likewise. -/
theorem C237_down (A : Arith ℝ) (u η : ℝ) (Rep : ℝ → Prop) (h : Gradual A u η Rep) (hs : KeepsSign A) (b : Bool) (xs : List ℝ)
    (hne : xs ≠ []) (hrep : ∀ x ∈ xs, Rep x) (hn : A.rnd (xs.length : ℝ) = xs.length) (f g kg ks : ℝ) :
    ∃ r, acceleration ⟨1, b, Rd.fins A xs⟩ (Rd.fin A f) 2 (Rd.fin A g) (Rd.fin A kg) (Rd.fin A ks) = .ok r ∧
      r.Pairwise (· < ·) ∧ (∀ i ∈ r, i < xs.length) ∧
      ∀ i < xs.length,
        levelErr u η ks xs (Spec.avg xs - ks * √(Spec.var xs)) < |xs.getD i 0 - (Spec.avg xs - ks * √(Spec.var xs))| →
        accErr u η (accAt xs f i) (-(kg * g)) < |accAt xs f i - -(kg * g)| →
        (i ∈ r ↔ xs.getD i 0 < Spec.avg xs - ks * √(Spec.var xs) ∧ accAt xs f i < -(kg * g)) := by
  obtain ⟨r, hr⟩ := (C60_errors (⟨1, b, Rd.fins A xs⟩ : Arr (Rd A)) (Rd.fin A f) 2 (Rd.fin A g) (Rd.fin A kg)
    (Rd.fin A ks)).1.mpr ⟨rfl, by simpa using hne, Or.inr rfl⟩
  obtain ⟨h1, h2⟩ := C60_tag2 _ _ _ _ _ r hr
  simp only at h2
  obtain ⟨-, ⟨t, ht, hte⟩⟩ := level_d A u η Rep h hs xs hne hrep hn ks
  refine ⟨r, hr, h1, ?_, ?_⟩
  · intro i hi
    obtain ⟨x, hx, -⟩ := (h2 i).mp hi
    obtain ⟨x, hx0, rfl⟩ := (fins_get_d A xs i x).mp hx
    exact (List.getElem?_eq_some_iff.mp hx0).1
  intro i hi m1 m2
  set T := Spec.avg xs - ks * √(Spec.var xs) with hT
  have hxi : xs[i]? = some (xs.getD i 0) := by rw [List.getD_eq_getElem?_getD, List.getElem?_eq_getElem hi]; rfl
  have hxm : xs.getD i 0 ∈ xs := List.mem_of_getElem? hxi
  have c1 : (xs.getD i 0 < t) ↔ xs.getD i 0 < T :=
    decide_lt (e1 := 0) (by simp) hte (by rw [zero_add]; exact m1)
  have hg : |A.rnd (-kg * g) - -(kg * g)| ≤ u * |-(kg * g)| + η := by
    have := h.rnd (-kg * g)
    rwa [neg_mul] at this ⊢
  rw [h2, ht]
  have hkg : (PyNum.neg (Rd.fin A kg) *. Rd.fin A g : Rd A) = Rd.fin A (A.rnd (-kg * g)) := Rd.mul_fin A (-kg) g
  rw [hkg]
  have hlt : ∀ a c : ℝ, ((Rd.fin A a <. Rd.fin A c) = true) ↔ a < c := fun a c => by
    have := Rd.lt_fin A a c
    rw [show (Rd.fin A a <. Rd.fin A c) = decide (a < c) from this]; exact decide_eq_true_iff
  have hl0 : (lit 0 : Rd A) = Rd.fin A 0 := by
    have := Rd.lit_fin A 0
    rw [this]; congr 1; simpa using h.rnd_zero
  by_cases h0 : i = 0
  · subst h0
    have ha : accAt xs f 0 = 0 := by simp [accAt]
    rw [ha] at m2 ⊢
    have c2 : 0 < A.rnd (-kg * g) ↔ 0 < -(kg * g) := by
      refine decide_lt (e1 := 0) (by simp) hg ?_
      unfold accErr at m2
      rw [abs_zero, mul_zero, zero_add] at m2
      linarith [h.eta]
    constructor
    · rintro ⟨x, hx, hx', h3⟩
      rw [show (Rd.fins A xs)[0]? = some (Rd.fin A (xs.getD 0 0)) from (fins_get_d A xs 0 _).mpr ⟨_, hxi, rfl⟩] at hx
      cases hx
      refine ⟨c1.mp ((hlt _ _).mp hx'), ?_⟩
      rcases h3 with ⟨_, h3⟩ | ⟨y, hy, _⟩
      · rw [hl0] at h3
        exact c2.mp ((hlt _ _).mp h3)
      · exact absurd hy (lt_irrefl _)
    · rintro ⟨h3, h4⟩
      refine ⟨Rd.fin A (xs.getD 0 0), (fins_get_d A xs 0 _).mpr ⟨_, hxi, rfl⟩, (hlt _ _).mpr (c1.mpr h3), Or.inl ⟨rfl, ?_⟩⟩
      rw [hl0]
      exact (hlt _ _).mpr (c2.mpr h4)
  · have hyi : xs[i - 1]? = some (xs.getD (i - 1) 0) := by
      rw [List.getD_eq_getElem?_getD, List.getElem?_eq_getElem (show i - 1 < xs.length by omega)]; rfl
    have hym : xs.getD (i - 1) 0 ∈ xs := List.mem_of_getElem? hyi
    have ha : accAt xs f i = (xs.getD i 0 - xs.getD (i - 1) 0) * f := by simp [accAt, h0]
    rw [ha] at m2 ⊢
    have c2 : A.rnd (A.rnd (xs.getD i 0 - xs.getD (i - 1) 0) * f) < A.rnd (-kg * g) ↔
        (xs.getD i 0 - xs.getD (i - 1) 0) * f < -(kg * g) := by
      refine decide_lt (acc_d A u η Rep h _ _ f (hrep _ hxm) (hrep _ hym)) hg ?_
      unfold accErr at m2
      linarith
    constructor
    · rintro ⟨x, hx, hx', h3⟩
      rw [show (Rd.fins A xs)[i]? = some (Rd.fin A (xs.getD i 0)) from (fins_get_d A xs i _).mpr ⟨_, hxi, rfl⟩] at hx
      cases hx
      refine ⟨c1.mp ((hlt _ _).mp hx'), ?_⟩
      rcases h3 with ⟨h3, _⟩ | ⟨y, _, hy, h3⟩
      · exact absurd h3 h0
      · rw [show (Rd.fins A xs)[i - 1]? = some (Rd.fin A (xs.getD (i - 1) 0)) from
          (fins_get_d A xs (i - 1) _).mpr ⟨_, hyi, rfl⟩] at hy
        cases hy
        exact c2.mp ((hlt _ _).mp h3)
    · rintro ⟨h3, h4⟩
      exact ⟨Rd.fin A (xs.getD i 0), (fins_get_d A xs i _).mpr ⟨_, hxi, rfl⟩, (hlt _ _).mpr (c1.mpr h3),
        Or.inr ⟨Rd.fin A (xs.getD (i - 1) 0), by omega, (fins_get_d A xs (i - 1) _).mpr ⟨_, hyi, rfl⟩,
          (hlt _ _).mpr (c2.mpr h4)⟩⟩

private theorem getD_of_get {xs : List ℝ} {i : Nat} {x : ℝ} (h : xs[i]? = some x) : xs.getD i 0 = x := by
  rw [List.getD_eq_getElem?_getD, h]; rfl

private theorem get_getD {xs : List ℝ} {i : Nat} (h : i < xs.length) : xs[i]? = some (xs.getD i 0) := by
  rw [List.getD_eq_getElem?_getD, List.getElem?_eq_getElem h]; rfl

/-- **C237** When no sample is within the margins, the rounded run flags the same samples as the run in exact arithmetic. -/
theorem C237_agree_up (A : Arith ℝ) (u η : ℝ) (Rep : ℝ → Prop) (h : Gradual A u η Rep) (hs : KeepsSign A) (b b' : Bool)
    (xs : List ℝ) (hne : xs ≠ []) (hrep : ∀ x ∈ xs, Rep x) (hn : A.rnd (xs.length : ℝ) = xs.length) (f g kg ks : ℝ)
    (h0 : 0 ≤ kg * g)
    (m1 : ∀ x ∈ xs, levelErr u η ks xs (Spec.avg xs + ks * √(Spec.var xs)) < |x - (Spec.avg xs + ks * √(Spec.var xs))|)
    (m2 : ∀ i < xs.length, accErr u η (accAt xs f i) (kg * g) < |accAt xs f i - kg * g|) :
    ∃ r, acceleration ⟨1, b, Rd.fins A xs⟩ (Rd.fin A f) 1 (Rd.fin A g) (Rd.fin A kg) (Rd.fin A ks) = .ok r ∧
      acceleration ⟨1, b', fins xs⟩ (Fl.fin f) 1 (Fl.fin g) (Fl.fin kg) (Fl.fin ks) = .ok r := by
  obtain ⟨r, hr, hp, hlt, hi⟩ := C237_up A u η Rep h hs b xs hne hrep hn f g kg ks
  obtain ⟨r', hr', hp', hi'⟩ := C60_exact_up b' xs hne f g kg ks h0
  have e : r = r' := by
    apply sorted_ext hp hp'
    intro i
    rw [hi']
    unfold UpEvent
    constructor
    · intro hir
      have hl := hlt i hir
      obtain ⟨h3, h4⟩ := (hi i hl (m1 _ (List.mem_of_getElem? (get_getD hl))) (m2 i hl)).mp hir
      have hi0 : i ≠ 0 := by
        rintro rfl
        simp only [accAt, if_true] at h4
        linarith
      refine ⟨_, _, by omega, get_getD hl, get_getD (i := i - 1) (by omega), ?_, h3⟩
      rw [accAt, if_neg hi0] at h4
      exact h4
    · rintro ⟨x, y, hi0, hx, hy, h3, h4⟩
      have hl := (List.getElem?_eq_some_iff.mp hx).1
      refine (hi i hl (m1 _ (List.mem_of_getElem? (get_getD hl))) (m2 i hl)).mpr ⟨?_, ?_⟩
      · rw [getD_of_get hx]; exact h4
      · rw [accAt, if_neg (by omega), getD_of_get hx, getD_of_get hy]; exact h3
  exact ⟨r, hr, by rw [hr', e]⟩

/-- **C237** The same for downward events. -/
theorem C237_agree_down (A : Arith ℝ) (u η : ℝ) (Rep : ℝ → Prop) (h : Gradual A u η Rep) (hs : KeepsSign A) (b b' : Bool)
    (xs : List ℝ) (hne : xs ≠ []) (hrep : ∀ x ∈ xs, Rep x) (hn : A.rnd (xs.length : ℝ) = xs.length) (f g kg ks : ℝ)
    (h0 : 0 ≤ kg * g)
    (m1 : ∀ x ∈ xs, levelErr u η ks xs (Spec.avg xs - ks * √(Spec.var xs)) < |x - (Spec.avg xs - ks * √(Spec.var xs))|)
    (m2 : ∀ i < xs.length, accErr u η (accAt xs f i) (-(kg * g)) < |accAt xs f i - -(kg * g)|) :
    ∃ r, acceleration ⟨1, b, Rd.fins A xs⟩ (Rd.fin A f) 2 (Rd.fin A g) (Rd.fin A kg) (Rd.fin A ks) = .ok r ∧
      acceleration ⟨1, b', fins xs⟩ (Fl.fin f) 2 (Fl.fin g) (Fl.fin kg) (Fl.fin ks) = .ok r := by
  obtain ⟨r, hr, hp, hlt, hi⟩ := C237_down A u η Rep h hs b xs hne hrep hn f g kg ks
  obtain ⟨r', hr', hp', hi'⟩ := C60_exact_down b' xs hne f g kg ks h0
  have e : r = r' := by
    apply sorted_ext hp hp'
    intro i
    rw [hi']
    unfold DownEvent
    constructor
    · intro hir
      have hl := hlt i hir
      obtain ⟨h3, h4⟩ := (hi i hl (m1 _ (List.mem_of_getElem? (get_getD hl))) (m2 i hl)).mp hir
      have hi0 : i ≠ 0 := by
        rintro rfl
        simp only [accAt, if_true] at h4
        linarith
      refine ⟨_, _, by omega, get_getD hl, get_getD (i := i - 1) (by omega), ?_, h3⟩
      rw [accAt, if_neg hi0] at h4
      exact h4
    · rintro ⟨x, y, hi0, hx, hy, h3, h4⟩
      have hl := (List.getElem?_eq_some_iff.mp hx).1
      refine (hi i hl (m1 _ (List.mem_of_getElem? (get_getD hl))) (m2 i hl)).mpr ⟨?_, ?_⟩
      · rw [getD_of_get hx]; exact h4
      · rw [accAt, if_neg (by omega), getD_of_get hx, getD_of_get hy]; exact h3
  exact ⟨r, hr, by rw [hr', e]⟩

/-! ## The hypotheses are met -/

/-- 53-bit arithmetic, four samples with one jump: neither threshold is within the margin of a sample, so the rounded and the exact run agree. -/
example : ∃ r, acceleration ⟨1, false, Rd.fins bin64R [0, 0, 0, 8]⟩ (Rd.fin bin64R 1) 1 (Rd.fin bin64R 1) (Rd.fin bin64R 1)
      (Rd.fin bin64R 1) = .ok r ∧
    acceleration ⟨1, false, fins [(0 : ℝ), 0, 0, 8]⟩ (Fl.fin 1) 1 (Fl.fin 1) (Fl.fin 1) (Fl.fin 1) = .ok r := by
  have ha : Spec.avg ([0, 0, 0, 8] : List ℝ) = 2 := by norm_num [Spec.avg]
  have hv : Spec.var ([0, 0, 0, 8] : List ℝ) = 12 := by
    norm_num [Spec.var, Spec.cmoment, Spec.avg]
  have hb : Spec.avg (([0, 0, 0, 8] : List ℝ).map (fun x => |x|)) = 2 := by norm_num [Spec.avg]
  have h1 : √(12 : ℝ) < 4 := by rw [Real.sqrt_lt' (by norm_num)]; norm_num
  have h2 : 3 < √(12 : ℝ) := by rw [Real.lt_sqrt (by norm_num)]; norm_num
  have hm : meanErr (1 / 2 ^ 53 : ℝ) 0 [0, 0, 0, 8] ≤ 1 / 1000 := by
    unfold meanErr; rw [hb]; norm_num
  have hm0 : 0 ≤ meanErr (1 / 2 ^ 53 : ℝ) 0 [0, 0, 0, 8] := by
    unfold meanErr; rw [hb]; norm_num
  have hve : varErr (1 / 2 ^ 53) 0 [0, 0, 0, 8] ≤ 1 / 100 := by
    unfold varErr; rw [hv]
    have : meanErr (1 / 2 ^ 53 : ℝ) 0 [0, 0, 0, 8] ^ 2 ≤ (1 / 1000) ^ 2 := pow_le_pow_left₀ hm0 hm 2
    have h3 : (1 + 1 / 2 ^ 53 : ℝ) ^ (([0, 0, 0, 8] : List ℝ).length + 4) ≤ 1 + 1 / 10000 := by norm_num
    have h4 : (0 : ℝ) ≤ (1 + 1 / 2 ^ 53 : ℝ) ^ (([0, 0, 0, 8] : List ℝ).length + 4) := by positivity
    generalize (1 + 1 / 2 ^ 53 : ℝ) ^ (([0, 0, 0, 8] : List ℝ).length + 4) = P at *
    nlinarith [mul_le_mul_of_nonneg_left this h4]
  have hse : stdErr (1 / 2 ^ 53) 0 [0, 0, 0, 8] ≤ 1 / 5 := by
    unfold stdErr; rw [hv]
    have : √(varErr (1 / 2 ^ 53) 0 [0, 0, 0, 8]) ≤ 1 / 10 := by
      rw [Real.sqrt_le_left (by norm_num)]; refine hve.trans (by norm_num)
    nlinarith
  have hle : levelErr (1 / 2 ^ 53) 0 1 [0, 0, 0, 8] (2 + 1 * √12) ≤ 1 / 2 := by
    unfold levelErr; rw [hv, abs_of_nonneg (by linarith : (0 : ℝ) ≤ 2 + 1 * √12), abs_one, one_mul, one_mul,
      abs_of_nonneg (by linarith : (0 : ℝ) ≤ √12)]
    nlinarith
  refine C237_agree_up bin64R _ 0 _ bin64R_std.gradual bin64R_keeps false false [0, 0, 0, 8] (by simp) (fun _ _ => trivial)
    (rnd53R_nat 4 (by norm_num)) 1 1 1 1 (by norm_num) ?_ ?_
  · rw [ha, hv]
    intro x hx
    refine hle.trans_lt ?_
    simp only [List.mem_cons, List.not_mem_nil, or_false] at hx
    rcases hx with rfl | rfl | rfl | rfl
    · rw [abs_of_neg (by linarith)]; linarith
    · rw [abs_of_neg (by linarith)]; linarith
    · rw [abs_of_neg (by linarith)]; linarith
    · rw [abs_of_pos (by linarith)]; linarith
  · intro i hi
    unfold accErr accAt
    simp only [List.length_cons, List.length_nil] at hi
    interval_cases i <;> norm_num

end Proadv.Props
