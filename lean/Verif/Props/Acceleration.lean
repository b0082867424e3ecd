import Verif.Model.Detect
import Verif.Lemmas.Sets
import Verif.Lemmas.Descriptive

/-!
# Properties C59–C61 (`acceleration_thresholding`) and C78 (`pollution_rate`)
-/

set_option linter.unusedSectionVars false

namespace Proadv.Props

open Proadv Fl Detect Spread

/-! ## C59, C60 -/

section generic
variable {F : Type} [PyMath F]

theorem std_ok_iff (a : Arr F) : (∃ s, std a = .ok s) ↔ a.ndim = 1 ∧ a.data ≠ [] := by
  obtain ⟨nd, b, d⟩ := a
  by_cases h1 : nd = 1
  · subst h1
    by_cases h : d = []
    · subst h; simp [std, stdItems]
    · simp [std_eq b d h, h]
  · simp [std, stdItems, h1]

theorem std_data {a : Arr F} {s : F} (h : std a = .ok s) : s = npStd a.data := by
  obtain ⟨hn, hd⟩ := (std_ok_iff a).mp ⟨s, h⟩
  obtain ⟨nd, b, d⟩ := a
  simp only at hn hd; subst hn
  rw [std_eq b d hd] at h; cases h; rfl

/-- Entry `i` of the frequency-scaled differences. -/
theorem differences_get (v : List F) (f : F) (i : Nat) :
    (differences v f)[i]? = if i = 0 then some (lit 0)
      else match v[i]?, v[i - 1]? with
        | some x, some y => some ((x -. y) *. f)
        | _, _ => none := by
  unfold differences diff
  cases i with
  | zero => rfl
  | succ i =>
    simp only [List.getElem?_cons_succ, List.getElem?_map, List.getElem?_zipWith, List.getElem?_tail,
      Nat.add_sub_cancel, if_neg (Nat.succ_ne_zero i)]
    cases h : v[i]? <;> cases h' : v[i + 1]? <;> rfl

/-- **C60** (every float arithmetic) which inputs are accepted, with every rejection. -/
theorem C60_errors (v : Arr F) (f : F) (tag : Int) (g kg ks : F) :
    ((∃ r, acceleration v f tag g kg ks = .ok r) ↔ v.ndim = 1 ∧ v.data ≠ [] ∧ (tag = 1 ∨ tag = 2)) ∧
    ∀ e, acceleration v f tag g kg ks = .error e → e = .valueError := by
  obtain ⟨nd, b, d⟩ := v
  unfold acceleration
  by_cases h1 : nd = 1
  · subst h1
    by_cases hd : d = []
    · subst hd
      by_cases ht1 : tag = 1
      · simp [ht1, std, stdItems, bind, Except.bind]
      · by_cases ht2 : tag = 2
        · simp [ht2, std, stdItems, bind, Except.bind]
        · simp [ht1, ht2]
    · rw [std_eq b d hd]
      by_cases ht1 : tag = 1
      · simp [ht1, bind, Except.bind, hd]
      · by_cases ht2 : tag = 2
        · simp [ht2, bind, Except.bind, hd]
        · simp [ht1, ht2]
  · simp [h1]

/-- **C60** (every float arithmetic, so with the rounding of float64) tag 1 returns, in increasing order, exactly the
samples whose scaled backward difference (0 for the first sample) exceeds `k_gravity * gravity` and whose value exceeds
`mean + k_sigma * std`. -/
theorem C60_tag1 (v : Arr F) (f g kg ks : F) (r : List Nat) (h : acceleration v f 1 g kg ks = .ok r) :
    r.Pairwise (· < ·) ∧ ∀ i, i ∈ r ↔ ∃ x, v.data[i]? = some x ∧
      ((npMean v.data +. ks *. npStd v.data) <. x) = true ∧
      ((i = 0 ∧ ((kg *. g) <. (lit 0 : F)) = true) ∨
        ∃ y, 0 < i ∧ v.data[i - 1]? = some y ∧ ((kg *. g) <. ((x -. y) *. f)) = true) := by
  unfold acceleration at h
  rw [if_pos (rfl : (1 : Int) = 1)] at h
  split_ifs at h with h1
  simp only [bind, Except.bind] at h
  cases hs : std v with
  | error e => rw [hs] at h; cases h
  | ok s =>
    rw [hs] at h
    simp only [Except.ok.injEq] at h
    obtain rfl := std_data hs
    rw [← h]
    refine ⟨intersect1d_sorted _ _, fun i => ?_⟩
    rw [mem_intersect1d, mem_whereTrue_map, mem_whereTrue_map]
    constructor
    · rintro ⟨⟨d, hd, hd'⟩, x, hx, hx'⟩
      refine ⟨x, hx, hx', ?_⟩
      rw [differences_get] at hd
      by_cases hi : i = 0
      · rw [if_pos hi] at hd; cases hd; exact Or.inl ⟨hi, hd'⟩
      · rw [if_neg hi, hx] at hd
        cases hy : v.data[i - 1]? with
        | none => rw [hy] at hd; cases hd
        | some y =>
          rw [hy] at hd; cases hd
          exact Or.inr ⟨y, by omega, rfl, hd'⟩
    · rintro ⟨x, hx, hx', h3⟩
      refine ⟨?_, x, hx, hx'⟩
      rcases h3 with ⟨hi, h3⟩ | ⟨y, hi, hy, h3⟩
      · exact ⟨_, by rw [differences_get, if_pos hi], h3⟩
      · exact ⟨_, by rw [differences_get, if_neg (by omega), hx, hy], h3⟩

/-- **C60** (every float arithmetic) tag 2, with the lower thresholds. -/
theorem C60_tag2 (v : Arr F) (f g kg ks : F) (r : List Nat) (h : acceleration v f 2 g kg ks = .ok r) :
    r.Pairwise (· < ·) ∧ ∀ i, i ∈ r ↔ ∃ x, v.data[i]? = some x ∧
      (x <. (npMean v.data -. ks *. npStd v.data)) = true ∧
      ((i = 0 ∧ ((lit 0 : F) <. (PyNum.neg kg *. g)) = true) ∨
        ∃ y, 0 < i ∧ v.data[i - 1]? = some y ∧ (((x -. y) *. f) <. (PyNum.neg kg *. g)) = true) := by
  unfold acceleration at h
  rw [if_neg (show ¬ (2 : Int) = 1 by decide), if_pos rfl] at h
  split_ifs at h with h1
  simp only [bind, Except.bind] at h
  cases hs : std v with
  | error e => rw [hs] at h; cases h
  | ok s =>
    rw [hs] at h
    simp only [Except.ok.injEq] at h
    obtain rfl := std_data hs
    rw [← h]
    refine ⟨intersect1d_sorted _ _, fun i => ?_⟩
    rw [mem_intersect1d, mem_whereTrue_map, mem_whereTrue_map]
    constructor
    · rintro ⟨⟨d, hd, hd'⟩, x, hx, hx'⟩
      refine ⟨x, hx, hx', ?_⟩
      rw [differences_get] at hd
      by_cases hi : i = 0
      · rw [if_pos hi] at hd; cases hd; exact Or.inl ⟨hi, hd'⟩
      · rw [if_neg hi, hx] at hd
        cases hy : v.data[i - 1]? with
        | none => rw [hy] at hd; cases hd
        | some y =>
          rw [hy] at hd; cases hd
          exact Or.inr ⟨y, by omega, rfl, hd'⟩
    · rintro ⟨x, hx, hx', h3⟩
      refine ⟨?_, x, hx, hx'⟩
      rcases h3 with ⟨hi, h3⟩ | ⟨y, hi, hy, h3⟩
      · exact ⟨_, by rw [differences_get, if_pos hi], h3⟩
      · exact ⟨_, by rw [differences_get, if_neg (by omega), hx, hy], h3⟩

/-- **C59** (every float arithmetic) `acceleration_thresholding` returns strictly increasing sample positions. -/
theorem C59_acceleration (v : Arr F) (f : F) (tag : Int) (g kg ks : F) (r : List Nat)
    (h : acceleration v f tag g kg ks = .ok r) : r.Pairwise (· < ·) ∧ ∀ i ∈ r, i < v.data.length := by
  have key : ∀ i x, v.data[i]? = some x → i < v.data.length := fun i x hx => by
    by_contra hc; rw [List.getElem?_eq_none (by omega)] at hx; cases hx
  rcases ((C60_errors v f tag g kg ks).1.mp ⟨r, h⟩).2.2 with rfl | rfl
  · have := C60_tag1 v f g kg ks r h
    exact ⟨this.1, fun i hi => by obtain ⟨x, hx, _⟩ := (this.2 i).mp hi; exact key i x hx⟩
  · have := C60_tag2 v f g kg ks r h
    exact ⟨this.1, fun i hi => by obtain ⟨x, hx, _⟩ := (this.2 i).mp hi; exact key i x hx⟩

end generic

/-! ## C60, C61 at exact arithmetic -/

/-- specification: sample `i` accelerates upward beyond `t` and is above `m` -/
def UpEvent (xs : List ℝ) (f t m : ℝ) (i : Nat) : Prop :=
  ∃ x y, 0 < i ∧ xs[i]? = some x ∧ xs[i - 1]? = some y ∧ t < (x - y) * f ∧ m < x

/-- specification: sample `i` accelerates downward beyond `-t` and is below `m` -/
def DownEvent (xs : List ℝ) (f t m : ℝ) (i : Nat) : Prop :=
  ∃ x y, 0 < i ∧ xs[i]? = some x ∧ xs[i - 1]? = some y ∧ (x - y) * f < -t ∧ x < m

theorem fins_get (xs : List ℝ) (i : Nat) (z : Fl ℝ) :
    (fins xs)[i]? = some z ↔ ∃ x, xs[i]? = some x ∧ z = fin x := by
  rw [List.getElem?_map, Option.map_eq_some_iff]
  constructor
  · rintro ⟨x, h, rfl⟩; exact ⟨x, h, rfl⟩
  · rintro ⟨x, h, rfl⟩; exact ⟨x, h, rfl⟩

/-- **C60** exact thresholds, `k_gravity * gravity ≥ 0`: tag 1 lists exactly the upward events. -/
theorem C60_exact_up (b : Bool) (xs : List ℝ) (hne : xs ≠ []) (f g kg ks : ℝ) (ht : 0 ≤ kg * g) :
    ∃ r, acceleration ⟨1, b, fins xs⟩ (fin f) 1 (fin g) (fin kg) (fin ks) = .ok r ∧ r.Pairwise (· < ·) ∧
      ∀ i, i ∈ r ↔ UpEvent xs f (kg * g) (xs.sum / xs.length + ks * √(Spec.var xs)) i := by
  obtain ⟨r, hr⟩ := (C60_errors (⟨1, b, fins xs⟩ : Arr (Fl ℝ)) (fin f) 1 (fin g) (fin kg) (fin ks)).1.mpr
    ⟨rfl, by simpa using hne, Or.inl rfl⟩
  obtain ⟨h1, h2⟩ := C60_tag1 _ _ _ _ _ r hr
  refine ⟨r, hr, h1, fun i => (h2 i).trans ?_⟩
  have hm : npMean (fins xs) +. fin ks *. npStd (fins xs) =
      (fin (xs.sum / xs.length + ks * √(Spec.var xs)) : Fl ℝ) := by
    rw [npStd_fins xs hne]
    have := npMean_fins xs hne
    rw [show npMean (fins xs) = (fin (xs.sum / xs.length) : Fl ℝ) from this]; rfl
  simp only
  unfold UpEvent
  constructor
  · rintro ⟨x, hx, hx', h3⟩
    obtain ⟨x, hx0, rfl⟩ := (fins_get xs i x).mp hx
    have e1 : xs.sum / xs.length + ks * √(Spec.var xs) < x := by rw [hm] at hx'; simpa using hx'
    rcases h3 with ⟨_, h3⟩ | ⟨y, hi, hy, h3⟩
    · have : kg * g < 0 := by simpa using h3
      linarith
    · obtain ⟨y, hy0, rfl⟩ := (fins_get xs _ y).mp hy
      have : kg * g < (x - y) * f := by simpa using h3
      exact ⟨x, y, hi, hx0, hy0, this, e1⟩
  · rintro ⟨x, y, hi, hx, hy, h3, h4⟩
    refine ⟨fin x, (fins_get xs i _).mpr ⟨x, hx, rfl⟩, ?_, Or.inr ⟨fin y, hi, (fins_get xs _ _).mpr ⟨y, hy, rfl⟩, ?_⟩⟩
    · rw [hm]; simpa using h4
    · simpa using h3

/-- **C60** exact thresholds, `k_gravity * gravity ≥ 0`: tag 2 lists exactly the downward events. -/
theorem C60_exact_down (b : Bool) (xs : List ℝ) (hne : xs ≠ []) (f g kg ks : ℝ) (ht : 0 ≤ kg * g) :
    ∃ r, acceleration ⟨1, b, fins xs⟩ (fin f) 2 (fin g) (fin kg) (fin ks) = .ok r ∧ r.Pairwise (· < ·) ∧
      ∀ i, i ∈ r ↔ DownEvent xs f (kg * g) (xs.sum / xs.length - ks * √(Spec.var xs)) i := by
  obtain ⟨r, hr⟩ := (C60_errors (⟨1, b, fins xs⟩ : Arr (Fl ℝ)) (fin f) 2 (fin g) (fin kg) (fin ks)).1.mpr
    ⟨rfl, by simpa using hne, Or.inr rfl⟩
  obtain ⟨h1, h2⟩ := C60_tag2 _ _ _ _ _ r hr
  refine ⟨r, hr, h1, fun i => (h2 i).trans ?_⟩
  have hm : npMean (fins xs) -. fin ks *. npStd (fins xs) =
      (fin (xs.sum / xs.length - ks * √(Spec.var xs)) : Fl ℝ) := by
    rw [npStd_fins xs hne]
    have := npMean_fins xs hne
    rw [show npMean (fins xs) = (fin (xs.sum / xs.length) : Fl ℝ) from this]; rfl
  simp only
  unfold DownEvent
  constructor
  · rintro ⟨x, hx, hx', h3⟩
    obtain ⟨x, hx0, rfl⟩ := (fins_get xs i x).mp hx
    have e1 : x < xs.sum / xs.length - ks * √(Spec.var xs) := by rw [hm] at hx'; simpa using hx'
    rcases h3 with ⟨_, h3⟩ | ⟨y, hi, hy, h3⟩
    · have : 0 < -kg * g := by simpa using h3
      linarith
    · obtain ⟨y, hy0, rfl⟩ := (fins_get xs _ y).mp hy
      have : (x - y) * f < -kg * g := by simpa using h3
      exact ⟨x, y, hi, hx0, hy0, by linarith, e1⟩
  · rintro ⟨x, y, hi, hx, hy, h3, h4⟩
    refine ⟨fin x, (fins_get xs i _).mpr ⟨x, hx, rfl⟩, ?_, Or.inr ⟨fin y, hi, (fins_get xs _ _).mpr ⟨y, hy, rfl⟩, ?_⟩⟩
    · rw [hm]; simpa using h4
    · have : (x - y) * f < -kg * g := by linarith
      simpa using this

/-- concrete events: the jump 0 → 1 at sample 3 of `[0,0,0,1]` with `f = 1`, threshold 1/2, mean 1/4 and `k_sigma = 1`
(variance 3/16) is an upward event. -/
example : UpEvent [0, 0, 0, 1] 1 (1 / 2) (1 / 4 + 1 * √(3 / 16)) 3 := by
  refine ⟨1, 0, by norm_num, rfl, rfl, by norm_num, ?_⟩
  have : √(3 / 16 : ℝ) < 3 / 4 := by
    rw [Real.sqrt_lt' (by norm_num)]; norm_num
  linarith

/-- **C61** symmetry: tag 2 on `v` equals tag 1 on `-v`. -/
theorem C61_symmetry (b b' : Bool) (xs : List ℝ) (hne : xs ≠ []) (f g kg ks : ℝ) (ht : 0 ≤ kg * g) :
    acceleration ⟨1, b, fins xs⟩ (fin f) 2 (fin g) (fin kg) (fin ks) =
      acceleration ⟨1, b', fins (xs.map (fun x => -x))⟩ (fin f) 1 (fin g) (fin kg) (fin ks) := by
  obtain ⟨r, hr, h1, h2⟩ := C60_exact_down b xs hne f g kg ks ht
  obtain ⟨r', hr', h1', h2'⟩ := C60_exact_up b' (xs.map (fun x => -x)) (by simpa using hne) f g kg ks ht
  rw [hr, hr']
  congr 1
  apply sorted_ext h1 h1'
  intro i
  rw [h2, h2']
  have hv : Spec.var (xs.map (fun x => -x)) = Spec.var xs := by
    have := Spec.cmoment_affine 2 (-1) 0 hne
    simp only [neg_one_mul, add_zero] at this
    unfold Spec.var; rw [this]; norm_num
  have hs : (xs.map (fun x => -x)).sum = -xs.sum := by
    have := Spec.sum_map_affine (-1) 0 xs
    simpa [neg_one_mul] using this
  unfold UpEvent DownEvent
  rw [hv, hs, List.length_map]
  constructor
  · rintro ⟨x, y, hi, hx, hy, h3, h4⟩
    refine ⟨-x, -y, hi, by simp [hx], by simp [hy], by linarith, ?_⟩
    rw [neg_div]; linarith
  · rintro ⟨x, y, hi, hx, hy, h3, h4⟩
    rw [List.getElem?_map, Option.map_eq_some_iff] at hx hy
    obtain ⟨x, hx, rfl⟩ := hx
    obtain ⟨y, hy, rfl⟩ := hy
    rw [neg_div] at h4
    exact ⟨x, y, hi, hx, hy, by linarith, by linarith⟩

/-- **C61** with a non-negative acceleration threshold the two directions never flag the same sample. -/
theorem C61_disjoint (b : Bool) (xs : List ℝ) (f g kg ks : ℝ) (ht : 0 ≤ kg * g) (r r' : List Nat)
    (h : acceleration ⟨1, b, fins xs⟩ (fin f) 1 (fin g) (fin kg) (fin ks) = .ok r)
    (h' : acceleration ⟨1, b, fins xs⟩ (fin f) 2 (fin g) (fin kg) (fin ks) = .ok r') :
    ∀ i ∈ r, i ∉ r' := by
  have hne : xs ≠ [] := by
    have := ((C60_errors _ _ _ _ _ _).1.mp ⟨r, h⟩).2.1
    simpa using this
  obtain ⟨s, hs, _, h2⟩ := C60_exact_up b xs hne f g kg ks ht
  obtain ⟨s', hs', _, h2'⟩ := C60_exact_down b xs hne f g kg ks ht
  rw [h] at hs; rw [h'] at hs'
  cases hs; cases hs'
  intro i hi hi'
  obtain ⟨x, y, _, hx, hy, h3, _⟩ := (h2 i).mp hi
  obtain ⟨x', y', _, hx', hy', h3', _⟩ := (h2' i).mp hi'
  rw [hx] at hx'; rw [hy] at hy'; cases hx'; cases hy'
  linarith

/-- **C61** adding a constant to the velocities changes neither direction. -/
theorem C61_offset (b b' : Bool) (xs : List ℝ) (hne : xs ≠ []) (o f g kg ks : ℝ) (ht : 0 ≤ kg * g) (tag : Int) :
    acceleration ⟨1, b, fins (xs.map (fun x => x + o))⟩ (fin f) tag (fin g) (fin kg) (fin ks) =
      acceleration ⟨1, b', fins xs⟩ (fin f) tag (fin g) (fin kg) (fin ks) := by
  have hne' : xs.map (fun x => x + o) ≠ [] := by simpa using hne
  have hv : Spec.var (xs.map (fun x => x + o)) = Spec.var xs := by
    have := Spec.cmoment_affine 2 1 o hne
    simp only [one_mul] at this
    unfold Spec.var; rw [this]; norm_num
  have hs : (xs.map (fun x => x + o)).sum / (xs.map (fun x => x + o)).length = xs.sum / xs.length + o := by
    have := Spec.avg_affine 1 o hne
    simpa [Spec.avg] using this
  by_cases t1 : tag = 1
  · subst t1
    obtain ⟨r, hr, h1, h2⟩ := C60_exact_up b _ hne' f g kg ks ht
    obtain ⟨r', hr', h1', h2'⟩ := C60_exact_up b' xs hne f g kg ks ht
    rw [hr, hr']
    congr 1
    apply sorted_ext h1 h1'
    intro i
    rw [h2, h2', hv, hs]
    unfold UpEvent
    constructor
    · rintro ⟨x, y, hi, hx, hy, h3, h4⟩
      rw [List.getElem?_map, Option.map_eq_some_iff] at hx hy
      obtain ⟨x, hx, rfl⟩ := hx
      obtain ⟨y, hy, rfl⟩ := hy
      exact ⟨x, y, hi, hx, hy, by rwa [add_sub_add_right_eq_sub] at h3, by linarith⟩
    · rintro ⟨x, y, hi, hx, hy, h3, h4⟩
      exact ⟨x + o, y + o, hi, by simp [hx], by simp [hy], by rwa [add_sub_add_right_eq_sub], by linarith⟩
  · by_cases t2 : tag = 2
    · subst t2
      obtain ⟨r, hr, h1, h2⟩ := C60_exact_down b _ hne' f g kg ks ht
      obtain ⟨r', hr', h1', h2'⟩ := C60_exact_down b' xs hne f g kg ks ht
      rw [hr, hr']
      congr 1
      apply sorted_ext h1 h1'
      intro i
      rw [h2, h2', hv, hs]
      unfold DownEvent
      constructor
      · rintro ⟨x, y, hi, hx, hy, h3, h4⟩
        rw [List.getElem?_map, Option.map_eq_some_iff] at hx hy
        obtain ⟨x, hx, rfl⟩ := hx
        obtain ⟨y, hy, rfl⟩ := hy
        exact ⟨x, y, hi, hx, hy, by rwa [add_sub_add_right_eq_sub] at h3, by linarith⟩
      · rintro ⟨x, y, hi, hx, hy, h3, h4⟩
        exact ⟨x + o, y + o, hi, by simp [hx], by simp [hy], by rwa [add_sub_add_right_eq_sub], by linarith⟩
    · simp [acceleration, t1, t2]

/-- **C61** larger thresholds flag subsets, in both directions. -/
theorem C61_mono (b : Bool) (xs : List ℝ) (f g kg ks g' kg' ks' : ℝ) (ht : 0 ≤ kg * g) (hle : kg * g ≤ kg' * g')
    (hks : ks ≤ ks') (tag : Int) (r r' : List Nat)
    (h : acceleration ⟨1, b, fins xs⟩ (fin f) tag (fin g) (fin kg) (fin ks) = .ok r)
    (h' : acceleration ⟨1, b, fins xs⟩ (fin f) tag (fin g') (fin kg') (fin ks') = .ok r') :
    ∀ i ∈ r', i ∈ r := by
  have hne : xs ≠ [] := by
    have := ((C60_errors _ _ _ _ _ _).1.mp ⟨r, h⟩).2.1
    simpa using this
  have hv := mul_le_mul_of_nonneg_right hks (Real.sqrt_nonneg (Spec.var xs))
  rcases ((C60_errors _ _ _ _ _ _).1.mp ⟨r, h⟩).2.2 with rfl | rfl
  · obtain ⟨s, hs, _, h2⟩ := C60_exact_up b xs hne f g kg ks ht
    obtain ⟨s', hs', _, h2'⟩ := C60_exact_up b xs hne f g' kg' ks' (ht.trans hle)
    rw [h] at hs; rw [h'] at hs'; cases hs; cases hs'
    intro i hi
    obtain ⟨x, y, h0, hx, hy, h3, h4⟩ := (h2' i).mp hi
    exact (h2 i).mpr ⟨x, y, h0, hx, hy, by linarith, by linarith⟩
  · obtain ⟨s, hs, _, h2⟩ := C60_exact_down b xs hne f g kg ks ht
    obtain ⟨s', hs', _, h2'⟩ := C60_exact_down b xs hne f g' kg' ks' (ht.trans hle)
    rw [h] at hs; rw [h'] at hs'; cases hs; cases hs'
    intro i hi
    obtain ⟨x, y, h0, hx, hy, h3, h4⟩ := (h2' i).mp hi
    exact (h2 i).mpr ⟨x, y, h0, hx, hy, by linarith, by linarith⟩

/-- **C61** constant data flags nothing, whatever the thresholds. -/
theorem C61_constant (b : Bool) (c : ℝ) (n : Nat) (hn : 0 < n) (f g kg ks : Fl ℝ) (tag : Int) (hk : ∃ k, ks = fin k)
    (htag : tag = 1 ∨ tag = 2) :
    acceleration ⟨1, b, fins (List.replicate n c)⟩ f tag g kg ks = .ok [] := by
  obtain ⟨k, rfl⟩ := hk
  have hne : List.replicate n c ≠ [] := by simpa using (by omega : n ≠ 0)
  have hv : Spec.var (List.replicate n c) = 0 := Spec.var_eq_zero.mpr (by
    intro x hx y hy
    rw [List.eq_of_mem_replicate hx, List.eq_of_mem_replicate hy])
  have hmean : npMean (fins (List.replicate n c)) = (fin c : Fl ℝ) := by
    have := npMean_fins (List.replicate n c) hne
    rw [show npMean (fins (List.replicate n c)) = _ from this]
    have hn' : (n : ℝ) ≠ 0 := by exact_mod_cast (by omega : n ≠ 0)
    simp [List.sum_replicate, hn']
  have hstd : npStd (fins (List.replicate n c)) = (fin 0 : Fl ℝ) := by
    rw [npStd_fins _ hne, hv, Real.sqrt_zero]
  obtain ⟨r, hr⟩ := (C60_errors (⟨1, b, fins (List.replicate n c)⟩ : Arr (Fl ℝ)) f tag g kg (fin k)).1.mpr
    ⟨rfl, by simpa using (by omega : n ≠ 0), htag⟩
  rw [hr]
  congr 1
  apply List.eq_nil_iff_forall_not_mem.mpr
  intro i hi
  rcases htag with rfl | rfl
  · obtain ⟨x, hx, hx', _⟩ := ((C60_tag1 _ _ _ _ _ r hr).2 i).mp hi
    obtain ⟨x, hx0, rfl⟩ := (fins_get _ i x).mp hx
    have : x = c := List.eq_of_mem_replicate (List.mem_of_getElem? hx0)
    subst this
    simp only [hmean, hstd] at hx'
    simp at hx'
  · obtain ⟨x, hx, hx', _⟩ := ((C60_tag2 _ _ _ _ _ r hr).2 i).mp hi
    obtain ⟨x, hx0, rfl⟩ := (fins_get _ i x).mp hx
    have : x = c := List.eq_of_mem_replicate (List.mem_of_getElem? hx0)
    subst this
    simp only [hmean, hstd] at hx'
    simp at hx'

/-! ## C78 -/

/-- **C78** (every float arithmetic, arrays of equal length) the rate is `100 * (upper + lower) / n`, with both counts
read off the comparisons of the code; other lengths (neither 1) and invalid `x` are rejected. -/
theorem C78_count {F : Type} [PyMath F] (b : Bool) (x xfil : List F) (k : F) (hx : x ≠ [])
    (hl : x.length = xfil.length) :
    pollutionRate ⟨1, b, x⟩ xfil k = .ok (ofNat
      (((List.zip x xfil).countP (fun p => (p.2 +. k *. npStd x) <. p.1)) +
        ((List.zip x xfil).countP (fun p => p.1 <. (PyNum.neg p.2 -. k *. npStd x)))) /. ofNat x.length *. lit 100) := by
  have hc : ∀ (f : F → F → Bool), (whereTrue (List.zipWith f x xfil)).length =
      (List.zip x xfil).countP (fun p => f p.1 p.2) := by
    intro f
    have e : List.zipWith f x xfil = (List.zip x xfil).map (fun p => f p.1 p.2) := by
      rw [List.zip, List.map_zipWith]
    rw [e]
    generalize List.zip x xfil = l
    unfold whereTrue
    induction l with
    | nil => rfl
    | cons p t ih =>
      rw [List.map_cons, List.length_cons, List.range_succ_eq_map, List.filter_cons, List.countP_cons]
      rw [List.length_map] at ih
      have : (List.filter (fun i => (f p.1 p.2 :: t.map (fun p => f p.1 p.2)).getD i false)
          ((List.range (t.map (fun p => f p.1 p.2)).length).map Nat.succ)).length =
          (List.filter (fun i => (t.map (fun p => f p.1 p.2)).getD i false)
          (List.range t.length)).length := by
        rw [List.filter_map, List.length_map, List.length_map]
        rfl
      rw [List.getD_cons_zero]
      cases hf : f p.1 p.2
      · simp only [Bool.false_eq_true, if_false]
        rw [hf] at this
        rw [this, ih, add_zero]
      · simp only [if_true, List.length_cons]
        rw [hf] at this
        rw [this, ih]
  unfold pollutionRate
  rw [std_eq b x hx]
  simp only [bind, Except.bind, bcast_same _ hl, hc]

/-- **C78** rejections (every float arithmetic). -/
theorem C78_errors {F : Type} [PyMath F] (x : Arr F) (xfil : List F) (k : F) :
    (x.ndim ≠ 1 ∨ x.data = [] → pollutionRate x xfil k = .error .valueError) ∧
    (x.ndim = 1 → x.data.length ≠ xfil.length → x.data.length ≠ 1 → xfil.length ≠ 1 →
      pollutionRate x xfil k = .error .valueError) := by
  obtain ⟨nd, b, d⟩ := x
  have h0 : nd ≠ 1 ∨ d = [] → pollutionRate ⟨nd, b, d⟩ xfil k = .error .valueError := by
    rintro (h | h)
    · simp [pollutionRate, std, stdItems, h, bind, Except.bind]
    · subst h
      by_cases hn : nd = 1 <;> simp [pollutionRate, std, stdItems, hn, bind, Except.bind]
  refine ⟨h0, ?_⟩
  simp only
  rintro rfl h1 h2 h3
  by_cases hd : d = []
  · exact h0 (Or.inr hd)
  · unfold pollutionRate
    rw [std_eq b d hd]
    have : ∀ f : F → F → Bool, bcast f d xfil = .error .valueError := by
      intro f
      unfold bcast
      rw [if_neg h1]
      split
      · simp at h2
      · simp at h3
      · rfl
    simp only [bind, Except.bind, this]

/-- **C78** the rate lies in `[0, 100]` when every band `xfil + k*std` is non-negative. -/
theorem C78_percentage (b : Bool) (ps : List (ℝ × ℝ)) (hx : ps ≠ []) (k : ℝ)
    (hband : ∀ p ∈ ps, 0 ≤ p.2 + k * √(Spec.var (ps.map Prod.fst))) :
    ∃ q, pollutionRate ⟨1, b, fins (ps.map Prod.fst)⟩ (fins (ps.map Prod.snd)) (fin k) = .ok (fin q) ∧
      0 ≤ q ∧ q ≤ 100 ∧
      q = 100 * (((ps.countP (fun p => p.2 + k * √(Spec.var (ps.map Prod.fst)) < p.1)) +
        (ps.countP (fun p => p.1 < -p.2 - k * √(Spec.var (ps.map Prod.fst)))) : Nat) : ℝ) / ps.length := by
  have hne : ps.map Prod.fst ≠ [] := by simpa using hx
  have hc := C78_count b (fins (ps.map Prod.fst)) (fins (ps.map Prod.snd)) (fin k) (by simpa using hx) (by simp)
  have hz : List.zip (fins (ps.map Prod.fst)) (fins (ps.map Prod.snd)) =
      ps.map (fun p => ((fin p.1 : Fl ℝ), (fin p.2 : Fl ℝ))) := by
    simp only [fins, List.map_map, List.zip_map']; rfl
  rw [hz, npStd_fins _ hne, List.countP_map, List.countP_map] at hc
  set s := √(Spec.var (ps.map Prod.fst)) with hs
  have e1 : ps.countP ((fun p : Fl ℝ × Fl ℝ => (p.2 +. fin k *. fin s) <. p.1) ∘ fun p => (fin p.1, fin p.2)) =
      ps.countP (fun p => p.2 + k * s < p.1) := by congr 1
  have e2 : ps.countP ((fun p : Fl ℝ × Fl ℝ => p.1 <. (PyNum.neg p.2 -. fin k *. fin s)) ∘ fun p => (fin p.1, fin p.2)) =
      ps.countP (fun p => p.1 < -p.2 - k * s) := by congr 1
  rw [e1, e2] at hc
  have hlen : (ps.length : ℝ) ≠ 0 := by simpa using hx
  have hpos : (0 : ℝ) < ps.length := lt_of_le_of_ne (by positivity) (Ne.symm hlen)
  simp only [ofNat_eq, List.length_map, lit_eq, pdiv_fin hlen, pmul_fin] at hc
  have hle : ps.countP (fun p => p.2 + k * s < p.1) + ps.countP (fun p => p.1 < -p.2 - k * s) ≤ ps.length := by
    have h1 : ps.countP (fun p => p.1 < -p.2 - k * s) ≤ ps.countP (fun p => !decide (p.2 + k * s < p.1)) := by
      apply List.countP_mono_left
      intro p hp h
      have h0 := hband p hp
      have h : p.1 < -p.2 - k * s := by simpa using h
      simp only [Bool.not_eq_true', decide_eq_false_iff_not, not_lt]
      linarith
    have h2 := List.length_eq_countP_add_countP (fun p : ℝ × ℝ => decide (p.2 + k * s < p.1)) (l := ps)
    have h3 : ps.countP (fun a => decide ¬(decide (a.2 + k * s < a.1) = true)) =
        ps.countP (fun p => !decide (p.2 + k * s < p.1)) := by
      congr 1; funext a; by_cases h : a.2 + k * s < a.1 <;> simp [h]
    omega
  have hle' : ((ps.countP (fun p => p.2 + k * s < p.1) + ps.countP (fun p => p.1 < -p.2 - k * s) : Nat) : ℝ) ≤
      ps.length := by exact_mod_cast hle
  refine ⟨_, hc, ?_, ?_, ?_⟩
  · positivity
  · rw [div_mul_eq_mul_div, div_le_iff₀ hpos]
    push_cast at hle' ⊢
    linarith
  · push_cast; ring

/-- **C78** false without the non-negative band: `x = [0]`, `xfil = [-1]`, `k = 0` counts the single sample twice (the
lower threshold is `+1`), giving 200 percent. -/
theorem C78_false : pollutionRate ⟨1, false, fins [(0 : ℝ)]⟩ (fins [-1]) (fin 0) = .ok (fin 200) := by
  have h0 : Spec.var [(0 : ℝ)] = 0 := Spec.var_eq_zero.mpr (by simp)
  rw [C78_count false (fins [(0 : ℝ)]) (fins [-1]) (fin 0) (by simp) rfl, npStd_fins _ (by simp)]
  simp [pdiv_fin]
  norm_num

example : ∀ p ∈ [((3 : ℝ), (1 : ℝ)), (1, 2)], 0 ≤ p.2 + 1 * √(Spec.var ([((3 : ℝ), (1 : ℝ)), (1, 2)].map Prod.fst)) := by
  have h := Real.sqrt_nonneg (Spec.var ([((3 : ℝ), (1 : ℝ)), (1, 2)].map Prod.fst))
  intro p hp
  simp only [List.mem_cons, List.not_mem_nil, or_false] at hp
  rcases hp with rfl | rfl <;> simp only [one_mul] <;> linarith

end Proadv.Props
