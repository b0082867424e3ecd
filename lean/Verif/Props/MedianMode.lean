import Verif.Lemmas.Descriptive
import Mathlib.Algebra.Order.Ring.Rat
import Mathlib.Data.List.Count

/-!
# Properties C04–C06: `median` and `mode` of `statistics/descriptive.py`
-/

set_option linter.unusedSectionVars false

namespace Proadv.Props

open Proadv Fl Descriptive

variable {K : Type} [Field K] [LinearOrder K] [FloorRing K]

/-! ## C04 -/

/-- middle element(s) of a sorted list: textbook definition of the median -/
def midpoint (s : List K) : K :=
  if s.length % 2 = 1 then s.getD (s.length / 2) 0
  else (s.getD (s.length / 2 - 1) 0 + s.getD (s.length / 2) 0) / 2

variable [IsStrictOrderedRing K]

private theorem getD_fins (s : List K) (i : Nat) (h : i < s.length) :
    (fins s).getD i nan = fin (s.getD i 0) := by
  simp [List.getD, h]

theorem npMedian_fins (xs : List K) (h : xs ≠ []) :
    npMedian (fins xs) = fin (midpoint (xs.insertionSort (· ≤ ·))) := by
  have hlen : (xs.insertionSort (· ≤ ·)).length = xs.length := List.length_insertionSort _ _
  have hpos := List.length_pos_iff.mpr h
  have h0 : (fins xs).any PyNum.isNaN = false := by simp
  unfold npMedian midpoint
  rw [h0, npSort_fins]
  simp only [Bool.false_eq_true, if_false, List.length_map, pynan, hlen]
  rw [if_neg (by omega)]
  split
  · rw [getD_fins _ _ (by omega)]
  · rw [getD_fins _ _ (by omega), getD_fins _ _ (by omega)]
    simp only [padd_fin, lit_eq]
    rw [pdiv_fin (by norm_num)]
    norm_num

/-- **C04** the returned value is the middle of the sorted data, whatever sorted rearrangement is used. -/
theorem C04_median_value (b : Bool) (xs s : List K) (h : xs ≠ []) (hp : s.Perm xs) (hs : s.Pairwise (· ≤ ·)) :
    median ⟨1, b, xs.map (fun x => .num (fin x))⟩ = .ok (fin (midpoint s)) := by
  have hse : s = xs.insertionSort (· ≤ ·) :=
    List.Perm.eq_of_pairwise (fun a b _ _ => le_antisymm) hs (List.pairwise_insertionSort _ _)
      (hp.trans (List.perm_insertionSort _ _).symm)
  have h1 : xs.map (fun x => (Item.num (fin x) : Item (Fl K))) = numItems (fins xs) := by simp [Function.comp_def]
  unfold median
  simp only [h1, any_isStr_numItems, filterMap_val_numItems, List.length_map, ne_eq, not_true_eq_false, if_false,
    Bool.false_eq_true]
  rw [if_neg (by simpa using h), npMedian_fins xs h, hse]

private theorem midpoint_bounds (s : List K) (hs : s.Pairwise (· ≤ ·)) (h : s ≠ []) :
    (∀ i (hi : i < s.length), 2 * i < s.length → s[i] ≤ midpoint s) ∧
    (∀ i (hi : i < s.length), s.length ≤ 2 * i + 1 → midpoint s ≤ s[i]) := by
  have hpos := List.length_pos_iff.mpr h
  have mono : ∀ i j (hi : i < s.length) (hj : j < s.length), i ≤ j → s[i] ≤ s[j] := by
    intro i j hi hj hij
    rcases hij.eq_or_lt with rfl | hlt
    · exact le_rfl
    · exact List.pairwise_iff_getElem.mp hs i j hi hj hlt
  have gD : ∀ i (hi : i < s.length), s.getD i 0 = s[i] := by
    intro i hi; simp [List.getD, hi]
  constructor
  · intro i hi h2
    unfold midpoint
    split
    · rw [gD _ (by omega)]; exact mono _ _ _ _ (by omega)
    · rw [gD _ (by omega), gD _ (by omega)]
      have h3 := mono i (s.length / 2 - 1) hi (by omega) (by omega)
      have h4 := mono i (s.length / 2) hi (by omega) (by omega)
      linarith
  · intro i hi h2
    unfold midpoint
    split
    · rw [gD _ (by omega)]; exact mono _ _ _ _ (by omega)
    · rw [gD _ (by omega), gD _ (by omega)]
      have h3 := mono (s.length / 2 - 1) i (by omega) hi (by omega)
      have h4 := mono (s.length / 2) i (by omega) hi (by omega)
      linarith

/-- **C04** at least half of the samples are `≤` the median, at least half are `≥` it, and it lies between two
samples. -/
theorem C04_median_halves (b : Bool) (xs : List K) (h : xs ≠ []) :
    ∃ m, median ⟨1, b, xs.map (fun x => .num (fin x))⟩ = .ok (fin m) ∧
      xs.length ≤ 2 * xs.countP (fun x => decide (x ≤ m)) ∧
      xs.length ≤ 2 * xs.countP (fun x => decide (m ≤ x)) ∧
      (∃ lo ∈ xs, lo ≤ m) ∧ (∃ hi ∈ xs, m ≤ hi) := by
  set s := xs.insertionSort (· ≤ ·) with hsdef
  have hp : s.Perm xs := List.perm_insertionSort _ _
  have hs : s.Pairwise (· ≤ ·) := List.pairwise_insertionSort _ _
  have hne : s ≠ [] := by intro h0; rw [h0] at hp; exact h (List.Perm.nil_eq hp).symm
  have hpos := List.length_pos_iff.mpr hne
  have hlen := hp.length_eq
  obtain ⟨hlo, hhi⟩ := midpoint_bounds s hs hne
  have c1 : xs.length ≤ 2 * xs.countP (fun x => decide (x ≤ midpoint s)) := by
    rw [← hp.countP_eq, ← hlen]
    have h1 : (s.take ((s.length + 1) / 2)).countP (fun x => decide (x ≤ midpoint s)) = (s.length + 1) / 2 := by
      rw [List.countP_eq_length.mpr, List.length_take]
      · omega
      · intro x hx
        obtain ⟨i, hi, rfl⟩ := List.mem_iff_getElem.mp hx
        rw [List.length_take] at hi
        rw [List.getElem_take]
        simpa using hlo i (by omega) (by omega)
    have h2 := (List.take_sublist ((s.length + 1) / 2) s).countP_le (p := fun x => decide (x ≤ midpoint s))
    omega
  have c2 : xs.length ≤ 2 * xs.countP (fun x => decide (midpoint s ≤ x)) := by
    rw [← hp.countP_eq, ← hlen]
    have h1 : (s.drop (s.length / 2)).countP (fun x => decide (midpoint s ≤ x)) = s.length - s.length / 2 := by
      rw [List.countP_eq_length.mpr, List.length_drop]
      · intro x hx
        obtain ⟨i, hi, rfl⟩ := List.mem_iff_getElem.mp hx
        rw [List.length_drop] at hi
        rw [List.getElem_drop]
        simpa using hhi (s.length / 2 + i) (by omega) (by omega)
    have h2 := (List.drop_sublist (s.length / 2) s).countP_le (p := fun x => decide (midpoint s ≤ x))
    omega
  refine ⟨midpoint s, C04_median_value b xs s h hp hs, c1, c2, ⟨s[0], ?_, ?_⟩, ⟨s[s.length - 1], ?_, ?_⟩⟩
  · exact hp.mem_iff.mp (List.getElem_mem _)
  · exact hlo 0 hpos (by omega)
  · exact hp.mem_iff.mp (List.getElem_mem _)
  · exact hhi _ (by omega) (by omega)

/-- **C04** error branches, in source order, for every float arithmetic. -/
theorem C04_median_errors {F : Type} [PyNum F] (a : Arr (Item F)) :
    (a.ndim ≠ 1 → median a = .error .valueError) ∧
    (a.ndim = 1 → (∃ s, Item.str s ∈ a.data) → median a = .error .typeError) ∧
    (a.ndim = 1 → a.data = [] → median a = .error .valueError) ∧
    ((∃ v, median a = .ok v) ↔ a.ndim = 1 ∧ (∀ s, Item.str s ∉ a.data) ∧ a.data ≠ []) := by
  obtain ⟨nd, b, d⟩ := a
  refine ⟨fun h => by simp [median, h], fun h hs => ?_, fun h hd => ?_, ?_⟩
  · simp only at h hs; simp [median, h, (any_isStr_iff d).mpr hs]
  · simp only at h hd; subst h hd; rfl
  · simp only
    by_cases h1 : nd = 1
    · by_cases h2 : d.any Item.isStr = true
      · obtain ⟨s, hs⟩ := (any_isStr_iff d).mp h2
        simp only [median, h1, h2]
        simp only [ne_eq, not_true_eq_false, if_false, if_true]
        constructor
        · rintro ⟨v, hv⟩; cases hv
        · rintro ⟨-, h, -⟩; exact absurd hs (h s)
      · have h3 : ∀ s, Item.str s ∉ d := fun s hs => h2 ((any_isStr_iff d).mpr ⟨s, hs⟩)
        by_cases h4 : d = []
        · subst h4; simp [median]
        · simp [median, h1, h2, h3, h4]
    · simp [median, h1]

/-- a NaN sample makes the median NaN (it does not raise) -/
theorem C04_median_nan (b : Bool) (l : List (Fl K)) (h : nan ∈ l) :
    median ⟨1, b, l.map Item.num⟩ = .ok nan := by
  have h0 : l.any PyNum.isNaN = true := List.any_eq_true.mpr ⟨nan, h, rfl⟩
  have hne : l ≠ [] := by rintro rfl; simp at h
  have h1 := filterMap_val_numItems l
  have h2 := any_isStr_numItems l
  simp only [numItems] at h1 h2
  simp only [median, h1, h2]
  simp [npMedian, h0, hne]

example : median ⟨1, false, [.num (fin 5), .num (fin 1), .num (fin 4), .num (fin (2 : ℚ))]⟩ = .ok (fin 3) := by
  decide +kernel

/-! ## C05 -/

/-- **C05** `median` depends only on the multiset of samples (special values included). -/
theorem C05_median_perm (b b' : Bool) (l l' : List (Fl K)) (h : l.Perm l') :
    median ⟨1, b, l.map Item.num⟩ = median ⟨1, b', l'.map Item.num⟩ := by
  have e : ∀ c (m : List (Fl K)), median ⟨1, c, m.map Item.num⟩ =
      if m.length = 0 then .error .valueError else .ok (npMedian m) := by
    intro c m
    have h1 := filterMap_val_numItems m
    have h2 := any_isStr_numItems m
    simp only [numItems] at h1 h2
    simp only [median, h1, h2]; simp
  rw [e, e, h.length_eq]
  split
  · rfl
  · unfold npMedian
    rw [npSort_eq_of_perm h, h.any_eq]

/-- **C05** `mode` depends only on the multiset of samples. -/
theorem C05_mode_perm (l l' : List (Fl K)) (h : l.Perm l') : mode l = mode l' := by
  unfold mode; rw [npSort_eq_of_perm h]

private theorem midpoint_map (a b : K) (s : List K) (h : s ≠ []) :
    midpoint (s.map (fun x => a * x + b)) = a * midpoint s + b := by
  have hpos := List.length_pos_iff.mpr h
  have g : ∀ i, i < s.length → (s.map (fun x => a * x + b)).getD i 0 = a * s.getD i 0 + b := by
    intro i hi; simp [List.getD, hi]
  unfold midpoint
  rw [List.length_map]
  split
  · rw [g _ (by omega)]
  · rw [g _ (by omega), g _ (by omega)]; ring

private theorem midpoint_reverse (s : List K) (h : s ≠ []) : midpoint s.reverse = midpoint s := by
  have hpos := List.length_pos_iff.mpr h
  have g : ∀ i j, i + j + 1 = s.length → s.reverse.getD i 0 = s.getD j 0 := by
    intro i j hij
    have hi : i < s.reverse.length := by rw [List.length_reverse]; omega
    have hj : j < s.length := by omega
    simp only [List.getD, List.getElem?_eq_getElem hi, List.getElem?_eq_getElem hj, List.getElem_reverse]
    simp only [Option.getD_some]
    congr 1; omega
  unfold midpoint
  rw [List.length_reverse]
  split
  · rw [g _ (s.length / 2) (by omega)]
  · rw [g (s.length / 2 - 1) (s.length / 2) (by omega), g (s.length / 2) (s.length / 2 - 1) (by omega), add_comm]

/-- **C05** affine equivariance of the median, for every factor (negative ones reverse the order). -/
theorem C05_median_affine (c d : Bool) (xs : List K) (h : xs ≠ []) (a b : K) :
    ∃ m, median ⟨1, c, xs.map (fun x => .num (fin x))⟩ = .ok (fin m) ∧
      median ⟨1, d, xs.map (fun x => .num (fin (a * x + b)))⟩ = .ok (fin (a * m + b)) := by
  set s := xs.insertionSort (· ≤ ·) with hsdef
  have hp : s.Perm xs := List.perm_insertionSort _ _
  have hs : s.Pairwise (· ≤ ·) := List.pairwise_insertionSort _ _
  have hne : s ≠ [] := by intro h0; rw [h0] at hp; exact h (List.Perm.nil_eq hp).symm
  refine ⟨midpoint s, C04_median_value c xs s h hp hs, ?_⟩
  have hne' : xs.map (fun x => a * x + b) ≠ [] := by simpa using h
  have hm : (xs.map (fun x => a * x + b)).map (fun x => (Item.num (fin x) : Item (Fl K))) =
      xs.map (fun x => .num (fin (a * x + b))) := by rw [List.map_map]; rfl
  rw [← hm]
  rcases le_total 0 a with ha | ha
  · rw [C04_median_value d _ (s.map (fun x => a * x + b)) hne' (hp.map _), midpoint_map a b s hne]
    rw [List.pairwise_map]
    exact hs.imp (fun hxy => by nlinarith)
  · rw [C04_median_value d _ (s.map (fun x => a * x + b)).reverse hne'
      ((List.reverse_perm _).trans (hp.map _)), midpoint_reverse _ (by simpa using hne), midpoint_map a b s hne]
    rw [List.pairwise_reverse, List.pairwise_map]
    exact hs.imp (fun hxy => by nlinarith)

example : median ⟨1, false, [.num (fin 5), .num nan, .num (pinf : Fl ℚ)]⟩ = .ok nan := by decide +kernel

/-! ## C06 -/

omit [IsStrictOrderedRing K] in
private theorem sameVal_iff (a b : Fl K) : sameVal a b = true ↔ a = b := by
  cases a <;> cases b <;> simp [sameVal, PyNum.eq, Fl.eq, isNaN_def, Fl.isNaN]

/-- strict version of numpy's sort order (NaN is the largest value) -/
def ltN (a b : Fl K) : Prop := leN a b = true ∧ a ≠ b

omit [IsStrictOrderedRing K] in
private theorem runs_spec (l : List (Fl K)) (hs : l.Pairwise (fun a b => leN a b = true)) :
    (∀ x, x ∈ l ↔ x ∈ (runs l).map Prod.fst) ∧
    (∀ q ∈ runs l, q.2 = l.count q.1) ∧
    (runs l).Pairwise (fun p q => ltN p.1 q.1) := by
  induction l with
  | nil => simp [runs]
  | cons x t ih =>
    obtain ⟨hxt, hst⟩ := List.pairwise_cons.mp hs
    obtain ⟨h1, h2, h3⟩ := ih hst
    simp only [runs]
    cases hr : runs t with
    | nil =>
      have ht : t = [] := by
        cases t with
        | nil => rfl
        | cons y u => have := (h1 y).mp (by simp); simp [hr] at this
      subst ht; simp
    | cons q r =>
      obtain ⟨y, c⟩ := q
      rw [hr] at h1 h2 h3
      obtain ⟨h3a, h3b⟩ := List.pairwise_cons.mp h3
      have hyt : y ∈ t := (h1 y).mpr (by simp)
      simp only
      by_cases hsv : sameVal x y = true
      · have hxy := (sameVal_iff x y).mp hsv
        subst hxy
        rw [if_pos hsv]
        refine ⟨fun z => ?_, fun q hq => ?_, ?_⟩
        · rw [List.mem_cons, h1 z]; simp
        · rcases List.mem_cons.mp hq with rfl | hq
          · have := h2 (x, c) (by simp); simp only at this
            simp [this]
          · have hne : x ≠ q.1 := (h3a q hq).2
            rw [List.count_cons_of_ne hne]
            exact h2 q (by simp [hq])
        · exact List.pairwise_cons.mpr ⟨h3a, h3b⟩
      · have hxy : x ≠ y := fun h => hsv ((sameVal_iff x y).mpr h)
        rw [if_neg hsv]
        have hxy' : ltN x y := ⟨hxt y hyt, hxy⟩
        have hxr : ∀ q ∈ r, ltN x q.1 := by
          intro q hq
          have hyq := h3a q hq
          refine ⟨leN_trans hxy'.1 hyq.1, fun h => ?_⟩
          apply hxy
          exact leN_antisymm hxy'.1 (by rw [h]; exact hyq.1)
        have hxnt : x ∉ t := by
          intro hx
          have := (h1 x).mp hx
          rw [List.map_cons, List.mem_cons] at this
          rcases this with h | h
          · exact hxy h
          · obtain ⟨q, hq, hqx⟩ := List.mem_map.mp h
            exact (hxr q hq).2 hqx.symm
        refine ⟨fun z => ?_, fun q hq => ?_, ?_⟩
        · rw [List.mem_cons, h1 z]; simp
        · rcases List.mem_cons.mp hq with rfl | hq
          · simp [List.count_eq_zero_of_not_mem hxnt]
          · have hne : x ≠ q.1 := by
              rcases List.mem_cons.mp hq with rfl | hq
              · exact hxy
              · exact (hxr q hq).2
            rw [List.count_cons_of_ne hne]
            exact h2 q hq
        · refine List.pairwise_cons.mpr ⟨fun q hq => ?_, h3⟩
          rcases List.mem_cons.mp hq with rfl | hq
          · exact hxy'
          · exact hxr q hq

omit [IsStrictOrderedRing K] in
private theorem argmax_fold (t : List (Fl K × Nat)) (r : Fl K × Nat)
    (hs : (r :: t).Pairwise (fun p q => ltN p.1 q.1)) :
    let best := t.foldl (fun best q => if best.2 < q.2 then q else best) r
    best ∈ r :: t ∧ (∀ q ∈ r :: t, q.2 ≤ best.2) ∧ (∀ q ∈ r :: t, ltN q.1 best.1 → q.2 < best.2) := by
  induction t generalizing r with
  | nil => simp [ltN]
  | cons a t ih =>
    have hra : ltN r.1 a.1 := (List.pairwise_cons.mp hs).1 a (by simp)
    have hrt : ∀ q ∈ t, ltN r.1 q.1 := fun q hq => (List.pairwise_cons.mp hs).1 q (by simp [hq])
    have hat := (List.pairwise_cons.mp (List.pairwise_cons.mp hs).2)
    simp only [List.foldl_cons]
    by_cases hc : r.2 < a.2
    · rw [if_pos hc]
      obtain ⟨h1, h2, h3⟩ := ih a (List.pairwise_cons.mp hs).2
      have ha := h2 a (by simp)
      refine ⟨List.mem_cons_of_mem _ h1, fun q hq => ?_, fun q hq hlt => ?_⟩
      · rcases List.mem_cons.mp hq with rfl | hq
        · omega
        · exact h2 q hq
      · rcases List.mem_cons.mp hq with rfl | hq
        · omega
        · exact h3 q hq hlt
    · rw [if_neg hc]
      obtain ⟨h1, h2, h3⟩ := ih r (List.pairwise_cons.mpr ⟨hrt, hat.2⟩)
      have hr := h2 r (by simp)
      refine ⟨?_, fun q hq => ?_, fun q hq hlt => ?_⟩
      · rcases List.mem_cons.mp h1 with h | h
        · simp [h]
        · simp [h]
      · rcases List.mem_cons.mp hq with rfl | hq
        · exact hr
        · rcases List.mem_cons.mp hq with rfl | hq
          · omega
          · exact h2 q (by simp [hq])
      · rcases List.mem_cons.mp hq with rfl | hq
        · exact h3 _ (by simp) hlt
        · rcases List.mem_cons.mp hq with rfl | hq
          · -- `q` is the skipped entry: the best one is after it, hence strictly larger than `r`
            rcases List.mem_cons.mp h1 with h | h
            · -- best = r, but q < best = r contradicts r < q
              rw [h] at hlt
              exact absurd (leN_antisymm hlt.1 hra.1) (fun e => hra.2 e.symm)
            · have := h3 r (by simp) (hrt _ h)
              omega
          · exact h3 q (by simp [hq]) hlt

omit [IsStrictOrderedRing K] in
/-- **C06** `mode` returns a value with its exact multiplicity, no value is more frequent, and every smaller value is
strictly less frequent (NaNs count as one value, larger than all numbers). -/
theorem C06_mode (data : List (Fl K)) (h : data ≠ []) :
    ∃ v c, mode data = .ok (v, c) ∧ v ∈ data ∧ c = data.count v ∧ (∀ w, data.count w ≤ c) ∧
      (∀ w, ltN w v → data.count w < c) := by
  have hp := npSort_perm data
  obtain ⟨h1, h2, h3⟩ := runs_spec (npSort data) (npSort_sorted data)
  unfold mode
  cases hr : runs (npSort data) with
  | nil =>
    exfalso
    obtain ⟨x, hx⟩ := List.exists_mem_of_ne_nil _ h
    have := (h1 x).mp (hp.mem_iff.mpr hx)
    simp [hr] at this
  | cons r t =>
    rw [hr] at h1 h2 h3
    obtain ⟨b1, b2, b3⟩ := argmax_fold t r h3
    simp only [argmaxRun]
    set best := t.foldl (fun best q => if best.2 < q.2 then q else best) r
    have hc : best.2 = data.count best.1 := by rw [← hp.count_eq]; exact h2 best b1
    have hpos : 0 < best.2 := by
      rw [hc]
      apply List.count_pos_iff.mpr
      apply hp.mem_iff.mp
      exact (h1 best.1).mpr (List.mem_map.mpr ⟨best, b1, rfl⟩)
    refine ⟨best.1, best.2, rfl, List.count_pos_iff.mp (hc ▸ hpos), hc, fun w => ?_, fun w hw => ?_⟩
    · by_cases hw : w ∈ data
      · obtain ⟨q, hq, rfl⟩ := List.mem_map.mp ((h1 w).mp (hp.mem_iff.mpr hw))
        rw [← hp.count_eq, ← h2 q hq]; exact b2 q hq
      · rw [List.count_eq_zero_of_not_mem hw]; omega
    · by_cases hwd : w ∈ data
      · obtain ⟨q, hq, rfl⟩ := List.mem_map.mp ((h1 w).mp (hp.mem_iff.mpr hwd))
        rw [← hp.count_eq, ← h2 q hq]; exact b3 q hq hw
      · rw [List.count_eq_zero_of_not_mem hwd]; exact hpos

/-- **C06** empty data raises ValueError. -/
theorem C06_mode_empty {F : Type} [PyNum F] : mode ([] : List F) = .error .valueError := rfl

example : mode [fin 7, fin 3, fin 7, fin 3, fin (9 : ℚ), nan, nan] = .ok (fin 3, 2) := by decide +kernel

end Proadv.Props
