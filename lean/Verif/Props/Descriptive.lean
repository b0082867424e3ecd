import Verif.Lemmas.Descriptive
import Mathlib.Algebra.Order.Ring.Rat
import Mathlib.Tactic.NormNum
import Mathlib.Data.List.TakeWhile

/-!
# Properties C01–C06: `statistics/descriptive.py`
-/

set_option linter.unusedSectionVars false

namespace Proadv.Props

open Proadv Fl Descriptive

variable {K : Type} [Field K] [LinearOrder K] [FloorRing K]

/-! ## C01 -/

/-- **C01** (min).  Complete input/output specification of `min`: error branches in order, and otherwise an attained
lower bound.  Infinite values are allowed. -/
theorem C01_min (data : List (Item (Fl K))) :
    ((∃ s, Item.str s ∈ data) → Descriptive.min data = .error .typeError) ∧
    ((∀ s, Item.str s ∉ data) → (∃ i ∈ data, i.val? = some nan) → Descriptive.min data = .error .valueError) ∧
    (data = [] → Descriptive.min data = .error .valueError) ∧
    ((∀ s, Item.str s ∉ data) → (∀ i ∈ data, i.val? ≠ some nan) → data ≠ [] →
      ∃ r, Descriptive.min data = .ok r ∧ (∃ i ∈ data, i.val? = some r) ∧
        ∀ i ∈ data, ∀ y, i.val? = some y → (r ≤. y) = true) := by
  refine ⟨fun h => ?_, fun hs hn => ?_, fun h => ?_, fun hs hn hne => ?_⟩
  · simp [Descriptive.min, (any_isStr_iff data).mpr h]
  · have h0 : data.any Item.isStr = false := by
      rw [Bool.eq_false_iff, ne_eq, any_isStr_iff]; rintro ⟨s, h⟩; exact hs s h
    have h1 : (data.filterMap Item.val?).any PyNum.isNaN = true := by
      obtain ⟨i, hi, h⟩ := hn
      rw [List.any_eq_true]
      exact ⟨nan, List.mem_filterMap.mpr ⟨i, hi, h⟩, rfl⟩
    simp [Descriptive.min, h0, h1]
  · subst h; rfl
  · have h0 : data.any Item.isStr = false := by
      rw [Bool.eq_false_iff, ne_eq, any_isStr_iff]; rintro ⟨s, h⟩; exact hs s h
    have hN : ∀ y ∈ data.filterMap Item.val?, PyNum.isNaN y = false := by
      intro y hy
      obtain ⟨i, hi, h⟩ := List.mem_filterMap.mp hy
      cases y <;> simp
      exact hn i hi h
    have h1 : (data.filterMap Item.val?).any PyNum.isNaN = false := by
      rw [List.any_eq_false]; intro y hy; simp [hN y hy]
    have hl := length_filterMap_val data h0
    simp only [Descriptive.min, h0, h1, Bool.false_eq_true, if_false]
    generalize hx : data.filterMap Item.val? = xs at *
    cases xs with
    | nil => simp at hl; exact absurd hl.symm (by simpa using hne)
    | cons x t =>
      obtain ⟨hm, hle⟩ := foldl_min_spec t x (hN x (by simp)) (fun y hy => hN y (by simp [hy]))
      refine ⟨_, rfl, ?_, ?_⟩
      · rw [← hx] at hm; exact List.mem_filterMap.mp hm
      · intro i hi y hy
        exact hle y (by rw [← hx]; exact List.mem_filterMap.mpr ⟨i, hi, hy⟩)

/-- **C01** (max). -/
theorem C01_max (data : List (Item (Fl K))) :
    ((∃ s, Item.str s ∈ data) → Descriptive.max data = .error .typeError) ∧
    ((∀ s, Item.str s ∉ data) → (∃ i ∈ data, i.val? = some nan) → Descriptive.max data = .error .valueError) ∧
    (data = [] → Descriptive.max data = .error .valueError) ∧
    ((∀ s, Item.str s ∉ data) → (∀ i ∈ data, i.val? ≠ some nan) → data ≠ [] →
      ∃ r, Descriptive.max data = .ok r ∧ (∃ i ∈ data, i.val? = some r) ∧
        ∀ i ∈ data, ∀ y, i.val? = some y → (y ≤. r) = true) := by
  refine ⟨fun h => ?_, fun hs hn => ?_, fun h => ?_, fun hs hn hne => ?_⟩
  · simp [Descriptive.max, (any_isStr_iff data).mpr h]
  · have h0 : data.any Item.isStr = false := by
      rw [Bool.eq_false_iff, ne_eq, any_isStr_iff]; rintro ⟨s, h⟩; exact hs s h
    have h1 : (data.filterMap Item.val?).any PyNum.isNaN = true := by
      obtain ⟨i, hi, h⟩ := hn
      rw [List.any_eq_true]
      exact ⟨nan, List.mem_filterMap.mpr ⟨i, hi, h⟩, rfl⟩
    simp [Descriptive.max, h0, h1]
  · subst h; rfl
  · have h0 : data.any Item.isStr = false := by
      rw [Bool.eq_false_iff, ne_eq, any_isStr_iff]; rintro ⟨s, h⟩; exact hs s h
    have hN : ∀ y ∈ data.filterMap Item.val?, PyNum.isNaN y = false := by
      intro y hy
      obtain ⟨i, hi, h⟩ := List.mem_filterMap.mp hy
      cases y <;> simp
      exact hn i hi h
    have h1 : (data.filterMap Item.val?).any PyNum.isNaN = false := by
      rw [List.any_eq_false]; intro y hy; simp [hN y hy]
    have hl := length_filterMap_val data h0
    simp only [Descriptive.max, h0, h1, Bool.false_eq_true, if_false]
    generalize hx : data.filterMap Item.val? = xs at *
    cases xs with
    | nil => simp at hl; exact absurd hl.symm (by simpa using hne)
    | cons x t =>
      obtain ⟨hm, hle⟩ := foldl_max_spec t x (hN x (by simp)) (fun y hy => hN y (by simp [hy]))
      refine ⟨_, rfl, ?_, ?_⟩
      · rw [← hx] at hm; exact List.mem_filterMap.mp hm
      · intro i hi y hy
        exact hle y (by rw [← hx]; exact List.mem_filterMap.mpr ⟨i, hi, hy⟩)

/-- non-vacuity: every branch is reachable -/
example : Descriptive.min [.num (fin 3), .npnum (fin (-2)), .num (pinf : Fl ℚ)] = .ok (fin (-2)) := by decide +kernel
example : Descriptive.max [.num (fin 3), .npnum (fin (-2)), .num (ninf : Fl ℚ)] = .ok (fin 3) := by decide +kernel
example : Descriptive.min [.num nan, .str "1", .num (fin (1 : ℚ))] = .error .typeError := by decide +kernel
example : Descriptive.min [.num nan, .num (fin (1 : ℚ))] = .error .valueError := by decide +kernel

/-! ## C02 -/

section C02
variable [IsStrictOrderedRing K]

/-- **C02** mean of a non-empty list of ordinary numbers, Python or numpy ones, is `sum / len`; the conversion
function for strings is irrelevant. -/
theorem C02_mean_value (parse : String → Option (Fl K)) (xs : List K) (h : xs ≠ []) :
    mean parse (.seq (xs.map (fun x => .num (fin x)))) = .ok (.val (fin (xs.sum / xs.length))) ∧
    mean parse (.seq (xs.map (fun x => .npnum (fin x)))) = .ok (.val (fin (xs.sum / xs.length))) := by
  have hl : (xs.length : K) ≠ 0 := by simpa using h
  constructor
  · have := mean_numItems parse (fins xs) (by simpa using h)
    rw [npMean_fins xs h] at this
    rw [← this]; simp [Function.comp_def]
  · have h1 : (xs.map (fun x => (Item.npnum (fin x) : Item (Fl K)))).foldl (meanStep parse)
        (xs.map (fun x => .npnum (fin x))) = xs.map (fun x => .npnum (fin x)) := by
      have gen : ∀ (l : List K) (a : List (Item (Fl K))),
          (l.map (fun x => (Item.npnum (fin x) : Item (Fl K)))).foldl (meanStep parse) a = a := by
        intro l
        induction l with
        | nil => intro a; rfl
        | cons x t ih => intro a; simp only [List.map_cons, List.foldl_cons, meanStep]; exact ih a
      exact gen xs _
    have h2 : (xs.map (fun x => (Item.npnum (fin x) : Item (Fl K)))).filterMap Item.val? = fins xs := by
      rw [List.filterMap_map, show (Item.val? ∘ fun x : K => (Item.npnum (fin x) : Item (Fl K))) =
        fun x => some (fin x) from rfl, List.filterMap_eq_map']
    have h3 : (xs.map (fun x => (Item.npnum (fin x) : Item (Fl K)))).all Item.isPyNum = false := by
      cases xs with
      | nil => simp at h
      | cons x t => simp [Item.isPyNum]
    have h4 : (xs.map (fun x => (Item.npnum (fin x) : Item (Fl K)))).any Item.isStr = false := by
      simp [Item.isStr]
    have h5 : (xs.map (fun x => (Item.npnum (fin x) : Item (Fl K)))).length ≠ 0 := by simpa using h
    simp only [mean, h3, h5, h1, sumOverSize, h4, h2, Bool.false_eq_true, and_false, if_false, ne_eq,
      not_false_eq_true, if_true, psum_fin]
    rw [List.length_map, ofNat_eq, pdiv_fin hl]

/-- **C02** the mean lies between `min` and `max` of the same data. -/
theorem C02_mean_between (parse : String → Option (Fl K)) (xs : List K) (h : xs ≠ []) :
    ∃ lo hi m, Descriptive.min (xs.map (fun x => .num (fin x))) = .ok lo ∧
      Descriptive.max (xs.map (fun x => .num (fin x))) = .ok hi ∧
      mean parse (.seq (xs.map (fun x => .num (fin x)))) = .ok (.val m) ∧
      (lo ≤. m) = true ∧ (m ≤. hi) = true := by
  have hs : ∀ s, Item.str s ∉ xs.map (fun x => (Item.num (fin x) : Item (Fl K))) := by simp
  have hn : ∀ i ∈ xs.map (fun x => (Item.num (fin x) : Item (Fl K))), i.val? ≠ some nan := by
    intro i hi; obtain ⟨x, _, rfl⟩ := List.mem_map.mp hi; simp [Item.val?]
  have hne : xs.map (fun x => (Item.num (fin x) : Item (Fl K))) ≠ [] := by simpa using h
  obtain ⟨lo, hlo, ⟨i, hi, hi'⟩, hle⟩ := (C01_min _).2.2.2 hs hn hne
  obtain ⟨hi2, hhi, ⟨j, hj, hj'⟩, hge⟩ := (C01_max _).2.2.2 hs hn hne
  refine ⟨lo, hi2, _, hlo, hhi, (C02_mean_value parse xs h).1, ?_, ?_⟩
  · obtain ⟨x, hx, rfl⟩ := List.mem_map.mp hi
    simp only [Item.val?, Option.some.injEq] at hi'
    subst hi'
    simp only [ple_fin, decide_eq_true_eq]
    apply Spec.le_avg h
    intro y hy
    have := hle _ (List.mem_map.mpr ⟨y, hy, rfl⟩) _ rfl
    simpa using this
  · obtain ⟨x, hx, rfl⟩ := List.mem_map.mp hj
    simp only [Item.val?, Option.some.injEq] at hj'
    subst hj'
    simp only [ple_fin, decide_eq_true_eq]
    apply Spec.avg_le h
    intro y hy
    have := hge _ (List.mem_map.mpr ⟨y, hy, rfl⟩) _ rfl
    simpa using this

/-- **C02** affine equivariance. -/
theorem C02_mean_affine (parse : String → Option (Fl K)) (xs : List K) (h : xs ≠ []) (a b : K) :
    ∃ m, mean parse (.seq (xs.map (fun x => .num (fin x)))) = .ok (.val (fin m)) ∧
      mean parse (.seq (xs.map (fun x => .num (fin (a * x + b))))) = .ok (.val (fin (a * m + b))) := by
  refine ⟨_, (C02_mean_value parse xs h).1, ?_⟩
  have h' : xs.map (fun x => a * x + b) ≠ [] := by simpa using h
  have := (C02_mean_value parse _ h').1
  rw [List.map_map] at this
  have h2 := Spec.avg_affine a b h
  unfold Spec.avg at h2
  rw [← h2]
  exact this

end C02

/-- **C02** empty data and scalars, for every float arithmetic. -/
theorem C02_mean_empty_scalar {F : Type} [PyNum F] (parse : String → Option F) (x : F) :
    mean parse (.seq []) = .ok .invalid ∧ mean parse (.scalar x) = .ok (.val x) := ⟨rfl, rfl⟩

example : mean (fun _ => none) (.seq [.num (fin 1), .num (fin 2), .num (fin (6 : ℚ))]) = .ok (.val (fin 3)) := by
  decide +kernel

/-! ## C03 -/

section C03
variable {F : Type}

/-- documented value set: all numbers, and the numeric strings -/
def intendedValues (parse : String → Option F) (items : List (Item F)) : List F :=
  items.filterMap fun i => match i with
    | .num x => some x
    | .npnum x => some x
    | .str s => parse s

/-- the item is a string that `float` rejects -/
def badStr (parse : String → Option F) : Item F → Bool
  | .str s => (parse s).isNone
  | _ => false

/-- the values the code really averages: everything when there is no non-numeric string; otherwise the Python numbers,
and the numeric strings before the first non-numeric string. -/
def keptValues (parse : String → Option F) (items : List (Item F)) : List F :=
  if items.any (badStr parse) then
    ((items.takeWhile (fun i => !badStr parse i)).filterMap fun i => match i with
      | .num x => some x
      | .npnum _ => none
      | .str s => parse s) ++
    ((items.dropWhile (fun i => !badStr parse i)).filterMap fun i => match i with
      | .num x => some x
      | _ => none)
  else intendedValues parse items

variable [PyNum F]

/-- item after a successful in-place conversion -/
private def conv (parse : String → Option F) : Item F → Item F
  | .str s => match parse s with
    | some v => .num v
    | none => .str s
  | i => i

private theorem conv_not_str (parse : String → Option F) (i : Item F) (h : badStr parse i = false) :
    (conv parse i).isStr = false := by
  cases i with
  | str s => cases hp : parse s <;> simp_all [conv, badStr, Item.isStr]
  | num => rfl
  | npnum => rfl

private theorem findIdx_conv (parse : String → Option F) (done rest : List (Item F)) (s : String)
    (hd : ∀ i ∈ done, badStr parse i = false) :
    (done.map (conv parse) ++ Item.str s :: rest).findIdx? (Item.eqStr s) = some done.length := by
  induction done with
  | nil => simp [List.findIdx?_cons, Item.eqStr]
  | cons d t ih =>
    have h1 := conv_not_str parse d (hd d (by simp))
    have h2 : Item.eqStr s (conv parse d) = false := by
      cases hc : conv parse d <;> simp_all [Item.eqStr, Item.isStr]
    rw [List.map_cons, List.cons_append, List.findIdx?_cons, h2]
    rw [ih (fun i hi => hd i (by simp [hi]))]
    simp

private theorem foldl_good (parse : String → Option F) (pre done rest : List (Item F))
    (hd : ∀ i ∈ done, badStr parse i = false) (hp : ∀ i ∈ pre, badStr parse i = false) :
    pre.foldl (meanStep parse) (done.map (conv parse) ++ (pre ++ rest)) =
      (done ++ pre).map (conv parse) ++ rest := by
  induction pre generalizing done with
  | nil => simp
  | cons i t ih =>
    have hi := hp i (by simp)
    have hstep : meanStep parse (done.map (conv parse) ++ (i :: t ++ rest)) i =
        (done ++ [i]).map (conv parse) ++ (t ++ rest) := by
      cases i with
      | num x => simp [meanStep, conv]
      | npnum x => simp [meanStep, conv]
      | str s =>
        cases hps : parse s with
        | none => simp [badStr, hps] at hi
        | some v =>
          simp only [meanStep]
          rw [List.cons_append, findIdx_conv parse done _ s hd, hps]
          simp [conv, hps]
    rw [List.foldl_cons, hstep, ih (done ++ [i])]
    · simp
    · intro j hj
      rcases List.mem_append.mp hj with h | h
      · exact hd j h
      · simp at h; rw [h]; exact hi
    · intro j hj; exact hp j (by simp [hj])

private theorem foldl_filtered (parse : String → Option F) (rest a : List (Item F))
    (ha : a.all Item.isPyNum = true) : rest.foldl (meanStep parse) a = a := by
  have hf : a.filter Item.isPyNum = a := List.filter_eq_self.mpr (by simpa using ha)
  induction rest with
  | nil => rfl
  | cons i t ih =>
    have : meanStep parse a i = a := by
      cases i with
      | num => rfl
      | npnum => rfl
      | str s =>
        have hn : a.findIdx? (Item.eqStr s) = none := by
          rw [List.findIdx?_eq_none_iff]
          intro x hx
          have := List.all_eq_true.mp ha x hx
          cases x <;> simp_all [Item.eqStr, Item.isPyNum]
        simp [meanStep, hn, hf]
    rw [List.foldl_cons, this, ih]

private theorem any_isStr_conv (parse : String → Option F) (items : List (Item F))
    (h : items.any (badStr parse) = false) : (items.map (conv parse)).any Item.isStr = false := by
  rw [List.any_eq_false] at h ⊢
  intro i hi
  obtain ⟨j, hj, rfl⟩ := List.mem_map.mp hi
  simp [conv_not_str parse j (by simpa using h j hj)]

private theorem values_conv (parse : String → Option F) (items : List (Item F)) :
    (items.map (conv parse)).filterMap Item.val? = intendedValues parse items := by
  unfold intendedValues
  rw [List.filterMap_map]
  congr 1
  funext i
  cases i with
  | num => rfl
  | npnum => rfl
  | str s => cases hp : parse s <;> simp [conv, hp, Item.val?]

/-- **C03** (what the code does, exactly; every float arithmetic).  `mean` never raises on a list of numbers and
strings, and is the sum over the count of `keptValues`. -/
theorem C03_mean_exact (parse : String → Option F) (items : List (Item F)) (h : items ≠ []) :
    mean parse (.seq items) =
      .ok (.val (PyNum.sum (keptValues parse items) /. ofNat (keptValues parse items).length)) := by
  have hlen : items.length ≠ 0 := by simpa using h
  have key : sumOverSize (items.foldl (meanStep parse) items) =
      .ok (.val (PyNum.sum (keptValues parse items) /. ofNat (keptValues parse items).length)) := by
    by_cases hb : items.any (badStr parse) = true
    · -- split at the first bad string
      have hsplit := List.takeWhile_append_dropWhile (p := fun i => !badStr parse i) (l := items)
      set pre := items.takeWhile (fun i => !badStr parse i) with hpre
      set post := items.dropWhile (fun i => !badStr parse i) with hpost
      have hpre' : ∀ i ∈ pre, badStr parse i = false := by
        intro i hi; have := List.all_eq_true.mp (List.all_takeWhile (p := fun i => !badStr parse i) (l := items)) i hi; simpa using this
      have hpostne : post ≠ [] := by
        intro h0
        rw [hpost, List.dropWhile_eq_nil_iff] at h0
        obtain ⟨i, hi, hbi⟩ := List.any_eq_true.mp hb
        have := h0 i hi
        simp [hbi] at this
      obtain ⟨i, t, hit⟩ := List.exists_cons_of_ne_nil hpostne
      have hbi : badStr parse i = true := by
        have := List.head_dropWhile_not (fun i => !badStr parse i) hpostne
        simp only [← hpost, hit, List.head_cons] at this
        simpa using this
      have hfold : items.foldl (meanStep parse) items =
          ((pre.map (conv parse)) ++ post).filter Item.isPyNum := by
        conv_lhs => rw [← hsplit]
        rw [List.foldl_append]
        have h1 := foldl_good parse pre [] post (by simp) hpre'
        simp only [List.map_nil, List.nil_append] at h1
        rw [h1, hit, List.foldl_cons]
        have h2 : meanStep parse (pre.map (conv parse) ++ i :: t) i =
            (pre.map (conv parse) ++ i :: t).filter Item.isPyNum := by
          cases i with
          | num => simp [badStr] at hbi
          | npnum => simp [badStr] at hbi
          | str s =>
            have hps : parse s = none := by simpa [badStr] using hbi
            simp only [meanStep, hps]
            split <;> first | rfl | simp_all
        rw [h2]
        apply foldl_filtered
        simp
      have hvals : (items.foldl (meanStep parse) items).filterMap Item.val? = keptValues parse items := by
        rw [hfold, keptValues, if_pos hb, ← hpre, ← hpost, List.filter_append, List.filterMap_append]
        congr 1
        · rw [List.filterMap_filter, List.filterMap_map]
          congr 1
          funext j
          cases j with
          | num => rfl
          | npnum => rfl
          | str s => cases hp : parse s <;> simp [conv, hp, Item.val?, Item.isPyNum]
        · rw [List.filterMap_filter]
          congr 1
          funext j
          cases j <;> simp [Item.val?, Item.isPyNum]
      have hstr : (items.foldl (meanStep parse) items).any Item.isStr = false := by
        rw [hfold, List.any_eq_false]
        intro j hj
        have := (List.mem_filter.mp hj).2
        cases j <;> simp_all [Item.isStr, Item.isPyNum]
      rw [sumOverSize, hstr, if_neg (by simp), hvals, ← hvals, length_filterMap_val _ hstr]
    · have hb' : items.any (badStr parse) = false := by simpa using hb
      have hfold : items.foldl (meanStep parse) items = items.map (conv parse) := by
        have := foldl_good parse items [] [] (by simp)
          (fun i hi => by simpa using (List.any_eq_false.mp hb') i hi)
        simpa using this
      have hstr := any_isStr_conv parse items hb'
      rw [hfold, sumOverSize, hstr, if_neg (by simp), keptValues, if_neg hb, ← values_conv,
        length_filterMap_val _ hstr]
  unfold mean
  simp only [hlen, ne_eq, not_false_eq_true, true_and, if_true]
  split
  · rename_i hall
    -- all Python numbers: the loop would not change anything either
    have : items.foldl (meanStep parse) items = items := by
      have hall' := List.all_eq_true.mp hall
      have gen : ∀ (l a : List (Item F)), (∀ i ∈ l, i.isPyNum = true) → l.foldl (meanStep parse) a = a := by
        intro l
        induction l with
        | nil => simp
        | cons i t ih =>
          intro a hl
          have hi := hl i (by simp)
          cases i <;> simp [Item.isPyNum] at hi
          simp only [List.foldl_cons, meanStep]
          exact ih a (fun j hj => hl j (by simp [hj]))
      exact gen items items hall'
    rw [← key, this]
  · exact key

/-- **C03**, the documented claim restricted to inputs for which it is true.  Missing from the full claim: inputs in
which a numeric string, or a numpy number that is not a Python number, follows or accompanies a non-numeric string (there the claim is
false, `C03_mean_documented_false`). -/
theorem C03_mean_documented_partial (parse : String → Option F) (items : List (Item F)) (h : items ≠ [])
    (hgood : (∀ i ∈ items, badStr parse i = false) ∨
      (∃ pre post, items = pre ++ post ∧ (∀ i ∈ pre, badStr parse i = false) ∧
        (∀ s, Item.str s ∈ post → parse s = none) ∧ (∀ x, Item.npnum x ∉ items))) :
    mean parse (.seq items) =
      .ok (.val (PyNum.sum (intendedValues parse items) /. ofNat (intendedValues parse items).length)) := by
  have hk : keptValues parse items = intendedValues parse items := by
    rcases hgood with hg | ⟨pre, post, rfl, hpre, hpost, hnp⟩
    · have : items.any (badStr parse) = false := by
        rw [List.any_eq_false]; intro i hi; simp [hg i hi]
      simp [keptValues, this]
    · unfold keptValues
      split
      · have hsplit := List.takeWhile_append_dropWhile (p := fun i => !badStr parse i) (l := pre ++ post)
        -- the dropWhile part is a suffix of `post`
        have hdrop : (pre ++ post).dropWhile (fun i => !badStr parse i) =
            post.dropWhile (fun i => !badStr parse i) := by
          have hp : ∀ i ∈ pre, (!badStr parse i) = true := fun i hi => by simp [hpre i hi]
          clear hsplit hnp h
          induction pre with
          | nil => simp
          | cons i t ih =>
            have hi := hp i (by simp)
            rw [List.cons_append, List.dropWhile_cons, hi]
            rw [if_pos rfl]
            rename_i hcond
            apply ih
            · exact fun j hj => hpre j (by simp [hj])
            · simpa [hpre i (by simp)] using hcond
            · exact fun j hj => hp j (by simp [hj])
        conv_rhs => rw [← hsplit]
        unfold intendedValues
        rw [List.filterMap_append]
        congr 1
        · apply List.filterMap_congr
          intro i hi
          have hmem : i ∈ pre ++ post := List.takeWhile_subset _ hi
          cases i with
          | num => rfl
          | npnum x => exact absurd hmem (hnp x)
          | str s => rfl
        · apply List.filterMap_congr
          intro i hi
          have hmem : i ∈ pre ++ post := List.dropWhile_subset _ hi
          cases i with
          | num => rfl
          | npnum x => exact absurd hmem (hnp x)
          | str s =>
            rw [hdrop] at hi
            exact (hpost s (List.dropWhile_subset _ hi)).symm
      · rfl
  rw [C03_mean_exact parse items h, hk]

end C03

/-- The documented claim of C03, for an item list and Python's `float`. -/
def C03_documented (parse : String → Option (Fl ℚ)) : Prop :=
  ∀ items : List (Item (Fl ℚ)), items ≠ [] → mean parse (.seq items) =
    .ok (.val (PyNum.sum (intendedValues parse items) /. ofNat (intendedValues parse items).length))

/-- **C03** the documented claim is false, for every conversion function that accepts "2" as 2 and rejects "a"
(as Python's `float` does): `mean([1, "a", "2"])` is 1, not 1.5; while `mean([1, "2", "a"])` is 1.5. -/
theorem C03_mean_documented_false (parse : String → Option (Fl ℚ)) (h2 : parse "2" = some (fin 2))
    (ha : parse "a" = none) :
    ¬ C03_documented parse ∧
    mean parse (.seq [.num (fin 1), .str "a", .str "2"]) = .ok (.val (fin 1)) ∧
    mean parse (.seq [.num (fin 1), .str "2", .str "a"]) = .ok (.val (fin (3 / 2))) := by
  have hv : mean parse (.seq [.num (fin 1), .str "a", .str "2"]) = .ok (.val (fin 1)) := by
    rw [C03_mean_exact _ _ (by simp)]
    have hk : keptValues parse [.num (fin 1), .str "a", .str "2"] = [fin 1] := by
      simp [keptValues, badStr, ha, h2]
    rw [hk]
    decide +kernel
  refine ⟨fun hdoc => ?_, hv, ?_⟩
  · have := hdoc [.num (fin 1), .str "a", .str "2"] (by simp)
    rw [hv] at this
    have hk : intendedValues parse [.num (fin 1), .str "a", .str "2"] = [fin 1, fin 2] := by
      simp [intendedValues, ha, h2]
    rw [hk] at this
    revert this
    decide +kernel
  · rw [C03_mean_exact _ _ (by simp)]
    have hk : keptValues parse [.num (fin 1), .str "2", .str "a"] = [fin 1, fin 2] := by
      simp [keptValues, badStr, ha, h2]
    rw [hk]
    decide +kernel

end Proadv.Props
