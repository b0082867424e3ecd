import Verif.Props.Replace
import Verif.Props.LinearInterp
import Mathlib.Order.Interval.Finset.Basic
import Mathlib.Data.Int.Interval

set_option linter.unusedSectionVars false

/-!
# C219: order and repetition in the list of spikes
-/

namespace Proadv.Props

open Proadv Replace Descriptive Series Fl

section generic

variable {F : Type} [PyNum F]

/-! ## Writes that do not read the array -/

/-- a fold of independent writes: result and errors depend on the set of indices only -/
theorem fold_writes {α : Type} {n : Nat} {f : List α → Int → Py (List α)} (val : Int → Option (Nat × α))
    (hf : ∀ i a, a.length = n → f a i = match val i with | none => .error .indexError | some p => .ok (a.set p.1 p.2))
    (hk : ∀ i p, val i = some p → p.1 < n) :
    ∀ (s : List Int) (l : List α), l.length = n →
      ((∃ i ∈ s, val i = none) → s.foldlM f l = .error .indexError) ∧
      ((∀ i ∈ s, val i ≠ none) → (∀ i ∈ s, ∀ j ∈ s, ∀ p q, val i = some p → val j = some q → p.1 = q.1 → p.2 = q.2) →
        ∃ out, s.foldlM f l = .ok out ∧ out.length = n ∧
          (∀ i ∈ s, ∀ p, val i = some p → out[p.1]? = some p.2) ∧
          ∀ k, (∀ i ∈ s, ∀ p, val i = some p → p.1 ≠ k) → out[k]? = l[k]?) := by
  intro s
  induction s with
  | nil =>
    intro l hl
    refine ⟨by simp, fun _ _ => ⟨l, rfl, hl, by simp, fun _ _ => rfl⟩⟩
  | cons i t ih =>
    intro l hl
    constructor
    · rintro ⟨j, hj, hn⟩
      rw [List.foldlM_cons, hf i l hl]
      cases hv : val i with
      | none => rfl
      | some p =>
        simp only [bind, Except.bind]
        refine (ih (l.set p.1 p.2) (by simpa using hl)).1 ?_
        rcases List.mem_cons.mp hj with rfl | hj
        · rw [hv] at hn; cases hn
        · exact ⟨j, hj, hn⟩
    · intro hall hcons
      cases hv : val i with
      | none => exact absurd hv (hall i (by simp))
      | some p =>
        have hl' : (l.set p.1 p.2).length = n := by simpa using hl
        obtain ⟨out, h1, h2, h3, h4⟩ := (ih (l.set p.1 p.2) hl').2 (fun j hj => hall j (by simp [hj]))
          (fun a ha b hb => hcons a (by simp [ha]) b (by simp [hb]))
        refine ⟨out, ?_, h2, ?_, ?_⟩
        · rw [List.foldlM_cons, hf i l hl, hv]; exact h1
        · intro j hj q hq
          rcases List.mem_cons.mp hj with rfl | hj
          · rw [hv] at hq
            cases hq
            by_cases hw : ∃ a ∈ t, ∃ q, val a = some q ∧ q.1 = p.1
            · obtain ⟨a, ha, q, hq, hqp⟩ := hw
              have := hcons a (by simp [ha]) j (by simp) q p hq hv hqp
              rw [← hqp, ← this]
              exact h3 a ha q hq
            · rw [h4 p.1 (fun a ha q hq hqp => hw ⟨a, ha, q, hq, hqp⟩)]
              exact List.getElem?_set_self (by rw [hl]; exact hk _ _ hv)
          · exact h3 j hj q hq
        · intro k hk'
          rw [h4 k (fun a ha => hk' a (by simp [ha]))]
          exact List.getElem?_set_ne (hk' i (by simp) p hv)

theorem fold_writes_same {α : Type} {n : Nat} {f : List α → Int → Py (List α)} (val : Int → Option (Nat × α))
    (hf : ∀ i a, a.length = n → f a i = match val i with | none => .error .indexError | some p => .ok (a.set p.1 p.2))
    (hk : ∀ i p, val i = some p → p.1 < n) {s t : List Int} (hst : ∀ i, i ∈ s ↔ i ∈ t)
    (hc : ∀ i ∈ s, ∀ j ∈ s, ∀ p q, val i = some p → val j = some q → p.1 = q.1 → p.2 = q.2) (l : List α) (hl : l.length = n) :
    s.foldlM f l = t.foldlM f l := by
  by_cases h : ∃ i ∈ s, val i = none
  · obtain ⟨i, hi, hn⟩ := h
    rw [(fold_writes val hf hk s l hl).1 ⟨i, hi, hn⟩, (fold_writes val hf hk t l hl).1 ⟨i, (hst i).mp hi, hn⟩]
  · have h1 : ∀ i ∈ s, val i ≠ none := fun i hi hn => h ⟨i, hi, hn⟩
    obtain ⟨o, a1, a2, a3, a4⟩ := (fold_writes val hf hk s l hl).2 h1 hc
    obtain ⟨o', b1, b2, b3, b4⟩ := (fold_writes val hf hk t l hl).2 (fun i hi => h1 i ((hst i).mpr hi))
      (fun i hi j hj => hc i ((hst i).mpr hi) j ((hst j).mpr hj))
    rw [a1, b1]
    congr 1
    apply List.ext_getElem?
    intro k
    by_cases hw : ∃ i ∈ s, ∃ p, val i = some p ∧ p.1 = k
    · obtain ⟨i, hi, p, hp, rfl⟩ := hw
      rw [a3 i hi p hp, b3 i ((hst i).mp hi) p hp]
    · rw [a4 k (fun i hi p hp he => hw ⟨i, hi, p, hp, he⟩), b4 k (fun i hi p hp he => hw ⟨i, (hst i).mpr hi, p, hp, he⟩)]

theorem setMany_same (l : List F) (x : F) {s t : List Int} (hst : ∀ i, i ∈ s ↔ i ∈ t) : setMany l s x = setMany l t x := by
  unfold setMany
  refine fold_writes_same (n := l.length) (fun i => (pyIdx l.length i).map (fun k => (k, x))) ?_ ?_ hst ?_ l rfl
  · intro i a ha
    unfold setIdx
    rw [ha]
    cases pyIdx l.length i <;> rfl
  · intro i p hp
    obtain ⟨k, hk, rfl⟩ := Option.map_eq_some_iff.mp hp
    exact pyIdx_lt hk
  · intro i _ j _ p q hp hq _
    obtain ⟨k, hk, rfl⟩ := Option.map_eq_some_iff.mp hp
    obtain ⟨k', hk', rfl⟩ := Option.map_eq_some_iff.mp hq
    rfl

theorem setFromStore_same (isInt : Bool) (l b : List F) {s t : List Nat} (hst : ∀ i, i ∈ s ↔ i ∈ t) :
    setFromStore isInt l (s.map (fun i : Nat => (i : Int))) b = setFromStore isInt l (t.map (fun i : Nat => (i : Int))) b := by
  unfold setFromStore
  refine fold_writes_same (n := l.length) (fun i => match getIdx b i with
    | .error _ => none
    | .ok x => (pyIdx l.length i).map (fun k => (k, store isInt x))) ?_ ?_ ?_ ?_ l rfl
  · intro i a ha
    simp only [bind, Except.bind]
    cases hg : getIdx b i with
    | error e =>
      have : e = .indexError := by
        unfold getIdx at hg
        split at hg
        · cases hg; rfl
        · split at hg <;> cases hg; rfl
      rw [this]
    | ok x =>
      simp only
      unfold setIdx
      rw [ha]
      cases pyIdx l.length i <;> rfl
  · intro i p hp
    split at hp
    · cases hp
    · obtain ⟨k, hk, rfl⟩ := Option.map_eq_some_iff.mp hp
      exact pyIdx_lt hk
  · intro i
    simp only [List.mem_map]
    constructor
    · rintro ⟨a, ha, rfl⟩; exact ⟨a, (hst a).mp ha, rfl⟩
    · rintro ⟨a, ha, rfl⟩; exact ⟨a, (hst a).mpr ha, rfl⟩
  · intro i hi j hj p q hp hq he
    obtain ⟨i', _, rfl⟩ := List.mem_map.mp hi
    obtain ⟨j', _, rfl⟩ := List.mem_map.mp hj
    split at hp
    · cases hp
    · rename_i x hx
      split at hq
      · cases hq
      · rename_i y hy
        obtain ⟨k, hk, rfl⟩ := Option.map_eq_some_iff.mp hp
        obtain ⟨k', hk', rfl⟩ := Option.map_eq_some_iff.mp hq
        have e1 := pyIdx_nat_some hk
        have e2 := pyIdx_nat_some hk'
        simp only at he
        have : i' = j' := by omega
        subst this
        rw [hx] at hy
        cases hy
        rfl

/-- **C219** `mean_value` and `median_value`: only the set of listed indices matters, not their order or repetition (errors included),
in every arithmetic. -/
theorem C219_statistics (v : Arr F) {s t : List Int} (hst : ∀ i, i ∈ s ↔ i ∈ t) :
    meanValue v s = meanValue v t ∧ medianValue v s = medianValue v t := by
  unfold meanValue medianValue
  simp only [setMany_same v.data _ hst, and_self]

/-- **C219** the three moving-average replacements: only the set of listed indices matters (errors included). -/
theorem C219_averages (v : Arr F) {s t : List Nat} (hst : ∀ i, i ∈ s ↔ i ∈ t) (w : Int) (alpha : F) (period : Int) :
    simpleMovingAverage v (s.map (fun i : Nat => (i : Int))) w = simpleMovingAverage v (t.map (fun i : Nat => (i : Int))) w ∧
    exponentialMovingAverageR v (s.map (fun i : Nat => (i : Int))) alpha =
      exponentialMovingAverageR v (t.map (fun i : Nat => (i : Int))) alpha ∧
    weightedMovingAverageR v (s.map (fun i : Nat => (i : Int))) period =
      weightedMovingAverageR v (t.map (fun i : Nat => (i : Int))) period := by
  unfold simpleMovingAverage exponentialMovingAverageR weightedMovingAverageR
  simp only [setFromStore_same v.isInt v.data _ hst, and_self]

/-- **C219** `ssa`: only the set of listed indices matters. -/
theorem C219_ssa {G : Type} [PyMath G] (ceilInt : G → Py Int) (eigh : Mat G → Py (Mat G)) (v : Arr G) {s t : List Nat}
    (hst : ∀ i, i ∈ s ↔ i ∈ t) (fs f : G) :
    ssaReplacement ceilInt eigh v (s.map (fun i : Nat => (i : Int))) fs f =
      ssaReplacement ceilInt eigh v (t.map (fun i : Nat => (i : Int))) fs f := by
  unfold ssaReplacement
  simp only [setFromStore_same v.isInt v.data _ hst]

/-- the hypotheses of the three theorems above hold for a shuffled list with a repetition -/
example : ∀ i : Nat, i ∈ [3, 1, 3, 2] ↔ i ∈ [1, 2, 3] := by
  intro i
  simp only [List.mem_cons, List.not_mem_nil, or_false]
  tauto

/-! ## Repetition in an increasing list -/

/-- drop an entry equal to the next one -/
def dedupAdj : List Int → List Int
  | [] => []
  | [a] => [a]
  | a :: b :: r => if a = b then dedupAdj (b :: r) else a :: dedupAdj (b :: r)

theorem dedupAdj_head (a : Int) (r : List Int) : ∃ r', dedupAdj (a :: r) = a :: r' := by
  induction r generalizing a with
  | nil => exact ⟨[], rfl⟩
  | cons b r ih =>
    unfold dedupAdj
    split_ifs with h
    · obtain ⟨r', hr⟩ := ih b
      exact ⟨r', by rw [hr, h]⟩
    · exact ⟨_, rfl⟩

theorem mem_dedupAdj (l : List Int) (i : Int) : i ∈ dedupAdj l ↔ i ∈ l := by
  induction l with
  | nil => rfl
  | cons a r ih =>
    cases r with
    | nil => rfl
    | cons b r =>
      unfold dedupAdj
      split_ifs with h
      · rw [ih]; simp [h]
      · rw [List.mem_cons, ih, List.mem_cons (a := i) (b := a)]

theorem dedupAdj_sorted {l : List Int} (h : l.Pairwise (· ≤ ·)) : (dedupAdj l).Pairwise (· < ·) := by
  induction l with
  | nil => exact List.Pairwise.nil
  | cons a r ih =>
    cases r with
    | nil => exact List.pairwise_singleton _ _
    | cons b r =>
      obtain ⟨h1, h2⟩ := List.pairwise_cons.mp h
      unfold dedupAdj
      split_ifs with hab
      · exact ih h2
      · refine List.pairwise_cons.mpr ⟨fun c hc => ?_, ih h2⟩
        rw [mem_dedupAdj] at hc
        have := h1 b (by simp)
        rcases List.mem_cons.mp hc with rfl | hc'
        · omega
        · have := (List.pairwise_cons.mp h2).1 c hc'
          omega

theorem dedupAdj_ext {s t : List Int} (hs : s.Pairwise (· ≤ ·)) (ht : t.Pairwise (· ≤ ·)) (hst : ∀ i, i ∈ s ↔ i ∈ t) :
    dedupAdj s = dedupAdj t := by
  have h1 := dedupAdj_sorted hs
  have h2 := dedupAdj_sorted ht
  have n1 : (dedupAdj s).Nodup := h1.imp (fun h => ne_of_lt h)
  have n2 : (dedupAdj t).Nodup := h2.imp (fun h => ne_of_lt h)
  have hp : (dedupAdj s).Perm (dedupAdj t) :=
    (List.perm_ext_iff_of_nodup n1 n2).mpr (fun i => by rw [mem_dedupAdj, mem_dedupAdj, hst])
  exact hp.eq_of_pairwise (fun a b _ _ h1 h2 => absurd h1 (not_lt_of_gt h2)) h1 h2

theorem lastValid_step_twice (a : List F) (i : Int) (g : Int → List F → Py (List F))
    (hg : ∀ i a, g i a = (do let x ← getIdx a (i - 1); setIdx a i x)) :
    (do let b ← g i a; g i b) = g i a := by
  simp only [hg, bind, Except.bind]
  cases hx : getIdx a (i - 1) with
  | error e => rfl
  | ok x =>
    simp only
    cases hb : setIdx a i x with
    | error e => rfl
    | ok b =>
      simp only
      obtain ⟨k, hk, rfl⟩ := setIdx_ok.mp hb
      obtain ⟨m, hm, hmx⟩ := getIdx_ok.mp hx
      have hx' : getIdx (a.set k x) (i - 1) = .ok x := by
        refine getIdx_ok.mpr ⟨m, by simpa using hm, ?_⟩
        by_cases hkm : k = m
        · subst hkm; exact List.getElem?_set_self (pyIdx_lt hk)
        · rw [List.getElem?_set_ne hkm]; exact hmx
      rw [hx']
      simp only
      refine setIdx_ok.mpr ⟨k, by simpa using hk, by simp⟩

/-- consecutive repetitions change nothing for `last_valid_data` -/
theorem lastValid_dedup (v : Arr F) (s : List Int) : lastValidData v (dedupAdj s) = lastValidData v s := by
  unfold lastValidData
  set g : List F → Int → Py (List F) := fun a i => do let x ← getIdx a (i - 1); setIdx a i x with hg
  have key : ∀ (s : List Int) (a : List F), (dedupAdj s).foldlM g a = s.foldlM g a := by
    intro s
    induction s with
    | nil => intro a; rfl
    | cons i r ih =>
      intro a
      cases r with
      | nil => rfl
      | cons j r =>
        unfold dedupAdj
        split_ifs with h
        · rw [ih a, h]
          have := lastValid_step_twice a j (fun i a => g a i) (fun _ _ => rfl)
          simp only [List.foldlM_cons, bind, Except.bind] at this ⊢
          cases hb : g a j with
          | error e => rfl
          | ok b => rw [hb] at this; simp only [this]
        · rw [List.foldlM_cons, List.foldlM_cons]
          congr 1
          funext b
          exact ih b
  exact key s v.data

/-- starts of all runs but the first, and ends of the runs -/
theorem starts_cons (a b : Int) (r : List Int) :
    select (b :: r) (bigGap (a :: b :: r)) = (if 1 < b - a then [b] else []) ++ select r (bigGap (b :: r)) := by
  simp only [select, bigGap, List.tail_cons, List.zipWith_cons_cons, List.zip_cons_cons, List.filterMap_cons]
  by_cases hg : 1 < b - a <;> simp [hg]

theorem ends_cons (a b : Int) (r : List Int) : select (a :: b :: r) (bigGap (a :: b :: r) ++ [true]) =
    (if 1 < b - a then [a] else []) ++ select (b :: r) (bigGap (b :: r) ++ [true]) := by
  simp only [select, bigGap, List.tail_cons, List.zipWith_cons_cons, List.cons_append, List.zip_cons_cons, List.filterMap_cons]
  by_cases hg : 1 < b - a <;> simp [hg]

theorem spikeRuns_dedup (s : List Int) : spikeRuns (dedupAdj s) = spikeRuns s := by
  have key : ∀ (r : List Int) (a : Int),
      select (dedupAdj (a :: r)).tail (bigGap (dedupAdj (a :: r))) = select r (bigGap (a :: r)) ∧
      select (dedupAdj (a :: r)) (bigGap (dedupAdj (a :: r)) ++ [true]) = select (a :: r) (bigGap (a :: r) ++ [true]) := by
    intro r
    induction r with
    | nil => intro a; exact ⟨rfl, rfl⟩
    | cons b r ih =>
      intro a
      obtain ⟨i1, i2⟩ := ih b
      unfold dedupAdj
      split_ifs with h
      · rw [starts_cons, ends_cons, i1, i2, if_neg (by omega), if_neg (by omega)]
        exact ⟨rfl, rfl⟩
      · obtain ⟨r', hr⟩ := dedupAdj_head b r
        rw [hr] at i1 i2 ⊢
        rw [List.tail_cons, starts_cons, ends_cons, starts_cons, ends_cons, ← i1, ← i2, List.tail_cons]
        exact ⟨rfl, rfl⟩
  cases s with
  | nil => rfl
  | cons a r =>
    obtain ⟨k1, k2⟩ := key r a
    obtain ⟨r', hr⟩ := dedupAdj_head a r
    rw [hr] at k1 k2 ⊢
    have e : ∀ l : List Int, select (a :: l) (true :: bigGap (a :: l)) = a :: select l (bigGap (a :: l)) := by
      intro l; simp [select]
    unfold spikeRuns
    rw [e, e, k2, ← k1, List.tail_cons]

theorem linear_dedup (v : Arr F) (s : List Int) (decimals : Int) :
    linearInterpolation v (dedupAdj s) decimals = linearInterpolation v s decimals := by
  unfold linearInterpolation linearInterpolationRaw
  rw [spikeRuns_dedup, setMany_same v.data PyNum.nan (fun i => mem_dedupAdj s i)]
  have : (dedupAdj s).isEmpty = s.isEmpty := by
    cases s with
    | nil => rfl
    | cons a r => obtain ⟨r', hr⟩ := dedupAdj_head a r; rw [hr]; rfl
  rw [this]

/-- **C219** for spikes in increasing order, repeated entries do not matter to `last_valid_data` and `linear_interpolation`: two
increasing lists with the same members give the same result (errors included), in every arithmetic. -/
theorem C219_repeats (v : Arr F) {s t : List Int} (hs : s.Pairwise (· ≤ ·)) (ht : t.Pairwise (· ≤ ·)) (hst : ∀ i, i ∈ s ↔ i ∈ t)
    (decimals : Int) :
    lastValidData v s = lastValidData v t ∧ linearInterpolation v s decimals = linearInterpolation v t decimals := by
  rw [← lastValid_dedup v s, ← lastValid_dedup v t, ← linear_dedup v s, ← linear_dedup v t, dedupAdj_ext hs ht hst]
  exact ⟨rfl, rfl⟩

/-! ## Decreasing lists -/

/-- **C219** with the spikes listed in decreasing order `last_valid_data` writes the previous *input* sample into each of them, so all
samples of a run but the first receive a spike. -/
theorem C219_last_descending (v : Arr F) (sp : List Nat) (hd : sp.Pairwise (· > ·)) (hin : ∀ i ∈ sp, 1 ≤ i ∧ i < v.data.length) :
    ∃ out, lastValidData v (sp.map (fun i : Nat => (i : Int))) = .ok out ∧ out.length = v.data.length ∧
      (∀ i ∈ sp, out[i]? = v.data[i - 1]?) ∧ ∀ k, k ∉ sp → out[k]? = v.data[k]? := by
  unfold lastValidData
  have key : ∀ (sp : List Nat), sp.Pairwise (· > ·) → (∀ i ∈ sp, 1 ≤ i ∧ i < v.data.length) → ∀ a : List F,
      a.length = v.data.length → (∀ i ∈ sp, ∀ k ≤ i, a[k]? = v.data[k]?) →
      ∃ out, (sp.map (fun i : Nat => (i : Int))).foldlM (fun a i => do let x ← getIdx a (i - 1); setIdx a i x) a = .ok out ∧
        out.length = v.data.length ∧ (∀ i ∈ sp, out[i]? = v.data[i - 1]?) ∧ ∀ k, k ∉ sp → out[k]? = a[k]? := by
    intro sp
    induction sp with
    | nil => intro _ _ a ha _; exact ⟨a, rfl, ha, by simp, fun _ _ => rfl⟩
    | cons i r ih =>
      intro hd hin a ha hsame
      obtain ⟨d1, d2⟩ := List.pairwise_cons.mp hd
      obtain ⟨i1, i2⟩ := hin i (by simp)
      have hlt : i - 1 < v.data.length := by omega
      have hg : getIdx a ((i : Int) - 1) = .ok v.data[i - 1] := by
        rw [show (i : Int) - 1 = ((i - 1 : Nat) : Int) by omega]
        apply getIdx_nat
        rw [hsame i (by simp) (i - 1) (by omega), List.getElem?_eq_getElem hlt]
      have hset : setIdx a (i : Int) v.data[i - 1] = .ok (a.set i v.data[i - 1]) :=
        setIdx_ok.mpr ⟨i, pyIdx_nat (by omega), rfl⟩
      obtain ⟨out, o1, o2, o3, o4⟩ := ih d2 (fun j hj => hin j (by simp [hj])) (a.set i v.data[i - 1]) (by simpa using ha) (by
        intro j hj k hk
        have := d1 j hj
        rw [List.getElem?_set_ne (by omega)]
        exact hsame j (by simp [hj]) k hk)
      have hir : i ∉ r := fun h => absurd (d1 i h) (lt_irrefl i)
      refine ⟨out, ?_, o2, ?_, ?_⟩
      · rw [List.map_cons, List.foldlM_cons]
        simp only [hg, hset, bind, Except.bind]
        exact o1
      · intro j hj
        rcases List.mem_cons.mp hj with rfl | hj
        · rw [o4 j hir, List.getElem?_set_self (by omega), List.getElem?_eq_getElem hlt]
        · exact o3 j hj
      · intro k hk
        rw [o4 k (fun h => hk (by simp [h])), List.getElem?_set_ne (fun h => hk (by simp [h]))]
  exact key sp hd hin v.data rfl (fun _ _ _ _ => rfl)

example : lastValidData (F := Fl ℚ) ⟨1, false, [fin 1, fin 90, fin 91, fin 4]⟩ [2, 1] = .ok [fin 1, fin 1, fin 90, fin 4] ∧
    lastValidData (F := Fl ℚ) ⟨1, false, [fin 1, fin 90, fin 91, fin 4]⟩ [1, 2] = .ok [fin 1, fin 1, fin 1, fin 4] := by
  constructor <;> decide +kernel

end generic

/-! ## Unsorted lists in `linear_interpolation` -/

/-- runs of a list in any order, the current run having started at `s` and reached `a` -/
def runsFrom : Int → Int → List Int → List (Int × Int)
  | s, a, [] => [(s, a)]
  | s, a, b :: r => if 1 < b - a then (s, a) :: runsFrom b b r else runsFrom s b r

theorem spikeRuns_from (a : Int) (r : List Int) : spikeRuns (a :: r) = runsFrom a a r := by
  have key : ∀ (r : List Int) (s a : Int),
      (s :: select r (bigGap (a :: r))).zip (select (a :: r) (bigGap (a :: r) ++ [true])) = runsFrom s a r := by
    intro r
    induction r with
    | nil => intro s a; simp [select, bigGap, runsFrom]
    | cons b r ih =>
      intro s a
      rw [starts_cons, ends_cons]
      unfold runsFrom
      split_ifs with h
      · simp only [List.cons_append, List.nil_append, List.zip_cons_cons]
        rw [ih b b]
      · simp only [List.nil_append]
        exact ih s b
  have := key r a a
  unfold spikeRuns
  simpa [select] using this

/-- the positions written by the runs -/
noncomputable def runCover (runs : List (Int × Int)) : Finset Int := runs.foldr (fun p S => Finset.Icc p.1 p.2 ∪ S) ∅

theorem mem_runCover (runs : List (Int × Int)) (k : Int) : k ∈ runCover runs ↔ ∃ p ∈ runs, p.1 ≤ k ∧ k ≤ p.2 := by
  induction runs with
  | nil => simp [runCover]
  | cons p r ih =>
    have : runCover (p :: r) = Finset.Icc p.1 p.2 ∪ runCover r := rfl
    rw [this, Finset.mem_union, ih, Finset.mem_Icc]
    simp

theorem runCover_card : ∀ (r : List Int) (s a : Int), (runCover (runsFrom s a r)).card ≤ (a + 1 - s).toNat + r.length ∧
    (¬ (a :: r).Pairwise (· < ·) → (runCover (runsFrom s a r)).card < (a + 1 - s).toNat + r.length) := by
  intro r
  induction r with
  | nil =>
    intro s a
    have : runCover (runsFrom s a []) = Finset.Icc s a := by simp [runCover, runsFrom]
    rw [this, Int.card_Icc]
    simp
  | cons b r ih =>
    intro s a
    unfold runsFrom
    by_cases hb : b ≤ a
    · rw [if_neg (by omega)]
      have := (ih s b).1
      simp only [List.length_cons]
      constructor
      · omega
      · intro _; omega
    · have hsort : ¬ (a :: b :: r).Pairwise (· < ·) → ¬ (b :: r).Pairwise (· < ·) := by
        intro h h'
        apply h
        refine List.pairwise_cons.mpr ⟨fun c hc => ?_, h'⟩
        rcases List.mem_cons.mp hc with rfl | hc'
        · omega
        · have := (List.pairwise_cons.mp h').1 c hc'
          omega
      by_cases hg : 1 < b - a
      · rw [if_pos hg]
        have e : runCover ((s, a) :: runsFrom b b r) = Finset.Icc s a ∪ runCover (runsFrom b b r) := rfl
        have hu := Finset.card_union_le (Finset.Icc s a) (runCover (runsFrom b b r))
        rw [Int.card_Icc] at hu
        rw [e]
        simp only [List.length_cons]
        constructor
        · have := (ih b b).1
          omega
        · intro h
          have := (ih b b).2 (hsort h)
          omega
      · rw [if_neg hg]
        simp only [List.length_cons]
        constructor
        · have := (ih s b).1
          omega
        · intro h
          have := (ih s b).2 (hsort h)
          omega

/-- in a list of distinct indices that is not increasing some index lies in no run -/
theorem uncovered {sp : List Int} (hd : sp.Nodup) (hs : ¬ sp.Pairwise (· < ·)) :
    ∃ p ∈ sp, ∀ q ∈ spikeRuns sp, ¬ (q.1 ≤ p ∧ p ≤ q.2) := by
  cases sp with
  | nil => exact absurd List.Pairwise.nil hs
  | cons a r =>
    have h := (runCover_card r a a).2 hs
    have hc : (a :: r).toFinset.card = r.length + 1 := by rw [List.toFinset_card_of_nodup hd]; simp
    have : ∃ p ∈ (a :: r).toFinset, p ∉ runCover (runsFrom a a r) := by
      apply Finset.exists_mem_notMem_of_card_lt_card
      omega
    obtain ⟨p, hp, hn⟩ := this
    refine ⟨p, List.mem_toFinset.mp hp, fun q hq hle => hn ?_⟩
    rw [mem_runCover]
    rw [spikeRuns_from] at hq
    exact ⟨q, hq, hle⟩

/-- start and end of a run are listed indices -/
theorem runsFrom_mem : ∀ (r : List Int) (s a : Int), ∀ q ∈ runsFrom s a r, (q.1 = s ∨ q.1 ∈ r) ∧ (q.2 = a ∨ q.2 ∈ r) := by
  intro r
  induction r with
  | nil => intro s a q hq; simp [runsFrom] at hq; simp [hq]
  | cons b r ih =>
    intro s a q hq
    unfold runsFrom at hq
    split_ifs at hq
    · rcases List.mem_cons.mp hq with rfl | hq
      · simp
      · have := ih b b q hq
        simp only [List.mem_cons]
        tauto
    · have := ih s b q hq
      simp only [List.mem_cons]
      tauto

variable {K : Type} [Field K] [LinearOrder K] [IsStrictOrderedRing K] [FloorRing K]

theorem liRun_any (xs : List K) (hne : xs ≠ []) (md : List (Fl K)) (hl : md.length = xs.length) (s e : Nat) (hs : s < xs.length)
    (he : e < xs.length) : ∃ out, liRun (xs.map fin) md ((s : Int), (e : Int)) = .ok out ∧ out.length = xs.length ∧
      ∀ k, ¬ (s ≤ k ∧ k ≤ e) → out[k]? = md[k]? := by
  have hst : ∃ a, validStart md (s : Int) = .ok a := by
    unfold validStart
    split_ifs with h
    · rw [show (s : Int) - 1 = ((s - 1 : Nat) : Int) by omega]
      exact ⟨_, getIdx_nat (List.getElem?_eq_getElem (by omega))⟩
    · exact ⟨_, rfl⟩
  have hen : ∃ b, validEnd (xs.map fin).length md (e : Int) = .ok b := by
    unfold validEnd
    split_ifs with h
    · rw [show (e : Int) + 1 = ((e + 1 : Nat) : Int) by omega]
      rw [List.length_map] at h
      exact ⟨_, getIdx_nat (List.getElem?_eq_getElem (by omega))⟩
    · exact ⟨_, rfl⟩
  obtain ⟨a, ha⟩ := hst
  obtain ⟨b, hb⟩ := hen
  unfold liRun
  simp only [ha, hb, bind, Except.bind]
  have hslice : ∀ x : Fl K, (setSlice md (s : Int) ((e : Int) + 1) x).length = xs.length ∧
      ∀ k, ¬ (s ≤ k ∧ k ≤ e) → (setSlice md (s : Int) ((e : Int) + 1) x)[k]? = md[k]? := by
    intro x
    unfold setSlice
    refine ⟨by simpa using hl, fun k hk => ?_⟩
    have h1 : sliceBound md.length (s : Int) = s := by
      unfold sliceBound
      rw [if_neg (by omega)]
      simp only [Int.toNat_natCast]
      exact Nat.min_eq_left (by omega)
    have h2 : sliceBound md.length ((e : Int) + 1) = e + 1 := by
      unfold sliceBound
      rw [if_neg (by omega), show ((e : Int) + 1).toNat = e + 1 by omega]
      exact Nat.min_eq_left (by omega)
    rw [List.getElem?_mapIdx, h1, h2]
    cases md[k]? with
    | none => rfl
    | some y =>
      simp only [Option.map_some]
      rw [if_neg (by omega)]
  unfold liWrite
  split_ifs with h1 h2
  · by_cases hse : s ≤ e
    · rw [show ((e : Int) + 1 - s).toNat = e + 1 - s by omega]
      obtain ⟨out, o1, o2, o3⟩ := rangeWrite (fun i : Nat => a +. ((b -. a) /. lit ((e : Int) - s + 2 : Int)) *. ofNat (i + 1)) s (e + 1 - s) md
        (by omega)
      refine ⟨out, o1, by omega, fun k hk => ?_⟩
      rw [o3 k, if_neg (by omega)]
    · rw [show ((e : Int) + 1 - s).toNat = 0 by omega]
      exact ⟨md, rfl, hl, fun _ _ => rfl⟩
  · have hf : (xs.map fin).filter (fun x : Fl K => !(PyNum.isNaN x)) = xs.map fin := by
      rw [List.filter_eq_self]
      intro x hx
      obtain ⟨y, _, rfl⟩ := List.mem_map.mp hx
      rfl
    rw [hf]
    have hm : meanForStore (xs.map (fin : K → Fl K)) = .ok (npMean (xs.map fin)) := by
      rw [meanForStore, meanOf_eq _ (by simpa using hne)]
      simp [hne]
    rw [hm]
    exact ⟨_, rfl, hslice _⟩
  · exact ⟨_, rfl, hslice _⟩

/-- every position between the ends of a run is a listed index -/
theorem runsFrom_inside (V : Int → Prop) : ∀ (r : List Int) (s a : Int), (∀ p, s ≤ p → p ≤ a → V p) → (∀ b ∈ r, V b) →
    ∀ q ∈ runsFrom s a r, ∀ p, q.1 ≤ p → p ≤ q.2 → V p := by
  intro r
  induction r with
  | nil =>
    intro s a h _ q hq p h1 h2
    simp only [runsFrom, List.mem_singleton] at hq
    subst hq
    exact h p h1 h2
  | cons b r ih =>
    intro s a h hr q hq p h1 h2
    have hb := hr b (by simp)
    have hr' : ∀ c ∈ r, V c := fun c hc => hr c (by simp [hc])
    unfold runsFrom at hq
    split_ifs at hq with hg
    · rcases List.mem_cons.mp hq with rfl | hq
      · exact h p h1 h2
      · refine ih b b (fun p h1 h2 => ?_) hr' q hq p h1 h2
        rw [show p = b by omega]; exact hb
    · refine ih s b (fun p h1 h2 => ?_) hr' q hq p h1 h2
      by_cases hpb : p = b
      · rw [hpb]; exact hb
      · exact h p h1 (by omega)

/-- **C219** `linear_interpolation` with distinct spikes *not* in increasing order succeeds, keeps the other samples, but leaves at
least one of the spikes NaN (in increasing order it never does, C52). -/
theorem C219_linear_unsorted (xs : List K) (sp : List Nat) (hd : sp.Nodup) (hin : ∀ i ∈ sp, i < xs.length)
    (hu : ¬ sp.Pairwise (· < ·)) (decimals : Int) :
    ∃ out, linearInterpolation ⟨1, false, xs.map fin⟩ (sp.map (fun i : Nat => (i : Int))) decimals = .ok out ∧
      out.length = xs.length ∧ (∃ i ∈ sp, out[i]? = some nan) ∧
      ∀ k (h : k < xs.length), k ∉ sp → out[k]? = some (fin (aroundK xs[k] decimals)) := by
  cases sp with
  | nil => exact absurd List.Pairwise.nil hu
  | cons a r =>
  have hxs : xs ≠ [] := by
    rintro rfl
    have := hin a (by simp)
    simp at this
  set spz : List Int := (a :: r).map (fun i : Nat => (i : Int)) with hspz
  have hdz : spz.Nodup := hd.map (fun _ _ h => by exact_mod_cast h)
  have huz : ¬ spz.Pairwise (· < ·) := by
    intro h
    apply hu
    rw [hspz, List.pairwise_map] at h
    exact h.imp (fun h => by exact_mod_cast h)
  obtain ⟨p, hp, hpn⟩ := uncovered hdz huz
  obtain ⟨i, hi, rfl⟩ := List.mem_map.mp hp
  obtain ⟨md, hmd⟩ := setMany_total (xs.map fin : List (Fl K)) spz nan (by
    intro j hj
    obtain ⟨j', hj', rfl⟩ := List.mem_map.mp hj
    exact ⟨j', pyIdx_nat (by simpa using hin j' hj')⟩)
  have hlen : md.length = xs.length := by simpa using (setMany_frame hmd).1
  have hhit : ∀ k, Hits (xs.map (fin : K → Fl K)).length spz k ↔ k ∈ a :: r := fun k =>
    hits_nat (by simpa using hin) k
  -- the runs, with natural end points
  have hruns : ∀ q ∈ spikeRuns spz, ∃ s e : Nat, q = ((s : Int), (e : Int)) ∧ s < xs.length ∧ e < xs.length ∧
      ∀ k : Nat, s ≤ k → k ≤ e → k ∈ a :: r := by
    intro q hq
    have hq' : q ∈ runsFrom (a : Int) (a : Int) (r.map (fun i : Nat => (i : Int))) := by
      rw [← spikeRuns_from]; exact hq
    have hm := runsFrom_mem _ _ _ q hq'
    have hmem : ∀ z : Int, (z = a ∨ z ∈ r.map (fun i : Nat => (i : Int))) → ∃ j : Nat, z = j ∧ j ∈ a :: r := by
      rintro z (rfl | hz)
      · exact ⟨a, rfl, by simp⟩
      · obtain ⟨j, hj, rfl⟩ := List.mem_map.mp hz
        exact ⟨j, rfl, by simp [hj]⟩
    obtain ⟨s, hs, hs'⟩ := hmem q.1 hm.1
    obtain ⟨e, he, he'⟩ := hmem q.2 hm.2
    refine ⟨s, e, Prod.ext hs he, hin s hs', hin e he', fun k h1 h2 => ?_⟩
    have := runsFrom_inside (fun z => ∀ k : Nat, z = k → k ∈ a :: r) _ _ _ (by
      intro p h1 h2 k hk
      have : k = a := by omega
      simp [this]) (by
      intro b hb k hk
      obtain ⟨j, hj, rfl⟩ := List.mem_map.mp hb
      have : j = k := by exact_mod_cast hk
      subst this
      simp [hj]) q hq' (k : Int) (by rw [hs]; exact_mod_cast h1) (by rw [he]; exact_mod_cast h2)
    exact this k rfl
  have hfold : ∃ out, (spikeRuns spz).foldlM (liRun (xs.map fin)) md = .ok out ∧ out.length = xs.length ∧ out[i]? = md[i]? ∧
      ∀ k, k ∉ a :: r → out[k]? = md[k]? := by
    refine foldlM_total (fun o : List (Fl K) => o.length = xs.length ∧ o[i]? = md[i]? ∧ ∀ k, k ∉ a :: r → o[k]? = md[k]?) ?_
      ⟨hlen, rfl, fun _ _ => rfl⟩
    rintro q hq o ⟨o1, o2, o3⟩
    obtain ⟨s, e, rfl, h1, h2, h3⟩ := hruns q hq
    obtain ⟨o', e1, e2, e3⟩ := liRun_any xs hxs o o1 s e h1 h2
    refine ⟨o', e1, e2, ?_, fun k hk => ?_⟩
    · rw [e3 i (fun h => hpn _ hq ⟨by have := h.1; simp only; omega, by have := h.2; simp only; omega⟩), o2]
    · rw [e3 k (fun h => hk (h3 k h.1 h.2)), o3 k hk]
  obtain ⟨out, f1, f2, f3, f4⟩ := hfold
  refine ⟨out.map (fun x => PyNum.around x decimals), ?_, by simpa using f2, ⟨i, hi, ?_⟩, fun k hk hks => ?_⟩
  · unfold linearInterpolation linearInterpolationRaw
    have hmd' : setMany (xs.map fin : List (Fl K)) spz PyNum.nan = .ok md := hmd
    have hemp : spz.isEmpty = false := rfl
    simp only [hmd', hemp, bind, Except.bind, Bool.false_eq_true, if_false, f1]
  · rw [List.getElem?_map, f3, setMany_value hmd i ((hhit i).mpr hi)]
    rfl
  · rw [List.getElem?_map, f4 k hks, (setMany_frame hmd).2 k (fun h => hks ((hhit k).mp h)), List.getElem?_map,
      List.getElem?_eq_getElem hk]
    rfl

/-- a decreasing run stays missing altogether -/
example : linearInterpolation (F := Fl ℚ) ⟨1, false, [fin 1, fin 90, fin 91, fin 4]⟩ [2, 1] 4 = .ok [fin 1, nan, nan, fin 4] ∧
    linearInterpolation (F := Fl ℚ) ⟨1, false, [fin 1, fin 90, fin 91, fin 4]⟩ [1, 2] 4 = .ok [fin 1, fin 2, fin 3, fin 4] := by
  constructor <;> decide +kernel

/-- **C219** `cubic_12points_polynomial` depends on the order of the spikes and on repetitions even in an increasing list. -/
theorem C219_cubic (interp : List (Fl ℚ) → List (Fl ℚ) → Fl ℚ → Py (Fl ℚ)) :
    cubic12 interp ⟨1, false, [fin 1, fin 90, fin 92, fin 5]⟩ [1, 2] 4 = .ok [fin 1, fin 3, fin (95 / 2), fin 5] ∧
    cubic12 interp ⟨1, false, [fin 1, fin 90, fin 92, fin 5]⟩ [2, 1] 4 = .ok [fin 1, fin (97 / 4), fin (95 / 2), fin 5] ∧
    cubic12 interp ⟨1, false, [fin 1, fin 90, fin 92, fin 5]⟩ [1, 1, 2] 4 = .ok [fin 1, fin 2, fin (95 / 2), fin 5] := by
  have e : ∀ (v : Arr (Fl ℚ)) (sp : List Int), (∀ i ∈ sp, i ≤ 30) → cubic12 interp v sp 4 = cubic12 (fun _ _ _ => .error .valueError) v sp 4 := by
    intro v sp h
    have hf : ∀ md, sp.foldlM (cubicStep interp v.data) md = sp.foldlM (cubicStep (fun _ _ _ => .error .valueError) v.data) md := by
      induction sp with
      | nil => intro md; rfl
      | cons i r ih =>
        intro md
        have : cubicStep interp v.data md i = cubicStep (fun _ _ _ => .error .valueError) v.data md i := by
          unfold cubicStep
          rw [if_pos (Or.inl (h i (by simp))), if_pos (Or.inl (h i (by simp)))]
        rw [List.foldlM_cons, List.foldlM_cons, this]
        congr 1
        funext b
        exact ih (fun j hj => h j (by simp [hj])) b
    unfold cubic12
    simp only [hf]
  rw [e _ _ (by decide), e _ _ (by decide), e _ _ (by decide)]
  refine ⟨?_, ?_, ?_⟩ <;> decide +kernel

end Proadv.Props
