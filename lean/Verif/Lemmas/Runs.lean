import Verif.Model.Replace
import Verif.Lemmas.Index
import Verif.Lemmas.Descriptive

/-! # Runs of consecutive spikes and their replacement by `linear_interpolation` -/

set_option linter.unusedSectionVars false

namespace Proadv.Replace

open Proadv Descriptive

/-- runs of consecutive numbers of `l :: t`, the current run having started at `s` -/
def groupRuns : Nat → Nat → List Nat → List (Nat × Nat)
  | s, l, [] => [(s, l)]
  | s, l, b :: t => if b = l + 1 then groupRuns s b t else (s, l) :: groupRuns b b t

theorem spikeRuns_eq (l : Nat) (t : List Nat) (h : (l :: t).Pairwise (· < ·)) :
    spikeRuns ((l :: t).map (fun i : Nat => (i : Int))) =
      (groupRuns l l t).map (fun r => ((r.1 : Int), (r.2 : Int))) := by
  have key : ∀ (t : List Nat) (s l : Nat), (l :: t).Pairwise (· < ·) →
      ((s : Int) :: select (t.map (fun i : Nat => (i : Int))) (bigGap ((l :: t).map (fun i : Nat => (i : Int))))).zip
        (select ((l :: t).map (fun i : Nat => (i : Int))) (bigGap ((l :: t).map (fun i : Nat => (i : Int))) ++ [true])) =
      (groupRuns s l t).map (fun r => ((r.1 : Int), (r.2 : Int))) := by
    intro t
    induction t with
    | nil => intro s l _; simp [bigGap, select, groupRuns]
    | cons b t ih =>
      intro s l h
      obtain ⟨h1, h2⟩ := List.pairwise_cons.mp h
      have hlb := h1 b (by simp)
      have hb : bigGap ((l :: b :: t).map (fun i : Nat => (i : Int))) =
          decide (1 < (b : Int) - l) :: bigGap ((b :: t).map (fun i : Nat => (i : Int))) := by
        simp [bigGap]
      rw [hb]
      by_cases hg : b = l + 1
      · have hd : decide (1 < (b : Int) - l) = false := by simp; omega
        have := ih s b h2
        rw [hd]
        simpa [select, groupRuns, hg] using this
      · have hd : decide (1 < (b : Int) - l) = true := by simp; omega
        have := ih b b h2
        rw [hd]
        simpa [select, groupRuns, hg] using this
  have := key t l l h
  unfold spikeRuns
  simpa [select] using this

/-- properties of the runs, relative to the set `{s..l} ∪ t` -/
theorem groupRuns_spec : ∀ (t : List Nat) (s l : Nat), s ≤ l → (l :: t).Pairwise (· < ·) →
    (∀ r ∈ groupRuns s l t, s ≤ r.1 ∧ r.1 ≤ r.2 ∧ (∀ m, r.1 ≤ m → m ≤ r.2 → (s ≤ m ∧ m ≤ l) ∨ m ∈ t) ∧
      (r.2 + 1 ∉ t ∧ l ≤ r.2) ∧ (r.1 = s ∨ (l < r.1 - 1 ∧ r.1 - 1 ∉ t))) ∧
    (∀ m, (s ≤ m ∧ m ≤ l) ∨ m ∈ t → ∃ r ∈ groupRuns s l t, r.1 ≤ m ∧ m ≤ r.2) ∧
    (groupRuns s l t).Pairwise (fun a b => a.2 + 1 < b.1) := by
  intro t
  induction t with
  | nil =>
    intro s l h _
    simp only [groupRuns, List.mem_singleton]
    refine ⟨?_, ?_, by simp⟩
    · rintro r rfl
      exact ⟨le_refl _, h, fun m h1 h2 => Or.inl ⟨h1, h2⟩, ⟨by simp, le_refl _⟩, Or.inl rfl⟩
    · rintro m (hm | hm)
      · exact ⟨_, rfl, hm⟩
      · cases hm
  | cons b t ih =>
    intro s l h hp
    obtain ⟨h1, h2⟩ := List.pairwise_cons.mp hp
    have hlb := h1 b (by simp)
    have hbt := (List.pairwise_cons.mp h2).1
    by_cases hg : b = l + 1
    · obtain ⟨i1, i2, i3⟩ := ih s b (by omega) h2
      simp only [groupRuns, if_pos hg]
      refine ⟨fun r hr => ?_, fun m hm => ?_, i3⟩
      · obtain ⟨a1, a2, a3, a4, a5⟩ := i1 r hr
        refine ⟨a1, a2, fun m hm1 hm2 => ?_, ⟨?_, by omega⟩, ?_⟩
        · rcases a3 m hm1 hm2 with h | h
          · by_cases hm : m = b
            · right; simp [hm]
            · left; omega
          · right; simp [h]
        · simp only [List.mem_cons, not_or]
          exact ⟨by omega, a4.1⟩
        · rcases a5 with h | h
          · exact Or.inl h
          · right
            simp only [List.mem_cons, not_or]
            exact ⟨by omega, by omega, h.2⟩
      · apply i2
        rcases hm with h | h
        · left; omega
        · rcases List.mem_cons.mp h with h | h
          · left; omega
          · right; exact h
    · obtain ⟨i1, i2, i3⟩ := ih b b (le_refl _) h2
      simp only [groupRuns, if_neg hg]
      refine ⟨fun r hr => ?_, fun m hm => ?_, ?_⟩
      · rcases List.mem_cons.mp hr with rfl | hr
        · refine ⟨le_refl _, h, fun m h1 h2 => Or.inl ⟨h1, h2⟩, ⟨?_, le_refl _⟩, Or.inl rfl⟩
          simp only [List.mem_cons, not_or]
          exact ⟨fun hh => hg hh.symm, fun hh => by have := hbt _ hh; omega⟩
        · obtain ⟨a1, a2, a3, a4, a5⟩ := i1 r hr
          refine ⟨by omega, a2, fun m hm1 hm2 => ?_, ⟨?_, by omega⟩, ?_⟩
          · right
            rcases a3 m hm1 hm2 with h | h
            · have : m = b := by omega
              simp [this]
            · simp [h]
          · simp only [List.mem_cons, not_or]
            exact ⟨by omega, a4.1⟩
          · right
            simp only [List.mem_cons, not_or]
            rcases a5 with h | h
            · refine ⟨by omega, by omega, fun hh => ?_⟩
              have := hbt _ hh; omega
            · exact ⟨by omega, by omega, h.2⟩
      · rcases hm with h | h
        · exact ⟨_, List.mem_cons_self, h⟩
        · obtain ⟨r, hr, hr'⟩ := i2 m (by
            rcases List.mem_cons.mp h with h | h
            · left; omega
            · right; exact h)
          exact ⟨r, List.mem_cons_of_mem _ hr, hr'⟩
      · rw [List.pairwise_cons]
        refine ⟨fun r hr => ?_, i3⟩
        have := (i1 r hr).1
        show l + 1 < r.1
        omega

variable {F : Type} [PyNum F]

/-- a loop writing `val 0, val 1, …` at `s, s+1, …` -/
theorem rangeWrite (val : Nat → F) (s : Nat) : ∀ (len : Nat) (md : List F), s + len ≤ md.length →
    ∃ r, (List.range len).foldlM (fun a (i : Nat) => setIdx a ((s : Int) + i) (val i)) md = .ok r ∧
      r.length = md.length ∧ ∀ k, r[k]? = if s ≤ k ∧ k < s + len then some (val (k - s)) else md[k]? := by
  intro len
  induction len with
  | zero => intro md _; exact ⟨md, rfl, rfl, fun k => by rw [if_neg (by omega)]⟩
  | succ len ih =>
    intro md h
    obtain ⟨r, h1, h2, h3⟩ := ih md (by omega)
    refine ⟨r.set (s + len) (val len), ?_, by simpa using h2, fun k => ?_⟩
    · rw [List.range_succ, List.foldlM_append, h1]
      simp only [bind, Except.bind, List.foldlM_cons, List.foldlM_nil]
      have : setIdx r ((s : Int) + (len : Int)) (val len) = .ok (r.set (s + len) (val len)) :=
        setIdx_ok.mpr ⟨s + len, by rw [← Int.natCast_add]; exact pyIdx_nat (by omega), rfl⟩
      rw [this]; rfl
    · by_cases hk : k = s + len
      · subst hk
        rw [List.getElem?_set_self (by omega), if_pos (by omega)]
        simp
      · rw [List.getElem?_set_ne (by omega), h3 k]
        by_cases hc : s ≤ k ∧ k < s + len
        · rw [if_pos hc, if_pos (by omega)]
        · rw [if_neg hc, if_neg (by omega)]

theorem setSlice_get (md : List F) (s e : Nat) (x : F) (he : e < md.length) (hs : s ≤ e) (k : Nat) :
    (setSlice md (s : Int) ((e : Int) + 1) x)[k]? = if s ≤ k ∧ k ≤ e then some x else md[k]? := by
  unfold setSlice
  have h1 : sliceBound md.length (s : Int) = s := by
    unfold sliceBound
    rw [if_neg (by omega)]
    show min _ _ = _
    omega
  have h2 : sliceBound md.length ((e : Int) + 1) = e + 1 := by
    unfold sliceBound
    rw [if_neg (by omega)]
    show min _ _ = _
    omega
  rw [List.getElem?_mapIdx, h1, h2]
  by_cases hk : s ≤ k ∧ k ≤ e
  · rw [if_pos hk, List.getElem?_eq_getElem (by omega : k < md.length)]
    simp [hk]
  · rw [if_neg hk]
    cases md[k]? with
    | none => rfl
    | some y =>
      simp only [Option.map_some]
      rw [if_neg (by omega)]

/-- processing a run touches only the run, for every float arithmetic -/
theorem liRun_frame {v md out : List F} {s e : Nat} (hse : s ≤ e) (he : e < md.length)
    (h : liRun v md ((s : Int), (e : Int)) = .ok out) :
    out.length = md.length ∧ ∀ k, ¬ (s ≤ k ∧ k ≤ e) → out[k]? = md[k]? := by
  have hsl : ∀ x, (setSlice md (s : Int) ((e : Int) + 1) x).length = md.length ∧
      ∀ k, ¬ (s ≤ k ∧ k ≤ e) → (setSlice md (s : Int) ((e : Int) + 1) x)[k]? = md[k]? := fun x =>
    ⟨by simp [setSlice], fun k hk => by rw [setSlice_get md s e x he hse k, if_neg hk]⟩
  unfold liRun at h
  simp only [bind, Except.bind] at h
  split at h
  · cases h
  · rename_i a _
    split at h
    · cases h
    · rename_i b _
      unfold liWrite at h
      simp only [bind, Except.bind] at h
      split_ifs at h
      · obtain ⟨r, h1, h2, h3⟩ := rangeWrite (fun i => a +. ((b -. a) /. lit ((e : Int) - s + 2 : Int)) *. ofNat (i + 1)) s
          ((e : Int) + 1 - s).toNat md (by omega)
        rw [h1] at h
        cases h
        exact ⟨h2, fun k hk => by rw [h3, if_neg (by omega)]⟩
      · split at h
        · cases h
        · cases h; exact hsl _
      · cases h; exact hsl _

/-- the value written at position `k` of the run `s..e` -/
def runVal (v : List F) (s e k : Nat) : F :=
  if e + 1 < v.length then
    if 0 < s then
      let a := v.getD (s - 1) PyNum.nan
      let b := v.getD (e + 1) PyNum.nan
      a +. ((b -. a) /. lit ((e : Int) - s + 2 : Int)) *. ofNat (k - s + 1)
    else npMean [v.getD (e + 1) PyNum.nan]
  else npMean v

theorem liRun_value (hnan : PyNum.isNaN (PyNum.nan : F) = true) {v md : List F} {s e : Nat}
    (hv : ∀ x ∈ v, PyNum.isNaN x = false) (hl : md.length = v.length) (hse : s ≤ e) (he : e < v.length)
    (hs : 0 < s → md[s - 1]? = v[s - 1]?) (hE : e + 1 < v.length → md[e + 1]? = v[e + 1]?) :
    ∃ out, liRun v md ((s : Int), (e : Int)) = .ok out ∧
      ∀ k, s ≤ k → k ≤ e → out[k]? = some (runVal v s e k) := by
  have hget : ∀ i (hi : i < v.length), v.getD i PyNum.nan = v[i] := fun i hi => by
    rw [List.getD_eq_getElem?_getD, List.getElem?_eq_getElem hi]; rfl
  have hnn : ∀ i (hi : i < v.length), PyNum.isNaN v[i] = false := fun i hi => hv _ (List.getElem_mem hi)
  have hfil : v.filter (fun x => !(PyNum.isNaN x)) = v := by
    rw [List.filter_eq_self]; intro x hx; simp [hv x hx]
  have hvne : v ≠ [] := by rintro rfl; simp at he
  have hmean : meanForStore v = .ok (npMean v) := by
    rw [meanForStore, meanOf_eq _ hvne]; simp [hvne]
  have hvs : validStart md (s : Int) =
      .ok (if 0 < s then v.getD (s - 1) PyNum.nan else PyNum.nan) := by
    unfold validStart
    by_cases h0 : 0 < s
    · rw [if_pos (by omega), if_pos h0, show ((s : Int) - 1) = ((s - 1 : Nat) : Int) by omega, hget _ (by omega)]
      exact getIdx_nat (by rw [hs h0, List.getElem?_eq_getElem])
    · rw [if_neg (by omega), if_neg h0]
  have hve : validEnd v.length md (e : Int) =
      .ok (if e + 1 < v.length then v.getD (e + 1) PyNum.nan else PyNum.nan) := by
    unfold validEnd
    by_cases h0 : e + 1 < v.length
    · rw [if_pos (by omega), if_pos h0, show ((e : Int) + 1) = ((e + 1 : Nat) : Int) by omega, hget _ h0]
      exact getIdx_nat (by rw [hE h0, List.getElem?_eq_getElem])
    · rw [if_neg (by omega), if_neg h0]
  unfold liRun
  simp only [hvs, hve, bind, Except.bind]
  unfold liWrite
  simp only [hfil, hmean, bind, Except.bind]
  by_cases h1 : e + 1 < v.length
  · have n1 : PyNum.isNaN (v.getD (e + 1) PyNum.nan) = false := by rw [hget _ h1]; exact hnn _ h1
    by_cases h0 : 0 < s
    · have n0 : PyNum.isNaN (v.getD (s - 1) PyNum.nan) = false := by rw [hget _ (by omega)]; exact hnn _ _
      simp only [if_pos h1, if_pos h0, n0, n1, Bool.not_false, Bool.and_true, if_true]
      obtain ⟨r, g1, g2, g3⟩ := rangeWrite (fun i => v.getD (s - 1) PyNum.nan +.
        ((v.getD (e + 1) PyNum.nan -. v.getD (s - 1) PyNum.nan) /. lit ((e : Int) - s + 2 : Int)) *. ofNat (i + 1)) s
          ((e : Int) + 1 - s).toNat md (by omega)
      refine ⟨r, g1, fun k hk1 hk2 => ?_⟩
      rw [g3, if_pos (by omega)]
      simp only [runVal, if_pos h1, if_pos h0]
    · simp only [if_pos h1, if_neg h0, hnan, n1, Bool.not_true, Bool.false_and, Bool.false_eq_true, if_false]
      refine ⟨_, rfl, fun k hk1 hk2 => ?_⟩
      rw [setSlice_get md s e _ (by omega) hse k, if_pos ⟨hk1, hk2⟩]
      simp only [runVal, if_pos h1, if_neg h0, npNanmean]
      rw [show [PyNum.nan, v.getD (e + 1) PyNum.nan].filter (fun x : F => !(PyNum.isNaN x)) = [v.getD (e + 1) PyNum.nan] by
        rw [List.filter_cons, hnan, List.filter_cons, n1]; rfl]
  · simp only [if_neg h1, hnan, Bool.not_true, Bool.and_false, Bool.false_eq_true, if_false, if_true]
    refine ⟨_, rfl, fun k hk1 hk2 => ?_⟩
    rw [setSlice_get md s e _ (by omega) hse k, if_pos ⟨hk1, hk2⟩]
    simp only [runVal, if_neg h1]

/-- processing separated runs: every run gets its values, everything else is kept -/
theorem runs_fold (hnan : PyNum.isNaN (PyNum.nan : F) = true) {v : List F} (hv : ∀ x ∈ v, PyNum.isNaN x = false) :
    ∀ (runs : List (Nat × Nat)) (md : List F), md.length = v.length → runs.Pairwise (fun a b => a.2 + 1 < b.1) →
      (∀ r ∈ runs, r.1 ≤ r.2 ∧ r.2 < v.length ∧ (0 < r.1 → md[r.1 - 1]? = v[r.1 - 1]?) ∧
        (r.2 + 1 < v.length → md[r.2 + 1]? = v[r.2 + 1]?)) →
      ∃ out, (runs.map (fun r => ((r.1 : Int), (r.2 : Int)))).foldlM (liRun v) md = .ok out ∧ out.length = v.length ∧
        (∀ k, (∀ r ∈ runs, ¬ (r.1 ≤ k ∧ k ≤ r.2)) → out[k]? = md[k]?) ∧
        ∀ r ∈ runs, ∀ k, r.1 ≤ k → k ≤ r.2 → out[k]? = some (runVal v r.1 r.2 k) := by
  intro runs
  induction runs with
  | nil => intro md hl _ _; exact ⟨md, rfl, hl, fun _ _ => rfl, by simp⟩
  | cons r t ih =>
    intro md hl hp hr
    obtain ⟨p1, p2⟩ := List.pairwise_cons.mp hp
    obtain ⟨a1, a2, a3, a4⟩ := hr r (by simp)
    obtain ⟨md', h1, h2⟩ := liRun_value hnan hv hl a1 a2 a3 a4
    obtain ⟨h3, h4⟩ := liRun_frame a1 (by omega) h1
    obtain ⟨out, g1, g2, g3, g4⟩ := ih md' (by omega) p2 (fun r' hr' => by
      obtain ⟨b1, b2, b3, b4⟩ := hr r' (by simp [hr'])
      have := p1 r' hr'
      exact ⟨b1, b2, fun h => by rw [h4 _ (by omega)]; exact b3 h, fun h => by rw [h4 _ (by omega)]; exact b4 h⟩)
    refine ⟨out, ?_, g2, ?_, ?_⟩
    · rw [List.map_cons]; exact foldlM_cons_ok.mpr ⟨md', h1, g1⟩
    · intro k hk
      rw [g3 k (fun r' hr' => hk r' (by simp [hr'])), h4 k (hk r (by simp))]
    · intro r' hr' k k1 k2
      rcases List.mem_cons.mp hr' with rfl | hr'
      · rw [g3 k (fun r'' hr'' => by have := p1 r'' hr''; omega)]
        exact h2 k k1 k2
      · exact g4 r' hr' k k1 k2

/-- frame property of the whole fold, for every float arithmetic -/
theorem runs_frame {v : List F} : ∀ (runs : List (Nat × Nat)) (md out : List F),
      (∀ r ∈ runs, r.1 ≤ r.2 ∧ r.2 < md.length) →
      (runs.map (fun r => ((r.1 : Int), (r.2 : Int)))).foldlM (liRun v) md = .ok out →
      out.length = md.length ∧ ∀ k, (∀ r ∈ runs, ¬ (r.1 ≤ k ∧ k ≤ r.2)) → out[k]? = md[k]? := by
  intro runs
  induction runs with
  | nil => intro md out _ h; cases h; exact ⟨rfl, fun _ _ => rfl⟩
  | cons r t ih =>
    intro md out hr h
    rw [List.map_cons] at h
    obtain ⟨md', h1, h2⟩ := foldlM_cons_ok.mp h
    obtain ⟨a1, a2⟩ := hr r (by simp)
    obtain ⟨h3, h4⟩ := liRun_frame a1 a2 h1
    obtain ⟨g1, g2⟩ := ih md' out (fun r' hr' => by
      obtain ⟨b1, b2⟩ := hr r' (by simp [hr']); exact ⟨b1, by omega⟩) h2
    exact ⟨by omega, fun k hk => by rw [g2 k (fun r' hr' => hk r' (by simp [hr'])), h4 k (hk r (by simp))]⟩

end Proadv.Replace
