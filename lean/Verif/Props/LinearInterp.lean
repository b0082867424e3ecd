import Verif.Lemmas.Runs
import Verif.Props.Replace
import Mathlib.Algebra.BigOperators.Ring.List

/-!
# C49–C52 (and C44 for `linear_interpolation`)
-/

set_option linter.unusedSectionVars false

namespace Proadv.Props

open Proadv Replace Fl

/-- specification: `s..e` is a maximal block of consecutive spikes -/
def IsRun (sp : List Nat) (s e : Nat) : Prop :=
  s ≤ e ∧ (∀ m, s ≤ m → m ≤ e → m ∈ sp) ∧ (0 < s → s - 1 ∉ sp) ∧ e + 1 ∉ sp

/-- every spike lies in a maximal block -/
theorem isRun_exists (sp : List Nat) (hs : sp.Pairwise (· < ·)) (k : Nat) (hk : k ∈ sp) :
    ∃ s e, IsRun sp s e ∧ s ≤ k ∧ k ≤ e := by
  cases sp with
  | nil => cases hk
  | cons l t =>
    obtain ⟨h1, h2, -⟩ := groupRuns_spec t l l (le_refl _) hs
    have hlt := (List.pairwise_cons.mp hs).1
    obtain ⟨r, hr, hr1, hr2⟩ := h2 k (by
      rcases List.mem_cons.mp hk with rfl | h
      · left; omega
      · right; exact h)
    obtain ⟨a1, a2, a3, a4, a5⟩ := h1 r hr
    refine ⟨r.1, r.2, ⟨a2, fun m h3 h4 => ?_, fun h => ?_, ?_⟩, hr1, hr2⟩
    · rcases a3 m h3 h4 with h | h
      · have : m = l := by omega
        simp [this]
      · simp [h]
    · rw [List.mem_cons, not_or]
      rcases a5 with h5 | h5
      · exact ⟨by omega, fun hh => by have := hlt _ hh; omega⟩
      · exact ⟨by omega, h5.2⟩
    · rw [List.mem_cons, not_or]
      exact ⟨by omega, a4.1⟩

section generic
variable {F : Type} [PyNum F]

theorem groupRuns_bounds {l : Nat} {t : List Nat} (hs : (l :: t).Pairwise (· < ·)) {n : Nat}
    (hin : ∀ i ∈ l :: t, i < n) : ∀ r ∈ groupRuns l l t, r.1 ≤ r.2 ∧ r.2 < n ∧ ∀ m, r.1 ≤ m → m ≤ r.2 → m ∈ l :: t := by
  intro r hr
  obtain ⟨h1, -, -⟩ := groupRuns_spec t l l (le_refl _) hs
  obtain ⟨a1, a2, a3, a4, a5⟩ := h1 r hr
  have hm : ∀ m, r.1 ≤ m → m ≤ r.2 → m ∈ l :: t := fun m h3 h4 => by
    rcases a3 m h3 h4 with h | h
    · have : m = l := by omega
      simp [this]
    · simp [h]
  exact ⟨a2, hin _ (hm _ a2 (le_refl _)), hm⟩

/-- **C44** for `linear_interpolation`, strictly increasing in-range spikes, every float arithmetic: length kept and
samples that are not spikes only rounded. -/
theorem C44_linear (v : List F) (sp : List Nat) (hs : sp.Pairwise (· < ·)) (hin : ∀ i ∈ sp, i < v.length) (b : Bool)
    (decimals : Int) (out : List F)
    (h : linearInterpolation ⟨1, b, v⟩ (sp.map (fun i : Nat => (i : Int))) decimals = .ok out) :
    out.length = v.length ∧ ∀ k, k ∉ sp → out[k]? = (v[k]?).map (fun x => PyNum.around x decimals) := by
  unfold linearInterpolation at h
  simp only [bind, Except.bind] at h
  cases hr : linearInterpolationRaw ⟨1, b, v⟩ (sp.map (fun i : Nat => (i : Int))) with
  | error e => rw [hr] at h; cases h
  | ok md =>
    rw [hr] at h
    cases h
    unfold linearInterpolationRaw at hr
    cases b with
    | true => cases hr
    | false =>
      simp only [bind, Except.bind, Bool.false_eq_true, if_false] at hr
      cases hm : setMany v (sp.map (fun i : Nat => (i : Int))) PyNum.nan with
      | error e => rw [hm] at hr; cases hr
      | ok md0 =>
        rw [hm] at hr
        obtain ⟨f1, f2⟩ := setMany_frame hm
        cases sp with
        | nil => cases hr
        | cons l t =>
          simp only [List.map_cons, List.isEmpty_cons, Bool.false_eq_true, if_false] at hr
          rw [← List.map_cons (f := fun i : Nat => (i : Int)), spikeRuns_eq l t hs] at hr
          have hb := groupRuns_bounds hs hin
          obtain ⟨g1, g2⟩ := runs_frame _ _ _ (fun r hr => ⟨(hb r hr).1, by rw [f1]; exact (hb r hr).2.1⟩) hr
          refine ⟨by simp only [List.length_map]; rw [g1, f1], fun k hk => ?_⟩
          rw [List.getElem?_map, g2 k (fun r hr hh => hk ((hb r hr).2.2 k hh.1 hh.2)),
            f2 k (fun hh => hk ((hits_nat hin k).mp hh))]

/-- values of `linear_interpolation` before rounding, block by block, for every float arithmetic in which `nan` is NaN -/
theorem li_raw (hnan : PyNum.isNaN (PyNum.nan : F) = true) (v : List F) (hv : ∀ x ∈ v, PyNum.isNaN x = false)
    (sp : List Nat) (hne : sp ≠ []) (hs : sp.Pairwise (· < ·)) (hin : ∀ i ∈ sp, i < v.length) :
    ∃ out, linearInterpolationRaw ⟨1, false, v⟩ (sp.map (fun i : Nat => (i : Int))) = .ok out ∧ out.length = v.length ∧
      (∀ k, k ∉ sp → out[k]? = v[k]?) ∧
      ∀ s e, IsRun sp s e → ∀ k, s ≤ k → k ≤ e → out[k]? = some (runVal v s e k) := by
  obtain ⟨md0, hm⟩ := setMany_total v (sp.map (fun i : Nat => (i : Int))) (PyNum.nan : F) (by
    intro i hi
    obtain ⟨j, hj, rfl⟩ := List.mem_map.mp hi
    exact ⟨j, pyIdx_nat (hin j hj)⟩)
  obtain ⟨f1, f2⟩ := setMany_frame hm
  have f2' : ∀ k, k ∉ sp → md0[k]? = v[k]? := fun k hk => f2 k (fun hh => hk ((hits_nat hin k).mp hh))
  cases sp with
  | nil => exact absurd rfl hne
  | cons l t =>
    have hb := groupRuns_bounds hs hin
    obtain ⟨p1, p2, p3⟩ := groupRuns_spec t l l (le_refl _) hs
    have hlt := (List.pairwise_cons.mp hs).1
    -- the neighbours of a block are not spikes
    have hnb : ∀ r ∈ groupRuns l l t, (0 < r.1 → r.1 - 1 ∉ l :: t) ∧ r.2 + 1 ∉ l :: t := by
      intro r hr
      obtain ⟨a1, a2, a3, a4, a5⟩ := p1 r hr
      constructor
      · intro h
        rw [List.mem_cons, not_or]
        rcases a5 with h5 | h5
        · exact ⟨by omega, fun hh => by have := hlt _ hh; omega⟩
        · exact ⟨by omega, h5.2⟩
      · rw [List.mem_cons, not_or]
        exact ⟨by omega, a4.1⟩
    obtain ⟨out, o1, o2, o3, o4⟩ := runs_fold hnan hv (groupRuns l l t) md0 f1 p3 (fun r hr =>
      ⟨(hb r hr).1, (hb r hr).2.1, fun h => f2' _ ((hnb r hr).1 h), fun _ => f2' _ (hnb r hr).2⟩)
    refine ⟨out, ?_, o2, ?_, ?_⟩
    · unfold linearInterpolationRaw
      simp only [hm, bind, Except.bind, Bool.false_eq_true, if_false]
      rw [if_neg (by simp), spikeRuns_eq l t hs]
      exact o1
    · intro k hk
      rw [o3 k (fun r hr hh => hk ((hb r hr).2.2 k hh.1 hh.2)), f2' k hk]
    · rintro s e ⟨q1, q2, q3, q4⟩ k k1 k2
      -- the block is one of the computed runs
      have hsm := q2 s (le_refl _) q1
      obtain ⟨r, hr, r1, r2⟩ := p2 s (by
        rcases List.mem_cons.mp hsm with h | h
        · left; omega
        · right; exact h)
      have hr' := (hb r hr).2.2
      have e1 : r.1 = s := by
        by_contra hc
        exact q3 (by omega) (hr' (s - 1) (by omega) (by omega))
      have e2 : r.2 = e := by
        rcases Nat.lt_trichotomy r.2 e with h | h | h
        · exact absurd (q2 (r.2 + 1) (by omega) (by omega)) (hnb r hr).2
        · exact h
        · exact absurd (hr' (e + 1) (by omega) (by omega)) q4
      have := o4 r hr k (by omega) (by omega)
      rw [e1, e2] at this
      exact this

/-- **C51**: no spikes → IndexError; integer array → ValueError (for every float arithmetic). -/
theorem C51_errors (v : List F) (decimals : Int) (spikes : List Int) :
    linearInterpolation ⟨1, false, v⟩ [] decimals = .error .indexError ∧
    linearInterpolation ⟨1, true, v⟩ spikes decimals = .error .valueError :=
  ⟨rfl, rfl⟩

/-- **C51**: an out-of-range spike is an IndexError as well -/
theorem C51_out_of_range (v : List F) (decimals : Int) (spikes : List Int)
    (h : ∃ i ∈ spikes, pyIdx v.length i = none) :
    linearInterpolation ⟨1, false, v⟩ spikes decimals = .error .indexError := by
  unfold linearInterpolation linearInterpolationRaw
  simp only [setMany_error v spikes PyNum.nan h, bind, Except.bind, Bool.false_eq_true, if_false]

end generic

variable {K : Type} [Field K] [LinearOrder K] [IsStrictOrderedRing K] [FloorRing K]

theorem spikeRuns_head {s : Int} {t : List Int} : ∃ e ∈ s :: t, ∃ rest, spikeRuns (s :: t) = (s, e) :: rest := by
  have hmem : ∀ (l : List Int) (m : List Bool), ∀ e ∈ select l m, e ∈ l := by
    intro l m e he
    unfold select at he
    obtain ⟨p, hp, h⟩ := List.mem_filterMap.mp he
    split at h
    · cases h; exact (List.of_mem_zip hp).1
    · cases h
  have hne : ∀ (t : List Int) (s : Int), select (s :: t) (bigGap (s :: t) ++ [true]) ≠ [] := by
    intro t
    induction t with
    | nil => intro s; simp [select, bigGap]
    | cons u t ih =>
      intro s
      have e : select (s :: u :: t) (bigGap (s :: u :: t) ++ [true]) =
          (if decide (1 < u - s) then [s] else []) ++ select (u :: t) (bigGap (u :: t) ++ [true]) := by
        simp only [select, bigGap, List.tail_cons, List.zipWith_cons_cons, List.cons_append, List.zip_cons_cons, List.filterMap_cons]
        by_cases hg : 1 < u - s <;> simp [hg]
      rw [e]
      intro h
      exact ih u (List.append_eq_nil_iff.mp h).2
  obtain ⟨e, r, h⟩ := List.exists_cons_of_ne_nil (hne t s)
  refine ⟨e, hmem _ (bigGap (s :: t) ++ [true]) e (by rw [h]; simp), (select t (bigGap (s :: t))).zip r, ?_⟩
  unfold spikeRuns
  rw [h]
  simp [select]

/-- **C51**: a recording with every sample missing is a ValueError whatever (existing) samples are listed: the mean of no
samples is a string, which cannot be stored. -/
theorem C51_all_missing (n : Nat) (spikes : List Int) (hne : spikes ≠ []) (hin : ∀ i ∈ spikes, ∃ k, pyIdx n i = some k) (decimals : Int) :
    linearInterpolation (F := Fl K) ⟨1, false, List.replicate n nan⟩ spikes decimals = .error .valueError := by
  obtain ⟨md, hmd⟩ := setMany_total (List.replicate n (nan : Fl K)) spikes nan (by simpa using hin)
  have hlen : md.length = n := by simpa using (setMany_frame hmd).1
  have hall : ∀ i x, getIdx md i = .ok x → x = nan := by
    intro i x h
    obtain ⟨k, _, hk⟩ := getIdx_ok.mp h
    by_cases hh : Hits n spikes k
    · have := setMany_value hmd k (by simpa using hh)
      rw [this] at hk; cases hk; rfl
    · have := (setMany_frame hmd).2 k (by simpa using hh)
      rw [this] at hk
      exact (List.eq_of_mem_replicate (List.mem_of_getElem? hk))
  have hget : ∀ i : Int, -n ≤ i → i < n → getIdx md i = .ok nan := by
    intro i h1 h2
    have : ∃ k, pyIdx md.length i = some k ∧ k < md.length := by
      rw [hlen]
      unfold pyIdx
      split_ifs <;> first | exact ⟨_, rfl, by omega⟩ | omega
    obtain ⟨k, hk, hl⟩ := this
    have := getIdx_ok.mpr ⟨k, hk, List.getElem?_eq_getElem hl⟩
    rw [this, hall _ _ this]
  obtain ⟨s, t, rfl⟩ := List.exists_cons_of_ne_nil hne
  obtain ⟨e, he, rest, hr⟩ := spikeRuns_head (s := s) (t := t)
  have hb : ∀ i ∈ s :: t, -(n : Int) ≤ i ∧ i < n := by
    intro i hi
    obtain ⟨k, hk⟩ := hin i hi
    unfold pyIdx at hk
    split_ifs at hk <;> omega
  have hs := hb s (by simp)
  have he := hb e he
  have hst : validStart md s = .ok nan := by
    unfold validStart
    split_ifs
    · exact hget _ (by omega) (by omega)
    · rfl
  have hen : validEnd n md e = .ok nan := by
    unfold validEnd
    split_ifs
    · exact hget _ (by omega) (by omega)
    · rfl
  have hrun : liRun (List.replicate n nan) md (s, e) = .error .valueError := by
    unfold liRun
    simp only [List.length_replicate, hst, hen, bind, Except.bind]
    simp [liWrite, meanForStore, isNaN_def, Fl.isNaN, bind, Except.bind]
  unfold linearInterpolation linearInterpolationRaw
  have hmd' : setMany (List.replicate n (nan : Fl K)) (s :: t) PyNum.nan = .ok md := hmd
  simp only [hmd', bind, Except.bind, Bool.false_eq_true, if_false, hr, List.foldlM_cons, hrun, List.isEmpty_cons]

example : linearInterpolation (F := Fl ℚ) ⟨1, false, [nan, nan, nan]⟩ [1] 3 = .error .valueError :=
  C51_all_missing 3 [1] (by simp) (by simp; exact ⟨1, by decide⟩) 3

theorem li_raw_exact (xs : List K) (sp : List Nat) (hne : sp ≠ []) (hs : sp.Pairwise (· < ·))
    (hin : ∀ i ∈ sp, i < xs.length) :
    ∃ out, linearInterpolationRaw ⟨1, false, xs.map fin⟩ (sp.map (fun i : Nat => (i : Int))) = .ok out ∧
      out.length = xs.length ∧ (∀ k, k ∉ sp → out[k]? = (xs.map fin)[k]?) ∧
      ∀ s e, IsRun sp s e → ∀ k, s ≤ k → k ≤ e →
        out[k]? = some (fin (if e + 1 < xs.length then
          (if 0 < s then xs.getD (s - 1) 0 + (xs.getD (e + 1) 0 - xs.getD (s - 1) 0) * ((k : K) - s + 1) / ((e : K) - s + 2)
           else xs.getD (e + 1) 0)
          else xs.sum / xs.length)) := by
  obtain ⟨out, o1, o2, o3, o4⟩ := li_raw (F := Fl K) rfl (xs.map fin) (by simp) sp hne hs (by simpa using hin)
  refine ⟨out, o1, by simpa using o2, o3, fun s e hr k k1 k2 => ?_⟩
  rw [o4 s e hr k k1 k2]
  have hen : e < xs.length := hin e (hr.2.1 e hr.1 (le_refl _))
  have hx : xs ≠ [] := by rintro rfl; simp at hen
  have hget : ∀ i, i < xs.length → (xs.map fin : List (Fl K)).getD i PyNum.nan = fin (xs.getD i 0) := fun i hi => by
    simp [List.getD_eq_getElem?_getD, hi]
  congr 1
  unfold runVal
  rw [List.length_map]
  by_cases h1 : e + 1 < xs.length
  · rw [if_pos h1, if_pos h1]
    by_cases h0 : 0 < s
    · rw [if_pos h0, if_pos h0]
      simp only [hget _ h1, hget (s - 1) (by omega)]
      have hse : (s : K) ≤ e := by exact_mod_cast hr.1
      have hq : ((((e : Int) - s + 2 : Int) : ℚ) : K) = (e : K) - s + 2 := by push_cast; ring
      have hne2 : (e : K) - s + 2 ≠ 0 := by
        have : (0 : K) < (e : K) - s + 2 := by linarith
        exact this.ne'
      have hk : ((k - s + 1 : ℕ) : K) = (k : K) - s + 1 := by
        push_cast [Nat.cast_sub k1]; ring
      simp only [psub_fin, Fl.lit_eq, Fl.ofNat_eq]
      rw [hq, pdiv_fin hne2, pmul_fin, padd_fin, hk]
      congr 1
      ring
    · rw [if_neg h0, if_neg h0, hget _ h1]
      have := npMean_fins [xs.getD (e + 1) (0 : K)] (by simp)
      simpa using this
  · rw [if_neg h1, if_neg h1]
    exact npMean_fins xs hx

/-- **C49**: every maximal block `s..e` of spikes that touches neither end is put on the chord through
`(s-1, v[s-1])` and `(e+1, v[e+1])`, rounded to `decimals`. -/
theorem C49_chord (xs : List K) (sp : List Nat) (hs : sp.Pairwise (· < ·)) (hin : ∀ i ∈ sp, i < xs.length)
    (decimals : Int) (s e : Nat) (hr : IsRun sp s e) (h0 : 0 < s) (h1 : e + 1 < xs.length) :
    ∃ out, linearInterpolation ⟨1, false, xs.map fin⟩ (sp.map (fun i : Nat => (i : Int))) decimals = .ok out ∧
      ∀ k, s ≤ k → k ≤ e → out[k]? = some (fin (aroundK
        (xs.getD (s - 1) 0 + (xs.getD (e + 1) 0 - xs.getD (s - 1) 0) * ((k : K) - (s - 1)) / ((e : K) + 1 - (s - 1)))
        decimals)) := by
  have hne : sp ≠ [] := by rintro rfl; exact absurd (hr.2.1 s (le_refl _) hr.1) (by simp)
  obtain ⟨out, o1, -, -, o4⟩ := li_raw_exact xs sp hne hs hin
  refine ⟨out.map (fun x => PyNum.around x decimals), ?_, fun k k1 k2 => ?_⟩
  · unfold linearInterpolation; rw [o1]; rfl
  · rw [List.getElem?_map, o4 s e hr k k1 k2, if_pos h1, if_pos h0]
    simp only [Option.map_some, paround_fin]
    rw [show (e : K) - s + 2 = (e : K) + 1 - (s - 1) by ring, show (k : K) - s + 1 = (k : K) - (s - 1) by ring]

/-- **C49**: if the samples that are not spikes lie on a line, the blocks touching neither end are put on that line
(exactly, before rounding). -/
theorem C49_line (xs : List K) (sp : List Nat) (hs : sp.Pairwise (· < ·)) (hin : ∀ i ∈ sp, i < xs.length)
    (alpha beta : K) (hline : ∀ j, j < xs.length → j ∉ sp → xs.getD j 0 = alpha + beta * j)
    (s e : Nat) (hr : IsRun sp s e) (h0 : 0 < s) (h1 : e + 1 < xs.length) :
    ∃ out, linearInterpolationRaw ⟨1, false, xs.map fin⟩ (sp.map (fun i : Nat => (i : Int))) = .ok out ∧
      ∀ k, s ≤ k → k ≤ e → out[k]? = some (fin (alpha + beta * k)) := by
  have hne : sp ≠ [] := by rintro rfl; exact absurd (hr.2.1 s (le_refl _) hr.1) (by simp)
  obtain ⟨out, o1, -, -, o4⟩ := li_raw_exact xs sp hne hs hin
  refine ⟨out, o1, fun k k1 k2 => ?_⟩
  rw [o4 s e hr k k1 k2, if_pos h1, if_pos h0, hline _ h1 hr.2.2.2, hline (s - 1) (by have := hr.1; omega) (hr.2.2.1 h0)]
  congr 2
  have hse : (s : K) ≤ e := by exact_mod_cast hr.1
  have hne2 : (e : K) - s + 2 ≠ 0 := by
    have : (0 : K) < (e : K) - s + 2 := by linarith
    exact this.ne'
  have hs1 : ((s - 1 : ℕ) : K) = (s : K) - 1 := by push_cast [Nat.cast_sub h0]; ring
  rw [hs1]
  field_simp
  push_cast
  ring

/-- **C50**: a block touching the end is replaced by the mean of all samples (spikes included); a block touching only the
beginning by the first valid sample after it. -/
theorem C50_boundary (xs : List K) (sp : List Nat) (hs : sp.Pairwise (· < ·)) (hin : ∀ i ∈ sp, i < xs.length)
    (decimals : Int) (s e : Nat) (hr : IsRun sp s e) :
    ∃ out, linearInterpolation ⟨1, false, xs.map fin⟩ (sp.map (fun i : Nat => (i : Int))) decimals = .ok out ∧
      (e + 1 = xs.length → ∀ k, s ≤ k → k ≤ e → out[k]? = some (fin (aroundK (xs.sum / xs.length) decimals))) ∧
      (s = 0 → e + 1 < xs.length → ∀ k, k ≤ e → out[k]? = some (fin (aroundK (xs.getD (e + 1) 0) decimals))) := by
  have hne : sp ≠ [] := by rintro rfl; exact absurd (hr.2.1 s (le_refl _) hr.1) (by simp)
  obtain ⟨out, o1, -, -, o4⟩ := li_raw_exact xs sp hne hs hin
  refine ⟨out.map (fun x => PyNum.around x decimals), ?_, fun h k k1 k2 => ?_, fun h h1 k k2 => ?_⟩
  · unfold linearInterpolation; rw [o1]; rfl
  · rw [List.getElem?_map, o4 s e hr k k1 k2, if_neg (by omega)]; rfl
  · rw [List.getElem?_map, o4 s e hr k (by omega) k2, if_pos h1, if_neg (by omega)]; rfl

/-- the documented fallback for a block at the beginning (mean of the dataset) is not what happens -/
theorem C50_not_mean_at_start : ∃ (xs : List ℚ) (sp : List Int) (out : List (Fl ℚ)),
    linearInterpolation ⟨1, false, xs.map fin⟩ sp 4 = .ok out ∧ sp = [0] ∧ out[0]? ≠ some (fin (aroundK (xs.sum / xs.length) 4)) :=
  ⟨[9, 1, 2], [0], [fin 1, fin 1, fin 2], by decide +kernel, rfl, by decide +kernel⟩

/-- **C52**: with at least one spike the output is finite everywhere, and before rounding every value lies in every
interval that contains the input. -/
theorem C52_in_range (xs : List K) (sp : List Nat) (hne : sp ≠ []) (hs : sp.Pairwise (· < ·))
    (hin : ∀ i ∈ sp, i < xs.length) (lo hi : K) (hb : ∀ x ∈ xs, lo ≤ x ∧ x ≤ hi) (decimals : Int) :
    ∃ zs : List K, linearInterpolationRaw ⟨1, false, xs.map fin⟩ (sp.map (fun i : Nat => (i : Int))) = .ok (zs.map fin) ∧
      linearInterpolation ⟨1, false, xs.map fin⟩ (sp.map (fun i : Nat => (i : Int))) decimals =
        .ok (zs.map (fun z => fin (aroundK z decimals))) ∧
      zs.length = xs.length ∧ ∀ z ∈ zs, lo ≤ z ∧ z ≤ hi := by
  obtain ⟨out, o1, o2, o3, o4⟩ := li_raw_exact xs sp hne hs hin
  -- every entry of the output is finite and in range
  have hall : ∀ k, k < xs.length → ∃ z, out[k]? = some (fin z) ∧ lo ≤ z ∧ z ≤ hi := by
    intro k hk
    by_cases hks : k ∈ sp
    · obtain ⟨s, e, hr, k1, k2⟩ := isRun_exists sp hs k hks
      refine ⟨_, o4 s e hr k k1 k2, ?_⟩
      have hgb : ∀ i, i < xs.length → lo ≤ xs.getD i 0 ∧ xs.getD i 0 ≤ hi := fun i hi => by
        have : xs.getD i 0 = xs[i] := by simp [List.getD_eq_getElem?_getD, hi]
        rw [this]; exact hb _ (List.getElem_mem hi)
      by_cases h1 : e + 1 < xs.length
      · rw [if_pos h1]
        by_cases h0 : 0 < s
        · rw [if_pos h0]
          obtain ⟨a1, a2⟩ := hgb (e + 1) h1
          obtain ⟨b1, b2⟩ := hgb (s - 1) (by have := hr.1; omega)
          have hsk : (s : K) ≤ k := by exact_mod_cast k1
          have hke : (k : K) ≤ e := by exact_mod_cast k2
          have hd : (0 : K) < (e : K) - s + 2 := by linarith
          set t : K := ((k : K) - s + 1) / ((e : K) - s + 2) with ht
          have ht0 : 0 ≤ t := div_nonneg (by linarith) hd.le
          have ht1 : t ≤ 1 := by rw [ht, div_le_one hd]; linarith
          have he : xs.getD (s - 1) 0 + (xs.getD (e + 1) 0 - xs.getD (s - 1) 0) * ((k : K) - s + 1) / ((e : K) - s + 2) =
              (1 - t) * xs.getD (s - 1) 0 + t * xs.getD (e + 1) 0 := by rw [ht]; ring
          rw [he]
          constructor <;> nlinarith
        · rw [if_neg h0]; exact hgb _ h1
      · rw [if_neg h1]
        have hn : (0 : K) < xs.length := by exact_mod_cast (by omega : 0 < xs.length)
        constructor
        · rw [le_div_iff₀ hn]
          have := List.card_nsmul_le_sum xs lo (fun x hx => (hb x hx).1)
          simpa [nsmul_eq_mul, mul_comm] using this
        · rw [div_le_iff₀ hn]
          have := List.sum_le_card_nsmul xs hi (fun x hx => (hb x hx).2)
          simpa [nsmul_eq_mul, mul_comm] using this
    · have : lo ≤ xs[k] ∧ xs[k] ≤ hi := hb _ (List.getElem_mem hk)
      refine ⟨xs[k], ?_, this⟩
      rw [o3 k hks, List.getElem?_map, List.getElem?_eq_getElem hk]; rfl
  choose! z hz hz1 using hall
  have hout : out = ((List.range xs.length).map z).map fin := by
    apply List.ext_getElem?
    intro k
    by_cases hk : k < xs.length
    · rw [hz k hk]; simp [hk]
    · rw [List.getElem?_eq_none (by omega), List.getElem?_eq_none (by simp; omega)]
  refine ⟨(List.range xs.length).map z, by rw [o1, hout], ?_, by simp, ?_⟩
  · unfold linearInterpolation
    rw [o1]
    simp only [bind, Except.bind]
    rw [hout]
    simp [Function.comp_def]
  · intro y hy
    obtain ⟨k, hk, rfl⟩ := List.mem_map.mp hy
    exact hz1 k (List.mem_range.mp hk)

/-! ## Concrete cases -/

example : IsRun [1, 2, 4] 1 2 := by unfold IsRun; refine ⟨by omega, ?_, by simp, by simp⟩; intro m h1 h2; simp; omega

example : linearInterpolation (Arr.flt [fin 1, fin 50, fin 50, fin 4, fin (10 : ℚ), fin 9]) [1, 2, 4] 4 =
    .ok [fin 1, fin 2, fin 3, fin 4, fin (13 / 2), fin 9] := by decide +kernel

example : linearInterpolation (Arr.flt [fin 1, fin 2, fin (9 : ℚ)]) [0, 2] 4 = .ok [fin 2, fin 2, fin 4] := by
  decide +kernel

end Proadv.Props
