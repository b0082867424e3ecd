import Verif.Model.Replace
import Verif.Lemmas.Index
import Verif.Lemmas.Descriptive
import Verif.Props.MedianMode
import Verif.Props.MovingAverage

/-!
# C44–C48, C53–C55: simple replacements
-/

set_option linter.unusedSectionVars false

namespace Proadv.Props

open Proadv Replace Descriptive Series Fl

section generic

variable {F : Type} [PyNum F]

/-- specification: same length, and every position not addressed by `spikes` keeps its value -/
def KeepsRest (v : List F) (spikes : List Int) (out : List F) : Prop :=
  out.length = v.length ∧ ∀ k, ¬ Hits v.length spikes k → out[k]? = v[k]?

theorem setMany_frame {v out : List F} {spikes : List Int} {x : F} (h : setMany v spikes x = .ok out) :
    KeepsRest v spikes out :=
  foldlM_frame (fun _ _ _ _ _ hab => ⟨x, hab⟩) h

theorem setMany_value {v out : List F} {spikes : List Int} {x : F} (h : setMany v spikes x = .ok out) :
    ∀ k, Hits v.length spikes k → out[k]? = some x :=
  foldlM_write (fun _ => x) (fun i _ a b ha hab => by
    obtain ⟨k, hk, rfl⟩ := setIdx_ok.mp hab
    exact ⟨k, by rw [← ha]; exact hk, rfl⟩) h

theorem setMany_total (v : List F) (spikes : List Int) (x : F) (h : ∀ i ∈ spikes, ∃ k, pyIdx v.length i = some k) :
    ∃ out, setMany v spikes x = .ok out := by
  obtain ⟨r, hr, -⟩ := foldlM_total (f := fun a i => setIdx a i x) (l := spikes) (b := v)
    (fun a : List F => a.length = v.length) (by
      intro i hi b hb
      obtain ⟨k, hk⟩ := h i hi
      exact ⟨b.set k x, setIdx_ok.mpr ⟨k, by rw [hb]; exact hk, rfl⟩, by simpa using hb⟩) rfl
  exact ⟨r, hr⟩

theorem setMany_error (v : List F) (spikes : List Int) (x : F) (h : ∃ i ∈ spikes, pyIdx v.length i = none) :
    setMany v spikes x = .error .indexError := by
  have key : ∀ (sp : List Int) (a : List F), a.length = v.length → (∃ i ∈ sp, pyIdx v.length i = none) →
      setMany a sp x = .error .indexError := by
    intro sp
    induction sp with
    | nil => rintro a _ ⟨i, hi, _⟩; cases hi
    | cons j t ih =>
      rintro a ha ⟨i, hi, hn⟩
      rw [setMany, List.foldlM_cons]
      cases hj : pyIdx v.length j with
      | none =>
        have : setIdx a j x = .error .indexError := by unfold setIdx; rw [ha, hj]
        rw [this]; rfl
      | some k =>
        have : setIdx a j x = .ok (a.set k x) := setIdx_ok.mpr ⟨k, by rw [ha]; exact hj, rfl⟩
        rw [this]
        simp only [bind, Except.bind]
        refine ih _ (by simpa using ha) ?_
        rcases List.mem_cons.mp hi with rfl | hi
        · rw [hn] at hj; cases hj
        · exact ⟨i, hi, hn⟩
  exact key spikes v rfl h

theorem setFromStore_frame {isInt : Bool} {v out b : List F} {spikes : List Int}
    (h : setFromStore isInt v spikes b = .ok out) : KeepsRest v spikes out := by
  refine foldlM_frame (fun i _ a c _ hac => ?_) h
  simp only [bind, Except.bind] at hac
  cases hg : getIdx b i with
  | error e => rw [hg] at hac; cases hac
  | ok x => rw [hg] at hac; exact ⟨_, hac⟩

theorem setFromStore_value {isInt : Bool} {v out b : List F} {sp : List Nat}
    (h : setFromStore isInt v (sp.map (fun i : Nat => (i : Int))) b = .ok out) :
    ∀ k ∈ sp, ∃ x, b[k]? = some x ∧ out[k]? = some (store isInt x) := by
  -- every spike is in range of both arrays
  have hr : ∀ (idx : List Int) (a : List F), a.length = v.length → ∀ r,
      idx.foldlM (fun a i => do let x ← getIdx b i; setIdx a i (store isInt x)) a = .ok r →
      ∀ i ∈ idx, (∃ k, pyIdx v.length i = some k) ∧ ∃ k x, pyIdx b.length i = some k ∧ b[k]? = some x := by
    intro idx
    induction idx with
    | nil => intro a _ r _ i hi; cases hi
    | cons j t ih =>
      intro a ha r h i hi
      obtain ⟨c, h1, h2⟩ := foldlM_cons_ok.mp h
      simp only [bind, Except.bind] at h1
      cases hg : getIdx b j with
      | error e => rw [hg] at h1; cases h1
      | ok x =>
        rw [hg] at h1
        obtain ⟨m, hm, rfl⟩ := setIdx_ok.mp h1
        rcases List.mem_cons.mp hi with rfl | hi
        · obtain ⟨k, hk, hx⟩ := getIdx_ok.mp hg
          exact ⟨⟨m, by rw [← ha]; exact hm⟩, k, x, hk, hx⟩
        · exact ih _ (by simpa using ha) r h2 i hi
  have hr' := hr _ v rfl out h
  have hb : ∀ k ∈ sp, ∃ x, b[k]? = some x := by
    intro k hk
    obtain ⟨-, m, x, hm, hx⟩ := hr' (k : Int) (List.mem_map.mpr ⟨k, hk, rfl⟩)
    rw [pyIdx_nat_some hm] at hx
    exact ⟨x, hx⟩
  have hin : ∀ k ∈ sp, k < v.length := by
    intro k hk
    obtain ⟨⟨m, hm⟩, -⟩ := hr' (k : Int) (List.mem_map.mpr ⟨k, hk, rfl⟩)
    have := pyIdx_lt hm
    rw [pyIdx_nat_some hm] at this; exact this
  intro k hk
  obtain ⟨x, hx⟩ := hb k hk
  refine ⟨x, hx, ?_⟩
  have := foldlM_write (f := fun a i => do let x ← getIdx b i; setIdx a i (store isInt x))
    (fun k => store isInt (b.getD k PyNum.nan)) (fun i hi a c ha hac => ?_) h k ((hits_nat hin k).mpr hk)
  · rw [this, List.getD_eq_getElem?_getD, hx]; rfl
  · obtain ⟨j, hj, rfl⟩ := List.mem_map.mp hi
    obtain ⟨y, hy⟩ := hb j hj
    simp only [bind, Except.bind, getIdx_nat hy] at hac
    obtain ⟨m, hm, rfl⟩ := setIdx_ok.mp hac
    rw [ha] at hm
    refine ⟨m, hm, ?_⟩
    rw [pyIdx_nat_some hm, List.getD_eq_getElem?_getD, hy]; rfl

theorem setFromStore_total (isInt : Bool) (v b : List F) (sp : List Nat) (h : ∀ i ∈ sp, i < v.length ∧ i < b.length) :
    ∃ out, setFromStore isInt v (sp.map (fun i : Nat => (i : Int))) b = .ok out := by
  obtain ⟨r, hr, -⟩ := foldlM_total (f := fun a i => do let x ← getIdx b i; setIdx a i (store isInt x))
    (l := sp.map (fun i : Nat => (i : Int))) (b := v)
    (fun a : List F => a.length = v.length) (by
      intro i hi c hc
      obtain ⟨j, hj, rfl⟩ := List.mem_map.mp hi
      obtain ⟨h1, h2⟩ := h j hj
      refine ⟨c.set j (store isInt b[j]), ?_, by simpa using hc⟩
      simp only [bind, Except.bind, getIdx_nat (List.getElem?_eq_getElem h2)]
      exact setIdx_ok.mpr ⟨j, pyIdx_nat (by omega), rfl⟩) rfl
  exact ⟨r, hr⟩

theorem setFromStore_error (isInt : Bool) (v b : List F) (sp : List Nat) (h : ∃ i ∈ sp, b.length ≤ i) :
    setFromStore isInt v (sp.map (fun i : Nat => (i : Int))) b = .error .indexError := by
  have key : ∀ (sp : List Nat) (a : List F), (∃ i ∈ sp, b.length ≤ i) →
      setFromStore isInt a (sp.map (fun i : Nat => (i : Int))) b = .error .indexError := by
    intro sp
    induction sp with
    | nil => rintro a ⟨i, hi, _⟩; cases hi
    | cons j t ih =>
      rintro a ⟨i, hi, hn⟩
      rw [setFromStore, List.map_cons, List.foldlM_cons]
      simp only [bind, Except.bind]
      cases hj : getIdx b (j : Int) with
      | error e =>
        have : e = .indexError := by
          unfold getIdx at hj
          split at hj
          · cases hj; rfl
          · split at hj
            · cases hj
            · cases hj; rfl
        rw [this]
      | ok x =>
        obtain ⟨k, hk, -⟩ := getIdx_ok.mp hj
        simp only
        cases hs : setIdx a (j : Int) (store isInt x) with
        | error e =>
          have : e = .indexError := by
            unfold setIdx at hs
            split at hs
            · cases hs; rfl
            · cases hs
          rw [this]
        | ok a' =>
          refine ih a' ?_
          rcases List.mem_cons.mp hi with rfl | hi
          · have := pyIdx_lt hk
            rw [pyIdx_nat_some hk] at this
            omega
          · exact ⟨i, hi, hn⟩
  exact key sp v h

/-! ## C44 -/

/-- **C44** last_valid_data -/
theorem C44_last_valid (v : Arr F) (spikes : List Int) (out : List F) (h : lastValidData v spikes = .ok out) :
    KeepsRest v.data spikes out := by
  refine foldlM_frame (fun i _ a c _ hac => ?_) h
  simp only [bind, Except.bind] at hac
  cases hg : getIdx a (i - 1) with
  | error e => rw [hg] at hac; cases hac
  | ok x => rw [hg] at hac; exact ⟨_, hac⟩

/-- **C44** mean_value -/
theorem C44_mean (v : Arr F) (spikes : List Int) (out : List F) (h : meanValue v spikes = .ok out) :
    KeepsRest v.data spikes out := by
  unfold meanValue at h
  simp only [bind, Except.bind] at h
  split at h
  · cases h
  · exact setMany_frame h

/-- **C44** median_value -/
theorem C44_median (v : Arr F) (spikes : List Int) (out : List F) (h : medianValue v spikes = .ok out) :
    KeepsRest v.data spikes out := by
  unfold medianValue at h
  simp only [bind, Except.bind] at h
  split at h
  · cases h
  · exact setMany_frame h

/-- **C44** simple_moving_average -/
theorem C44_sma (v : Arr F) (spikes : List Int) (w : Int) (out : List F)
    (h : simpleMovingAverage v spikes w = .ok out) : KeepsRest v.data spikes out := by
  unfold simpleMovingAverage at h
  simp only [bind, Except.bind] at h
  split at h
  · cases h
  · exact setFromStore_frame h

/-- **C44** exponential_moving_average -/
theorem C44_ema (v : Arr F) (spikes : List Int) (alpha : F) (out : List F)
    (h : exponentialMovingAverageR v spikes alpha = .ok out) : KeepsRest v.data spikes out := by
  unfold exponentialMovingAverageR at h
  simp only [bind, Except.bind] at h
  split at h
  · cases h
  · exact setFromStore_frame h

/-- **C44** weighted_moving_average -/
theorem C44_wma (v : Arr F) (spikes : List Int) (p : Int) (out : List F)
    (h : weightedMovingAverageR v spikes p = .ok out) : KeepsRest v.data spikes out := by
  unfold weightedMovingAverageR at h
  simp only [bind, Except.bind] at h
  split at h
  · cases h
  · split at h
    · cases h
    · exact setFromStore_frame h

/-- **C44** ssa replacement, for every eigenvector routine -/
theorem C44_ssa {F : Type} [PyMath F] (ceilInt : F → Py Int) (eigh : Mat F → Py (Mat F)) (v : Arr F) (spikes : List Int)
    (fs f : F) (out : List F) (h : ssaReplacement ceilInt eigh v spikes fs f = .ok out) :
    KeepsRest v.data spikes out := by
  unfold ssaReplacement at h
  simp only [bind, Except.bind] at h
  split at h
  · cases h
  · exact setFromStore_frame h

/-! ## C45–C47: last_valid_data -/

/-- what `last_valid_data` does on strictly increasing spikes -/
theorem lvd_char {v : Arr F} {sp : List Nat} {out : List F} (hs : sp.Pairwise (· < ·)) (hin : ∀ i ∈ sp, i < v.data.length)
    (h : lastValidData v (sp.map (fun i : Nat => (i : Int))) = .ok out) :
    out.length = v.data.length ∧ (∀ k, k ∉ sp → out[k]? = v.data[k]?) ∧
    (∀ k ∈ sp, 0 < k → out[k]? = out[k - 1]?) ∧ (0 ∈ sp → out[0]? = v.data[v.data.length - 1]?) := by
  obtain ⟨hl, hk⟩ := C44_last_valid v _ out h
  refine ⟨hl, fun k hk' => hk k (fun hh => hk' ((hits_nat hin k).mp hh)), ?_, ?_⟩
  · have key : ∀ (sp : List Nat) (a : List F), sp.Pairwise (· < ·) → (∀ i ∈ sp, i < a.length) → ∀ r,
        (sp.map (fun i : Nat => (i : Int))).foldlM (fun a i => do let x ← getIdx a (i - 1); setIdx a i x) a = .ok r →
        (∀ k ∈ sp, 0 < k → r[k]? = r[k - 1]?) := by
      intro sp
      induction sp with
      | nil => intro a _ _ r _ k hk; cases hk
      | cons i t ih =>
        intro a hs hin r h k hk hk0
        obtain ⟨hit, hst⟩ := List.pairwise_cons.mp hs
        rw [List.map_cons] at h
        obtain ⟨b, h1, h2⟩ := foldlM_cons_ok.mp h
        simp only [bind, Except.bind] at h1
        cases hg : getIdx a ((i : Int) - 1) with
        | error e => rw [hg] at h1; cases h1
        | ok x =>
          rw [hg] at h1
          obtain ⟨m, hm, rfl⟩ := setIdx_ok.mp h1
          have hmi := pyIdx_nat_some hm
          have hmn := pyIdx_lt hm
          subst hmi
          have hin' : ∀ j ∈ t, j < (a.set m x).length := by
            intro j hj; simpa using hin j (by simp [hj])
          rcases List.mem_cons.mp hk with rfl | hk
          · -- positions k and k-1 are not touched by the rest
            obtain ⟨-, hfr⟩ := foldlM_frame (l := a.set k x) (fun j _ c d _ hcd => by
              simp only [bind, Except.bind] at hcd
              cases hg : getIdx c (j - 1) with
              | error e => rw [hg] at hcd; cases hcd
              | ok x => rw [hg] at hcd; exact ⟨_, hcd⟩) h2
            rw [hfr k (fun hh => by
                have := hit k ((hits_nat hin' k).mp hh); omega),
              hfr (k - 1) (fun hh => by
                have := hit (k - 1) ((hits_nat hin' (k - 1)).mp hh); omega)]
            rw [List.getElem?_set_self hmn, List.getElem?_set_ne (by omega)]
            rw [show ((k : Int) - 1) = ((k - 1 : Nat) : Int) by omega] at hg
            obtain ⟨q, hq, hx⟩ := getIdx_ok.mp hg
            rw [pyIdx_nat_some hq] at hx
            exact hx.symm
          · exact ih _ hst hin' r h2 k hk hk0
    exact key sp v.data hs hin out h
  · intro h0
    cases sp with
    | nil => cases h0
    | cons i t =>
      obtain ⟨hit, hst⟩ := List.pairwise_cons.mp hs
      have hi0 : i = 0 := by
        rcases List.mem_cons.mp h0 with h | h
        · exact h.symm
        · have := hit 0 h; omega
      subst hi0
      rw [lastValidData, List.map_cons] at h
      obtain ⟨b, h1, h2⟩ := foldlM_cons_ok.mp h
      simp only [bind, Except.bind] at h1
      have hn : 0 < v.data.length := hin 0 (by simp)
      have hgl : getIdx v.data (((0 : Nat) : Int) - 1) = .ok v.data[v.data.length - 1] := by
        refine getIdx_ok.mpr ⟨v.data.length - 1, ?_, List.getElem?_eq_getElem (by omega)⟩
        unfold pyIdx
        rw [if_neg (by omega), if_pos (by omega)]
        congr 1; omega
      rw [hgl] at h1
      obtain ⟨m, hm, rfl⟩ := setIdx_ok.mp h1
      have hmi := pyIdx_nat_some hm
      subst hmi
      obtain ⟨-, hfr⟩ := foldlM_frame (l := v.data.set 0 v.data[v.data.length - 1]) (fun j _ c d _ hcd => by
        simp only [bind, Except.bind] at hcd
        cases hg : getIdx c (j - 1) with
        | error e => rw [hg] at hcd; cases hcd
        | ok x => rw [hg] at hcd; exact ⟨_, hcd⟩) h2
      rw [hfr 0 (fun hh => by
        have := hit 0 ((hits_nat (fun j hj => by simpa using hin j (by simp [hj])) 0).mp hh); omega)]
      rw [List.getElem?_set_self hn, List.getElem?_eq_getElem (by omega)]

/-- `last_valid_data` succeeds on in-range spikes -/
theorem lvd_total (v : Arr F) (sp : List Nat) (hin : ∀ i ∈ sp, i < v.data.length) :
    ∃ out, lastValidData v (sp.map (fun i : Nat => (i : Int))) = .ok out := by
  obtain ⟨r, hr, -⟩ := foldlM_total (f := fun a i => do let x ← getIdx a (i - 1); setIdx a i x)
    (l := sp.map (fun i : Nat => (i : Int))) (b := v.data)
    (fun a : List F => a.length = v.data.length) (by
      intro i hi c hc
      obtain ⟨j, hj, rfl⟩ := List.mem_map.mp hi
      have h1 := hin j hj
      have : ∃ x, getIdx c ((j : Int) - 1) = .ok x := by
        cases j with
        | zero =>
          refine ⟨c[c.length - 1], getIdx_ok.mpr ⟨c.length - 1, ?_, List.getElem?_eq_getElem (by omega)⟩⟩
          unfold pyIdx
          rw [if_neg (by omega), if_pos (by omega)]
          congr 1; omega
        | succ j =>
          refine ⟨c[j], ?_⟩
          rw [show (((j + 1 : Nat) : Int) - 1) = ((j : Nat) : Int) by omega]
          exact getIdx_nat (List.getElem?_eq_getElem (by omega))
      obtain ⟨x, hx⟩ := this
      refine ⟨c.set j x, ?_, by simpa using hc⟩
      simp only [bind, Except.bind, hx]
      exact setIdx_ok.mpr ⟨j, pyIdx_nat (by omega), rfl⟩) rfl
  exact ⟨r, hr⟩

/-- **C45**: strictly increasing in-range spikes: each position `k` receives the sample at the last valid index `j ≤ k`
(`j` is not a spike and every index in `(j, k]` is one) — for every float arithmetic. -/
theorem C45_carry_forward (v : Arr F) (sp : List Nat) (hs : sp.Pairwise (· < ·)) (hin : ∀ i ∈ sp, i < v.data.length) :
    ∃ out, lastValidData v (sp.map (fun i : Nat => (i : Int))) = .ok out ∧ out.length = v.data.length ∧
      ∀ k j, j ≤ k → j ∉ sp → (∀ m, j < m → m ≤ k → m ∈ sp) → out[k]? = v.data[j]? := by
  obtain ⟨out, h⟩ := lvd_total v sp hin
  obtain ⟨h1, h2, h3, -⟩ := lvd_char hs hin h
  refine ⟨out, h, h1, ?_⟩
  intro k
  induction k with
  | zero =>
    intro j hj hjs _
    have : j = 0 := by omega
    subst this
    exact h2 0 hjs
  | succ k ih =>
    intro j hj hjs hall
    by_cases hjk : j = k + 1
    · subst hjk; exact h2 _ hjs
    · rw [h3 (k + 1) (hall (k + 1) (by omega) (le_refl _)) (by omega), Nat.add_sub_cancel]
      exact ih j (by omega) hjs (fun m h4 h5 => hall m h4 (by omega))

/-- **C45**: if 0 is not a spike, every position has such a last valid index -/
theorem C45_exists (sp : List Nat) (h0 : 0 ∉ sp) (k : Nat) :
    ∃ j, j ≤ k ∧ j ∉ sp ∧ ∀ m, j < m → m ≤ k → m ∈ sp := by
  induction k with
  | zero => exact ⟨0, le_refl _, h0, fun m h1 h2 => by omega⟩
  | succ k ih =>
    by_cases hk : k + 1 ∈ sp
    · obtain ⟨j, h1, h2, h3⟩ := ih
      refine ⟨j, by omega, h2, fun m h4 h5 => ?_⟩
      by_cases hm : m = k + 1
      · rw [hm]; exact hk
      · exact h3 m h4 (by omega)
    · exact ⟨k + 1, le_refl _, hk, fun m h1 h2 => by omega⟩

/-- **C46**: a spike at index 0 takes the value of the *last* sample of the input, and so does the whole run starting
at 0. -/
theorem C46_wraps (v : Arr F) (sp : List Nat) (hs : sp.Pairwise (· < ·)) (hin : ∀ i ∈ sp, i < v.data.length)
    (k : Nat) (hk : ∀ m, m ≤ k → m ∈ sp) :
    ∃ out, lastValidData v (sp.map (fun i : Nat => (i : Int))) = .ok out ∧
      out[k]? = v.data[v.data.length - 1]? := by
  obtain ⟨out, h⟩ := lvd_total v sp hin
  obtain ⟨h1, h2, h3, h4⟩ := lvd_char hs hin h
  refine ⟨out, h, ?_⟩
  induction k with
  | zero => exact h4 (hk 0 (le_refl _))
  | succ k ih =>
    rw [h3 (k + 1) (hk _ (le_refl _)) (by omega), Nat.add_sub_cancel]
    exact ih (fun m hm => hk m (by omega))

/-- **C47**: `last_valid_data` is idempotent on strictly increasing spikes, unless both the first and the last sample are
spikes. -/
theorem C47_idempotent (v : Arr F) (sp : List Nat) (hs : sp.Pairwise (· < ·)) (hin : ∀ i ∈ sp, i < v.data.length)
    (h0 : ¬ (0 ∈ sp ∧ v.data.length - 1 ∈ sp)) (out : List F)
    (h : lastValidData v (sp.map (fun i : Nat => (i : Int))) = .ok out) :
    lastValidData { v with data := out } (sp.map (fun i : Nat => (i : Int))) = .ok out := by
  obtain ⟨h1, h2, h3, h4⟩ := lvd_char hs hin h
  have hin' : ∀ i ∈ sp, i < ({ v with data := out } : Arr F).data.length := fun i hi => by
    show i < out.length
    rw [h1]; exact hin i hi
  obtain ⟨out', h'⟩ := lvd_total { v with data := out } sp hin'
  obtain ⟨g1, g2, g3, g4⟩ := lvd_char hs hin' h'
  rw [h']
  congr 1
  apply List.ext_getElem?
  intro k
  induction k with
  | zero =>
    by_cases hk : 0 ∈ sp
    · rw [g4 hk, h4 hk]
      simp only
      rw [h1, h2 _ (fun hh => h0 ⟨hk, hh⟩)]
    · exact g2 0 hk
  | succ k ih =>
    by_cases hk : k + 1 ∈ sp
    · rw [g3 _ hk (by omega), h3 _ hk (by omega)]
      exact ih
    · exact g2 _ hk

end generic

/-- **C47**: with both ends spikes the second application changes the data -/
theorem C47_ends_false : ∃ (v : Arr (Fl ℚ)) (sp : List Int) (o1 o2 : List (Fl ℚ)), lastValidData v sp = .ok o1 ∧
    lastValidData { v with data := o1 } sp = .ok o2 ∧ o1 ≠ o2 :=
  ⟨Arr.flt [fin 9, fin 1, fin 5], [0, 2], [fin 5, fin 1, fin 1], [fin 1, fin 1, fin 1], by decide +kernel,
    by decide +kernel, by decide +kernel⟩

/-- **C47**: `mean_value` is not idempotent -/
theorem C47_mean_not_idempotent : ∃ (v : Arr (Fl ℚ)) (sp : List Int) (o1 o2 : List (Fl ℚ)), meanValue v sp = .ok o1 ∧
    meanValue { v with data := o1 } sp = .ok o2 ∧ o1 ≠ o2 :=
  ⟨Arr.flt [fin 0, fin 4], [1], [fin 0, fin 2], [fin 0, fin 1], by decide +kernel, by decide +kernel, by decide +kernel⟩

/-! ## C48 -/

/-- **C48** (any float arithmetic): `mean_value` writes `np.sum/np.size` of the *unmodified* data at every spike, and it
succeeds exactly for in-range spikes on non-empty data. -/
theorem C48_mean_value {F : Type} [PyNum F] (v : Arr F) (spikes : List Int) (hne : v.data ≠ []) :
    (∀ out, meanValue v spikes = .ok out → ∀ k, Hits v.data.length spikes k →
      out[k]? = some (store v.isInt (PyNum.sum v.data /. ofNat v.data.length))) ∧
    ((∀ i ∈ spikes, ∃ k, pyIdx v.data.length i = some k) → ∃ out, meanValue v spikes = .ok out) ∧
    ((∃ i ∈ spikes, pyIdx v.data.length i = none) → meanValue v spikes = .error .indexError) := by
  have hm : meanForStore v.data = .ok (npMean v.data) := by
    rw [meanForStore, meanOf_eq _ hne]; simp [hne]
  have e : meanValue v spikes = setMany v.data spikes (store v.isInt (npMean v.data)) := by
    unfold meanValue; rw [hm]; rfl
  rw [e]
  exact ⟨fun out h => setMany_value h, setMany_total _ _ _, setMany_error _ _ _⟩

variable {K : Type} [Field K] [LinearOrder K] [IsStrictOrderedRing K] [FloorRing K]

/-- **C48** both reject an empty series with a ValueError, whatever the spikes. -/
theorem C48_empty {F : Type} [PyNum F] (b : Bool) (spikes : List Int) :
    meanValue (F := F) ⟨1, b, []⟩ spikes = .error .valueError ∧ medianValue (F := F) ⟨1, b, []⟩ spikes = .error .valueError :=
  ⟨rfl, rfl⟩

/-- **C48**: on finite float data the written value is the arithmetic mean of all samples, spikes included; on integer
arrays it is that mean truncated toward zero. -/
theorem C48_mean_value_exact (b : Bool) (xs : List K) (hne : xs ≠ []) (spikes : List Int) (out : List (Fl K))
    (h : meanValue ⟨1, b, xs.map fin⟩ spikes = .ok out) (k : Nat) (hk : Hits xs.length spikes k) :
    out[k]? = some (if b then fin (truncK (xs.sum / xs.length) : K) else fin (xs.sum / xs.length)) := by
  have := (C48_mean_value (⟨1, b, xs.map fin⟩ : Arr (Fl K)) spikes (by simpa using hne)).1 out h k (by simpa using hk)
  rw [this]
  have hm : PyNum.sum (xs.map fin : List (Fl K)) /. ofNat (xs.map fin : List (Fl K)).length = fin (xs.sum / xs.length) :=
    npMean_fins xs hne
  simp only [hm]
  cases b <;> simp [store]

/-- **C48**: `median_value` writes the median of all samples, spikes included (truncated for integer arrays). -/
theorem C48_median_value (b : Bool) (xs s : List K) (hne : xs ≠ []) (hp : s.Perm xs) (hs : s.Pairwise (· ≤ ·))
    (spikes : List Int) :
    (∀ out, medianValue ⟨1, b, xs.map fin⟩ spikes = .ok out → ∀ k, Hits xs.length spikes k →
      out[k]? = some (if b then fin (truncK (midpoint s) : K) else fin (midpoint s))) ∧
    ((∀ i ∈ spikes, ∃ k, pyIdx xs.length i = some k) → ∃ out, medianValue ⟨1, b, xs.map fin⟩ spikes = .ok out) ∧
    ((∃ i ∈ spikes, pyIdx xs.length i = none) → medianValue (F := Fl K) ⟨1, b, xs.map fin⟩ spikes = .error .indexError) := by
  have hm := C04_median_value b xs s hne hp hs
  have e : medianValue (F := Fl K) ⟨1, b, xs.map fin⟩ spikes = setMany (xs.map fin) spikes (store b (fin (midpoint s))) := by
    unfold medianValue
    simp only [List.map_map]
    rw [show (Item.num ∘ fin : K → Item (Fl K)) = fun x => .num (fin x) from rfl, hm]
    rfl
  rw [e]
  have hst : store b (fin (midpoint s) : Fl K) = if b then fin (truncK (midpoint s) : K) else fin (midpoint s) := by
    cases b <;> simp [store]
  refine ⟨fun out h k hk => ?_, fun h => setMany_total _ _ _ (by simpa using h), fun h => setMany_error _ _ _ (by simpa using h)⟩
  rw [← hst]
  exact setMany_value h k (by simpa using hk)

/-! ## C53, C54 -/

/-- **C53**: each spike is replaced by the mean of the trailing window ending at it (still containing the spike; truncated
toward zero when the recording is an integer array), all other samples are kept; the call succeeds for every in-range spike set. -/
theorem C53_sma (b : Bool) (xs : List K) (w : Nat) (hw : 1 ≤ w) (hwn : w ≤ xs.length) (sp : List Nat)
    (hin : ∀ i ∈ sp, i < xs.length) :
    ∃ out, simpleMovingAverage ⟨1, b, xs.map fin⟩ (sp.map (fun i : Nat => (i : Int))) w = .ok out ∧
      (∀ k ∈ sp, out[k]? = some (if b then fin (truncK (trailingMean xs w k) : K) else fin (trailingMean xs w k))) ∧
      ∀ k, k ∉ sp → out[k]? = (xs.map fin)[k]? := by
  have hm := C12_moving_average b xs w hw hwn
  have e : simpleMovingAverage (F := Fl K) ⟨1, b, xs.map fin⟩ (sp.map (fun i : Nat => (i : Int))) w =
      setFromStore b (xs.map fin) (sp.map (fun i : Nat => (i : Int)))
        ((List.range xs.length).map (fun i => fin (trailingMean xs w i))) := by
    unfold simpleMovingAverage
    simp only [hm]; rfl
  obtain ⟨out, ho⟩ := setFromStore_total b (xs.map fin) ((List.range xs.length).map (fun i => (fin (trailingMean xs w i) : Fl K))) sp
    (fun i hi => by have := hin i hi; simp [this])
  refine ⟨out, by rw [e]; exact ho, fun k hk => ?_, fun k hk => ?_⟩
  · obtain ⟨x, h1, h2⟩ := setFromStore_value ho k hk
    rw [h2]
    rw [List.getElem?_map, List.getElem?_range (hin k hk)] at h1
    cases h1; cases b <;> rfl
  · exact (setFromStore_frame ho).2 k (fun hh => hk ((hits_nat (by simpa using hin) k).mp hh))

/-- the integer case is met: in `[1, 2, 9]` the last sample becomes `(2 + 9) / 2 = 5.5`, stored as 5. -/
example : simpleMovingAverage (F := Fl ℚ) ⟨1, true, [fin 1, fin 2, fin 9]⟩ [2] 2 = .ok [fin 1, fin 2, fin 5] := by
  decide +kernel

/-- **C53**: each spike is replaced by the exponential moving average at it. -/
theorem C53_ema (xs : List K) (hne : xs ≠ []) (alpha : K) (h0 : 0 < alpha) (h1 : alpha ≤ 1) (sp : List Nat)
    (hin : ∀ i ∈ sp, i < xs.length) :
    ∃ out, exponentialMovingAverageR ⟨1, false, xs.map fin⟩ (sp.map (fun i : Nat => (i : Int))) (fin alpha) = .ok out ∧
      (∀ k ∈ sp, out[k]? = some (fin (emaClosed alpha (fun j => xs.getD j 0) k))) ∧
      ∀ k, k ∉ sp → out[k]? = (xs.map fin)[k]? := by
  obtain ⟨ys, hy, hl, hv, -, -⟩ := C15_ema xs hne alpha h0 h1
  have e : exponentialMovingAverageR (F := Fl K) ⟨1, false, xs.map fin⟩ (sp.map (fun i : Nat => (i : Int))) (fin alpha) =
      setFromStore false (xs.map fin) (sp.map (fun i : Nat => (i : Int))) (ys.map fin) := by
    unfold exponentialMovingAverageR
    rw [hy]; rfl
  obtain ⟨out, ho⟩ := setFromStore_total false (xs.map fin) (ys.map fin : List (Fl K)) sp
    (fun i hi => by have := hin i hi; simp [this, hl])
  refine ⟨out, by rw [e]; exact ho, fun k hk => ?_, fun k hk => ?_⟩
  · obtain ⟨x, h1, h2⟩ := setFromStore_value ho k hk
    have hk' : k < ys.length := by rw [hl]; exact hin k hk
    rw [h2]
    rw [List.getElem?_map, List.getElem?_eq_getElem hk', hv k hk'] at h1
    cases h1; rfl
  · exact (setFromStore_frame ho).2 k (fun hh => hk ((hits_nat (by simpa using hin) k).mp hh))

/-- **C53**: on every array, in every arithmetic, a spike gets the sample `exponential_moving_average` has at its place,
cast to the type of the recording; everything else is kept; and an error of the average is passed on. -/
theorem C53_ema_store {F : Type} [PyNum F] (v : Arr F) (alpha : F) (sp : List Nat) :
    (∀ e, exponentialMovingAverage v alpha = .error e →
      exponentialMovingAverageR v (sp.map (fun i : Nat => (i : Int))) alpha = .error e) ∧
    ∀ ema out, exponentialMovingAverage v alpha = .ok ema →
      exponentialMovingAverageR v (sp.map (fun i : Nat => (i : Int))) alpha = .ok out →
      (∀ k ∈ sp, ∃ x, ema[k]? = some x ∧ out[k]? = some (if v.isInt then PyNum.castInt x else x)) ∧
      (∀ k, k < v.data.length → k ∉ sp → out[k]? = v.data[k]?) ∧ out.length = v.data.length := by
  refine ⟨fun e he => by unfold exponentialMovingAverageR; rw [he]; rfl, fun ema out he h => ?_⟩
  unfold exponentialMovingAverageR at h
  rw [he] at h
  replace h : setFromStore v.isInt v.data (sp.map (fun i : Nat => (i : Int))) ema = .ok out := h
  refine ⟨fun k hk => ?_, fun k hk hs => ?_, (setFromStore_frame h).1⟩
  · obtain ⟨x, h1, h2⟩ := setFromStore_value h k hk
    exact ⟨x, h1, h2⟩
  · refine (setFromStore_frame h).2 k (fun hh => hs ?_)
    obtain ⟨i, hi, hik⟩ := hh
    obtain ⟨m, hm, rfl⟩ := List.mem_map.mp hi
    rw [← pyIdx_nat_some hik] at hm; exact hm

/-- **C54**: with `period = p < n` and every spike below `n - p`, a spike at `k` is replaced by the weighted mean (weights
`1..p`) of the samples `k, …, k+p-1`: the spike itself and *future* samples; truncated toward zero when the
recording is an integer array. -/
theorem C54_looks_forward (b : Bool) (xs : List K) (p : Nat) (hp : 1 ≤ p) (hpn : p < xs.length) (sp : List Nat)
    (hin : ∀ i ∈ sp, i < xs.length - p) :
    ∃ out, weightedMovingAverageR ⟨1, b, xs.map fin⟩ (sp.map (fun i : Nat => (i : Int))) p = .ok out ∧
      (∀ k ∈ sp, out[k]? = some
        (if b then fin (truncK (((List.range p).map (fun j : ℕ => ((j : K) + 1) * xs.getD (k + j) 0)).sum /
          ((p * (p + 1) : ℕ) / 2)) : K)
        else fin (((List.range p).map (fun j : ℕ => ((j : K) + 1) * xs.getD (k + j) 0)).sum /
          ((p * (p + 1) : ℕ) / 2)))) ∧
      ∀ k, k ∉ sp → out[k]? = (xs.map fin)[k]? := by
  have hm := C17_wma xs p hp hpn.le
  have hne : decide (p = xs.length) = false := by simp; omega
  set ws : List (Fl K) := (List.range (xs.length - p)).map (fun k : ℕ =>
        fin (((List.range p).map (fun j : ℕ => ((j : K) + 1) * xs.getD (k + j) 0)).sum / ((p * (p + 1) : ℕ) / 2))) with hws
  have e : weightedMovingAverageR (F := Fl K) ⟨1, b, xs.map fin⟩ (sp.map (fun i : Nat => (i : Int))) p =
      setFromStore b (xs.map fin) (sp.map (fun i : Nat => (i : Int))) ws := by
    unfold weightedMovingAverageR
    simp only [hm, hne, bind, Except.bind, Bool.false_eq_true, if_false]
  obtain ⟨out, ho⟩ := setFromStore_total b (xs.map fin) ws sp
    (fun i hi => by have := hin i hi; simp [hws]; omega)
  refine ⟨out, by rw [e]; exact ho, fun k hk => ?_, fun k hk => ?_⟩
  · obtain ⟨x, h1, h2⟩ := setFromStore_value ho k hk
    rw [h2]
    rw [hws, List.getElem?_map, List.getElem?_range (hin k hk)] at h1
    cases h1; cases b <;> rfl
  · exact (setFromStore_frame ho).2 k (fun hh => hk ((hits_nat (fun i hi => by have := hin i hi; simp; omega) k).mp hh))

/-- **C54**: a spike among the last `p` samples raises — IndexError for `p < n`, TypeError for `p = n`; a period larger
than the data or not positive raises ValueError.  For every float arithmetic. -/
theorem C54_fails {F : Type} [PyNum F] (v : Arr F) (p : Nat) (hp : 1 ≤ p) (sp : List Nat) :
    (p < v.data.length → (∃ i ∈ sp, v.data.length - p ≤ i) →
      weightedMovingAverageR v (sp.map (fun i : Nat => (i : Int))) p = .error .indexError) ∧
    (p = v.data.length → weightedMovingAverageR v (sp.map (fun i : Nat => (i : Int))) p = .error .typeError) ∧
    (v.data.length < p → weightedMovingAverageR v (sp.map (fun i : Nat => (i : Int))) p = .error .valueError) := by
  refine ⟨fun h hi => ?_, fun h => ?_, fun h => ?_⟩
  · unfold weightedMovingAverageR weightedMovingAverage
    rw [if_neg (by omega), if_neg (by omega)]
    simp only [bind, Except.bind]
    rw [if_neg]
    · exact setFromStore_error _ _ _ _ (by simpa using hi)
    · simp; omega
  · unfold weightedMovingAverageR weightedMovingAverage
    rw [if_neg (by omega), if_neg (by omega)]
    simp [bind, Except.bind, ← h]
  · unfold weightedMovingAverageR weightedMovingAverage
    rw [if_neg (by omega), if_pos (by omega)]
    rfl

/-! ## C55 -/

/-- **C55**: the Kalman replacement never returns an array, for every float arithmetic and every argument. -/
theorem C55_never_returns_data {F : Type} [PyNum F] (v : Arr F) (spikes : Spikes) (x0 p0 q r : F) (out : List F) :
    kalmanReplacement v spikes x0 p0 q r ≠ .ok (some out) := by
  unfold kalmanReplacement
  simp only [bind, Except.bind]
  cases h : kalmanFilter v.data x0 p0 q r with
  | error e => simp
  | ok est =>
    cases spikes with
    | array l => simp
    | scalar i =>
      simp only
      cases getIdx est i with
      | error e => simp
      | ok x =>
        simp only
        cases setIdx v.data i (store v.isInt x) <;> simp

/-- **C55**: with an index array the call raises, TypeError when the filter itself succeeds. -/
theorem C55_raises {F : Type} [PyNum F] (v : Arr F) (l : List Int) (x0 p0 q r : F) :
    ∃ e, kalmanReplacement v (.array l) x0 p0 q r = .error e ∧
      (∀ est, kalmanFilter v.data x0 p0 q r = .ok est → e = .typeError) := by
  unfold kalmanReplacement
  simp only [bind, Except.bind]
  cases h : kalmanFilter v.data x0 p0 q r with
  | error e => exact ⟨e, rfl, fun est h => by cases h⟩
  | ok est => exact ⟨.typeError, rfl, fun _ _ => rfl⟩

/-! ## Concrete cases -/

example : lastValidData (Arr.flt [fin 1, fin 9, fin 9, fin 4, fin (9 : ℚ)]) [1, 2, 4] =
    .ok [fin 1, fin 1, fin 1, fin 4, fin 4] := by decide +kernel

example : lastValidData (Arr.flt [fin 9, fin 1, fin (7 : ℚ)]) [0] = .ok [fin 7, fin 1, fin 7] := by decide +kernel

example : meanValue (Arr.int [fin 1, fin 2, fin (5 : ℚ)]) [-1] = .ok [fin 1, fin 2, fin 2] := by decide +kernel

example : simpleMovingAverage (Arr.flt [fin 1, fin 2, fin (6 : ℚ)]) [2] 2 = .ok [fin 1, fin 2, fin 4] := by decide +kernel

example : weightedMovingAverageR (Arr.flt [fin 1, fin 4, fin (6 : ℚ)]) [0] 2 = .ok [fin 3, fin 4, fin 6] := by
  decide +kernel

example : kalmanReplacement (Arr.flt [fin 1, fin (4 : ℚ)]) (.array [0]) (fin 0) (fin 1) (fin 1) (fin 1) =
    .error .typeError := by decide +kernel

end Proadv.Props
