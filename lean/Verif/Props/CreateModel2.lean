import Verif.Props.CreateModel

/-!
# C205: `polynomial_replacement` with its own regression model
-/

set_option linter.unusedSectionVars false

namespace Proadv.Props

open Proadv Replace Fl Finset

noncomputable section

theorem mem_pySlice {α : Type} {l : List α} {lo j : Nat} (hj : j ≤ l.length) (hlo : lo ≤ j) {x : α} :
    x ∈ pySlice l (lo : Int) (j : Int) ↔ ∃ k, lo ≤ k ∧ k < j ∧ l[k]? = some x := by
  unfold pySlice Proadv.slice
  rw [sliceBound_nat, sliceBound_nat, Nat.min_eq_left hj, Nat.min_eq_left (hlo.trans hj), List.mem_iff_getElem?]
  constructor
  · rintro ⟨n, hn⟩
    rw [List.getElem?_drop, List.getElem?_take] at hn
    split at hn
    · exact ⟨lo + n, by omega, by assumption, hn⟩
    · cases hn
  · rintro ⟨k, h1, h2, h3⟩
    refine ⟨k - lo, ?_⟩
    rw [List.getElem?_drop, List.getElem?_take, show lo + (k - lo) = k by omega, if_pos h2, h3]

theorem length_pySlice {α : Type} {l : List α} {lo j : Nat} (hj : j ≤ l.length) (hlo : lo ≤ j) :
    (pySlice l (lo : Int) (j : Int)).length = j - lo := by
  unfold pySlice Proadv.slice
  rw [sliceBound_nat, sliceBound_nat, Nat.min_eq_left hj, Nat.min_eq_left (hlo.trans hj)]
  simp
  omega

/-- one spike from index 11 on: regression over the `fitLength` samples before it -/
theorem polyStep_late (predict : List (Fl ℝ) → Int → Int → Py (Fl ℝ)) (allsp : List Int) (window : Nat) (decimals : Int)
    (data : List (Fl ℝ)) (fl : Bool) (j : Nat) (hj : 11 ≤ j) (hjn : j < data.length) (nd : Nat) :
    (∀ z, predict (pySlice data ((j - fitLength window j : ℕ) : Int) (j : Int)) ((j - fitLength window j : ℕ) : Int) (j : Int) = .ok z →
      polyStep predict allsp window decimals ⟨⟨nd, false, data⟩, fl⟩ (j : Int) = .ok ⟨⟨nd, false, data.set j z⟩, fl⟩) ∧
    ∀ e, predict (pySlice data ((j - fitLength window j : ℕ) : Int) (j : Int)) ((j - fitLength window j : ℕ) : Int) (j : Int) = .error e →
      polyStep predict allsp window decimals ⟨⟨nd, false, data⟩, fl⟩ (j : Int) = .error e := by
  have hset : ∀ z, setIdx data (j : Int) (store false z) = .ok (data.set j z) := fun z =>
    setIdx_ok.mpr ⟨j, pyIdx_nat hjn, rfl⟩
  unfold polyStep
  rw [if_neg (by omega), if_neg (by omega)]
  by_cases hc : (11 : Int) ≤ j ∧ (j : Int) ≤ window - 1
  · rw [if_pos hc]
    have hmm : j - fitLength window j = 0 := by unfold fitLength; rw [if_pos (by omega)]; omega
    rw [hmm, Nat.cast_zero]
    refine ⟨fun z h => ?_, fun e h => ?_⟩
    · simp only [bind, Except.bind, h, hset]
    · simp only [bind, Except.bind, h]
  · rw [if_neg hc]
    have hww : fitLength window j = window := by unfold fitLength; rw [if_neg (by omega)]
    by_cases hwj : window ≤ j
    · have hlo : ((j - fitLength window j : ℕ) : Int) = (j : Int) - window := by rw [hww]; omega
      rw [hlo]
      refine ⟨fun z h => ?_, fun e h => ?_⟩
      · simp only [bind, Except.bind, h, hset]
      · simp only [bind, Except.bind, h]
    · omega

theorem fitLength_le (window j : Nat) : fitLength window j ≤ j := by unfold fitLength; split <;> omega

theorem fitLength_pos {window j : Nat} (hw : 0 < window) (hj : 0 < j) : 0 < fitLength window j := by unfold fitLength; split <;> omega

/-- `_create_model` on the window of an array: it succeeds exactly when the window is finite -/
theorem createModel_slice (d window j : Nat) (hw : 0 < window) (data : List (Fl ℝ)) (hj : 0 < j) (hjn : j ≤ data.length) :
    ((∀ k, j - fitLength window j ≤ k → k < j → ∃ r, data[k]? = some (fin r)) →
      ∃ r, createModel d (pySlice data ((j - fitLength window j : ℕ) : Int) (j : Int)) ((j - fitLength window j : ℕ) : Int) (j : Int) = .ok (fin r)) ∧
    ((¬ ∀ k, j - fitLength window j ≤ k → k < j → ∃ r, data[k]? = some (fin r)) →
      createModel d (pySlice data ((j - fitLength window j : ℕ) : Int) (j : Int)) ((j - fitLength window j : ℕ) : Int) (j : Int) =
        .error .valueError) := by
  have h1 := fitLength_le window j
  have h2 := fitLength_pos hw hj
  have hl := length_pySlice (lo := j - fitLength window j) hjn (by omega)
  obtain ⟨hr, hok⟩ := C204_rejects d (pySlice data ((j - fitLength window j : ℕ) : Int) (j : Int)) ((j - fitLength window j : ℕ) : Int) (j : Int)
  refine ⟨fun h => hok (fun hc => ?_), fun h => ?_⟩
  · rcases hr.mp hc with hc | hc | hc | ⟨x, hx, hc⟩
    · omega
    · omega
    · rw [hl] at hc; omega
    · obtain ⟨k, k1, k2, k3⟩ := (mem_pySlice hjn (by omega)).mp hx
      obtain ⟨r, hr⟩ := h k k1 k2
      rw [hr] at k3
      cases k3
      exact hc r rfl
  · push Not at h
    obtain ⟨k, k1, k2, k3⟩ := h
    refine hr.mpr (Or.inr (Or.inr (Or.inr ⟨data[k]'(by omega), (mem_pySlice hjn (by omega)).mpr
      ⟨k, k1, k2, List.getElem?_eq_getElem (by omega)⟩, fun r hr => ?_⟩)))
    exact k3 r (by rw [List.getElem?_eq_getElem (by omega), hr])

/-- **C205** Missing samples.  Spikes from index 11 on, increasing and not a single one: `polynomial_replacement` succeeds exactly when, for
every listed index, the samples of its regression window that are not listed themselves are finite; otherwise it raises ValueError.  On
success every listed index holds a finite number and all other samples are kept (before the final rounding). -/
theorem C205_missing (d window : Nat) (hw : 0 < window) (v : Arr (Fl ℝ)) (hf : v.isInt = false) (sp : List Nat)
    (hs : sp.Pairwise (· < ·)) (h1 : sp.length ≠ 1) (h11 : ∀ i ∈ sp, 11 ≤ i) (hin : ∀ i ∈ sp, i < v.data.length) (decimals : Int) :
    ((∀ i ∈ sp, ∀ k, i - fitLength window i ≤ k → k < i → k ∉ sp → ∃ r, v.data[k]? = some (fin r)) →
      ∃ zs : List (Fl ℝ), polynomialReplacement (createModel d) v (sp.map (fun i : Nat => (i : Int))) window decimals =
          .ok (zs.map (fun z => PyNum.around z decimals)) ∧ (∀ i ∈ sp, ∃ r, zs[i]? = some (fin r)) ∧ ∀ k, k ∉ sp → zs[k]? = v.data[k]?) ∧
    ((¬ ∀ i ∈ sp, ∀ k, i - fitLength window i ≤ k → k < i → k ∉ sp → ∃ r, v.data[k]? = some (fin r)) →
      polynomialReplacement (createModel d) v (sp.map (fun i : Nat => (i : Int))) window decimals = .error .valueError) := by
  obtain ⟨nd, isInt, data0⟩ := v
  simp only at hf hin ⊢
  subst hf
  have key : ∀ (allsp : List Int) (rest : List Nat) (data : List (Fl ℝ)), rest.Pairwise (· < ·) → (∀ j ∈ rest, j ∈ sp) →
      data.length = data0.length → (∀ k, k ∉ sp → data[k]? = data0[k]?) → (∀ k ∈ sp, k ∉ rest → ∃ r, data[k]? = some (fin r)) →
      ((∀ i ∈ rest, ∀ k, i - fitLength window i ≤ k → k < i → k ∉ sp → ∃ r, data0[k]? = some (fin r)) →
        ∃ zs : List (Fl ℝ), (rest.map (fun i : Nat => (i : Int))).foldlM (polyStep (createModel d) allsp window decimals)
            ⟨⟨nd, false, data⟩, true⟩ = .ok ⟨⟨nd, false, zs⟩, true⟩ ∧ (∀ i ∈ sp, ∃ r, zs[i]? = some (fin r)) ∧
            ∀ k, k ∉ sp → zs[k]? = data0[k]?) ∧
      ((¬ ∀ i ∈ rest, ∀ k, i - fitLength window i ≤ k → k < i → k ∉ sp → ∃ r, data0[k]? = some (fin r)) →
        (rest.map (fun i : Nat => (i : Int))).foldlM (polyStep (createModel d) allsp window decimals) ⟨⟨nd, false, data⟩, true⟩ =
          .error .valueError) := by
    intro allsp rest
    induction rest with
    | nil =>
      intro data _ _ _ hk hr
      exact ⟨fun _ => ⟨data, rfl, fun i hi => hr i hi (by simp), hk⟩, fun h => absurd (by simp) h⟩
    | cons j t ih =>
      intro data hp hmem hl hk hr
      obtain ⟨p1, p2⟩ := List.pairwise_cons.mp hp
      have hjs := hmem j List.mem_cons_self
      have hj11 := h11 j hjs
      have hjn : j < data.length := by have := hin j hjs; omega
      obtain ⟨s1, s2⟩ := polyStep_late (createModel d) allsp window decimals data true j hj11 hjn nd
      obtain ⟨c1, c2⟩ := createModel_slice d window j hw data (by omega) hjn.le
      have hnot : ∀ k, k < j → k ∉ j :: t := by
        intro k hkj hc
        rcases List.mem_cons.mp hc with h | h
        · omega
        · have := p1 k h; omega
      have hwin : (∀ k, j - fitLength window j ≤ k → k < j → ∃ r, data[k]? = some (fin r)) ↔
          ∀ k, j - fitLength window j ≤ k → k < j → k ∉ sp → ∃ r, data0[k]? = some (fin r) := by
        constructor
        · intro h k k1 k2 k3
          rw [← hk k k3]; exact h k k1 k2
        · intro h k k1 k2
          by_cases k3 : k ∈ sp
          · exact hr k k3 (hnot k k2)
          · rw [hk k k3]; exact h k k1 k2 k3
      by_cases hfin : ∀ k, j - fitLength window j ≤ k → k < j → k ∉ sp → ∃ r, data0[k]? = some (fin r)
      · obtain ⟨r, hr'⟩ := c1 (hwin.mpr hfin)
        have hstep := s1 _ hr'
        obtain ⟨i1, i2⟩ := ih (data.set j (fin r)) p2 (fun k hk => hmem k (List.mem_cons_of_mem _ hk)) (by simpa using hl)
          (fun k hks => by
            rw [List.getElem?_set_ne (by rintro rfl; exact hks hjs)]; exact hk k hks)
          (fun k hks hkt => by
            by_cases hkj : k = j
            · subst hkj; exact ⟨r, by rw [List.getElem?_set_self hjn]⟩
            · rw [List.getElem?_set_ne (fun h => hkj h.symm)]
              exact hr k hks (by simp [hkj, hkt]))
        refine ⟨fun h => ?_, fun h => ?_⟩
        · obtain ⟨zs, z1, z2⟩ := i1 (fun i hi => h i (List.mem_cons_of_mem _ hi))
          exact ⟨zs, by rw [List.map_cons]; exact foldlM_cons_ok.mpr ⟨_, hstep, z1⟩, z2⟩
        · have := i2 (fun hc => h (fun i hi => by
            rcases List.mem_cons.mp hi with rfl | hi
            · exact hfin
            · exact hc i hi))
          rw [List.map_cons, List.foldlM_cons, hstep]
          exact this
      · have hstep := s2 _ (c2 (fun hc => hfin (hwin.mp hc)))
        refine ⟨fun h => absurd (h j List.mem_cons_self) hfin, fun _ => ?_⟩
        rw [List.map_cons, List.foldlM_cons, hstep]
        rfl
  obtain ⟨k1, k2⟩ := key (sp.map (fun i : Nat => (i : Int))) sp data0 hs (fun _ h => h) rfl (fun _ _ => rfl) (fun k hk hc => absurd hk hc)
  refine ⟨fun h => ?_, fun h => ?_⟩
  · obtain ⟨zs, z1, z2, z3⟩ := k1 h
    refine ⟨zs, ?_, z2, z3⟩
    unfold polynomialReplacement
    rw [if_neg (by simpa using h1), z1]
    rfl
  · have := k2 h
    unfold polynomialReplacement
    rw [if_neg (by simpa using h1), this]
    rfl

/-- **C205** A window that is not positive, or a negative degree, is a ValueError as soon as the first spike lies at index 11 or later. -/
theorem C205_parameters (degree window : Int) (h : window ≤ 0 ∨ degree < 0) (v : Arr (Fl ℝ)) (i : Int) (hi : 11 ≤ i) (sp : List Int)
    (h1 : sp ≠ []) (decimals : Int) : polynomialReplacement (createModel degree) v (i :: sp) window decimals = .error .valueError := by
  have hm : ∀ y lo, (degree < 0 ∨ i ≤ lo) → createModel degree y lo i = .error .valueError := by
    intro y lo hc
    exact (C204_rejects degree y lo i).1.mpr (hc.elim Or.inl (fun hc => Or.inr (Or.inl hc)))
  have hstep : ∀ allsp st, polyStep (createModel degree) allsp window decimals st i = .error .valueError := by
    intro allsp st
    unfold polyStep
    rw [if_neg (by omega), if_neg (by omega)]
    by_cases hc : 11 ≤ i ∧ i ≤ window - 1
    · rw [if_pos hc]
      simp only [bind, Except.bind, hm _ 0 (by omega)]
    · rw [if_neg hc]
      simp only [bind, Except.bind, hm _ (i - window) (by omega)]
  unfold polynomialReplacement
  have hl : (i :: sp).length ≠ 1 := by
    intro hc
    exact h1 (List.length_eq_zero_iff.mp (by simpa using hc))
  rw [if_neg hl, List.foldlM_cons, hstep]
  rfl

/-- **C205** With `window = 1` the method is `last_valid_data` followed by the rounding, whatever the degree and the order of the spikes
(finite samples, spikes from index 11 on, not a single one). -/
theorem C205_last_valid (d : Nat) (xs : List ℝ) (sp : List Nat) (h1 : sp.length ≠ 1) (h11 : ∀ i ∈ sp, 11 ≤ i) (hin : ∀ i ∈ sp, i < xs.length)
    (decimals : Int) : ∃ out, lastValidData ⟨1, false, fins xs⟩ (sp.map (fun i : Nat => (i : Int))) = .ok out ∧
      polynomialReplacement (createModel d) ⟨1, false, fins xs⟩ (sp.map (fun i : Nat => (i : Int))) 1 decimals =
        .ok (out.map (fun z => PyNum.around z decimals)) := by
  have key : ∀ (allsp : List Int) (rest : List Nat) (zs : List ℝ), (∀ j ∈ rest, 11 ≤ j ∧ j < zs.length) →
      ∃ out, (rest.map (fun i : Nat => (i : Int))).foldlM (fun a i => do
          let x ← getIdx a (i - 1)
          setIdx a i x) (fins zs) = .ok out ∧
        (rest.map (fun i : Nat => (i : Int))).foldlM (polyStep (createModel d) allsp (1 : Nat) decimals) ⟨⟨1, false, fins zs⟩, true⟩ =
          .ok ⟨⟨1, false, out⟩, true⟩ := by
    intro allsp rest
    induction rest with
    | nil => intro zs _; exact ⟨_, rfl, rfl⟩
    | cons j t ih =>
      intro zs hb
      obtain ⟨hj11, hjn⟩ := hb j List.mem_cons_self
      have hjn' : j < (fins zs).length := by simpa [fins] using hjn
      set x := zs[j - 1]'(by omega) with hx
      have hget : getIdx (fins zs) ((j : Int) - 1) = .ok (fin x) := by
        rw [show (j : Int) - 1 = ((j - 1 : ℕ) : Int) by omega]
        refine getIdx_nat ?_
        simp only [fins, List.getElem?_map]
        rw [List.getElem?_eq_getElem (by omega)]
        rfl
      have hset : setIdx (fins zs) (j : Int) (fin x) = .ok (fins (zs.set j x)) := by
        refine setIdx_ok.mpr ⟨j, pyIdx_nat hjn', ?_⟩
        simp [fins, List.map_set]
      have hf1 : fitLength 1 j = 1 := by unfold fitLength; rw [if_neg (by omega)]
      have hslice : pySlice (fins zs) ((j - 1 : ℕ) : Int) (j : Int) = [fin x] := by
        obtain ⟨y, y1, y2, y3⟩ := slice_fins zs j (j - 1) hjn.le (by omega)
        rw [y1]
        have hl1 : y.length = 1 := by omega
        obtain ⟨a, rfl⟩ := List.length_eq_one_iff.mp hl1
        have := y3 0 (by omega)
        simp only [List.getD_cons_zero, add_zero] at this
        rw [this, hx, List.getD_eq_getElem?_getD, List.getElem?_eq_getElem (by omega)]
        rfl
      have hpred : createModel d (pySlice (fins zs) ((j - fitLength 1 j : ℕ) : Int) (j : Int)) ((j - fitLength 1 j : ℕ) : Int) (j : Int) =
          .ok (fin x) := by
        rw [hf1, hslice]
        have := C204_one_sample d x ((j - 1 : ℕ) : Int)
        rwa [show ((j - 1 : ℕ) : Int) + 1 = (j : Int) by omega] at this
      have hstep := (polyStep_late (createModel d) allsp 1 decimals (fins zs) true j hj11 hjn' 1).1 _ hpred
      rw [show (fins zs).set j (fin x) = fins (zs.set j x) by simp [fins, List.map_set]] at hstep
      obtain ⟨out, o1, o2⟩ := ih (zs.set j x) (fun k hk => by
        simpa using hb k (List.mem_cons_of_mem _ hk))
      refine ⟨out, ?_, ?_⟩
      · rw [List.map_cons]
        refine foldlM_cons_ok.mpr ⟨_, ?_, o1⟩
        simp only [bind, Except.bind, hget, hset]
      · rw [List.map_cons]
        exact foldlM_cons_ok.mpr ⟨_, hstep, o2⟩
  obtain ⟨out, o1, o2⟩ := key (sp.map (fun i : Nat => (i : Int))) sp xs (fun j hj => ⟨h11 j hj, hin j hj⟩)
  refine ⟨out, o1, ?_⟩
  unfold polynomialReplacement
  have o2' : (sp.map (fun i : Nat => (i : Int))).foldlM (polyStep (createModel d) (sp.map (fun i : Nat => (i : Int))) 1 decimals)
    ⟨⟨1, false, fins xs⟩, true⟩ = .ok ⟨⟨1, false, out⟩, true⟩ := o2
  rw [if_neg (by simpa using h1), o2']
  rfl

/-- **C205** A constant signal is restored with every degree and every window of at least one sample — also when the regression has more
coefficients than samples. -/
theorem C205_constant (d window : Nat) (hw : 0 < window) (v : Arr (Fl ℝ)) (hf : v.isInt = false) (sp : List Nat) (x : ℝ)
    (hs : sp.Pairwise (· < ·)) (h1 : sp.length ≠ 1) (h11 : ∀ i ∈ sp, 11 ≤ i) (hin : ∀ i ∈ sp, i < v.data.length)
    (hgood : ∀ k, k < v.data.length → k ∉ sp → v.data[k]? = some (fin x)) (decimals : Int) :
    polynomialReplacement (createModel d) v (sp.map (fun i : Nat => (i : Int))) window decimals =
      .ok (List.replicate v.data.length (PyNum.around (fin x) decimals)) := by
  obtain ⟨nd, isInt, data0⟩ := v
  simp only at hf hin hgood ⊢
  subst hf
  have key : ∀ (allsp : List Int) (rest : List Nat) (data : List (Fl ℝ)), rest.Pairwise (· < ·) →
      (∀ j ∈ rest, 11 ≤ j ∧ j < data.length) → (∀ k, k < data.length → k ∉ rest → data[k]? = some (fin x)) →
      (rest.map (fun i : Nat => (i : Int))).foldlM (polyStep (createModel d) allsp window decimals) ⟨⟨nd, false, data⟩, true⟩ =
        .ok ⟨⟨nd, false, List.replicate data.length (fin x)⟩, true⟩ := by
    intro allsp rest
    induction rest with
    | nil =>
      intro data _ _ hk
      have : data = List.replicate data.length (fin x) := by
        apply List.ext_getElem?
        intro k
        by_cases hlt : k < data.length
        · rw [hk k hlt (by simp), List.getElem?_replicate, if_pos hlt]
        · rw [List.getElem?_eq_none (by omega), List.getElem?_eq_none (by simp; omega)]
      exact congrArg (fun l => Except.ok (PolyState.mk (Arr.mk nd false l) true)) this
    | cons j t ih =>
      intro data hp hb hk
      obtain ⟨p1, p2⟩ := List.pairwise_cons.mp hp
      obtain ⟨hj11, hjn⟩ := hb j List.mem_cons_self
      have h1 := fitLength_le window j
      have h2 := fitLength_pos (j := j) hw (by omega)
      have hslice : pySlice data ((j - fitLength window j : ℕ) : Int) (j : Int) = fins (List.replicate (fitLength window j) x) := by
        have hl := length_pySlice (l := data) (lo := j - fitLength window j) hjn.le (by omega)
        have : pySlice data ((j - fitLength window j : ℕ) : Int) (j : Int) = List.replicate (fitLength window j) (fin x) := by
          refine List.eq_replicate_iff.mpr ⟨by rw [hl]; omega, fun b hb => ?_⟩
          obtain ⟨k, k1, k2, k3⟩ := (mem_pySlice hjn.le (by omega)).mp hb
          rw [hk k (by omega) (by
            intro hc
            rcases List.mem_cons.mp hc with h | h
            · omega
            · have := p1 k h; omega)] at k3
          cases k3; rfl
        rw [this]
        simp [fins]
      have hpred : createModel d (pySlice data ((j - fitLength window j : ℕ) : Int) (j : Int)) ((j - fitLength window j : ℕ) : Int) (j : Int) =
          .ok (fin x) := by
        obtain ⟨w, w1, w2⟩ := C204_weights d (fitLength window j) h2 ((j - fitLength window j : ℕ) : Int)
        have := w2 (List.replicate (fitLength window j) x) (by simp)
        rw [show (((j - fitLength window j : ℕ) : Int) + (fitLength window j : Int)) = (j : Int) by omega] at this
        rw [hslice, this]
        congr 2
        have e : ∑ k ∈ range (fitLength window j), w k * (List.replicate (fitLength window j) x).getD k 0 =
            ∑ k ∈ range (fitLength window j), w k * x := by
          refine sum_congr rfl (fun k hk => ?_)
          rw [List.getD_eq_getElem?_getD, List.getElem?_replicate, if_pos (Finset.mem_range.mp hk)]
          rfl
        rw [e, ← sum_mul, w1, one_mul]
      have hstep := (polyStep_late (createModel d) allsp window decimals data true j hj11 hjn nd).1 _ hpred
      have := ih (data.set j (fin x)) p2 (fun k hk => by simpa using hb k (List.mem_cons_of_mem _ hk)) (fun k hkn hkt => by
        by_cases hkj : k = j
        · subst hkj; rw [List.getElem?_set_self hjn]
        · rw [List.getElem?_set_ne (fun h => hkj h.symm)]
          exact hk k (by simpa using hkn) (by simp [hkj, hkt]))
      rw [List.length_set] at this
      rw [List.map_cons]
      exact foldlM_cons_ok.mpr ⟨_, hstep, this⟩
  have := key (sp.map (fun i : Nat => (i : Int))) sp data0 hs (fun j hj => ⟨h11 j hj, hin j hj⟩) hgood
  unfold polynomialReplacement
  rw [if_neg (by simpa using h1), this]
  simp only [bind, Except.bind, List.map_replicate]

/-- thirty samples of which the unlisted one at 15 is NaN: with a window of 4 the spikes 20 and 21 are repaired, with one of 10 it is a ValueError -/
example : (∃ zs, polynomialReplacement (createModel 2) ⟨1, false, (List.range 30).map (fun k : ℕ => if k = 15 then nan else fin (k : ℝ))⟩
      [20, 21] 4 4 = .ok zs) ∧
    polynomialReplacement (createModel 2) ⟨1, false, (List.range 30).map (fun k : ℕ => if k = 15 then nan else fin (k : ℝ))⟩
      [20, 21] 10 4 = .error .valueError := by
  constructor
  · obtain ⟨zs, h, -⟩ := (C205_missing 2 4 (by norm_num) ⟨1, false, (List.range 30).map (fun k : ℕ => if k = 15 then nan else fin (k : ℝ))⟩ rfl
      [20, 21] (by simp) (by simp) (by simp) (by simp) 4).1 (by
        intro i hi k k1 k2 k3
        have hk : k < 30 := by
          simp only [List.mem_cons, List.not_mem_nil, or_false] at hi; omega
        have hk15 : k ≠ 15 := by
          simp only [List.mem_cons, List.not_mem_nil, or_false] at hi
          rcases hi with rfl | rfl
          · have : fitLength 4 20 = 4 := rfl
            omega
          · have : fitLength 4 21 = 4 := rfl
            omega
        exact ⟨(k : ℝ), by rw [List.getElem?_map, List.getElem?_range hk]; simp [hk15]⟩)
    exact ⟨_, h⟩
  · refine (C205_missing 2 10 (by norm_num) ⟨1, false, (List.range 30).map (fun k : ℕ => if k = 15 then nan else fin (k : ℝ))⟩ rfl
      [20, 21] (by simp) (by simp) (by simp) (by simp) 4).2 (fun h => ?_)
    obtain ⟨r, hr⟩ := h 20 (by simp) 15 (by decide) (by norm_num) (by simp)
    rw [List.getElem?_map, List.getElem?_range (by norm_num)] at hr
    simp at hr

end

end Proadv.Props
