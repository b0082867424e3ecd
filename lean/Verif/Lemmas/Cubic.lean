import Verif.Lemmas.Runs

/-! # `cubic_12points_polynomial` on sorted spikes -/

set_option linter.unusedSectionVars false

namespace Proadv.Replace

open Proadv

variable {F : Type} [PyNum F]

/-- specification: the valid samples strictly after position `i`, in order -/
def validAfter (v : List F) (sp : List Nat) (i : Nat) : List F :=
  ((List.range v.length).filter (fun k => decide (i < k ∧ k ∉ sp))).map (fun k => v.getD k PyNum.nan)

/-- specification: value computed for the spike `i` before the final rounding, from the raw data only -/
def cubicValue (interp : List F → List F → F → Py F) (v : List F) (sp : List Nat) (i : Nat) : Py F :=
  if i ≤ 30 ∨ v.length ≤ i + 30 then
    match (if i = 0 then v[v.length - 1]? else v[i - 1]?), (validAfter v sp i)[0]? with
    | some p, some q => .ok (PyNum.around ((p +. q) /. lit 2) 4)
    | _, _ => .error .indexError
  else
    if (validAfter v sp i).length < 12 then .error .valueError
    else interp cubicX ((v.drop (i - 13)).take 12 ++ (validAfter v sp i).take 12) (lit 13)

theorem validFrom_eq {v md : List F} {sp : List Nat} {i : Nat} (hnan : PyNum.isNaN (PyNum.nan : F) = true)
    (hv : ∀ x ∈ v, PyNum.isNaN x = false) (hl : md.length = v.length) (hi : i < v.length) (hisp : i ∈ sp)
    (h1 : ∀ k, k ∉ sp → md[k]? = v[k]?) (h2 : ∀ k ∈ sp, i ≤ k → k < v.length → md[k]? = some PyNum.nan) :
    validFrom md (i : Int) = validAfter v sp i := by
  unfold validFrom validAfter
  have hsb : sliceBound md.length (i : Int) = i := by
    unfold sliceBound
    rw [if_neg (by omega)]
    show min _ _ = _
    omega
  rw [hsb]
  have hd : md.drop i = (List.range' i (v.length - i)).map (fun k => md.getD k PyNum.nan) := by
    apply List.ext_getElem
    · simp [hl]
    · intro k k1 k2
      simp only [List.length_drop] at k1
      simp only [List.getElem_drop, List.getElem_map, List.getElem_range', one_mul]
      rw [List.getD_eq_getElem?_getD, List.getElem?_eq_getElem (by omega)]; rfl
  have hr : List.range v.length = List.range i ++ List.range' i (v.length - i) := by
    rw [List.range_eq_range', List.range_eq_range']
    have := List.range'_append (s := 0) (m := i) (n := v.length - i) (step := 1)
    simp only [one_mul, zero_add] at this
    rw [this]
    congr 1; omega
  rw [hd, List.filter_map, hr, List.filter_append]
  have he : (List.range i).filter (fun k => decide (i < k ∧ k ∉ sp)) = [] := by
    rw [List.filter_eq_nil_iff]
    intro k hk
    have := List.mem_range.mp hk
    simp; omega
  rw [he, List.nil_append]
  have hf : (List.range' i (v.length - i)).filter ((fun x : F => !(PyNum.isNaN x)) ∘ fun k => md.getD k PyNum.nan) =
      (List.range' i (v.length - i)).filter (fun k => decide (i < k ∧ k ∉ sp)) := by
    apply List.filter_congr
    intro k hk
    rw [List.mem_range'_1] at hk
    simp only [Function.comp]
    by_cases hks : k ∈ sp
    · rw [List.getD_eq_getElem?_getD, h2 k hks hk.1 (by omega)]
      simp [hnan, hks]
    · have hik : i < k := by
        rcases Nat.lt_or_ge i k with h | h
        · exact h
        · have : i = k := by omega
          subst this; exact absurd hisp hks
      rw [List.getD_eq_getElem?_getD, h1 k hks, List.getElem?_eq_getElem (by omega)]
      simp [hv _ (List.getElem_mem (by omega : k < v.length)), hks, hik]
  rw [hf]
  apply List.map_congr_left
  intro k hk
  have := (List.mem_filter.mp hk).2
  simp only [decide_eq_true_eq] at this
  rw [List.getD_eq_getElem?_getD, List.getD_eq_getElem?_getD, h1 k this.2]

theorem cubicStep_eq {interp : List F → List F → F → Py F} {v md : List F} {sp : List Nat} {i : Nat}
    (hnan : PyNum.isNaN (PyNum.nan : F) = true) (hv : ∀ x ∈ v, PyNum.isNaN x = false) (hl : md.length = v.length)
    (hi : i < v.length) (hisp : i ∈ sp) (h1 : ∀ k, k ∉ sp → md[k]? = v[k]?)
    (h2 : ∀ k ∈ sp, i ≤ k → k < v.length → md[k]? = some PyNum.nan) :
    cubicStep interp v md (i : Int) = match cubicValue interp v sp i with
      | .error e => .error e
      | .ok x => .ok (md.set i x) := by
  have hvf := validFrom_eq hnan hv hl hi hisp h1 h2
  have hset : ∀ x : F, setIdx md (i : Int) x = .ok (md.set i x) := fun x =>
    setIdx_ok.mpr ⟨i, pyIdx_nat (by omega), rfl⟩
  unfold cubicStep cubicValue
  by_cases hc : i ≤ 30 ∨ v.length ≤ i + 30
  · rw [if_pos (by omega), if_pos hc]
    have hp : ∃ p, getIdx v ((i : Int) - 1) = .ok p ∧ (if i = 0 then v[v.length - 1]? else v[i - 1]?) = some p := by
      by_cases h0 : i = 0
      · refine ⟨v[v.length - 1], getIdx_ok.mpr ⟨v.length - 1, ?_, List.getElem?_eq_getElem (by omega)⟩, ?_⟩
        · unfold pyIdx
          rw [if_neg (by omega), if_pos (by omega)]
          congr 1; omega
        · rw [if_pos h0, List.getElem?_eq_getElem (by omega)]
      · refine ⟨v[i - 1], ?_, ?_⟩
        · rw [show ((i : Int) - 1) = ((i - 1 : Nat) : Int) by omega]
          exact getIdx_nat (List.getElem?_eq_getElem (by omega))
        · rw [if_neg h0, List.getElem?_eq_getElem (by omega)]
    obtain ⟨p, hp1, hp2⟩ := hp
    simp only [hp1, hp2, hvf, bind, Except.bind]
    cases hq : (validAfter v sp i)[0]? with
    | none =>
      have : getIdx (validAfter v sp i) 0 = .error .indexError := by
        apply getIdx_error
        have : (validAfter v sp i).length = 0 := by
          by_contra hc
          rw [List.getElem?_eq_getElem (by omega)] at hq; cases hq
        rw [this]; rfl
      rw [this]
    | some q =>
      have : getIdx (validAfter v sp i) 0 = .ok q := getIdx_nat (i := 0) hq
      rw [this]
      simp only [hset]
  · rw [if_neg (by omega), if_neg hc]
    have hlen : ((v.drop (i - 13)).take 13).length = 13 := by simp; omega
    have hy : cubicY v md (i : Int) = (v.drop (i - 13)).take 12 ++ (validAfter v sp i).take 12 := by
      unfold cubicY
      rw [hvf, show ((i : Int) - 13).toNat = i - 13 by omega, List.eraseIdx_append_of_lt_length (by omega)]
      congr 1
      rw [List.eraseIdx_eq_take_drop_succ, List.take_take, List.drop_eq_nil_of_le (as := (v.drop (i - 13)).take 13) (i := 12 + 1) (by rw [hlen]),
        List.append_nil]
      rfl
    have hyl : (cubicY v md (i : Int)).length = 12 + min 12 (validAfter v sp i).length := by
      rw [hy, List.length_append, List.length_take, List.length_take, List.length_drop]
      omega
    simp only [hyl, bind, Except.bind]
    rw [hy]
    by_cases hb : (validAfter v sp i).length < 12
    · rw [if_pos (by omega), if_pos hb]
    · rw [if_neg (by omega), if_neg hb]
      cases interp cubicX ((v.drop (i - 13)).take 12 ++ (validAfter v sp i).take 12) (lit 13) with
      | error e => rfl
      | ok x => simp only [hset]

/-- the loop over the spikes computes every spike's value from the raw data, left to right, stopping at the first error -/
theorem cubic_fold {interp : List F → List F → F → Py F} {v : List F} {sp : List Nat}
    (hnan : PyNum.isNaN (PyNum.nan : F) = true) (hv : ∀ x ∈ v, PyNum.isNaN x = false) (hin : ∀ i ∈ sp, i < v.length) :
    ∀ (rest : List Nat) (md : List F), rest.Pairwise (· < ·) → (∀ i ∈ rest, i ∈ sp) →
      (∀ k ∈ sp, k ∉ rest → ∀ i ∈ rest, k < i) → md.length = v.length → (∀ k, k ∉ sp → md[k]? = v[k]?) →
      (∀ k ∈ rest, md[k]? = some PyNum.nan) →
      (∀ e, rest.mapM (cubicValue interp v sp) = .error e →
        (rest.map (fun i : Nat => (i : Int))).foldlM (cubicStep interp v) md = .error e) ∧
      (∀ xs, rest.mapM (cubicValue interp v sp) = .ok xs →
        ∃ out, (rest.map (fun i : Nat => (i : Int))).foldlM (cubicStep interp v) md = .ok out ∧ out.length = v.length ∧
          (∀ k, k ∉ rest → out[k]? = md[k]?) ∧
          ∀ i ∈ rest, ∃ x, cubicValue interp v sp i = .ok x ∧ out[i]? = some x) := by
  intro rest
  induction rest with
  | nil =>
    intro md _ _ _ hl _ _
    refine ⟨fun e h => (by cases h), fun xs _ => ⟨md, rfl, hl, fun _ _ => rfl, by simp⟩⟩
  | cons i t ih =>
    intro md hs hsub hproc hl h1 h2
    obtain ⟨s1, s2⟩ := List.pairwise_cons.mp hs
    have hi := hsub i (by simp)
    have hil := hin i hi
    have hstep := cubicStep_eq (interp := interp) hnan hv hl hil hi h1 (fun k hk hik _ => by
      by_cases hkr : k ∈ i :: t
      · exact h2 k hkr
      · have := hproc k hk hkr i (by simp); omega)
    cases hval : cubicValue interp v sp i with
    | error e0 =>
      rw [hval] at hstep
      constructor
      · intro e he
        rw [List.mapM_cons, hval] at he
        cases he
        rw [List.map_cons, List.foldlM_cons, hstep]; rfl
      · intro xs he
        rw [List.mapM_cons, hval] at he
        cases he
    | ok x =>
      rw [hval] at hstep
      obtain ⟨g1, g2⟩ := ih (md.set i x) s2 (fun j hj => hsub j (by simp [hj]))
        (fun k hk hkt j hj => by
          by_cases hki : k = i
          · rw [hki]; exact s1 j hj
          · exact hproc k hk (by simp [hki, hkt]) j (by simp [hj]))
        (by simpa using hl)
        (fun k hk => by
          rw [List.getElem?_set_ne (by rintro rfl; exact hk hi)]; exact h1 k hk)
        (fun k hk => by
          have := s1 k hk
          rw [List.getElem?_set_ne (by omega)]; exact h2 k (by simp [hk]))
      have hfold : ((i :: t).map (fun i : Nat => (i : Int))).foldlM (cubicStep interp v) md =
          (t.map (fun i : Nat => (i : Int))).foldlM (cubicStep interp v) (md.set i x) := by
        rw [List.map_cons, List.foldlM_cons, hstep]; rfl
      rw [hfold]
      have hmap : (i :: t).mapM (cubicValue interp v sp) = match t.mapM (cubicValue interp v sp) with
          | .error e => .error e
          | .ok ys => .ok (x :: ys) := by
        rw [List.mapM_cons, hval]
        simp only [bind, Except.bind]
        cases t.mapM (cubicValue interp v sp) <;> rfl
      rw [hmap]
      cases hm : t.mapM (cubicValue interp v sp) with
      | error e0 =>
        refine ⟨fun e he => ?_, fun xs he => by cases he⟩
        cases he
        exact g1 e0 hm
      | ok ys =>
        refine ⟨fun e he => (by cases he), fun xs _ => ?_⟩
        obtain ⟨out, o1, o2, o3, o4⟩ := g2 ys hm
        have hit : i ∉ t := fun h => by have := s1 i h; omega
        refine ⟨out, o1, o2, fun k hk => ?_, fun j hj => ?_⟩
        · simp only [List.mem_cons, not_or] at hk
          rw [o3 k hk.2, List.getElem?_set_ne (fun h => hk.1 h.symm)]
        · rcases List.mem_cons.mp hj with rfl | hj
          · exact ⟨x, hval, by rw [o3 j hit, List.getElem?_set_self (by omega)]⟩
          · exact o4 j hj

end Proadv.Replace
