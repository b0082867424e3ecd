import Verif.Props.LinearInterp
import Verif.Lemmas.Around

/-! # `linear_interpolation`: what it depends on, repetition, time reversal, change of units (C170, C171) -/

set_option linter.unusedSectionVars false

namespace Proadv.Props

open Proadv Replace Fl

variable {K : Type} [Field K] [LinearOrder K] [IsStrictOrderedRing K] [FloorRing K]

namespace LinearLaws

/-- the value a spike at `k` of the maximal block `s..e` receives before rounding -/
def fill (xs : List K) (s e k : Nat) : K :=
  if e + 1 < xs.length then
    (if 0 < s then xs.getD (s - 1) 0 + (xs.getD (e + 1) 0 - xs.getD (s - 1) 0) * ((k : K) - s + 1) / ((e : K) - s + 2)
     else xs.getD (e + 1) 0)
  else xs.sum / xs.length

/-- `zs` is the series with its spikes filled -/
def Filled (xs : List K) (sp : List Nat) (zs : List K) : Prop :=
  zs.length = xs.length ∧ (∀ k, k ∉ sp → zs.getD k 0 = xs.getD k 0) ∧
    ∀ s e, IsRun sp s e → ∀ k, s ≤ k → k ≤ e → zs.getD k 0 = fill xs s e k

theorem filled_unique {xs ys : List K} {sp : List Nat} (hs : sp.Pairwise (· < ·)) {zs ws : List K} (hz : Filled xs sp zs)
    (hw : Filled ys sp ws) (hl : xs.length = ys.length) (h1 : ∀ k, k ∉ sp → xs.getD k 0 = ys.getD k 0)
    (h2 : ∀ s e, IsRun sp s e → ∀ k, s ≤ k → k ≤ e → fill xs s e k = fill ys s e k) : zs = ws := by
  have key : ∀ k, zs.getD k 0 = ws.getD k 0 := by
    intro k
    by_cases hk : k ∈ sp
    · obtain ⟨s, e, hr, k1, k2⟩ := isRun_exists sp hs k hk
      rw [hz.2.2 s e hr k k1 k2, hw.2.2 s e hr k k1 k2, h2 s e hr k k1 k2]
    · rw [hz.2.1 k hk, hw.2.1 k hk, h1 k hk]
  apply List.ext_getElem (by rw [hz.1, hw.1, hl])
  intro k a b
  have := key k
  simpa [List.getD_eq_getElem?_getD, a, b] using this

theorem filled (xs : List K) (sp : List Nat) (hne : sp ≠ []) (hs : sp.Pairwise (· < ·)) (hin : ∀ i ∈ sp, i < xs.length) :
    ∃ zs, Filled xs sp zs ∧ linearInterpolationRaw ⟨1, false, xs.map fin⟩ (sp.map (fun i : Nat => (i : Int))) = .ok (zs.map fin) ∧
      ∀ d, linearInterpolation ⟨1, false, xs.map fin⟩ (sp.map (fun i : Nat => (i : Int))) d =
        .ok (zs.map fun z => fin (aroundK z d)) := by
  have hb : ∃ lo hi : K, ∀ x ∈ xs, lo ≤ x ∧ x ≤ hi := by
    induction xs with
    | nil => exact ⟨0, 0, by simp⟩
    | cons a t ih =>
      clear ih
      have : ∀ l : List K, ∃ lo hi : K, ∀ x ∈ l, lo ≤ x ∧ x ≤ hi := by
        intro l
        induction l with
        | nil => exact ⟨0, 0, by simp⟩
        | cons b u ih =>
          obtain ⟨lo, hi, h⟩ := ih
          refine ⟨min lo b, max hi b, fun x hx => ?_⟩
          rcases List.mem_cons.mp hx with rfl | hx
          · exact ⟨min_le_right _ _, le_max_right _ _⟩
          · exact ⟨(min_le_left _ _).trans (h x hx).1, (h x hx).2.trans (le_max_left _ _)⟩
      exact this _
  obtain ⟨lo, hi, hb⟩ := hb
  obtain ⟨zs, h1, -, hl, -⟩ := C52_in_range xs sp hne hs hin lo hi hb 0
  obtain ⟨out, o1, o2, o3, o4⟩ := li_raw_exact xs sp hne hs hin
  have e : out = zs.map fin := by rw [h1] at o1; exact (Except.ok.inj o1).symm
  subst e
  refine ⟨zs, ⟨hl, fun k hk => ?_, fun s e hr k k1 k2 => ?_⟩, h1, fun d => ?_⟩
  · have := o3 k hk
    rw [List.getElem?_map, List.getElem?_map] at this
    rw [List.getD_eq_getElem?_getD, List.getD_eq_getElem?_getD]
    cases ha : zs[k]? <;> cases hb : xs[k]? <;> rw [ha, hb] at this <;> simp at this ⊢
    exact this
  · have := o4 s e hr k k1 k2
    rw [List.getElem?_map] at this
    rw [List.getD_eq_getElem?_getD]
    cases ha : zs[k]? <;> rw [ha] at this <;> simp at this ⊢
    exact this
  · unfold linearInterpolation
    rw [h1]
    simp [bind, Except.bind, Function.comp_def]

/-- with the last sample valid, filling uses only the valid samples -/
theorem fill_congr {xs ys : List K} {sp : List Nat} (hl : xs.length = ys.length) (h1 : ∀ k, k ∉ sp → xs.getD k 0 = ys.getD k 0)
    (hlast : xs.length - 1 ∉ sp) (hin : ∀ i ∈ sp, i < xs.length) {s e : Nat} (hr : IsRun sp s e) (k : Nat) :
    fill xs s e k = fill ys s e k := by
  have he : e + 1 < xs.length := by
    have h2 := hr.2.1 e hr.1 (le_refl _)
    have h3 := hin e h2
    by_contra hc
    exact hlast (by rw [show xs.length - 1 = e by omega]; exact h2)
  unfold fill
  rw [← hl, if_pos he, if_pos he, h1 _ hr.2.2.2]
  by_cases h0 : 0 < s
  · rw [if_pos h0, if_pos h0, h1 _ (hr.2.2.1 h0)]
  · rw [if_neg h0, if_neg h0]

theorem filled_idem {xs zs : List K} {sp : List Nat} (hin : ∀ i ∈ sp, i < xs.length) (hlast : xs.length - 1 ∉ sp)
    (hz : Filled xs sp zs) : Filled zs sp zs := by
  refine ⟨rfl, fun _ _ => rfl, fun s e hr k k1 k2 => ?_⟩
  rw [hz.2.2 s e hr k k1 k2]
  exact fill_congr hz.1.symm (fun k hk => (hz.2.1 k hk).symm) hlast hin hr k

theorem getD_map0 (f : K → K) (xs : List K) {k : Nat} (hk : k < xs.length) : (xs.map f).getD k 0 = f (xs.getD k 0) := by
  simp [List.getD_eq_getElem?_getD, hk]

theorem getD_rev (xs : List K) {k : Nat} (hk : k < xs.length) : xs.reverse.getD k 0 = xs.getD (xs.length - 1 - k) 0 := by
  rw [List.getD_eq_getElem?_getD, List.getD_eq_getElem?_getD, List.getElem?_reverse hk]

/-- the spike indices seen from the other end -/
def mirror (n : Nat) (sp : List Nat) : List Nat := (sp.map fun i => n - 1 - i).reverse

theorem mem_mirror {n : Nat} {sp : List Nat} (hin : ∀ i ∈ sp, i < n) {k : Nat} (hk : k < n) :
    k ∈ mirror n sp ↔ n - 1 - k ∈ sp := by
  unfold mirror
  rw [List.mem_reverse, List.mem_map]
  constructor
  · rintro ⟨i, hi, rfl⟩
    have := hin i hi
    rwa [show n - 1 - (n - 1 - i) = i by omega]
  · intro h
    exact ⟨n - 1 - k, h, by omega⟩

theorem mirror_lt {n : Nat} {sp : List Nat} (hin : ∀ i ∈ sp, i < n) : ∀ i ∈ mirror n sp, i < n := by
  intro i hi
  obtain ⟨j, hj, rfl⟩ := List.mem_map.mp (List.mem_reverse.mp hi)
  have := hin j hj
  omega

theorem mirror_sorted {n : Nat} {sp : List Nat} (hin : ∀ i ∈ sp, i < n) (hs : sp.Pairwise (· < ·)) :
    (mirror n sp).Pairwise (· < ·) := by
  unfold mirror
  rw [List.pairwise_reverse, List.pairwise_map]
  apply hs.imp_of_mem
  intro a b ha hb hab
  have := hin a ha
  have := hin b hb
  omega

theorem run_mirror {n : Nat} {sp : List Nat} (hin : ∀ i ∈ sp, i < n) (hlast : n - 1 ∉ sp) (h0 : 0 ∉ sp) {s e : Nat}
    (hr : IsRun sp s e) : IsRun (mirror n sp) (n - 1 - e) (n - 1 - s) ∧ 0 < s ∧ e + 1 < n := by
  obtain ⟨h1, h2, h3, h4⟩ := hr
  have he := hin e (h2 e h1 (le_refl _))
  have hs0 : 0 < s := by
    by_contra hc
    exact h0 (h2 0 (by omega) (by omega))
  have hen : e + 1 < n := by
    by_contra hc
    exact hlast (by rw [show n - 1 = e by omega]; exact h2 e h1 (le_refl _))
  refine ⟨⟨by omega, fun m m1 m2 => ?_, fun hp => ?_, ?_⟩, hs0, hen⟩
  · rw [mem_mirror hin (by omega)]; exact h2 _ (by omega) (by omega)
  · rw [mem_mirror hin (by omega)]
    rwa [show n - 1 - (n - 1 - e - 1) = e + 1 by omega]
  · rw [mem_mirror hin (by omega)]
    rw [show n - 1 - (n - 1 - s + 1) = s - 1 by omega]; exact h3 hs0

theorem filled_rev {xs zs : List K} {sp : List Nat} (hin : ∀ i ∈ sp, i < xs.length)
    (hlast : xs.length - 1 ∉ sp) (h0 : 0 ∉ sp) (hz : Filled xs sp zs) : Filled xs.reverse (mirror xs.length sp) zs.reverse := by
  have hmm : ∀ i ∈ mirror xs.length sp, i < xs.length := mirror_lt hin
  refine ⟨by simp [hz.1], fun k hk => ?_, fun s e hr k k1 k2 => ?_⟩
  · by_cases hkn : k < xs.length
    · rw [getD_rev _ (by rw [hz.1]; exact hkn), getD_rev _ hkn, hz.1]
      apply hz.2.1
      rwa [← mem_mirror hin hkn]
    · rw [List.getD_eq_getElem?_getD, List.getD_eq_getElem?_getD, List.getElem?_eq_none (by simp [hz.1]; omega),
        List.getElem?_eq_none (by simp; omega)]
  · have hen := hmm e (hr.2.1 e hr.1 (le_refl _))
    have hl' : xs.length - 1 ∉ mirror xs.length sp := by
      rw [mem_mirror hin (by omega)]; rwa [Nat.sub_self]
    have h0' : 0 ∉ mirror xs.length sp := by
      rw [mem_mirror hin (by omega)]; exact hlast
    obtain ⟨hr2, hs0, he1⟩ := run_mirror hmm hl' h0' hr
    have hself : ∀ i, i < xs.length → (i ∈ mirror xs.length (mirror xs.length sp) ↔ i ∈ sp) := by
      intro i hi
      rw [mem_mirror hmm hi, mem_mirror hin (by omega), show xs.length - 1 - (xs.length - 1 - i) = i by omega]
    have hr3 : IsRun sp (xs.length - 1 - e) (xs.length - 1 - s) := by
      refine ⟨hr2.1, fun m m1 m2 => ?_, fun hp => ?_, ?_⟩
      · rw [← hself m (by omega)]; exact hr2.2.1 m m1 m2
      · rw [← hself _ (by omega)]; exact hr2.2.2.1 hp
      · rw [← hself _ (by omega)]; exact hr2.2.2.2
    rw [getD_rev _ (by rw [hz.1]; omega), hz.1, hz.2.2 _ _ hr3 (xs.length - 1 - k) (by omega) (by omega)]
    unfold fill
    rw [if_pos (by omega), if_pos (by omega), List.length_reverse, if_pos he1, if_pos hs0, getD_rev _ (by omega),
      getD_rev _ (by omega)]
    rw [show xs.length - 1 - s + 1 = xs.length - 1 - (s - 1) by omega, show xs.length - 1 - (e + 1) = xs.length - 1 - e - 1 by omega]
    generalize xs.getD (xs.length - 1 - (s - 1)) 0 = a
    generalize xs.getD (xs.length - 1 - e - 1) 0 = b
    have c1 : ∀ i, i ≤ xs.length - 1 → ((xs.length - 1 - i : ℕ) : K) = (xs.length : K) - 1 - i := by
      intro i hi
      rw [Nat.cast_sub hi, Nat.cast_sub (by omega), Nat.cast_one]
    rw [c1 k (by omega), c1 e (by omega), c1 s (by omega)]
    have hse : (s : K) ≤ e := by exact_mod_cast hr.1
    have hne : (e : K) - s + 2 ≠ 0 := by
      have : (0 : K) < (e : K) - s + 2 := by linarith
      exact this.ne'
    have e1 : (xs.length : K) - 1 - s - ((xs.length : K) - 1 - e) + 2 = (e : K) - s + 2 := by ring
    have e2 : (xs.length : K) - 1 - k - ((xs.length : K) - 1 - e) + 1 = (e : K) - k + 1 := by ring
    rw [e1, e2]
    field_simp
    ring

theorem fill_affine (a b : K) (xs : List K) {sp : List Nat} (hin : ∀ i ∈ sp, i < xs.length) {s e : Nat} (hr : IsRun sp s e) (k : Nat) :
    fill (xs.map fun x => a * x + b) s e k = a * fill xs s e k + b := by
  have he := hin e (hr.2.1 e hr.1 (le_refl _))
  have hse := hr.1
  unfold fill
  rw [List.length_map]
  by_cases h1 : e + 1 < xs.length
  · rw [if_pos h1, if_pos h1, getD_map0 _ _ h1]
    by_cases h0 : 0 < s
    · rw [if_pos h0, if_pos h0, getD_map0 _ _ (by omega)]; ring
    · rw [if_neg h0, if_neg h0]
  · rw [if_neg h1, if_neg h1]
    have hn : (xs.length : K) ≠ 0 := by
      have : xs.length ≠ 0 := by omega
      exact_mod_cast this
    have : (xs.map fun x => a * x + b).sum = a * xs.sum + xs.length * b := by
      clear * -
      induction xs with
      | nil => simp
      | cons x t ih => simp [ih]; ring
    rw [this]; field_simp

theorem filled_affine (a b : K) {xs zs : List K} {sp : List Nat} (hin : ∀ i ∈ sp, i < xs.length) (hz : Filled xs sp zs) :
    Filled (xs.map fun x => a * x + b) sp (zs.map fun x => a * x + b) := by
  refine ⟨by simp [hz.1], fun k hk => ?_, fun s e hr k k1 k2 => ?_⟩
  · by_cases hkn : k < xs.length
    · rw [getD_map0 _ _ (by rw [hz.1]; exact hkn), getD_map0 _ _ hkn, hz.2.1 k hk]
    · rw [List.getD_eq_getElem?_getD, List.getD_eq_getElem?_getD, List.getElem?_eq_none (by simp [hz.1]; omega),
        List.getElem?_eq_none (by simp; omega)]
  · have hkn : k < xs.length := hin k (hr.2.1 k k1 k2)
    rw [getD_map0 _ _ (by rw [hz.1]; exact hkn), hz.2.2 s e hr k k1 k2, fill_affine a b xs hin hr]

end LinearLaws

open LinearLaws

/-! ## C170 -/

/-- **C170.** when the last sample is not a spike, the values recorded at the spikes have no influence on the result -/
theorem C170_spike_values (xs ys : List K) (sp : List Nat) (hne : sp ≠ []) (hs : sp.Pairwise (· < ·))
    (hin : ∀ i ∈ sp, i < xs.length) (hl : xs.length = ys.length) (hlast : xs.length - 1 ∉ sp)
    (h : ∀ k, k ∉ sp → xs.getD k 0 = ys.getD k 0) (d : Int) :
    linearInterpolation ⟨1, false, xs.map fin⟩ (sp.map (fun i : Nat => (i : Int))) d =
      linearInterpolation ⟨1, false, ys.map fin⟩ (sp.map (fun i : Nat => (i : Int))) d := by
  obtain ⟨zs, hz, -, ez⟩ := filled xs sp hne hs hin
  obtain ⟨ws, hw, -, ew⟩ := filled ys sp hne hs (by rw [← hl]; exact hin)
  rw [ez, ew, filled_unique hs hz hw hl h (fun s e hr k _ _ => fill_congr hl h hlast hin hr k)]

/-- **C170.** when the last sample is a spike its recorded value leaks into the result -/
theorem C170_leak : ∃ xs ys : List ℚ, ∃ zs ws : List (Fl ℚ), xs.length = ys.length ∧
    (∀ k, k ∉ [3] → xs.getD k 0 = ys.getD k 0) ∧
    linearInterpolation ⟨1, false, xs.map fin⟩ [3] 4 = .ok zs ∧ linearInterpolation ⟨1, false, ys.map fin⟩ [3] 4 = .ok ws ∧
    zs.getD 3 nan = fin 26 ∧ ws.getD 3 nan = fin 251 := by
  refine ⟨[1, 2, 1, 100], [1, 2, 1, 1000], [fin 1, fin 2, fin 1, fin 26], [fin 1, fin 2, fin 1, fin 251], rfl, ?_, by decide +kernel,
    by decide +kernel, rfl, rfl⟩
  intro k hk
  rcases k with _ | _ | _ | _ | k <;> simp at hk ⊢

/-- **C170.** repetition: when the last sample is not a spike, a second pass may still change the result (the neighbours have been
rounded), a third pass never does; before rounding the first pass is already final. -/
theorem C170_idempotent (xs : List K) (sp : List Nat) (hne : sp ≠ []) (hs : sp.Pairwise (· < ·))
    (hin : ∀ i ∈ sp, i < xs.length) (hlast : xs.length - 1 ∉ sp) (d : Int) :
    ∃ raw one two : List K,
      linearInterpolationRaw ⟨1, false, xs.map fin⟩ (sp.map (fun i : Nat => (i : Int))) = .ok (raw.map fin) ∧
      linearInterpolationRaw ⟨1, false, raw.map fin⟩ (sp.map (fun i : Nat => (i : Int))) = .ok (raw.map fin) ∧
      linearInterpolation ⟨1, false, xs.map fin⟩ (sp.map (fun i : Nat => (i : Int))) d = .ok (one.map fin) ∧
      linearInterpolation ⟨1, false, one.map fin⟩ (sp.map (fun i : Nat => (i : Int))) d = .ok (two.map fin) ∧
      linearInterpolation ⟨1, false, two.map fin⟩ (sp.map (fun i : Nat => (i : Int))) d = .ok (two.map fin) := by
  obtain ⟨zs, hz, rz, ez⟩ := filled xs sp hne hs hin
  have hzz := filled_idem hin hlast hz
  obtain ⟨zs', hz', rz', -⟩ := filled zs sp hne hs (by rw [hz.1]; exact hin)
  have e1 : zs' = zs := filled_unique hs hz' hzz rfl (fun _ _ => rfl) (fun _ _ _ _ _ _ => rfl)
  set one := zs.map fun z => aroundK z d with ho
  have hol : one.length = xs.length := by simp [ho, hz.1]
  obtain ⟨w, hw, -, ew⟩ := filled one sp hne hs (by rw [hol]; exact hin)
  set two := w.map fun z => aroundK z d with ht
  have htl : two.length = one.length := by simp [ht, hw.1]
  obtain ⟨w', hw', -, ew'⟩ := filled two sp hne hs (by rw [htl, hol]; exact hin)
  have hoff : ∀ k, k ∉ sp → two.getD k 0 = one.getD k 0 := by
    intro k hk
    by_cases hkn : k < xs.length
    · rw [ht, getD_map0 _ _ (by rw [hw.1, hol]; exact hkn), hw.2.1 k hk, ho, getD_map0 _ _ (by rw [hz.1]; exact hkn), aroundK_idem]
    · rw [List.getD_eq_getElem?_getD, List.getD_eq_getElem?_getD, List.getElem?_eq_none (by omega), List.getElem?_eq_none (by omega)]
  have e2 : w' = w := filled_unique hs hw' hw htl hoff
    (fun s e hr k _ _ => fill_congr htl hoff (by rw [htl, hol]; exact hlast) (by rw [htl, hol]; exact hin) hr k)
  refine ⟨zs, one, two, rz, by rw [rz', e1], by rw [ez, ho, List.map_map]; rfl, by rw [ew, ht, List.map_map]; rfl, ?_⟩
  rw [ew', e2, ht, List.map_map]; rfl

/-- **C170.** the second pass can change the result -/
theorem C170_second_pass :
    linearInterpolation ⟨1, false, [fin (3 / 2), fin 9, fin (7 / 2 : ℚ)]⟩ [1] 0 = .ok [fin 2, fin 2, fin 4] ∧
    linearInterpolation ⟨1, false, [fin 2, fin 2, fin (4 : ℚ)]⟩ [1] 0 = .ok [fin 2, fin 3, fin 4] := by
  constructor <;> decide +kernel

/-! ## C171 -/

/-- **C171.** with both end samples valid, interpolating the time-reversed series gives the time-reversed result -/
theorem C171_reversal (xs : List K) (sp : List Nat) (hne : sp ≠ []) (hs : sp.Pairwise (· < ·))
    (hin : ∀ i ∈ sp, i < xs.length) (hlast : xs.length - 1 ∉ sp) (h0 : 0 ∉ sp) (d : Int) :
    ∃ zs : List (Fl K), linearInterpolation ⟨1, false, xs.map fin⟩ (sp.map (fun i : Nat => (i : Int))) d = .ok zs ∧
      linearInterpolation ⟨1, false, xs.reverse.map fin⟩ ((mirror xs.length sp).map (fun i : Nat => (i : Int))) d = .ok zs.reverse := by
  obtain ⟨zs, hz, -, ez⟩ := filled xs sp hne hs hin
  have hm := mirror_sorted hin hs
  have hmne : mirror xs.length sp ≠ [] := by
    obtain ⟨a, t, rfl⟩ := List.exists_cons_of_ne_nil hne
    simp [mirror]
  obtain ⟨ws, hw, -, ew⟩ := filled xs.reverse (mirror xs.length sp) hmne hm (by rw [List.length_reverse]; exact mirror_lt hin)
  have e : ws = zs.reverse := filled_unique hm hw (filled_rev hin hlast h0 hz) rfl (fun _ _ => rfl) (fun _ _ _ _ _ _ => rfl)
  refine ⟨_, ez d, ?_⟩
  rw [ew, e, List.map_reverse]

/-- **C171.** at the ends the two directions are treated differently -/
theorem C171_ends : linearInterpolation ⟨1, false, [fin 9, fin 1, fin (2 : ℚ)]⟩ [0] 4 = .ok [fin 1, fin 1, fin 2] ∧
    linearInterpolation ⟨1, false, [fin 2, fin 1, fin (9 : ℚ)]⟩ [2] 4 = .ok [fin 2, fin 1, fin 4] := by
  constructor <;> decide +kernel

/-- **C171.** change of units: before rounding, interpolation commutes with every map `a x + b` of the samples; with rounding it
commutes with the sign flip and with even multiples of the rounding step -/
theorem C171_affine (xs : List K) (sp : List Nat) (hne : sp ≠ []) (hs : sp.Pairwise (· < ·)) (hin : ∀ i ∈ sp, i < xs.length) :
    ∃ zs : List K, linearInterpolationRaw ⟨1, false, xs.map fin⟩ (sp.map (fun i : Nat => (i : Int))) = .ok (zs.map fin) ∧
      (∀ a b : K, linearInterpolationRaw ⟨1, false, (xs.map fun x => a * x + b).map fin⟩ (sp.map (fun i : Nat => (i : Int))) =
        .ok ((zs.map fun x => a * x + b).map fin)) ∧
      (∀ d, ∃ os : List K, linearInterpolation ⟨1, false, xs.map fin⟩ (sp.map (fun i : Nat => (i : Int))) d = .ok (os.map fin) ∧
        linearInterpolation ⟨1, false, (xs.map fun x => -x).map fin⟩ (sp.map (fun i : Nat => (i : Int))) d =
          .ok ((os.map fun x => -x).map fin) ∧
        ∀ (o : K) (m : ℤ), o * 10 ^ d = (2 * m : ℤ) →
          linearInterpolation ⟨1, false, (xs.map fun x => x + o).map fin⟩ (sp.map (fun i : Nat => (i : Int))) d =
            .ok ((os.map fun x => x + o).map fin)) := by
  obtain ⟨zs, hz, rz, ez⟩ := filled xs sp hne hs hin
  have key : ∀ a b : K, linearInterpolationRaw ⟨1, false, (xs.map fun x => a * x + b).map fin⟩ (sp.map (fun i : Nat => (i : Int))) =
        .ok ((zs.map fun x => a * x + b).map fin) ∧ ∀ d,
      linearInterpolation ⟨1, false, (xs.map fun x => a * x + b).map fin⟩ (sp.map (fun i : Nat => (i : Int))) d =
        .ok (zs.map fun x => fin (aroundK (a * x + b) d)) := by
    intro a b
    obtain ⟨ws, hw, rw', ew⟩ := filled (xs.map fun x => a * x + b) sp hne hs (by simpa using hin)
    have e : ws = zs.map fun x => a * x + b :=
      filled_unique hs hw (filled_affine a b hin hz) rfl (fun _ _ => rfl) (fun _ _ _ _ _ _ => rfl)
    refine ⟨by rw [rw', e], fun d => ?_⟩
    rw [ew, e, List.map_map]; rfl
  refine ⟨zs, rz, fun a b => (key a b).1, fun d => ⟨zs.map fun z => aroundK z d, by rw [ez, List.map_map]; rfl, ?_, fun o m ho => ?_⟩⟩
  · have := (key (-1) 0).2 d
    rw [show (fun x : K => -1 * x + 0) = fun x => -x from funext fun x => by ring] at this
    rw [this, List.map_map, List.map_map]
    congr 1
    apply List.map_congr_left
    intro x _
    simp only [Function.comp]
    rw [← aroundK_neg, show -1 * x + 0 = -x by ring]
  · have := (key 1 o).2 d
    rw [show (fun x : K => 1 * x + o) = fun x => x + o from funext fun x => by ring] at this
    rw [this, List.map_map, List.map_map]
    congr 1
    apply List.map_congr_left
    intro x _
    simp only [Function.comp]
    rw [one_mul, aroundK_add_even x d m o ho]

/-- the hypotheses of C170 and C171 hold for an ordinary series: spikes 1, 2 and 4 of six samples -/
example : ([1, 2, 4] : List Nat) ≠ [] ∧ ([1, 2, 4] : List Nat).Pairwise (· < ·) ∧
    (∀ i ∈ [1, 2, 4], i < ([1, 50, 50, 4, 10, 9] : List ℚ).length) ∧ ([1, 50, 50, 4, 10, 9] : List ℚ).length - 1 ∉ [1, 2, 4] ∧
    0 ∉ [1, 2, 4] := by decide

end Proadv.Props
