import Verif.Props.PipelineExact

/-!
# C145: the acceleration example looks in one direction a round and starts with the downward one
-/

set_option linter.unusedSectionVars false

namespace Proadv.Props

open Proadv Descriptive Detect Spherical Replace KernelDetect Pipeline Fl

theorem accDet_eq (tag : Int) (xs : List ℝ) (h : xs ≠ []) : accDet tag (fins xs : List (Fl ℝ)) =
    acceleration ⟨1, false, fins xs⟩ (fin 100) tag (fin 980) (fin (3 / 2)) (fin 1) := by
  unfold accDet
  rw [centred_fins xs h]
  have e := C61_offset false false xs h (-Spec.avg xs) 100 980 (3 / 2) 1 (by norm_num) tag
  rw [← e]
  simp only [bind, Except.bind, lit_eq]
  norm_num [Arr.flt]

/-- downward events of the acceleration example -/
theorem accDet_down (xs : List ℝ) (h : xs ≠ []) : ∃ r, accDet 2 (fins xs : List (Fl ℝ)) = .ok r ∧ r.Pairwise (· < ·) ∧
    ∀ i, i ∈ r ↔ DownEvent xs 100 1470 (Spec.avg xs - √(Spec.var xs)) i := by
  rw [accDet_eq 2 xs h]
  obtain ⟨r, h1, h2, h3⟩ := C60_exact_down false xs h 100 980 (3 / 2) 1 (by norm_num)
  rw [show (3 / 2 : ℝ) * 980 = 1470 by norm_num, one_mul] at h3
  exact ⟨r, h1, h2, h3⟩

/-- upward events of the acceleration example -/
theorem accDet_up (xs : List ℝ) (h : xs ≠ []) : ∃ r, accDet 1 (fins xs : List (Fl ℝ)) = .ok r ∧ r.Pairwise (· < ·) ∧
    ∀ i, i ∈ r ↔ UpEvent xs 100 1470 (Spec.avg xs + √(Spec.var xs)) i := by
  rw [accDet_eq 1 xs h]
  obtain ⟨r, h1, h2, h3⟩ := C60_exact_up false xs h 100 980 (3 / 2) 1 (by norm_num)
  rw [show (3 / 2 : ℝ) * 980 = 1470 by norm_num, one_mul] at h3
  exact ⟨r, h1, h2, h3⟩

/-- **C145** data in which no component has a sample that both falls faster than 1.5 g and lies more than one standard
deviation below the mean are returned untouched after the first round, whatever upward spikes they contain. -/
theorem C145_one_direction (xs ys zs : List ℝ) (hx : xs ≠ []) (hy : ys ≠ []) (hz : zs ≠ [])
    (h : ∀ l ∈ [xs, ys, zs], ∀ i, ¬ DownEvent l 100 1470 (Spec.avg l - √(Spec.var l)) i) :
    accelerationExample (vel xs ys zs) = .ok ⟨vel xs ys zs, 0, true⟩ := by
  have key : ∀ l ∈ [xs, ys, zs], l ≠ [] → accDet 2 (fins l : List (Fl ℝ)) = .ok [] := by
    intro l hl hne
    obtain ⟨r, h1, -, h3⟩ := accDet_down l hne
    rw [h1, List.eq_nil_iff_forall_not_mem.mpr (fun i hi => h l hl i ((h3 i).mp hi))]
  exact (C143_clean _).2.2.1 ⟨key xs (by simp) hx, key ys (by simp) hy, key zs (by simp) hz⟩

/-- specification: `n` samples at the level `c` except a spike of height `h` at position `p` -/
def bump (n p : Nat) (c h : ℝ) : List ℝ := (List.replicate n c).set p (c + h)

theorem bump_get (n p : Nat) (c h : ℝ) (i : Nat) :
    (bump n p c h)[i]? = if i < n then some (if i = p then c + h else c) else none := by
  unfold bump
  rw [List.getElem?_set]
  simp only [List.length_replicate, List.getElem?_replicate]
  split_ifs <;> simp_all

theorem bump_length (n p : Nat) (c h : ℝ) : (bump n p c h).length = n := by simp [bump]

theorem spike_shift (n p : Nat) (c h : ℝ) : bump n p c h = (bump n p 0 h).map (fun x => x + c) := by
  unfold bump
  rw [List.map_set, List.map_replicate, zero_add, zero_add, add_comm]

theorem sum_set_zero (n p : Nat) (hp : p < n) (a : ℝ) : ((List.replicate n (0 : ℝ)).set p a).sum = a := by
  rw [List.sum_set]
  simp [hp]

theorem spike_stats (n p : Nat) (hp : p < n) (h : ℝ) : Spec.avg (bump n p 0 h) = h / n ∧
    Spec.var (bump n p 0 h) = h ^ 2 * (n - 1) / n ^ 2 := by
  have ha : Spec.avg (bump n p 0 h) = h / n := by
    unfold Spec.avg
    rw [bump_length, bump, sum_set_zero n p hp, zero_add]
  have hne : bump n p 0 h ≠ [] := ne_of_length (bump_length n p 0 h) (by omega)
  have hn : (n : ℝ) ≠ 0 := by exact_mod_cast (by omega : n ≠ 0)
  refine ⟨ha, ?_⟩
  rw [Spec.var_eq_sub hne, ha]
  have : Spec.avg ((bump n p 0 h).map (fun x => x ^ 2)) = h ^ 2 / n := by
    unfold Spec.avg
    rw [List.length_map, bump_length, bump, List.map_set, List.map_replicate]
    rw [show (0 : ℝ) ^ 2 = 0 by norm_num, sum_set_zero n p hp, zero_add]
  rw [this]
  field_simp

theorem accDet_shift (tag : Int) (xs : List ℝ) (h : xs ≠ []) (o : ℝ) :
    accDet tag (fins (xs.map (fun x => x + o)) : List (Fl ℝ)) = accDet tag (fins xs) := by
  rw [accDet_eq tag xs h, accDet_eq tag _ (by simpa using h)]
  exact C61_offset false false xs h o 100 980 (3 / 2) 1 (by norm_num) tag

theorem accDet_neg (xs : List ℝ) (h : xs ≠ []) :
    accDet 2 (fins xs : List (Fl ℝ)) = accDet 1 (fins (xs.map (fun x => -x))) := by
  rw [accDet_eq 2 xs h, accDet_eq 1 _ (by simpa using h)]
  exact C61_symmetry false false xs h 100 980 (3 / 2) 1 (by norm_num)

theorem accDet_const (tag : Int) (ht : tag = 1 ∨ tag = 2) (n : Nat) (hn : 0 < n) (c : ℝ) :
    accDet tag (fins (List.replicate n c) : List (Fl ℝ)) = .ok [] := by
  rw [accDet_eq tag _ (by simpa using (by omega : n ≠ 0))]
  exact C61_constant false c n hn _ _ _ _ tag ⟨1, rfl⟩ ht

/-- an upward spike is an upward event and no downward one -/
theorem bump_det (n p : Nat) (hn : 3 ≤ n) (hp : 0 < p) (hpn : p < n) (c h : ℝ) (hh : 14.7 < h) :
    accDet 1 (fins (bump n p c h) : List (Fl ℝ)) = .ok [p] ∧ accDet 2 (fins (bump n p c h) : List (Fl ℝ)) = .ok [] := by
  have hne : bump n p 0 h ≠ [] := ne_of_length (bump_length n p 0 h) (by omega)
  have h0 : 0 < h := by linarith [show (0 : ℝ) < 14.7 by norm_num]
  obtain ⟨ha, hv⟩ := spike_stats n p hpn h
  have hn3 : (3 : ℝ) ≤ n := by exact_mod_cast hn
  set s := √((n : ℝ) - 1) with hs
  have hs2 : s ^ 2 = (n : ℝ) - 1 := Real.sq_sqrt (by linarith)
  have hs1 : 1 < s := by
    by_contra hc
    have : s ^ 2 ≤ 1 := by nlinarith [Real.sqrt_nonneg ((n : ℝ) - 1)]
    linarith
  have hsd : √(Spec.var (bump n p 0 h)) = h * s / n := by
    rw [hv, ← hs2, show h ^ 2 * s ^ 2 / (n : ℝ) ^ 2 = (h * s / n) ^ 2 by ring]
    exact Real.sqrt_sq (by positivity)
  rw [spike_shift, accDet_shift 1 _ hne, accDet_shift 2 _ hne]
  constructor
  · obtain ⟨r, h1, h2, h3⟩ := accDet_up _ hne
    rw [h1]
    congr 1
    apply sorted_ext h2 (List.pairwise_singleton _ _)
    intro i
    rw [h3, ha, hsd, List.mem_singleton]
    unfold UpEvent
    simp only [bump_get, zero_add]
    constructor
    · rintro ⟨x, y, -, e1, -, -, e4⟩
      by_contra hc
      split_ifs at e1
      simp only [Option.some.injEq] at e1
      subst e1
      have : 0 < h / (n : ℝ) + h * s / n := by positivity
      linarith
    · rintro rfl
      refine ⟨h, 0, hp, by simp [hpn], ?_, by linarith, ?_⟩
      · rw [if_pos (by omega), if_neg (by omega)]
      · rw [← add_div, div_lt_iff₀ (by linarith)]
        have hsn : s < (n : ℝ) - 1 := by nlinarith
        nlinarith
  · obtain ⟨r, h1, h2, h3⟩ := accDet_down _ hne
    rw [h1]
    congr 1
    rw [List.eq_nil_iff_forall_not_mem]
    intro i hi
    rw [h3, ha, hsd] at hi
    obtain ⟨x, y, -, e1, -, -, e4⟩ := hi
    rw [bump_get] at e1
    have hx : 0 ≤ x := by
      split_ifs at e1 <;> simp only [Option.some.injEq, zero_add] at e1 <;> rw [← e1]
      exact h0.le
    have : h / (n : ℝ) - h * s / n ≤ 0 := by
      rw [← sub_div, div_nonpos_iff]
      right
      exact ⟨by nlinarith, by linarith⟩
    linarith

/-- **C145** an upward spike of any height above 14.7 cm/s on an otherwise constant series is flagged by the upward test
(tag 1), yet the example returns the data untouched: its first round looks downward, finds nothing and ends the loop. -/
theorem C145_upward (n p : Nat) (hn : 3 ≤ n) (hp : 0 < p) (hpn : p < n) (c h a b : ℝ) (hh : 14.7 < h) :
    accDet 1 (fins (bump n p c h) : List (Fl ℝ)) = .ok [p] ∧
    accelerationExample (vel (bump n p c h) (List.replicate n a) (List.replicate n b)) =
      .ok ⟨vel (bump n p c h) (List.replicate n a) (List.replicate n b), 0, true⟩ := by
  obtain ⟨h1, h2⟩ := bump_det n p hn hp hpn c h hh
  exact ⟨h1, (C143_clean _).2.2.1 ⟨h2, accDet_const 2 (Or.inr rfl) n (by omega) a,
    accDet_const 2 (Or.inr rfl) n (by omega) b⟩⟩

/-- a single interior spike over a constant level is replaced by the level -/
theorem interp3_flat (n p : Nat) (hp : 0 < p) (hpn : p + 1 < n) (c : ℝ) (xs : List ℝ) (hl : xs.length = n)
    (hx : ∀ k, k < n → k ≠ p → xs[k]? = some c) :
    interp3 (fins xs) [(p : Int)] = .ok (fins (List.replicate n (aroundK c 3)) : List (Fl ℝ)) := by
  have hs : [p].Pairwise (· < ·) := List.pairwise_singleton _ _
  have hin : ∀ i ∈ [p], i < xs.length := by intro i hi; rw [List.mem_singleton.mp hi]; omega
  have hr : IsRun [p] p p := by
    refine ⟨le_refl _, ?_, ?_, by simp⟩
    · intro m h1 h2; rw [List.mem_singleton]; omega
    · intro _; rw [List.mem_singleton]; omega
  obtain ⟨out, h1, h2⟩ := C49_chord xs [p] hs hin 3 p p hr hp (by omega)
  obtain ⟨h3, h4⟩ := C44_linear (fins xs : List (Fl ℝ)) [p] hs (by simpa [fins] using hin) false 3 out h1
  have e : interp3 (fins xs) [(p : Int)] = .ok out := h1
  rw [e]
  congr 1
  apply List.ext_getElem?
  intro k
  unfold fins
  rw [List.getElem?_map, List.getElem?_replicate]
  by_cases hk : k = p
  · subst hk
    rw [h2 k (le_refl _) (le_refl _), if_pos (by omega)]
    have e1 : xs.getD (k - 1) 0 = c := by rw [List.getD_eq_getElem?_getD, hx (k - 1) (by omega) (by omega)]; rfl
    have e2 : xs.getD (k + 1) 0 = c := by rw [List.getD_eq_getElem?_getD, hx (k + 1) (by omega) (by omega)]; rfl
    rw [e1, e2, sub_self, zero_mul, zero_div, add_zero]; rfl
  · rw [h4 k (by simpa using hk)]
    by_cases hkn : k < n
    · rw [if_pos hkn]
      unfold fins
      rw [List.getElem?_map, hx k hkn hk]; rfl
    · rw [if_neg hkn]
      unfold fins
      rw [List.getElem?_map, List.getElem?_eq_none (by omega)]; rfl

/-- **C145** the mirror image, a downward spike of the same size away from the ends, is removed in one round, and the
constant components are rounded to three decimals: the example does not commute with a change of sign. -/
theorem C145_downward (n p : Nat) (hp : 0 < p) (hpn : p + 1 < n) (c h a b : ℝ) (hh : 14.7 < h) :
    accelerationExample (vel (bump n p c (-h)) (List.replicate n a) (List.replicate n b)) =
      .ok ⟨vel (List.replicate n (aroundK c 3)) (List.replicate n (aroundK a 3)) (List.replicate n (aroundK b 3)), 1, true⟩ := by
  have hn : 3 ≤ n := by omega
  have hne : bump n p c (-h) ≠ [] := ne_of_length (bump_length n p c (-h)) (by omega)
  have hm : (bump n p c (-h)).map (fun x => -x) = bump n p (-c) h := by
    unfold bump
    rw [List.map_set, List.map_replicate]
    congr 1; ring
  have hd : accDet 2 (fins (bump n p c (-h)) : List (Fl ℝ)) = .ok [p] := by
    rw [accDet_neg _ hne, hm]; exact (bump_det n p hn hp (by omega) (-c) h hh).1
  have hc : ∀ tag, tag = 1 ∨ tag = 2 → ∀ k : ℝ, accDet tag (fins (List.replicate n k) : List (Fl ℝ)) = .ok [] :=
    fun tag ht k => accDet_const tag ht n (by omega) k
  have hf : findAcceleration 0 (vel (bump n p c (-h)) (List.replicate n a) (List.replicate n b)) = .ok [p] := by
    rw [findAcceleration_eq]
    refine (union3_ok _ _ _).mpr ⟨[p], [], [], hd, hc 2 (Or.inr rfl) a, hc 2 (Or.inr rfl) b, List.pairwise_singleton _ _, by simp⟩
  have rep : ∀ k : ℝ, interp3 (fins (List.replicate n k)) [(p : Int)] = .ok (fins (List.replicate n (aroundK k 3)) : List (Fl ℝ)) :=
    fun k => interp3_flat n p hp hpn k _ (by simp) (fun i hi _ => by simp [hi])
  have rx : interp3 (fins (bump n p c (-h))) [(p : Int)] = .ok (fins (List.replicate n (aroundK c 3)) : List (Fl ℝ)) :=
    interp3_flat n p hp hpn c _ (bump_length _ _ _ _) (fun i hi hip => by rw [bump_get, if_pos hi, if_neg hip])
  unfold accelerationExample
  rw [loop]
  simp only [hf, bind, Except.bind]
  rw [if_neg (by simp)]
  simp only [vel, List.map_cons, List.map_nil, rx, rep]
  refine loop_quiet _ _ 8 1 _ ?_
  rw [findAcceleration_eq]
  exact (union3_quiet _ _).mpr ⟨hc 1 (Or.inl rfl) _, hc 1 (Or.inl rfl) _, hc 1 (Or.inl rfl) _⟩

/-- the opposite direction: a downward spike is a downward event and no upward one -/
theorem bump_det_neg (n p : Nat) (hn : 3 ≤ n) (hp : 0 < p) (hpn : p < n) (c h : ℝ) (hh : 14.7 < h) :
    accDet 2 (fins (bump n p c (-h)) : List (Fl ℝ)) = .ok [p] ∧ accDet 1 (fins (bump n p c (-h)) : List (Fl ℝ)) = .ok [] := by
  have hm : ∀ c h : ℝ, (bump n p c h).map (fun x => -x) = bump n p (-c) (-h) := by
    intro c h
    unfold bump
    rw [List.map_set, List.map_replicate]
    congr 1; ring
  have hne : ∀ c h : ℝ, bump n p c h ≠ [] := fun c h => ne_of_length (bump_length n p c h) (by omega)
  obtain ⟨h1, h2⟩ := bump_det n p hn hp hpn (-c) h hh
  refine ⟨?_, ?_⟩
  · rw [accDet_neg _ (hne _ _), hm, neg_neg]; exact h1
  · rw [accDet_neg _ (hne _ _), hm, neg_neg] at h2; exact h2

/-- **C145** the loop also ends while the other direction still finds spikes.  Here the first round removes the large
downward spike, the second looks upward, finds nothing and ends the loop; the second downward spike, hidden before by the
spread of the first, stays although the downward test flags it in the returned data. -/
theorem C145_stops_early : ∃ (xs : List ℝ) (o : Out (Fl ℝ)),
    accelerationExample (vel xs (List.replicate 8 0) (List.replicate 8 0)) = .ok o ∧ o.rounds = 1 ∧ o.broke = true ∧
      accDet 2 o.data.x = .ok [5] ∧ accelerationExample o.data ≠ .ok ⟨o.data, 0, true⟩ := by
  set xs : List ℝ := [0, -100, 0, 0, 0, -20, 0, 0] with hxs
  have hne : xs ≠ [] := by simp [hxs]
  have ha : Spec.avg xs = -15 := by simp [Spec.avg, hxs]; norm_num
  have hv : Spec.var xs = 1075 := by
    rw [Spec.var_eq_sub hne, ha]; simp [Spec.avg, hxs]; norm_num
  have s1 : 32 ≤ √(1075 : ℝ) := Real.le_sqrt_of_sq_le (by norm_num)
  have s2 : √(1075 : ℝ) ≤ 33 := Real.sqrt_le_iff.mpr ⟨by norm_num, by norm_num⟩
  have hd : accDet 2 (fins xs : List (Fl ℝ)) = .ok [1] := by
    obtain ⟨r, h1, h2, h3⟩ := accDet_down xs hne
    rw [h1]
    congr 1
    apply sorted_ext h2 (List.pairwise_singleton _ _)
    intro i
    rw [h3, ha, hv, List.mem_singleton]
    constructor
    · rintro ⟨x, y, -, e1, -, -, e4⟩
      have hi : i < 8 := by
        by_contra hc
        rw [List.getElem?_eq_none (by simp [hxs]; omega)] at e1; cases e1
      interval_cases i <;> simp [hxs] at e1 <;> first | rfl | (exfalso; subst e1; linarith)
    · rintro rfl
      exact ⟨-100, 0, by omega, rfl, rfl, by norm_num, by linarith⟩
  have hc : ∀ tag, tag = 1 ∨ tag = 2 → accDet tag (fins (List.replicate 8 0) : List (Fl ℝ)) = .ok [] :=
    fun tag ht => accDet_const tag ht 8 (by omega) 0
  have hf : findAcceleration 0 (vel xs (List.replicate 8 0) (List.replicate 8 0)) = .ok [1] := by
    rw [findAcceleration_eq]
    exact (union3_ok _ _ _).mpr ⟨[1], [], [], hd, hc 2 (Or.inr rfl), hc 2 (Or.inr rfl), List.pairwise_singleton _ _, by simp⟩
  have r0 : aroundK (0 : ℝ) 3 = 0 := aroundK_zero 3
  have r20 : aroundK (-20 : ℝ) 3 = -20 := by
    unfold aroundK
    rw [show (-20 : ℝ) * 10 ^ (3 : ℤ) = ((-20000 : ℤ) : ℝ) by norm_num, rint_int]; norm_num
  have rz : interp3 (fins (List.replicate 8 0)) [((1 : Nat) : Int)] = .ok (fins (List.replicate 8 0) : List (Fl ℝ)) := by
    have := interp3_flat 8 1 (by omega) (by omega) 0 (List.replicate 8 0) (by simp) (fun i hi _ => by rw [List.getElem?_replicate, if_pos hi])
    rwa [r0] at this
  have rx : interp3 (fins xs) [((1 : Nat) : Int)] = .ok (fins (bump 8 5 0 (-20)) : List (Fl ℝ)) := by
    have hs : [1].Pairwise (· < ·) := List.pairwise_singleton _ _
    have hin : ∀ i ∈ [1], i < xs.length := by simp [hxs]
    have hr : IsRun [1] 1 1 := by
      refine ⟨le_refl _, ?_, ?_, by simp⟩
      · intro m h1 h2; rw [List.mem_singleton]; omega
      · simp
    obtain ⟨out, h1, h2⟩ := C49_chord xs [1] hs hin 3 1 1 hr (by omega) (by simp [hxs])
    obtain ⟨h3, h4⟩ := C44_linear (fins xs : List (Fl ℝ)) [1] hs (by simpa [fins] using hin) false 3 out h1
    have e : interp3 (fins xs) [((1 : Nat) : Int)] = .ok out := h1
    rw [e]
    congr 1
    apply List.ext_getElem?
    intro k
    unfold fins
    rw [List.getElem?_map, bump_get]
    by_cases hk : k < 8
    · by_cases hk1 : k = 1
      · subst hk1
        rw [h2 1 (le_refl _) (le_refl _)]
        simp [hxs, r0]
      · rw [h4 k (by simpa using hk1)]
        interval_cases k <;> simp_all [fins]
    · rw [if_neg hk, List.getElem?_eq_none (by rw [h3]; simp [fins, hxs]; omega)]; rfl
  obtain ⟨d2, d1⟩ := bump_det_neg 8 5 (by omega) (by omega) (by omega) 0 20 (by norm_num)
  refine ⟨xs, ⟨vel (bump 8 5 0 (-20)) (List.replicate 8 0) (List.replicate 8 0), 1, true⟩, ?_, rfl, rfl, d2, ?_⟩
  · unfold accelerationExample
    rw [loop]
    simp only [hf, bind, Except.bind]
    rw [if_neg (by simp)]
    simp only [vel, List.map_cons, List.map_nil, rx, rz]
    refine loop_quiet _ _ 8 1 _ ?_
    rw [findAcceleration_eq]
    exact (union3_quiet _ _).mpr ⟨d1, hc 1 (Or.inl rfl), hc 1 (Or.inl rfl)⟩
  · intro h
    have := (C143_acceleration _ _ h).2.2.2.1 rfl
    have h0 := this.1
    simp only [vel] at h0
    rw [if_pos (by norm_num)] at h0
    rw [d2] at h0
    cases h0

end Proadv.Props
