import Verif.Props.PipelineSpike

/-!
# C146, C148: range, errors and symmetries of the despiking programs
-/

set_option linter.unusedSectionVars false

namespace Proadv.Props

open Proadv Descriptive Detect Spherical Replace KernelDetect Pipeline Fl

/-! ## `mean_value` on finite data -/

/-- specification: the samples at the spikes become the mean of all samples -/
noncomputable def levelled (sp : List Nat) (xs : List ℝ) : List ℝ :=
  (List.range xs.length).map (fun k => if k ∈ sp then Spec.avg xs else xs.getD k 0)

theorem meanValue_fins (n : Nat) (xs : List ℝ) (hx : xs.length = n) (sp : List Nat) (hn : 1 ≤ n) (hp : Positions n sp) :
    meanValue (Arr.flt (fins xs)) (sp.map (fun i : Nat => (i : Int))) = .ok (fins (levelled sp xs) : List (Fl ℝ)) := by
  subst hx
  have hne : xs ≠ [] := ne_of_length rfl hn
  have hl : (fins xs : List (Fl ℝ)).length = xs.length := by simp [fins]
  obtain ⟨out, ho⟩ := (C48_mean_value (Arr.flt (fins xs : List (Fl ℝ))) (sp.map (fun i : Nat => (i : Int)))
    (by simpa [Arr.flt] using hne)).2.1 (by
      intro i hi
      obtain ⟨j, hj, rfl⟩ := List.mem_map.mp hi
      exact ⟨j, pyIdx_nat (by simpa [Arr.flt, fins] using hp.2 j hj)⟩)
  rw [ho]
  congr 1
  obtain ⟨h1, h2⟩ := C44_mean _ _ _ ho
  apply List.ext_getElem?
  intro k
  by_cases hk : k < xs.length
  · have e : (fins (levelled sp xs) : List (Fl ℝ))[k]? = some (fin (if k ∈ sp then Spec.avg xs else xs.getD k 0)) := by
      unfold fins levelled
      simp [hk]
    rw [e]
    by_cases hs : k ∈ sp
    · rw [if_pos hs]
      have := C48_mean_value_exact false xs hne _ out ho k ((hits_nat hp.2 k).mpr hs)
      simpa [Spec.avg] using this
    · rw [if_neg hs, h2 k (fun hh => hs ((hits_nat hp.2 k).mp (by simpa [Arr.flt, fins] using hh)))]
      simp only [Arr.flt, fins, List.getElem?_map, List.getElem?_eq_getElem hk, Option.map_some]
      rw [List.getD_eq_getElem?_getD, List.getElem?_eq_getElem hk]; rfl
  · rw [List.getElem?_eq_none (by rw [h1]; simp [Arr.flt, fins]; omega),
      List.getElem?_eq_none (by simp [fins, levelled]; omega)]

theorem levelled_length (sp : List Nat) (xs : List ℝ) : (levelled sp xs).length = xs.length := by simp [levelled]

theorem levelled_range (sp : List Nat) (xs : List ℝ) (hne : xs ≠ []) (lo hi : ℝ) (hb : ∀ x ∈ xs, lo ≤ x ∧ x ≤ hi) :
    ∀ x ∈ levelled sp xs, lo ≤ x ∧ x ≤ hi := by
  intro x hx
  obtain ⟨k, hk, rfl⟩ := List.mem_map.mp hx
  rw [List.mem_range] at hk
  split_ifs
  · refine ⟨?_, Spec.avg_le hne (fun x hx => (hb x hx).2)⟩
    unfold Spec.avg
    rw [le_div_iff₀ (by exact_mod_cast List.length_pos_iff.mpr hne)]
    have := List.card_nsmul_le_sum xs lo (fun x hx => (hb x hx).1)
    rw [nsmul_eq_mul] at this
    linarith
  · rw [List.getD_eq_getElem?_getD, List.getElem?_eq_getElem hk]
    exact hb _ (List.getElem_mem hk)

/-- the correlation test of a round, on finite data -/
theorem findCorrelation_fins (it n : Nat) (hn : 1 ≤ n) (xs ys zs : List ℝ) (hx : xs.length = n) (hy : ys.length = n)
    (hz : zs.length = n) : findCorrelation it (vel xs ys zs) =
      velocityCorrelation (fins xs) (fins ys) (fins zs : List (Fl ℝ)) := by
  have e := C67_affine xs ys zs (hy.trans hx.symm) (hz.trans hx.symm) 1 (-Spec.avg xs) (-Spec.avg ys) (-Spec.avg zs) one_ne_zero
  simp only [one_mul] at e
  unfold findCorrelation vel
  rw [← e]
  simp only [centred_fins xs (ne_of_length hx hn), centred_fins ys (ne_of_length hy hn),
    centred_fins zs (ne_of_length hz hn), bind, Except.bind]

theorem findCorrelation_cases (it n : Nat) (hn : 1 ≤ n) (xs ys zs : List ℝ) (hx : xs.length = n) (hy : ys.length = n)
    (hz : zs.length = n) : findCorrelation it (vel xs ys zs) = .error .valueError ∨
      ∃ sp, findCorrelation it (vel xs ys zs) = .ok sp ∧ Positions n sp := by
  rw [findCorrelation_fins it n hn xs ys zs hx hy hz]
  by_cases h2 : n ≤ 2
  · right
    refine ⟨[], C67_small xs ys zs (by omega) (by omega) (hy.trans hx.symm) (hz.trans hx.symm), List.Pairwise.nil, by simp⟩
  · by_cases hok : PairOk xs ys ∧ PairOk xs zs ∧ PairOk ys zs
    · right
      obtain ⟨r, hr⟩ := (C104_success_iff xs ys zs (by omega) (hy.trans hx.symm) (hz.trans hx.symm)).1.mpr hok
      have := C59_correlation (fins xs : List (Fl ℝ)) (fins ys) (fins zs) r (by simp [fins]; omega) (by simp [fins, hx, hy])
        (by simp [fins, hx, hz]) hr
      refine ⟨r, hr, this.1, fun i hi => ?_⟩
      have := this.2 i hi
      simpa [fins, hx] using this
    · left
      exact (C104_success_iff xs ys zs (by omega) (hy.trans hx.symm) (hz.trans hx.symm)).2 hok

/-- specification: same length, inside every interval that contains the input -/
def Within (xs xs' : List ℝ) : Prop :=
  xs'.length = xs.length ∧ ∀ lo hi, (∀ x ∈ xs, lo ≤ x ∧ x ≤ hi) → ∀ x ∈ xs', lo ≤ x ∧ x ≤ hi

theorem corr_loop (n : Nat) (hn : 1 ≤ n) : ∀ (fuel it : Nat) (xs ys zs : List ℝ), xs.length = n → ys.length = n →
    zs.length = n →
    loop findCorrelation (fun c idx => meanValue (Arr.flt c) idx) fuel it (vel xs ys zs) = .error .valueError ∨
    ∃ xs' ys' zs' r b, loop findCorrelation (fun c idx => meanValue (Arr.flt c) idx) fuel it (vel xs ys zs) =
      .ok ⟨vel xs' ys' zs', r, b⟩ ∧ Within xs xs' ∧ Within ys ys' ∧ Within zs zs' := by
  intro fuel
  have w0 : ∀ l : List ℝ, Within l l := fun l => ⟨rfl, fun _ _ h => h⟩
  induction fuel with
  | zero => intro it xs ys zs _ _ _; right; exact ⟨xs, ys, zs, it, false, rfl, w0 _, w0 _, w0 _⟩
  | succ fuel ih =>
    intro it xs ys zs hx hy hz
    rcases findCorrelation_cases it n hn xs ys zs hx hy hz with hf | ⟨sp, hf, hp⟩
    · left; rw [loop]; simp only [hf, bind, Except.bind]
    · by_cases he : sp = []
      · subst he
        right
        exact ⟨xs, ys, zs, it, true, loop_quiet _ _ _ _ _ hf, w0 _, w0 _, w0 _⟩
      · have ws : ∀ l : List ℝ, l.length = n → Within l (levelled sp l) := fun l hl =>
          ⟨levelled_length sp l, fun lo hi hb => levelled_range sp l (ne_of_length hl hn) lo hi hb⟩
        have wt : ∀ a b c : List ℝ, Within a b → Within b c → Within a c := fun a b c h1 h2 =>
          ⟨h2.1.trans h1.1, fun lo hi hb => h2.2 lo hi (h1.2 lo hi hb)⟩
        have hl : loop findCorrelation (fun c idx => meanValue (Arr.flt c) idx) (fuel + 1) it (vel xs ys zs) =
            loop findCorrelation (fun c idx => meanValue (Arr.flt c) idx) fuel (it + 1)
              (vel (levelled sp xs) (levelled sp ys) (levelled sp zs)) := by
          rw [loop]
          simp only [hf, bind, Except.bind]
          rw [if_neg (by simpa using he)]
          simp only [vel, meanValue_fins n xs hx sp hn hp, meanValue_fins n ys hy sp hn hp, meanValue_fins n zs hz sp hn hp]
        rw [hl]
        rcases ih (it + 1) (levelled sp xs) (levelled sp ys) (levelled sp zs) ((levelled_length _ _).trans hx)
          ((levelled_length _ _).trans hy) ((levelled_length _ _).trans hz) with h | ⟨x, y, z, r, b, h, w1, w2, w3⟩
        · left; exact h
        · right
          exact ⟨x, y, z, r, b, h, wt _ _ _ (ws xs hx) w1, wt _ _ _ (ws ys hy) w2, wt _ _ _ (ws zs hz) w3⟩

/-- **C146** the correlation example on three finite components of equal length either raises ValueError or returns finite
components of the same length whose values never leave the range of the input component. -/
theorem C146_correlation (n : Nat) (hn : 1 ≤ n) (xs ys zs : List ℝ) (hx : xs.length = n) (hy : ys.length = n)
    (hz : zs.length = n) :
    correlationExample (vel xs ys zs) = .error .valueError ∨
    ∃ xs' ys' zs' r b, correlationExample (vel xs ys zs) = .ok ⟨vel xs' ys' zs', r, b⟩ ∧
      Within xs xs' ∧ Within ys ys' ∧ Within zs zs' := corr_loop n hn 10 0 xs ys zs hx hy hz

/-- **C146** the ValueError of the first round: a constant component, or components so correlated that an ellipse axis
degenerates, end the program before anything is replaced. -/
theorem C146_first_round (n : Nat) (hn : 3 ≤ n) (xs ys zs : List ℝ) (hx : xs.length = n) (hy : ys.length = n)
    (hz : zs.length = n) :
    (¬ (PairOk xs ys ∧ PairOk xs zs ∧ PairOk ys zs) → correlationExample (vel xs ys zs) = .error .valueError) ∧
    ((∃ k, (∀ x ∈ xs, x = k) ∨ (∀ x ∈ ys, x = k) ∨ (∀ x ∈ zs, x = k)) →
      correlationExample (vel xs ys zs) = .error .valueError) := by
  have key : velocityCorrelation (fins xs) (fins ys) (fins zs : List (Fl ℝ)) = .error .valueError →
      correlationExample (vel xs ys zs) = .error .valueError := by
    intro h
    unfold correlationExample
    rw [loop]
    simp only [findCorrelation_fins 0 n (by omega) xs ys zs hx hy hz, h, bind, Except.bind]
  exact ⟨fun h => key ((C104_success_iff xs ys zs (by omega) (hy.trans hx.symm) (hz.trans hx.symm)).2 h),
    fun ⟨k, h⟩ => key (C69_constant xs ys zs (by omega) (hy.trans hx.symm) (hz.trans hx.symm) k h)⟩

/-! ## C148: symmetries -/

/-- `x ↦ s x + o` on a component -/
def aff (s o : ℝ) (xs : List ℝ) : List ℝ := xs.map (fun x => s * x + o)

theorem aff_length (s o : ℝ) (xs : List ℝ) : (aff s o xs).length = xs.length := by simp [aff]

theorem loop_equiv (find : Nat → Vel (Fl ℝ) → Py (List Nat)) (repl : List (Fl ℝ) → List Int → Py (List (Fl ℝ))) (n : Nat)
    (s o1 o2 o3 : ℝ)
    (hpos : ∀ it xs ys zs, xs.length = n → ys.length = n → zs.length = n →
      ∀ sp, find it (vel xs ys zs) = .ok sp → Positions n sp)
    (hfind : ∀ it xs ys zs, xs.length = n → ys.length = n → zs.length = n →
      find it (vel (aff s o1 xs) (aff s o2 ys) (aff s o3 zs)) = find it (vel xs ys zs))
    (hrepl : ∀ o, o = o1 ∨ o = o2 ∨ o = o3 → ∀ (xs : List ℝ) sp, xs.length = n → sp ≠ [] → Positions n sp →
      ∃ zs : List ℝ, zs.length = n ∧ repl (fins xs) (sp.map (fun i : Nat => (i : Int))) = .ok (fins zs) ∧
        repl (fins (aff s o xs)) (sp.map (fun i : Nat => (i : Int))) = .ok (fins (aff s o zs))) :
    ∀ (fuel it : Nat) (xs ys zs : List ℝ), xs.length = n → ys.length = n → zs.length = n →
      (∃ e, loop find repl fuel it (vel xs ys zs) = .error e ∧
        loop find repl fuel it (vel (aff s o1 xs) (aff s o2 ys) (aff s o3 zs)) = .error e) ∨
      ∃ xs' ys' zs' r b, loop find repl fuel it (vel xs ys zs) = .ok ⟨vel xs' ys' zs', r, b⟩ ∧
        loop find repl fuel it (vel (aff s o1 xs) (aff s o2 ys) (aff s o3 zs)) =
          .ok ⟨vel (aff s o1 xs') (aff s o2 ys') (aff s o3 zs'), r, b⟩ := by
  intro fuel
  induction fuel with
  | zero => intro it xs ys zs _ _ _; right; exact ⟨xs, ys, zs, it, false, rfl, rfl⟩
  | succ fuel ih =>
    intro it xs ys zs hx hy hz
    have hq := hfind it xs ys zs hx hy hz
    cases hf : find it (vel xs ys zs) with
    | error e =>
      rw [hf] at hq
      left
      refine ⟨e, ?_, ?_⟩
      · rw [loop]; simp only [hf, bind, Except.bind]
      · rw [loop]; simp only [hq, bind, Except.bind]
    | ok sp =>
      rw [hf] at hq
      by_cases he : sp = []
      · subst he
        right
        exact ⟨xs, ys, zs, it, true, loop_quiet _ _ _ _ _ hf, loop_quiet _ _ _ _ _ hq⟩
      · have hp := hpos it xs ys zs hx hy hz sp hf
        obtain ⟨x1, lx, ex, ex'⟩ := hrepl o1 (by simp) xs sp hx he hp
        obtain ⟨y1, ly, ey, ey'⟩ := hrepl o2 (by simp) ys sp hy he hp
        obtain ⟨z1, lz, ez, ez'⟩ := hrepl o3 (by simp) zs sp hz he hp
        have l1 : loop find repl (fuel + 1) it (vel xs ys zs) = loop find repl fuel (it + 1) (vel x1 y1 z1) := by
          rw [loop]
          simp only [hf, bind, Except.bind]
          rw [if_neg (by simpa using he)]
          simp only [vel, ex, ey, ez]
        have l2 : loop find repl (fuel + 1) it (vel (aff s o1 xs) (aff s o2 ys) (aff s o3 zs)) =
            loop find repl fuel (it + 1) (vel (aff s o1 x1) (aff s o2 y1) (aff s o3 z1)) := by
          rw [loop]
          simp only [hq, bind, Except.bind]
          rw [if_neg (by simpa using he)]
          simp only [vel, ex', ey', ez']
        rw [l1, l2]
        exact ih (it + 1) x1 y1 z1 lx ly lz

theorem levelled_aff (sp : List Nat) (s o : ℝ) (xs : List ℝ) (hne : xs ≠ []) :
    levelled sp (aff s o xs) = aff s o (levelled sp xs) := by
  unfold levelled
  rw [aff_length]
  unfold aff
  rw [List.map_map, Spec.avg_affine s o hne]
  apply List.map_congr_left
  intro k hk
  rw [List.mem_range] at hk
  simp only [Function.comp]
  split_ifs
  · rfl
  · rw [List.getD_eq_getElem?_getD, List.getD_eq_getElem?_getD, List.getElem?_map, List.getElem?_eq_getElem hk]; rfl

/-- **C148** the correlation example commutes with every change of unit and offset: multiplying all components by one
non-zero factor and shifting each by its own offset gives the transformed result after the same rounds, or the same
exception. -/
theorem C148_correlation (n : Nat) (hn : 1 ≤ n) (xs ys zs : List ℝ) (hx : xs.length = n) (hy : ys.length = n)
    (hz : zs.length = n) (s o1 o2 o3 : ℝ) (hs : s ≠ 0) :
    (∃ e, correlationExample (vel xs ys zs) = .error e ∧
      correlationExample (vel (aff s o1 xs) (aff s o2 ys) (aff s o3 zs)) = .error e) ∨
    ∃ xs' ys' zs' r b, correlationExample (vel xs ys zs) = .ok ⟨vel xs' ys' zs', r, b⟩ ∧
      correlationExample (vel (aff s o1 xs) (aff s o2 ys) (aff s o3 zs)) =
        .ok ⟨vel (aff s o1 xs') (aff s o2 ys') (aff s o3 zs'), r, b⟩ := by
  refine loop_equiv findCorrelation _ n s o1 o2 o3 ?_ ?_ ?_ 10 0 xs ys zs hx hy hz
  · intro it a b c ha hb hc sp h
    rcases findCorrelation_cases it n hn a b c ha hb hc with h' | ⟨sp', h', hp⟩
    · rw [h] at h'; cases h'
    · rw [h] at h'; cases h'; exact hp
  · intro it a b c ha hb hc
    rw [findCorrelation_fins it n hn _ _ _ (by rw [aff_length, ha]) (by rw [aff_length, hb]) (by rw [aff_length, hc]),
      findCorrelation_fins it n hn a b c ha hb hc]
    exact C67_affine a b c (hb.trans ha.symm) (hc.trans ha.symm) s o1 o2 o3 hs
  · intro o _ a sp ha _ hp
    refine ⟨levelled sp a, (levelled_length _ _).trans ha, meanValue_fins n a ha sp hn hp, ?_⟩
    rw [← levelled_aff sp s o a (ne_of_length ha hn)]
    exact meanValue_fins n _ (by rw [aff_length, ha]) sp hn hp

theorem getD_aff (s o : ℝ) (xs : List ℝ) (k : Nat) (hk : k < xs.length) : (aff s o xs).getD k 0 = s * xs.getD k 0 + o := by
  unfold aff
  rw [List.getD_eq_getElem?_getD, List.getD_eq_getElem?_getD, List.getElem?_map, List.getElem?_eq_getElem hk]; rfl

/-- linear interpolation before rounding commutes with affine maps -/
theorem interp3_aff (n : Nat) (s o : ℝ) (hr : ∀ x, aroundK (s * x + o) 3 = s * aroundK x 3 + o) (xs : List ℝ)
    (hx : xs.length = n) (sp : List Nat) (hne : sp ≠ []) (hp : Positions n sp) :
    ∃ zs : List ℝ, zs.length = n ∧ interp3 (fins xs) (sp.map (fun i : Nat => (i : Int))) = .ok (fins zs : List (Fl ℝ)) ∧
      interp3 (fins (aff s o xs)) (sp.map (fun i : Nat => (i : Int))) = .ok (fins (aff s o zs) : List (Fl ℝ)) := by
  subst hx
  obtain ⟨lo, hi, hb⟩ := bounded_list xs
  obtain ⟨zs, h1, h2, h3, -⟩ := C52_in_range xs sp hne hp.1 hp.2 lo hi hb 3
  obtain ⟨out, o1, o2, o3, o4⟩ := li_raw_exact xs sp hne hp.1 hp.2
  rw [h1] at o1
  simp only [Except.ok.injEq] at o1
  subst o1
  have hl : (aff s o xs).length = xs.length := aff_length s o xs
  obtain ⟨out', p1, p2, p3, p4⟩ := li_raw_exact (aff s o xs) sp hne hp.1 (by rw [hl]; exact hp.2)
  have hout : out' = (aff s o zs).map fin := by
    apply List.ext_getElem?
    intro k
    unfold aff
    rw [List.getElem?_map, List.getElem?_map]
    by_cases hk : k < xs.length
    · by_cases hks : k ∈ sp
      · obtain ⟨a, b, hrun, k1, k2⟩ := isRun_exists sp hp.1 k hks
        have q := o4 a b hrun k k1 k2
        have q' := p4 a b hrun k k1 k2
        rw [List.getElem?_map] at q
        obtain ⟨z, hz, hzz⟩ := Option.map_eq_some_iff.mp q
        rw [hz]
        rw [q']
        simp only [Fl.fin.injEq] at hzz
        simp only [Option.map_some, Option.some.injEq, Fl.fin.injEq]
        rw [hzz, hl]
        have hbn : b < xs.length := hp.2 b (hrun.2.1 b hrun.1 (le_refl _))
        by_cases hb1 : b + 1 < xs.length
        · rw [if_pos hb1, if_pos hb1]
          by_cases ha0 : 0 < a
          · rw [if_pos ha0, if_pos ha0, getD_aff _ _ _ _ hb1, getD_aff _ _ _ _ (by have := hrun.1; omega)]
            ring
          · rw [if_neg ha0, if_neg ha0, getD_aff _ _ _ _ hb1]
        · rw [if_neg hb1, if_neg hb1]
          have := Spec.avg_affine s o (xs := xs) (by rintro rfl; simp at hk)
          unfold Spec.avg at this
          rw [List.length_map] at this
          exact this
      · have q := o3 k hks
        have q' := p3 k hks
        unfold aff at q'
        rw [List.getElem?_map, List.getElem?_map] at q
        rw [q', List.getElem?_map, List.getElem?_map]
        cases hz : zs[k]? with
        | none => rw [hz] at q; cases hxk : xs[k]? with
          | none => rfl
          | some x => rw [hxk] at q; cases q
        | some z => rw [hz] at q; cases hxk : xs[k]? with
          | none => rw [hxk] at q; cases q
          | some x =>
            rw [hxk] at q
            simp only [Option.map_some, Option.some.injEq, Fl.fin.injEq] at q
            rw [q]
    · rw [List.getElem?_eq_none (by omega), List.getElem?_eq_none (by omega)]; rfl
  refine ⟨zs.map (fun z => aroundK z 3), by simpa using h3, ?_, ?_⟩
  · refine h2.trans ?_
    unfold fins; rw [List.map_map]; rfl
  · have e : interp3 (fins (aff s o xs)) (sp.map (fun i : Nat => (i : Int))) = .ok (out'.map (fun x => PyNum.around x 3)) := by
      unfold interp3 linearInterpolation Arr.flt fins
      rw [p1]; rfl
    rw [e, hout]
    congr 1
    unfold aff fins
    simp only [List.map_map]
    apply List.map_congr_left
    intro z _
    simp only [Function.comp, paround_fin, hr]

/-- the maps that commute with rounding to three decimals: a shift by a multiple of 0.002, and a change of sign -/
def EvenStep (o : ℝ) : Prop := ∃ m : ℤ, o = m / 500

theorem around_even (o : ℝ) (ho : EvenStep o) (x : ℝ) : aroundK (x + o) 3 = aroundK x 3 + o := by
  obtain ⟨m, rfl⟩ := ho
  refine aroundK_add_even x 3 m _ ?_
  push_cast
  norm_num
  ring

theorem around_sign (s o : ℝ) (hs : s = 1 ∨ s = -1) (ho : EvenStep o) (x : ℝ) :
    aroundK (s * x + o) 3 = s * aroundK x 3 + o := by
  rw [around_even o ho]
  rcases hs with rfl | rfl
  · rw [one_mul, one_mul]
  · rw [neg_one_mul, neg_one_mul, aroundK_neg]

theorem dev_aff (s o : ℝ) (xs : List ℝ) (hne : xs ≠ []) :
    (aff s o xs).map (fun x => x + (-Spec.avg (aff s o xs))) = (xs.map (fun x => x + (-Spec.avg xs))).map (fun x => s * x) := by
  unfold aff
  rw [Spec.avg_affine s o hne, List.map_map, List.map_map]
  apply List.map_congr_left
  intro x _
  simp only [Function.comp]
  ring

theorem fins_neg (xs : List ℝ) : (fins (xs.map (fun x => (-1) * x)) : List (Fl ℝ)) = (fins xs).map PyNum.neg := by
  unfold fins
  rw [List.map_map, List.map_map]
  apply List.map_congr_left
  intro x _
  simp only [Function.comp, neg_one_mul]; rfl

theorem phaseDet_aff (s o : ℝ) (hs : s = 1 ∨ s = -1) (xs : List ℝ) (hne : xs ≠ []) :
    phaseDet (fins (aff s o xs) : List (Fl ℝ)) = phaseDet (fins xs) := by
  unfold phaseDet
  rw [centred_fins xs hne, centred_fins (aff s o xs) (by simpa [aff] using hne), dev_aff s o xs hne]
  simp only [bind, Except.bind]
  rcases hs with rfl | rfl
  · simp only [one_mul, List.map_id']
  · rw [fins_neg]
    exact C65_sign false _ (fun h => by cases h)

theorem sphDet_aff (s o : ℝ) (hs : s = 1 ∨ s = -1) (xs : List ℝ) (hne : xs ≠ []) :
    sphDet (fins (aff s o xs) : List (Fl ℝ)) = sphDet (fins xs) := by
  have e : ∀ l : List ℝ, l ≠ [] → sphDet (fins l : List (Fl ℝ)) =
      sphericalThresholding (fins (l.map (fun x => x + (-Spec.avg l)))) 0 (fin 0) := by
    intro l hl
    unfold sphDet
    rw [meanOf_fins l hl]
    simp only [bind, Except.bind]
    rw [C72_arguments _ 0 0 _ (fin 0)]
    congr 1
    unfold fins
    rw [List.map_map, List.map_map]
    rfl
  rw [e xs hne, e (aff s o xs) (by simpa [aff] using hne), dev_aff s o xs hne]
  rcases hs with rfl | rfl
  · simp only [one_mul, List.map_id']
  · rw [fins_neg]
    exact C106_sign _ _ _

/-- **C148** the phase-space and spherical examples commute with a change of sign and with shifting each component by its
own multiple of 0.002 (an even number of units of the last kept decimal): the same rounds, the transformed result. -/
theorem C148_phase (n : Nat) (hn : 2 ≤ n) (xs ys zs : List ℝ) (hx : xs.length = n) (hy : ys.length = n)
    (hz : zs.length = n) (s o1 o2 o3 : ℝ) (hs : s = 1 ∨ s = -1) (h1 : EvenStep o1) (h2 : EvenStep o2) (h3 : EvenStep o3) :
    (∃ xs' ys' zs' r b, phaseSpace (vel xs ys zs) = .ok ⟨vel xs' ys' zs', r, b⟩ ∧
      phaseSpace (vel (aff s o1 xs) (aff s o2 ys) (aff s o3 zs)) =
        .ok ⟨vel (aff s o1 xs') (aff s o2 ys') (aff s o3 zs'), r, b⟩) ∧
    (∃ xs' ys' zs' r b, phaseSpace3d (vel xs ys zs) = .ok ⟨vel xs' ys' zs', r, b⟩ ∧
      phaseSpace3d (vel (aff s o1 xs) (aff s o2 ys) (aff s o3 zs)) =
        .ok ⟨vel (aff s o1 xs') (aff s o2 ys') (aff s o3 zs'), r, b⟩) := by
  have hsz : ∀ a b c : List ℝ, a.length = n → b.length = n → c.length = n → Sized n (vel a b c) := fun a b c ha hb hc =>
    ⟨by simpa [vel, fins] using ha, by simpa [vel, fins] using hb, by simpa [vel, fins] using hc⟩
  have hrep : ∀ o, o = o1 ∨ o = o2 ∨ o = o3 → ∀ (xs : List ℝ) sp, xs.length = n → sp ≠ [] → Positions n sp →
      ∃ zs : List ℝ, zs.length = n ∧ interp3 (fins xs) (sp.map (fun i : Nat => (i : Int))) = .ok (fins zs : List (Fl ℝ)) ∧
        interp3 (fins (aff s o xs)) (sp.map (fun i : Nat => (i : Int))) = .ok (fins (aff s o zs) : List (Fl ℝ)) := by
    intro o ho xs sp hx hne hp
    have hev : EvenStep o := by rcases ho with rfl | rfl | rfl <;> assumption
    exact interp3_aff n s o (around_sign s o hs hev) xs hx sp hne hp
  obtain ⟨t1, -, t3⟩ := C144_total n (by omega) xs ys zs hx hy hz
  constructor
  · rcases loop_equiv findPhase interp3 n s o1 o2 o3
      (fun it a b c ha hb hc sp h => union3_positions phaseDet_positions (hsz a b c ha hb hc) h)
      (fun it a b c ha hb hc => by
        rw [findPhase_eq, findPhase_eq]
        unfold union3 vel
        simp only [phaseDet_aff s o1 hs a (ne_of_length ha (by omega)), phaseDet_aff s o2 hs b (ne_of_length hb (by omega)),
          phaseDet_aff s o3 hs c (ne_of_length hc (by omega))])
      hrep 10 0 xs ys zs hx hy hz with ⟨e, he, -⟩ | h
    · obtain ⟨_, _, _, _, _, ht, -⟩ := t1
      rw [phaseSpace, he] at ht; cases ht
    · exact h
  · rcases loop_equiv findSpherical interp3 n s o1 o2 o3
      (fun it a b c ha hb hc sp h => union3_positions sphDet_positions (hsz a b c ha hb hc) h)
      (fun it a b c ha hb hc => by
        rw [findSpherical_eq, findSpherical_eq]
        unfold union3 vel
        simp only [sphDet_aff s o1 hs a (ne_of_length ha (by omega)), sphDet_aff s o2 hs b (ne_of_length hb (by omega)),
          sphDet_aff s o3 hs c (ne_of_length hc (by omega))])
      hrep 3 0 xs ys zs hx hy hz with ⟨e, he, -⟩ | h
    · obtain ⟨_, _, _, _, _, ht, -⟩ := t3 hn
      rw [phaseSpace3d, he] at ht; cases ht
    · exact h

/-- 1.234 is such a shift and 1.235 is not; with it the program's rounding does not commute: 0.0005 rounds to 0.000 but
0.0015 = 0.0005 + 0.001 rounds to 0.002. -/
example : EvenStep 1.234 ∧ ¬ EvenStep 1.235 ∧ aroundK (0.0005 + 0.001 : ℚ) 3 ≠ aroundK (0.0005 : ℚ) 3 + 0.001 := by
  refine ⟨⟨617, by norm_num⟩, ?_, by decide +kernel⟩
  rintro ⟨m, hm⟩
  have : (2 * m : ℝ) = 1235 := by linarith
  have : (2 * m : ℤ) = 1235 := by exact_mod_cast this
  omega

/-- **C148** the acceleration example commutes with the same shifts (but not with a change of sign, C145). -/
theorem C148_acceleration (n : Nat) (hn : 1 ≤ n) (xs ys zs : List ℝ) (hx : xs.length = n) (hy : ys.length = n)
    (hz : zs.length = n) (o1 o2 o3 : ℝ) (h1 : EvenStep o1) (h2 : EvenStep o2) (h3 : EvenStep o3) :
    ∃ xs' ys' zs' r b, accelerationExample (vel xs ys zs) = .ok ⟨vel xs' ys' zs', r, b⟩ ∧
      accelerationExample (vel (aff 1 o1 xs) (aff 1 o2 ys) (aff 1 o3 zs)) =
        .ok ⟨vel (aff 1 o1 xs') (aff 1 o2 ys') (aff 1 o3 zs'), r, b⟩ := by
  have hsz : ∀ a b c : List ℝ, a.length = n → b.length = n → c.length = n → Sized n (vel a b c) := fun a b c ha hb hc =>
    ⟨by simpa [vel, fins] using ha, by simpa [vel, fins] using hb, by simpa [vel, fins] using hc⟩
  have sh : ∀ (tag : Int) (o : ℝ) (l : List ℝ), l ≠ [] → accDet tag (fins (aff 1 o l) : List (Fl ℝ)) = accDet tag (fins l) := by
    intro tag o l hl
    unfold aff
    simp only [one_mul]
    exact accDet_shift tag l hl o
  obtain ⟨-, ⟨_, _, _, _, _, ht, -⟩, -⟩ := C144_total n hn xs ys zs hx hy hz
  rcases loop_equiv findAcceleration interp3 n 1 o1 o2 o3
    (fun it a b c ha hb hc sp h => union3_positions (accDet_positions (tagAt it)) (hsz a b c ha hb hc) h)
    (fun it a b c ha hb hc => by
      rw [findAcceleration_eq, findAcceleration_eq]
      unfold union3 vel
      simp only [sh _ o1 a (ne_of_length ha hn), sh _ o2 b (ne_of_length hb hn), sh _ o3 c (ne_of_length hc hn)])
    (fun o ho xs sp hx hne hp => interp3_aff n 1 o (around_sign 1 o (Or.inl rfl)
      (by rcases ho with rfl | rfl | rfl <;> assumption)) xs hx sp hne hp)
    10 0 xs ys zs hx hy hz with ⟨e, he, -⟩ | h
  · rw [accelerationExample, he] at ht; cases ht
  · exact h

end Proadv.Props
