import Verif.Props.Pipeline
import Verif.Props.Phase2

/-!
# C144–C146: the despiking programs of `examples/filtration` in exact arithmetic
-/

set_option linter.unusedSectionVars false

namespace Proadv.Props

open Proadv Descriptive Detect Spherical Replace KernelDetect Pipeline Fl

/-- finite data -/
def vel (xs ys zs : List ℝ) : Vel (Fl ℝ) := ⟨fins xs, fins ys, fins zs⟩

theorem fins_inj {xs ys : List ℝ} (h : (fins xs : List (Fl ℝ)) = fins ys) : xs = ys := by
  unfold fins at h
  exact (List.map_injective_iff.mpr (fun a b e => by cases e; rfl)) h

theorem bounded_list (xs : List ℝ) : ∃ lo hi, ∀ x ∈ xs, lo ≤ x ∧ x ≤ hi := by
  induction xs with
  | nil => exact ⟨0, 0, by simp⟩
  | cons a t ih =>
    obtain ⟨lo, hi, h⟩ := ih
    refine ⟨min a lo, max a hi, fun x hx => ?_⟩
    rcases List.mem_cons.mp hx with rfl | hx
    · exact ⟨min_le_left _ _, le_max_left _ _⟩
    · exact ⟨(min_le_right _ _).trans (h x hx).1, (h x hx).2.trans (le_max_right _ _)⟩

/-- specification: how one component may change in `r` rounds: not at all without a round; otherwise every value is a
multiple of 0.001 between the rounded bounds of the input. -/
def Tamed (r : Nat) (xs xs' : List ℝ) : Prop :=
  xs'.length = xs.length ∧ (r = 0 → xs' = xs) ∧
    (0 < r → (∀ x ∈ xs', ∃ z : ℤ, x = z / 1000) ∧
      ∀ lo hi, (∀ x ∈ xs, lo ≤ x ∧ x ≤ hi) → ∀ x ∈ xs', aroundK lo 3 ≤ x ∧ x ≤ aroundK hi 3)

theorem interp3_exact (n : Nat) (xs : List ℝ) (hx : xs.length = n) (sp : List Nat) (hne : sp ≠ []) (hp : Positions n sp) :
    ∃ zs, interp3 (fins xs) (sp.map (fun i : Nat => (i : Int))) = .ok (fins zs : List (Fl ℝ)) ∧ Tamed 1 xs zs := by
  subst hx
  obtain ⟨lo, hi, hb⟩ := bounded_list xs
  obtain ⟨zs, -, h2, h3, -⟩ := C52_in_range xs sp hne hp.1 hp.2 lo hi hb 3
  have e : interp3 (fins xs) (sp.map (fun i : Nat => (i : Int))) = .ok (fins (zs.map (fun z => aroundK z 3)) : List (Fl ℝ)) := by
    refine h2.trans ?_
    unfold fins; rw [List.map_map]; rfl
  refine ⟨zs.map (fun z => aroundK z 3), e, by simpa using h3, by simp, fun _ => ⟨?_, ?_⟩⟩
  · intro x hx
    obtain ⟨z, -, rfl⟩ := List.mem_map.mp hx
    obtain ⟨m, hm⟩ := aroundK_mul z 3
    refine ⟨m, ?_⟩
    rw [← hm, show (10 : ℝ) ^ (3 : ℤ) = 1000 by norm_num]; ring
  · intro lo' hi' hb' x hx
    obtain ⟨zs', -, h2', -, h4'⟩ := C52_in_range xs sp hne hp.1 hp.2 lo' hi' hb' 3
    have : (fins (zs.map (fun z => aroundK z 3)) : List (Fl ℝ)) = fins (zs'.map (fun z => aroundK z 3)) := by
      rw [h2] at h2'
      simp only [Except.ok.injEq] at h2'
      unfold fins
      rw [List.map_map, List.map_map]
      exact h2'
    rw [fins_inj this] at hx
    obtain ⟨z, hz, rfl⟩ := List.mem_map.mp hx
    exact ⟨aroundK_mono (h4' z hz).1 3, aroundK_mono (h4' z hz).2 3⟩

theorem tamed_trans {r : Nat} {a b c : List ℝ} (h1 : Tamed 1 a b) (h2 : Tamed r b c) : Tamed (r + 1) a c := by
  obtain ⟨l1, -, k1⟩ := h1
  obtain ⟨m1, m2⟩ := k1 (by omega)
  obtain ⟨l2, e2, k2⟩ := h2
  refine ⟨l2.trans l1, by omega, fun _ => ?_⟩
  rcases Nat.eq_zero_or_pos r with h0 | h0
  · rw [e2 h0]; exact ⟨m1, m2⟩
  · obtain ⟨n1, n2⟩ := k2 h0
    refine ⟨n1, fun lo hi hb x hx => ?_⟩
    have := n2 _ _ (m2 lo hi hb) x hx
    rwa [aroundK_idem, aroundK_idem] at this

theorem loop_exact (find : Nat → Vel (Fl ℝ) → Py (List Nat)) (n : Nat)
    (hfind : ∀ it xs ys zs, xs.length = n → ys.length = n → zs.length = n →
      ∃ sp, find it (vel xs ys zs) = .ok sp ∧ Positions n sp) :
    ∀ (fuel it : Nat) (xs ys zs : List ℝ), xs.length = n → ys.length = n → zs.length = n →
      ∃ xs' ys' zs' r b, loop find interp3 fuel it (vel xs ys zs) = .ok ⟨vel xs' ys' zs', it + r, b⟩ ∧
        Tamed r xs xs' ∧ Tamed r ys ys' ∧ Tamed r zs zs' := by
  have t0 : ∀ l : List ℝ, Tamed 0 l l := fun l => ⟨rfl, fun _ => rfl, fun h => absurd h (lt_irrefl 0)⟩
  intro fuel
  induction fuel with
  | zero => intro it xs ys zs _ _ _; exact ⟨xs, ys, zs, 0, false, rfl, t0 _, t0 _, t0 _⟩
  | succ fuel ih =>
    intro it xs ys zs hx hy hz
    obtain ⟨sp, hf, hp⟩ := hfind it xs ys zs hx hy hz
    by_cases he : sp = []
    · subst he
      exact ⟨xs, ys, zs, 0, true, loop_quiet _ _ _ _ _ hf, t0 _, t0 _, t0 _⟩
    · obtain ⟨x1, ex, tx⟩ := interp3_exact n xs hx sp he hp
      obtain ⟨y1, ey, ty⟩ := interp3_exact n ys hy sp he hp
      obtain ⟨z1, ez, tz⟩ := interp3_exact n zs hz sp he hp
      obtain ⟨x2, y2, z2, r, b, h, hx2, hy2, hz2⟩ := ih (it + 1) x1 y1 z1 (tx.1.trans hx) (ty.1.trans hy) (tz.1.trans hz)
      refine ⟨x2, y2, z2, r + 1, b, ?_, tamed_trans tx hx2, tamed_trans ty hy2, tamed_trans tz hz2⟩
      rw [loop]
      simp only [hf, bind, Except.bind]
      rw [if_neg (by simpa using he)]
      simp only [vel, ex, ey, ez]
      rw [show it + (r + 1) = it + 1 + r by omega]
      exact h

theorem ne_of_length {xs : List ℝ} {n : Nat} (h : xs.length = n) (hn : 1 ≤ n) : xs ≠ [] := by
  rintro rfl; simp at h; omega

theorem centred_fins (xs : List ℝ) (h : xs ≠ []) :
    centred (fins xs) = .ok (fins (xs.map (fun x => x + (-Spec.avg xs))) : List (Fl ℝ)) := by
  unfold centred
  rw [meanOf_fins xs h]
  simp only [bind, Except.bind]
  unfold fins
  rw [List.map_map, List.map_map]
  congr 1

theorem phaseDet_total (xs : List ℝ) (h : xs ≠ []) : ∃ r, phaseDet (fins xs : List (Fl ℝ)) = .ok r := by
  unfold phaseDet
  rw [centred_fins xs h]
  exact (C64_errors (Arr.flt (fins (xs.map (fun x => x + (-Spec.avg xs)))))).1.mpr ⟨rfl, by simpa [Arr.flt] using h⟩

theorem accDet_total (tag : Int) (ht : tag = 1 ∨ tag = 2) (xs : List ℝ) (h : xs ≠ []) :
    ∃ r, accDet tag (fins xs : List (Fl ℝ)) = .ok r := by
  unfold accDet
  rw [centred_fins xs h]
  exact (C60_errors (Arr.flt (fins (xs.map (fun x => x + (-Spec.avg xs))))) _ _ _ _ _).1.mpr ⟨rfl, by simpa [Arr.flt] using h, ht⟩

theorem sphDet_total (xs : List ℝ) (h : 2 ≤ xs.length) : ∃ r, sphDet (fins xs : List (Fl ℝ)) = .ok r := by
  unfold sphDet
  rw [meanOf_fins xs (by rintro rfl; simp at h)]
  exact (C75_errors _ _ _).2 (by simpa [fins] using h)

theorem union3_total {det : List (Fl ℝ) → Py (List Nat)} (hd : ∀ c r, det c = .ok r → Positions c.length r) (n : Nat)
    (ht : ∀ xs : List ℝ, xs.length = n → ∃ r, det (fins xs) = .ok r) (xs ys zs : List ℝ) (hx : xs.length = n)
    (hy : ys.length = n) (hz : zs.length = n) : ∃ sp, union3 det (vel xs ys zs) = .ok sp ∧ Positions n sp := by
  obtain ⟨ix, ex⟩ := ht xs hx
  obtain ⟨iy, ey⟩ := ht ys hy
  obtain ⟨iz, ez⟩ := ht zs hz
  have h : union3 det (vel xs ys zs) = .ok (uniqueNat (ix ++ iy ++ iz)) := by
    unfold union3 vel; simp only [ex, ey, ez, bind, Except.bind]
  exact ⟨_, h, union3_positions hd ⟨by simpa [vel, fins] using hx, by simpa [vel, fins] using hy, by simpa [vel, fins] using hz⟩ h⟩

theorem tagAt_cases (it : Nat) : tagAt it = 1 ∨ tagAt it = 2 := by
  rw [tagAt_eq]; split_ifs <;> simp

/-- **C144** the phase-space, spherical and acceleration examples finish without an exception on every set of three finite
components of equal length (one sample is enough, two for the spherical method).  The result is finite and of the same
length; without a round it is the input; otherwise every value is a multiple of 0.001 and stays, component by component,
between the rounded bounds of the input. -/
theorem C144_total (n : Nat) (hn : 1 ≤ n) (xs ys zs : List ℝ) (hx : xs.length = n) (hy : ys.length = n)
    (hz : zs.length = n) :
    (∃ xs' ys' zs' r b, phaseSpace (vel xs ys zs) = .ok ⟨vel xs' ys' zs', r, b⟩ ∧
      Tamed r xs xs' ∧ Tamed r ys ys' ∧ Tamed r zs zs') ∧
    (∃ xs' ys' zs' r b, accelerationExample (vel xs ys zs) = .ok ⟨vel xs' ys' zs', r, b⟩ ∧
      Tamed r xs xs' ∧ Tamed r ys ys' ∧ Tamed r zs zs') ∧
    (2 ≤ n → ∃ xs' ys' zs' r b, phaseSpace3d (vel xs ys zs) = .ok ⟨vel xs' ys' zs', r, b⟩ ∧
      Tamed r xs xs' ∧ Tamed r ys ys' ∧ Tamed r zs zs') := by
  refine ⟨?_, ?_, fun h2 => ?_⟩
  · obtain ⟨x, y, z, r, b, h, t⟩ := loop_exact findPhase n (fun it xs ys zs a b c =>
      union3_total phaseDet_positions n (fun l hl => phaseDet_total l (ne_of_length hl hn)) xs ys zs a b c) 10 0 xs ys zs hx hy hz
    rw [Nat.zero_add] at h
    exact ⟨x, y, z, r, b, h, t⟩
  · obtain ⟨x, y, z, r, b, h, t⟩ := loop_exact findAcceleration n (fun it xs ys zs a b c =>
      union3_total (accDet_positions (tagAt it)) n (fun l hl => accDet_total _ (tagAt_cases it) l (ne_of_length hl hn))
        xs ys zs a b c) 10 0 xs ys zs hx hy hz
    rw [Nat.zero_add] at h
    exact ⟨x, y, z, r, b, h, t⟩
  · obtain ⟨x, y, z, r, b, h, t⟩ := loop_exact findSpherical n (fun it xs ys zs a b c =>
      union3_total sphDet_positions n (fun l hl => sphDet_total l (by omega)) xs ys zs a b c) 3 0 xs ys zs hx hy hz
    rw [Nat.zero_add] at h
    exact ⟨x, y, z, r, b, h, t⟩

/-- **C144** what they reject: the spherical example raises ValueError on single samples, all raise TypeError on empty
components (the mean of no samples is a string, which cannot be subtracted). -/
theorem C144_errors (x y z : ℝ) :
    phaseSpace3d (vel [x] [y] [z]) = .error .valueError ∧ phaseSpace (vel [] [] []) = .error .typeError ∧
      phaseSpace3d (vel [] [] []) = .error .typeError ∧ accelerationExample (vel [] [] []) = .error .typeError := by
  refine ⟨?_, rfl, rfl, rfl⟩
  have h : sphDet (fins [x] : List (Fl ℝ)) = .error .valueError := by
    unfold sphDet
    rw [meanOf_fins [x] (by simp)]
    exact (C75_errors ((fins [x] : List (Fl ℝ)).map (fun u => u -. fin (Spec.avg [x]))) 0 (fin (Spec.avg [x]))).1 (by simp [fins])
  unfold phaseSpace3d
  rw [loop, findSpherical_eq]
  unfold union3 vel
  simp only [h, bind, Except.bind]

end Proadv.Props
