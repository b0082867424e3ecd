import Verif.Model.Pipeline
import Verif.Lemmas.Around
import Verif.Props.Acceleration
import Verif.Props.Correlation
import Verif.Props.Kernel2
import Verif.Props.LinearInterp
import Verif.Props.Phase
import Verif.Props.Spherical

/-!
# C143, C147: the despiking programs of `examples/filtration` (any float arithmetic)
-/

set_option linter.unusedSectionVars false

namespace Proadv.Props

open Proadv Descriptive Detect Spherical Replace KernelDetect Pipeline

section generic
variable {F : Type} [PyNum F]

/-- specification: the detector accepts each component and reports nothing -/
def Quiet (det : List F → Py (List Nat)) (v : Vel F) : Prop :=
  det v.x = .ok [] ∧ det v.y = .ok [] ∧ det v.z = .ok []

/-- specification: three components of `n` samples -/
def Sized (n : Nat) (v : Vel F) : Prop := v.x.length = n ∧ v.y.length = n ∧ v.z.length = n

/-- specification: an increasing list of positions below `n` -/
def Positions (n : Nat) (sp : List Nat) : Prop := sp.Pairwise (· < ·) ∧ ∀ i ∈ sp, i < n

theorem union3_ok (det : List F → Py (List Nat)) (v : Vel F) (sp : List Nat) :
    union3 det v = .ok sp ↔ ∃ ix iy iz, det v.x = .ok ix ∧ det v.y = .ok iy ∧ det v.z = .ok iz ∧
      sp.Pairwise (· < ·) ∧ ∀ i, i ∈ sp ↔ i ∈ ix ∨ i ∈ iy ∨ i ∈ iz := by
  unfold union3
  simp only [bind, Except.bind]
  constructor
  · intro h
    cases hx : det v.x with
    | error e => rw [hx] at h; cases h
    | ok ix =>
      rw [hx] at h; simp only at h
      cases hy : det v.y with
      | error e => rw [hy] at h; cases h
      | ok iy =>
        rw [hy] at h; simp only at h
        cases hz : det v.z with
        | error e => rw [hz] at h; cases h
        | ok iz =>
          rw [hz] at h
          simp only [Except.ok.injEq] at h
          subst h
          refine ⟨ix, iy, iz, rfl, rfl, rfl, uniqueNat_sorted _, fun i => ?_⟩
          rw [mem_uniqueNat]; simp
  · rintro ⟨ix, iy, iz, hx, hy, hz, hs, hm⟩
    rw [hx, hy, hz]
    simp only [Except.ok.injEq]
    apply sorted_ext (uniqueNat_sorted _) hs
    intro i
    rw [mem_uniqueNat, hm]; simp

theorem union3_quiet (det : List F → Py (List Nat)) (v : Vel F) : union3 det v = .ok [] ↔ Quiet det v := by
  rw [union3_ok]
  constructor
  · rintro ⟨ix, iy, iz, hx, hy, hz, -, hm⟩
    have e : ∀ l : List Nat, (∀ i ∈ l, i ∈ ([] : List Nat)) → l = [] := fun l h =>
      List.eq_nil_iff_forall_not_mem.mpr (fun i hi => by simpa using h i hi)
    rw [e ix (fun i hi => (hm i).mpr (Or.inl hi))] at hx
    rw [e iy (fun i hi => (hm i).mpr (Or.inr (Or.inl hi)))] at hy
    rw [e iz (fun i hi => (hm i).mpr (Or.inr (Or.inr hi)))] at hz
    exact ⟨hx, hy, hz⟩
  · rintro ⟨hx, hy, hz⟩
    exact ⟨[], [], [], hx, hy, hz, List.Pairwise.nil, by simp⟩

theorem union3_positions {det : List F → Py (List Nat)} (hd : ∀ c r, det c = .ok r → Positions c.length r) {n : Nat}
    {v : Vel F} (hv : Sized n v) {sp : List Nat} (h : union3 det v = .ok sp) : Positions n sp := by
  obtain ⟨ix, iy, iz, hx, hy, hz, hs, hm⟩ := (union3_ok det v sp).mp h
  refine ⟨hs, fun i hi => ?_⟩
  rcases (hm i).mp hi with h | h | h
  · rw [← hv.1]; exact (hd _ _ hx).2 i h
  · rw [← hv.2.1]; exact (hd _ _ hy).2 i h
  · rw [← hv.2.2]; exact (hd _ _ hz).2 i h

/-- how the loop ends -/
theorem loop_end (find : Nat → Vel F → Py (List Nat)) (repl : List F → List Int → Py (List F)) :
    ∀ (fuel it : Nat) (v : Vel F) (o : Out F), loop find repl fuel it v = .ok o →
      it ≤ o.rounds ∧ o.rounds ≤ it + fuel ∧ (o.broke = false ↔ o.rounds = it + fuel) ∧
        (o.broke = true → find o.rounds o.data = .ok []) ∧ (o.rounds = it → o.data = v) := by
  intro fuel
  induction fuel with
  | zero =>
    intro it v o h
    simp only [loop, Except.ok.injEq] at h
    subst h
    simp
  | succ fuel ih =>
    intro it v o h
    rw [loop] at h
    simp only [bind, Except.bind] at h
    cases hf : find it v with
    | error e => rw [hf] at h; cases h
    | ok sp =>
      rw [hf] at h; simp only at h
      split_ifs at h with he
      · simp only [Except.ok.injEq] at h
        subst h
        rw [List.isEmpty_iff] at he
        subst he
        refine ⟨le_refl _, by simp, by simp, fun _ => hf, fun _ => rfl⟩
      · cases hx : repl v.x (sp.map (fun i : Nat => (i : Int))) with
        | error e => rw [hx] at h; cases h
        | ok x =>
          rw [hx] at h; simp only at h
          cases hy : repl v.y (sp.map (fun i : Nat => (i : Int))) with
          | error e => rw [hy] at h; cases h
          | ok y =>
            rw [hy] at h; simp only at h
            cases hz : repl v.z (sp.map (fun i : Nat => (i : Int))) with
            | error e => rw [hz] at h; cases h
            | ok z =>
              rw [hz] at h; simp only at h
              obtain ⟨a1, a2, a3, a4, -⟩ := ih (it + 1) ⟨x, y, z⟩ o h
              refine ⟨by omega, by omega, ?_, a4, by omega⟩
              rw [a3]; omega

/-- samples outside all the spike sets -/
theorem loop_frame (find : Nat → Vel F → Py (List Nat)) (repl : List F → List Int → Py (List F)) (g : F → F) (n : Nat)
    (hfind : ∀ it v sp, Sized n v → find it v = .ok sp → Positions n sp)
    (hrepl : ∀ (c : List F) sp out, c.length = n → Positions n sp → repl c (sp.map (fun i : Nat => (i : Int))) = .ok out →
      out.length = n ∧ ∀ k, k ∉ sp → out[k]? = (c[k]?).map g) :
    ∀ (fuel it : Nat) (v : Vel F) (o : Out F), Sized n v → loop find repl fuel it v = .ok o →
      Sized n o.data ∧ ∃ sps : List (List Nat), it + sps.length = o.rounds ∧ (∀ sp ∈ sps, sp ≠ [] ∧ Positions n sp) ∧
        (∀ sp, find it v = .ok sp → 0 < fuel → sp ≠ [] → sps.head? = some sp) ∧
        ∀ k, (∀ sp ∈ sps, k ∉ sp) → o.data.x[k]? = (v.x[k]?).map (g^[sps.length]) ∧
          o.data.y[k]? = (v.y[k]?).map (g^[sps.length]) ∧ o.data.z[k]? = (v.z[k]?).map (g^[sps.length]) := by
  intro fuel
  induction fuel with
  | zero =>
    intro it v o hv h
    simp only [loop, Except.ok.injEq] at h
    subst h
    exact ⟨hv, [], by simp, by simp, by simp, by simp⟩
  | succ fuel ih =>
    intro it v o hv h
    rw [loop] at h
    simp only [bind, Except.bind] at h
    cases hf : find it v with
    | error e => rw [hf] at h; cases h
    | ok sp =>
      rw [hf] at h; simp only at h
      split_ifs at h with he
      · simp only [Except.ok.injEq] at h
        subst h
        rw [List.isEmpty_iff] at he
        refine ⟨hv, [], by simp, by simp, ?_, by simp⟩
        intro sp' h' _ hne
        simp only [Except.ok.injEq] at h'
        exact absurd (h' ▸ he) hne
      · have hp := hfind it v sp hv hf
        cases hx : repl v.x (sp.map (fun i : Nat => (i : Int))) with
        | error e => rw [hx] at h; cases h
        | ok x =>
          rw [hx] at h; simp only at h
          cases hy : repl v.y (sp.map (fun i : Nat => (i : Int))) with
          | error e => rw [hy] at h; cases h
          | ok y =>
            rw [hy] at h; simp only at h
            cases hz : repl v.z (sp.map (fun i : Nat => (i : Int))) with
            | error e => rw [hz] at h; cases h
            | ok z =>
              rw [hz] at h; simp only at h
              obtain ⟨lx, fx⟩ := hrepl _ sp x hv.1 hp hx
              obtain ⟨ly, fy⟩ := hrepl _ sp y hv.2.1 hp hy
              obtain ⟨lz, fz⟩ := hrepl _ sp z hv.2.2 hp hz
              obtain ⟨s1, sps, s2, s3, -, s4⟩ := ih (it + 1) ⟨x, y, z⟩ o ⟨lx, ly, lz⟩ h
              refine ⟨s1, sp :: sps, by simp only [List.length_cons]; omega, ?_, ?_, ?_⟩
              · intro q hq
                rcases List.mem_cons.mp hq with rfl | hq
                · exact ⟨by simpa using he, hp⟩
                · exact s3 q hq
              · intro sp' h' _ _
                simp only [Except.ok.injEq] at h'
                rw [h']; rfl
              · intro k hk
                have k1 := hk sp List.mem_cons_self
                have k2 := s4 k (fun q hq => hk q (List.mem_cons_of_mem _ hq))
                simp only at k2
                rw [fx k k1, fy k k1, fz k k1] at k2
                simp only [Option.map_map] at k2
                rw [List.length_cons, Function.iterate_succ]
                exact k2

/-- a quiet first round: the data come back untouched -/
theorem loop_quiet (find : Nat → Vel F → Py (List Nat)) (repl : List F → List Int → Py (List F)) (fuel it : Nat)
    (v : Vel F) (h : find it v = .ok []) : loop find repl (fuel + 1) it v = .ok ⟨v, it, true⟩ := by
  rw [loop]; simp only [h, bind, Except.bind]; rfl

theorem interp3_frame (n : Nat) (c : List F) (sp : List Nat) (out : List F) (hc : c.length = n) (hp : Positions n sp)
    (h : interp3 c (sp.map (fun i : Nat => (i : Int))) = .ok out) :
    out.length = n ∧ ∀ k, k ∉ sp → out[k]? = (c[k]?).map (fun x => PyNum.around x 3) := by
  subst hc
  exact C44_linear c sp hp.1 hp.2 false 3 out h

theorem mean_frame (n : Nat) (c : List F) (sp : List Nat) (out : List F) (hc : c.length = n) (hp : Positions n sp)
    (h : meanValue (Arr.flt c) (sp.map (fun i : Nat => (i : Int))) = .ok out) :
    out.length = n ∧ ∀ k, k ∉ sp → out[k]? = (c[k]?).map id := by
  subst hc
  obtain ⟨h1, h2⟩ := C44_mean _ _ _ h
  refine ⟨h1, fun k hk => ?_⟩
  rw [Option.map_id_fun, id]
  exact h2 k (fun hh => hk ((hits_nat hp.2 k).mp hh))

end generic

section math
variable {F : Type} [PyMath F]

/-- specification: what each example asks of one component in a round -/
def phaseDet (c : List F) : Py (List Nat) := do let d ← centred c; phasespaceThresholding (Arr.flt d)

/-- specification -/
def sphDet (c : List F) : Py (List Nat) := do let m ← meanOf c; sphericalThresholding (c.map (fun u => u -. m)) 0 m

/-- specification: `tag` is 1 (upward) or 2 (downward) -/
def accDet (tag : Int) (c : List F) : Py (List Nat) := do
  let d ← centred c
  acceleration (Arr.flt d) (lit 100) tag (lit 980) (lit (3 / 2)) (lit 1)

theorem centred_length {c d : List F} (h : centred c = .ok d) : d.length = c.length := by
  unfold centred at h
  simp only [bind, Except.bind] at h
  split at h
  · cases h
  · cases h; simp

theorem phaseDet_positions (c : List F) (r : List Nat) (h : phaseDet c = .ok r) : Positions c.length r := by
  unfold phaseDet at h
  simp only [bind, Except.bind] at h
  cases hc : centred c with
  | error e => rw [hc] at h; cases h
  | ok d => rw [hc] at h; rw [← centred_length hc]; exact C59_phasespace false d r h

theorem accDet_positions (tag : Int) (c : List F) (r : List Nat) (h : accDet tag c = .ok r) : Positions c.length r := by
  unfold accDet at h
  simp only [bind, Except.bind] at h
  cases hc : centred c with
  | error e => rw [hc] at h; cases h
  | ok d => rw [hc] at h; rw [← centred_length hc]; exact C59_acceleration _ _ _ _ _ _ r h

theorem sphDet_positions (c : List F) (r : List Nat) (h : sphDet c = .ok r) : Positions c.length r := by
  unfold sphDet at h
  simp only [bind, Except.bind] at h
  cases hc : meanOf c with
  | error e => rw [hc] at h; cases h
  | ok m => rw [hc] at h; simpa [Positions] using C59_spherical _ _ _ r h

theorem findPhase_eq (it : Nat) (v : Vel F) : findPhase it v = union3 phaseDet v := rfl
theorem findSpherical_eq (it : Nat) (v : Vel F) : findSpherical it v = union3 sphDet v := rfl
theorem findAcceleration_eq (it : Nat) (v : Vel F) : findAcceleration it v = union3 (accDet (tagAt it)) v := rfl

theorem tagAt_eq (it : Nat) : tagAt it = if it % 2 = 0 then 2 else 1 := by
  induction it with
  | zero => rfl
  | succ n ih =>
    rw [tagAt, ih]
    rcases Nat.mod_two_eq_zero_or_one n with h | h
    · rw [if_pos h, if_neg (by decide), if_neg (by omega)]
    · simp [h, Nat.add_mod]

/-- **C143** phase-space thresholding: at most ten replacement rounds; fewer than ten exactly when the loop was left
because a round found nothing; in that case no component of the returned data is flagged any more, and feeding the result
back returns it unchanged without a single round. -/
theorem C143_phase_space (v : Vel F) (o : Out F) (h : phaseSpace v = .ok o) :
    o.rounds ≤ 10 ∧ (o.broke = true ↔ o.rounds < 10) ∧ (o.rounds = 0 → o.data = v) ∧
      (o.broke = true → Quiet phaseDet o.data ∧ phaseSpace o.data = .ok ⟨o.data, 0, true⟩) := by
  obtain ⟨-, h2, h3, h4, h5⟩ := loop_end _ _ _ _ _ _ h
  refine ⟨by omega, ?_, h5, fun hb => ?_⟩
  · rw [← Bool.not_eq_false, h3]; omega
  · have := h4 hb
    rw [findPhase_eq] at this
    exact ⟨(union3_quiet _ _).mp this, loop_quiet _ _ 9 0 _ this⟩

/-- **C143** spherical thresholding: the same with three rounds. -/
theorem C143_spherical (v : Vel F) (o : Out F) (h : phaseSpace3d v = .ok o) :
    o.rounds ≤ 3 ∧ (o.broke = true ↔ o.rounds < 3) ∧ (o.rounds = 0 → o.data = v) ∧
      (o.broke = true → Quiet sphDet o.data ∧ phaseSpace3d o.data = .ok ⟨o.data, 0, true⟩) := by
  obtain ⟨-, h2, h3, h4, h5⟩ := loop_end _ _ _ _ _ _ h
  refine ⟨by omega, ?_, h5, fun hb => ?_⟩
  · rw [← Bool.not_eq_false, h3]; omega
  · have := h4 hb
    rw [findSpherical_eq] at this
    exact ⟨(union3_quiet _ _).mp this, loop_quiet _ _ 2 0 _ this⟩

/-- **C143** velocity correlation: the same with ten rounds and the joint detector. -/
theorem C143_correlation (v : Vel F) (o : Out F) (h : correlationExample v = .ok o) :
    o.rounds ≤ 10 ∧ (o.broke = true ↔ o.rounds < 10) ∧ (o.rounds = 0 → o.data = v) ∧
      (o.broke = true → (∃ x y z, centred o.data.x = .ok x ∧ centred o.data.y = .ok y ∧ centred o.data.z = .ok z ∧
        velocityCorrelation x y z = .ok []) ∧ correlationExample o.data = .ok ⟨o.data, 0, true⟩) := by
  obtain ⟨-, h2, h3, h4, h5⟩ := loop_end _ _ _ _ _ _ h
  refine ⟨by omega, ?_, h5, fun hb => ?_⟩
  · rw [← Bool.not_eq_false, h3]; omega
  · have hq := h4 hb
    refine ⟨?_, loop_quiet _ _ 9 0 _ hq⟩
    unfold findCorrelation at hq
    simp only [bind, Except.bind] at hq
    cases hx : centred o.data.x with
    | error e => rw [hx] at hq; cases hq
    | ok x =>
      rw [hx] at hq; simp only at hq
      cases hy : centred o.data.y with
      | error e => rw [hy] at hq; cases hq
      | ok y =>
        rw [hy] at hq; simp only at hq
        cases hz : centred o.data.z with
        | error e => rw [hz] at hq; cases hq
        | ok z => rw [hz] at hq; exact ⟨x, y, z, rfl, rfl, rfl, hq⟩

/-- **C143** acceleration thresholding: downward events (tag 2) are sought in even rounds, upward ones (tag 1) in odd rounds;
when the loop was left early, the direction of that round finds nothing in the result.  Nothing is claimed of the other
direction (see C145). -/
theorem C143_acceleration (v : Vel F) (o : Out F) (h : accelerationExample v = .ok o) :
    o.rounds ≤ 10 ∧ (o.broke = true ↔ o.rounds < 10) ∧ (o.rounds = 0 → o.data = v) ∧
      (o.broke = true → Quiet (accDet (if o.rounds % 2 = 0 then 2 else 1)) o.data) ∧
      (o.broke = true → o.rounds % 2 = 0 → accelerationExample o.data = .ok ⟨o.data, 0, true⟩) := by
  obtain ⟨-, h2, h3, h4, h5⟩ := loop_end _ _ _ _ _ _ h
  refine ⟨by omega, ?_, h5, fun hb => ?_, fun hb he => ?_⟩
  · rw [← Bool.not_eq_false, h3]; omega
  · have := h4 hb
    rw [findAcceleration_eq, tagAt_eq] at this
    exact (union3_quiet _ _).mp this
  · have := h4 hb
    rw [findAcceleration_eq, tagAt_eq, if_pos he] at this
    exact loop_quiet _ _ 9 0 _ this

/-- specification: the samples outside all of the `rounds` spike sets were only passed through `g` once a round, the first
set being what the detector `find` reports on the input -/
def Outside (g : F → F) (n : Nat) (find : Py (List Nat)) (v : Vel F) (o : Out F) : Prop :=
  Sized n o.data ∧ ∃ sps : List (List Nat), sps.length = o.rounds ∧ (∀ sp ∈ sps, sp ≠ [] ∧ Positions n sp) ∧
    (∀ sp, find = .ok sp → sp ≠ [] → sps.head? = some sp) ∧
    ∀ k, (∀ sp ∈ sps, k ∉ sp) → o.data.x[k]? = (v.x[k]?).map (g^[o.rounds]) ∧
      o.data.y[k]? = (v.y[k]?).map (g^[o.rounds]) ∧ o.data.z[k]? = (v.z[k]?).map (g^[o.rounds])

theorem outside_of_frame {g : F → F} {n fuel : Nat} {find : Nat → Vel F → Py (List Nat)} {v : Vel F} {o : Out F}
    (h : Sized n o.data ∧ ∃ sps : List (List Nat), 0 + sps.length = o.rounds ∧ (∀ sp ∈ sps, sp ≠ [] ∧ Positions n sp) ∧
        (∀ sp, find 0 v = .ok sp → 0 < fuel + 1 → sp ≠ [] → sps.head? = some sp) ∧
        ∀ k, (∀ sp ∈ sps, k ∉ sp) → o.data.x[k]? = (v.x[k]?).map (g^[sps.length]) ∧
          o.data.y[k]? = (v.y[k]?).map (g^[sps.length]) ∧ o.data.z[k]? = (v.z[k]?).map (g^[sps.length])) :
    Outside g n (find 0 v) v o := by
  obtain ⟨h1, sps, h2, h3, h4, h5⟩ := h
  rw [Nat.zero_add] at h2
  refine ⟨h1, sps, h2, h3, fun sp e ne => h4 sp e (by omega) ne, ?_⟩
  rw [← h2]; exact h5

/-- **C143** lengths are kept, and the samples of all three components outside the union of the spike sets are only rounded
to three decimals, once a round (phase-space, spherical and acceleration examples); with `mean_value` (correlation example)
they are not touched at all. -/
theorem C143_frame (n : Nat) (v : Vel F) (hv : Sized n v) :
    (∀ o, phaseSpace v = .ok o → Outside (fun x => PyNum.around x 3) n (union3 phaseDet v) v o) ∧
    (∀ o, phaseSpace3d v = .ok o → Outside (fun x => PyNum.around x 3) n (union3 sphDet v) v o) ∧
    (∀ o, accelerationExample v = .ok o → Outside (fun x => PyNum.around x 3) n (union3 (accDet 2) v) v o) ∧
    (2 ≤ n → ∀ o, correlationExample v = .ok o → Outside id n (findCorrelation 0 v) v o) := by
  refine ⟨fun o h => ?_, fun o h => ?_, fun o h => ?_, fun hn o h => ?_⟩
  · exact outside_of_frame (fuel := 9) (find := findPhase) (loop_frame findPhase interp3 _ n
      (fun it v sp hv h => union3_positions phaseDet_positions hv h) (fun c sp out => interp3_frame n c sp out) 10 0 v o hv h)
  · exact outside_of_frame (fuel := 2) (find := findSpherical) (loop_frame findSpherical interp3 _ n
      (fun it v sp hv h => union3_positions sphDet_positions hv h) (fun c sp out => interp3_frame n c sp out) 3 0 v o hv h)
  · exact outside_of_frame (fuel := 9) (find := findAcceleration) (loop_frame findAcceleration interp3 _ n
      (fun it v sp hv h => union3_positions (accDet_positions (tagAt it)) hv h)
      (fun c sp out => interp3_frame n c sp out) 10 0 v o hv h)
  · refine outside_of_frame (fuel := 9) (find := findCorrelation) (loop_frame findCorrelation _ id n
      (fun it v sp hv h => ?_) (fun c sp out => mean_frame n c sp out) 10 0 v o hv h)
    unfold findCorrelation at h
    simp only [bind, Except.bind] at h
    cases hx : centred v.x with
    | error e => rw [hx] at h; cases h
    | ok x =>
      rw [hx] at h; simp only at h
      cases hy : centred v.y with
      | error e => rw [hy] at h; cases h
      | ok y =>
        rw [hy] at h; simp only at h
        cases hz : centred v.z with
        | error e => rw [hz] at h; cases h
        | ok z =>
          rw [hz] at h
          have lx := centred_length hx
          have ly := centred_length hy
          have lz := centred_length hz
          have := C59_correlation x y z sp (by rw [lx, hv.1]; exact hn) (by rw [lx, ly, hv.1, hv.2.1])
            (by rw [lx, lz, hv.1, hv.2.2]) h
          rwa [lx, hv.1] at this

/-- **C143** clean data are returned bit for bit, not even rounded. -/
theorem C143_clean (v : Vel F) :
    (Quiet phaseDet v → phaseSpace v = .ok ⟨v, 0, true⟩) ∧ (Quiet sphDet v → phaseSpace3d v = .ok ⟨v, 0, true⟩) ∧
    (Quiet (accDet 2) v → accelerationExample v = .ok ⟨v, 0, true⟩) ∧
    (findCorrelation 0 v = .ok [] → correlationExample v = .ok ⟨v, 0, true⟩) :=
  ⟨fun h => loop_quiet _ _ 9 0 _ ((union3_quiet _ _).mpr h), fun h => loop_quiet _ _ 2 0 _ ((union3_quiet _ _).mpr h),
    fun h => loop_quiet _ _ 9 0 _ ((union3_quiet _ _).mpr h), fun h => loop_quiet _ _ 9 0 _ h⟩

/-- **C147** the kernel examples make one pass and do not test for an empty index set: when nothing is detected they raise
IndexError; any other detection is replaced, lengths are kept and the samples outside the set are only rounded. -/
theorem C147_trivariate (kde : List (F × F) → List F → List F → Py (List (List F))) (n : Nat) (v : Vel F) (hv : Sized n v) :
    (Quiet (fun c => threeDimensionalKernel kde (Arr.flt c) 64) v → trivariateExample kde v = .error .indexError) ∧
    ∀ out, trivariateExample kde v = .ok out → Sized n out ∧
      ∃ sp, union3 (fun c => threeDimensionalKernel kde (Arr.flt c) 64) v = .ok sp ∧ sp ≠ [] ∧ Positions n sp ∧
        ∀ k, k ∉ sp → out.x[k]? = (v.x[k]?).map (fun x => PyNum.around x 3) ∧
          out.y[k]? = (v.y[k]?).map (fun x => PyNum.around x 3) ∧ out.z[k]? = (v.z[k]?).map (fun x => PyNum.around x 3) := by
  constructor
  · intro h
    unfold trivariateExample
    simp only [bind, Except.bind]
    rw [(union3_quiet _ _).mpr h]
    rfl
  · intro out h
    unfold trivariateExample at h
    simp only [bind, Except.bind] at h
    cases hf : union3 (fun c => threeDimensionalKernel kde (Arr.flt c) 64) v with
    | error e => rw [hf] at h; cases h
    | ok sp =>
      rw [hf] at h; simp only at h
      have hp : Positions n sp := union3_positions (fun c r hc => C59_kernel kde (Arr.flt c) 64 r hc) hv hf
      have hne : sp ≠ [] := by rintro rfl; cases h
      cases hx : interp3 v.x (sp.map (fun i : Nat => (i : Int))) with
      | error e => rw [hx] at h; cases h
      | ok x =>
        rw [hx] at h; simp only at h
        cases hy : interp3 v.y (sp.map (fun i : Nat => (i : Int))) with
        | error e => rw [hy] at h; cases h
        | ok y =>
          rw [hy] at h; simp only at h
          cases hz : interp3 v.z (sp.map (fun i : Nat => (i : Int))) with
          | error e => rw [hz] at h; cases h
          | ok z =>
            rw [hz] at h; simp only [Except.ok.injEq] at h
            subst h
            obtain ⟨lx, fx⟩ := interp3_frame n _ sp x hv.1 hp hx
            obtain ⟨ly, fy⟩ := interp3_frame n _ sp y hv.2.1 hp hy
            obtain ⟨lz, fz⟩ := interp3_frame n _ sp z hv.2.2 hp hz
            exact ⟨⟨lx, ly, lz⟩, sp, rfl, hne, hp, fun k hk => ⟨fx k hk, fy k hk, fz k hk⟩⟩

end math

end Proadv.Props
