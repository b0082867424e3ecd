import Verif.Props.Sop2

/-!
# C233: `_cxr` on roots that are conjugate only up to rounding
-/

set_option linter.unusedSectionVars false

namespace Proadv.Props

open Proadv Proadv.Butter Complex

noncomputable section

namespace Spec

/-- further from the real axis than the tolerance -/
def Far (me : ℝ) (v : ℂ) : Prop := me * ‖v‖ < |v.im|

/-- conjugate up to the tolerance -/
def Mate (me : ℝ) (p n : ℂ) : Prop := ‖p - starRingEnd ℂ n‖ ≤ me * ‖n‖

/-- ordered by distance from the real axis, equal distances by real part -/
def ByIm (a b : ℂ) : Prop := |a.im| < |b.im| ∨ (|a.im| = |b.im| ∧ a.re ≤ b.re)

/-- the mean of a root and the conjugate of its mate -/
def mid (p n : ℂ) : ℂ := (p + starRingEnd ℂ n) / 2

end Spec

open Spec

private theorem imLe_trans (a b c : ℂ) (h : imLe a b = true) (h' : imLe b c = true) : imLe a c = true := by
  simp only [imLe, decide_eq_true_eq] at *; exact h.trans h'

private theorem imLe_total (a b : ℂ) : (imLe a b || imLe b a) = true := by
  simp only [imLe, Bool.or_eq_true, decide_eq_true_eq]; exact le_total _ _

/-- sorting a list that is sorted by real part by distance from the axis leaves ties in order -/
private theorem sort_stable : ∀ l : List ℂ, l.Pairwise (fun a b => lexLe a b = true) → (l.mergeSort imLe).Pairwise ByIm := by
  intro l
  induction l with
  | nil => intro _; simp
  | cons a t ih =>
    intro h
    rw [List.pairwise_cons] at h
    obtain ⟨l1, l2, e1, e2, e3⟩ := List.mergeSort_cons imLe_trans imLe_total a t
    have it := ih h.2
    have hs := List.pairwise_mergeSort imLe_trans imLe_total (a :: t)
    have hmem : ∀ b ∈ l1 ++ l2, b ∈ t := by
      intro b hb; rw [← e2] at hb; exact (List.mergeSort_perm t imLe).subset hb
    rw [e1] at hs ⊢
    rw [e2] at it
    rw [List.pairwise_append] at it hs ⊢
    refine ⟨it.1, List.pairwise_cons.mpr ⟨?_, it.2.1⟩, ?_⟩
    · intro b hb
      have h1 := (List.pairwise_cons.mp hs.2.1).1 b hb
      have h2 := h.1 b (hmem b (by simp [hb]))
      simp only [imLe, decide_eq_true_eq] at h1
      simp only [lexLe, decide_eq_true_eq] at h2
      rcases h1.lt_or_eq with h1 | h1
      · exact Or.inl h1
      · refine Or.inr ⟨h1, ?_⟩
        rcases h2 with h2 | h2
        · exact h2.le
        · exact h2.1.le
    · intro b hb c hc
      rcases List.mem_cons.mp hc with rfl | hc
      · have := e3 b hb
        simp only [imLe, Bool.not_eq_true', decide_eq_false_iff_not, not_le] at this
        exact Or.inl this
      · exact it.2.2 b hb c hc

private theorem byIm_antisymm {a b : ℂ} (hab : a.im = |a.im| ∧ b.im = |b.im| ∨ a.im = -|a.im| ∧ b.im = -|b.im|)
    (h : ByIm a b) (h' : ByIm b a) : a = b := by
  rcases h with h | h <;> rcases h' with h' | h'
  · linarith
  · linarith [h'.1]
  · linarith [h.1]
  · apply Complex.ext (le_antisymm h.2 h'.2)
    rcases hab with ⟨h1, h2⟩ | ⟨h1, h2⟩ <;> rw [h1, h2, h.1]

private theorem sort_eq {l ps : List ℂ} (hp : l.Perm ps) (hl : l.Pairwise (fun a b => lexLe a b = true)) (hs : ps.Pairwise ByIm)
    (hsgn : (∀ v ∈ ps, 0 < v.im) ∨ ∀ v ∈ ps, v.im < 0) : l.mergeSort imLe = ps := by
  have hpp : (l.mergeSort imLe).Perm ps := (List.mergeSort_perm l imLe).trans hp
  apply List.Perm.eq_of_pairwise (le := ByIm) _ (sort_stable l hl) hs hpp
  intro a b ha hb h1 h2
  have ha' := hpp.subset ha
  apply byIm_antisymm _ h1 h2
  rcases hsgn with h | h
  · left; exact ⟨(abs_of_pos (h a ha')).symm, (abs_of_pos (h b hb)).symm⟩
  · right; rw [abs_of_neg (h a ha'), abs_of_neg (h b hb)]; constructor <;> ring

/-- one run: all real parts within the tolerance of each other -/
private theorem blocks_one (me : ℝ) : ∀ l : List ℂ, l ≠ [] → (∀ a ∈ l, ∀ b ∈ l, b.re - a.re ≤ me * ‖a‖) →
    blocks me l = [l.length] := by
  intro l
  induction l with
  | nil => intro h; exact absurd rfl h
  | cons a t ih =>
    intro _ h
    cases t with
    | nil => rfl
    | cons b t =>
      rw [blocks, ih (by simp) (fun x hx y hy => h x (List.mem_cons_of_mem _ hx) y (List.mem_cons_of_mem _ hy))]
      simp only
      rw [if_pos (h a (by simp) b (by simp))]
      simp

/-- what the three classes of the sorted list are -/
private theorem classes (me : ℝ) (xs : List ℂ) :
    (xs.filter (fun v => !decide (|v.im| ≤ me * ‖v‖))).filter (fun v => decide (0 < v.im)) =
      xs.filter (fun v => decide (me * ‖v‖ < |v.im| ∧ 0 < v.im)) ∧
    (xs.filter (fun v => !decide (|v.im| ≤ me * ‖v‖))).filter (fun v => decide (v.im < 0)) =
      xs.filter (fun v => decide (me * ‖v‖ < |v.im| ∧ v.im < 0)) := by
  constructor <;>
  · rw [List.filter_filter]
    apply List.filter_congr
    intro v _
    by_cases h1 : |v.im| ≤ me * ‖v‖
    · have h2 : ¬ me * ‖v‖ < |v.im| := not_lt.mpr h1
      simp only [h1, h2, false_and, decide_true, Bool.not_true, Bool.and_false, decide_false]
    · have h2 : me * ‖v‖ < |v.im| := not_le.mp h1
      simp only [h1, h2, true_and, decide_false, Bool.not_false, Bool.and_true]

/-- `_cxr` in terms of the three classes of the sorted list -/
private theorem cxr_eq {me : ℝ} {x : List ℂ} (hx : x ≠ []) :
    cxr me x =
      (let xs := x.mergeSort lexLe
       let xr := (xs.filter (fun v => decide (|v.im| ≤ me * ‖v‖))).map (fun v => ((v.re : ℝ) : ℂ))
       let xp := xs.filter (fun v => decide (me * ‖v‖ < |v.im| ∧ 0 < v.im))
       let xn := xs.filter (fun v => decide (me * ‖v‖ < |v.im| ∧ v.im < 0))
       if xr.length = xs.length then .ok ([], xr)
       else if xp.length ≠ xn.length then .error .valueError
       else match matchPairs me (sortBlocks (blocks me xp) xp) (sortBlocks (blocks me xp) xn) with
         | .ok m => .ok (m, xr)
         | .error e => .error e) := by
  unfold cxr
  rw [if_neg (by simpa using hx)]
  simp only [(classes me (x.mergeSort lexLe)).1, (classes me (x.mergeSort lexLe)).2]
  split_ifs
  · rfl
  · rfl
  · generalize matchPairs me _ _ = r
    cases r <;> rfl

private theorem sorted_lex (x : List ℂ) : (x.mergeSort lexLe).Pairwise (fun a b => lexLe a b = true) :=
  List.pairwise_mergeSort lexLe_trans lexLe_total x

/-- **C233** the order in which the roots are given does not matter. -/
theorem C233_order (me : ℝ) {x x' : List ℂ} (h : x.Perm x') : cxr me x = cxr me x' := by
  by_cases hx : x = []
  · subst hx; rw [List.nil_perm.mp h]
  have hx' : x' ≠ [] := fun e => hx (by rw [e] at h; exact List.perm_nil.mp h)
  rw [cxr_eq hx, cxr_eq hx']
  have hp : (x.mergeSort lexLe).Perm (x'.mergeSort lexLe) :=
    (List.mergeSort_perm x lexLe).trans (h.trans (List.mergeSort_perm x' lexLe).symm)
  have s1 := sorted_lex x
  have s2 := sorted_lex x'
  generalize x.mergeSort lexLe = xs at *
  generalize x'.mergeSort lexLe = ys at *
  have e1 : xs.filter (fun v => decide (me * ‖v‖ < |v.im| ∧ 0 < v.im)) = ys.filter (fun v => decide (me * ‖v‖ < |v.im| ∧ 0 < v.im)) := by
    apply List.Perm.eq_of_pairwise (le := fun a b => lexLe a b = true) _ (s1.filter _) (s2.filter _) (hp.filter _)
    intro a b ha hb h1 h2
    have ha' : 0 < a.im := by have := (List.mem_filter.mp ha).2; simp only [decide_eq_true_eq] at this; exact this.2
    have hb' : 0 < b.im := by have := (List.mem_filter.mp hb).2; simp only [decide_eq_true_eq] at this; exact this.2
    rw [← lexLe_conj] at h1 h2
    have := lexLe_antisymm (by simpa using ha') (by simpa using hb') h1 h2
    exact (starRingEnd ℂ).injective this
  have e2 : xs.filter (fun v => decide (me * ‖v‖ < |v.im| ∧ v.im < 0)) = ys.filter (fun v => decide (me * ‖v‖ < |v.im| ∧ v.im < 0)) := by
    apply List.Perm.eq_of_pairwise (le := fun a b => lexLe a b = true) _ (s1.filter _) (s2.filter _) (hp.filter _)
    intro a b ha hb h1 h2
    have ha' : a.im < 0 := by have := (List.mem_filter.mp ha).2; simp only [decide_eq_true_eq] at this; exact this.2
    have hb' : b.im < 0 := by have := (List.mem_filter.mp hb).2; simp only [decide_eq_true_eq] at this; exact this.2
    exact lexLe_antisymm ha' hb' h1 h2
  have e3 : (xs.filter (fun v => decide (|v.im| ≤ me * ‖v‖))).map (fun v => ((v.re : ℝ) : ℂ)) =
      (ys.filter (fun v => decide (|v.im| ≤ me * ‖v‖))).map (fun v => ((v.re : ℝ) : ℂ)) := by
    apply List.Perm.eq_of_pairwise (le := fun a b : ℂ => a.re ≤ b.re ∧ a.im = 0 ∧ b.im = 0)
    · intro a b _ _ h1 h2
      exact Complex.ext (le_antisymm h1.1 h2.1) (h1.2.1.trans h1.2.2.symm)
    · rw [List.pairwise_map]
      refine (s1.filter _).imp fun {a b} h => ?_
      simp only [lexLe, decide_eq_true_eq] at h
      exact ⟨by simpa using h.elim le_of_lt (fun e => e.1.le), by simp⟩
    · rw [List.pairwise_map]
      refine (s2.filter _).imp fun {a b} h => ?_
      simp only [lexLe, decide_eq_true_eq] at h
      exact ⟨by simpa using h.elim le_of_lt (fun e => e.1.le), by simp⟩
    · exact (hp.filter _).map _
  simp only [e1, e2, e3, hp.length_eq]

/-- **C233** what a result means: every root above the axis was paired with exactly one below it, conjugate up to the tolerance; the
first list holds the means of the pairs and the second the real parts of the roots near the axis. -/
theorem C233_sound (me : ℝ) (x c r : List ℂ) (h : cxr me x = .ok (c, r)) :
    ∃ ps ns : List ℂ, List.Forall₂ (Mate me) ps ns ∧ c = List.zipWith mid ps ns ∧
      (∀ v ∈ ps, Far me v ∧ 0 < v.im) ∧ (∀ v ∈ ns, Far me v ∧ v.im < 0) ∧
      ∃ nr : List ℂ, (∀ v ∈ nr, ¬ Far me v) ∧ r = nr.map (fun v => ((v.re : ℝ) : ℂ)) ∧
        (0 ≤ me → x.Perm (ps ++ ns ++ nr)) := by
  by_cases hx : x = []
  · subst hx
    simp only [cxr, List.isEmpty_nil, if_true, Except.ok.injEq, Prod.mk.injEq] at h
    exact ⟨[], [], List.Forall₂.nil, by simp [← h.1], by simp, by simp, [], by simp, by simp [← h.2], by simp⟩
  rw [cxr_eq hx] at h
  have hp : (x.mergeSort lexLe).Perm x := List.mergeSort_perm x lexLe
  generalize x.mergeSort lexLe = xs at *
  simp only at h
  set xr := xs.filter (fun v => decide (|v.im| ≤ me * ‖v‖)) with hxr
  set xp := xs.filter (fun v => decide (me * ‖v‖ < |v.im| ∧ 0 < v.im)) with hxp
  set xn := xs.filter (fun v => decide (me * ‖v‖ < |v.im| ∧ v.im < 0)) with hxn
  have hnr : ∀ v ∈ xr, ¬ Far me v := by
    intro v hv
    have := (List.mem_filter.mp hv).2
    simp only [decide_eq_true_eq] at this
    exact not_lt.mpr this
  split_ifs at h with h1 h2
  · simp only [Except.ok.injEq, Prod.mk.injEq] at h
    refine ⟨[], [], List.Forall₂.nil, by simp [← h.1], by simp, by simp, xr, hnr, h.2.symm, fun _ => ?_⟩
    rw [List.length_map, List.length_filter_eq_length_iff] at h1
    have : xr = xs := List.filter_eq_self.mpr h1
    rw [this]; simpa using hp.symm
  · have hlen : xp.length = xn.length := not_not.mp h2
    have sp : (sortBlocks (blocks me xp) xp).Perm xp := sortBlocks_perm _ _ (sum_blocks me xp)
    have sn : (sortBlocks (blocks me xp) xn).Perm xn := sortBlocks_perm _ _ ((sum_blocks me xp).trans hlen)
    have hl2 : (sortBlocks (blocks me xp) xp).length = (sortBlocks (blocks me xp) xn).length := by
      rw [sp.length_eq, sn.length_eq, hlen]
    generalize sortBlocks (blocks me xp) xp = ps at *
    generalize sortBlocks (blocks me xp) xn = ns at *
    unfold matchPairs at h
    split_ifs at h with h3
    · simp only [Except.ok.injEq, Prod.mk.injEq] at h
      have hm : List.Forall₂ (Mate me) ps ns := by
        clear h h2 sp sn hnr
        rw [Bool.not_eq_true, List.any_eq_false] at h3
        induction ps generalizing ns with
        | nil => rw [List.length_nil, eq_comm, List.length_eq_zero_iff] at hl2; subst hl2; exact List.Forall₂.nil
        | cons a t ih =>
          cases ns with
          | nil => simp at hl2
          | cons b s =>
            refine List.Forall₂.cons ?_ (ih s (by simpa using hl2) ?_)
            · have := h3 _ (by rw [List.zipWith_cons_cons]; exact List.mem_cons_self)
              simpa [Mate] using this
            · intro y hy
              exact h3 y (by rw [List.zipWith_cons_cons]; exact List.mem_cons_of_mem _ hy)
      refine ⟨ps, ns, hm, h.1.symm, ?_, ?_, xr, hnr, h.2.symm, fun hme => ?_⟩
      · intro v hv
        have := (List.mem_filter.mp (sp.subset hv)).2
        simpa [Far] using this
      · intro v hv
        have := (List.mem_filter.mp (sn.subset hv)).2
        simpa [Far] using this
      · have hperm : xs.Perm (xp ++ xn ++ xr) := by
          clear h3 h h1 h2 hlen hl2 sp sn hp hnr hm
          rw [hxp, hxn, hxr]
          clear hxp hxn hxr xp xn xr
          induction xs with
          | nil => simp
          | cons a t ih =>
            have hnn : 0 ≤ me * ‖a‖ := by positivity
            simp only [List.filter_cons]
            by_cases hn : |a.im| ≤ me * ‖a‖
            · have h1 : ¬ (me * ‖a‖ < |a.im| ∧ 0 < a.im) := fun h => absurd h.1 (not_lt.mpr hn)
              have h2 : ¬ (me * ‖a‖ < |a.im| ∧ a.im < 0) := fun h => absurd h.1 (not_lt.mpr hn)
              simp only [hn, h1, h2, decide_true, decide_false, if_true, Bool.false_eq_true, if_false]
              exact (ih.cons a).trans List.perm_middle.symm
            · have hf := not_le.mp hn
              have h0 : a.im ≠ 0 := fun e => by rw [e, abs_zero] at hf; linarith
              rcases lt_or_gt_of_ne h0 with hs | hs
              · have h1 : ¬ (me * ‖a‖ < |a.im| ∧ 0 < a.im) := fun h => by linarith [h.2]
                have h2 : (me * ‖a‖ < |a.im| ∧ a.im < 0) := ⟨hf, hs⟩
                rw [if_neg (by simpa using h1), if_pos (by simpa using h2), if_neg (by simpa using hn)]
                refine (ih.cons a).trans ?_
                rw [List.append_assoc, List.append_assoc]
                exact List.perm_middle.symm
              · have h1 : (me * ‖a‖ < |a.im| ∧ 0 < a.im) := ⟨hf, hs⟩
                have h2 : ¬ (me * ‖a‖ < |a.im| ∧ a.im < 0) := fun h => by linarith [h.2]
                rw [if_pos (by simpa using h1), if_neg (by simpa using h2), if_neg (by simpa using hn)]
                exact ih.cons a
        exact hp.symm.trans (hperm.trans ((sp.symm.append sn.symm).append_right _))

/-- **C233** roots that share their real part up to the tolerance are paired by distance from the axis, whatever their real parts'
order, and the result lists the means in that order, equal distances by real part. -/
theorem C233_run (me : ℝ) (ps ns x : List ℂ) (hx : x.Perm (ps ++ ns)) (hne : ps ≠ [])
    (hm : List.Forall₂ (Mate me) ps ns) (hp : ∀ v ∈ ps, Far me v ∧ 0 < v.im) (hn : ∀ v ∈ ns, Far me v ∧ v.im < 0)
    (sp : ps.Pairwise ByIm) (sn : ns.Pairwise ByIm) (hrun : ∀ a ∈ ps, ∀ b ∈ ps, b.re - a.re ≤ me * ‖a‖) :
    cxr me x = .ok (List.zipWith mid ps ns, []) := by
  have hx0 : x ≠ [] := by
    rintro rfl
    have := List.nil_perm.mp hx
    simp [hne] at this
  rw [cxr_eq hx0]
  have hpm : (x.mergeSort lexLe).Perm (ps ++ ns) := (List.mergeSort_perm x lexLe).trans hx
  have hs := sorted_lex x
  generalize x.mergeSort lexLe = xs at *
  have far : ∀ v ∈ xs, me * ‖v‖ < |v.im| := by
    intro v hv
    rcases List.mem_append.mp (hpm.subset hv) with h | h
    · exact (hp v h).1
    · exact (hn v h).1
  have er : xs.filter (fun v => decide (|v.im| ≤ me * ‖v‖)) = [] := by
    rw [List.filter_eq_nil_iff]
    intro v hv
    simp only [decide_eq_true_eq, not_le]
    exact far v hv
  have ep : (xs.filter (fun v => decide (me * ‖v‖ < |v.im| ∧ 0 < v.im))).Perm ps := by
    refine (hpm.filter _).trans ?_
    rw [List.filter_append, List.filter_eq_self.mpr, List.filter_eq_nil_iff.mpr, List.append_nil]
    · intro v hv; simp only [decide_eq_true_eq]; intro h; linarith [(hn v hv).2, h.2]
    · intro v hv; simp only [decide_eq_true_eq]; exact ⟨(hp v hv).1, (hp v hv).2⟩
  have en : (xs.filter (fun v => decide (me * ‖v‖ < |v.im| ∧ v.im < 0))).Perm ns := by
    refine (hpm.filter _).trans ?_
    rw [List.filter_append, List.filter_eq_nil_iff.mpr, List.filter_eq_self.mpr, List.nil_append]
    · intro v hv; simp only [decide_eq_true_eq]; exact ⟨(hn v hv).1, (hn v hv).2⟩
    · intro v hv; simp only [decide_eq_true_eq]; intro h; linarith [(hp v hv).2, h.2]
  have qp := hs.filter (fun v => decide (me * ‖v‖ < |v.im| ∧ 0 < v.im))
  have qn := hs.filter (fun v => decide (me * ‖v‖ < |v.im| ∧ v.im < 0))
  have hlen := hm.length_eq
  have hxs : 0 < xs.length := by
    rw [hpm.length_eq, List.length_append]
    have := List.length_pos_iff.mpr hne
    omega
  simp only [er, List.map_nil, List.length_nil]
  rw [if_neg (by omega)]
  generalize xs.filter (fun v => decide (me * ‖v‖ < |v.im| ∧ 0 < v.im)) = xp at *
  generalize xs.filter (fun v => decide (me * ‖v‖ < |v.im| ∧ v.im < 0)) = xn at *
  rw [if_neg (by rw [ep.length_eq, en.length_eq, hlen]; simp)]
  have hb : blocks me xp = [xp.length] := by
    apply blocks_one
    · intro e; rw [e] at ep; exact hne (List.nil_perm.mp ep)
    · intro a ha b hb; exact hrun a (ep.subset ha) b (ep.subset hb)
  have e1 : sortBlocks (blocks me xp) xp = ps := by
    rw [hb]
    simp only [sortBlocks, List.take_length, List.append_nil]
    exact sort_eq ep qp sp (Or.inl fun v hv => (hp v hv).2)
  have e2 : sortBlocks (blocks me xp) xn = ns := by
    rw [hb, ep.length_eq, hlen, ← en.length_eq]
    simp only [sortBlocks, List.take_length, List.append_nil]
    exact sort_eq en qn sn (Or.inr fun v hv => (hn v hv).2)
  rw [e1, e2]
  unfold matchPairs
  rw [if_neg]
  · rfl
  · rw [Bool.not_eq_true, List.any_eq_false]
    clear e1 e2 hlen en ep sp sn hp hn hx hpm hrun hne
    induction hm with
    | nil => simp
    | cons h _ ih =>
      intro b hb
      rw [List.zipWith_cons_cons, List.mem_cons] at hb
      rcases hb with rfl | hb
      · simpa [Mate] using h
      · exact ih b hb

/-- two pairs with real parts 1e-3 apart, the order of the real parts differing above and below the axis -/
example : cxr (1 / 100) [⟨0, 1⟩, ⟨1 / 1000, -1⟩, ⟨1 / 1000, 2⟩, ⟨0, -2⟩] = .ok ([⟨1 / 2000, 1⟩, ⟨1 / 2000, 2⟩], []) := by
  have n1 : ∀ a b : ℝ, |b| ≤ ‖(⟨a, b⟩ : ℂ)‖ := fun a b => Complex.abs_im_le_norm ⟨a, b⟩
  have n2 : ∀ a b : ℝ, ‖(⟨a, b⟩ : ℂ)‖ ≤ |a| + |b| := fun a b => Complex.norm_le_abs_re_add_abs_im ⟨a, b⟩
  have h := C233_run (1 / 100) [⟨0, 1⟩, ⟨1 / 1000, 2⟩] [⟨1 / 1000, -1⟩, ⟨0, -2⟩]
    [⟨0, 1⟩, ⟨1 / 1000, -1⟩, ⟨1 / 1000, 2⟩, ⟨0, -2⟩] ?_ (by simp) ?_ ?_ ?_ ?_ ?_ ?_
  · rw [h]
    congr 2
    simp only [List.zipWith_cons_cons, List.zipWith_nil_left, mid, List.cons.injEq, and_true]
    constructor <;> apply Complex.ext <;> simp <;> norm_num
  · exact List.Perm.cons _ (List.Perm.swap _ _ _)
  · refine List.Forall₂.cons ?_ (List.Forall₂.cons ?_ List.Forall₂.nil)
    · have e : (⟨0, 1⟩ - starRingEnd ℂ ⟨1 / 1000, -1⟩ : ℂ) = ⟨-1 / 1000, 0⟩ := by apply Complex.ext <;> simp <;> norm_num
      have a1 := n1 (1 / 1000) (-1)
      have a2 := n2 (-1 / 1000) 0
      unfold Mate
      rw [e]
      norm_num [abs_of_neg] at a1 a2 ⊢
      linarith
    · have e : (⟨1 / 1000, 2⟩ - starRingEnd ℂ ⟨0, -2⟩ : ℂ) = ⟨1 / 1000, 0⟩ := by apply Complex.ext <;> simp
      have a1 := n1 0 (-2)
      have a2 := n2 (1 / 1000) 0
      unfold Mate
      rw [e]
      norm_num [abs_of_neg] at a1 a2 ⊢
      linarith
  · intro v hv
    simp only [List.mem_cons, List.not_mem_nil, or_false] at hv
    rcases hv with rfl | rfl
    · have := n2 0 1; unfold Far; norm_num at this ⊢; linarith
    · have := n2 (1 / 1000) 2; unfold Far; norm_num at this ⊢; linarith
  · intro v hv
    simp only [List.mem_cons, List.not_mem_nil, or_false] at hv
    rcases hv with rfl | rfl
    · have := n2 (1 / 1000) (-1); unfold Far; norm_num at this ⊢; linarith
    · have := n2 0 (-2); unfold Far; norm_num at this ⊢; linarith
  · simp [ByIm]
  · simp [ByIm]
  · intro a ha b hb
    simp only [List.mem_cons, List.not_mem_nil, or_false] at ha hb
    have a1 := n1 0 1
    have a2 := n1 (1 / 1000) 2
    rcases ha with rfl | rfl <;> rcases hb with rfl | rfl <;> norm_num at a1 a2 ⊢ <;> linarith

/-- **C233** the runs are found among the roots above the axis only and imposed on those below, so roots that are pairwise conjugate
up to the tolerance can be rejected: for every tolerance below 1/2 there are two such pairs for which `_cxr` raises ValueError. -/
theorem C233_rejected (me : ℝ) (h0 : 0 < me) (h1 : me < 1 / 2) :
    Mate me ⟨0, 1⟩ ⟨me / 2, -1⟩ ∧ Mate me ⟨3 * me / 2, 2⟩ ⟨0, -2⟩ ∧
      cxr me [⟨0, 1⟩, ⟨me / 2, -1⟩, ⟨3 * me / 2, 2⟩, ⟨0, -2⟩] = .error .valueError := by
  have n1 : ∀ a b : ℝ, |b| ≤ ‖(⟨a, b⟩ : ℂ)‖ := fun a b => Complex.abs_im_le_norm ⟨a, b⟩
  have n2 : ∀ a b : ℝ, ‖(⟨a, b⟩ : ℂ)‖ ≤ |a| + |b| := fun a b => Complex.norm_le_abs_re_add_abs_im ⟨a, b⟩
  have a1 := n1 (me / 2) (-1)
  have a2 := n1 0 (-2)
  have a3 := n2 0 1
  have a4 := n2 (me / 2) (-1)
  have a5 := n2 (3 * me / 2) 2
  have a6 := n2 0 (-2)
  have p1 : |me / 2| = me / 2 := abs_of_pos (by linarith)
  have p2 : |3 * me / 2| = 3 * me / 2 := abs_of_pos (by linarith)
  rw [p1] at a4
  rw [p2] at a5
  norm_num at a1 a2 a3 a4 a5 a6
  have f1 : ¬ |(1 : ℝ)| ≤ me * ‖(⟨0, 1⟩ : ℂ)‖ := by rw [abs_one, not_le]; nlinarith
  have f2 : ¬ |(-1 : ℝ)| ≤ me * ‖(⟨me / 2, -1⟩ : ℂ)‖ := by rw [abs_neg, abs_one, not_le]; nlinarith
  have f3 : ¬ |(2 : ℝ)| ≤ me * ‖(⟨3 * me / 2, 2⟩ : ℂ)‖ := by rw [abs_two, not_le]; nlinarith
  have f4 : ¬ |(-2 : ℝ)| ≤ me * ‖(⟨0, -2⟩ : ℂ)‖ := by rw [abs_neg, abs_two, not_le]; nlinarith
  refine ⟨?_, ?_, ?_⟩
  · have e : (⟨0, 1⟩ - starRingEnd ℂ ⟨me / 2, -1⟩ : ℂ) = ⟨-(me / 2), 0⟩ := by apply Complex.ext <;> simp
    have b := n2 (-(me / 2)) 0
    rw [abs_neg, p1, abs_zero] at b
    unfold Mate
    rw [e]
    nlinarith
  · have e : (⟨3 * me / 2, 2⟩ - starRingEnd ℂ ⟨0, -2⟩ : ℂ) = ⟨3 * me / 2, 0⟩ := by apply Complex.ext <;> simp
    have b := n2 (3 * me / 2) 0
    rw [p2, abs_zero] at b
    unfold Mate
    rw [e]
    nlinarith
  · have hs : ([⟨0, 1⟩, ⟨me / 2, -1⟩, ⟨3 * me / 2, 2⟩, ⟨0, -2⟩] : List ℂ).Perm [⟨0, 1⟩, ⟨0, -2⟩, ⟨me / 2, -1⟩, ⟨3 * me / 2, 2⟩] := by
      refine List.Perm.cons _ ?_
      have : ([⟨me / 2, -1⟩, ⟨3 * me / 2, 2⟩] ++ [⟨0, -2⟩] : List ℂ).Perm ([⟨0, -2⟩] ++ [⟨me / 2, -1⟩, ⟨3 * me / 2, 2⟩]) :=
        List.perm_append_comm
      simpa using this
    rw [C233_order me hs, cxr_eq (by simp), List.mergeSort_of_pairwise]
    · have g1 := not_le.mp f1
      have g2 := not_le.mp f2
      have g3 := not_le.mp f3
      have g4 := not_le.mp f4
      have ng : ¬ (0 : ℝ) < -2 := by norm_num
      have ng1 : ¬ (0 : ℝ) < -1 := by norm_num
      have ng2 : ¬ (1 : ℝ) < 0 := by norm_num
      have ng3 : ¬ (2 : ℝ) < 0 := by norm_num
      have ng4 : (-2 : ℝ) < 0 := by norm_num
      have ng5 : (-1 : ℝ) < 0 := by norm_num
      simp only [List.filter_cons, List.filter_nil, f1, f2, f3, f4, g1, g2, g3, g4, ng, ng1, ng2, ng3, ng4, ng5, zero_lt_one, zero_lt_two,
        and_true, and_false, decide_true, decide_false, if_true, Bool.false_eq_true, if_false, List.map_nil, List.length_nil,
        List.length_cons]
      rw [if_neg (by norm_num), if_neg (by norm_num)]
      have hb : blocks me [⟨0, 1⟩, ⟨3 * me / 2, 2⟩] = [1, 1] := by
        simp only [blocks]
        rw [if_neg]
        rw [not_le]
        nlinarith
      rw [hb]
      simp only [sortBlocks, List.take_succ_cons, List.take_zero, List.drop_succ_cons, List.drop_zero, List.mergeSort_singleton,
        List.append_nil, List.cons_append, List.nil_append]
      unfold matchPairs
      rw [if_pos]
      simp only [List.zipWith_cons_cons, List.any_cons, id, Bool.or_eq_true, decide_eq_true_eq]
      left
      have e : (⟨0, 1⟩ - starRingEnd ℂ ⟨0, -2⟩ : ℂ) = ⟨0, -1⟩ := by apply Complex.ext <;> simp; norm_num
      have b := n1 0 (-1)
      rw [abs_neg, abs_one] at b
      rw [e]
      nlinarith
    · have q1 : 0 < me / 2 := by linarith
      have q2 : 0 < 3 * me / 2 := by linarith
      have q3 : me / 2 < 3 * me / 2 := by linarith
      simp only [List.pairwise_cons, List.mem_cons, List.not_mem_nil, or_false, forall_eq_or_imp, forall_eq, lexLe, decide_eq_true_eq]
      norm_num [q1, q2, q3]

end

end Proadv.Props
