import Verif.Model.Sop
import Verif.Props.Butter

/-! # Second-order sections of `statistics/signal/butter.py`: conjugate pairing and the loop body (C111–C113) -/

namespace Proadv

open Proadv.Butter Complex

set_option linter.unusedSectionVars false

noncomputable section

namespace Spec

/-- the only fact used of `np.argsort`: every index is listed exactly once -/
def Ordering (order : List ℂ → ℂ → List Nat) : Prop := ∀ x y, (order x y).Perm (List.range x.length)

/-- roots are either real or further from the real axis than the tolerance -/
def Separated (me : ℝ) (l : List ℂ) : Prop := ∀ v ∈ l, |v.im| ≤ me * ‖v‖ → v.im = 0

/-- roots stood for by one entry: a non-real entry stands for itself and its conjugate -/
def roots1 (v : ℂ) : List ℂ := by classical exact if v.im = 0 then [v] else [v, starRingEnd ℂ v]

/-- roots stood for by a list of entries -/
def roots (l : List ℂ) : List ℂ := l.flatMap roots1

end Spec

open Spec

/-! ## Sorting -/

theorem lexLe_trans (a b c : ℂ) (h : lexLe a b = true) (h' : lexLe b c = true) : lexLe a c = true := by
  simp only [lexLe, decide_eq_true_eq] at *
  rcases h with h | ⟨h, h1⟩ <;> rcases h' with h' | ⟨h', h1'⟩
  · left; linarith
  · left; linarith
  · left; linarith
  · right; exact ⟨h.trans h', h1.trans h1'⟩

theorem lexLe_total (a b : ℂ) : (lexLe a b || lexLe b a) = true := by
  simp only [lexLe, Bool.or_eq_true, decide_eq_true_eq]
  rcases lt_trichotomy a.re b.re with h | h | h
  · exact Or.inl (Or.inl h)
  · rcases le_total |a.im| |b.im| with h1 | h1
    · exact Or.inl (Or.inr ⟨h, h1⟩)
    · exact Or.inr (Or.inr ⟨h.symm, h1⟩)
  · exact Or.inr (Or.inl h)

theorem lexLe_conj (a b : ℂ) : lexLe (starRingEnd ℂ a) (starRingEnd ℂ b) = lexLe a b := by
  simp [lexLe]

theorem imLe_conj (a b : ℂ) : imLe (starRingEnd ℂ a) (starRingEnd ℂ b) = imLe a b := by
  simp [imLe]

theorem lexLe_antisymm {a b : ℂ} (ha : a.im < 0) (hb : b.im < 0) (h : lexLe a b = true) (h' : lexLe b a = true) : a = b := by
  simp only [lexLe, decide_eq_true_eq] at *
  rw [abs_of_neg ha, abs_of_neg hb] at *
  rcases h with h | ⟨h, h1⟩ <;> rcases h' with h' | ⟨h', h1'⟩
  · linarith
  · linarith
  · linarith
  · apply Complex.ext h; linarith

theorem sum_blocks (me : ℝ) : ∀ l : List ℂ, (blocks me l).sum = l.length := by
  intro l
  induction l with
  | nil => rfl
  | cons a t ih =>
    cases t with
    | nil => rfl
    | cons b t =>
      simp only [blocks]
      cases hb : blocks me (b :: t) with
      | nil => rw [hb] at ih; simp at ih
      | cons n ns =>
        rw [hb] at ih
        simp only [List.sum_cons, List.length_cons] at ih ⊢
        split <;> simp only [List.sum_cons] <;> omega

theorem sortBlocks_conj (ns : List Nat) : ∀ l : List ℂ,
    sortBlocks ns (l.map (starRingEnd ℂ)) = (sortBlocks ns l).map (starRingEnd ℂ) := by
  induction ns with
  | nil => intro l; rfl
  | cons n ns ih =>
    intro l
    simp only [sortBlocks, List.map_append, ← List.map_take, ← List.map_drop, ih]
    rw [List.map_mergeSort (s := imLe) (fun a _ b _ => (imLe_conj a b).symm)]

theorem sortBlocks_perm (ns : List Nat) : ∀ l : List ℂ, ns.sum = l.length → (sortBlocks ns l).Perm l := by
  induction ns with
  | nil => intro l h; simp only [List.sum_nil] at h; rw [List.eq_nil_of_length_eq_zero h.symm]; rfl
  | cons n ns ih =>
    intro l h
    simp only [List.sum_cons] at h
    simp only [sortBlocks]
    have := (List.mergeSort_perm (l.take n) imLe).append (ih (l.drop n) (by rw [List.length_drop]; omega))
    rwa [List.take_append_drop] at this

theorem matchPairs_conj {me : ℝ} (hme : 0 ≤ me) (p : List ℂ) : matchPairs me p (p.map (starRingEnd ℂ)) = .ok p := by
  unfold matchPairs
  rw [if_neg]
  · congr 1
    induction p with
    | nil => rfl
    | cons a t ih => simp only [List.map_cons, List.zipWith_cons_cons, ih, Complex.conj_conj]; congr 1; ring
  · rw [Bool.not_eq_true, List.any_eq_false]
    intro b hb
    rw [List.zipWith_map_right] at hb
    have : ∀ l : List ℂ, ∀ b ∈ List.zipWith (fun a b => decide (me * ‖starRingEnd ℂ b‖ < ‖a - starRingEnd ℂ (starRingEnd ℂ b)‖)) l l,
        b = false := by
      intro l
      induction l with
      | nil => simp
      | cons a t ih =>
        intro b hb
        rw [List.zipWith_cons_cons, List.mem_cons] at hb
        rcases hb with rfl | hb
        · simp only [Complex.conj_conj, sub_self, norm_zero, decide_eq_false_iff_not, not_lt]; positivity
        · exact ih b hb
    simp [this p b hb]

theorem conjClosed_perm {l l' : List ℂ} (h : l.Perm l') (hc : ConjClosed l) : ConjClosed l' :=
  (h.symm.trans hc).trans (h.map _)

/-- three classes of numbers by sign of the imaginary part -/
theorem split_im (l : List ℂ) : l.Perm (l.filter (fun v => decide (0 < v.im)) ++ l.filter (fun v => decide (v.im < 0)) ++
    l.filter (fun v => decide (v.im = 0))) := by
  induction l with
  | nil => rfl
  | cons a t ih =>
    rcases lt_trichotomy a.im 0 with h | h | h
    · have h1 : ¬ 0 < a.im := by linarith
      have h2 : a.im ≠ 0 := by linarith
      simp only [List.filter_cons, h, h1, h2, decide_true, decide_false, if_true, Bool.false_eq_true, if_false]
      refine (ih.cons a).trans ?_
      rw [List.append_assoc, List.append_assoc]
      exact List.perm_middle.symm
    · simp only [List.filter_cons, h, lt_irrefl, decide_true, decide_false, if_true, Bool.false_eq_true, if_false]
      exact (ih.cons a).trans List.perm_middle.symm
    · have h1 : ¬ a.im < 0 := by linarith
      have h2 : a.im ≠ 0 := by linarith
      simp only [List.filter_cons, h, h1, h2, decide_true, decide_false, if_true, Bool.false_eq_true, if_false]
      exact ih.cons a

theorem filter_conj (l : List ℂ) : (l.map (starRingEnd ℂ)).filter (fun v => decide (v.im < 0)) =
    (l.filter (fun v => decide (0 < v.im))).map (starRingEnd ℂ) := by
  induction l with
  | nil => rfl
  | cons a t ih =>
    simp only [List.map_cons, List.filter_cons, ih, Complex.conj_im, Left.neg_neg_iff]
    split <;> simp

theorem real_cast {l : List ℂ} (h : ∀ v ∈ l, v.im = 0) : l.map (fun v => ((v.re : ℝ) : ℂ)) = l := by
  conv_rhs => rw [← List.map_id l]
  apply List.map_congr_left
  intro v hv
  exact Complex.ext rfl (by simp [h v hv])

/-- the pair search finds the upper half and the real entries of every conjugate-closed list -/
theorem cxr_spec {me : ℝ} (hme : 0 ≤ me) {x : List ℂ} (hc : ConjClosed x) (hs : Separated me x) :
    ∃ c r, cxr me x = .ok (c, r) ∧ (∀ v ∈ c, 0 < v.im) ∧ (∀ v ∈ r, v.im = 0) ∧
      x.Perm (c ++ c.map (starRingEnd ℂ) ++ r) := by
  unfold cxr
  by_cases he : x = []
  · subst he; exact ⟨[], [], rfl, by simp, by simp, by simp⟩
  rw [if_neg (by simpa using he)]
  simp only
  have hp : (x.mergeSort lexLe).Perm x := List.mergeSort_perm x lexLe
  have hsort : (x.mergeSort lexLe).Pairwise (fun a b => lexLe a b = true) := List.pairwise_mergeSort lexLe_trans lexLe_total x
  generalize x.mergeSort lexLe = xs at hp hsort
  have hc' : ConjClosed xs := conjClosed_perm hp.symm hc
  have hs' : ∀ v ∈ xs, (|v.im| ≤ me * ‖v‖ ↔ v.im = 0) := fun v hv =>
    ⟨hs v (hp.subset hv), fun h => by rw [h, abs_zero]; positivity⟩
  have hri : xs.filter (fun v => decide (|v.im| ≤ me * ‖v‖)) = xs.filter (fun v => decide (v.im = 0)) := by
    apply List.filter_congr; intro v hv; rw [decide_eq_decide]; exact hs' v hv
  have hreal : ∀ v ∈ xs.filter (fun v => decide (v.im = 0)), v.im = 0 := by
    intro v hv; simpa using (List.mem_filter.mp hv).2
  rw [hri, real_cast hreal]
  by_cases hl : (xs.filter (fun v => decide (v.im = 0))).length = xs.length
  · rw [if_pos hl]
    refine ⟨[], _, rfl, by simp, hreal, ?_⟩
    rw [List.length_filter_eq_length_iff] at hl
    rw [List.filter_eq_self.mpr hl]; simpa using hp.symm
  rw [if_neg hl]
  have hxp : (xs.filter (fun v => !decide (|v.im| ≤ me * ‖v‖))).filter (fun v => decide (0 < v.im)) =
      xs.filter (fun v => decide (0 < v.im)) := by
    rw [List.filter_filter]
    apply List.filter_congr; intro v hv
    by_cases h : 0 < v.im
    · simp only [h, decide_true, Bool.true_and, Bool.not_eq_true', decide_eq_false_iff_not]
      rw [hs' v hv]; exact h.ne'
    · simp [h]
  have hxn : (xs.filter (fun v => !decide (|v.im| ≤ me * ‖v‖))).filter (fun v => decide (v.im < 0)) =
      xs.filter (fun v => decide (v.im < 0)) := by
    rw [List.filter_filter]
    apply List.filter_congr; intro v hv
    by_cases h : v.im < 0
    · simp only [h, decide_true, Bool.true_and, Bool.not_eq_true', decide_eq_false_iff_not]
      rw [hs' v hv]; exact h.ne
    · simp [h]
  rw [hxp, hxn]
  have hcj : xs.filter (fun v => decide (v.im < 0)) = (xs.filter (fun v => decide (0 < v.im))).map (starRingEnd ℂ) := by
    apply List.Perm.eq_of_pairwise (le := fun a b => lexLe a b = true)
    · intro a b ha hb h1 h2
      rw [← filter_conj] at hb
      exact lexLe_antisymm (by simpa using (List.mem_filter.mp ha).2) (by simpa using (List.mem_filter.mp hb).2) h1 h2
    · exact hsort.filter _
    · rw [List.pairwise_map]
      exact (hsort.filter _).imp fun {a b} h => by rw [lexLe_conj]; exact h
    · rw [← filter_conj]; exact hc'.filter _
  have hpos : ∀ v ∈ xs.filter (fun v => decide (0 < v.im)), 0 < v.im := by
    intro v hv; simpa using (List.mem_filter.mp hv).2
  have hsplit := split_im xs
  rw [hcj] at hsplit ⊢
  generalize xs.filter (fun v => decide (0 < v.im)) = xp at *
  rw [if_neg (by simp), sortBlocks_conj, matchPairs_conj hme]
  have hbp := sortBlocks_perm (blocks me xp) xp (sum_blocks me xp)
  refine ⟨_, _, rfl, fun v hv => hpos v (hbp.subset hv), hreal, hp.symm.trans (hsplit.trans ?_)⟩
  exact (hbp.symm.append (hbp.symm.map _)).append_right _

/-- different numbers of roots above and below the real axis: ValueError -/
theorem cxr_unmatched {me : ℝ} (hme : 0 ≤ me) {x : List ℂ}
    (h : x.countP (fun v => decide (me * ‖v‖ < |v.im| ∧ 0 < v.im)) ≠ x.countP (fun v => decide (me * ‖v‖ < |v.im| ∧ v.im < 0))) :
    cxr me x = .error .valueError := by
  have hnn : ∀ v : ℂ, 0 ≤ me * ‖v‖ := fun v => by positivity
  unfold cxr
  have he : x ≠ [] := by rintro rfl; simp at h
  rw [if_neg (by simpa using he)]
  simp only
  have hp : (x.mergeSort lexLe).Perm x := List.mergeSort_perm x lexLe
  generalize x.mergeSort lexLe = xs at hp
  rw [← hp.countP_eq, ← hp.countP_eq] at h
  have e1 : (xs.filter (fun v => !decide (|v.im| ≤ me * ‖v‖))).filter (fun v => decide (0 < v.im)) =
      xs.filter (fun v => decide (me * ‖v‖ < |v.im| ∧ 0 < v.im)) := by
    rw [List.filter_filter]
    apply List.filter_congr; intro v hv
    by_cases h1 : 0 < v.im <;> by_cases h2 : |v.im| ≤ me * ‖v‖ <;> simp [h1, h2, not_lt.mpr, not_le.mp]
  have e2 : (xs.filter (fun v => !decide (|v.im| ≤ me * ‖v‖))).filter (fun v => decide (v.im < 0)) =
      xs.filter (fun v => decide (me * ‖v‖ < |v.im| ∧ v.im < 0)) := by
    rw [List.filter_filter]
    apply List.filter_congr; intro v hv
    by_cases h1 : v.im < 0 <;> by_cases h2 : |v.im| ≤ me * ‖v‖ <;> simp [h1, h2, not_lt.mpr, not_le.mp]
  rw [e1, e2, List.length_map]
  rw [if_neg, if_pos]
  · rw [← List.countP_eq_length_filter, ← List.countP_eq_length_filter]; exact h
  · intro hl
    rw [List.length_filter_eq_length_iff] at hl
    apply h
    rw [List.countP_eq_zero.mpr, List.countP_eq_zero.mpr]
    · intro v hv
      have := hl v hv
      simp only [decide_eq_true_eq] at this ⊢
      rintro ⟨h1, -⟩; linarith
    · intro v hv
      have := hl v hv
      simp only [decide_eq_true_eq] at this ⊢
      rintro ⟨h1, -⟩; linarith

/-! ## Entries and the roots they stand for -/

theorem isReal_iff (v : ℂ) : isReal v = true ↔ v.im = 0 := by simp [isReal]

theorem roots1_real {v : ℂ} (h : v.im = 0) : roots1 v = [v] := by unfold roots1; rw [if_pos h]

theorem roots1_complex {v : ℂ} (h : v.im ≠ 0) : roots1 v = [v, starRingEnd ℂ v] := by unfold roots1; rw [if_neg h]

theorem roots_cons (v : ℂ) (l : List ℂ) : roots (v :: l) = roots1 v ++ roots l := rfl

theorem roots_perm {l l' : List ℂ} (h : l.Perm l') : (roots l).Perm (roots l') := h.flatMap_right _

theorem roots_real {l : List ℂ} (h : ∀ v ∈ l, v.im = 0) : roots l = l := by
  induction l with
  | nil => rfl
  | cons a t ih =>
    rw [roots_cons, roots1_real (h a (by simp)), ih fun v hv => h v (by simp [hv])]; rfl

theorem roots_upper {l : List ℂ} (h : ∀ v ∈ l, 0 < v.im) : (roots l).Perm (l ++ l.map (starRingEnd ℂ)) := by
  induction l with
  | nil => rfl
  | cons a t ih =>
    rw [roots_cons, roots1_complex (h a (by simp)).ne']
    have := ih fun v hv => h v (by simp [hv])
    simp only [List.cons_append, List.nil_append, List.map_cons]
    exact ((this.cons _).trans List.perm_middle.symm).cons _

/-- parity of the number of roots is the parity of the number of real entries -/
theorem roots_length (l : List ℂ) : (roots l).length + l.countP isReal = 2 * l.length := by
  induction l with
  | nil => rfl
  | cons a t ih =>
    rw [roots_cons, List.length_append, List.countP_cons, List.length_cons]
    by_cases h : a.im = 0
    · rw [roots1_real h, if_pos ((isReal_iff a).mpr h)]; simp only [List.length_singleton]; omega
    · rw [roots1_complex h, if_neg (by rw [isReal_iff]; exact h)]; simp only [List.length_cons, List.length_nil]; omega

/-- the halves stand for exactly the given roots -/
theorem halves_spec {me : ℝ} (hme : 0 ≤ me) {x : List ℂ} (hc : ConjClosed x) (hs : Separated me x) :
    ∃ h, halves me x = .ok h ∧ (roots h).Perm x := by
  obtain ⟨c, r, hcr, h1, h2, hp⟩ := cxr_spec hme hc hs
  refine ⟨c ++ r, by simp only [halves, hcr, bind, Except.bind], ?_⟩
  refine List.Perm.trans ?_ hp.symm
  rw [roots, List.flatMap_append]
  exact (roots_upper h1).append (by rw [← roots, roots_real h2])

/-! ## Sections -/

namespace Spec

/-- a row of second-order coefficients: six real numbers -/
def Row (s : List ℂ) : Prop := s.length = 6 ∧ ∀ c ∈ s, c.im = 0

/-- numerator and denominator of a row as polynomials, highest power first (`b0 t² + b1 t + b2`) -/
def numHi (s : List ℂ) (t : ℂ) : ℂ := s.getD 0 0 * t ^ 2 + s.getD 1 0 * t + s.getD 2 0
def denHi (s : List ℂ) (t : ℂ) : ℂ := s.getD 3 0 * t ^ 2 + s.getD 4 0 * t + s.getD 5 0

/-- numerator and denominator of a row as polynomials in the delay `w = z⁻¹` (`b0 + b1 w + b2 w²`) -/
def numLo (s : List ℂ) (w : ℂ) : ℂ := s.getD 0 0 + s.getD 1 0 * w + s.getD 2 0 * w ^ 2
def denLo (s : List ℂ) (w : ℂ) : ℂ := s.getD 3 0 + s.getD 4 0 * w + s.getD 5 0 * w ^ 2

/-- monic polynomial with the given roots, and its delay form -/
def monic (r : List ℂ) (t : ℂ) : ℂ := (r.map (fun v => t - v)).prod
def delay (r : List ℂ) (w : ℂ) : ℂ := (r.map (fun v => 1 - v * w)).prod

end Spec

theorem monic_append (a b : List ℂ) (t : ℂ) : monic (a ++ b) t = monic a t * monic b t := by simp [monic]
theorem delay_append (a b : List ℂ) (t : ℂ) : delay (a ++ b) t = delay a t * delay b t := by simp [delay]
theorem monic_perm {a b : List ℂ} (h : a.Perm b) (t : ℂ) : monic a t = monic b t := (h.map _).prod_eq
theorem delay_perm {a b : List ℂ} (h : a.Perm b) (t : ℂ) : delay a t = delay b t := (h.map _).prod_eq

theorem lone_22 (a b c d : ℂ) : lone [a, b] [c, d] = [1, -a - b, a * b, 1, -c - d, c * d] := by
  unfold lone
  simp only [ptf_eq]
  simp [convRoot]
  constructor <;> ring_nf
theorem lone_12 (a c d : ℂ) : lone [a] [c, d] = [0, 1, -a, 1, -c - d, c * d] := by
  unfold lone
  simp only [ptf_eq]
  simp [convRoot]
  ring_nf
theorem lone_02 (c d : ℂ) : lone [] [c, d] = [0, 0, 1, 1, -c - d, c * d] := by
  unfold lone
  simp only [ptf_eq]
  simp [convRoot]
  ring_nf
theorem lone_11 (a c : ℂ) : lone [a] [c] = [0, 1, -a, 0, 1, -c] := by
  unfold lone
  simp only [ptf_eq]
  simp [convRoot]
theorem lone_01 (c : ℂ) : lone [] [c] = [0, 0, 1, 0, 1, -c] := by
  unfold lone
  simp only [ptf_eq]
  simp [convRoot]

/-- the two members of a section are both real or a conjugate pair -/
def IsPair (a b : ℂ) : Prop := (a.im = 0 ∧ b.im = 0) ∨ b = starRingEnd ℂ a

theorem IsPair.add {a b : ℂ} (h : IsPair a b) : (-a - b).im = 0 := by
  rcases h with ⟨h1, h2⟩ | rfl
  · simp [h1, h2]
  · simp

theorem IsPair.mul {a b : ℂ} (h : IsPair a b) : (a * b).im = 0 := by
  rcases h with ⟨h1, h2⟩ | rfl
  · simp [h1, h2]
  · simp [mul_comm]

theorem isPair_conj (a : ℂ) : IsPair a (starRingEnd ℂ a) := Or.inr rfl

namespace Spec

/-- a row carrying the zeros `zs` and the poles `ps`.  The `minimal` rows are read in powers of the variable; the others, which
are padded to degree two, in powers of the delay and have leading denominator coefficient 1. -/
structure Carries (pg : Pairing) (s zs ps : List ℂ) : Prop where
  row : Row s
  hi : pg = .ml → ∀ t, numHi s t = monic zs t ∧ denHi s t = monic ps t
  lo : pg ≠ .ml → s.getD 3 0 = 1 ∧ ∀ w, numLo s w = delay zs w ∧ denLo s w = delay ps w

end Spec

theorem carries_22 (pg : Pairing) {a b c d : ℂ} (h : IsPair a b) (h' : IsPair c d) : Carries pg (lone [a, b] [c, d]) [a, b] [c, d] := by
  rw [lone_22]
  refine ⟨⟨rfl, ?_⟩, ?_, ?_⟩
  · have := h.add; have := h.mul; have := h'.add; have := h'.mul
    simp only [List.mem_cons, List.not_mem_nil, or_false]
    rintro v (rfl | rfl | rfl | rfl | rfl | rfl) <;> first | assumption | simp
  · intro _ t
    simp only [numHi, denHi, monic, List.getD_cons_zero, List.getD_cons_succ, List.map_cons, List.map_nil, List.prod_cons, List.prod_nil]
    constructor <;> ring
  · intro _
    refine ⟨rfl, fun w => ?_⟩
    simp only [numLo, denLo, delay, List.getD_cons_zero, List.getD_cons_succ, List.map_cons, List.map_nil, List.prod_cons, List.prod_nil]
    constructor <;> ring

theorem carries_12 {a c d : ℂ} (h : a.im = 0) (h' : IsPair c d) : Carries .ml (lone [a] [c, d]) [a] [c, d] := by
  rw [lone_12]
  refine ⟨⟨rfl, ?_⟩, ?_, fun h => absurd rfl h⟩
  · have := h'.add; have := h'.mul
    simp only [List.mem_cons, List.not_mem_nil, or_false]
    rintro v (rfl | rfl | rfl | rfl | rfl | rfl) <;> first | assumption | simp [h]
  · intro _ t
    simp only [numHi, denHi, monic, List.getD_cons_zero, List.getD_cons_succ, List.map_cons, List.map_nil, List.prod_cons, List.prod_nil]
    constructor <;> ring

theorem carries_02 {c d : ℂ} (h' : IsPair c d) : Carries .ml (lone [] [c, d]) [] [c, d] := by
  rw [lone_02]
  refine ⟨⟨rfl, ?_⟩, ?_, fun h => absurd rfl h⟩
  · have := h'.add; have := h'.mul
    simp only [List.mem_cons, List.not_mem_nil, or_false]
    rintro v (rfl | rfl | rfl | rfl | rfl | rfl) <;> first | assumption | simp
  · intro _ t
    simp only [numHi, denHi, monic, List.getD_cons_zero, List.getD_cons_succ, List.map_cons, List.map_nil, List.prod_cons, List.prod_nil]
    constructor <;> ring

theorem carries_11 {a c : ℂ} (h : a.im = 0) (h' : c.im = 0) : Carries .ml (lone [a] [c]) [a] [c] := by
  rw [lone_11]
  refine ⟨⟨rfl, ?_⟩, ?_, fun h => absurd rfl h⟩
  · simp only [List.mem_cons, List.not_mem_nil, or_false]
    rintro v (rfl | rfl | rfl | rfl | rfl | rfl) <;> simp [h, h']
  · intro _ t
    simp only [numHi, denHi, monic, List.getD_cons_zero, List.getD_cons_succ, List.map_cons, List.map_nil, List.prod_cons, List.prod_nil]
    constructor <;> ring

theorem carries_01 {c : ℂ} (h' : c.im = 0) : Carries .ml (lone [] [c]) [] [c] := by
  rw [lone_01]
  refine ⟨⟨rfl, ?_⟩, ?_, fun h => absurd rfl h⟩
  · simp only [List.mem_cons, List.not_mem_nil, or_false]
    rintro v (rfl | rfl | rfl | rfl | rfl | rfl) <;> simp [h']
  · intro _ t
    simp only [numHi, denHi, monic, List.getD_cons_zero, List.getD_cons_succ, List.map_cons, List.map_nil, List.prod_cons, List.prod_nil]
    constructor <;> ring

/-- the padded single pole and zero -/
theorem carries_pad {pg : Pairing} (hpg : pg ≠ .ml) {a c : ℂ} (h : a.im = 0) (h' : c.im = 0) : Carries pg (lone [a, 0] [c, 0]) [a] [c] := by
  have := carries_22 pg (a := a) (b := 0) (c := c) (d := 0) (Or.inl ⟨h, rfl⟩) (Or.inl ⟨h', rfl⟩)
  refine ⟨this.row, fun h => absurd h hpg, fun hp => ⟨(this.lo hp).1, fun w => ?_⟩⟩
  have := (this.lo hp).2 w
  simpa [delay] using this

/-! ## Choosing entries -/

theorem getD_of_lt {l : List ℂ} {i : Nat} (hi : i < l.length) : l.getD i 0 = l[i] := by
  rw [List.getD_eq_getElem?_getD, List.getElem?_eq_getElem hi, Option.getD_some]

theorem takeAt_perm {l : List ℂ} {i : Nat} {v : ℂ} {l' : List ℂ} (h : takeAt l i = .ok (v, l')) : l.Perm (v :: l') ∧ l.getD i 0 = v := by
  unfold takeAt at h
  split at h
  · rename_i w hw
    cases h
    obtain ⟨hi, rfl⟩ := List.getElem?_eq_some_iff.mp hw
    exact ⟨(List.getElem_cons_eraseIdx_perm hi).symm, by simp [List.getD_eq_getElem?_getD, hw]⟩
  · cases h

theorem takeAt_ok {l : List ℂ} {i : Nat} (h : i < l.length) : ∃ v l', takeAt l i = .ok (v, l') := by
  unfold takeAt; rw [List.getElem?_eq_getElem h]; exact ⟨_, _, rfl⟩

theorem bind_ok {α β : Type} {e : Py α} {f : α → Py β} {b : β} (h : (e >>= f) = .ok b) : ∃ a, e = .ok a ∧ f a = .ok b := by
  cases e with
  | error _ => cases h
  | ok a => exact ⟨a, rfl, h⟩

theorem ok_bind {α β : Type} {e : Py α} {a : α} (h : e = .ok a) (f : α → Py β) : (e >>= f) = f a := by rw [h]; rfl

theorem error_bind {α β : Type} {e : Py α} {a : PyErr} (h : e = .error a) (f : α → Py β) : (e >>= f) = .error a := by rw [h]; rfl

theorem pickZero_spec {order : List ℂ → ℂ → List Nat} {x : List ℂ} {y1 : ℂ} {kind : Kind} {v : ℂ} {x' : List ℂ}
    (h : pickZero order x y1 kind = .ok (v, x')) :
    x.Perm (v :: x') ∧ (kind = .real → v.im = 0) ∧ (kind = .complex → v.im ≠ 0) := by
  obtain ⟨i, hi, ht⟩ := bind_ok h
  obtain ⟨hp, hv⟩ := takeAt_perm ht
  refine ⟨hp, ?_, ?_⟩
  · rintro rfl
    simp only [closest] at hi
    split at hi
    · rename_i j hj
      cases hi
      have := List.find?_some hj
      rwa [hv, isReal_iff] at this
    · cases hi
  · rintro rfl
    simp only [closest] at hi
    split at hi
    · rename_i j hj
      cases hi
      have := List.find?_some hj
      rw [hv, Bool.not_eq_true'] at this
      intro h0; rw [(isReal_iff v).mpr h0] at this; cases this
    · cases hi

theorem pickPole_spec {ag : Bool} {y : List ℂ} {v : ℂ} {y' : List ℂ} (h : pickPole ag y = .ok (v, y')) : y.Perm (v :: y') := by
  obtain ⟨i, -, ht⟩ := bind_ok h
  exact (takeAt_perm ht).1

theorem pickRealPole_spec {ag : Bool} {y : List ℂ} {v : ℂ} {y' : List ℂ} (h : pickRealPole ag y = .ok (v, y')) :
    y.Perm (v :: y') ∧ v.im = 0 := by
  obtain ⟨j, -, ht⟩ := bind_ok h
  split at ht
  · rename_i i hi
    obtain ⟨hp, hv⟩ := takeAt_perm ht
    refine ⟨hp, ?_⟩
    have := List.mem_of_getElem? hi
    have := (List.mem_filter.mp this).2
    rwa [hv, isReal_iff] at this
  · cases ht

/-! ## One pass of the loop: what is removed is what the section carries -/

theorem roots_take_real {l l' : List ℂ} {v : ℂ} (h : l.Perm (v :: l')) (hv : v.im = 0) : (roots l).Perm ([v] ++ roots l') := by
  have := roots_perm h
  rwa [roots_cons, roots1_real hv] at this

theorem roots_take_complex {l l' : List ℂ} {v : ℂ} (h : l.Perm (v :: l')) (hv : v.im ≠ 0) :
    (roots l).Perm ([v, starRingEnd ℂ v] ++ roots l') := by
  have := roots_perm h
  rwa [roots_cons, roots1_complex hv] at this

theorem roots_take_real2 {l l' l'' : List ℂ} {v u : ℂ} (h : l.Perm (v :: l')) (h' : l'.Perm (u :: l'')) (hv : v.im = 0) (hu : u.im = 0) :
    (roots l).Perm ([v, u] ++ roots l'') := by
  have := (roots_take_real h hv).trans ((roots_take_real h' hu).append_left [v])
  simpa using this

theorem secondPole_spec {ag : Bool} {y1 y2 : ℂ} {y y' : List ℂ} (h : secondPole ag y1 y = .ok (y2, y')) :
    IsPair y1 y2 ∧ (roots (y1 :: y)).Perm ([y1, y2] ++ roots y') := by
  unfold secondPole at h
  split at h
  · rename_i hr
    rw [isReal_iff] at hr
    obtain ⟨hp, hv⟩ := pickRealPole_spec h
    exact ⟨Or.inl ⟨hr, hv⟩, roots_take_real2 (List.Perm.refl _) hp hr hv⟩
  · rename_i hr
    rw [isReal_iff] at hr
    cases h
    exact ⟨isPair_conj _, roots_take_complex (List.Perm.refl _) hr⟩

theorem zerosFor_spec {order : List ℂ → ℂ → List Nat} {pg : Pairing} {x x' : List ℂ} {y1 y2 : ℂ} {s : List ℂ} {n : Nat}
    (hy : IsPair y1 y2) (hpg : pg ≠ .ml → (roots x).length = n + 2) (h : zerosFor order x y1 y2 = .ok (s, x')) :
    ∃ zs, Carries pg s zs [y1, y2] ∧ (roots x).Perm (zs ++ roots x') ∧ (pg ≠ .ml → zs.length = 2) := by
  unfold zerosFor at h
  split at h
  · rename_i he
    cases h
    have he : x = [] := by simpa using he
    subst he
    have hml : pg = .ml := by by_contra hc; have := hpg hc; simp [roots] at this
    subst hml
    exact ⟨[], carries_02 hy, by simp, fun h => absurd rfl h⟩
  · obtain ⟨⟨x1, x1'⟩, hp, h⟩ := bind_ok h
    obtain ⟨hp1, -, -⟩ := pickZero_spec hp
    simp only [secondZero] at h
    split at h
    · rename_i hr
      cases h
      have hr : x1.im ≠ 0 := by
        intro h0; rw [(isReal_iff x1).mpr h0] at hr; cases hr
      exact ⟨_, carries_22 pg (isPair_conj x1) hy, roots_take_complex hp1 hr, fun _ => rfl⟩
    · rename_i hr
      have hr : x1.im = 0 := by
        rw [← isReal_iff]; simpa using hr
      split at h
      · rename_i he
        cases h
        have he : x' = [] := by simpa using he
        subst he
        have hl := roots_take_real hp1 hr
        have hml : pg = .ml := by
          by_contra hc
          have h1 := hpg hc
          rw [hl.length_eq] at h1; simp [roots] at h1
        subst hml
        exact ⟨_, carries_12 hr hy, hl, fun h => absurd rfl h⟩
      · obtain ⟨⟨x2, x2'⟩, hp', h⟩ := bind_ok h
        obtain ⟨hp2, hr2, -⟩ := pickZero_spec hp'
        split at h
        · cases h
          exact ⟨_, carries_22 pg (Or.inl ⟨hr, hr2 rfl⟩) hy, roots_take_real2 hp1 hp2 hr (hr2 rfl), fun _ => rfl⟩
        · cases h

theorem stepLast_spec {order : List ℂ → ℂ → List Nat} {pg : Pairing} {x x' : List ℂ} {y1 : ℂ} {s : List ℂ}
    (hy : y1.im = 0) (h : stepLast order pg x y1 = .ok (s, x')) :
    ∃ zs, Carries pg s zs [y1] ∧ (roots x).Perm (zs ++ roots x') ∧ (pg ≠ .ml → zs.length = 1) := by
  unfold stepLast at h
  split at h
  · rename_i hpg
    obtain ⟨⟨x1, x1'⟩, hp, h⟩ := bind_ok h
    obtain ⟨hp1, hr, -⟩ := pickZero_spec hp
    cases h
    exact ⟨[x1], carries_pad hpg (hr rfl) hy, roots_take_real hp1 (hr rfl), fun _ => rfl⟩
  · rename_i hpg
    have hpg : pg = .ml := by simpa using hpg
    subst hpg
    split at h
    · rename_i he
      cases h
      exact ⟨[], carries_01 hy, by simp, fun h => absurd rfl h⟩
    · obtain ⟨⟨x1, x1'⟩, hp, h⟩ := bind_ok h
      obtain ⟨hp1, hr, -⟩ := pickZero_spec hp
      cases h
      exact ⟨[x1], carries_11 (hr rfl) hy, roots_take_real hp1 (hr rfl), fun h => absurd rfl h⟩

/-- one pass moves the zeros and poles of one section out of the lists -/
theorem step_spec {order : List ℂ → ℂ → List Nat} {pg : Pairing} {ag : Bool} {x y : List ℂ} {s x' y' : List ℂ}
    (hpg : pg ≠ .ml → (roots x).length = (roots y).length) (h : step order pg ag x y = .ok (s, x', y')) :
    ∃ zs ps, Carries pg s zs ps ∧ (roots x).Perm (zs ++ roots x') ∧ (roots y).Perm (ps ++ roots y') ∧
      (pg ≠ .ml → (roots x').length = (roots y').length) := by
  have fin : ∀ {zs ps : List ℂ}, (roots x).Perm (zs ++ roots x') → (roots y).Perm (ps ++ roots y') → (pg ≠ .ml → zs.length = ps.length) →
      (pg ≠ .ml → (roots x').length = (roots y').length) := by
    intro zs ps h1 h2 h3 hp
    have := hpg hp; have := h3 hp; have := h1.length_eq; have := h2.length_eq
    simp only [List.length_append] at *
    omega
  obtain ⟨⟨y1, y1'⟩, hp, h⟩ := bind_ok h
  have hpp := pickPole_spec hp
  simp only [stepWith] at h
  split at h
  · rename_i hc
    rw [Bool.and_eq_true, isReal_iff] at hc
    obtain ⟨⟨s', x1'⟩, hs, h⟩ := bind_ok h
    cases h
    obtain ⟨zs, h1, h2, h3⟩ := stepLast_spec hc.1 hs
    have h4 := roots_take_real hpp hc.1
    exact ⟨zs, [y1], h1, h2, h4, fin h2 h4 h3⟩
  · split at h
    · rename_i hc
      obtain ⟨⟨x1, x1'⟩, hs, h⟩ := bind_ok h
      cases h
      obtain ⟨h1, -, h2⟩ := pickZero_spec hs
      have h3 := roots_take_complex h1 (h2 rfl)
      have h4 := roots_take_complex hpp (v := y1) (by intro h0; rw [(isReal_iff y1).mpr h0] at hc; cases hc.2.1)
      exact ⟨_, _, carries_22 pg (isPair_conj x1) (isPair_conj y1), h3, h4, fin h3 h4 fun _ => rfl⟩
    · obtain ⟨⟨y2, y2'⟩, hs, h⟩ := bind_ok h
      obtain ⟨⟨s', x1'⟩, hz, h⟩ := bind_ok h
      cases h
      obtain ⟨h1, h2⟩ := secondPole_spec hs
      have h4 := (roots_perm hpp).trans h2
      have hn : pg ≠ .ml → (roots x).length = (roots y2').length + 2 := by
        intro hp; rw [hpg hp, h4.length_eq]; simp
      obtain ⟨zs, h5, h6, h7⟩ := zerosFor_spec h1 hn hz
      exact ⟨zs, _, h5, h6, h4, fin h6 h4 h7⟩

/-! ## The loop -/

namespace Spec

/-- the rows multiply to the given zeros and poles -/
structure Factors (pg : Pairing) (rows : List (List ℂ)) (zs ps : List ℂ) : Prop where
  row : ∀ s ∈ rows, Row s
  lead : pg ≠ .ml → ∀ s ∈ rows, s.getD 3 0 = 1
  hi : pg = .ml → ∀ t, (rows.map (numHi · t)).prod = monic zs t ∧ (rows.map (denHi · t)).prod = monic ps t
  lo : pg ≠ .ml → ∀ w, (rows.map (numLo · w)).prod = delay zs w ∧ (rows.map (denLo · w)).prod = delay ps w

end Spec

theorem factors_nil (pg : Pairing) : Factors pg [] [] [] :=
  ⟨by simp, by simp, fun _ t => by simp [monic], fun _ w => by simp [delay]⟩

theorem Spec.Factors.cons {pg : Pairing} {rows : List (List ℂ)} {zs ps zs' ps' s : List ℂ} (h : Factors pg rows zs ps)
    (hc : Carries pg s zs' ps') : Factors pg (s :: rows) (zs' ++ zs) (ps' ++ ps) := by
  refine ⟨?_, ?_, ?_, ?_⟩
  · intro r hr; rcases List.mem_cons.mp hr with rfl | hr
    · exact hc.row
    · exact h.row r hr
  · intro hp r hr; rcases List.mem_cons.mp hr with rfl | hr
    · exact (hc.lo hp).1
    · exact h.lead hp r hr
  · intro hp t
    simp only [List.map_cons, List.prod_cons, (hc.hi hp t).1, (hc.hi hp t).2, (h.hi hp t).1, (h.hi hp t).2, monic_append, and_self]
  · intro hp t
    simp only [List.map_cons, List.prod_cons, ((hc.lo hp).2 t).1, ((hc.lo hp).2 t).2, (h.lo hp t).1, (h.lo hp t).2, delay_append, and_self]

theorem Spec.Factors.perm {pg : Pairing} {rows rows' : List (List ℂ)} {zs ps zs' ps' : List ℂ} (h : Factors pg rows zs ps)
    (hr : rows'.Perm rows) (hz : zs'.Perm zs) (hp : ps'.Perm ps) : Factors pg rows' zs' ps' := by
  refine ⟨fun s hs => h.row s (hr.subset hs), fun hp s hs => h.lead hp s (hr.subset hs), ?_, ?_⟩
  · intro hm t
    rw [(hr.map _).prod_eq, (hr.map _).prod_eq, monic_perm hz, monic_perm hp]; exact h.hi hm t
  · intro hm t
    rw [(hr.map _).prod_eq, (hr.map _).prod_eq, delay_perm hz, delay_perm hp]; exact h.lo hm t

/-- whatever the loop returns multiplies back to all zeros and all poles -/
theorem sopLoop_spec {order : List ℂ → ℂ → List Nat} {pg : Pairing} {ag : Bool} : ∀ (n : Nat) {x y : List ℂ} {acc rows : List (List ℂ)} {zs ps : List ℂ},
    (pg ≠ .ml → (roots x).length = (roots y).length) → Factors pg acc zs ps → sopLoop order pg ag n x y acc = .ok rows →
    Factors pg rows (roots x ++ zs) (roots y ++ ps) ∧ rows.length = n + acc.length := by
  intro n
  induction n with
  | zero =>
    intro x y acc rows zs ps hpg ha h
    simp only [sopLoop] at h
    split at h
    · rename_i he
      cases h
      rw [Bool.and_eq_true, List.isEmpty_iff, List.isEmpty_iff] at he
      obtain ⟨rfl, rfl⟩ := he
      exact ⟨ha, by simp⟩
    · cases h
  | succ n ih =>
    intro x y acc rows zs ps hpg ha h
    simp only [sopLoop] at h
    obtain ⟨⟨s, x', y'⟩, hs, h⟩ := bind_ok h
    obtain ⟨zs', ps', h1, h2, h3, h4⟩ := step_spec hpg hs
    obtain ⟨h5, h6⟩ := ih h4 (ha.cons h1) h
    refine ⟨h5.perm (List.Perm.refl _) ?_ ?_, ?_⟩
    · refine (h2.append_right zs).trans ?_
      rw [← List.append_assoc]
      exact List.perm_append_comm.append_right zs
    · refine (h3.append_right ps).trans ?_
      rw [← List.append_assoc]
      exact List.perm_append_comm.append_right ps
    · rw [h6, List.length_cons]; omega

/-! ## The loop succeeds -/

theorem exists_min : ∀ {l : List ℝ}, l ≠ [] → ∃ v ∈ l, ∀ u ∈ l, v ≤ u := by
  intro l
  induction l with
  | nil => intro h; exact absurd rfl h
  | cons a t ih =>
    intro _
    by_cases ht : t = []
    · subst ht; exact ⟨a, by simp, by simp⟩
    · obtain ⟨v, hv, hm⟩ := ih ht
      rcases le_total a v with h | h
      · exact ⟨a, by simp, by simpa using fun u hu => h.trans (hm u hu)⟩
      · exact ⟨v, by simp [hv], by simpa using ⟨h, hm⟩⟩

/-- `argmin` returns the position of a smallest entry -/
theorem argmin_spec {l : List ℝ} (h : l ≠ []) : ∃ i, ∃ hi : i < l.length, argmin l = .ok i ∧ ∀ u ∈ l, l[i] ≤ u := by
  obtain ⟨v, hv, hm⟩ := exists_min h
  have hlt : l.findIdx (fun v => l.all (fun u => decide (v ≤ u))) < l.length := by
    rw [List.findIdx_lt_length]; exact ⟨v, hv, by simpa using hm⟩
  refine ⟨_, hlt, by unfold argmin; rw [if_neg (by simpa using h)], ?_⟩
  have := List.findIdx_getElem (w := hlt)
  simpa using this

theorem iw_ok (ag : Bool) {l : List ℂ} (h : l ≠ []) : ∃ i, i < l.length ∧ iw ag l = .ok i := by
  obtain ⟨i, hi, h1, -⟩ := argmin_spec (l := l.map (fun v => if ag then |v.re| else |1 - ‖v‖|)) (by simpa using h)
  exact ⟨i, by simpa using hi, h1⟩

theorem pickPole_ok (ag : Bool) {y : List ℂ} (h : y ≠ []) : ∃ v y', pickPole ag y = .ok (v, y') := by
  obtain ⟨i, hi, h1⟩ := iw_ok ag h
  obtain ⟨v, y', h2⟩ := takeAt_ok hi
  exact ⟨v, y', by rw [pickPole, ok_bind h1, h2]⟩

theorem pickRealPole_ok (ag : Bool) {y : List ℂ} (h : ∃ v ∈ y, v.im = 0) : ∃ v y', pickRealPole ag y = .ok (v, y') := by
  obtain ⟨v, hv, h0⟩ := h
  obtain ⟨i, hi, rfl⟩ := List.mem_iff_getElem.mp hv
  have hne : (List.range y.length).filter (fun i => isReal (y.getD i 0)) ≠ [] := by
    apply List.ne_nil_of_mem (a := i)
    rw [List.mem_filter, List.mem_range, isReal_iff]
    exact ⟨hi, by rw [getD_of_lt hi]; exact h0⟩
  obtain ⟨j, hj, h1⟩ := iw_ok ag (l := ((List.range y.length).filter (fun i => isReal (y.getD i 0))).map (fun i => y.getD i 0)) (by simpa using hne)
  rw [List.length_map] at hj
  have hm := List.getElem_mem hj
  obtain ⟨v, y', h2⟩ := takeAt_ok (List.mem_range.mp (List.mem_filter.mp hm).1)
  refine ⟨v, y', ?_⟩
  unfold pickRealPole
  simp only
  rw [ok_bind h1, List.getElem?_eq_getElem hj]
  exact h2

theorem pickZero_any_ok {order : List ℂ → ℂ → List Nat} (ho : Ordering order) {x : List ℂ} (h : x ≠ []) (y1 : ℂ) :
    ∃ v x', pickZero order x y1 .any = .ok (v, x') := by
  have hp := ho x y1
  cases hl : order x y1 with
  | nil => rw [hl] at hp; have := hp.length_eq; simp at this; exact absurd this.symm (by simpa using h)
  | cons i t =>
    have : i < x.length := List.mem_range.mp (hp.subset (by rw [hl]; simp))
    obtain ⟨v, x', h2⟩ := takeAt_ok this
    refine ⟨v, x', ?_⟩
    have hc : closest order x y1 .any = .ok i := by simp [closest, hl]
    rw [pickZero, ok_bind hc, h2]

theorem pickZero_real_ok {order : List ℂ → ℂ → List Nat} (ho : Ordering order) {x : List ℂ} (h : ∃ v ∈ x, v.im = 0) (y1 : ℂ) :
    ∃ v x', pickZero order x y1 .real = .ok (v, x') := by
  have hp := ho x y1
  obtain ⟨v, hv, h0⟩ := h
  obtain ⟨i, hi, rfl⟩ := List.mem_iff_getElem.mp hv
  cases hf : (order x y1).find? (fun i => isReal (x.getD i 0)) with
  | none =>
    rw [List.find?_eq_none] at hf
    have := hf i (hp.symm.subset (List.mem_range.mpr hi))
    rw [isReal_iff, getD_of_lt hi] at this
    exact absurd h0 this
  | some j =>
    have hj : j < x.length := List.mem_range.mp (hp.subset (List.mem_of_find?_eq_some hf))
    obtain ⟨v, x', h2⟩ := takeAt_ok hj
    refine ⟨v, x', ?_⟩
    have hc : closest order x y1 .real = .ok j := by simp only [closest, hf]
    rw [pickZero, ok_bind hc, h2]

theorem pickZero_real_err {order : List ℂ → ℂ → List Nat} (ho : Ordering order) {x : List ℂ} (h : ∀ v ∈ x, v.im ≠ 0) (y1 : ℂ) :
    pickZero order x y1 .real = .error .indexError := by
  have hp := ho x y1
  have hf : (order x y1).find? (fun i => isReal (x.getD i 0)) = none := by
    rw [List.find?_eq_none]
    intro i hi
    have hi : i < x.length := List.mem_range.mp (hp.subset hi)
    rw [isReal_iff, getD_of_lt hi]
    exact h _ (List.getElem_mem hi)
  have hc : closest order x y1 .real = .error .indexError := by simp only [closest, hf]
  rw [pickZero, error_bind hc]

/-- the condition under which no pass can fail -/
structure Fit (pg : Pairing) (x y : List ℂ) : Prop where
  le : (roots x).length ≤ (roots y).length
  kind : (pg = .ml ∧ ∀ v ∈ x, v.im = 0) ∨ (x.countP isReal % 2 = 0 ∧ y.countP isReal % 2 = 0)

theorem real_of_countP {l : List ℂ} (h : 0 < l.countP isReal) : ∃ v ∈ l, v.im = 0 := by
  obtain ⟨v, hv, h1⟩ := List.countP_pos_iff.mp h
  exact ⟨v, hv, (isReal_iff v).mp h1⟩

theorem countP_take {l l' : List ℂ} {v : ℂ} (h : l.Perm (v :: l')) : l.countP isReal = l'.countP isReal + if v.im = 0 then 1 else 0 := by
  rw [h.countP_eq, List.countP_cons]
  by_cases h0 : v.im = 0
  · rw [if_pos h0, if_pos ((isReal_iff v).mpr h0)]
  · rw [if_neg h0, if_neg (by rw [isReal_iff]; exact h0)]

theorem roots_nil_iff {l : List ℂ} : (roots l).length = 0 ↔ l = [] := by
  constructor
  · intro h
    cases l with
    | nil => rfl
    | cons a t =>
      rw [roots_cons, List.length_append] at h
      by_cases h0 : a.im = 0
      · rw [roots1_real h0] at h; simp at h
      · rw [roots1_complex h0] at h; simp at h
  · rintro rfl; rfl

theorem zerosFor_ok {order : List ℂ → ℂ → List Nat} (ho : Ordering order) {x : List ℂ} (y1 y2 : ℂ)
    (h : (∀ v ∈ x, v.im = 0) ∨ x.countP isReal % 2 = 0) :
    ∃ s x', zerosFor order x y1 y2 = .ok (s, x') ∧ (roots x').length ≤ (roots x).length - 2 ∧
      ((∀ v ∈ x, v.im = 0) → ∀ v ∈ x', v.im = 0) ∧ (x.countP isReal % 2 = 0 → x'.countP isReal % 2 = 0) := by
  unfold zerosFor
  by_cases he : x = []
  · subst he; exact ⟨_, _, rfl, by simp [roots], fun h => h, fun h => h⟩
  rw [if_neg (by simpa using he)]
  obtain ⟨x1, x', h1⟩ := pickZero_any_ok ho he y1
  obtain ⟨hp, -, -⟩ := pickZero_spec h1
  have hc := countP_take hp
  rw [ok_bind h1]
  simp only [secondZero]
  by_cases hr : x1.im = 0
  · rw [if_neg (by rw [(isReal_iff x1).mpr hr]; simp)]
    rw [if_pos hr] at hc
    have hl := (roots_take_real hp hr).length_eq
    rw [List.length_append, List.length_singleton] at hl
    by_cases he' : x' = []
    · subst he'
      rw [if_pos List.isEmpty_nil]
      exact ⟨_, _, rfl, by simp [roots], by simp, by simp⟩
    rw [if_neg (by simpa using he')]
    have hex : ∃ v ∈ x', v.im = 0 := by
      rcases h with h | h
      · obtain ⟨v, hv⟩ := List.exists_mem_of_ne_nil _ he'
        exact ⟨v, hv, h v (hp.symm.subset (by simp [hv]))⟩
      · exact real_of_countP (by omega)
    obtain ⟨x2, x'', h2⟩ := pickZero_real_ok ho hex y1
    obtain ⟨hp2, hr2, -⟩ := pickZero_spec h2
    have hr2 := hr2 rfl
    have hc2 := countP_take hp2
    rw [if_pos hr2] at hc2
    have hl2 := (roots_take_real hp2 hr2).length_eq
    rw [List.length_append, List.length_singleton] at hl2
    rw [ok_bind h2]
    simp only
    rw [if_pos ((isReal_iff x2).mpr hr2)]
    refine ⟨_, _, rfl, by omega, fun h v hv => ?_, fun _ => by omega⟩
    exact h v (hp.symm.subset (List.mem_cons_of_mem _ (hp2.symm.subset (List.mem_cons_of_mem _ hv))))
  · rw [if_pos (by rw [Bool.not_eq_true', ← Bool.not_eq_true, isReal_iff]; exact hr)]
    rw [if_neg hr] at hc
    have hl := (roots_take_complex hp hr).length_eq
    simp only [List.length_append, List.length_cons, List.length_nil] at hl
    refine ⟨_, _, rfl, by omega, fun h v hv => h v (hp.symm.subset (List.mem_cons_of_mem _ hv)), fun _ => by omega⟩

/-- every pass succeeds, keeps the condition, and uses up two poles (or the last one) -/
theorem step_ok {order : List ℂ → ℂ → List Nat} (ho : Ordering order) {pg : Pairing} (ag : Bool) {x y : List ℂ} (hf : Fit pg x y) (hy : y ≠ []) :
    ∃ s x' y', step order pg ag x y = .ok (s, x', y') ∧ Fit pg x' y' ∧ ((roots y).length + 1) / 2 = ((roots y').length + 1) / 2 + 1 := by
  obtain ⟨y1, y', h1⟩ := pickPole_ok ag hy
  have hp := pickPole_spec h1
  have hc := countP_take hp
  unfold step
  rw [ok_bind h1]
  simp only [stepWith]
  by_cases hA : y1.im = 0 ∧ y'.countP isReal = 0
  · obtain ⟨hr, h0⟩ := hA
    rw [if_pos hr, h0] at hc
    rw [if_pos (by
      rw [Bool.and_eq_true, isReal_iff, Bool.not_eq_true', List.any_eq_false]
      exact ⟨hr, by simpa using List.countP_eq_zero.mp h0⟩)]
    rcases hf.kind with ⟨rfl, hx⟩ | ⟨-, h2⟩
    swap; · omega
    have hl := (roots_take_real hp hr).length_eq
    have hle := hf.le
    have hpar := roots_length y
    have hpar' := roots_length y'
    rw [List.length_append, List.length_singleton] at hl
    simp only [stepLast]
    rw [if_neg (by simp)]
    by_cases he : x = []
    · subst he
      rw [if_pos List.isEmpty_nil]
      exact ⟨_, _, _, rfl, ⟨by simp [roots], Or.inl ⟨rfl, hx⟩⟩, by omega⟩
    rw [if_neg (by simpa using he)]
    obtain ⟨v, hv⟩ := List.exists_mem_of_ne_nil _ he
    obtain ⟨x1, x', h2⟩ := pickZero_real_ok ho ⟨v, hv, hx v hv⟩ y1
    obtain ⟨hp2, hr2, -⟩ := pickZero_spec h2
    have hl2 := (roots_take_real hp2 (hr2 rfl)).length_eq
    rw [List.length_append, List.length_singleton] at hl2
    rw [ok_bind h2]
    exact ⟨_, x', y', rfl, ⟨by omega, Or.inl ⟨rfl, fun v hv => hx v (hp2.symm.subset (List.mem_cons_of_mem _ hv))⟩⟩, by omega⟩
  rw [if_neg (by
    rw [Bool.and_eq_true, isReal_iff, Bool.not_eq_true', List.any_eq_false]
    rintro ⟨hr, h0⟩
    exact hA ⟨hr, List.countP_eq_zero.mpr (by simpa using h0)⟩)]
  rw [if_neg (by
    rintro ⟨hl, hr, h2, h3⟩
    have hr : y1.im ≠ 0 := by intro h0; rw [(isReal_iff y1).mpr h0] at hr; cases hr
    rw [if_neg hr] at hc
    rcases hf.kind with ⟨-, hx⟩ | ⟨-, h4⟩
    · have : x.countP isReal = x.length := List.countP_eq_length.mpr fun v hv => (isReal_iff v).mpr (hx v hv)
      have := List.countP_le_length (p := isReal) (l := y')
      omega
    · omega)]
  have hsp : ∃ y2 y'', secondPole ag y1 y' = .ok (y2, y'') ∧ (y.countP isReal % 2 = 0 → y''.countP isReal % 2 = 0) := by
    unfold secondPole
    by_cases hr : y1.im = 0
    · rw [if_pos ((isReal_iff y1).mpr hr)]
      rw [if_pos hr] at hc
      have : 0 < y'.countP isReal := Nat.pos_of_ne_zero fun h0 => hA ⟨hr, h0⟩
      obtain ⟨v, y'', h2⟩ := pickRealPole_ok ag (real_of_countP this)
      obtain ⟨hp2, hr2⟩ := pickRealPole_spec h2
      have hc2 := countP_take hp2
      rw [if_pos hr2] at hc2
      exact ⟨v, y'', h2, fun _ => by omega⟩
    · rw [if_neg (by rw [isReal_iff]; exact hr)]
      rw [if_neg hr] at hc
      exact ⟨_, _, rfl, fun _ => by omega⟩
  obtain ⟨y2, y'', h2, hpar⟩ := hsp
  obtain ⟨-, hrp⟩ := secondPole_spec h2
  have hl := ((roots_perm hp).trans hrp).length_eq
  simp only [List.length_append, List.length_cons, List.length_nil] at hl
  obtain ⟨s, x', h3, h4, h5, h6⟩ := zerosFor_ok ho (x := x) y1 y2 (hf.kind.imp (·.2) (·.1))
  rw [ok_bind h2]
  simp only
  rw [ok_bind h3]
  have hle := hf.le
  exact ⟨_, x', y'', rfl, ⟨by omega, hf.kind.imp (fun h => ⟨h.1, h5 h.2⟩) (fun h => ⟨h6 h.1, hpar h.2⟩)⟩, by omega⟩

theorem sopLoop_ok {order : List ℂ → ℂ → List Nat} (ho : Ordering order) {pg : Pairing} (ag : Bool) : ∀ (n : Nat) {x y : List ℂ} (acc : List (List ℂ)),
    Fit pg x y → n = ((roots y).length + 1) / 2 → ∃ rows, sopLoop order pg ag n x y acc = .ok rows := by
  intro n
  induction n with
  | zero =>
    intro x y acc hf hn
    have hy : (roots y).length = 0 := by omega
    have hx : (roots x).length = 0 := by have := hf.le; omega
    rw [roots_nil_iff] at hy hx
    subst hy; subst hx
    exact ⟨acc, rfl⟩
  | succ n ih =>
    intro x y acc hf hn
    have hy : y ≠ [] := by rintro rfl; simp [roots] at hn
    obtain ⟨s, x', y', h1, h2, h3⟩ := step_ok ho ag hf hy
    obtain ⟨rows, h4⟩ := ih (s :: acc) h2 (by omega)
    refine ⟨rows, ?_⟩
    simp only [sopLoop]
    rw [ok_bind h1]
    exact h4

end

end Proadv
