import Verif.Props.Sop
import Verif.Props.ButterMain

/-! # Second-order sections of `statistics/signal/butter.py`: C111–C114 -/

namespace Proadv

open Proadv.Butter Complex Spec

set_option linter.unusedSectionVars false

noncomputable section

namespace Spec

/-- the rows multiply to the filter, read in powers of the variable -/
structure SopHi (f : Zpk) (rows : List (List ℂ)) : Prop where
  row : ∀ s ∈ rows, Row s
  num : ∀ t, (rows.map (numHi · t)).prod = f.k * monic f.z t
  den : ∀ t, (rows.map (denHi · t)).prod = monic f.p t

/-- the rows multiply to the filter, read in powers of the delay, with leading denominator coefficients 1 -/
structure SopLo (f : Zpk) (rows : List (List ℂ)) : Prop where
  row : ∀ s ∈ rows, Row s
  lead : ∀ s ∈ rows, s.getD 3 0 = 1
  num : ∀ w, (rows.map (numLo · w)).prod = f.k * delay f.z w
  den : ∀ w, (rows.map (denLo · w)).prod = delay f.p w

end Spec

/-! ## Gain and padding -/

theorem six {s : List ℂ} (h : s.length = 6) : ∃ a b c d e f, s = [a, b, c, d, e, f] := by
  match s, h with
  | [a, b, c, d, e, f], _ => exact ⟨a, b, c, d, e, f, rfl⟩

theorem gain_row {s : List ℂ} (h : Row s) (k : ℝ) :
    Row ((s.take 3).map (fun c => c * (k : ℂ)) ++ s.drop 3) ∧
    (∀ t, numHi ((s.take 3).map (fun c => c * (k : ℂ)) ++ s.drop 3) t = k * numHi s t) ∧
    (∀ t, denHi ((s.take 3).map (fun c => c * (k : ℂ)) ++ s.drop 3) t = denHi s t) ∧
    (∀ t, numLo ((s.take 3).map (fun c => c * (k : ℂ)) ++ s.drop 3) t = k * numLo s t) ∧
    (∀ t, denLo ((s.take 3).map (fun c => c * (k : ℂ)) ++ s.drop 3) t = denLo s t) ∧
    ((s.take 3).map (fun c => c * (k : ℂ)) ++ s.drop 3).getD 3 0 = s.getD 3 0 := by
  obtain ⟨h6, hr⟩ := h
  obtain ⟨a, b, c, d, e, f, rfl⟩ := six h6
  refine ⟨⟨rfl, ?_⟩, ?_, ?_, ?_, ?_, rfl⟩
  · intro v hv
    simp only [List.mem_cons, List.not_mem_nil, or_false, forall_eq_or_imp, forall_eq] at hr
    simp only [List.take_succ_cons, List.take_zero, List.map_cons, List.map_nil, List.drop_succ_cons, List.drop_zero,
      List.cons_append, List.nil_append, List.mem_cons, List.not_mem_nil, or_false] at hv
    obtain ⟨h1, h2, h3, h4, h5, h6⟩ := hr
    rcases hv with rfl | rfl | rfl | rfl | rfl | rfl <;> simp [*]
  · intro t; simp [numHi]; ring
  · intro t; simp [denHi]
  · intro t; simp [numLo]; ring
  · intro t; simp [denLo]

theorem sopHi_of {rows : List (List ℂ)} {f : Zpk} (hne : rows ≠ []) (h : Factors .ml rows f.z f.p) :
    SopHi f (applyGain f.k rows) := by
  cases rows with
  | nil => exact absurd rfl hne
  | cons s t =>
    obtain ⟨g1, g2, g3, -⟩ := gain_row (h.row s (by simp)) f.k
    refine ⟨?_, ?_, ?_⟩
    · intro r hr
      rcases List.mem_cons.mp hr with rfl | hr
      · exact g1
      · exact h.row r (by simp [hr])
    · intro w
      have := (h.hi rfl w).1
      simp only [applyGain, List.map_cons, List.prod_cons, g2] at this ⊢
      rw [← this]; ring
    · intro w
      have := (h.hi rfl w).2
      simp only [applyGain, List.map_cons, List.prod_cons, g3] at this ⊢
      exact this

theorem sopLo_of {pg : Pairing} (hpg : pg ≠ .ml) {rows : List (List ℂ)} {f : Zpk} {i j : Nat} (hne : rows ≠ [])
    (h : Factors pg rows (f.z ++ List.replicate i 0) (f.p ++ List.replicate j 0)) : SopLo f (applyGain f.k rows) := by
  have hpad : ∀ (l : List ℂ) (n : Nat) (w : ℂ), delay (l ++ List.replicate n 0) w = delay l w := by
    intro l n w; rw [delay_append]; simp [delay]
  cases rows with
  | nil => exact absurd rfl hne
  | cons s t =>
    obtain ⟨g1, -, -, g4, g5, g6⟩ := gain_row (h.row s (by simp)) f.k
    refine ⟨?_, ?_, ?_, ?_⟩
    · intro r hr
      rcases List.mem_cons.mp hr with rfl | hr
      · exact g1
      · exact h.row r (by simp [hr])
    · intro r hr
      rcases List.mem_cons.mp hr with rfl | hr
      · rw [g6]; exact h.lead hpg s (by simp)
      · exact h.lead hpg r (by simp [hr])
    · intro w
      have := (h.lo hpg w).1
      simp only [applyGain, List.map_cons, List.prod_cons, g4, hpad] at this ⊢
      rw [← this]; ring
    · intro w
      have := (h.lo hpg w).2
      simp only [applyGain, List.map_cons, List.prod_cons, g5, hpad] at this ⊢
      exact this

theorem prepare_spec {pg : Pairing} (hpg : pg ≠ .ml) (z p : List ℂ) : ∃ i j,
    prepare pg z p = .ok (z ++ List.replicate i 0, p ++ List.replicate j 0, (Max.max z.length p.length + 1) / 2) ∧
    z.length + i = p.length + j ∧ (pg = .nr → (p.length + j) % 2 = 0) ∧
    (p.length + j + 1) / 2 = (Max.max z.length p.length + 1) / 2 := by
  unfold prepare
  rw [if_pos hpg]
  simp only [List.length_append, List.length_replicate]
  split
  · rename_i hc
    refine ⟨p.length + (z.length - p.length) - z.length + 1, z.length - p.length + 1, ?_, ?_, ?_, ?_⟩
    · rw [List.replicate_succ', List.replicate_succ', List.append_assoc, List.append_assoc]
      congr 4; omega
    all_goals omega
  · rename_i hc
    refine ⟨p.length + (z.length - p.length) - z.length, z.length - p.length, ?_, by omega, ?_, by omega⟩
    · congr 4; omega
    · intro h
      rw [not_and] at hc
      have : ¬ (p.length + (z.length - p.length)) % 2 = 1 := fun h1 => hc h1 h
      omega

theorem prepare_ml {z p : List ℂ} (h : z.length ≤ p.length) : prepare .ml z p = .ok (z, p, (p.length + 1) / 2) := by
  unfold prepare; rw [if_neg (by simp), if_neg (by omega)]

theorem conjClosed_pad {l : List ℂ} (h : ConjClosed l) (n : Nat) : ConjClosed (l ++ List.replicate n 0) := by
  unfold ConjClosed at *
  rw [List.map_append, List.map_replicate, map_zero]
  exact h.append_right _

theorem separated_pad {me : ℝ} {l : List ℂ} (h : Separated me l) (n : Nat) : Separated me (l ++ List.replicate n 0) := by
  intro v hv hm
  rcases List.mem_append.mp hv with hv | hv
  · exact h v hv hm
  · rw [List.eq_of_mem_replicate hv]; rfl

/-- the parity of the number of real entries follows the number of roots -/
theorem countP_parity {l r : List ℂ} (h : (roots l).Perm r) : l.countP isReal % 2 = r.length % 2 := by
  have := roots_length l; rw [h.length_eq] at this; omega

theorem not_both_empty {f : Zpk} (h : ¬ (f.z = [] ∧ f.p = [])) : ¬ ((f.z.isEmpty && f.p.isEmpty) = true) := by
  rw [Bool.and_eq_true, List.isEmpty_iff, List.isEmpty_iff]; exact h

/-! ## C111: nearest pairing -/

theorem sop_empty_lo (order : List ℂ → ℂ → List Nat) (me : ℝ) (k : ℝ) (pg : Pairing) (hpg : pg ≠ .other) :
    ∃ rows, xyzToSop order me ⟨[], [], k⟩ (some pg) false = .ok rows ∧ SopLo ⟨[], [], k⟩ rows ∧ rows.length = 1 := by
  refine ⟨[[(k : ℂ), 0, 0, 1, 0, 0]], ?_, ⟨?_, ?_, ?_, ?_⟩, rfl⟩
  · unfold xyzToSop; simp [hpg]
  · intro s hs; rw [List.mem_singleton] at hs; subst hs; exact ⟨rfl, by simp⟩
  · intro s hs; rw [List.mem_singleton] at hs; subst hs; rfl
  · intro w; simp [numLo, delay]
  · intro w; simp [denLo, delay]

/-- **C111.** the default digital conversion never fails, and its rows multiply to the filter; there are ⌈n/2⌉ of them (one
for the empty filter) -/
theorem C111_nearest {order : List ℂ → ℂ → List Nat} (ho : Ordering order) {me : ℝ} (hme : 0 ≤ me) (f : Zpk)
    (hz : ConjClosed f.z) (hp : ConjClosed f.p) (sz : Separated me f.z) (sp : Separated me f.p) :
    ∃ rows, xyzToSop order me f none false = .ok rows ∧ SopLo f rows ∧
      rows.length = Max.max 1 ((Max.max f.z.length f.p.length + 1) / 2) := by
  by_cases he : f.z = [] ∧ f.p = []
  · obtain ⟨z, p, k⟩ := f
    obtain ⟨rfl, rfl⟩ := he
    obtain ⟨rows, h1, h2, h3⟩ := sop_empty_lo order me k .nr (by simp)
    exact ⟨rows, h1, h2, by rw [h3]; simp⟩
  obtain ⟨i, j, h1, h2, h3, h4⟩ := prepare_spec (pg := .nr) (by simp) f.z f.p
  obtain ⟨x, hx, px⟩ := halves_spec hme (conjClosed_pad hz i) (separated_pad sz i)
  obtain ⟨y, hy, py⟩ := halves_spec hme (conjClosed_pad hp j) (separated_pad sp j)
  have lx : (roots x).length = f.z.length + i := by rw [px.length_eq]; simp
  have ly : (roots y).length = f.p.length + j := by rw [py.length_eq]; simp
  have cx := countP_parity px
  have cy := countP_parity py
  simp only [List.length_append, List.length_replicate] at cx cy
  have hpar := h3 rfl
  have hfit : Fit .nr x y := ⟨by omega, Or.inr ⟨by omega, by omega⟩⟩
  obtain ⟨rows, hr⟩ := sopLoop_ok ho false ((Max.max f.z.length f.p.length + 1) / 2) [] hfit (by rw [ly]; exact h4.symm)
  obtain ⟨h5, h6⟩ := sopLoop_spec _ (fun _ => by omega) (factors_nil .nr) hr
  rw [List.append_nil, List.append_nil] at h5
  have h7 := h5.perm (List.Perm.refl _) px.symm py.symm
  have hpos : 0 < Max.max f.z.length f.p.length := by
    rcases f.z.length.eq_zero_or_pos with h | h
    · rcases f.p.length.eq_zero_or_pos with h' | h'
      · exact absurd ⟨List.eq_nil_of_length_eq_zero h, List.eq_nil_of_length_eq_zero h'⟩ he
      · exact lt_max_of_lt_right h'
    · exact lt_max_of_lt_left h
  rw [List.length_nil, Nat.add_zero] at h6
  refine ⟨applyGain f.k rows, ?_, sopLo_of (by simp) ?_ h7, ?_⟩
  · unfold xyzToSop
    simp only [Option.getD_none, Bool.false_eq_true, if_false, false_and]
    rw [if_neg (by simp), if_neg (not_both_empty he), ok_bind h1]
    simp only
    rw [ok_bind hx, ok_bind hy, ok_bind hr]
  · rintro rfl; simp only [List.length_nil] at h6; omega
  · cases rows with
    | nil => simp only [List.length_nil] at h6; omega
    | cons s t => simp only [applyGain, List.length_cons] at h6 ⊢; omega

theorem delay_inv (l : List ℂ) {t : ℂ} (ht : t ≠ 0) : delay l t⁻¹ * t ^ l.length = monic l t := by
  induction l with
  | nil => simp [delay, monic]
  | cons a l ih =>
    simp only [delay, monic, List.map_cons, List.prod_cons, List.length_cons] at ih ⊢
    rw [← ih, pow_succ]; field_simp

/-- **C111.** the cascade response is the filter response -/
theorem C111_response (f : Zpk) (rows : List (List ℂ)) (h : SopLo f rows) (t : ℂ) (ht : t ≠ 0) (hl : f.z.length = f.p.length) :
    (rows.map (fun s => numLo s t⁻¹ / denLo s t⁻¹)).prod = H f t := by
  rw [prod_map_div', h.num, h.den]
  unfold H
  have e1 := delay_inv f.z ht
  have e2 := delay_inv f.p ht
  unfold monic at e1 e2
  rw [← e1, ← e2, hl, ← mul_assoc, mul_div_mul_right _ _ (pow_ne_zero _ ht)]

/-! ## C112: minimal pairing -/

/-- **C112.** the minimal conversion succeeds whenever all zeros are real, or the numbers of zeros and poles are even -/
theorem C112_minimal {order : List ℂ → ℂ → List Nat} (ho : Ordering order) {me : ℝ} (hme : 0 ≤ me) (f : Zpk) (ag : Bool)
    (hle : f.z.length ≤ f.p.length) (hz : ConjClosed f.z) (hp : ConjClosed f.p) (sz : Separated me f.z) (sp : Separated me f.p)
    (hk : (∀ v ∈ f.z, v.im = 0) ∨ (f.z.length % 2 = 0 ∧ f.p.length % 2 = 0)) (hne : f.p ≠ []) :
    ∃ rows, xyzToSop order me f (some .ml) ag = .ok rows ∧ SopHi f rows ∧ rows.length = (f.p.length + 1) / 2 := by
  obtain ⟨x, hx, px⟩ := halves_spec hme hz sz
  obtain ⟨y, hy, py⟩ := halves_spec hme hp sp
  have cx := countP_parity px
  have cy := countP_parity py
  have hfit : Fit .ml x y := by
    refine ⟨by rw [px.length_eq, py.length_eq]; exact hle, ?_⟩
    rcases hk with hk | hk
    · left
      refine ⟨rfl, fun v hv => hk v (px.subset ?_)⟩
      unfold roots
      rw [List.mem_flatMap]
      refine ⟨v, hv, ?_⟩
      unfold roots1; split <;> simp
    · exact Or.inr ⟨by omega, by omega⟩
  obtain ⟨rows, hr⟩ := sopLoop_ok ho ag ((f.p.length + 1) / 2) [] hfit (by rw [py.length_eq])
  obtain ⟨h5, h6⟩ := sopLoop_spec _ (fun h => absurd rfl h) (factors_nil .ml) hr
  rw [List.append_nil, List.append_nil] at h5
  have h7 := h5.perm (List.Perm.refl _) px.symm py.symm
  have hpos : 0 < f.p.length := List.length_pos_of_ne_nil hne
  rw [List.length_nil, Nat.add_zero] at h6
  refine ⟨applyGain f.k rows, ?_, sopHi_of ?_ h7, ?_⟩
  · unfold xyzToSop
    simp only [Option.getD_some]
    rw [if_neg (by simp), if_neg (by simp), if_neg (not_both_empty fun h => hne h.2), ok_bind (prepare_ml hle)]
    simp only
    rw [ok_bind hx, ok_bind hy, ok_bind hr]
  · rintro rfl; simp only [List.length_nil] at h6; omega
  · cases rows with
    | nil => simp only [List.length_nil] at h6; omega
    | cons s t => simp only [applyGain, List.length_cons] at h6 ⊢; omega

/-- **C112.** the cascade response is the filter response, at every point -/
theorem C112_response (f : Zpk) (rows : List (List ℂ)) (h : SopHi f rows) (t : ℂ) :
    (rows.map (fun s => numHi s t / denHi s t)).prod = H f t := by
  rw [prod_map_div', h.num, h.den]; rfl

/-- **C112.** analog conversion uses the minimal pairing by default -/
theorem C112_default (order : List ℂ → ℂ → List Nat) (me : ℝ) (f : Zpk) :
    xyzToSop order me f none true = xyzToSop order me f (some .ml) true := rfl

/-- **C112.** a constant analog filter -/
theorem C112_constant (order : List ℂ → ℂ → List Nat) (me k : ℝ) :
    ∃ rows, xyzToSop order me ⟨[], [], k⟩ none true = .ok rows ∧ SopHi ⟨[], [], k⟩ rows ∧ rows.length = 1 := by
  refine ⟨[[0, 0, (k : ℂ), 0, 0, 1]], by unfold xyzToSop; simp, ⟨?_, ?_, ?_⟩, rfl⟩
  · intro s hs; rw [List.mem_singleton] at hs; subst hs; exact ⟨rfl, by simp⟩
  · intro w; simp [numHi, monic]
  · intro w; simp [denHi, monic]

/-! ## C113: every pairing is sound; rejections -/

/-- **C113.** whichever pairing is asked for, rows that are returned multiply to the filter -/
theorem C113_sound {order : List ℂ → ℂ → List Nat} {me : ℝ} (hme : 0 ≤ me) (f : Zpk) (pg : Pairing) (ag : Bool)
    (hz : ConjClosed f.z) (hp : ConjClosed f.p) (sz : Separated me f.z) (sp : Separated me f.p) (hne : ¬ (f.z = [] ∧ f.p = []))
    (rows : List (List ℂ)) (h : xyzToSop order me f (some pg) ag = .ok rows) :
    (pg = .ml → SopHi f rows ∧ rows.length = (f.p.length + 1) / 2) ∧
    (pg ≠ .ml → SopLo f rows ∧ rows.length = (Max.max f.z.length f.p.length + 1) / 2) := by
  unfold xyzToSop at h
  simp only [Option.getD_some] at h
  split at h
  · cases h
  split at h
  · cases h
  rw [if_neg (not_both_empty hne)] at h
  by_cases hpg : pg = .ml
  · subst hpg
    refine ⟨fun _ => ?_, fun h => absurd rfl h⟩
    by_cases hle : f.z.length ≤ f.p.length
    · have hp' : f.p ≠ [] := by
        intro h0; rw [h0] at hle
        exact hne ⟨List.eq_nil_of_length_eq_zero (by simpa using hle), h0⟩
      have hpos : 0 < f.p.length := List.length_pos_of_ne_nil hp'
      rw [ok_bind (prepare_ml hle)] at h
      simp only at h
      obtain ⟨x, hx, px⟩ := halves_spec hme hz sz
      obtain ⟨y, hy, py⟩ := halves_spec hme hp sp
      rw [ok_bind hx, ok_bind hy] at h
      obtain ⟨rows', hr, h⟩ := bind_ok h
      cases h
      obtain ⟨h5, h6⟩ := sopLoop_spec _ (fun h => absurd rfl h) (factors_nil .ml) hr
      rw [List.append_nil, List.append_nil] at h5
      have h7 := h5.perm (List.Perm.refl _) px.symm py.symm
      rw [List.length_nil, Nat.add_zero] at h6
      refine ⟨sopHi_of ?_ h7, ?_⟩
      · rintro rfl; simp only [List.length_nil] at h6; omega
      · cases rows' with
        | nil => simp only [List.length_nil] at h6; omega
        | cons s t => simp only [applyGain, List.length_cons] at h6 ⊢; omega
    · exfalso
      have : prepare .ml f.z f.p = .error .valueError := by
        unfold prepare; rw [if_neg (by simp), if_pos (by omega)]
      rw [error_bind this] at h; cases h
  · refine ⟨fun h => absurd h hpg, fun _ => ?_⟩
    obtain ⟨i, j, h1, h2, h3, h4⟩ := prepare_spec hpg f.z f.p
    obtain ⟨x, hx, px⟩ := halves_spec hme (conjClosed_pad hz i) (separated_pad sz i)
    obtain ⟨y, hy, py⟩ := halves_spec hme (conjClosed_pad hp j) (separated_pad sp j)
    have lx : (roots x).length = f.z.length + i := by rw [px.length_eq]; simp
    have ly : (roots y).length = f.p.length + j := by rw [py.length_eq]; simp
    have hpos : 0 < Max.max f.z.length f.p.length := by
      rcases f.z.length.eq_zero_or_pos with h | h
      · rcases f.p.length.eq_zero_or_pos with h' | h'
        · exact absurd ⟨List.eq_nil_of_length_eq_zero h, List.eq_nil_of_length_eq_zero h'⟩ hne
        · exact lt_max_of_lt_right h'
      · exact lt_max_of_lt_left h
    rw [ok_bind h1] at h
    simp only at h
    rw [ok_bind hx, ok_bind hy] at h
    obtain ⟨rows', hr, h⟩ := bind_ok h
    cases h
    obtain ⟨h5, h6⟩ := sopLoop_spec _ (fun _ => by omega) (factors_nil pg) hr
    rw [List.append_nil, List.append_nil] at h5
    have h7 := h5.perm (List.Perm.refl _) px.symm py.symm
    rw [List.length_nil, Nat.add_zero] at h6
    refine ⟨sopLo_of hpg ?_ h7, ?_⟩
    · rintro rfl; simp only [List.length_nil] at h6; omega
    · cases rows' with
      | nil => simp only [List.length_nil] at h6; omega
      | cons s t => simp only [applyGain, List.length_cons] at h6 ⊢; omega

/-- **C113.** unknown pairings, non-minimal pairings of analog filters and improper filters are rejected -/
theorem C113_value_error (order : List ℂ → ℂ → List Nat) (me : ℝ) (f : Zpk) :
    (∀ ag, xyzToSop order me f (some .other) ag = .error .valueError) ∧
    (∀ pg, pg ≠ .ml → xyzToSop order me f (some pg) true = .error .valueError) ∧
    (f.p.length < f.z.length → ∀ ag, xyzToSop order me f (some .ml) ag = .error .valueError) := by
  refine ⟨fun ag => by unfold xyzToSop; simp, fun pg h => ?_, fun h ag => ?_⟩
  · unfold xyzToSop
    simp only [Option.getD_some]
    split
    · rfl
    · rw [if_pos ⟨trivial, h⟩]
  · unfold xyzToSop
    simp only [Option.getD_some]
    rw [if_neg (by simp), if_neg (by simp), if_neg (not_both_empty ?_)]
    · have : prepare .ml f.z f.p = .error .valueError := by
        unfold prepare; rw [if_neg (by simp), if_pos h]
      rw [error_bind this]
    · rintro ⟨h1, -⟩; rw [h1] at h; simp at h

/-- **C113.** zeros with different numbers of roots above and below the real axis are rejected -/
theorem C113_unmatched (order : List ℂ → ℂ → List Nat) {me : ℝ} (hme : 0 ≤ me) (f : Zpk) (ag : Bool)
    (h : f.z.countP (fun v => decide (me * ‖v‖ < |v.im| ∧ 0 < v.im)) ≠ f.z.countP (fun v => decide (me * ‖v‖ < |v.im| ∧ v.im < 0))) :
    xyzToSop order me f none ag = .error .valueError := by
  have hne : f.z ≠ [] := by intro h0; rw [h0] at h; simp at h
  have hu : ∀ i, halves me (f.z ++ List.replicate i 0) = .error .valueError := by
    intro i
    unfold halves
    rw [error_bind]
    apply cxr_unmatched hme
    rw [List.countP_append, List.countP_append]
    have e1 : (List.replicate i (0 : ℂ)).countP (fun v => decide (me * ‖v‖ < |v.im| ∧ 0 < v.im)) = 0 := by
      rw [List.countP_eq_zero]; intro v hv; rw [List.eq_of_mem_replicate hv]; simp
    have e2 : (List.replicate i (0 : ℂ)).countP (fun v => decide (me * ‖v‖ < |v.im| ∧ v.im < 0)) = 0 := by
      rw [List.countP_eq_zero]; intro v hv; rw [List.eq_of_mem_replicate hv]; simp
    rw [e1, e2]; omega
  unfold xyzToSop
  cases ag with
  | true =>
    simp only [Option.getD_none, if_true]
    rw [if_neg (by simp), if_neg (by simp), if_neg (not_both_empty fun h => hne h.1)]
    by_cases hle : f.z.length ≤ f.p.length
    · rw [ok_bind (prepare_ml hle)]
      simp only
      have := hu 0
      rw [List.replicate_zero, List.append_nil] at this
      rw [error_bind this]
    · have : prepare .ml f.z f.p = .error .valueError := by
        unfold prepare; rw [if_neg (by simp), if_pos (by omega)]
      rw [error_bind this]
  | false =>
    simp only [Option.getD_none, Bool.false_eq_true, if_false, false_and]
    rw [if_neg (by simp), if_neg (not_both_empty fun h => hne h.1)]
    obtain ⟨i, j, h1, -⟩ := prepare_spec (pg := .nr) (by simp) f.z f.p
    rw [ok_bind h1]
    simp only
    rw [error_bind (hu i)]

/-- the pole chosen first is a closest one to the axis (analog) or circle (digital) -/
theorem pickPole_min {ag : Bool} {y : List ℂ} {v : ℂ} {y' : List ℂ} (h : pickPole ag y = .ok (v, y')) (u : ℂ) (hu : u ∈ y) :
    (if ag then |v.re| else |1 - ‖v‖|) ≤ (if ag then |u.re| else |1 - ‖u‖|) := by
  obtain ⟨i, hi, ht⟩ := bind_ok h
  obtain ⟨-, hv⟩ := takeAt_perm ht
  have hne : y ≠ [] := List.ne_nil_of_mem hu
  obtain ⟨j, hj, h1, h2⟩ := argmin_spec (l := y.map (fun v => if ag then |v.re| else |1 - ‖v‖|)) (by simpa using hne)
  have hij : j = i := by
    have : iw ag y = .ok j := h1
    rw [this] at hi; exact Except.ok.inj hi
  subst hij
  have := h2 _ (List.mem_map.mpr ⟨u, hu, rfl⟩)
  rw [List.getElem_map] at this
  rw [List.length_map] at hj
  rw [getD_of_lt hj] at hv
  rwa [hv] at this

theorem mem_roots_self {l : List ℂ} {v : ℂ} (h : v ∈ l) : v ∈ roots l := by
  unfold roots
  rw [List.mem_flatMap]
  refine ⟨v, h, ?_⟩
  unfold roots1; split <;> simp

theorem mem_of_real_root {l : List ℂ} {v : ℂ} (h : v ∈ roots l) (hv : v.im = 0) : v ∈ l := by
  unfold roots at h
  rw [List.mem_flatMap] at h
  obtain ⟨u, hu, h⟩ := h
  unfold roots1 at h
  split at h
  · rw [List.mem_singleton] at h; rwa [h]
  · rename_i h0
    simp only [List.mem_cons, List.not_mem_nil, or_false] at h
    rcases h with h | h
    · rwa [h]
    · rw [h] at hv; simp at hv; exact absurd hv h0

/-- **C113.** the minimal pairing fails on legitimate filters: when the single real pole is the one closest to the axis and
the zeros are conjugate pairs off the real axis, IndexError is raised -/
theorem C113_index_error {order : List ℂ → ℂ → List Nat} (ho : Ordering order) {me : ℝ} (hme : 0 ≤ me) (f : Zpk) (r : ℂ) (q : List ℂ)
    (hle : f.z.length ≤ f.p.length) (hz : ConjClosed f.z) (hp : ConjClosed f.p) (sz : Separated me f.z) (sp : Separated me f.p)
    (hpr : f.p.Perm (r :: q)) (hr : r.im = 0) (hq : ∀ u ∈ q, u.im ≠ 0 ∧ |r.re| < |u.re|) (hz0 : f.z ≠ []) (hzc : ∀ v ∈ f.z, v.im ≠ 0) :
    xyzToSop order me f none true = .error .indexError := by
  obtain ⟨x, hx, px⟩ := halves_spec hme hz sz
  obtain ⟨y, hy, py⟩ := halves_spec hme hp sp
  have pyr := py.trans hpr
  have hry : r ∈ y := mem_of_real_root (pyr.symm.subset (by simp)) hr
  obtain ⟨v, y', hv⟩ := pickPole_ok true (List.ne_nil_of_mem hry)
  have hmin := pickPole_min hv r hry
  have hpp := pickPole_spec hv
  rw [if_pos rfl, if_pos rfl] at hmin
  have hvr : v = r := by
    have : v ∈ r :: q := pyr.subset (mem_roots_self (hpp.symm.subset (by simp)))
    rcases List.mem_cons.mp this with h | h
    · exact h
    · have := (hq v h).2; linarith
  subst hvr
  have hy' : (roots y').Perm q := by
    have := (roots_take_real hpp hr).symm.trans pyr
    exact List.Perm.cons_inv this
  have hx0 : x ≠ [] := by
    rintro rfl
    exact hz0 (List.eq_nil_of_length_eq_zero (by rw [← px.length_eq]; rfl))
  have hstep : step order .ml true x y = .error .indexError := by
    unfold step
    rw [ok_bind hv]
    simp only [stepWith]
    rw [if_pos]
    · simp only [stepLast]
      rw [if_neg (by simp), if_neg (by simpa using hx0), error_bind]
      rw [error_bind]
      exact pickZero_real_err ho (fun u hu => hzc u (px.subset (mem_roots_self hu))) v
    · rw [Bool.and_eq_true, isReal_iff, Bool.not_eq_true', List.any_eq_false]
      refine ⟨hr, fun u hu => ?_⟩
      rw [isReal_iff]
      exact (hq u (hy'.subset (mem_roots_self hu))).1
  have hc : ∃ m, (f.p.length + 1) / 2 = m + 1 := by
    have := hpr.length_eq
    rw [List.length_cons] at this
    exact ⟨(f.p.length + 1) / 2 - 1, by omega⟩
  obtain ⟨m, hm⟩ := hc
  unfold xyzToSop
  simp only [Option.getD_none, if_true]
  rw [if_neg (by simp), if_neg (by simp), if_neg (not_both_empty fun h => hz0 h.1), ok_bind (prepare_ml hle)]
  simp only
  rw [ok_bind hx, ok_bind hy, error_bind]
  rw [hm]
  simp only [sopLoop]
  rw [error_bind hstep]

namespace Spec

/-- `np.argsort(np.abs(x - y))`: every index once, by increasing distance -/
structure Nearest (order : List ℂ → ℂ → List Nat) : Prop where
  perm : Ordering order
  sorted : ∀ x y, (order x y).Pairwise (fun i j => ‖x.getD i 0 - y‖ ≤ ‖x.getD j 0 - y‖)

end Spec

theorem pickZero_any_nearest {order : List ℂ → ℂ → List Nat} (ho : Nearest order) {x x' : List ℂ} {y1 v : ℂ}
    (h : pickZero order x y1 .any = .ok (v, x')) : ∀ u ∈ x, ‖v - y1‖ ≤ ‖u - y1‖ := by
  intro u hu
  obtain ⟨k, hk, ht⟩ := bind_ok h
  obtain ⟨-, hv⟩ := takeAt_perm ht
  obtain ⟨i, hi, rfl⟩ := List.mem_iff_getElem.mp hu
  have hm : i ∈ order x y1 := (ho.perm x y1).symm.subset (List.mem_range.mpr hi)
  have hs := ho.sorted x y1
  simp only [closest] at hk
  cases hl : order x y1 with
  | nil => rw [hl] at hm; simp at hm
  | cons j t =>
    rw [hl] at hk hm hs
    have : j = k := Except.ok.inj hk
    subst this
    rcases List.mem_cons.mp hm with rfl | hm
    · rw [← hv, getD_of_lt hi]
    · have := (List.pairwise_cons.mp hs).1 i hm
      rwa [hv, getD_of_lt hi] at this

/-- **C113.** keep-odd pairing fails on legitimate filters: all poles real, one real zero nearer to the poles than the
conjugate pairs of zeros — IndexError -/
theorem C113_keep_odd_index_error {order : List ℂ → ℂ → List Nat} (ho : Nearest order) {me : ℝ} (hme : 0 ≤ me) (f : Zpk) (r : ℂ) (q : List ℂ)
    (hl : f.z.length = f.p.length) (hz : ConjClosed f.z) (hp : ConjClosed f.p) (sz : Separated me f.z) (sp : Separated me f.p)
    (hzr : f.z.Perm (r :: q)) (hr : r.im = 0) (hq0 : q ≠ []) (hpr : ∀ p ∈ f.p, p.im = 0)
    (hq : ∀ u ∈ q, u.im ≠ 0 ∧ ∀ p ∈ f.p, ‖r - p‖ < ‖u - p‖) :
    xyzToSop order me f (some .kd) false = .error .indexError := by
  obtain ⟨x, hx, px⟩ := halves_spec hme hz sz
  obtain ⟨y, hy, py⟩ := halves_spec hme hp sp
  have pxr := px.trans hzr
  have hrx : r ∈ x := mem_of_real_root (pxr.symm.subset (by simp)) hr
  have hyr : ∀ v ∈ y, v.im = 0 := fun v hv => hpr v (py.subset (mem_roots_self hv))
  have hyl : y.length = f.p.length := by
    have := py.length_eq; rwa [roots_real hyr] at this
  have hql := List.length_pos_of_ne_nil hq0
  have hzl := hzr.length_eq
  rw [List.length_cons] at hzl
  obtain ⟨y1, y', hv⟩ := pickPole_ok false (y := y) (by rintro rfl; simp only [List.length_nil] at hyl; omega)
  have hpp := pickPole_spec hv
  have hy1p : y1 ∈ y := hpp.symm.subset (by simp)
  have hy1 : y1.im = 0 := hyr y1 hy1p
  have hy'l := hpp.length_eq
  rw [List.length_cons] at hy'l
  obtain ⟨u, hu⟩ := List.exists_mem_of_ne_nil y' (by rintro rfl; simp only [List.length_nil] at hy'l; omega)
  have hur : u.im = 0 := hyr u (hpp.symm.subset (by simp [hu]))
  obtain ⟨y2, y'', h2⟩ := pickRealPole_ok false ⟨u, hu, hur⟩
  obtain ⟨x1, x', h3⟩ := pickZero_any_ok ho.perm (List.ne_nil_of_mem hrx) y1
  obtain ⟨hpx, -, -⟩ := pickZero_spec h3
  have hx1 : x1 = r := by
    have hm : x1 ∈ r :: q := pxr.subset (mem_roots_self (hpx.symm.subset (by simp)))
    rcases List.mem_cons.mp hm with h | h
    · exact h
    · have h4 := (hq x1 h).2 y1 (py.subset (mem_roots_self hy1p))
      have h5 := pickZero_any_nearest ho h3 r hrx
      linarith
  subst hx1
  have hx'q : (roots x').Perm q := List.Perm.cons_inv ((roots_take_real hpx hr).symm.trans pxr)
  have hx'0 : x' ≠ [] := by
    rintro rfl
    exact hq0 (List.eq_nil_of_length_eq_zero (by rw [← hx'q.length_eq]; rfl))
  have hstep : step order .kd false x y = .error .indexError := by
    unfold step
    rw [ok_bind hv]
    simp only [stepWith]
    rw [if_neg, if_neg]
    · have hsp : secondPole false y1 y' = .ok (y2, y'') := by
        unfold secondPole; rw [if_pos ((isReal_iff y1).mpr hy1), h2]
      rw [ok_bind hsp]
      simp only [zerosFor]
      rw [if_neg (by simpa using List.ne_nil_of_mem hrx), ok_bind h3, error_bind]
      simp only [secondZero]
      rw [if_neg (by rw [(isReal_iff x1).mpr hr]; simp), if_neg (by simpa using hx'0), error_bind]
      exact pickZero_real_err ho.perm (fun u hu => (hq u (hx'q.subset (mem_roots_self hu))).1) y1
    · rintro ⟨-, h, -⟩
      rw [(isReal_iff y1).mpr hy1] at h; cases h
    · rw [Bool.and_eq_true, Bool.not_eq_true', List.any_eq_false]
      rintro ⟨-, h⟩
      exact h u hu ((isReal_iff u).mpr hur)
  have hprep : prepare .kd f.z f.p = .ok (f.z, f.p, (f.p.length + 1) / 2) := by
    unfold prepare
    rw [if_pos (by simp)]
    simp only [hl, Nat.sub_self, List.replicate_zero, List.append_nil, max_self]
    rw [if_neg (by simp)]
  obtain ⟨m, hm⟩ : ∃ m, (f.p.length + 1) / 2 = m + 1 := ⟨(f.p.length + 1) / 2 - 1, by omega⟩
  unfold xyzToSop
  simp only [Option.getD_some, Bool.false_eq_true, false_and]
  rw [if_neg (by simp), if_neg (by simp), if_neg (not_both_empty fun h => by rw [h.1] at hzl; simp at hzl), ok_bind hprep]
  simp only
  rw [ok_bind hx, ok_bind hy, error_bind]
  rw [hm]
  simp only [sopLoop]
  rw [error_bind hstep]

/-! ## C114: `butterworth(..., output='sop')` -/

/-- zeros of every analog design are real, or zeros and poles are even in number -/
theorem transform_kind {csqrt : ℂ → ℂ} {n l : Nat} {btype : BType} {d : List ℝ} {f : Zpk}
    (h : transform csqrt (proto n) l btype d = .ok f) :
    (∀ v ∈ f.z, v.im = 0) ∨ (f.z.length % 2 = 0 ∧ f.p.length % 2 = 0) := by
  have hz : (proto n).z = [] := rfl
  have hle : (proto n).z.length ≤ (proto n).p.length := by rw [hz]; exact Nat.zero_le _
  cases btype with
  | lp =>
    left
    simp only [transform] at h
    split at h
    · cases h
    · unfold lowToLow at h
      rw [relativeScale_ok hle] at h
      cases h
      simp [hz]
  | hp =>
    left
    simp only [transform] at h
    split at h
    · cases h
    · unfold lowToHigh at h
      rw [relativeScale_ok hle] at h
      cases h
      simp [hz]
  | bp =>
    left
    simp only [transform] at h
    split at h
    · cases h
    · unfold lowToBand at h
      rw [relativeScale_ok hle] at h
      cases h
      simp [hz, catenate]
  | bs =>
    right
    simp only [transform] at h
    split at h
    · cases h
    · rename_i hd
      obtain ⟨g, hg, h1, h2⟩ := (C96_counts csqrt (proto n) (Real.sqrt (d.getD 0 0 * d.getD 1 0)) (d.getD 1 0 - d.getD 0 0) hle).2.2.2.2
      rw [hg] at h
      cases h
      omega
  | other => simp [transform] at h

/-- the conversion used by `butterworth` -/
def toSop (order : List ℂ → ℂ → List Nat) (me : ℝ) (f : Zpk) (ag : Bool) : Py (List (List ℂ)) := xyzToSop order me f none ag

/-- **C114.** on every acceptable design the second-order-section output is produced and multiplies to the designed filter;
the response of the cascade is the response of the filter -/
theorem C114_butterworth_sop {csqrt : ℂ → ℂ} (hc : IsSqrt csqrt) {order : List ℂ → ℂ → List Nat} (ho : Ordering order) {me : ℝ}
    (hme : 0 ≤ me) (q : ℝ) (w : List ℝ) (btype : BType) (ag : Bool) (sr : SrArg) (g : Zpk)
    (h : design csqrt q w btype ag .sop sr = .ok g) (sz : Separated me g.z) (sp : Separated me g.p) :
    ∃ rows, butterworth csqrt (toSop order me) q w btype ag .sop sr = .ok (.sop rows) ∧
      (∀ s ∈ rows, Row s) ∧
      (ag = true → ∀ t, (rows.map (fun s => numHi s t / denHi s t)).prod = H g t) ∧
      (ag = false → (∀ s ∈ rows, s.getD 3 0 = 1) ∧
        ∀ t, t ≠ 0 → (rows.map (fun s => numLo s t⁻¹ / denLo s t⁻¹)).prod = H g t) := by
  obtain ⟨hz, hp, -, -⟩ := C99_real hc q w btype ag .sop sr g h
  have hbw : ∀ rows, xyzToSop order me g none ag = .ok rows → butterworth csqrt (toSop order me) q w btype ag .sop sr = .ok (.sop rows) := by
    intro rows hr
    unfold butterworth
    rw [ok_bind h]
    simp only [toSop]
    rw [ok_bind hr]
  obtain ⟨hv, hb⟩ := (C101_accepts hc q w btype ag .sop sr).mp ⟨g, h⟩
  obtain ⟨n, rfl⟩ := hv.order
  rw [design_pre csqrt btype n hv.pre] at h
  obtain ⟨f, hf, h⟩ := bind_ok (e := transform csqrt (proto n) w.length btype (warped ag (freqs w sr))) h
  obtain ⟨f', hA, hd⟩ := design_valid hc hv hb
  rw [design_pre csqrt btype n hv.pre, hf] at hd
  cases ag with
  | true =>
    have e : f = g := Except.ok.inj h
    subst e
    have e : f = f' := Except.ok.inj hd
    subst e
    by_cases hp0 : f.p = []
    · have hz0 : f.z = [] := List.eq_nil_of_length_eq_zero (by have := hA.proper; rw [hp0] at this; simpa using this)
      obtain ⟨z, p, k⟩ := f
      simp only at hp0 hz0
      subst hp0; subst hz0
      obtain ⟨rows, h1, h2, -⟩ := C112_constant order me k
      exact ⟨rows, hbw rows h1, h2.row, fun _ => C112_response _ _ h2, fun h => by simp at h⟩
    · obtain ⟨rows, h1, h2, -⟩ := C112_minimal ho hme f true hA.proper hz hp sz sp (transform_kind hf) hp0
      exact ⟨rows, hbw rows h1, h2.row, fun _ => C112_response _ _ h2, fun h => by simp at h⟩
  | false =>
    have hbl : bilinear f (.scalar 2) = .ok g := h
    have hbl' : bilinear f (.scalar 2) = bilinear f' (.scalar 2) := hd
    have hl : g.z.length = g.p.length := by
      obtain ⟨g', h1, h2, h3⟩ := (C96_counts csqrt f' 2 0 hA.proper).2.2.1
      rw [hbl', h1] at hbl
      cases hbl
      omega
    obtain ⟨rows, h1, h2, -⟩ := C111_nearest ho hme g hz hp sz sp
    exact ⟨rows, hbw rows h1, h2.row, fun h => by simp at h, fun _ => ⟨h2.lead, fun t ht => C111_response g rows h2 t ht hl⟩⟩

/-! ## Concrete cases -/

/-- listing the indices in increasing order meets the contract -/
theorem ordering_range : Ordering (fun x _ => List.range x.length) := fun _ _ => List.Perm.refl _

/-- with zero tolerance the separation condition always holds -/
theorem separated_zero (l : List ℂ) : Separated 0 l := by
  intro v _ h; rw [zero_mul] at h; exact abs_nonpos_iff.mp h

/-- a filter with a conjugate pair and a real pole: C111 applies -/
example : ∃ rows, xyzToSop (fun x _ => List.range x.length) 0 ⟨[-1], [1 / 2, I / 2, -I / 2], 3⟩ none false = .ok rows ∧
    SopLo ⟨[-1], [1 / 2, I / 2, -I / 2], 3⟩ rows ∧ rows.length = 2 := by
  have h2 : starRingEnd ℂ 2 = 2 := conj_two
  obtain ⟨rows, h1, h2, h3⟩ := C111_nearest ordering_range le_rfl ⟨[-1], [1 / 2, I / 2, -I / 2], 3⟩
    (by simp [ConjClosed]) (by
      simp only [ConjClosed, List.map_cons, List.map_nil, map_div₀, map_neg, map_one, h2, Complex.conj_I, neg_neg]
      exact (List.Perm.swap _ _ _).cons _) (separated_zero _) (separated_zero _)
  exact ⟨rows, h1, h2, h3⟩

/-- the elliptic-type filter with zeros ±i and poles −1, −2 ± i is rejected by the minimal pairing -/
example : xyzToSop (fun x _ => List.range x.length) 0 ⟨[I, -I], [-1, -2 + I, -2 - I], 1⟩ none true = .error .indexError := by
  have h2 : starRingEnd ℂ 2 = 2 := conj_two
  refine C113_index_error ordering_range le_rfl _ (-1) [-2 + I, -2 - I] (by simp) ?_ ?_ (separated_zero _) (separated_zero _)
    (List.Perm.refl _) (by simp) (by simp) (by simp) (by simp)
  · simp only [ConjClosed, List.map_cons, List.map_nil, map_neg, Complex.conj_I, neg_neg]
    exact List.Perm.swap _ _ _
  · simp only [ConjClosed, List.map_cons, List.map_nil, map_neg, map_add, map_sub, map_one, h2, Complex.conj_I, sub_neg_eq_add, ← sub_eq_add_neg]
    exact (List.Perm.swap _ _ _).cons _

/-- sorting the indices by distance meets the stronger contract -/
theorem nearest_sort : Nearest (fun x y => (List.range x.length).mergeSort (fun i j => decide (‖x.getD i 0 - y‖ ≤ ‖x.getD j 0 - y‖))) := by
  refine ⟨fun x y => List.mergeSort_perm _ _, fun x y => ?_⟩
  have := List.pairwise_mergeSort (le := fun i j => decide (‖x.getD i 0 - y‖ ≤ ‖x.getD j 0 - y‖))
    (fun a b c h1 h2 => by simp only [decide_eq_true_eq] at *; exact h1.trans h2)
    (fun a b => by simp only [Bool.or_eq_true, decide_eq_true_eq]; exact le_total _ _) (List.range x.length)
  simpa using this

/-- zeros 0 and ±i, triple pole at 0: keep-odd pairing fails -/
example : xyzToSop (fun x y => (List.range x.length).mergeSort (fun i j => decide (‖x.getD i 0 - y‖ ≤ ‖x.getD j 0 - y‖))) 0
    ⟨[0, I, -I], [0, 0, 0], 1⟩ (some .kd) false = .error .indexError := by
  refine C113_keep_odd_index_error nearest_sort le_rfl _ 0 [I, -I] (by simp) ?_ ?_ (separated_zero _) (separated_zero _)
    (List.Perm.refl _) (by simp) (by simp) (by simp) (by simp)
  · simp only [ConjClosed, List.map_cons, List.map_nil, map_neg, map_zero, Complex.conj_I, neg_neg]
    exact (List.Perm.swap _ _ _).cons _
  · simp [ConjClosed]

/-- a single unmatched zero is rejected -/
example : xyzToSop (fun x _ => List.range x.length) 0 ⟨[I], [-1, -1], 1⟩ none false = .error .valueError :=
  C113_unmatched _ le_rfl _ _ (by norm_num)

/-- a third-order digital low-pass design meets the hypotheses of C114 -/
example : ∃ g, design (fun x => x ^ ((1 : ℂ) / 2)) ((3 : ℕ) : ℝ) [1 / 2] .lp false .sop .none = .ok g :=
  (C101_accepts isSqrt_cpow _ _ _ _ _ _).mpr ⟨⟨by simp, by simp, by simp [freqs], by norm_num [freqs], by simp, by simp, ⟨3, rfl⟩,
    by simp, by simp⟩, by simp⟩

end

end Proadv
