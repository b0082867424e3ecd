import Verif.Props.Brent

/-!
# C154: `brentq` converges, with an explicit number of iterations

Between two halvings of the bracket the interpolation steps shrink by two every second iteration, because an
interpolation is accepted only when it is shorter than half of the step before last (`spre`); once that step is no longer
than the tolerance the code bisects.  A change of side replaces the bracket by the last step.
-/

set_option linter.unusedSectionVars false

namespace Proadv.Props

open Proadv Brent

variable {K : Type} [Field K] [LinearOrder K] [IsStrictOrderedRing K]

/-- the measure of progress: width of the bracket below `2^n·t`, the last steps at most `2^⌈j/2⌉·t` and `2^⌊j/2⌋·t` -/
structure Progress (t : K) (n j : Nat) (s : St K) : Prop where
  width : |s.xblk - s.xcur| < 2 ^ n * t
  pre : |s.spre| ≤ 2 ^ ((j + 1) / 2) * t
  cur : |s.scur| ≤ 2 ^ (j / 2) * t
  le : j ≤ 2 * n

/-- the values of `steps`: bisection, or a step shorter than half of `spre` -/
theorem steps_cases {xtol rtol : K} {s : St K} {sp sc : K} (h : steps xtol rtol s = .ok (sp, sc)) :
    (sp = sbis s ∧ sc = sbis s) ∨ (delta xtol rtol s < |s.spre| ∧ sp = s.scur ∧ 2 * |sc| < |s.spre|) := by
  unfold steps at h
  simp only [bind, Except.bind, pdiv] at h
  split at h
  · rename_i hc
    repeat' split at h
    all_goals cases h
    all_goals first | exact .inr ⟨hc.1, rfl, lt_of_lt_of_le (by assumption) (min_le_left _ _)⟩ | exact .inl ⟨rfl, rfl⟩
  · cases h; exact .inl ⟨rfl, rfl⟩

/-- `swap` keeps the bracket and the steps -/
theorem swap_measure (s : St K) : |(swap s).xblk - (swap s).xcur| = |s.xblk - s.xcur| ∧ (swap s).spre = s.spre ∧
    (swap s).scur = s.scur := by
  unfold swap
  split
  · exact ⟨abs_sub_comm _ _, rfl, rfl⟩
  · exact ⟨rfl, rfl, rfl⟩

theorem progress_swap {t : K} {n j : Nat} {s : St K} (h : Progress t n j s) : Progress t n j (swap s) := by
  obtain ⟨e1, e2, e3⟩ := swap_measure s
  exact ⟨by rw [e1]; exact h.width, by rw [e2]; exact h.pre, by rw [e3]; exact h.cur, h.le⟩

/-- one iteration that does not stop -/
theorem progress_step {f : K → K} {xtol rtol : K} {s : St K} {sp sc u : K} {n j : Nat} (hx : 0 < xtol) (hr : 0 ≤ rtol)
    (hst : steps xtol rtol s = .ok (sp, sc)) (hb : delta xtol rtol s ≤ |sbis s|) (u0 : 0 < u) (u1 : u ≤ 3 / 4)
    (hu : (advance f xtol rtol s sp sc).xcur = s.xcur + u * (s.xblk - s.xcur))
    (h : Progress (xtol / 2) n j s) :
    2 ≤ n ∧ ((1 ≤ j ∧ Progress (xtol / 2) n (j - 1) (swap (rebracket (advance f xtol rtol s sp sc)))) ∨
      Progress (xtol / 2) (n - 1) (2 * (n - 1)) (swap (rebracket (advance f xtol rtol s sp sc)))) := by
  have ht : 0 < xtol / 2 := by linarith
  generalize ht' : xtol / 2 = t at *
  have hdt : t ≤ delta xtol rtol s := by
    rw [delta, ← ht']; have := mul_nonneg hr (abs_nonneg s.xcur); linarith
  have hW : |sbis s| = |s.xblk - s.xcur| / 2 := by rw [sbis, abs_div, abs_of_pos (by norm_num : (0 : K) < 2)]
  have hn : 2 ≤ n := by
    by_contra hc
    have hw := h.width
    have : (2 : K) ^ n ≤ 2 ^ 1 := pow_le_pow_right₀ (by norm_num) (by omega)
    have : (2 : K) ^ n * t ≤ 2 ^ 1 * t := mul_le_mul_of_nonneg_right this ht.le
    linarith
  refine ⟨hn, ?_⟩
  set s' := advance f xtol rtol s sp sc with hs'
  have e1 : s'.xpre = s.xcur := rfl
  have e2 : s'.xblk = s.xblk := rfl
  have e3 : s'.spre = sp := rfl
  have e4 : s'.scur = sc := rfl
  have half : ∀ v : K, v ≤ |s.xblk - s.xcur| / 2 → v < 2 ^ (n - 1) * t := by
    intro v hv
    have hw := h.width
    have : (2 : K) ^ n = 2 ^ (n - 1) * 2 := by rw [← pow_succ]; congr 1; omega
    rw [this] at hw
    nlinarith
  -- a bracket, and steps, below `2^(n-1) t`
  have done : ∀ r : St K, |r.xblk - r.xcur| < 2 ^ (n - 1) * t → |r.spre| < 2 ^ (n - 1) * t → |r.scur| < 2 ^ (n - 1) * t →
      Progress t (n - 1) (2 * (n - 1)) r := by
    intro r h1 h2 h3
    refine ⟨h1, ?_, ?_, le_refl _⟩
    · rw [show (2 * (n - 1) + 1) / 2 = n - 1 by omega]; exact h2.le
    · rw [show 2 * (n - 1) / 2 = n - 1 by omega]; exact h3.le
  have hmove : |s'.xcur - s.xcur| = u * |s.xblk - s.xcur| := by
    rw [hu, add_sub_cancel_left, abs_mul, abs_of_pos u0]
  have hwid : |s.xblk - s'.xcur| = (1 - u) * |s.xblk - s.xcur| := by
    rw [hu, show s.xblk - (s.xcur + u * (s.xblk - s.xcur)) = (1 - u) * (s.xblk - s.xcur) by ring, abs_mul,
      abs_of_pos (by linarith)]
  have hsize : |s'.xcur - s.xcur| = if delta xtol rtol s < |sc| then |sc| else delta xtol rtol s := by
    have hd : 0 < delta xtol rtol s := lt_of_lt_of_le ht hdt
    have : s'.xcur = if delta xtol rtol s < |sc| then s.xcur + sc else if 0 < sbis s then s.xcur + delta xtol rtol s
      else s.xcur + -delta xtol rtol s := rfl
    rw [this]
    split
    · rw [add_sub_cancel_left]
    · split
      · rw [add_sub_cancel_left, abs_of_pos hd]
      · rw [add_sub_cancel_left, abs_neg, abs_of_pos hd]
  rcases steps_cases hst with ⟨c1, c2⟩ | ⟨c1, c2, c3⟩
  · -- bisection
    right
    have hm : |s'.xcur - s.xcur| = |s.xblk - s.xcur| / 2 := by
      rw [hsize, c2, ← hW]
      split
      · rfl
      · rename_i hh
        exact le_antisymm hb (not_lt.mp hh)
    apply progress_swap
    unfold rebracket
    split
    · refine done _ ?_ ?_ ?_
      · show |s'.xpre - s'.xcur| < _
        rw [e1, abs_sub_comm, hm]; exact half _ le_rfl
      · show |s'.xcur - s'.xpre| < _
        rw [e1, hm]; exact half _ le_rfl
      · show |s'.xcur - s'.xpre| < _
        rw [e1, hm]; exact half _ le_rfl
    · refine done _ ?_ ?_ ?_
      · rw [e2, hwid]
        rw [hmove] at hm
        exact half _ (by linarith)
      · rw [e3, c1, hW]; exact half _ le_rfl
      · rw [e4, c2, hW]; exact half _ le_rfl
  · have hp := h.pre
    have hj : 1 ≤ j := by
      by_contra hc
      have : (j + 1) / 2 = 0 := by omega
      rw [this, pow_zero, one_mul] at hp
      linarith
    have hex : (2 : K) ^ ((j + 1) / 2) = 2 ^ ((j - 1) / 2) * 2 := by
      rw [← pow_succ]; congr 1; omega
    have hsc : |sc| < 2 ^ ((j - 1) / 2) * t := by
      rw [hex] at hp
      nlinarith
    by_cases hsw : SignType.sign s'.fpre ≠ SignType.sign s'.fcur
    · -- change of side
      right
      apply progress_swap
      rw [rebracket, if_pos hsw]
      have hm : |s'.xcur - s.xcur| < 2 ^ (n - 1) * t := by
        rw [hsize]
        split
        · have hle := h.le
          have : (2 : K) ^ ((j - 1) / 2) ≤ 2 ^ (n - 1) := pow_le_pow_right₀ (by norm_num) (by omega)
          exact hsc.trans_le (mul_le_mul_of_nonneg_right this ht.le)
        · exact half _ (by rw [← hW]; exact hb)
      refine done _ ?_ ?_ ?_
      · show |s'.xpre - s'.xcur| < _
        rw [e1, abs_sub_comm]; exact hm
      · show |s'.xcur - s'.xpre| < _
        rw [e1]; exact hm
      · show |s'.xcur - s'.xpre| < _
        rw [e1]; exact hm
    · left
      refine ⟨hj, progress_swap ?_⟩
      rw [rebracket, if_neg hsw]
      refine ⟨?_, ?_, ?_, by have := h.le; omega⟩
      · rw [e2, hwid]
        refine lt_of_le_of_lt ?_ h.width
        have := abs_nonneg (s.xblk - s.xcur)
        nlinarith
      · rw [e3, c2, show (j - 1 + 1) / 2 = j / 2 by omega]; exact h.cur
      · rw [e4]; exact hsc.le

theorem loop_converges {f : K → K} {a b xtol rtol : K} (hx : 0 < xtol) (hr : 0 ≤ rtol) (N : Nat) :
    ∀ (n j i last : Nat) (s : St K), Inv f a b s → Progress (xtol / 2) n j (swap (rebracket s)) → 1 ≤ N →
      (2 ≤ n → n ^ 2 + j ≤ N + 2) →
      ∃ root calls iters, (loop f xtol rtol N i last s).1 = .ok (.info root calls iters true) := by
  induction N with
  | zero => intro n j i last s _ _ h1; omega
  | succ N ih =>
    intro n j i last s hI hP _ hN
    have h2 := inv_swap hI
    set s2 := swap (rebracket s) with hs2
    have hd : 0 < delta xtol rtol s2 := by
      rw [delta]; have := mul_nonneg hr (abs_nonneg s2.xcur); linarith
    unfold loop
    simp only [← hs2]
    by_cases hconv : s2.fcur = 0 ∨ |sbis s2| < delta xtol rtol s2
    · rw [if_pos hconv]
      exact ⟨_, _, _, rfl⟩
    · rw [if_neg hconv]
      push Not at hconv
      obtain ⟨hc, hb⟩ := hconv
      obtain ⟨sp, sc, t, hst, ht, t0, t1⟩ := steps_spec h2 hd hc hb
      obtain ⟨u, u0, u1, hu⟩ := advance_point (f := f) (sp := sp) hd hb ht t0 t1
      have hX : s2.xblk - s2.xcur ≠ 0 := by
        intro h0
        have : sbis s2 = 0 := by rw [sbis, h0, zero_div]
        rw [this, abs_zero] at hb; linarith
      have hI' := inv_advance h2 hc hX u0 u1 hu
      rw [hst]
      simp only
      obtain ⟨hn, hcase⟩ := progress_step (f := f) hx hr hst hb u0 u1 hu hP
      have hN' := hN hn
      have h4 : 4 ≤ n ^ 2 := by nlinarith
      rcases hcase with ⟨hj, hP'⟩ | hP'
      · exact ih n (j - 1) (i + 1) i _ hI' hP' (by omega) (fun _ => by omega)
      · refine ih (n - 1) (2 * (n - 1)) (i + 1) i _ hI' hP' (by omega) (fun _ => ?_)
        obtain ⟨m, rfl⟩ : ∃ m, n = m + 1 := ⟨n - 1, by omega⟩
        have : (m + 1) ^ 2 = m ^ 2 + 2 * m + 1 := by ring
        simp only [Nat.add_sub_cancel] at *
        omega

/-- further iterations do not change a converged run -/
theorem loop_more {f : K → K} {xtol rtol : K} (N M : Nat) (hNM : N ≤ M) :
    ∀ (i last last' : Nat) (s : St K) (root : K) (calls iters : Nat),
      (loop f xtol rtol N i last s).1 = .ok (.info root calls iters true) →
      loop f xtol rtol M i last' s = loop f xtol rtol N i last s := by
  induction N generalizing M with
  | zero => intro i last last' s root calls iters h; simp [loop] at h
  | succ N ih =>
    intro i last last' s root calls iters h
    obtain ⟨M, rfl⟩ : ∃ m, M = m + 1 := ⟨M - 1, by omega⟩
    unfold loop at h ⊢
    simp only at h ⊢
    split
    · rfl
    · rename_i hc
      rw [if_neg hc] at h
      split
      · rfl
      · rename_i x y hst
        simp only [hst] at h
        rw [ih M (by omega) (i + 1) i i _ root calls iters h]

/-- **C154**: on a bracket of width below `2^n·xtol/2` the loop of `brentq` reports convergence within
`(n + 1)² − 3` iterations (one, if `n ≤ 1`) — for every function `f` with values of opposite sign at the end points,
continuous or not. -/
theorem C154_converges (f : K → K) (a b xtol rtol : K) (hx : 0 < xtol) (hr : 0 ≤ rtol) (hab : a < b)
    (hs : f a * f b < 0) (n : Nat) (hw : 2 * (b - a) < 2 ^ n * xtol) (maxiter : Int) (h1 : 1 ≤ maxiter)
    (hm : ((n : Int) + 1) ^ 2 ≤ maxiter + 3) :
    ∃ root calls iters, (brentq f a b xtol rtol maxiter).1 = .ok (.info root calls iters true) ∧
      (iters : Int) ≤ max 1 (((n : Int) + 1) ^ 2 - 3) := by
  have h0 : f a ≠ 0 := by intro h; rw [h] at hs; simp at hs
  have h0' : f b ≠ 0 := by intro h; rw [h] at hs; simp at hs
  have hsg := (sign_ne_iff h0).mpr hs.le
  have run : ∀ N : Nat, 1 ≤ N → ((n : Int) + 1) ^ 2 ≤ N + 3 → ∃ root calls iters,
      (brentq f a b xtol rtol N).1 = .ok (.info root calls iters true) := by
    intro N hN1 hN
    have hI := inv_init (f := f) hab h0 hsg
    rw [brentq, if_neg (not_le.mpr hab), if_neg h0, if_neg h0', if_neg hsg, Int.toNat_natCast]
    refine loop_converges hx hr N n (2 * n) 0 0 _ hI ?_ hN1 ?_
    · apply progress_swap
      rw [rebracket, if_pos hsg]
      have hw' : b - a < 2 ^ n * (xtol / 2) := by linarith
      refine ⟨?_, ?_, ?_, le_refl _⟩
      · show |a - b| < _
        rw [abs_sub_comm, abs_of_pos (by linarith)]; exact hw'
      · show |b - a| ≤ _
        rw [abs_of_pos (by linarith), show (2 * n + 1) / 2 = n by omega]; exact hw'.le
      · show |b - a| ≤ _
        rw [abs_of_pos (by linarith), show 2 * n / 2 = n by omega]; exact hw'.le
    · intro _
      have : ((n : Int) + 1) ^ 2 = n ^ 2 + 2 * n + 1 := by ring
      rw [this] at hN
      have : ((n ^ 2 + 2 * n : Nat) : Int) ≤ ((N + 2 : Nat) : Int) := by push_cast; linarith
      exact_mod_cast this
  set N := max 1 ((n + 1) ^ 2 - 3) with hNdef
  have hsq : 1 ≤ (n + 1) ^ 2 := Nat.one_le_pow _ _ (by omega)
  obtain ⟨root, calls, iters, hrun⟩ := run N (le_max_left _ _) (by
    have : (n + 1) ^ 2 ≤ N + 3 := by omega
    exact_mod_cast this)
  have hmax : N ≤ maxiter.toNat := by
    have e : (((n + 1) ^ 2 : Nat) : Int) ≤ maxiter + 3 := by push_cast; exact hm
    omega
  have hmore : brentq f a b xtol rtol maxiter = brentq f a b xtol rtol N := by
    rw [brentq, brentq] at *
    rw [if_neg (not_le.mpr hab), if_neg h0, if_neg h0', if_neg hsg] at *
    rw [if_neg (not_le.mpr hab), if_neg h0, if_neg h0', if_neg hsg]
    rw [Int.toNat_natCast] at *
    rw [loop_more N maxiter.toNat hmax 0 0 0 _ root calls iters hrun]
  refine ⟨root, calls, iters, by rw [hmore]; exact hrun, ?_⟩
  have := ((C39_function_calls f a b xtol rtol hx hr N root calls iters true hrun).1 rfl).2.2
  have e : (((n + 1) ^ 2 : Nat) : Int) = ((n : Int) + 1) ^ 2 := by push_cast; rfl
  rw [← e]
  omega

/-- **C154**: with the defaults `xtol = rtol = 1.48e-8` and `maxiter = 500`, every bracket of width at most 0.0155
converges, and for a continuous `f` the reported point is within `xtol + rtol·|x|` of a zero of `f` in the bracket. -/
theorem C154_defaults (f : ℝ → ℝ) (a b : ℝ) (hab : a < b) (hw : b - a ≤ 0.0155) (hs : f a * f b < 0)
    (hf : ContinuousOn f (Set.Icc a b)) :
    ∃ root calls iters, (brentq f a b 1.48e-8 1.48e-8 500).1 = .ok (.info root calls iters true) ∧
      ∃ z, a ≤ z ∧ z ≤ b ∧ f z = 0 ∧ |z - root| < 1.48e-8 + 1.48e-8 * |root| := by
  obtain ⟨root, calls, iters, h, -⟩ := C154_converges f a b 1.48e-8 1.48e-8 (by norm_num) (by norm_num) hab hs 21
    (by norm_num at hw ⊢; linarith) 500 (by norm_num) (by norm_num)
  refine ⟨root, calls, iters, h, ?_⟩
  have := C37_near_zero f a b 1.48e-8 1.48e-8 (by norm_num) (by norm_num) 500 hf _ h (by
    intro r c i hh; cases hh)
  exact this

/-! ## The hypotheses are met -/

/-- x⁹ − 1000 on [0, 16] with tolerance 1 and `n = 6`: the bound is 46 iterations.  The run takes 9, where repeated
halving would take 6. -/
example : (0 : ℚ) < 1 ∧ (2 : ℚ) * (16 - 0) < 2 ^ 6 * 1 ∧ ((6 : Int) + 1) ^ 2 - 3 = 46 ∧
    brentq (fun x : ℚ => x ^ 9 - 1000) 0 16 1 0 46 = (.ok (.info 2 10 9 true),
      [0, 16, 1 / 2, 33 / 4, 1, 37 / 8, 3 / 2, 49 / 16, 2, 5 / 2]) := by decide +kernel

/-- a discontinuous function: the reported point is next to the jump -/
example : brentq (fun x : ℚ => if x < 149 / 10 then -1 else 1000) 0 16 1 0 46 = (.ok (.info (225 / 16) 7 6 true),
    [0, 16, 1 / 2, 33 / 4, 97 / 8, 225 / 16, 481 / 32]) := by decide +kernel

end Proadv.Props
