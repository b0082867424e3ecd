import Verif.Props.BrentRnd
import Verif.Props.BrentConv

/-!
# `brentq` in rounded arithmetic converges, with an explicit number of iterations (C241)

The argument of C154 with room for rounding: each reduction is by the factor `19/10` instead of 2.
-/

set_option linter.unusedSectionVars false

namespace Proadv.Props

open Proadv Brent

variable {K : Type} [Field K] [LinearOrder K] [IsStrictOrderedRing K] {fl : K → K} {u : K}

/-- the measure of progress: width of the bracket below `1.9^n·t`, the last steps at most `1.9^⌈j/2⌉·t` and `1.9^⌊j/2⌋·t` -/
structure ProgressR (t : K) (n j : Nat) (s : St K) : Prop where
  width : |s.xblk - s.xcur| < (19 / 10) ^ n * t
  pre : |s.spre| ≤ (19 / 10) ^ ((j + 1) / 2) * t
  cur : |s.scur| ≤ (19 / 10) ^ (j / 2) * t
  le : j ≤ 2 * n

private theorem progressR_swap {t : K} {n j : Nat} {s : St K} (h : ProgressR t n j s) : ProgressR t n j (swap s) := by
  obtain ⟨e1, e2, e3⟩ := swap_measure s
  exact ⟨by rw [e1]; exact h.width, by rw [e2]; exact h.pre, by rw [e3]; exact h.cur, h.le⟩

/-- the values of `stepsR`: bisection, or a step about half of `spre` or shorter -/
private theorem stepsR_cases {xtol rtol : K} {s : St K} {sp sc : K} (h : stepsR fl xtol rtol s = .ok (sp, sc)) :
    (sp = sbisR fl s ∧ sc = sbisR fl s) ∨ (deltaR fl xtol rtol s < |s.spre| ∧ sp = s.scur ∧ fl (2 * |sc|) < |s.spre|) := by
  unfold stepsR at h
  simp only [bind, Except.bind] at h
  split at h
  · rename_i hc
    split at h
    · cases h
    · split at h
      · rename_i hlt
        cases h
        exact .inr ⟨hc.1, rfl, lt_of_lt_of_le hlt (min_le_left _ _)⟩
      · cases h; exact .inl ⟨rfl, rfl⟩
  · cases h; exact .inl ⟨rfl, rfl⟩

/-- the computed tolerance from below -/
private theorem deltaR_ge (hr : Rounding fl u) (hu : u ≤ 1 / 1024) {xtol rtol : K} (hx : 0 < xtol) (hrt : 0 ≤ rtol) (s : St K) :
    99 / 100 * (xtol + rtol * |s.xcur|) ≤ 2 * deltaR fl xtol rtol s := by
  have h0 := hr.nonneg
  have hp : 0 ≤ rtol * |s.xcur| := mul_nonneg hrt (abs_nonneg _)
  have hq : 0 ≤ fl (rtol * |s.xcur|) := by have := hr.mono hp; rwa [hr.zero] at this
  have g1 := hr.ge (rtol * |s.xcur|)
  rw [abs_of_nonneg hp, abs_of_nonneg hq] at g1
  have p2 : 0 < xtol + fl (rtol * |s.xcur|) := by linarith
  have q2 := hr.pos p2
  have g2 := hr.ge (xtol + fl (rtol * |s.xcur|))
  rw [abs_of_pos p2, abs_of_pos q2] at g2
  have p3 : 0 < fl (xtol + fl (rtol * |s.xcur|)) / 2 := by linarith
  have q3 := hr.pos p3
  have g3 := hr.ge (fl (xtol + fl (rtol * |s.xcur|)) / 2)
  rw [abs_of_pos p3, abs_of_pos q3] at g3
  have k1 : 1023 / 1024 * (rtol * |s.xcur|) ≤ (1 - u) * (rtol * |s.xcur|) := mul_le_mul_of_nonneg_right (by linarith) hp
  have k2 : 1023 / 1024 * (xtol + fl (rtol * |s.xcur|)) ≤ (1 - u) * (xtol + fl (rtol * |s.xcur|)) :=
    mul_le_mul_of_nonneg_right (by linarith) p2.le
  have k3 : 1023 / 1024 * (fl (xtol + fl (rtol * |s.xcur|)) / 2) ≤ (1 - u) * (fl (xtol + fl (rtol * |s.xcur|)) / 2) :=
    mul_le_mul_of_nonneg_right (by linarith) p3.le
  have e : deltaR fl xtol rtol s = fl (fl (xtol + fl (rtol * |s.xcur|)) / 2) := rfl
  rw [e]
  linarith

private theorem between_abs {x y z : K} (h : Between x y z) : |z - y| = |z - x| - |y - x| := by
  rcases h with ⟨p, q⟩ | ⟨p, q⟩
  · rw [abs_of_nonneg (by linarith), abs_of_nonneg (by linarith), abs_of_nonneg (by linarith)]; ring
  · rw [abs_of_nonpos (by linarith), abs_of_nonpos (by linarith), abs_of_nonpos (by linarith)]; ring

/-- one iteration that does not stop -/
private theorem progressR_step (hr : Rounding fl u) (hu : u ≤ 1 / 1024) {f : K → K} {xtol rtol t : K} {s : St K} {sp sc : K} {n j : Nat}
    (ht : 0 < t) (hdt : t ≤ deltaR fl xtol rtol s) (hux : 120 * u * |s.xcur| ≤ deltaR fl xtol rtol s)
    (hX : s.xblk - s.xcur ≠ 0) (hst : stepsR fl xtol rtol s = .ok (sp, sc)) (hb : deltaR fl xtol rtol s ≤ |sbisR fl s|)
    (hbt : Between s.xcur (advanceR fl f xtol rtol s sp sc).xcur s.xblk) (h : ProgressR t n j s) :
    2 ≤ n ∧ ((1 ≤ j ∧ ProgressR t n (j - 1) (swap (rebracketR fl (advanceR fl f xtol rtol s sp sc)))) ∨
      ProgressR t (n - 1) (2 * (n - 1)) (swap (rebracketR fl (advanceR fl f xtol rtol s sp sc)))) := by
  have h0 := hr.nonneg
  obtain ⟨b1, b2, b3⟩ := sbisR_bounds hr s hX
  set W := |s.xblk - s.xcur| with hW
  have hW0 : 0 < W := abs_pos.mpr hX
  have b2' : 998 / 1000 * W ≤ 2 * |sbisR fl s| := by
    refine le_trans (mul_le_mul_of_nonneg_right ?_ hW0.le) b2; nlinarith
  have b3' : 2 * |sbisR fl s| ≤ 1002 / 1000 * W := by
    refine le_trans b3 (mul_le_mul_of_nonneg_right ?_ hW0.le); nlinarith
  clear b2 b3
  have hn : 2 ≤ n := by
    by_contra hc
    have hw := h.width
    have : ((19 : K) / 10) ^ n ≤ (19 / 10) ^ 1 := pow_le_pow_right₀ (by norm_num) (by omega)
    have : ((19 : K) / 10) ^ n * t ≤ (19 / 10) ^ 1 * t := mul_le_mul_of_nonneg_right this ht.le
    linarith
  refine ⟨hn, ?_⟩
  set s' := advanceR fl f xtol rtol s sp sc with hs'
  set d := deltaR fl xtol rtol s with hd
  have e1 : s'.xpre = s.xcur := rfl
  have e2 : s'.xblk = s.xblk := rfl
  have e3 : s'.spre = sp := rfl
  have e4 : s'.scur = sc := rfl
  have half : ∀ v : K, v ≤ 52 / 100 * W → v < (19 / 10) ^ (n - 1) * t := by
    intro v hv
    have hw := h.width
    have : ((19 : K) / 10) ^ n = (19 / 10) ^ (n - 1) * (19 / 10) := by rw [← pow_succ]; congr 1; omega
    rw [this] at hw
    linarith
  have done : ∀ r : St K, |r.xblk - r.xcur| < (19 / 10) ^ (n - 1) * t → |r.spre| < (19 / 10) ^ (n - 1) * t →
      |r.scur| < (19 / 10) ^ (n - 1) * t → ProgressR t (n - 1) (2 * (n - 1)) r := by
    intro r h1 h2 h3
    refine ⟨h1, ?_, ?_, le_refl _⟩
    · rw [show (2 * (n - 1) + 1) / 2 = n - 1 by omega]; exact h2.le
    · rw [show 2 * (n - 1) / 2 = n - 1 by omega]; exact h3.le
  have hwid : |s.xblk - s'.xcur| = W - |s'.xcur - s.xcur| := between_abs hbt
  -- a rounded move by `δ`
  have move : ∀ δ, d ≤ |δ| → 99 / 100 * |δ| ≤ |fl (s.xcur + δ) - s.xcur| ∧ |fl (s.xcur + δ) - s.xcur| ≤ 101 / 100 * |δ| := by
    intro δ hδ
    have g1 := hr.err (s.xcur + δ)
    have g2 : u * |s.xcur + δ| ≤ u * (|s.xcur| + |δ|) := mul_le_mul_of_nonneg_left (abs_add_le _ _) h0
    have g3 : u * |δ| ≤ 1 / 1024 * |δ| := mul_le_mul_of_nonneg_right hu (abs_nonneg _)
    have g4 : |fl (s.xcur + δ) - (s.xcur + δ)| ≤ 1 / 100 * |δ| := by linarith
    have g5 : |fl (s.xcur + δ) - s.xcur| ≤ |fl (s.xcur + δ) - (s.xcur + δ)| + |δ| := by
      have := abs_add_le (fl (s.xcur + δ) - (s.xcur + δ)) δ
      rwa [show fl (s.xcur + δ) - (s.xcur + δ) + δ = fl (s.xcur + δ) - s.xcur by ring] at this
    have g6 : |δ| ≤ |fl (s.xcur + δ) - s.xcur| + |fl (s.xcur + δ) - (s.xcur + δ)| := by
      have := abs_sub (fl (s.xcur + δ) - s.xcur) (fl (s.xcur + δ) - (s.xcur + δ))
      rwa [show fl (s.xcur + δ) - s.xcur - (fl (s.xcur + δ) - (s.xcur + δ)) = δ by ring] at this
    exact ⟨by linarith, by linarith⟩
  have hdp : 0 < d := lt_of_lt_of_le ht hdt
  have hsize : ∃ δ, |δ| = (if d < |sc| then |sc| else d) ∧ 99 / 100 * |δ| ≤ |s'.xcur - s.xcur| ∧ |s'.xcur - s.xcur| ≤ 101 / 100 * |δ| := by
    have hx : s'.xcur = if d < |sc| then fl (s.xcur + sc) else if 0 < sbisR fl s then fl (s.xcur + d) else fl (s.xcur + -d) := rfl
    rw [hx]
    split
    · rename_i hlt
      exact ⟨sc, rfl, move sc hlt.le⟩
    · split
      · exact ⟨d, abs_of_pos hdp, move d (le_abs_self d)⟩
      · exact ⟨-d, by rw [abs_neg, abs_of_pos hdp], move (-d) (by rw [abs_neg]; exact le_abs_self d)⟩
  obtain ⟨δ, hδ, m1, m2⟩ := hsize
  -- a change of side keeps only the last move
  have changed : 101 / 100 * |s'.xcur - s.xcur| < (19 / 10) ^ (n - 1) * t → SignType.sign s'.fpre ≠ SignType.sign s'.fcur →
      ProgressR t (n - 1) (2 * (n - 1)) (swap (rebracketR fl s')) := by
    intro hm hsw
    apply progressR_swap
    rw [rebracketR, if_pos hsw]
    have hnn := abs_nonneg (s'.xcur - s.xcur)
    have hfl : |fl (s'.xcur - s.xcur)| ≤ 101 / 100 * |s'.xcur - s.xcur| := by
      refine (hr.le _).trans (mul_le_mul_of_nonneg_right (by linarith) hnn)
    refine done _ ?_ ?_ ?_
    · show |s'.xpre - s'.xcur| < _
      rw [e1, abs_sub_comm]; linarith
    · show |fl (s'.xcur - s'.xpre)| < _
      rw [e1]; linarith
    · show |fl (s'.xcur - s'.xpre)| < _
      rw [e1]; linarith
  rcases stepsR_cases hst with ⟨c1, c2⟩ | ⟨c1, c2, c3⟩
  · -- bisection
    right
    have hm : |δ| = |sbisR fl s| := by
      rw [hδ, c2]
      split
      · rfl
      · rename_i hh
        exact le_antisymm hb (not_lt.mp hh)
    rw [hm] at m1 m2
    by_cases hsw : SignType.sign s'.fpre ≠ SignType.sign s'.fcur
    · exact changed (half _ (by linarith)) hsw
    · apply progressR_swap
      rw [rebracketR, if_neg hsw]
      refine done _ ?_ ?_ ?_
      · rw [e2, hwid]; exact half _ (by linarith)
      · rw [e3, c1]; exact half _ (by linarith)
      · rw [e4, c2]; exact half _ (by linarith)
  · have hp := h.pre
    have hj : 1 ≤ j := by
      by_contra hc
      have : (j + 1) / 2 = 0 := by omega
      rw [this, pow_zero, one_mul] at hp
      linarith
    have hex : ((19 : K) / 10) ^ ((j + 1) / 2) = (19 / 10) ^ ((j - 1) / 2) * (19 / 10) := by
      rw [← pow_succ]; congr 1; omega
    have hsc : 104 / 100 * |sc| < (19 / 10) ^ ((j - 1) / 2) * t := by
      rw [hex] at hp
      have g1 := hr.ge (2 * |sc|)
      have g2 : 0 ≤ 2 * |sc| := by positivity
      have g3 : 0 ≤ fl (2 * |sc|) := by have := hr.mono g2; rwa [hr.zero] at this
      rw [abs_of_nonneg g2, abs_of_nonneg g3] at g1
      have g4 : 1023 / 1024 * (2 * |sc|) ≤ (1 - u) * (2 * |sc|) := mul_le_mul_of_nonneg_right (by linarith) g2
      have g5 : 0 < ((19 : K) / 10) ^ ((j - 1) / 2) * t := by positivity
      linarith
    by_cases hsw : SignType.sign s'.fpre ≠ SignType.sign s'.fcur
    · right
      refine changed ?_ hsw
      split at hδ
      · have hle := h.le
        have : ((19 : K) / 10) ^ ((j - 1) / 2) ≤ (19 / 10) ^ (n - 1) := pow_le_pow_right₀ (by norm_num) (by omega)
        have := mul_le_mul_of_nonneg_right this ht.le
        rw [hδ] at m2
        have := abs_nonneg sc
        linarith
      · rw [hδ] at m2
        exact half _ (by linarith)
    · left
      refine ⟨hj, progressR_swap ?_⟩
      rw [rebracketR, if_neg hsw]
      refine ⟨?_, ?_, ?_, by have := h.le; omega⟩
      · rw [e2, hwid]
        have := abs_nonneg (s'.xcur - s.xcur)
        have := h.width
        linarith
      · rw [e3, c2, show (j - 1 + 1) / 2 = j / 2 by omega]; exact h.cur
      · rw [e4]
        have := abs_nonneg sc
        linarith

private theorem loopR_converges (hr : Rounding fl u) (hu : u ≤ 1 / 1024) {f : K → K} {a b xtol rtol : K} (hx : 0 < xtol) (hrt : 0 ≤ rtol)
    (hbig : ∀ x, a ≤ x → x ≤ b → 256 * u * |x| ≤ xtol + rtol * |x|) (N : Nat) :
    ∀ (n j i last : Nat) (s : St K), InvR fl f a b s → ProgressR (49 / 100 * xtol) n j (swap (rebracketR fl s)) → 1 ≤ N →
      (2 ≤ n → n ^ 2 + j ≤ N + 2) →
      ∃ root calls iters, (loopR fl f xtol rtol N i last s).1 = .ok (.info root calls iters true) := by
  induction N with
  | zero => intro n j i last s _ _ h1; omega
  | succ N ih =>
    intro n j i last s hI hP _ hN
    have h2 := invR_swap hI
    set s2 := swap (rebracketR fl s) with hs2
    have hd : 0 < deltaR fl xtol rtol s2 := deltaR_pos hr hx hrt s2
    have hge := deltaR_ge hr hu hx hrt s2
    unfold loopR
    simp only [← hs2]
    by_cases hconv : s2.fcur = 0 ∨ |sbisR fl s2| < deltaR fl xtol rtol s2
    · rw [if_pos hconv]
      exact ⟨_, _, _, rfl⟩
    · rw [if_neg hconv]
      push Not at hconv
      obtain ⟨hc, hb⟩ := hconv
      have hX : s2.xblk - s2.xcur ≠ 0 := by
        intro h0
        have : sbisR fl s2 = 0 := by rw [sbisR, h0, hr.zero, zero_div, hr.zero]
        rw [this, abs_zero] at hb; linarith
      obtain ⟨sp, sc, hst, ht, t1⟩ := stepsR_spec (xtol := xtol) (rtol := rtol) hr h2 hd hc hX
      obtain ⟨hbt, hrep⟩ := advanceR_point (sp := sp) hr h2 hd hb hX ht t1
      have hI' := invR_advance h2 hc hbt hrep
      rw [hst]
      simp only
      have hbg := hbig _ h2.curIn.1 h2.curIn.2
      have hnn : 0 ≤ u * |s2.xcur| := mul_nonneg hr.nonneg (abs_nonneg _)
      have hnr : 0 ≤ rtol * |s2.xcur| := mul_nonneg hrt (abs_nonneg _)
      obtain ⟨hn, hcase⟩ := progressR_step (f := f) hr hu (by linarith) (by linarith) (by linarith) hX hst hb hbt hP
      have hN' := hN hn
      have h4 : 4 ≤ n ^ 2 := by nlinarith
      rcases hcase with ⟨hj, hP'⟩ | hP'
      · exact ih n (j - 1) (i + 1) i _ hI' hP' (by omega) (fun _ => by omega)
      · refine ih (n - 1) (2 * (n - 1)) (i + 1) i _ hI' hP' (by omega) (fun _ => ?_)
        obtain ⟨m, rfl⟩ : ∃ m, n = m + 1 := ⟨n - 1, by omega⟩
        have : (m + 1) ^ 2 = m ^ 2 + 2 * m + 1 := by ring
        simp only [Nat.add_sub_cancel] at *
        omega

/-- further iterations do not change a converged run -/
private theorem loopR_more {f : K → K} {xtol rtol : K} (N M : Nat) (hNM : N ≤ M) :
    ∀ (i last last' : Nat) (s : St K) (root : K) (calls iters : Nat),
      (loopR fl f xtol rtol N i last s).1 = .ok (.info root calls iters true) →
      loopR fl f xtol rtol M i last' s = loopR fl f xtol rtol N i last s := by
  induction N generalizing M with
  | zero => intro i last last' s root calls iters h; simp [loopR] at h
  | succ N ih =>
    intro i last last' s root calls iters h
    obtain ⟨M, rfl⟩ : ∃ m, M = m + 1 := ⟨M - 1, by omega⟩
    unfold loopR at h ⊢
    simp only at h ⊢
    split
    · rfl
    · rename_i hc
      rw [if_neg hc] at h
      split
      · rfl
      · rename_i x y hst
        simp only [hst] at h
        rw [ih M (by omega) (i + 1) i i _ root calls iters h]

/-- **C241**: with every operation rounded, on a bracket of width below `0.48·1.9^n·xtol` the loop of `brentq` reports convergence
within `(n + 1)² − 3` iterations (one, if `n ≤ 1`), for every function with computed values of opposite sign at the end points.  The
tolerance must be well above the spacing of the floats of the bracket. -/
theorem C241_converges (hr : Rounding fl u) (hu : u ≤ 1 / 1024) (f : K → K) (a b xtol rtol : K) (ha : fl a = a) (hb : fl b = b)
    (hx : 0 < xtol) (hrt : 0 ≤ rtol) (hbig : ∀ x, a ≤ x → x ≤ b → 256 * u * |x| ≤ xtol + rtol * |x|) (hab : a < b)
    (hs : f a * f b < 0) (n : Nat) (hw : b - a < 48 / 100 * (19 / 10) ^ n * xtol) (maxiter : Int) (h1 : 1 ≤ maxiter)
    (hm : ((n : Int) + 1) ^ 2 ≤ maxiter + 3) :
    ∃ root calls iters, (brentqR fl f a b xtol rtol maxiter).1 = .ok (.info root calls iters true) ∧
      (iters : Int) ≤ max 1 (((n : Int) + 1) ^ 2 - 3) ∧ calls = iters + 1 ∧ a ≤ root ∧ root ≤ b ∧
      (f root = 0 ∨ ∃ y, a ≤ y ∧ y ≤ b ∧ f y * f root < 0 ∧ |y - root| < 101 / 100 * (xtol + rtol * |root|)) := by
  have h0 : f a ≠ 0 := by intro h; rw [h] at hs; simp at hs
  have h0' : f b ≠ 0 := by intro h; rw [h] at hs; simp at hs
  have hsg := (sign_ne_iff h0).mpr hs.le
  have hun := hr.nonneg
  have hI : InvR fl f a b ⟨a, b, f a, f b, 0, 0, 0, 0⟩ :=
    ⟨rfl, rfl, h0, ⟨le_refl _, hab.le⟩, ⟨hab.le, le_refl _⟩, ha, hb, fun h => absurd h hsg⟩
  have eq : ∀ M : Int, brentqR fl f a b xtol rtol M =
      ((loopR fl f xtol rtol M.toNat 0 0 ⟨a, b, f a, f b, 0, 0, 0, 0⟩).1,
        a :: b :: (loopR fl f xtol rtol M.toNat 0 0 ⟨a, b, f a, f b, 0, 0, 0, 0⟩).2) := by
    intro M
    rw [brentqR, if_neg (not_le.mpr hab), if_neg h0, if_neg h0', if_neg hsg]
  set N := max 1 ((n + 1) ^ 2 - 3) with hNdef
  have hsq : 1 ≤ (n + 1) ^ 2 := Nat.one_le_pow _ _ (by omega)
  have hsq2 : (n + 1) ^ 2 = n ^ 2 + 2 * n + 1 := by ring
  have hP : ProgressR (49 / 100 * xtol) n (2 * n) (swap (rebracketR fl ⟨a, b, f a, f b, 0, 0, 0, 0⟩)) := by
    apply progressR_swap
    rw [rebracketR, if_pos hsg]
    have hp : 0 < ((19 : K) / 10) ^ n * xtol := by positivity
    have hfl : |fl (b - a)| ≤ 1025 / 1024 * (b - a) := by
      have := hr.le (b - a)
      rw [abs_of_pos (sub_pos.mpr hab)] at this
      exact this.trans (mul_le_mul_of_nonneg_right (by linarith) (sub_pos.mpr hab).le)
    refine ⟨?_, ?_, ?_, le_refl _⟩
    · show |a - b| < _
      rw [abs_sub_comm, abs_of_pos (sub_pos.mpr hab)]; linarith
    · show |fl (b - a)| ≤ _
      rw [show (2 * n + 1) / 2 = n by omega]; linarith
    · show |fl (b - a)| ≤ _
      rw [show 2 * n / 2 = n by omega]; linarith
  obtain ⟨root, calls, iters, hrun⟩ := loopR_converges hr hu hx hrt hbig N n (2 * n) 0 0 _ hI hP (le_max_left _ _) (fun _ => by omega)
  have hmax : N ≤ maxiter.toNat := by
    have e : (((n + 1) ^ 2 : Nat) : Int) ≤ maxiter + 3 := by push_cast; exact hm
    omega
  have hmore := loopR_more N maxiter.toNat hmax 0 0 0 _ root calls iters hrun
  obtain ⟨-, root', calls', iters', conv, g2, g3, g4, -⟩ := loopR_spec hr hx hrt N 0 0 _ hI
  rw [hrun] at g2
  cases g2
  obtain ⟨k1, k2, k3, -⟩ := g4 rfl
  have hres : (brentqR fl f a b xtol rtol maxiter).1 = .ok (.info root calls iters true) := by
    rw [eq, hmore]; exact hrun
  refine ⟨root, calls, iters, hres, ?_, by omega, g3.1, g3.2, ?_⟩
  · have e : (((n + 1) ^ 2 : Nat) : Int) = ((n : Int) + 1) ^ 2 := by push_cast; rfl
    rw [← e]
    omega
  · rcases C214_converged hr f a b xtol rtol ha hb hx hrt maxiter root calls iters hres with h | ⟨y, y1, y2, y3, y4⟩
    · exact .inl h
    · refine .inr ⟨y, y1, y2, y3, ?_⟩
      have q1 : 998 / 1000 * |y - root| ≤ (1 - u) ^ 2 * |y - root| := mul_le_mul_of_nonneg_right (by nlinarith) (abs_nonneg _)
      have q2 : (1 + u) ^ 3 * (xtol + rtol * |root|) ≤ 1004 / 1000 * (xtol + rtol * |root|) := by
        refine mul_le_mul_of_nonneg_right ?_ (add_nonneg hx.le (mul_nonneg hrt (abs_nonneg _)))
        have : (1 + u) ^ 3 ≤ (1025 / 1024) ^ 3 := pow_le_pow_left₀ (by linarith) (by linarith) 3
        refine this.trans (by norm_num)
      have := add_nonneg hx.le (mul_nonneg hrt (abs_nonneg root))
      linarith

/-- the float `1.48e-8`, the default of `xtol` and `rtol` -/
def tolDefault : ℚ := rnd53 (148 / 10 ^ 10)

private theorem tolDefault_bounds : 147 / 10 ^ 10 < tolDefault ∧ tolDefault < 149 / 10 ^ 10 := by
  constructor <;> decide +kernel

/-- **C241**, at IEEE 754 binary64 with the tolerances and the iteration limit `brentq` has by default (`1.48e-8`, `1.48e-8`,
500): between any two floats at most `0.005` apart where the computed values have opposite sign, `brentq` converges. -/
theorem C241_binary64 (f : ℚ → ℚ) (a b : ℚ) (ha : rnd53 a = a) (hb : rnd53 b = b) (hab : a < b) (hw : b - a ≤ 5 / 1000)
    (hs : f a * f b < 0) :
    ∃ root calls iters, (brentqR rnd53 f a b tolDefault tolDefault 500).1 = .ok (.info root calls iters true) ∧
      iters ≤ 481 ∧ a ≤ root ∧ root ≤ b ∧
      (f root = 0 ∨ ∃ y, a ≤ y ∧ y ≤ b ∧ f y * f root < 0 ∧ |y - root| < 16 / 10 ^ 9 * (1 + |root|)) := by
  obtain ⟨t1, t2⟩ := tolDefault_bounds
  have t0 : 0 < tolDefault := lt_trans (by norm_num) t1
  obtain ⟨root, calls, iters, h1, h2, -, h3, h4, h5⟩ := C241_converges rnd53_rounding (by norm_num) f a b tolDefault tolDefault
    ha hb t0 t0.le (fun x _ _ => by
      have := mul_le_mul_of_nonneg_right t1.le (abs_nonneg x)
      norm_num at *
      have := abs_nonneg x
      linarith) hab hs 21
    (lt_of_le_of_lt hw (by norm_num at *; linarith)) 500 (by norm_num) (by norm_num)
  refine ⟨root, calls, iters, h1, by norm_num at h2; omega, h3, h4, h5.imp_right ?_⟩
  rintro ⟨y, y1, y2, y3, y4⟩
  refine ⟨y, y1, y2, y3, lt_of_lt_of_le y4 ?_⟩
  have := mul_le_mul_of_nonneg_right t2.le (abs_nonneg root)
  norm_num at *
  have := abs_nonneg root
  linarith

/-- the hypotheses are met: `x² − 2` between the floats `1.4140625` and `1.4150390625` -/
example : rnd53 (1448 / 1024) = 1448 / 1024 ∧ rnd53 (1449 / 1024) = 1449 / 1024 ∧ (1449 / 1024 - 1448 / 1024 : ℚ) ≤ 5 / 1000 ∧
    (((1448 / 1024) ^ 2 - 2) * ((1449 / 1024) ^ 2 - 2) : ℚ) < 0 := by
  refine ⟨by decide +kernel, by decide +kernel, by norm_num, by norm_num⟩

end Proadv.Props
