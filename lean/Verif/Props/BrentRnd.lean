import Verif.Model.BrentRnd
import Verif.Props.Brent
import Verif.Lemmas.RoundMono

/-!
# C214 `brentq` in rounded arithmetic
-/

set_option linter.unusedSectionVars false

namespace Proadv.Props

open Proadv Brent

variable {K : Type} [Field K] [LinearOrder K] [IsStrictOrderedRing K]

/-- without rounding the model is the exact one -/
theorem C214_exact (f : K → K) (a b xtol rtol : K) (maxiter : Int) : brentqR id f a b xtol rtol maxiter = brentq f a b xtol rtol maxiter := by
  have hs : ∀ s : St K, stepsR id xtol rtol s = steps xtol rtol s := by
    intro s
    have e1 : ∀ x y : K, pdivR id x y = pdiv x y := fun _ _ => rfl
    have e2 : sbisR id s = sbis s := rfl
    have e3 : deltaR id xtol rtol s = delta xtol rtol s := rfl
    simp only [stepsR, steps, tryR, e1, e2, e3, id]
    split
    · split <;> simp only [bind, Except.bind]
      cases pdiv (s.fpre - s.fcur) (s.xpre - s.xcur) <;> simp only
      cases pdiv (s.fblk - s.fcur) (s.xblk - s.xcur) <;> simp only
    · rfl
  have hl : ∀ n i last (s : St K), loopR id f xtol rtol n i last s = loop f xtol rtol n i last s := by
    intro n
    induction n with
    | zero => intro i last s; rfl
    | succ n ih =>
      intro i last s
      simp only [loopR, loop, hs]
      have e : rebracketR id s = rebracket s := rfl
      have e2 : ∀ s : St K, sbisR id s = sbis s := fun _ => rfl
      have e3 : ∀ s : St K, deltaR id xtol rtol s = delta xtol rtol s := fun _ => rfl
      simp only [e, e2, e3]
      split
      · rfl
      · split <;> rename_i h <;> simp only [h]
        rw [ih]
        rfl
  simp only [brentqR, brentq, hl]

/-! ## Signs survive rounding -/

variable {fl : K → K} {u : K}

/-- `y` has the sign of `x` -/
def Same (x y : K) : Prop := (0 < x ∧ 0 < y) ∨ (x < 0 ∧ y < 0)

theorem Same.symm {x y : K} (h : Same x y) : Same y x := by
  rcases h with ⟨a, b⟩ | ⟨a, b⟩
  · exact Or.inl ⟨b, a⟩
  · exact Or.inr ⟨b, a⟩

theorem Same.trans {x y z : K} (h : Same x y) (g : Same y z) : Same x z := by
  rcases h with ⟨a, b⟩ | ⟨a, b⟩ <;> rcases g with ⟨c, d⟩ | ⟨c, d⟩
  · exact Or.inl ⟨a, d⟩
  · exact absurd b (not_lt.mpr c.le)
  · exact absurd b (not_lt.mpr c.le)
  · exact Or.inr ⟨a, d⟩

theorem Same.rnd (h : Rounding fl u) {x y : K} (g : Same x y) : Same x (fl y) := by
  rcases g with ⟨a, b⟩ | ⟨a, b⟩
  · exact Or.inl ⟨a, h.pos b⟩
  · exact Or.inr ⟨a, h.neg b⟩

theorem Same.of_pos {x y : K} (h : 0 < x * y) : Same x y := by
  rcases pos_and_pos_or_neg_and_neg_of_mul_pos h with h | h
  · exact Or.inl h
  · exact Or.inr h

theorem Same.mul_pos {x y : K} (h : Same x y) : 0 < x * y := by
  rcases h with ⟨a, b⟩ | ⟨a, b⟩
  · exact _root_.mul_pos a b
  · exact mul_pos_of_neg_of_neg a b

theorem Same.ne {x y : K} (h : Same x y) : y ≠ 0 := by
  rcases h with ⟨_, b⟩ | ⟨_, b⟩
  · exact b.ne'
  · exact b.ne

/-! ## The step -/

/-- the state before `rebracketR` -/
structure InvR (fl f : K → K) (a b : K) (s : St K) : Prop where
  fpre : s.fpre = f s.xpre
  fcur : s.fcur = f s.xcur
  pre0 : s.fpre ≠ 0
  preIn : a ≤ s.xpre ∧ s.xpre ≤ b
  curIn : a ≤ s.xcur ∧ s.xcur ≤ b
  preRep : fl s.xpre = s.xpre
  curRep : fl s.xcur = s.xcur
  old : SignType.sign s.fpre = SignType.sign s.fcur → s.fblk = f s.xblk ∧ s.fblk * s.fcur < 0 ∧
    (a ≤ s.xblk ∧ s.xblk ≤ b) ∧ fl s.xblk = s.xblk ∧ Between s.xpre s.xcur s.xblk

/-- the state after `swap` -/
structure Inv2R (fl f : K → K) (a b : K) (s : St K) : Prop where
  fpre : s.fpre = f s.xpre
  fcur : s.fcur = f s.xcur
  fblk : s.fblk = f s.xblk
  pre0 : s.fpre ≠ 0
  blk0 : s.fblk ≠ 0
  curIn : a ≤ s.xcur ∧ s.xcur ≤ b
  blkIn : a ≤ s.xblk ∧ s.xblk ≤ b
  curRep : fl s.xcur = s.xcur
  blkRep : fl s.xblk = s.xblk
  opp : s.fblk * s.fcur ≤ 0
  old : s.xpre ≠ s.xblk → 0 < s.fpre * s.fcur ∧ Between s.xpre s.xcur s.xblk

theorem invR_swap {f : K → K} {a b : K} {s : St K} (h : InvR fl f a b s) : Inv2R fl f a b (swap (rebracketR fl s)) := by
  obtain ⟨h1, h2, h3, h4, h5, r1, r2, h6⟩ := h
  by_cases hs : SignType.sign s.fpre = SignType.sign s.fcur
  · obtain ⟨g1, g2, g3, g4, g5⟩ := h6 hs
    have hb : s.fblk ≠ 0 := by intro h0; rw [h0] at g2; simp at g2
    have hpos : 0 < s.fpre * s.fcur := by
      by_contra hc
      exact ((sign_ne_iff h3).mpr (not_lt.mp hc)) hs
    have hc0 : s.fcur ≠ 0 := by intro h0; rw [h0] at hpos; simp at hpos
    rw [rebracketR, if_neg (by simpa using hs), swap]
    split
    · exact ⟨h2, g1, h2, hc0, hc0, g3, h5, g4, r2, by rw [mul_comm]; exact g2.le, fun h => absurd rfl h⟩
    · exact ⟨h1, h2, g1, h3, hb, h5, g3, r2, g4, g2.le, fun _ => ⟨hpos, g5⟩⟩
  · have hneg := (sign_ne_iff h3).mp hs
    rw [rebracketR, if_pos hs, swap]
    split
    · rename_i hlt
      simp only at hlt ⊢
      have hc0 : s.fcur ≠ 0 := by
        intro h0; rw [h0, abs_zero] at hlt; exact absurd hlt (not_lt.mpr (abs_nonneg _))
      exact ⟨h2, h1, h2, hc0, hc0, h4, h5, r1, r2, by rw [mul_comm]; exact hneg, fun h => absurd rfl h⟩
    · exact ⟨h1, h2, h1, h3, h3, h5, h4, r2, r1, hneg, fun h => absurd rfl h⟩

/-- sign of the secant step -/
private theorem secant_sign {X c d : K} (hX : X ≠ 0) (hcd : c * d < 0) {A B D : K} (hA : Same (-X) A) (hB : Same (-c * A) B)
    (hD : Same (c - d) D) : Same X (B / D) := by
  rcases lt_or_gt_of_ne hX with hx | hx
  · have hA' : 0 < A := by rcases hA with ⟨_, h⟩ | ⟨h, _⟩ <;> [exact h; linarith]
    rcases lt_trichotomy c 0 with hc | hc | hc
    · have hd : 0 < d := by by_contra hh; nlinarith [not_lt.mp hh]
      have hB' : 0 < B := by rcases hB with ⟨_, h⟩ | ⟨h, _⟩ <;> [exact h; nlinarith]
      have hD' : D < 0 := by rcases hD with ⟨h, _⟩ | ⟨_, h⟩ <;> [linarith; exact h]
      exact Or.inr ⟨hx, div_neg_of_pos_of_neg hB' hD'⟩
    · rw [hc] at hcd; simp at hcd
    · have hd : d < 0 := by by_contra hh; nlinarith [not_lt.mp hh]
      have hB' : B < 0 := by rcases hB with ⟨h, _⟩ | ⟨_, h⟩ <;> [nlinarith; exact h]
      have hD' : 0 < D := by rcases hD with ⟨_, h⟩ | ⟨h, _⟩ <;> [exact h; linarith]
      exact Or.inr ⟨hx, div_neg_of_neg_of_pos hB' hD'⟩
  · have hA' : A < 0 := by rcases hA with ⟨h, _⟩ | ⟨_, h⟩ <;> [linarith; exact h]
    rcases lt_trichotomy c 0 with hc | hc | hc
    · have hd : 0 < d := by by_contra hh; nlinarith [not_lt.mp hh]
      have hB' : B < 0 := by rcases hB with ⟨h, _⟩ | ⟨_, h⟩ <;> [nlinarith; exact h]
      have hD' : D < 0 := by rcases hD with ⟨h, _⟩ | ⟨_, h⟩ <;> [linarith; exact h]
      exact Or.inl ⟨hx, div_pos_of_neg_of_neg hB' hD'⟩
    · rw [hc] at hcd; simp at hcd
    · have hd : d < 0 := by by_contra hh; nlinarith [not_lt.mp hh]
      have hB' : 0 < B := by rcases hB with ⟨_, h⟩ | ⟨h, _⟩ <;> [exact h; nlinarith]
      have hD' : 0 < D := by rcases hD with ⟨_, h⟩ | ⟨h, _⟩ <;> [exact h; linarith]
      exact Or.inl ⟨hx, div_pos hB' hD'⟩

/-- sign bookkeeping by a number `σ = ±1` -/
private theorem same_of_sign {x y : K} (hx : 0 < x) (hy : 0 < y) : Same x y := Or.inl ⟨hx, hy⟩

theorem Same.self {x : K} (h : x ≠ 0) : Same x x := by
  rcases lt_or_gt_of_ne h with h | h
  · exact Or.inr ⟨h, h⟩
  · exact Or.inl ⟨h, h⟩

theorem rnd_same (h : Rounding fl u) {x : K} (hx : x ≠ 0) : Same x (fl x) := (Same.self hx).rnd h

theorem Same.pos_iff {x y : K} (h : Same x y) : 0 < x ↔ 0 < y := by
  rcases h with ⟨a, b⟩ | ⟨a, b⟩
  · simp [a, b]
  · constructor <;> intro h <;> linarith

theorem Same.neg_iff {x y : K} (h : Same x y) : x < 0 ↔ y < 0 := by
  rcases h with ⟨a, b⟩ | ⟨a, b⟩
  · constructor <;> intro h <;> linarith
  · simp [a, b]

/-- the tried step has the direction of `xblk`, and no division is by zero -/
theorem try_spec (hr : Rounding fl u) {f : K → K} {a b : K} {s : St K} (h : Inv2R fl f a b s) (hc : s.fcur ≠ 0)
    (hX : s.xblk - s.xcur ≠ 0) (hcp : |s.fcur| < |s.fpre|) : ∃ st, tryR fl s = .ok st ∧ Same (s.xblk - s.xcur) st := by
  obtain ⟨h1, h2, h3, h4, h5, h6, h7, r1, r2, h9, h10⟩ := h
  have hopp : s.fblk * s.fcur < 0 := lt_of_le_of_ne h9 (mul_ne_zero h5 hc)
  have hne : s.fcur - s.fpre ≠ 0 := by
    intro h0; rw [sub_eq_zero.mp h0] at hcp; exact lt_irrefl _ hcp
  unfold tryR
  by_cases hxx : s.xpre = s.xblk
  · have hfb : s.fpre = s.fblk := by rw [h1, h3, hxx]
    rw [if_pos hxx, pdivR, if_neg (hr.ne hne)]
    refine ⟨_, rfl, Same.rnd hr ?_⟩
    have hX' : s.xcur - s.xpre ≠ 0 := by rw [hxx]; intro h; exact hX (by linarith)
    have hA := rnd_same hr hX'
    have hB := rnd_same hr (mul_ne_zero (neg_ne_zero.mpr hc) hA.ne)
    have hD := rnd_same hr hne
    refine secant_sign hX (c := s.fcur) (d := s.fpre) (by rw [hfb, mul_comm]; exact hopp) ?_ hB hD
    rw [show -(s.xblk - s.xcur) = s.xcur - s.xpre by rw [hxx]; ring]
    exact hA
  · rw [if_neg hxx]
    obtain ⟨g1, g3⟩ := h10 hxx
    have g2 : s.xpre ≠ s.xcur := by
      intro h; rw [h1, h2, h] at hcp; exact lt_irrefl _ hcp
    have e1 : s.xpre - s.xcur ≠ 0 := sub_ne_zero.mpr g2
    have e2 : s.fpre - s.fcur ≠ 0 := by rw [← neg_sub]; exact neg_ne_zero.mpr hne
    have e3 : s.fblk - s.fcur ≠ 0 := by intro h0; rw [sub_eq_zero.mp h0] at hopp; nlinarith [mul_self_nonneg s.fcur]
    have e4 : s.fblk - s.fpre ≠ 0 := by
      intro h0
      rw [sub_eq_zero.mp h0] at hopp
      linarith
    have k1 := rnd_same hr e1
    have k2 := rnd_same hr e2
    have k3 := rnd_same hr e3
    have k4 := rnd_same hr e4
    have k5 := rnd_same hr hX
    simp only [pdivR, if_neg k1.ne, if_neg k5.ne, bind, Except.bind]
    have k6 := rnd_same hr (div_ne_zero k2.ne k1.ne)
    have k7 := rnd_same hr (div_ne_zero k3.ne k5.ne)
    set dp := fl (fl (s.fpre - s.fcur) / fl (s.xpre - s.xcur)) with hdp
    set db := fl (fl (s.fblk - s.fcur) / fl (s.xblk - s.xcur)) with hdb
    have k8 := rnd_same hr (mul_ne_zero k7.ne k6.ne)
    have k9 := rnd_same hr (mul_ne_zero k8.ne k4.ne)
    rw [if_neg k9.ne]
    have k10 := rnd_same hr (mul_ne_zero h5 k7.ne)
    have k11 := rnd_same hr (mul_ne_zero h4 k6.ne)
    refine ⟨_, rfl, Same.rnd hr ?_⟩
    -- the four sign patterns
    have hY : (0 < s.xblk - s.xcur ∧ s.xpre - s.xcur < 0) ∨ (s.xblk - s.xcur < 0 ∧ 0 < s.xpre - s.xcur) := by
      rcases g3 with ⟨p, q⟩ | ⟨p, q⟩
      · left
        exact ⟨lt_of_le_of_ne (by linarith) (Ne.symm hX), lt_of_le_of_ne (by linarith) e1⟩
      · right
        exact ⟨lt_of_le_of_ne (by linarith) hX, lt_of_le_of_ne (by linarith) (Ne.symm e1)⟩
    have hC : (0 < s.fcur ∧ 0 < s.fpre - s.fcur ∧ 0 < s.fpre ∧ s.fblk < 0) ∨
        (s.fcur < 0 ∧ s.fpre - s.fcur < 0 ∧ s.fpre < 0 ∧ 0 < s.fblk) := by
      rcases lt_or_gt_of_ne hc with h | h
      · right
        have hp : s.fpre < 0 := by by_contra hh; nlinarith [not_lt.mp hh]
        have hb : 0 < s.fblk := by by_contra hh; nlinarith [not_lt.mp hh]
        rw [abs_of_neg h, abs_of_neg hp] at hcp
        exact ⟨h, by linarith, hp, hb⟩
      · left
        have hp : 0 < s.fpre := by by_contra hh; nlinarith [not_lt.mp hh]
        have hb : s.fblk < 0 := by by_contra hh; nlinarith [not_lt.mp hh]
        rw [abs_of_pos h, abs_of_pos hp] at hcp
        exact ⟨h, by linarith, hp, hb⟩
    rcases hY with ⟨x1, y1⟩ | ⟨x1, y1⟩ <;> rcases hC with ⟨c1, c2, c3, c4⟩ | ⟨c1, c2, c3, c4⟩
    · have a1 := k1.neg_iff.mp y1
      have a2 := k2.pos_iff.mp c2
      have a3 := k3.neg_iff.mp (by linarith)
      have a4 := k4.neg_iff.mp (by linarith)
      have a5 := k5.pos_iff.mp x1
      have a6 := k6.neg_iff.mp (div_neg_of_pos_of_neg a2 a1)
      have a7 := k7.neg_iff.mp (div_neg_of_neg_of_pos a3 a5)
      have a8 := k8.pos_iff.mp (mul_pos_of_neg_of_neg a7 a6)
      have a9 := k9.neg_iff.mp (mul_neg_of_pos_of_neg a8 a4)
      have a10 := k10.pos_iff.mp (mul_pos_of_neg_of_neg c4 a7)
      have a11 := k11.neg_iff.mp (mul_neg_of_pos_of_neg c3 a6)
      have a12 := hr.pos (x := fl (s.fblk * db) - fl (s.fpre * dp)) (by linarith)
      have a13 := hr.neg (x := -s.fcur * fl (fl (s.fblk * db) - fl (s.fpre * dp))) (mul_neg_of_neg_of_pos (by linarith) a12)
      exact Or.inl ⟨x1, div_pos_of_neg_of_neg a13 a9⟩
    · have a1 := k1.neg_iff.mp y1
      have a2 := k2.neg_iff.mp c2
      have a3 := k3.pos_iff.mp (by linarith)
      have a4 := k4.pos_iff.mp (by linarith)
      have a5 := k5.pos_iff.mp x1
      have a6 := k6.pos_iff.mp (div_pos_of_neg_of_neg a2 a1)
      have a7 := k7.pos_iff.mp (div_pos a3 a5)
      have a8 := k8.pos_iff.mp (_root_.mul_pos a7 a6)
      have a9 := k9.pos_iff.mp (_root_.mul_pos a8 a4)
      have a10 := k10.pos_iff.mp (_root_.mul_pos c4 a7)
      have a11 := k11.neg_iff.mp (mul_neg_of_neg_of_pos c3 a6)
      have a12 := hr.pos (x := fl (s.fblk * db) - fl (s.fpre * dp)) (by linarith)
      have a13 := hr.pos (x := -s.fcur * fl (fl (s.fblk * db) - fl (s.fpre * dp))) (_root_.mul_pos (by linarith) a12)
      exact Or.inl ⟨x1, div_pos a13 a9⟩
    · have a1 := k1.pos_iff.mp y1
      have a2 := k2.pos_iff.mp c2
      have a3 := k3.neg_iff.mp (by linarith)
      have a4 := k4.neg_iff.mp (by linarith)
      have a5 := k5.neg_iff.mp x1
      have a6 := k6.pos_iff.mp (div_pos a2 a1)
      have a7 := k7.pos_iff.mp (div_pos_of_neg_of_neg a3 a5)
      have a8 := k8.pos_iff.mp (_root_.mul_pos a7 a6)
      have a9 := k9.neg_iff.mp (mul_neg_of_pos_of_neg a8 a4)
      have a10 := k10.neg_iff.mp (mul_neg_of_neg_of_pos c4 a7)
      have a11 := k11.pos_iff.mp (_root_.mul_pos c3 a6)
      have a12 := hr.neg (x := fl (s.fblk * db) - fl (s.fpre * dp)) (by linarith)
      have a13 := hr.pos (x := -s.fcur * fl (fl (s.fblk * db) - fl (s.fpre * dp))) (mul_pos_of_neg_of_neg (by linarith) a12)
      exact Or.inr ⟨x1, div_neg_of_pos_of_neg a13 a9⟩
    · have a1 := k1.pos_iff.mp y1
      have a2 := k2.neg_iff.mp c2
      have a3 := k3.pos_iff.mp (by linarith)
      have a4 := k4.pos_iff.mp (by linarith)
      have a5 := k5.neg_iff.mp x1
      have a6 := k6.neg_iff.mp (div_neg_of_neg_of_pos a2 a1)
      have a7 := k7.neg_iff.mp (div_neg_of_pos_of_neg a3 a5)
      have a8 := k8.pos_iff.mp (mul_pos_of_neg_of_neg a7 a6)
      have a9 := k9.pos_iff.mp (_root_.mul_pos a8 a4)
      have a10 := k10.neg_iff.mp (mul_neg_of_pos_of_neg c4 a7)
      have a11 := k11.pos_iff.mp (mul_pos_of_neg_of_neg c3 a6)
      have a12 := hr.neg (x := fl (s.fblk * db) - fl (s.fpre * dp)) (by linarith)
      have a13 := hr.neg (x := -s.fcur * fl (fl (s.fblk * db) - fl (s.fpre * dp))) (mul_neg_of_pos_of_neg (by linarith) a12)
      exact Or.inr ⟨x1, div_neg_of_neg_of_pos a13 a9⟩

/-- the computed half distance -/
theorem sbisR_bounds (hr : Rounding fl u) (s : St K) (hX : s.xblk - s.xcur ≠ 0) : Same (s.xblk - s.xcur) (sbisR fl s) ∧
    (1 - u) ^ 2 * |s.xblk - s.xcur| ≤ 2 * |sbisR fl s| ∧ 2 * |sbisR fl s| ≤ (1 + u) ^ 2 * |s.xblk - s.xcur| := by
  have h1 := hr.le (s.xblk - s.xcur)
  have h2 := hr.le (fl (s.xblk - s.xcur) / 2)
  have g1 := hr.ge (s.xblk - s.xcur)
  have g2 := hr.ge (fl (s.xblk - s.xcur) / 2)
  rw [abs_div, abs_of_pos (by norm_num : (0 : K) < 2)] at h2 g2
  have k := rnd_same hr hX
  have hu := hr.nonneg
  have hs := hr.small
  unfold sbisR
  refine ⟨Same.rnd hr ?_, ?_, ?_⟩
  · rcases k with ⟨p, q⟩ | ⟨p, q⟩
    · exact Or.inl ⟨p, by positivity⟩
    · exact Or.inr ⟨p, by linarith⟩
  · nlinarith
  · nlinarith

theorem deltaR_pos (hr : Rounding fl u) {xtol rtol : K} (hx : 0 < xtol) (hrt : 0 ≤ rtol) (s : St K) : 0 < deltaR fl xtol rtol s := by
  have h0 : 0 ≤ fl (rtol * |s.xcur|) := by
    have := hr.mono (mul_nonneg hrt (abs_nonneg s.xcur))
    rwa [hr.zero] at this
  unfold deltaR
  apply hr.pos
  have := hr.pos (x := xtol + fl (rtol * |s.xcur|)) (by linarith)
  linarith

/-- the step computed by `stepsR` when not converged: no division by zero, and it points towards `xblk` without passing it -/
theorem stepsR_spec (hr : Rounding fl u) {f : K → K} {a b xtol rtol : K} {s : St K} (h : Inv2R fl f a b s) (hd : 0 < deltaR fl xtol rtol s)
    (hc : s.fcur ≠ 0) (hX : s.xblk - s.xcur ≠ 0) :
    ∃ sp sc, stepsR fl xtol rtol s = .ok (sp, sc) ∧ Same (s.xblk - s.xcur) sc ∧ |sc| ≤ |s.xblk - s.xcur| := by
  obtain ⟨b1, b2, b3⟩ := sbisR_bounds hr s hX
  have hu := hr.nonneg
  have hs := hr.small
  have hXp : 0 < |s.xblk - s.xcur| := abs_pos.mpr hX
  have hq : (1 + u) ^ 2 ≤ 1089 / 1024 := by nlinarith
  have hbis : ∃ sp sc, (Except.ok (sbisR fl s, sbisR fl s) : Py (K × K)) = .ok (sp, sc) ∧ Same (s.xblk - s.xcur) sc ∧
      |sc| ≤ |s.xblk - s.xcur| := ⟨_, _, rfl, b1, by nlinarith⟩
  unfold stepsR
  simp only [bind, Except.bind]
  split
  · rename_i hcond
    obtain ⟨st, hst, hdir⟩ := try_spec hr h hc hX hcond.2
    rw [hst]
    simp only
    split
    · rename_i hlt
      refine ⟨_, _, rfl, hdir, ?_⟩
      have h1 := lt_of_lt_of_le hlt (min_le_right _ _)
      have h2 := hr.ge (2 * |st|)
      rw [abs_mul, abs_abs, abs_of_pos (by norm_num : (0 : K) < 2)] at h2
      have h2p : 0 ≤ fl (2 * |st|) := by
        have := hr.mono (show (0 : K) ≤ 2 * |st| by positivity)
        rwa [hr.zero] at this
      rw [abs_of_nonneg h2p] at h2
      have h3 : fl (fl (3 * |sbisR fl s|) - deltaR fl xtol rtol s) ≤ fl (fl (3 * |sbisR fl s|)) := hr.mono (by linarith)
      rw [hr.idem] at h3
      have h4 := hr.le (3 * |sbisR fl s|)
      rw [abs_mul, abs_abs, abs_of_pos (by norm_num : (0 : K) < 3)] at h4
      have h5 := (le_abs_self _).trans h4
      have h6 : (1 - u) * (2 * |st|) ≤ (1 + u) * (3 * |sbisR fl s|) := by linarith
      have h7 : (1 + u) * (3 * |sbisR fl s|) ≤ (1 + u) * (3 / 2 * (1089 / 1024 * |s.xblk - s.xcur|)) := by
        apply mul_le_mul_of_nonneg_left _ (by linarith)
        nlinarith
      nlinarith [abs_nonneg st]
    · exact hbis
  · exact hbis

/-- a rounded step towards `y` that does not pass it stays between -/
theorem step_between (hr : Rounding fl u) {x y t : K} (hx : fl x = x) (hy : fl y = y) (ht : Same (y - x) t) (hle : |t| ≤ |y - x|) :
    Between x (fl (x + t)) y := by
  rcases ht with ⟨p, q⟩ | ⟨p, q⟩
  · left
    rw [abs_of_pos p, abs_of_pos q] at hle
    have h1 := hr.mono (show x ≤ x + t by linarith)
    have h2 := hr.mono (show x + t ≤ y by linarith)
    rw [hx] at h1; rw [hy] at h2
    exact ⟨h1, h2⟩
  · right
    rw [abs_of_neg p, abs_of_neg q] at hle
    have h1 := hr.mono (show x + t ≤ x by linarith)
    have h2 := hr.mono (show y ≤ x + t by linarith)
    rw [hx] at h1; rw [hy] at h2
    exact ⟨h2, h1⟩

theorem advanceR_point (hr : Rounding fl u) {f : K → K} {a b xtol rtol : K} {s : St K} {sp sc : K} (h : Inv2R fl f a b s)
    (hd : 0 < deltaR fl xtol rtol s) (hb : deltaR fl xtol rtol s ≤ |sbisR fl s|) (hX : s.xblk - s.xcur ≠ 0)
    (hsc : Same (s.xblk - s.xcur) sc) (hle : |sc| ≤ |s.xblk - s.xcur|) :
    Between s.xcur (advanceR fl f xtol rtol s sp sc).xcur s.xblk ∧
      fl (advanceR fl f xtol rtol s sp sc).xcur = (advanceR fl f xtol rtol s sp sc).xcur := by
  obtain ⟨b1, b2, b3⟩ := sbisR_bounds hr s hX
  have hu := hr.nonneg
  have hs := hr.small
  have hXp : 0 < |s.xblk - s.xcur| := abs_pos.mpr hX
  have hq : (1 + u) ^ 2 ≤ 1089 / 1024 := by nlinarith
  unfold advanceR
  simp only
  by_cases hlt : deltaR fl xtol rtol s < |sc|
  · rw [if_pos hlt]
    exact ⟨step_between hr h.curRep h.blkRep hsc hle, hr.idem _⟩
  · rw [if_neg hlt]
    have hdl : |deltaR fl xtol rtol s| ≤ |s.xblk - s.xcur| := by
      rw [abs_of_pos hd]; nlinarith
    by_cases hpos : 0 < sbisR fl s
    · rw [if_pos hpos]
      exact ⟨step_between hr h.curRep h.blkRep (Or.inl ⟨b1.pos_iff.mpr hpos, hd⟩) hdl, hr.idem _⟩
    · rw [if_neg hpos]
      refine ⟨step_between hr h.curRep h.blkRep (Or.inr ⟨?_, by linarith⟩) (by rwa [abs_neg]), hr.idem _⟩
      rcases b1 with ⟨p, q⟩ | ⟨p, q⟩
      · exact absurd q hpos
      · exact p

theorem between_in {a b x y z : K} (hx : a ≤ x ∧ x ≤ b) (hz : a ≤ z ∧ z ≤ b) (h : Between x y z) : a ≤ y ∧ y ≤ b := by
  rcases h with ⟨p, q⟩ | ⟨p, q⟩ <;> constructor <;> linarith [hx.1, hx.2, hz.1, hz.2]

theorem invR_advance {f : K → K} {a b xtol rtol : K} {s : St K} {sp sc : K} (h : Inv2R fl f a b s) (hc : s.fcur ≠ 0)
    (hbt : Between s.xcur (advanceR fl f xtol rtol s sp sc).xcur s.xblk)
    (hrep : fl (advanceR fl f xtol rtol s sp sc).xcur = (advanceR fl f xtol rtol s sp sc).xcur) :
    InvR fl f a b (advanceR fl f xtol rtol s sp sc) := by
  refine ⟨h.fcur, rfl, hc, h.curIn, between_in h.curIn h.blkIn hbt, h.curRep, hrep, ?_⟩
  intro hs
  refine ⟨h.fblk, ?_, h.blkIn, h.blkRep, hbt⟩
  have hopp : s.fblk * s.fcur < 0 := lt_of_le_of_ne h.opp (mul_ne_zero h.blk0 hc)
  have hpos : 0 < s.fcur * (advanceR fl f xtol rtol s sp sc).fcur := by
    by_contra hcon
    exact ((sign_ne_iff hc).mpr (not_lt.mp hcon)) hs
  show s.fblk * (advanceR fl f xtol rtol s sp sc).fcur < 0
  rcases lt_or_gt_of_ne hc with c0 | c0
  · have : (advanceR fl f xtol rtol s sp sc).fcur < 0 := by by_contra hh; nlinarith [not_lt.mp hh]
    have : 0 < s.fblk := by by_contra hh; nlinarith [not_lt.mp hh]
    nlinarith
  · have : 0 < (advanceR fl f xtol rtol s sp sc).fcur := by by_contra hh; nlinarith [not_lt.mp hh]
    have : s.fblk < 0 := by by_contra hh; nlinarith [not_lt.mp hh]
    nlinarith

/-- what a run of the loop produces -/
def LoopSpecR (f : K → K) (a b xtol rtol u : K) (n i last : Nat) (r : Py (Out K) × List K) : Prop :=
  (∀ x ∈ r.2, a ≤ x ∧ x ≤ b) ∧
  ∃ root calls iters conv, r.1 = .ok (.info root calls iters conv) ∧ (a ≤ root ∧ root ≤ b) ∧
    (conv = true → r.2.length < n ∧ calls = i + r.2.length + 2 ∧ iters = i + r.2.length + 1 ∧
      (f root = 0 ∨ ∃ y, a ≤ y ∧ y ≤ b ∧ f y * f root < 0 ∧
        (1 - u) ^ 2 * |y - root| < (1 + u) ^ 3 * (xtol + rtol * |root|))) ∧
    (conv = false → r.2.length = n ∧ calls = (if n = 0 then last + 2 else i + n + 1) ∧
      iters = (if n = 0 then last + 1 else i + n))

theorem deltaR_le (hr : Rounding fl u) {xtol rtol : K} (hx : 0 < xtol) (hrt : 0 ≤ rtol) (s : St K) :
    2 * deltaR fl xtol rtol s ≤ (1 + u) ^ 3 * (xtol + rtol * |s.xcur|) := by
  have hu := hr.nonneg
  have hp : 0 ≤ rtol * |s.xcur| := mul_nonneg hrt (abs_nonneg _)
  have h1 := hr.le (rtol * |s.xcur|)
  rw [abs_of_nonneg hp] at h1
  have h2 := hr.le (xtol + fl (rtol * |s.xcur|))
  have h3 := hr.le (fl (xtol + fl (rtol * |s.xcur|)) / 2)
  rw [abs_div, abs_of_pos (by norm_num : (0 : K) < 2)] at h3
  have h4 : |xtol + fl (rtol * |s.xcur|)| ≤ (1 + u) * (xtol + rtol * |s.xcur|) := by
    refine (abs_add_le _ _).trans ?_
    rw [abs_of_pos hx]
    nlinarith
  have h5 := (le_abs_self _).trans h3
  have h6 : |fl (xtol + fl (rtol * |s.xcur|))| ≤ (1 + u) ^ 2 * (xtol + rtol * |s.xcur|) := by
    refine h2.trans ?_
    rw [pow_two, mul_assoc]
    exact mul_le_mul_of_nonneg_left h4 (by linarith)
  have h7 := mul_le_mul_of_nonneg_left h6 (show (0 : K) ≤ 1 + u by linarith)
  unfold deltaR
  nlinarith

theorem loopR_spec (hr : Rounding fl u) {f : K → K} {a b xtol rtol : K} (hx : 0 < xtol) (hrt : 0 ≤ rtol) (n : Nat) :
    ∀ (i last : Nat) (s : St K), InvR fl f a b s → LoopSpecR f a b xtol rtol u n i last (loopR fl f xtol rtol n i last s) := by
  induction n with
  | zero =>
    intro i last s h
    refine ⟨by simp [loopR], s.xcur, last + 2, last + 1, false, rfl, h.curIn, by simp, by simp [loopR]⟩
  | succ n ih =>
    intro i last s h
    have h2 := invR_swap h
    set s2 := swap (rebracketR fl s) with hs2
    have hd : 0 < deltaR fl xtol rtol s2 := deltaR_pos hr hx hrt s2
    unfold loopR
    simp only [← hs2]
    by_cases hconv : s2.fcur = 0 ∨ |sbisR fl s2| < deltaR fl xtol rtol s2
    · rw [if_pos hconv]
      refine ⟨by simp, s2.xcur, i + 2, i + 1, true, rfl, h2.curIn, fun _ => ⟨by simp, by simp, by simp, ?_⟩, by simp⟩
      by_cases h0 : s2.fcur = 0
      · left; rw [← h2.fcur]; exact h0
      · right
        have hb := hconv.resolve_left h0
        refine ⟨s2.xblk, h2.blkIn.1, h2.blkIn.2, ?_, ?_⟩
        · rw [← h2.fcur, ← h2.fblk]
          exact lt_of_le_of_ne h2.opp (mul_ne_zero h2.blk0 h0)
        · have hX : s2.xblk - s2.xcur ≠ 0 := by
            intro h0'
            have e : s2.xblk = s2.xcur := by linarith
            have := h2.opp
            rw [h2.fblk, h2.fcur, e, ← h2.fcur] at this
            exact h0 (by nlinarith [mul_self_nonneg s2.fcur, mul_self_eq_zero.mp (le_antisymm this (mul_self_nonneg _))])
          have := (sbisR_bounds hr s2 hX).2.1
          have := deltaR_le hr hx hrt s2
          linarith
    · rw [if_neg hconv]
      push Not at hconv
      obtain ⟨hc, hb⟩ := hconv
      have hX : s2.xblk - s2.xcur ≠ 0 := by
        intro h0
        have : sbisR fl s2 = 0 := by rw [sbisR, h0, hr.zero, zero_div, hr.zero]
        rw [this, abs_zero] at hb; linarith
      obtain ⟨sp, sc, hst, ht, t1⟩ := stepsR_spec (xtol := xtol) (rtol := rtol) hr h2 hd hc hX
      obtain ⟨hbt, hrep⟩ := advanceR_point (sp := sp) hr h2 hd hb hX ht t1
      have hI := invR_advance h2 hc hbt hrep
      rw [hst]
      simp only
      obtain ⟨g1, root, calls, iters, conv, g2, g3, g4, g5⟩ := ih (i + 1) i _ hI
      set r := loopR fl f xtol rtol n (i + 1) i (advanceR fl f xtol rtol s2 sp sc)
      refine ⟨?_, root, calls, iters, conv, g2, g3, ?_, ?_⟩
      · intro x hx'
        rcases List.mem_cons.mp hx' with rfl | hx'
        · exact hI.curIn
        · exact g1 x hx'
      · intro hc'
        obtain ⟨e1, e2, e3, e4⟩ := g4 hc'
        simp only [List.length_cons]
        exact ⟨by omega, by omega, by omega, e4⟩
      · intro hc'
        obtain ⟨e1, e2, e3⟩ := g5 hc'
        simp only [List.length_cons]
        refine ⟨by omega, ?_, ?_⟩
        · rw [e2]; split <;> simp <;> omega
        · rw [e3]; split <;> simp <;> omega

/-- **C214** in rounded arithmetic `brentq` evaluates the function only inside the bracket, returns a point of it, never divides by
zero, and raises nothing but ValueError: when the bracket is empty or the end values have the same sign. -/
theorem C214_inside_bracket (hr : Rounding fl u) (f : K → K) (a b xtol rtol : K) (ha : fl a = a) (hb : fl b = b) (hx : 0 < xtol)
    (hrt : 0 ≤ rtol) (maxiter : Int) :
    (∀ x ∈ (brentqR fl f a b xtol rtol maxiter).2, a ≤ x ∧ x ≤ b) ∧
    (∀ o, (brentqR fl f a b xtol rtol maxiter).1 = .ok o → a ≤ o.root ∧ o.root ≤ b) ∧
    (∀ e, (brentqR fl f a b xtol rtol maxiter).1 = .error e ↔ e = .valueError ∧
      (b ≤ a ∨ (f a ≠ 0 ∧ f b ≠ 0 ∧ SignType.sign (f a) = SignType.sign (f b)))) := by
  by_cases hab : b ≤ a
  · rw [brentqR, if_pos hab]; simp [hab, eq_comm]
  have hlt := not_le.mp hab
  have := hlt.le
  by_cases h0 : f a = 0
  · rw [brentqR, if_neg hab, if_pos h0]
    refine ⟨by simp [this], by rintro o ⟨⟩; exact ⟨le_refl _, this⟩, by simp [h0, hlt]⟩
  by_cases h1 : f b = 0
  · rw [brentqR, if_neg hab, if_neg h0, if_pos h1]
    refine ⟨by simp [this], by rintro o ⟨⟩; exact ⟨this, le_refl _⟩, by simp [h1, hlt]⟩
  by_cases hs : SignType.sign (f a) = SignType.sign (f b)
  · rw [brentqR, if_neg hab, if_neg h0, if_neg h1, if_pos hs]
    refine ⟨by simp [this], by simp, ?_⟩
    intro e
    simp [h0, h1, hs, eq_comm]
  · have hI : InvR fl f a b ⟨a, b, f a, f b, 0, 0, 0, 0⟩ :=
      ⟨rfl, rfl, h0, ⟨le_refl _, hlt.le⟩, ⟨hlt.le, le_refl _⟩, ha, hb, fun h => absurd h hs⟩
    obtain ⟨g1, root, calls, iters, conv, g2, g3, -⟩ := loopR_spec hr hx hrt maxiter.toNat 0 0 _ hI
    rw [brentqR, if_neg hab, if_neg h0, if_neg h1, if_neg hs]
    refine ⟨?_, ?_, ?_⟩
    · intro x hx'
      simp only [List.mem_cons] at hx'
      rcases hx' with rfl | rfl | hx'
      · exact ⟨le_refl _, this⟩
      · exact ⟨this, le_refl _⟩
      · exact g1 x hx'
    · intro o ho
      simp only [g2] at ho
      cases ho
      exact g3
    · intro e
      simp [g2, hab, hs]

/-- **C214** a point reported as converged is a zero of the computed function or has a sign change of it within the tolerance (up to
`(1+u)³/(1-u)²`). -/
theorem C214_converged (hr : Rounding fl u) (f : K → K) (a b xtol rtol : K) (ha : fl a = a) (hb : fl b = b) (hx : 0 < xtol)
    (hrt : 0 ≤ rtol) (maxiter : Int) (root : K) (calls iters : Nat)
    (h : (brentqR fl f a b xtol rtol maxiter).1 = .ok (.info root calls iters true)) :
    f root = 0 ∨ ∃ y, a ≤ y ∧ y ≤ b ∧ f y * f root < 0 ∧ (1 - u) ^ 2 * |y - root| < (1 + u) ^ 3 * (xtol + rtol * |root|) := by
  by_cases hab : b ≤ a
  · rw [brentqR, if_pos hab] at h; simp at h
  have hlt := not_le.mp hab
  by_cases h0 : f a = 0
  · rw [brentqR, if_neg hab, if_pos h0] at h; simp at h
  by_cases h1 : f b = 0
  · rw [brentqR, if_neg hab, if_neg h0, if_pos h1] at h; simp at h
  by_cases hs : SignType.sign (f a) = SignType.sign (f b)
  · rw [brentqR, if_neg hab, if_neg h0, if_neg h1, if_pos hs] at h; simp at h
  · have hI : InvR fl f a b ⟨a, b, f a, f b, 0, 0, 0, 0⟩ :=
      ⟨rfl, rfl, h0, ⟨le_refl _, hlt.le⟩, ⟨hlt.le, le_refl _⟩, ha, hb, fun h => absurd h hs⟩
    obtain ⟨g1, root', calls', iters', conv, g2, g3, g4, -⟩ := loopR_spec hr hx hrt maxiter.toNat 0 0 _ hI
    rw [brentqR, if_neg hab, if_neg h0, if_neg h1, if_neg hs] at h
    simp only [g2] at h
    cases h
    exact (g4 rfl).2.2.2

/-- binary64 is a case: the conclusion for every computed function on a bracket of binary64 numbers -/
theorem C214_binary64 (f : ℚ → ℚ) (a b xtol rtol : ℚ) (ha : rnd53 a = a) (hb : rnd53 b = b) (hx : 0 < xtol) (hrt : 0 ≤ rtol)
    (maxiter : Int) : ∀ x ∈ (brentqR rnd53 f a b xtol rtol maxiter).2, a ≤ x ∧ x ≤ b :=
  (C214_inside_bracket rnd53_rounding f a b xtol rtol ha hb hx hrt maxiter).1

/-- the hypotheses are met, and the loop is entered: four evaluations on `x² - 2` -/
example : rnd53 1 = 1 ∧ rnd53 2 = 2 ∧
    (brentqR rnd53 (fun x => rnd53 (x * x - 2)) 1 2 (1 / 10) 0 2).2.length = 4 := by
  refine ⟨?_, ?_, ?_⟩ <;> decide +kernel

end Proadv.Props
