import Verif.Model.Brent
import Mathlib.Topology.Order.IntermediateValue
import Mathlib.Topology.Instances.Real.Lemmas
import Mathlib.Tactic.Linarith
import Mathlib.Tactic.Positivity
import Mathlib.Tactic.FieldSimp
import Mathlib.Tactic.Ring

/-!
# C36–C39: `brentq`
-/

set_option linter.unusedSectionVars false

namespace Proadv.Props

open Proadv Brent

variable {K : Type} [Field K] [LinearOrder K] [IsStrictOrderedRing K]

/-- `x` lies in the closed interval with end points `p` and `q` -/
def Between (p x q : K) : Prop := (p ≤ x ∧ x ≤ q) ∨ (q ≤ x ∧ x ≤ p)

/-- the state before `rebracket` -/
structure Inv (f : K → K) (a b : K) (s : St K) : Prop where
  fpre : s.fpre = f s.xpre
  fcur : s.fcur = f s.xcur
  pre0 : s.fpre ≠ 0
  preIn : a ≤ s.xpre ∧ s.xpre ≤ b
  curIn : a ≤ s.xcur ∧ s.xcur ≤ b
  old : SignType.sign s.fpre = SignType.sign s.fcur → s.fblk = f s.xblk ∧ s.fblk * s.fcur < 0 ∧
    (a ≤ s.xblk ∧ s.xblk ≤ b) ∧ s.xpre ≠ s.xcur ∧ Between s.xpre s.xcur s.xblk

/-- the state after `swap` -/
structure Inv2 (f : K → K) (a b : K) (s : St K) : Prop where
  fpre : s.fpre = f s.xpre
  fcur : s.fcur = f s.xcur
  fblk : s.fblk = f s.xblk
  pre0 : s.fpre ≠ 0
  blk0 : s.fblk ≠ 0
  preIn : a ≤ s.xpre ∧ s.xpre ≤ b
  curIn : a ≤ s.xcur ∧ s.xcur ≤ b
  blkIn : a ≤ s.xblk ∧ s.xblk ≤ b
  opp : s.fblk * s.fcur ≤ 0
  old : s.xpre ≠ s.xblk → 0 < s.fpre * s.fcur ∧ s.xpre ≠ s.xcur ∧ Between s.xpre s.xcur s.xblk

theorem sign_ne_iff {x y : K} (hx : x ≠ 0) : SignType.sign x ≠ SignType.sign y ↔ x * y ≤ 0 := by
  rcases lt_trichotomy x 0 with h | h | h
  · rcases lt_trichotomy y 0 with h' | h' | h'
    · simp [sign_neg h, sign_neg h', mul_pos_of_neg_of_neg h h']
    · subst h'; simp [sign_neg h]
    · simp [sign_neg h, sign_pos h', (mul_neg_of_neg_of_pos h h').le]
  · exact absurd h hx
  · rcases lt_trichotomy y 0 with h' | h' | h'
    · simp [sign_pos h, sign_neg h', (mul_neg_of_pos_of_neg h h').le]
    · subst h'; simp [sign_pos h]
    · simp [sign_pos h, sign_pos h', mul_pos h h']

theorem inv_swap {f : K → K} {a b : K} {s : St K} (h : Inv f a b s) : Inv2 f a b (swap (rebracket s)) := by
  obtain ⟨h1, h2, h3, h4, h5, h6⟩ := h
  by_cases hs : SignType.sign s.fpre = SignType.sign s.fcur
  · obtain ⟨g1, g2, g3, g4, g5⟩ := h6 hs
    have hb : s.fblk ≠ 0 := by intro h0; rw [h0] at g2; simp at g2
    have hpos : 0 < s.fpre * s.fcur := by
      by_contra hc
      exact ((sign_ne_iff h3).mpr (not_lt.mp hc)) hs
    have hc0 : s.fcur ≠ 0 := by intro h0; rw [h0] at hpos; simp at hpos
    rw [rebracket, if_neg (by simpa using hs), swap]
    split
    · exact ⟨h2, g1, h2, hc0, hc0, h5, g3, h5, by rw [mul_comm]; exact g2.le, fun h => absurd rfl h⟩
    · exact ⟨h1, h2, g1, h3, hb, h4, h5, g3, g2.le, fun _ => ⟨hpos, g4, g5⟩⟩
  · have hneg := (sign_ne_iff h3).mp hs
    rw [rebracket, if_pos hs, swap]
    split
    · rename_i hlt
      simp only at hlt ⊢
      have hc0 : s.fcur ≠ 0 := by
        intro h0; rw [h0, abs_zero] at hlt; exact absurd hlt (not_lt.mpr (abs_nonneg _))
      exact ⟨h2, h1, h2, hc0, hc0, h5, h4, h5, by rw [mul_comm]; exact hneg, fun h => absurd rfl h⟩
    · exact ⟨h1, h2, h1, h3, h3, h4, h5, h4, hneg, fun h => absurd rfl h⟩

theorem mul_div_bounds {x y : K} (hxy : x * y < 0) : 0 < x / (x - y) ∧ x / (x - y) < 1 := by
  rcases lt_trichotomy x 0 with h | h | h
  · have hy : 0 < y := by by_contra hc; nlinarith [not_lt.mp hc]
    have : x - y < 0 := by linarith
    exact ⟨div_pos_of_neg_of_neg h this, by rw [div_lt_one_of_neg this]; linarith⟩
  · rw [h] at hxy; simp at hxy
  · have hy : y < 0 := by by_contra hc; nlinarith [not_lt.mp hc]
    have : 0 < x - y := by linarith
    exact ⟨div_pos h this, by rw [div_lt_one this]; linarith⟩

theorem extrapolate_dir {c p b X Y : K} (hbc : b * c < 0) (hpc : 0 < p * c) (hcp : |c| < |p|) (hXY : X * Y < 0) :
    0 < -c * (b * ((b - c) / X) - p * ((p - c) / Y)) / ((b - c) / X * ((p - c) / Y) * (b - p)) / X := by
  have hX : X ≠ 0 := by rintro rfl; simp at hXY
  have hY : Y ≠ 0 := by rintro rfl; simp at hXY
  have key : ∀ c p b : K, 0 < c → c < p → b < 0 →
      0 < -c * (b * ((b - c) / X) - p * ((p - c) / Y)) / ((b - c) / X * ((p - c) / Y) * (b - p)) / X := by
    intro c p b hc hp hb
    have e1 : 0 < c - b := by linarith
    have e2 : 0 < p - c := by linarith
    have e3 : 0 < p - b := by linarith
    have n1 := e1.ne'
    have n2 := e2.ne'
    have n3 := e3.ne'
    have : -c * (b * ((b - c) / X) - p * ((p - c) / Y)) / ((b - c) / X * ((p - c) / Y) * (b - p)) / X
        = c * ((-b) * (c - b) * (-(X * Y)) + p * (p - c) * (X * X)) / ((c - b) * (p - c) * (p - b) * (X * X)) := by
      rw [show b - c = -(c - b) by ring, show b - p = -(p - b) by ring]
      field_simp
      ring
    rw [this]
    have hX2 : 0 < X * X := mul_self_pos.mpr hX
    have hXY' : 0 < -(X * Y) := by linarith
    have hb' : 0 < -b := by linarith
    have hp' : 0 < p := by linarith
    positivity
  rcases lt_trichotomy c 0 with h | h | h
  · have hp : p < 0 := by by_contra hh; nlinarith [not_lt.mp hh]
    have hb : 0 < b := by by_contra hh; nlinarith [not_lt.mp hh]
    rw [abs_of_neg h, abs_of_neg hp] at hcp
    have := key (-c) (-p) (-b) (by linarith) hcp (by linarith)
    have e : ∀ u v w : K, -(-u) * (-w * ((-w - -u) / X) - -v * ((-v - -u) / Y)) / ((-w - -u) / X * ((-v - -u) / Y) * (-w - -v)) / X
       = -u * (w * ((w - u) / X) - v * ((v - u) / Y)) / ((w - u) / X * ((v - u) / Y) * (w - v)) / X := by
      intro u v w
      rw [show -w - -u = -(w - u) by ring, show -v - -u = -(v - u) by ring, show -w - -v = -(w - v) by ring]
      rw [show -(-u) * (-w * (-(w - u) / X) - -v * (-(v - u) / Y)) = -(-u * (w * ((w - u) / X) - v * ((v - u) / Y))) by ring,
        show -(w - u) / X * (-(v - u) / Y) * -(w - v) = -((w - u) / X * ((v - u) / Y) * (w - v)) by ring, neg_div_neg_eq]
    rw [e] at this
    exact this
  · rw [h] at hpc; simp at hpc
  · have hp : 0 < p := by by_contra hh; nlinarith [not_lt.mp hh]
    have hb : b < 0 := by by_contra hh; nlinarith [not_lt.mp hh]
    rw [abs_of_pos h, abs_of_pos hp] at hcp
    exact key c p b h hcp hb

/-- the step computed by `steps` when not converged: no division by zero, and it points towards `xblk` with at most 3/4
of the distance -/
theorem steps_spec {f : K → K} {a b xtol rtol : K} {s : St K} (h : Inv2 f a b s) (hd : 0 < delta xtol rtol s)
    (hc : s.fcur ≠ 0) (hb : delta xtol rtol s ≤ |sbis s|) :
    ∃ sp sc t, steps xtol rtol s = .ok (sp, sc) ∧ sc = t * (s.xblk - s.xcur) ∧ 0 ≤ t ∧ t ≤ 3 / 4 := by
  obtain ⟨h1, h2, h3, h4, h5, h6, h7, h8, h9, h10⟩ := h
  have hopp : s.fblk * s.fcur < 0 := lt_of_le_of_ne h9 (mul_ne_zero h5 hc)
  have hbc : s.xblk - s.xcur ≠ 0 := by
    intro h0
    have : sbis s = 0 := by rw [sbis, h0, zero_div]
    rw [this, abs_zero] at hb; linarith
  have hbis : ∃ sp sc t, (Except.ok (sbis s, sbis s) : Py (K × K)) = .ok (sp, sc) ∧ sc = t * (s.xblk - s.xcur) ∧ 0 ≤ t ∧ t ≤ 3 / 4 :=
    ⟨_, _, 1 / 2, rfl, by rw [sbis]; ring, by norm_num, by norm_num⟩
  -- the tried step has the direction of `xblk`
  have accept : ∀ st t : K, st = t * (s.xblk - s.xcur) → 0 ≤ t →
      ∃ sp sc t, (if 2 * |st| < min |s.spre| (3 * |sbis s| - delta xtol rtol s) then
        (.ok (s.scur, st) : Py (K × K)) else .ok (sbis s, sbis s)) = .ok (sp, sc) ∧
        sc = t * (s.xblk - s.xcur) ∧ 0 ≤ t ∧ t ≤ 3 / 4 := by
    intro st t hst ht
    split
    · rename_i hlt
      refine ⟨_, _, t, rfl, hst, ht, ?_⟩
      have h3b : 2 * |st| < 3 * |sbis s| := by
        have := lt_of_lt_of_le hlt (min_le_right _ _); linarith
      rw [hst, sbis, abs_mul, abs_div, abs_of_nonneg ht, abs_of_pos (by norm_num : (0 : K) < 2)] at h3b
      have hpos : 0 < |s.xblk - s.xcur| := abs_pos.mpr hbc
      by_contra hcon
      have := not_le.mp hcon
      nlinarith
    · exact hbis
  unfold steps
  simp only [bind, Except.bind]
  split
  · rename_i hcond
    obtain ⟨-, hcp⟩ := hcond
    have hne : s.fcur - s.fpre ≠ 0 := by
      intro h0; rw [sub_eq_zero.mp h0] at hcp; exact lt_irrefl _ hcp
    by_cases hxx : s.xpre = s.xblk
    · rw [if_pos hxx, pdiv, if_neg hne]
      simp only
      have hfb : s.fpre = s.fblk := by rw [h1, h3, hxx]
      have hb' := mul_div_bounds (show s.fcur * s.fpre < 0 by rw [hfb, mul_comm]; exact hopp)
      refine accept _ (s.fcur / (s.fcur - s.fpre)) ?_ hb'.1.le
      rw [hxx]; field_simp; ring
    · rw [if_neg hxx]
      obtain ⟨g1, g2, g3⟩ := h10 hxx
      have e1 : s.xpre - s.xcur ≠ 0 := sub_ne_zero.mpr g2
      rw [pdiv, if_neg e1, pdiv, if_neg hbc]
      simp only
      -- signs
      set dp := (s.fpre - s.fcur) / (s.xpre - s.xcur) with hdp
      set db := (s.fblk - s.fcur) / (s.xblk - s.xcur) with hdb
      have e2 : s.fpre - s.fcur ≠ 0 := by rw [← neg_sub]; exact neg_ne_zero.mpr hne
      have e3 : s.fblk - s.fcur ≠ 0 := by intro h0; rw [sub_eq_zero.mp h0] at hopp; nlinarith [mul_self_nonneg s.fcur]
      have e4 : s.fblk - s.fpre ≠ 0 := by
        intro h0
        rw [sub_eq_zero.mp h0] at hopp
        linarith
      have hdp0 : dp ≠ 0 := div_ne_zero e2 e1
      have hdb0 : db ≠ 0 := div_ne_zero e3 hbc
      rw [pdiv, if_neg (mul_ne_zero (mul_ne_zero hdb0 hdp0) e4)]
      simp only
      -- stry = t * (xblk - xcur) with t ≥ 0
      have hdir : 0 < (s.xblk - s.xcur) * (s.xcur - s.xpre) := by
        rcases g3 with ⟨u, v⟩ | ⟨u, v⟩
        · have u' : s.xpre < s.xcur := lt_of_le_of_ne u g2
          have v' : s.xcur < s.xblk := lt_of_le_of_ne v (fun e => hbc (by rw [e]; ring))
          exact mul_pos (by linarith) (by linarith)
        · have v' : s.xcur < s.xpre := lt_of_le_of_ne v (fun e => g2 e.symm)
          have u' : s.xblk < s.xcur := lt_of_le_of_ne u (fun e => hbc (by rw [e]; ring))
          exact mul_pos_of_neg_of_neg (by linarith) (by linarith)
      set st := -s.fcur * (s.fblk * db - s.fpre * dp) / (db * dp * (s.fblk - s.fpre)) with hst
      refine accept st (st / (s.xblk - s.xcur)) (by field_simp) ?_
      have := extrapolate_dir (c := s.fcur) (p := s.fpre) (b := s.fblk) (X := s.xblk - s.xcur) (Y := s.xpre - s.xcur)
        hopp g1 hcp (by linarith [hdir, mul_sub (s.xblk - s.xcur) s.xcur s.xpre, mul_sub (s.xblk - s.xcur) s.xpre s.xcur])
      rw [hst, hdp, hdb]
      exact this.le
  · exact hbis

/-- the new point is a proper convex combination of `xcur` and `xblk` -/
theorem advance_point {f : K → K} {xtol rtol : K} {s : St K} {sp sc t : K} (hd : 0 < delta xtol rtol s)
    (hb : delta xtol rtol s ≤ |sbis s|) (hsc : sc = t * (s.xblk - s.xcur)) (h0 : 0 ≤ t) (h1 : t ≤ 3 / 4) :
    ∃ u, 0 < u ∧ u ≤ 3 / 4 ∧ (advance f xtol rtol s sp sc).xcur = s.xcur + u * (s.xblk - s.xcur) := by
  unfold advance
  simp only
  by_cases hlt : delta xtol rtol s < |sc|
  · rw [if_pos hlt]
    refine ⟨t, lt_of_le_of_ne h0 ?_, h1, by rw [hsc]⟩
    rintro rfl
    rw [hsc, zero_mul, abs_zero] at hlt
    linarith
  · rw [if_neg hlt]
    have hX : s.xblk - s.xcur = 2 * sbis s := by rw [sbis]; ring
    by_cases hpos : 0 < sbis s
    · rw [if_pos hpos]
      rw [abs_of_pos hpos] at hb
      refine ⟨delta xtol rtol s / (2 * sbis s), by positivity, ?_, ?_⟩
      · rw [div_le_iff₀ (by linarith)]; linarith
      · rw [hX]; field_simp
    · rw [if_neg hpos]
      have hneg : sbis s < 0 := by
        rcases lt_or_eq_of_le (not_lt.mp hpos) with h | h
        · exact h
        · rw [h, abs_zero] at hb; linarith
      rw [abs_of_neg hneg] at hb
      have hn : (0 : K) < -sbis s := by linarith
      refine ⟨delta xtol rtol s / (2 * -sbis s), by positivity, ?_, ?_⟩
      · rw [div_le_iff₀ (by linarith)]; linarith
      · have := hneg.ne
        rw [hX]; field_simp

theorem convex_in {a b x y u : K} (hx : a ≤ x ∧ x ≤ b) (hy : a ≤ y ∧ y ≤ b) (h0 : 0 ≤ u) (h1 : u ≤ 1) :
    a ≤ x + u * (y - x) ∧ x + u * (y - x) ≤ b := by
  constructor <;> nlinarith

theorem inv_advance {f : K → K} {a b xtol rtol : K} {s : St K} {sp sc u : K} (h : Inv2 f a b s) (hc : s.fcur ≠ 0)
    (hX : s.xblk - s.xcur ≠ 0) (h0 : 0 < u) (h1 : u ≤ 3 / 4)
    (hu : (advance f xtol rtol s sp sc).xcur = s.xcur + u * (s.xblk - s.xcur)) :
    Inv f a b (advance f xtol rtol s sp sc) := by
  have hf : (advance f xtol rtol s sp sc).fcur = f (advance f xtol rtol s sp sc).xcur := rfl
  refine ⟨h.fcur, hf, hc, h.curIn, ?_, ?_⟩
  · rw [hu]; exact convex_in h.curIn h.blkIn h0.le (by linarith)
  · intro hs
    refine ⟨h.fblk, ?_, h.blkIn, ?_, ?_⟩
    · have hopp : s.fblk * s.fcur < 0 := lt_of_le_of_ne h.opp (mul_ne_zero h.blk0 hc)
      have hpos : 0 < s.fcur * (advance f xtol rtol s sp sc).fcur := by
        by_contra hcon
        exact ((sign_ne_iff hc).mpr (not_lt.mp hcon)) hs
      show s.fblk * (advance f xtol rtol s sp sc).fcur < 0
      rcases lt_or_gt_of_ne hc with c0 | c0
      · have : (advance f xtol rtol s sp sc).fcur < 0 := by by_contra hh; nlinarith [not_lt.mp hh]
        have : 0 < s.fblk := by by_contra hh; nlinarith [not_lt.mp hh]
        nlinarith
      · have : 0 < (advance f xtol rtol s sp sc).fcur := by by_contra hh; nlinarith [not_lt.mp hh]
        have : s.fblk < 0 := by by_contra hh; nlinarith [not_lt.mp hh]
        nlinarith
    · show s.xcur ≠ (advance f xtol rtol s sp sc).xcur
      rw [hu]
      intro h'
      have : u * (s.xblk - s.xcur) = 0 := by linarith
      rcases mul_eq_zero.mp this with h'' | h''
      · linarith
      · exact hX h''
    · show Between s.xcur (advance f xtol rtol s sp sc).xcur s.xblk
      rw [hu]
      rcases le_total s.xcur s.xblk with hle | hle
      · left; constructor <;> nlinarith
      · right; constructor <;> nlinarith

/-- what a run of the loop produces: `n` iterations allowed, starting at iteration `i` -/
def LoopSpec (f : K → K) (a b xtol rtol : K) (n i last : Nat) (r : Py (Out K) × List K) : Prop :=
  (∀ x ∈ r.2, a ≤ x ∧ x ≤ b) ∧
  ∃ root calls iters conv, r.1 = .ok (.info root calls iters conv) ∧ (a ≤ root ∧ root ≤ b) ∧
    (conv = true → r.2.length < n ∧ calls = i + r.2.length + 2 ∧ iters = i + r.2.length + 1 ∧
      (f root = 0 ∨ ∃ y, a ≤ y ∧ y ≤ b ∧ f y * f root < 0 ∧ |y - root| < xtol + rtol * |root|)) ∧
    (conv = false → r.2.length = n ∧ calls = (if n = 0 then last + 2 else i + n + 1) ∧
      iters = (if n = 0 then last + 1 else i + n))

theorem loop_spec {f : K → K} {a b xtol rtol : K} (hx : 0 < xtol) (hr : 0 ≤ rtol) (n : Nat) :
    ∀ (i last : Nat) (s : St K), Inv f a b s →
      LoopSpec f a b xtol rtol n i last (loop f xtol rtol n i last s) := by
  induction n with
  | zero =>
    intro i last s h
    refine ⟨by simp [loop], s.xcur, last + 2, last + 1, false, rfl, h.curIn, by simp, by simp [loop]⟩
  | succ n ih =>
    intro i last s h
    have h2 := inv_swap h
    set s2 := swap (rebracket s) with hs2
    have hd : 0 < delta xtol rtol s2 := by
      rw [delta]; have := mul_nonneg hr (abs_nonneg s2.xcur); linarith
    unfold loop
    simp only [← hs2]
    by_cases hconv : s2.fcur = 0 ∨ |sbis s2| < delta xtol rtol s2
    · rw [if_pos hconv]
      refine ⟨by simp, s2.xcur, i + 2, i + 1, true, rfl, h2.curIn, fun _ => ⟨by simp, by simp, by simp, ?_⟩, by simp⟩
      by_cases h0 : s2.fcur = 0
      · left; rw [← h2.fcur]; exact h0
      · right
        have hb := hconv.resolve_left h0
        refine ⟨s2.xblk, h2.blkIn.1, h2.blkIn.2, ?_, ?_⟩
        · rw [← h2.fcur, ← h2.fblk]
          exact lt_of_le_of_ne h2.opp (mul_ne_zero h2.blk0 h0)
        · rw [sbis, abs_div, abs_of_pos (by norm_num : (0 : K) < 2), delta] at hb
          linarith
    · rw [if_neg hconv]
      push Not at hconv
      obtain ⟨hc, hb⟩ := hconv
      obtain ⟨sp, sc, t, hst, ht, t0, t1⟩ := steps_spec h2 hd hc hb
      obtain ⟨u, u0, u1, hu⟩ := advance_point (f := f) (sp := sp) hd hb ht t0 t1
      have hX : s2.xblk - s2.xcur ≠ 0 := by
        intro h0
        have : sbis s2 = 0 := by rw [sbis, h0, zero_div]
        rw [this, abs_zero] at hb; linarith
      have hI := inv_advance h2 hc hX u0 u1 hu
      rw [hst]
      simp only
      obtain ⟨g1, root, calls, iters, conv, g2, g3, g4, g5⟩ := ih (i + 1) i _ hI
      set r := loop f xtol rtol n (i + 1) i (advance f xtol rtol s2 sp sc)
      refine ⟨?_, root, calls, iters, conv, g2, g3, ?_, ?_⟩
      · intro x hx'
        rcases List.mem_cons.mp hx' with rfl | hx'
        · exact hI.curIn
        · exact g1 x hx'
      · intro hc'
        obtain ⟨e1, e2, e3, e4⟩ := g4 hc'
        simp only [List.length_cons]
        exact ⟨by omega, by omega, by omega, e4⟩
      · intro hc'
        obtain ⟨e1, e2, e3⟩ := g5 hc'
        simp only [List.length_cons]
        refine ⟨by omega, ?_, ?_⟩
        · rw [e2]; split <;> simp <;> omega
        · rw [e3]; split <;> simp <;> omega

theorem inv_init {f : K → K} {a b : K} (hab : a < b) (h0 : f a ≠ 0)
    (hs : SignType.sign (f a) ≠ SignType.sign (f b)) : Inv f a b ⟨a, b, f a, f b, 0, 0, 0, 0⟩ :=
  ⟨rfl, rfl, h0, ⟨le_refl _, hab.le⟩, ⟨hab.le, le_refl _⟩, fun h => absurd h hs⟩

/-- the run when the loop is entered -/
theorem brentq_loop {f : K → K} {a b xtol rtol : K} (hx : 0 < xtol) (hr : 0 ≤ rtol) (maxiter : Int) (hab : a < b)
    (h0 : f a ≠ 0) (h1 : f b ≠ 0) (hs : SignType.sign (f a) ≠ SignType.sign (f b)) :
    ∃ r, brentq f a b xtol rtol maxiter = (r.1, a :: b :: r.2) ∧ LoopSpec f a b xtol rtol maxiter.toNat 0 0 r := by
  refine ⟨_, ?_, loop_spec hx hr maxiter.toNat 0 0 _ (inv_init hab h0 hs)⟩
  rw [brentq, if_neg (not_le.mpr hab), if_neg h0, if_neg h1, if_neg hs]

/-- **C36**: with `xtol > 0` and `rtol ≥ 0`, every point at which `brentq` evaluates `f` lies in `[xa, xb]`, a returned
root lies in `[xa, xb]`, and no ZeroDivisionError is raised — for every `f`, bracket and `maxiter`. -/
theorem C36_inside_bracket (f : K → K) (a b xtol rtol : K) (hx : 0 < xtol) (hr : 0 ≤ rtol) (maxiter : Int) :
    (∀ x ∈ (brentq f a b xtol rtol maxiter).2, a ≤ x ∧ x ≤ b) ∧
    (∀ o, (brentq f a b xtol rtol maxiter).1 = .ok o → a ≤ o.root ∧ o.root ≤ b) ∧
    (brentq f a b xtol rtol maxiter).1 ≠ .error .zeroDivisionError := by
  by_cases hab : b ≤ a
  · rw [brentq, if_pos hab]; simp
  by_cases h0 : f a = 0
  · rw [brentq, if_neg hab, if_pos h0]
    have := (not_le.mp hab).le
    simp [Out.root, this]
  by_cases h1 : f b = 0
  · rw [brentq, if_neg hab, if_neg h0, if_pos h1]
    have := (not_le.mp hab).le
    simp [Out.root, this]
  by_cases hs : SignType.sign (f a) = SignType.sign (f b)
  · rw [brentq, if_neg hab, if_neg h0, if_neg h1, if_pos hs]
    have := (not_le.mp hab).le
    simp [this]
  · obtain ⟨r, hr', g1, root, calls, iters, conv, g2, g3, -⟩ := brentq_loop hx hr maxiter (not_le.mp hab) h0 h1 hs
    have := (not_le.mp hab).le
    rw [hr']
    refine ⟨?_, ?_, ?_⟩
    · intro x hx'
      simp only [List.mem_cons] at hx'
      rcases hx' with rfl | rfl | hx'
      · exact ⟨le_refl _, this⟩
      · exact ⟨this, le_refl _⟩
      · exact g1 x hx'
    · intro o ho
      simp only [g2] at ho
      cases ho
      exact g3
    · simp [g2]

/-- **C37**: for continuous `f`, a point reported as converged (or an end point returned as a root) is within
`xtol + rtol·|x|` of a zero of `f` lying in `[xa, xb]`. -/
theorem C37_near_zero (f : ℝ → ℝ) (a b xtol rtol : ℝ) (hx : 0 < xtol) (hr : 0 ≤ rtol) (maxiter : Int)
    (hf : ContinuousOn f (Set.Icc a b)) (o : Out ℝ) (ho : (brentq f a b xtol rtol maxiter).1 = .ok o)
    (hconv : ∀ root calls iters, o ≠ .info root calls iters false) :
    ∃ z, a ≤ z ∧ z ≤ b ∧ f z = 0 ∧ |z - o.root| < xtol + rtol * |o.root| := by
  have tol : ∀ x : ℝ, 0 < xtol + rtol * |x| := fun x => by
    have := mul_nonneg hr (abs_nonneg x); linarith
  by_cases hab : b ≤ a
  · rw [brentq, if_pos hab] at ho; cases ho
  have hle := (not_le.mp hab).le
  by_cases h0 : f a = 0
  · rw [brentq, if_neg hab, if_pos h0] at ho
    cases ho
    exact ⟨a, le_refl _, hle, h0, by simpa [Out.root] using tol a⟩
  by_cases h1 : f b = 0
  · rw [brentq, if_neg hab, if_neg h0, if_pos h1] at ho
    cases ho
    exact ⟨b, hle, le_refl _, h1, by simpa [Out.root] using tol b⟩
  by_cases hs : SignType.sign (f a) = SignType.sign (f b)
  · rw [brentq, if_neg hab, if_neg h0, if_neg h1, if_pos hs] at ho; cases ho
  · obtain ⟨r, hr', g1, root, calls, iters, conv, g2, g3, g4, -⟩ := brentq_loop hx hr maxiter (not_le.mp hab) h0 h1 hs
    rw [hr'] at ho
    simp only [g2] at ho
    cases ho
    cases conv with
    | false => exact absurd rfl (hconv root calls iters)
    | true =>
      obtain ⟨-, -, -, hz⟩ := g4 rfl
      rcases hz with hz | ⟨y, y1, y2, hy, hd⟩
      · exact ⟨root, g3.1, g3.2, hz, by simpa [Out.root] using tol root⟩
      · have hsub : Set.uIcc y root ⊆ Set.Icc a b := Set.uIcc_subset_Icc ⟨y1, y2⟩ g3
        have h0 : (0 : ℝ) ∈ Set.uIcc (f y) (f root) := by
          rw [Set.mem_uIcc]
          rcases lt_or_ge (f y) 0 with h | h
          · left; refine ⟨h.le, ?_⟩; by_contra hc; nlinarith [not_le.mp hc]
          · right; refine ⟨?_, h⟩; by_contra hc; nlinarith [not_le.mp hc]
        obtain ⟨z, hz, hfz⟩ := intermediate_value_uIcc (hf.mono hsub) h0
        refine ⟨z, (hsub hz).1, (hsub hz).2, hfz, lt_of_le_of_lt ?_ hd⟩
        have := Set.abs_sub_right_of_mem_uIcc hz
        rw [abs_sub_comm z, abs_sub_comm y]
        exact this

/-- **C38**: `brentq` raises ValueError exactly when `xa ≥ xb` or the end-point values are non-zero with equal sign. -/
theorem C38_value_error (f : K → K) (a b xtol rtol : K) (hx : 0 < xtol) (hr : 0 ≤ rtol) (maxiter : Int) :
    (brentq f a b xtol rtol maxiter).1 = .error .valueError ↔ b ≤ a ∨ 0 < f a * f b := by
  by_cases hab : b ≤ a
  · rw [brentq, if_pos hab]; simp [hab]
  by_cases h0 : f a = 0
  · rw [brentq, if_neg hab, if_pos h0]; simp [hab, h0]
  by_cases h1 : f b = 0
  · rw [brentq, if_neg hab, if_neg h0, if_pos h1]; simp [hab, h1]
  by_cases hs : SignType.sign (f a) = SignType.sign (f b)
  · rw [brentq, if_neg hab, if_neg h0, if_neg h1, if_pos hs]
    have : 0 < f a * f b := by
      by_contra hc
      exact (sign_ne_iff h0).mpr (not_lt.mp hc) hs
    simp [this]
  · obtain ⟨r, hr', -, root, calls, iters, conv, g2, -⟩ := brentq_loop hx hr maxiter (not_le.mp hab) h0 h1 hs
    rw [hr']
    have := (sign_ne_iff h0).mp hs
    simp [g2, hab, this]

/-- **C38**: every other call returns (no exception of any kind), for every `maxiter`. -/
theorem C38_returns (f : K → K) (a b xtol rtol : K) (hx : 0 < xtol) (hr : 0 ≤ rtol) (maxiter : Int)
    (hab : a < b) (hs : f a * f b ≤ 0) : ∃ o, (brentq f a b xtol rtol maxiter).1 = .ok o := by
  have hab' := not_le.mpr hab
  by_cases h0 : f a = 0
  · rw [brentq, if_neg hab', if_pos h0]; simp
  by_cases h1 : f b = 0
  · rw [brentq, if_neg hab', if_neg h0, if_pos h1]; simp
  · obtain ⟨r, hr', -, root, calls, iters, conv, g2, -⟩ :=
      brentq_loop hx hr maxiter hab h0 h1 ((sign_ne_iff h0).mpr hs)
    rw [hr']; simp [g2]

/-- **C38**: the documented error "if the method does not converge within maxiter" is not raised: a run that exhausts
its iterations without converging (x² − 2 on [0, 2], one iteration) returns the last iterate. -/
theorem C38_maxiter_silent :
    (brentq (fun x : ℚ => x ^ 2 - 2) 0 2 (1 / 1000) 0 1).1 = .ok (.info 1 2 1 false) := by decide +kernel

/-- **C39**: when the loop reports convergence, `function_calls` is the number of evaluations of `f`, and `iterations`
is one less than that; when it runs out of its `maxiter ≥ 1` iterations, `function_calls` is one too small and
`iterations` is `maxiter`. -/
theorem C39_function_calls (f : K → K) (a b xtol rtol : K) (hx : 0 < xtol) (hr : 0 ≤ rtol) (maxiter : Int)
    (root : K) (calls iters : Nat) (conv : Bool)
    (ho : (brentq f a b xtol rtol maxiter).1 = .ok (.info root calls iters conv)) :
    (conv = true → calls = (brentq f a b xtol rtol maxiter).2.length ∧ iters + 1 = calls ∧ iters ≤ maxiter) ∧
    (conv = false → 1 ≤ maxiter → calls + 1 = (brentq f a b xtol rtol maxiter).2.length ∧ iters = maxiter) ∧
    (conv = false → maxiter ≤ 0 → calls = (brentq f a b xtol rtol maxiter).2.length ∧ iters = 1) := by
  by_cases hab : b ≤ a
  · rw [brentq, if_pos hab] at ho; cases ho
  by_cases h0 : f a = 0
  · rw [brentq, if_neg hab, if_pos h0] at ho; cases ho
  by_cases h1 : f b = 0
  · rw [brentq, if_neg hab, if_neg h0, if_pos h1] at ho; cases ho
  by_cases hs : SignType.sign (f a) = SignType.sign (f b)
  · rw [brentq, if_neg hab, if_neg h0, if_neg h1, if_pos hs] at ho; cases ho
  · obtain ⟨r, hr', -, root', calls', iters', conv', g2, -, g4, g5⟩ :=
      brentq_loop hx hr maxiter (not_le.mp hab) h0 h1 hs
    rw [hr'] at ho ⊢
    simp only [g2, Except.ok.injEq, Out.info.injEq] at ho
    obtain ⟨rfl, rfl, rfl, rfl⟩ := ho
    simp only [List.length_cons]
    refine ⟨fun h => ?_, fun h hm => ?_, fun h hm => ?_⟩
    · obtain ⟨e1, e2, e3, -⟩ := g4 h
      omega
    · obtain ⟨e1, e2, e3⟩ := g5 h
      rw [if_neg (by omega)] at e2 e3
      omega
    · obtain ⟨e1, e2, e3⟩ := g5 h
      rw [if_pos (by omega)] at e2 e3
      omega

/-! ## The hypotheses are met: runs on x² − 2 over [0, 2] -/

/-- three iterations allowed: not converged, the point is strictly inside the bracket -/
example : (brentq (fun x : ℚ => x ^ 2 - 2) 0 2 (1 / 1000) 0 3) = (.ok (.info (149 / 105) 4 3 false), [0, 2, 1, 4 / 3, 149 / 105]) := by
  decide +kernel

/-- a converging run -/
example : (brentq (fun x : ℚ => x ^ 2 - 2) 0 2 (1 / 10) 0 100).1 = .ok (.info (149 / 105) 5 4 true) := by
  decide +kernel

/-- both error branches -/
example : (brentq (fun x : ℚ => x ^ 2 + 1) 0 2 (1 / 10) 0 100).1 = .error .valueError := by decide +kernel

example : (brentq (fun x : ℚ => x) 2 1 (1 / 10) 0 100) = (.error .valueError, []) := by decide +kernel

end Proadv.Props
