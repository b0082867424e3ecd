import Verif.Props.Fmin
import Mathlib.Order.Monotone.Basic

/-!
# C155, C156: `fminbound` stops by itself, and finds the minimum of a unimodal function
-/

set_option linter.unusedSectionVars false

namespace Proadv.Props

open Proadv Fl Fmin

variable {K : Type} [Field K] [LinearOrder K] [IsStrictOrderedRing K] [FloorRing K]

/-- what the loop condition says: one of the ends is more than `2T` away -/
theorem cond_fin {a b l r x ε τ : K} {s : St (Fl K)} (h : Br a b s l r x) :
    Fmin.cond (fin ε) (fin τ) s = true ↔ 2 * (ε * |x| + τ / 3) < max (x - l) (r - x) := by
  rw [Fmin.cond, tol2, tol1_fin h, xcentral_fin h, h.left, h.right, h.xopt]
  simp only [lit_eq, pmul_fin, psub_fin, pabs_fin, plt_fin, decide_eq_true_eq]
  push_cast
  have lx := h.lx
  have xr := h.xr
  generalize ε * |x| = w
  rcases le_total ((l + r) / 2) x with hm | hm
  · rw [abs_of_nonneg (by linarith), max_eq_left (by linarith)]
    constructor <;> intro _ <;> linarith
  · rw [abs_of_nonpos (by linarith), max_eq_right (by linarith)]
    constructor <;> intro _ <;> linarith

/-- the point evaluated by the body keeps the distance `T = ε|x| + τ/3` from the best point and from both ends -/
theorem next_dist {a b l r x ε γ τ : K} {s : St (Fl K)} (h : Br a b s l r x) (hε : 0 ≤ ε) (hτ : 0 < τ) (hγ : 0 < γ)
    (hγ1 : γ ≤ 1 / 2) (hc : Fmin.cond (fin ε) (fin τ) s = true) :
    ∃ y, nextPoint (fin ε) (fin τ) s (chooseStep (fin ε) (fin γ) (fin τ) s).2 = fin y ∧
      ε * |x| + τ / 3 ≤ y - l ∧ ε * |x| + τ / 3 ≤ r - y ∧ ε * |x| + τ / 3 ≤ |y - x| := by
  have ht := tol1_fin (ε := ε) (τ := τ) h
  have hxc := xcentral_fin h
  have hc' := (cond_fin h).mp hc
  set T := ε * |x| + τ / 3 with hT
  have hT0 : 0 < T := by have := mul_nonneg hε (abs_nonneg x); linarith
  have lx := h.lx
  have xr := h.xr
  have ht2 : tol2 (fin ε) (fin τ) s = fin (2 * T) := by rw [tol2, ht]; simp
  have far1 : (l + r) / 2 ≤ x → 2 * T < x - l := by
    intro h'; rw [max_eq_left (by linarith)] at hc'; linarith
  have far2 : x ≤ (l + r) / 2 → 2 * T < r - x := by
    intro h'; rw [max_eq_right (by linarith)] at hc'; linarith
  have red : ∀ σ : K, nextPoint (fin ε) (fin τ) s (fin σ) = fin (x + (if σ < 0 then -1 else 1) * max |σ| T) := by
    intro σ
    rw [nextPoint, dir_fin, ht, pabs_fin, npMaximum_fin, h.xopt, pmul_fin, padd_fin]
  have fin_step : ∀ σ : K, (σ < 0 → -σ + T ≤ x - l ∧ 2 * T ≤ x - l) → (0 ≤ σ → σ + T ≤ r - x ∧ 2 * T ≤ r - x) →
      ∃ y, nextPoint (fin ε) (fin τ) s (fin σ) = fin y ∧ T ≤ y - l ∧ T ≤ r - y ∧ T ≤ |y - x| := by
    intro σ h1 h2
    refine ⟨_, red σ, ?_⟩
    by_cases hs : σ < 0
    · obtain ⟨k1, k2⟩ := h1 hs
      have hm : T ≤ max (-σ) T := le_max_right _ _
      have hm' : max (-σ) T ≤ x - l - T := max_le (by linarith) (by linarith)
      rw [if_pos hs, abs_of_neg hs, add_sub_cancel_left, abs_mul, abs_neg, abs_one, one_mul, abs_of_pos (by linarith)]
      exact ⟨by linarith, by linarith, hm⟩
    · obtain ⟨k1, k2⟩ := h2 (not_lt.mp hs)
      have hm : T ≤ max σ T := le_max_right _ _
      have hm' : max σ T ≤ r - x - T := max_le (by linarith) (by linarith)
      rw [if_neg hs, abs_of_nonneg (not_lt.mp hs), one_mul, add_sub_cancel_left, abs_of_pos (by linarith)]
      exact ⟨by linarith, by linarith, hm⟩
  unfold chooseStep
  split
  · rename_i hacc
    rw [Bool.and_eq_true] at hacc
    obtain ⟨σ, hσ, s1, s2⟩ := accepted h hacc.2
    show ∃ y, nextPoint (fin ε) (fin τ) s (parabolicStep (fin ε) (fin τ) s) = fin y ∧ _
    have hps : parabolicStep (fin ε) (fin τ) s =
        if x + σ - l < 2 * T ∨ r - (x + σ) < 2 * T then fin (T * (if (l + r) / 2 - x < 0 then -1 else 1)) else fin σ := by
      have : parabolicStep (fin ε) (fin τ) s = if ((s.xopt +. ((parabola s).1 /. (parabola s).2) -. s.left) <. tol2 (fin ε) (fin τ) s)
          || ((s.right -. (s.xopt +. ((parabola s).1 /. (parabola s).2))) <. tol2 (fin ε) (fin τ) s) then
          tol1 (fin ε) (fin τ) s *. (npSign (xcentral s -. s.xopt) +. (if xcentral s ==. s.xopt then lit 1 else lit 0))
          else (parabola s).1 /. (parabola s).2 := rfl
      rw [this, hσ, ht2, ht, hxc, h.left, h.right, h.xopt]
      have hd := dir_fin ((l + r) / 2 - x)
      have hd' : npSign (fin ((l + r) / 2) -. fin x : Fl K) +. (if (fin ((l + r) / 2) : Fl K) ==. fin x then lit 1 else lit 0)
          = fin (if (l + r) / 2 - x < 0 then -1 else 1) := by
        rw [← hd, dir]
        simp only [psub_fin, peq_fin, lit_eq, decide_eq_true_eq, Rat.cast_zero, sub_eq_zero]
      rw [hd']
      simp only [padd_fin, psub_fin, plt_fin, pmul_fin, Bool.or_eq_true, decide_eq_true_eq]
    rw [hps]
    split
    · by_cases hm : (l + r) / 2 - x < 0
      · rw [if_pos hm]
        have := far1 (by linarith)
        refine fin_step _ (fun _ => ⟨by linarith, by linarith⟩) (fun h' => ?_)
        linarith
      · rw [if_neg hm]
        have := far2 (by linarith)
        refine fin_step _ (fun h' => ?_) (fun _ => ⟨by linarith, by linarith⟩)
        linarith
    · rename_i hn
      push Not at hn
      by_cases hs : σ < 0
      · exact fin_step σ (fun _ => ⟨by linarith, by linarith⟩) (fun h' => absurd hs (not_lt.mpr h'))
      · exact fin_step σ (fun h' => absurd h' hs) (fun h' => ⟨by linarith, by linarith⟩)
  · show ∃ y, nextPoint (fin ε) (fin τ) s (fin γ *. goldenE s) = fin y ∧ _
    by_cases hm : (l + r) / 2 ≤ x
    · have : goldenE s = fin (l - x) := by rw [goldenE, hxc, h.xopt, h.left]; simp [hm]
      rw [this, pmul_fin]
      have hf := far1 hm
      refine fin_step _ (fun _ => ⟨by nlinarith, by linarith⟩) (fun h' => ?_)
      nlinarith
    · have : goldenE s = fin (r - x) := by rw [goldenE, hxc, h.xopt, h.right]; simp [hm]
      rw [this, pmul_fin]
      have hf := far2 (not_le.mp hm).le
      refine fin_step _ (fun h' => ?_) (fun _ => ⟨by nlinarith, by linarith⟩)
      have := mul_nonneg hγ.le (show (0 : K) ≤ r - x by linarith)
      linarith

/-- the four possible brackets after one pass, and when they are taken -/
theorem body_cases {a b l r x ε γ τ : K} {s : St (Fl K)} {target : Fl K → Fl K} (h : Br a b s l r x) (hε : 0 ≤ ε)
    (hτ : 0 < τ) (hγ : 0 < γ) (hγ1 : γ ≤ 1 / 2) (hc : Fmin.cond (fin ε) (fin τ) s = true) :
    ∃ y l' r' x', Br a b (body target (fin ε) (fin γ) (fin τ) s) l' r' x' ∧
      (body target (fin ε) (fin γ) (fin τ) s).xcur = fin y ∧
      (body target (fin ε) (fin γ) (fin τ) s).fopt = (if target (fin y) ≤. s.fopt then target (fin y) else s.fopt) ∧
      ε * |x| + τ / 3 ≤ y - l ∧ ε * |x| + τ / 3 ≤ r - y ∧ ε * |x| + τ / 3 ≤ |y - x| ∧
      (((target (fin y) ≤. s.fopt) = true ∧ x < y ∧ l' = x ∧ x' = y ∧ r' = r) ∨
       ((target (fin y) ≤. s.fopt) = true ∧ y < x ∧ l' = l ∧ x' = y ∧ r' = x) ∨
       ((target (fin y) ≤. s.fopt) = false ∧ y < x ∧ l' = y ∧ x' = x ∧ r' = r) ∨
       ((target (fin y) ≤. s.fopt) = false ∧ x < y ∧ l' = l ∧ x' = x ∧ r' = y)) := by
  obtain ⟨y, hy, y1, y2, y3⟩ := next_dist h hε hτ hγ hγ1 hc
  have hT0 : 0 < ε * |x| + τ / 3 := by have := mul_nonneg hε (abs_nonneg x); linarith
  have hal := h.al
  have hrb := h.rb
  have hlx := h.lx
  have hxr := h.xr
  have hne : y ≠ x := by
    rintro rfl
    rw [sub_self, abs_zero] at y3
    linarith
  rw [body]
  simp only [hy]
  set e := (chooseStep (fin ε) (fin γ) (fin τ) s).1
  set st := (chooseStep (fin ε) (fin γ) (fin τ) s).2
  have hb := update_bounds target s e st (fin y)
  have hx := update_xopt target s e st (fin y)
  have hfo := update_fopt target s e st (fin y)
  rw [h.xopt, h.left, h.right] at hb
  rw [h.xopt] at hx
  have hcu := update_xcur target s e st (fin y)
  by_cases hf : (target (fin y) ≤. s.fopt) = true
  · rw [if_pos hf] at hb hx
    rcases lt_or_gt_of_ne hne with hlt | hlt
    · simp only [ple_fin, decide_eq_true_eq, not_le.mpr hlt, if_false, Prod.mk.injEq] at hb
      exact ⟨y, l, x, y, ⟨hb.1, hb.2, hx, hal, by linarith, by linarith, by linarith⟩, hcu, hfo, y1, y2, y3,
        .inr (.inl ⟨hf, hlt, rfl, rfl, rfl⟩)⟩
    · simp only [ple_fin, decide_eq_true_eq, hlt.le, if_true, Prod.mk.injEq] at hb
      exact ⟨y, x, r, y, ⟨hb.1, hb.2, hx, by linarith, by linarith, by linarith, by linarith⟩, hcu, hfo, y1, y2, y3,
        .inl ⟨hf, hlt, rfl, rfl, rfl⟩⟩
  · rw [if_neg hf] at hb hx
    have hf' : (target (fin y) ≤. s.fopt) = false := by simpa using hf
    rcases lt_or_gt_of_ne hne with hlt | hlt
    · simp only [plt_fin, decide_eq_true_eq, hlt, if_true, Prod.mk.injEq] at hb
      exact ⟨y, y, r, x, ⟨hb.1, hb.2, hx, by linarith, by linarith, by linarith, by linarith⟩, hcu, hfo, y1, y2, y3,
        .inr (.inr (.inl ⟨hf', hlt, rfl, rfl, rfl⟩))⟩
    · simp only [plt_fin, decide_eq_true_eq, not_lt.mpr hlt.le, if_false, Prod.mk.injEq] at hb
      exact ⟨y, l, y, x, ⟨hb.1, hb.2, hx, by linarith, by linarith, by linarith, by linarith⟩, hcu, hfo, y1, y2, y3,
        .inr (.inr (.inr ⟨hf', hlt, rfl, rfl, rfl⟩))⟩

/-- the width of the bracket goes down by `τ/3` in every pass -/
theorem loop_stops {a b ε γ τ : K} {target : Fl K → Fl K} (hε : 0 ≤ ε) (hτ : 0 < τ) (hγ : 0 < γ) (hγ1 : γ ≤ 1 / 2)
    (limit : Int) (hlim : 3 * (b - a) ≤ limit * τ) (n : Nat) :
    ∀ (s : St (Fl K)) (l r x : K) (res : St (Fl K) × Bool), Br a b s l r x → τ / 3 ≤ x - l → τ / 3 ≤ r - x →
      r - l + (s.count - 1) * (τ / 3) ≤ b - a →
      loop target (fin ε) (fin γ) (fin τ) limit n s = some res → res.2 = false := by
  induction n with
  | zero => intro s l r x res _ _ _ _ h; cases h
  | succ n ih =>
    intro s l r x res hB h1 h2 h3 h
    rw [loop] at h
    split at h
    · rename_i hc
      simp only at h
      obtain ⟨y, l', r', x', hB', -, -, y1, y2, y3, hcs⟩ := body_cases (target := target) hB hε hτ hγ hγ1 hc
      have hcnt : (body target (fin ε) (fin γ) (fin τ) s).count = s.count + 1 := by rw [body, update_count]
      have hT : τ / 3 ≤ ε * |x| + τ / 3 := by have := mul_nonneg hε (abs_nonneg x); linarith
      have key : τ / 3 ≤ x' - l' ∧ τ / 3 ≤ r' - x' ∧ r' - l' + τ / 3 ≤ r - l := by
        clear h3 hB hB' ih h hc
        generalize ε * |x| = w at *
        rcases hcs with ⟨-, hlt, rfl, rfl, rfl⟩ | ⟨-, hlt, rfl, rfl, rfl⟩ | ⟨-, hlt, rfl, rfl, rfl⟩ | ⟨-, hlt, rfl, rfl, rfl⟩
        · rw [abs_of_pos (by linarith)] at y3
          exact ⟨by linarith, by linarith, by linarith⟩
        · rw [abs_of_neg (by linarith)] at y3
          exact ⟨by linarith, by linarith, by linarith⟩
        · rw [abs_of_neg (by linarith)] at y3
          exact ⟨by linarith, by linarith, by linarith⟩
        · rw [abs_of_pos (by linarith)] at y3
          exact ⟨by linarith, by linarith, by linarith⟩
      have h3' : r' - l' + ((body target (fin ε) (fin γ) (fin τ) s).count - 1) * (τ / 3) ≤ b - a := by
        rw [hcnt]; push_cast
        linarith [key.2.2]
      split at h
      · rename_i hl
        exfalso
        have hl' : (limit : K) ≤ ((body target (fin ε) (fin γ) (fin τ) s).count : K) := by exact_mod_cast hl
        obtain ⟨k1, k2, -⟩ := key
        generalize ((body target (fin ε) (fin γ) (fin τ) s).count : K) = c at *
        have : limit * τ ≤ c * τ := mul_le_mul_of_nonneg_right hl' hτ.le
        linarith
      · exact ih _ l' r' x' res hB' key.1 key.2.1 h3' h
    · cases h; rfl

/-- **C155** for the routine with arbitrary constants `eps ≥ 0` and `1/3 ≤ golden ≤ 1/2`: with a budget of at least
`3(upper − lower)/tolerance` evaluations the loop is never left by the budget, whatever values the target returns. -/
theorem C155_core (target : Fl K → Fl K) (ε γ a b τ : K) (limit : Int) (hε : 0 ≤ ε) (hγ : 1 / 3 ≤ γ) (hγ1 : γ ≤ 1 / 2)
    (hτ : 0 < τ) (hab : a ≤ b) (hlim : 3 * (b - a) ≤ limit * τ) (o : Fmin.Out (Fl K))
    (h : optimize target (fin ε) (fin γ) (fin a) (fin b) (fin τ) limit = .ok (some o)) : o.flag ≠ 1 := by
  obtain ⟨-, -, -, res, hr, rfl⟩ := optimize_ok h
  have h0 : 0 ≤ b - a := by linarith
  have hB : Br a b (initial target (fin γ) (fin a) (fin b)) a b (a + γ * (b - a)) :=
    ⟨rfl, rfl, by simp [initial], le_refl _, by nlinarith, by nlinarith, le_refl _⟩
  have hres : res.2 = false := by
    by_cases hc : Fmin.cond (fin ε) (fin τ) (initial target (fin γ) (fin a) (fin b)) = true
    · have hc' := (cond_fin hB).mp hc
      have hT : 0 ≤ ε * |a + γ * (b - a)| := mul_nonneg hε (abs_nonneg _)
      have hmax : max (a + γ * (b - a) - a) (b - (a + γ * (b - a))) = (1 - γ) * (b - a) := by
        rw [max_eq_right (by nlinarith)]; ring
      rw [hmax] at hc'
      have h1 : τ / 3 ≤ γ * (b - a) := by nlinarith
      refine loop_stops hε hτ (by linarith) hγ1 limit hlim _ _ a b _ res hB (by linarith) (by nlinarith) ?_ hr
      show b - a + (((1 : Nat) : K) - 1) * (τ / 3) ≤ b - a
      simp
    · rw [loop, if_neg hc] at hr
      cases hr; rfl
  simp only [finish, hres]
  split <;> simp

/-- **C155**: `fminbound` with `max_evaluations ≥ 3(upper − lower)/tolerance` always stops by its own criterion: the flag
is never 1 — for every target, NaN and infinite values included. -/
theorem C155_stops (target : Fl ℝ → Fl ℝ) (a b τ : ℝ) (limit : Int) (hτ : 0 < τ) (hab : a ≤ b)
    (hlim : 3 * (b - a) ≤ limit * τ) :
    ∃ o, fminbound target (fin a) (fin b) (fin τ) limit = .ok (some o) ∧ o.flag ≠ 1 ∧ o.count ≤ max 2 limit := by
  rw [fminbound_eq]
  have hs := sqrt5_bounds
  rcases C42_terminates target (fin (√(22 / 10 ^ 17))) (fin ((3 - √5) / 2)) (fin a) (fin b) (fin τ) limit with h | ⟨o, h⟩
  · rw [C40_value_error] at h
    exact absurd ⟨a, b, rfl, rfl, hab⟩ h
  · refine ⟨o, h, C155_core target _ _ a b τ limit (Real.sqrt_nonneg _) (by linarith [hs.2]) (by linarith [hs.1]) hτ hab hlim o h, ?_⟩
    exact (C42_budget target _ _ _ _ _ limit o h).2.2.1

/-- `f` falls strictly up to `z` and rises strictly after it, on `[a, b]` -/
structure Unimodal (f : K → K) (a z b : K) : Prop where
  az : a ≤ z
  zb : z ≤ b
  falls : ∀ x y, a ≤ x → x < y → y ≤ z → f y < f x
  rises : ∀ x y, z ≤ x → x < y → y ≤ b → f x < f y

/-- **C156** for the routine with arbitrary constants: when it stops by its own criterion on a unimodal target, the
reported value is the value at a point within `2(ε|x| + τ/3)` of the minimiser, and the returned point is within
`4(ε|x| + τ/3)` of it. -/
theorem C156_core (target : Fl K → Fl K) (f : K → K) (ε γ a z b τ : K) (limit : Int) (hε : 0 ≤ ε) (hγ : 0 < γ)
    (hγ1 : γ ≤ 1 / 2) (hτ : 0 < τ) (hab : a ≤ b) (ht : ∀ x, a ≤ x → x ≤ b → target (fin x) = fin (f x))
    (hu : Unimodal f a z b) (o : Fmin.Out (Fl K))
    (h : optimize target (fin ε) (fin γ) (fin a) (fin b) (fin τ) limit = .ok (some o)) (hflag : o.flag = 0) :
    ∃ x y, o.fval = fin (f x) ∧ a ≤ x ∧ x ≤ b ∧ |x - z| ≤ 2 * (ε * |x| + τ / 3) ∧ o.x = fin y ∧
      |y - z| ≤ 4 * (ε * |x| + τ / 3) := by
  obtain ⟨-, -, -, res, hr, rfl⟩ := optimize_ok h
  have h0 : 0 ≤ b - a := by linarith
  -- the invariant
  have key := loop_induct (fun s => ∃ l r x y, Br a b s l r x ∧ s.xcur = fin y ∧ l ≤ y ∧ y ≤ r ∧ s.fopt = fin (f x) ∧
    l ≤ z ∧ z ≤ r) ?_ _ _ _ ?_ hr
  · obtain ⟨l, r, x, y, hB, hy, y1, y2, hf, z1, z2⟩ := key
    have hres : res.2 = false := by
      simp only [finish] at hflag
      split at hflag
      · cases hflag
      · cases hh : res.2
        · rfl
        · rw [hh] at hflag; cases hflag
    have hstop : Fmin.cond (fin ε) (fin τ) res.1 = false := by
      clear hflag hB hf hy h
      revert hr
      generalize initial target (fin γ) (fin a) (fin b) = s
      generalize limit.toNat + 2 = n
      induction n generalizing s with
      | zero => intro hr; cases hr
      | succ n ih =>
        intro hr
        rw [loop] at hr
        split at hr
        · simp only at hr
          split at hr
          · cases hr; cases hres
          · exact ih _ hr
        · rename_i hc
          cases hr
          simpa using hc
    have hn := mt (cond_fin (ε := ε) (τ := τ) hB).mpr (by rw [hstop]; simp)
    rw [not_lt, max_le_iff] at hn
    refine ⟨x, y, hf, hB.al.trans hB.lx, hB.xr.trans hB.rb, ?_, hy, ?_⟩
    · rw [abs_le]; exact ⟨by linarith [hn.2], by linarith [hn.1]⟩
    · rw [abs_le]; constructor <;> linarith [hn.1, hn.2]
  · rintro s ⟨l, r, x, y, hB, -, -, -, hf, z1, z2⟩ hc
    obtain ⟨y, l', r', x', hB', hcur, hfo, y1, y2, y3, hcs⟩ := body_cases (target := target) hB hε hτ hγ hγ1 hc
    have hal := hB.al
    have hrb := hB.rb
    have hlx := hB.lx
    have hxr := hB.xr
    have hT : 0 < ε * |x| + τ / 3 := by have := mul_nonneg hε (abs_nonneg x); linarith
    have hty : target (fin y) = fin (f y) := ht y (by linarith) (by linarith)
    rw [hf, hty, ple_fin] at hfo
    rw [hf, hty, ple_fin] at hcs
    simp only [decide_eq_true_eq, decide_eq_false_iff_not] at hcs hfo
    refine ⟨l', r', x', y, hB', hcur, ?_⟩
    rcases hcs with ⟨hle, hlt, rfl, rfl, rfl⟩ | ⟨hle, hlt, rfl, rfl, rfl⟩ | ⟨hle, hlt, rfl, rfl, rfl⟩ | ⟨hle, hlt, rfl, rfl, rfl⟩
    · rw [if_pos hle] at hfo
      refine ⟨hlt.le, by linarith, hfo, ?_, z2⟩
      by_contra hz
      exact absurd (hu.rises _ _ (not_le.mp hz).le hlt (by linarith)) (not_lt.mpr hle)
    · rw [if_pos hle] at hfo
      refine ⟨by linarith, hlt.le, hfo, z1, ?_⟩
      by_contra hz
      exact absurd (hu.falls _ _ (by linarith) hlt (not_le.mp hz).le) (not_lt.mpr hle)
    · rw [if_neg hle] at hfo
      refine ⟨le_refl _, by linarith, hfo, ?_, z2⟩
      by_contra hz
      exact hle (hu.rises _ _ (not_le.mp hz).le hlt (by linarith)).le
    · rw [if_neg hle] at hfo
      refine ⟨by linarith, le_refl _, hfo, z1, ?_⟩
      by_contra hz
      exact hle (hu.falls _ _ (by linarith) hlt (not_le.mp hz).le).le
  · have g1 : a ≤ a + γ * (b - a) := by nlinarith
    have g2 : a + γ * (b - a) ≤ b := by nlinarith
    have hx : (initial target (fin γ) (fin a) (fin b)).xopt = fin (a + γ * (b - a)) := by simp [initial]
    have hf : (initial target (fin γ) (fin a) (fin b)).fopt = target (fin (a + γ * (b - a))) := by simp [initial]
    refine ⟨a, b, a + γ * (b - a), a + γ * (b - a), ⟨rfl, rfl, hx, le_refl _, g1, g2, le_refl _⟩, by simp [initial], g1, g2, ?_,
      hu.az, hu.zb⟩
    rw [hf, ht _ g1 g2]

/-- **C156**: `fminbound` on a target that falls strictly up to `z` and rises strictly after it, with a budget of at least
`3(upper − lower)/tolerance` evaluations: the call succeeds with flag 0, the reported value is the value at a point
within `2(ε|x| + tolerance/3)` of `z`, and the returned point is within twice that distance, where
`ε = √(2.2·10⁻¹⁶) < 1.5·10⁻⁸`. -/
theorem C156_minimum (target : Fl ℝ → Fl ℝ) (f : ℝ → ℝ) (a z b τ : ℝ) (limit : Int) (hτ : 0 < τ)
    (ht : ∀ x, a ≤ x → x ≤ b → target (fin x) = fin (f x)) (hu : Unimodal f a z b) (hlim : 3 * (b - a) ≤ limit * τ) :
    ∃ o x y, fminbound target (fin a) (fin b) (fin τ) limit = .ok (some o) ∧ o.flag = 0 ∧ o.fval = fin (f x) ∧ o.x = fin y ∧
      a ≤ x ∧ x ≤ b ∧ |x - z| ≤ 2 * (1.5e-8 * |x| + τ / 3) ∧ |y - z| ≤ 4 * (1.5e-8 * |x| + τ / 3) := by
  have hab : a ≤ b := hu.az.trans hu.zb
  obtain ⟨o, ho, hf1, -⟩ := C155_stops target a b τ limit hτ hab hlim
  have ho' := ho
  rw [fminbound_eq] at ho'
  have hs := sqrt5_bounds
  have hε : √(22 / 10 ^ 17 : ℝ) ≤ 1.5e-8 := by
    rw [Real.sqrt_le_left (by norm_num)]; norm_num
  have hin := C40_inside_bounds target a b τ limit hτ hab o ho
  have hflag : o.flag = 0 := by
    have hlast := returned_last _ _ _ _ _ _ _ _ ho'
    obtain ⟨-, -, -, res, hr, rfl⟩ := optimize_ok ho'
    -- all values seen are finite
    have key := loop_induct (fun s => ∃ l r x y v, Br a b s l r x ∧ s.fopt = fin y ∧ (s.ftemp = fin v ∨ s.ftemp = pinf)) ?_ _ _ _ ?_ hr
    · obtain ⟨l, r, x, y, v, hB, h1, h2⟩ := key
      simp only [finish] at hf1 ⊢
      have hnan : (PyNum.isNaN res.1.xopt || PyNum.isNaN res.1.fopt || PyNum.isNaN res.1.ftemp) = false := by
        rw [hB.xopt, h1]
        rcases h2 with h2 | h2 <;> rw [h2] <;> rfl
      rw [hnan] at hf1 ⊢
      simp only [Bool.false_eq_true, if_false] at hf1 ⊢
      split
      · rename_i hh; rw [if_pos hh] at hf1; exact absurd rfl hf1
      · rfl
    · rintro s ⟨l, r, x, y, v, hB, h1, -⟩ hc
      obtain ⟨y', l', r', x', hB', -, hfo, y1, y2, -, -⟩ := body_cases (target := target) hB (Real.sqrt_nonneg _) hτ
        (by linarith [hs.2] : 0 < (3 - √5) / 2) (by linarith [hs.1]) hc
      have hT : 0 < √(22 / 10 ^ 17 : ℝ) * |x| + τ / 3 := by positivity
      have hal := hB.al
      have hrb := hB.rb
      have hty := ht y' (by linarith) (by linarith)
      have hnp : ∃ e st, body target (fin (√(22 / 10 ^ 17))) (fin ((3 - √5) / 2)) (fin τ) s = update target s e st
        (nextPoint (fin (√(22 / 10 ^ 17))) (fin τ) s (chooseStep (fin (√(22 / 10 ^ 17))) (fin ((3 - √5) / 2)) (fin τ) s).2) := ⟨_, _, rfl⟩
      obtain ⟨w, hw, w1, w2, -⟩ := next_dist hB (Real.sqrt_nonneg (22 / 10 ^ 17)) hτ
        (by linarith [hs.2] : 0 < (3 - √5) / 2) (by linarith [hs.1]) hc
      have hft : (body target (fin (√(22 / 10 ^ 17))) (fin ((3 - √5) / 2)) (fin τ) s).ftemp = fin (f w) := by
        obtain ⟨e, st, he⟩ := hnp
        rw [he, update_ftemp, hw, ht w (by linarith) (by linarith)]
      rw [hty, h1] at hfo
      refine ⟨l', r', x', if f y' ≤ y then f y' else y, f w, hB', ?_, .inl hft⟩
      rw [hfo, ple_fin]
      by_cases hle : f y' ≤ y <;> simp [hle]
    · have g1 : a ≤ a + (3 - √5) / 2 * (b - a) := by nlinarith [hs.2]
      have g2 : a + (3 - √5) / 2 * (b - a) ≤ b := by nlinarith [hs.1]
      have hf : (initial target (fin ((3 - √5) / 2)) (fin a) (fin b)).fopt = target (fin (a + (3 - √5) / 2 * (b - a))) := by simp [initial]
      refine ⟨a, b, _, f (a + (3 - √5) / 2 * (b - a)), 0, ⟨rfl, rfl, by simp [initial], le_refl _, g1, g2, le_refl _⟩, ?_, .inr ?_⟩
      · rw [hf, ht _ g1 g2]
      · simp [initial, pdiv_fin', infSgn]
  obtain ⟨x, y, h1, h2, h3, h4, h5, h6⟩ := C156_core target f _ _ a z b τ limit (Real.sqrt_nonneg _)
    (by linarith [hs.2] : 0 < (3 - √5) / 2) (by linarith [hs.1]) hτ hab ht hu o ho' hflag
  have hm : √(22 / 10 ^ 17 : ℝ) * |x| ≤ 1.5e-8 * |x| := mul_le_mul_of_nonneg_right hε (abs_nonneg x)
  exact ⟨o, x, y, ho, hflag, h1, h5, h2, h3, by linarith, by linarith⟩

/-! ## The hypotheses are met -/

/-- `(x − 2)² + 1` on `[−1, 5]` falls up to 2 and rises after it -/
example : Unimodal (fun x : ℚ => (x - 2) ^ 2 + 1) (-1) 2 5 :=
  ⟨by norm_num, by norm_num, fun x y _ h1 h2 => by nlinarith, fun x y h0 h1 _ => by nlinarith⟩

/-- … and with tolerance 1/2 and the budget 36 = 3·6/(1/2) the run stops after 6 evaluations -/
example : (match optimize (fun x : Fl ℚ => ((x -. fin 2) ^. 2) +. fin 1) (fin (1 / 10 ^ 8)) (fin (382 / 1000)) (fin (-1))
    (fin 5) (fin (1 / 2)) 36 with
    | .ok (some o) => o.count == 6 && o.flag == 0
    | _ => false) = true := by
  decide +kernel

end Proadv.Props
