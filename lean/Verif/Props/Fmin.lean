import Verif.Model.Fmin
import Verif.Lemmas.Fl
import Mathlib.Tactic.Linarith
import Mathlib.Tactic.Positivity
import Mathlib.Tactic.Ring

/-!
# C40–C43: `fminbound`
-/

set_option linter.unusedSectionVars false

namespace Proadv.Props

open Proadv Fmin Fl

/-! ## The loop terminates; counts -/

section generic

variable {F : Type} [PyNum F]

theorem update_count (target : F → F) (s : St F) (e step x : F) : (update target s e step x).count = s.count + 1 := by
  unfold update; simp only; split_ifs <;> rfl

theorem update_evals (target : F → F) (s : St F) (e step x : F) : (update target s e step x).evals = s.evals ++ [x] := by
  unfold update; simp only; split_ifs <;> rfl

theorem update_xcur (target : F → F) (s : St F) (e step x : F) : (update target s e step x).xcur = x := by
  unfold update; simp only; split_ifs <;> rfl

theorem update_ftemp (target : F → F) (s : St F) (e step x : F) : (update target s e step x).ftemp = target x := by
  unfold update; simp only; split_ifs <;> rfl

theorem update_fopt (target : F → F) (s : St F) (e step x : F) :
    (update target s e step x).fopt = if target x ≤. s.fopt then target x else s.fopt := by
  unfold update; simp only; split_ifs <;> rfl

theorem update_xopt (target : F → F) (s : St F) (e step x : F) :
    (update target s e step x).xopt = if target x ≤. s.fopt then x else s.xopt := by
  unfold update; simp only; split_ifs <;> rfl

theorem update_bounds (target : F → F) (s : St F) (e step x : F) :
    ((update target s e step x).left, (update target s e step x).right) =
      if target x ≤. s.fopt then (if s.xopt ≤. x then (s.xopt, s.right) else (s.left, s.xopt))
      else (if x <. s.xopt then (x, s.right) else (s.left, x)) := by
  unfold update; simp only; split_ifs <;> rfl

/-- the bound on the number of passes is never reached: the loop terminates for every target -/
theorem loop_fuel (target : F → F) (eps g tol : F) (limit : Int) (n : Nat) :
    ∀ s : St F, limit ≤ s.count + (n + 1 : Nat) → (loop target eps g tol limit (n + 1) s).isSome := by
  induction n with
  | zero =>
    intro s h
    rw [loop]
    split
    · simp only
      rw [if_pos (by rw [body, update_count]; push_cast at h ⊢; omega)]
      rfl
    · rfl
  | succ n ih =>
    intro s h
    rw [loop]
    split
    · simp only
      split
      · rfl
      · refine ih _ ?_
        rw [body, update_count]; push_cast at h ⊢; omega
    · rfl

/-- induction over the passes of the loop -/
theorem loop_induct {target : F → F} {eps g tol : F} {limit : Int} (P : St F → Prop)
    (hP : ∀ s, P s → Fmin.cond eps tol s = true → P (body target eps g tol s)) (n : Nat) :
    ∀ s r, P s → loop target eps g tol limit n s = some r → P r.1 := by
  induction n with
  | zero => intro s r _ h; cases h
  | succ n ih =>
    intro s r hs h
    rw [loop] at h
    split at h
    · rename_i hc
      simp only at h
      split at h
      · cases h; exact hP s hs hc
      · exact ih _ _ (hP s hs hc) h
    · cases h; exact hs

theorem loop_count {target : F → F} {eps g tol : F} {limit : Int} (n : Nat) :
    ∀ s r, 1 ≤ s.count → (s.count = 1 ∨ (s.count : Int) < limit) → loop target eps g tol limit n s = some r →
      (r.2 = true → 2 ≤ r.1.count ∧ limit ≤ r.1.count ∧ (r.1.count : Int) ≤ max 2 limit) ∧
      (r.2 = false → 1 ≤ r.1.count ∧ (r.1.count = 1 ∨ (r.1.count : Int) < limit)) := by
  induction n with
  | zero => intro s r _ _ h; cases h
  | succ n ih =>
    intro s r h1 h2 h
    have hcnt : (body target eps g tol s).count = s.count + 1 := by rw [body, update_count]
    rw [loop] at h
    split at h
    · simp only at h
      split at h
      · cases h
        rename_i hl
        simp only [hcnt] at hl ⊢
        push_cast at hl ⊢
        refine ⟨fun _ => ⟨by omega, hl, ?_⟩, by simp⟩
        rcases h2 with h2 | h2
        · rw [h2]; exact le_max_left _ _
        · exact le_trans (by omega) (le_max_right _ _)
      · rename_i hl
        exact ih _ _ (by omega) (Or.inr (not_le.mp hl)) h
    · cases h
      exact ⟨by simp, fun _ => ⟨h1, h2⟩⟩

/-- `fminbound` returns whenever it does not raise -/
theorem C42_terminates (target : F → F) (eps g lower upper tol : F) (limit : Int) :
    optimize target eps g lower upper tol limit = .error .valueError ∨
      ∃ o, optimize target eps g lower upper tol limit = .ok (some o) := by
  unfold optimize
  split
  · left; rfl
  · split
    · left; rfl
    · right
      have := loop_fuel target eps g tol limit (limit.toNat + 1) (initial target g lower upper) (by
        show limit ≤ ((1 : Nat) : Int) + _
        omega)
      obtain ⟨r, hr⟩ := Option.isSome_iff_exists.mp this
      exact ⟨finish r, by rw [hr]; rfl⟩

theorem optimize_ok {target : F → F} {eps g lower upper tol : F} {limit : Int} {o : Fmin.Out F}
    (h : optimize target eps g lower upper tol limit = .ok (some o)) :
    npIsFinite lower = true ∧ npIsFinite upper = true ∧ (upper <. lower) = false ∧ ∃ r,
      loop target eps g tol limit (limit.toNat + 2) (initial target g lower upper) = some r ∧ o = finish r := by
  unfold optimize at h
  split at h
  · cases h
  · rename_i h1
    split at h
    · cases h
    · rename_i h2
      simp only [Bool.not_eq_true, Bool.not_eq_false', Bool.and_eq_true] at h1 h2
      simp only [Except.ok.injEq, Option.map_eq_some_iff] at h
      obtain ⟨r, hr, rfl⟩ := h
      exact ⟨h1.1, h1.2, h2, r, hr, rfl⟩

/-- **C42**: for every target function (NaN values included, float64 rounding included): the reported count is the number
of target calls, at least 1 and at most `max(2, max_evaluations)`; the flag is 2 only for NaN, and otherwise it is 1
exactly when the budget was used up by the loop. -/
theorem C42_budget (target : F → F) (eps g lower upper tol : F) (limit : Int) (o : Fmin.Out F)
    (h : optimize target eps g lower upper tol limit = .ok (some o)) :
    o.count = o.evals.length ∧ 1 ≤ o.count ∧ (o.count : Int) ≤ max 2 limit ∧
    (o.flag = 0 ∨ o.flag = 1 ∨ o.flag = 2) ∧
    (o.flag ≠ 2 → (o.flag = 1 ↔ 2 ≤ o.count ∧ limit ≤ o.count)) := by
  obtain ⟨-, -, -, r, hr, rfl⟩ := optimize_ok h
  have hlen : r.1.count = r.1.evals.length := by
    refine loop_induct (fun s => s.count = s.evals.length) ?_ _ _ _ ?_ hr
    · intro s hs _
      rw [body, update_count, update_evals, hs]; simp
    · rfl
  obtain ⟨h1, h2⟩ := loop_count _ _ _ (by show 1 ≤ 1; exact le_refl 1) (Or.inl rfl) hr
  refine ⟨hlen, ?_, ?_, ?_, ?_⟩
  · show 1 ≤ r.1.count
    cases hb : r.2 with
    | true => have := h1 hb; omega
    | false => exact (h2 hb).1
  · show (r.1.count : Int) ≤ max 2 limit
    cases hb : r.2 with
    | true => exact (h1 hb).2.2
    | false =>
      rcases (h2 hb).2 with h | h
      · rw [h]; exact le_trans (by norm_num) (le_max_left _ _)
      · exact le_trans h.le (le_max_right _ _)
  · show (finish r).flag = 0 ∨ _
    simp only [finish]
    split_ifs <;> simp
  · intro hf
    simp only [finish] at hf ⊢
    split at hf
    · simp at hf
    · rename_i hn
      rw [if_neg hn]
      cases hb : r.2 with
      | true => have := h1 hb; simp [this.1, this.2.1]
      | false =>
        have := h2 hb
        simp only [Bool.false_eq_true, if_false]
        constructor
        · intro h; simp at h
        · rintro ⟨h3, h4⟩; omega

end generic

/-! ## Values at the exact instance -/

variable {K : Type} [Field K] [LinearOrder K] [IsStrictOrderedRing K] [FloorRing K]

theorem dir_fin (σ : K) : dir (fin σ : Fl K) = fin (if σ < 0 then -1 else 1) := by
  rcases lt_trichotomy σ 0 with h | h | h
  · have h' := h.ne
    simp [dir, npSign, h, h']
  · simp [dir, npSign, h]
  · have h' := h.ne'
    simp [dir, npSign, h, h', not_lt.mpr h.le]

theorem npMaximum_fin (a b : K) : npMaximum (fin a : Fl K) (fin b) = fin (max a b) := by
  by_cases h : b < a
  · simp [npMaximum, h, max_eq_left h.le]
  · simp [npMaximum, h, max_eq_right (not_lt.mp h)]

theorem npIsFinite_iff (x : Fl K) : npIsFinite x = true ↔ ∃ a, x = fin a := by
  cases x with
  | fin a => simp [npIsFinite]
  | nan => simp [npIsFinite]
  | pinf => simp [npIsFinite]; rfl
  | ninf => simp [npIsFinite]; rfl

/-- bracket part of the loop invariant -/
structure Br (a b : K) (s : St (Fl K)) (l r x : K) : Prop where
  left : s.left = fin l
  right : s.right = fin r
  xopt : s.xopt = fin x
  al : a ≤ l
  lx : l ≤ x
  xr : x ≤ r
  rb : r ≤ b

/-- an accepted parabolic step is finite and stays in the bracket, whatever the function values are -/
theorem accepted {a b l r x : K} {s : St (Fl K)} (h : Br a b s l r x) (hacc : acceptable s = true) :
    ∃ σ, (parabola s).1 /. (parabola s).2 = fin σ ∧ l - x ≤ σ ∧ σ ≤ r - x := by
  have hq : ∃ q0 : Fl K, (parabola s).2 = PyNum.abs q0 := ⟨_, rfl⟩
  replace hacc : ((PyNum.abs (parabola s).1 <. PyNum.abs ((lit (1 / 2) *. (parabola s).2) *. s.e)) &&
    (((parabola s).2 *. (s.left -. s.xopt)) <. (parabola s).1) &&
    ((parabola s).1 <. ((parabola s).2 *. (s.right -. s.xopt)))) = true := hacc
  rw [h.left, h.right, h.xopt] at hacc
  generalize (parabola s).1 = p at *
  generalize (parabola s).2 = q at *
  generalize s.e = e at *
  obtain ⟨q0, rfl⟩ := hq
  simp only [Bool.and_eq_true, psub_fin] at hacc
  obtain ⟨⟨h1, h2⟩, h3⟩ := hacc
  have lx := h.lx
  have xr := h.xr
  cases p with
  | nan => simp at h1
  | pinf =>
    exfalso
    revert h1
    show ((pinf : Fl K) <. _) = true → False
    intro h1; cases hh : (PyNum.abs ((lit (1 / 2) *. PyNum.abs q0) *. e) : Fl K) <;> rw [hh] at h1 <;> cases h1
  | ninf =>
    exfalso
    revert h1
    show ((pinf : Fl K) <. _) = true → False
    intro h1; cases hh : (PyNum.abs ((lit (1 / 2) *. PyNum.abs q0) *. e) : Fl K) <;> rw [hh] at h1 <;> cases h1
  | fin P =>
    have key : ∀ Q : K, 0 ≤ Q → (PyNum.abs (fin P : Fl K) <. PyNum.abs ((lit (1 / 2) *. fin Q) *. e)) = true →
        ((fin Q : Fl K) *. fin (l - x) <. fin P) = true → ((fin P : Fl K) <. fin Q *. fin (r - x)) = true →
        ∃ σ, (fin P : Fl K) /. fin Q = fin σ ∧ l - x ≤ σ ∧ σ ≤ r - x := by
      intro Q hQ k1 k2 k3
      have hQ0 : Q ≠ 0 := by
        rintro rfl
        revert k1
        simp only [lit_eq, pmul_fin, mul_zero]
        cases e with
        | nan => simp
        | fin e => simp
        | pinf => show ((fin |P| : Fl K) <. PyNum.abs (infSgn 0)) = true → False; simp [infSgn]
        | ninf => show ((fin |P| : Fl K) <. PyNum.abs (infSgn (-0))) = true → False; simp [infSgn]
      have hQ' : 0 < Q := lt_of_le_of_ne hQ (Ne.symm hQ0)
      simp only [pmul_fin, plt_fin, decide_eq_true_eq] at k2 k3
      refine ⟨P / Q, pdiv_fin hQ0, ?_, ?_⟩
      · rw [le_div_iff₀ hQ', mul_comm]; exact k2.le
      · rw [div_le_iff₀ hQ', mul_comm]; exact k3.le
    cases q0 with
    | nan => simp at h2
    | fin Q => exact key |Q| (abs_nonneg _) h1 h2 h3
    | pinf => exact ⟨0, rfl, by linarith, by linarith⟩
    | ninf => exact ⟨0, rfl, by linarith, by linarith⟩

theorem tol1_fin {a b l r x ε τ : K} {s : St (Fl K)} (h : Br a b s l r x) :
    tol1 (fin ε) (fin τ) s = fin (ε * |x| + τ / 3) := by
  rw [tol1, h.xopt]; simp [pdiv_fin]

theorem xcentral_fin {a b l r x : K} {s : St (Fl K)} (h : Br a b s l r x) : xcentral s = fin ((l + r) / 2) := by
  rw [xcentral, h.left, h.right]; simp; ring

/-- the point evaluated by the body lies in the bracket -/
theorem next_in {a b l r x ε γ τ : K} {s : St (Fl K)} (h : Br a b s l r x) (hε : 0 ≤ ε) (hτ : 0 < τ) (hγ : 0 < γ)
    (hγ1 : γ ≤ 1) (hc : Fmin.cond (fin ε) (fin τ) s = true) :
    ∃ y, nextPoint (fin ε) (fin τ) s (chooseStep (fin ε) (fin γ) (fin τ) s).2 = fin y ∧ l ≤ y ∧ y ≤ r := by
  have ht := tol1_fin (ε := ε) (τ := τ) h
  have hxc := xcentral_fin h
  set T := ε * |x| + τ / 3 with hT
  have hT0 : 0 < T := by have := mul_nonneg hε (abs_nonneg x); linarith
  have lx := h.lx
  have xr := h.xr
  have ht2 : tol2 (fin ε) (fin τ) s = fin (2 * T) := by rw [tol2, ht]; simp
  have hc' : 2 * T - (r - l) / 2 < |x - (l + r) / 2| := by
    rw [Fmin.cond, ht2, hxc, h.left, h.right, h.xopt] at hc
    simp at hc
    linarith
  -- the farther end is more than 2T away
  have far1 : (l + r) / 2 ≤ x → 2 * T < x - l := by
    intro h'; rw [abs_of_nonneg (by linarith)] at hc'; linarith
  have far2 : x ≤ (l + r) / 2 → 2 * T < r - x := by
    intro h'; rw [abs_of_nonpos (by linarith)] at hc'; linarith
  -- reduce to a statement on the step
  have red : ∀ σ : K, nextPoint (fin ε) (fin τ) s (fin σ) = fin (x + (if σ < 0 then -1 else 1) * max |σ| T) := by
    intro σ
    rw [nextPoint, dir_fin, ht, pabs_fin, npMaximum_fin, h.xopt, pmul_fin, padd_fin]
  have back : ∀ σ : K, σ < 0 → σ ≥ l - x → l - x ≤ -T → l ≤ x + -1 * max |σ| T ∧ x + -1 * max |σ| T ≤ r := by
    intro σ h1 h2 h3
    rw [abs_of_neg h1]
    rcases max_cases (-σ) T with ⟨h, _⟩ | ⟨h, _⟩ <;> rw [h] <;> constructor <;> linarith
  have forth : ∀ σ : K, 0 ≤ σ → σ ≤ r - x → T ≤ r - x → l ≤ x + 1 * max |σ| T ∧ x + 1 * max |σ| T ≤ r := by
    intro σ h1 h2 h3
    rw [abs_of_nonneg h1]
    rcases max_cases σ T with ⟨h, _⟩ | ⟨h, _⟩ <;> rw [h] <;> constructor <;> linarith
  have fin_step : ∀ σ : K, (σ < 0 → l - x ≤ σ ∧ l - x ≤ -T) → (0 ≤ σ → σ ≤ r - x ∧ T ≤ r - x) →
      ∃ y, nextPoint (fin ε) (fin τ) s (fin σ) = fin y ∧ l ≤ y ∧ y ≤ r := by
    intro σ h1 h2
    refine ⟨_, red σ, ?_⟩
    by_cases hs : σ < 0
    · rw [if_pos hs]; exact back σ hs (h1 hs).1 (h1 hs).2
    · rw [if_neg hs]; exact forth σ (not_lt.mp hs) (h2 (not_lt.mp hs)).1 (h2 (not_lt.mp hs)).2
  unfold chooseStep
  split
  · -- parabolic step
    rename_i hacc
    rw [Bool.and_eq_true] at hacc
    obtain ⟨σ, hσ, s1, s2⟩ := accepted h hacc.2
    show ∃ y, nextPoint (fin ε) (fin τ) s (parabolicStep (fin ε) (fin τ) s) = fin y ∧ _
    have hps : parabolicStep (fin ε) (fin τ) s =
        if x + σ - l < 2 * T ∨ r - (x + σ) < 2 * T then fin (T * (if (l + r) / 2 - x < 0 then -1 else 1)) else fin σ := by
      have : parabolicStep (fin ε) (fin τ) s = if ((s.xopt +. ((parabola s).1 /. (parabola s).2) -. s.left) <. tol2 (fin ε) (fin τ) s)
          || ((s.right -. (s.xopt +. ((parabola s).1 /. (parabola s).2))) <. tol2 (fin ε) (fin τ) s) then
          tol1 (fin ε) (fin τ) s *. (npSign (xcentral s -. s.xopt) +. (if xcentral s ==. s.xopt then lit 1 else lit 0))
          else (parabola s).1 /. (parabola s).2 := rfl
      rw [this, hσ, ht2, ht, hxc, h.left, h.right, h.xopt]
      have hd := dir_fin ((l + r) / 2 - x)
      have hd' : npSign (fin ((l + r) / 2) -. fin x : Fl K) +. (if (fin ((l + r) / 2) : Fl K) ==. fin x then lit 1 else lit 0)
          = fin (if (l + r) / 2 - x < 0 then -1 else 1) := by
        rw [← hd, dir]
        simp only [psub_fin, peq_fin, lit_eq, decide_eq_true_eq, Rat.cast_zero, sub_eq_zero]
      rw [hd']
      simp only [padd_fin, psub_fin, plt_fin, pmul_fin, Bool.or_eq_true, decide_eq_true_eq]
    rw [hps]
    split
    · by_cases hm : (l + r) / 2 - x < 0
      · rw [if_pos hm]
        have := far1 (by linarith)
        refine fin_step _ (fun _ => ⟨by linarith, by linarith⟩) (fun h' => ?_)
        linarith
      · rw [if_neg hm]
        have := far2 (by linarith)
        refine fin_step _ (fun h' => ?_) (fun _ => ⟨by linarith, by linarith⟩)
        linarith
    · rename_i hn
      push Not at hn
      by_cases hs : σ < 0
      · exact fin_step σ (fun _ => ⟨s1, by linarith⟩) (fun h' => absurd hs (not_lt.mpr h'))
      · exact fin_step σ (fun h' => absurd h' hs) (fun h' => ⟨s2, by linarith⟩)
  · -- golden section
    show ∃ y, nextPoint (fin ε) (fin τ) s (fin γ *. goldenE s) = fin y ∧ _
    by_cases hm : (l + r) / 2 ≤ x
    · have : goldenE s = fin (l - x) := by rw [goldenE, hxc, h.xopt, h.left]; simp [hm]
      rw [this, pmul_fin]
      have hf := far1 hm
      refine fin_step _ (fun _ => ⟨by nlinarith, by linarith⟩) (fun h' => ?_)
      nlinarith
    · have : goldenE s = fin (r - x) := by rw [goldenE, hxc, h.xopt, h.right]; simp [hm]
      rw [this, pmul_fin]
      have hf := far2 (not_le.mp hm).le
      refine fin_step _ (fun h' => ?_) (fun _ => ⟨by nlinarith, by linarith⟩)
      have := mul_nonneg hγ.le (show (0 : K) ≤ r - x by linarith)
      linarith

theorem body_bracket {a b l r x ε γ τ : K} {s : St (Fl K)} {target : Fl K → Fl K} (h : Br a b s l r x) (hε : 0 ≤ ε)
    (hτ : 0 < τ) (hγ : 0 < γ) (hγ1 : γ ≤ 1) (hc : Fmin.cond (fin ε) (fin τ) s = true) :
    ∃ y l' r' x', (body target (fin ε) (fin γ) (fin τ) s).evals = s.evals ++ [fin y] ∧
      (body target (fin ε) (fin γ) (fin τ) s).xcur = fin y ∧ a ≤ y ∧ y ≤ b ∧
      Br a b (body target (fin ε) (fin γ) (fin τ) s) l' r' x' := by
  obtain ⟨y, hy, y1, y2⟩ := next_in h hε hτ hγ hγ1 hc
  have hal := h.al
  have hrb := h.rb
  have hlx := h.lx
  have hxr := h.xr
  rw [body]
  simp only [hy]
  set e := (chooseStep (fin ε) (fin γ) (fin τ) s).1
  set st := (chooseStep (fin ε) (fin γ) (fin τ) s).2
  have hb := update_bounds target s e st (fin y)
  have hx := update_xopt target s e st (fin y)
  rw [h.xopt, h.left, h.right] at hb
  rw [h.xopt] at hx
  have hev := update_evals target s e st (fin y)
  have hcu := update_xcur target s e st (fin y)
  by_cases hf : (target (fin y) ≤. s.fopt) = true
  · rw [if_pos hf] at hb hx
    by_cases hle : x ≤ y
    · simp only [ple_fin, decide_eq_true_eq, hle, if_true, Prod.mk.injEq] at hb
      exact ⟨y, x, r, y, hev, hcu, by linarith, by linarith, hb.1, hb.2, hx, by linarith, hle, y2, hrb⟩
    · simp only [ple_fin, decide_eq_true_eq, hle, if_false, Prod.mk.injEq] at hb
      exact ⟨y, l, x, y, hev, hcu, by linarith, by linarith, hb.1, hb.2, hx, hal, y1, by linarith, by linarith⟩
  · rw [if_neg hf] at hb hx
    by_cases hlt : y < x
    · simp only [plt_fin, decide_eq_true_eq, hlt, if_true, Prod.mk.injEq] at hb
      exact ⟨y, y, r, x, hev, hcu, by linarith, by linarith, hb.1, hb.2, hx, by linarith, hlt.le, hxr, hrb⟩
    · simp only [plt_fin, decide_eq_true_eq, hlt, if_false, Prod.mk.injEq] at hb
      exact ⟨y, l, y, x, hev, hcu, by linarith, by linarith, hb.1, hb.2, hx, hal, hlx, by linarith, by linarith⟩

/-- **C40** for the routine with arbitrary constants `eps ≥ 0` and `0 < golden ≤ 1`: every evaluation point and the returned
point are finite and lie in `[lower, upper]`, whatever values (NaN and infinities included) the target returns. -/
theorem C40_core (target : Fl K → Fl K) (ε γ a b τ : K) (limit : Int) (hε : 0 ≤ ε) (hγ : 0 < γ) (hγ1 : γ ≤ 1)
    (hτ : 0 < τ) (hab : a ≤ b) (o : Fmin.Out (Fl K))
    (h : optimize target (fin ε) (fin γ) (fin a) (fin b) (fin τ) limit = .ok (some o)) :
    (∀ p ∈ o.evals, ∃ y, p = fin y ∧ a ≤ y ∧ y ≤ b) ∧ ∃ y, o.x = fin y ∧ a ≤ y ∧ y ≤ b := by
  obtain ⟨-, -, -, r, hr, rfl⟩ := optimize_ok h
  have key := loop_induct (fun s => (∃ l r x, Br a b s l r x) ∧ (∀ p ∈ s.evals, ∃ y, p = fin y ∧ a ≤ y ∧ y ≤ b) ∧
    ∃ y, s.xcur = fin y ∧ a ≤ y ∧ y ≤ b) ?_ _ _ _ ?_ hr
  · exact key.2
  · rintro s ⟨⟨l, r, x, hB⟩, h2, -⟩ hc
    obtain ⟨y, l', r', x', e1, e2, y1, y2, hB'⟩ := body_bracket (target := target) hB hε hτ hγ hγ1 hc
    refine ⟨⟨l', r', x', hB'⟩, ?_, y, e2, y1, y2⟩
    rw [e1]
    intro p hp
    rcases List.mem_append.mp hp with hp | hp
    · exact h2 p hp
    · exact ⟨y, by simpa using hp, y1, y2⟩
  · have h0 : 0 ≤ b - a := by linarith
    have g1 : a ≤ a + γ * (b - a) := by nlinarith
    have g2 : a + γ * (b - a) ≤ b := by nlinarith
    refine ⟨⟨a, b, a + γ * (b - a), rfl, rfl, ?_, le_refl _, g1, g2, le_refl _⟩, ?_, a + γ * (b - a), ?_, g1, g2⟩
    · simp [initial]
    · intro p hp
      exact ⟨a + γ * (b - a), by simpa [initial] using hp, g1, g2⟩
    · simp [initial]

theorem sqrt5_bounds : 2.23 < √(5 : ℝ) ∧ √(5 : ℝ) < 2.24 := by
  constructor
  · rw [Real.lt_sqrt (by norm_num)]; norm_num
  · rw [Real.sqrt_lt' (by norm_num)]; norm_num

/-- `fminbound` is `optimize` with these finite constants -/
theorem fminbound_eq (target : Fl ℝ → Fl ℝ) (lower upper tol : Fl ℝ) (limit : Int) :
    fminbound target lower upper tol limit =
      optimize target (fin (√(22 / 10 ^ 17))) (fin ((3 - √5) / 2)) lower upper tol limit := by
  have h5 : PyMath.sqrt (lit 5 : Fl ℝ) = fin (√5) := by
    rw [lit_eq, psqrt_fin (by norm_num)]; norm_num
  have he : PyMath.sqrt (lit (22 / 10 ^ 17) : Fl ℝ) = fin (√(22 / 10 ^ 17)) := by
    rw [lit_eq, psqrt_fin (by norm_num)]; norm_num
  rw [fminbound, h5, he, lit_eq, lit_eq, psub_fin, pmul_fin]
  congr 2
  push_cast
  ring

/-- **C40**: `fminbound` with `lower ≤ upper` and `tolerance > 0` evaluates its target only at points of
`[lower, upper]` and returns such a point — for every target (NaN and infinite values included) and every budget. -/
theorem C40_inside_bounds (target : Fl ℝ → Fl ℝ) (a b τ : ℝ) (limit : Int) (hτ : 0 < τ) (hab : a ≤ b)
    (o : Fmin.Out (Fl ℝ)) (h : fminbound target (fin a) (fin b) (fin τ) limit = .ok (some o)) :
    (∀ p ∈ o.evals, ∃ y, p = fin y ∧ a ≤ y ∧ y ≤ b) ∧ ∃ y, o.x = fin y ∧ a ≤ y ∧ y ≤ b := by
  rw [fminbound_eq] at h
  have := sqrt5_bounds
  exact C40_core target _ _ a b τ limit (Real.sqrt_nonneg _) (by linarith [this.2]) (by linarith [this.1]) hτ hab o h

/-- **C40**: which calls raise: exactly those with a non-finite bound or `lower > upper`. -/
theorem C40_value_error (target : Fl K → Fl K) (eps g lower upper tol : Fl K) (limit : Int) :
    optimize target eps g lower upper tol limit = .error .valueError ↔
      ¬ ∃ a b : K, lower = fin a ∧ upper = fin b ∧ a ≤ b := by
  unfold optimize
  by_cases h1 : npIsFinite lower = true
  · by_cases h2 : npIsFinite upper = true
    · obtain ⟨a, rfl⟩ := (npIsFinite_iff _).mp h1
      obtain ⟨b, rfl⟩ := (npIsFinite_iff _).mp h2
      simp only [h1, h2, Bool.and_self, Bool.not_true, Bool.false_eq_true, if_false, plt_fin, decide_eq_true_eq]
      split
      · rename_i hlt
        simp only [true_iff]
        rintro ⟨a', b', h3, h4, h5⟩
        cases h3; cases h4; exact absurd hlt (not_lt.mpr h5)
      · rename_i hlt
        simp only [reduceCtorEq, false_iff, not_not]
        exact ⟨a, b, rfl, rfl, not_lt.mp hlt⟩
    · have h2' : npIsFinite upper = false := by simpa using h2
      simp only [h2', Bool.and_false, Bool.not_false, if_true, true_iff]
      rintro ⟨a, b, -, rfl, -⟩
      exact h2 ((npIsFinite_iff _).mpr ⟨b, rfl⟩)
  · have h1' : npIsFinite lower = false := by simpa using h1
    simp only [h1', Bool.false_and, Bool.not_false, if_true, true_iff]
    rintro ⟨a, b, rfl, -, -⟩
    exact h1 ((npIsFinite_iff _).mpr ⟨a, rfl⟩)

/-! ### C41, C43 -/

theorem fl_le_refl {x : Fl K} (h : x ≠ nan) : (x ≤. x) = true := by
  cases x with
  | fin a => simp
  | nan => exact absurd rfl h
  | pinf => rfl
  | ninf => rfl

theorem fl_le_trans {x y z : Fl K} (h1 : (x ≤. y) = true) (h2 : (y ≤. z) = true) : (x ≤. z) = true := by
  cases x <;> cases y <;> cases z <;> first
    | rfl
    | exact Bool.noConfusion h1
    | exact Bool.noConfusion h2
    | (simp only [ple_fin, decide_eq_true_eq] at *; exact le_trans h1 h2)

theorem fl_le_of_not {x y : Fl K} (hx : x ≠ nan) (hy : y ≠ nan) (h : ¬ (x ≤. y) = true) : (y ≤. x) = true := by
  cases x <;> cases y <;> first
    | rfl
    | exact absurd rfl hx
    | exact absurd rfl hy
    | exact absurd rfl h
    | (simp only [ple_fin, decide_eq_true_eq] at *; exact (not_le.mp h).le)

theorem fl_le_antisymm {x y : Fl K} (h1 : (x ≤. y) = true) (h2 : (y ≤. x) = true) : x = y := by
  cases x <;> cases y <;> first
    | rfl
    | exact Bool.noConfusion h1
    | exact Bool.noConfusion h2
    | (simp only [ple_fin, decide_eq_true_eq] at *; rw [le_antisymm h1 h2])

/-- **C41** in every float arithmetic, rounded ones included: if `≤` orders the values of the target (as it does for floats
other than NaN), the reported function value is one of the values at the points evaluated and `≤` all of them. -/
theorem C41_any_float {F : Type} [PyNum F] (target : F → F) (hrefl : ∀ x, (target x ≤. target x) = true)
    (htrans : ∀ x y z, (target x ≤. target y) = true → (target y ≤. target z) = true → (target x ≤. target z) = true)
    (htotal : ∀ x y, ¬ (target x ≤. target y) = true → (target y ≤. target x) = true)
    (eps g lower upper tol : F) (limit : Int) (o : Fmin.Out F)
    (h : optimize target eps g lower upper tol limit = .ok (some o)) :
    (∃ y ∈ o.evals, o.fval = target y) ∧ ∀ y ∈ o.evals, (o.fval ≤. target y) = true := by
  obtain ⟨-, -, -, r, hr, rfl⟩ := optimize_ok h
  refine loop_induct (fun s => (∃ y ∈ s.evals, s.fopt = target y) ∧ ∀ y ∈ s.evals, (s.fopt ≤. target y) = true)
    ?_ _ _ _ ?_ hr
  · rintro s ⟨⟨y0, hy0, hf0⟩, h2⟩ -
    rw [body]
    set x := nextPoint eps tol s (chooseStep eps g tol s).2
    rw [update_evals, update_fopt]
    by_cases hle : (target x ≤. s.fopt) = true
    · rw [if_pos hle]
      refine ⟨⟨x, by simp, rfl⟩, ?_⟩
      intro y hy
      rcases List.mem_append.mp hy with hy | hy
      · rw [hf0] at hle; exact htrans _ _ _ hle (by rw [← hf0]; exact h2 y hy)
      · rw [show y = x by simpa using hy]; exact hrefl _
    · rw [if_neg hle]
      refine ⟨⟨y0, by simp [hy0], hf0⟩, ?_⟩
      intro y hy
      rcases List.mem_append.mp hy with hy | hy
      · exact h2 y hy
      · rw [show y = x by simpa using hy]
        rw [hf0] at hle ⊢; exact htotal _ _ hle
  · refine ⟨⟨_, by simp [initial], rfl⟩, ?_⟩
    intro y hy
    rw [show y = lower +. (g *. (upper -. lower)) by simpa [initial] using hy]
    exact hrefl _

/-- **C41**: for a target that never returns NaN, the reported function value is the least of the values at the points
evaluated: it is one of them and `≤` all of them. -/
theorem C41_least_value (target : Fl K → Fl K) (hn : ∀ x, target x ≠ nan) (eps g lower upper tol : Fl K) (limit : Int)
    (o : Fmin.Out (Fl K)) (h : optimize target eps g lower upper tol limit = .ok (some o)) :
    (∃ y ∈ o.evals, o.fval = target y) ∧ ∀ y ∈ o.evals, (o.fval ≤. target y) = true :=
  C41_any_float target (fun x => fl_le_refl (hn x)) (fun _ _ _ => fl_le_trans) (fun x y => fl_le_of_not (hn x) (hn y))
    eps g lower upper tol limit o h

/-- the returned point is the last point evaluated (any float type) -/
theorem returned_last {F : Type} [PyNum F] (target : F → F) (eps g lower upper tol : F) (limit : Int)
    (o : Fmin.Out F) (h : optimize target eps g lower upper tol limit = .ok (some o)) :
    o.evals.getLast? = some o.x := by
  obtain ⟨-, -, -, r, hr, rfl⟩ := optimize_ok h
  refine loop_induct (fun s => s.evals.getLast? = some s.xcur) ?_ _ _ _ ?_ hr
  · intro s _ _
    rw [body, update_evals, update_xcur]; simp
  · simp [initial]

/-- **C43** (part that holds): the returned point is the last one evaluated; its target value is the reported value
exactly when that last evaluation was at least as good as every earlier one.  Missing: the documented claim that this
is always so — see `C43_false`. -/
theorem C43_partial (target : Fl K → Fl K) (hn : ∀ x, target x ≠ nan) (eps g lower upper tol : Fl K) (limit : Int)
    (o : Fmin.Out (Fl K)) (h : optimize target eps g lower upper tol limit = .ok (some o)) :
    o.evals.getLast? = some o.x ∧
    (target o.x = o.fval ↔ ∀ y ∈ o.evals, (target o.x ≤. target y) = true) := by
  have hl := returned_last target eps g lower upper tol limit o h
  obtain ⟨⟨y, hy, hfy⟩, hmin⟩ := C41_least_value target hn eps g lower upper tol limit o h
  have hmem : o.x ∈ o.evals := List.mem_of_getLast? hl
  refine ⟨hl, ?_, ?_⟩
  · intro he; rw [he]; exact hmin
  · intro hall
    exact fl_le_antisymm (by rw [hfy]; exact hall y hy) (hmin _ hmem)

/-- **C43** is false as documented: minimising the identity on `[0, 1]` with a budget of two evaluations returns a point
whose target value differs from the reported `function_value`. -/
theorem C43_false : ∃ o, fminbound (fun x => x) (fin 0) (fin 1) (fin (1 / 10 ^ 5)) 2 = .ok (some o) ∧
    (fun x : Fl ℝ => x) o.x ≠ o.fval ∧ o.flag = 1 := by
  rw [fminbound_eq]
  obtain ⟨b1, b2⟩ := sqrt5_bounds
  have e0 : 0 ≤ √(22 / 10 ^ 17 : ℝ) := Real.sqrt_nonneg _
  have e1 : √(22 / 10 ^ 17 : ℝ) < 1 / 10 := by rw [Real.sqrt_lt' (by norm_num)]; norm_num
  set ε := √(22 / 10 ^ 17 : ℝ)
  set γ := (3 - √5) / 2 with hγ
  have g1 : 0.38 < γ := by rw [hγ]; linarith
  have g2 : γ < 0.385 := by rw [hγ]; linarith
  set s0 := initial (fun x : Fl ℝ => x) (fin γ) (fin 0) (fin 1) with hs0
  have hB : Br (0 : ℝ) 1 s0 0 1 γ := by
    refine ⟨rfl, rfl, ?_, le_refl _, by linarith, by linarith, le_refl _⟩
    rw [hs0]; simp [initial]
  have hfo : s0.fopt = fin γ := by rw [hs0]; simp [initial]
  have hT := tol1_fin (ε := ε) (τ := 1 / 10 ^ 5) hB
  rw [abs_of_pos (by linarith : 0 < γ)] at hT
  have hc := xcentral_fin hB
  have hTb : ε * γ + 1 / 10 ^ 5 / 3 < 0.1 := by nlinarith
  have hT0 : 0 < ε * γ + 1 / 10 ^ 5 / 3 := by positivity
  set T := ε * γ + 1 / 10 ^ 5 / 3
  have hcond : Fmin.cond (fin ε) (fin (1 / 10 ^ 5)) s0 = true := by
    rw [Fmin.cond, tol2, hT, hc, hB.left, hB.right, hB.xopt]
    simp only [lit_eq, pmul_fin, psub_fin, pabs_fin, plt_fin, decide_eq_true_eq]
    have := abs_nonneg (γ - (0 + 1) / 2)
    push_cast
    linarith
  have hstep : (chooseStep (fin ε) (fin γ) (fin (1 / 10 ^ 5)) s0).2 = fin (γ * (1 - γ)) := by
    have he : s0.e = fin 0 := by rw [hs0]; simp [initial]
    rw [chooseStep, hT, he]
    have : ¬ T < 0 := not_lt.mpr hT0.le
    have hm : ¬ ((0 + 1) / 2 : ℝ) ≤ γ := by norm_num; linarith
    simp only [pabs_fin, abs_zero, plt_fin, this, decide_false, Bool.false_and, Bool.false_eq_true,
      if_false, goldenE, hc, hB.xopt, hB.right, ple_fin, hm, psub_fin, pmul_fin]
  have hpt : nextPoint (fin ε) (fin (1 / 10 ^ 5)) s0 (fin (γ * (1 - γ))) = fin (γ + γ * (1 - γ)) := by
    have hp : 0 < γ * (1 - γ) := by nlinarith
    have hp' : T ≤ γ * (1 - γ) := by nlinarith
    rw [nextPoint, dir_fin, hT, pabs_fin, npMaximum_fin, hB.xopt, abs_of_pos hp, max_eq_left hp', if_neg (not_lt.mpr hp.le)]
    simp
  have hloop : loop (fun x : Fl ℝ => x) (fin ε) (fin γ) (fin (1 / 10 ^ 5)) 2 ((2 : Int).toNat + 2) s0 =
      some (body (fun x : Fl ℝ => x) (fin ε) (fin γ) (fin (1 / 10 ^ 5)) s0, true) := by
    show loop (fun x : Fl ℝ => x) (fin ε) (fin γ) (fin (1 / 10 ^ 5)) 2 (3 + 1) s0 = _
    rw [loop, if_pos hcond]
    simp only
    rw [if_pos]
    rw [body, update_count]
    show (2 : Int) ≤ ((1 + 1 : Nat) : Int)
    norm_num
  refine ⟨finish (body (fun x : Fl ℝ => x) (fin ε) (fin γ) (fin (1 / 10 ^ 5)) s0, true), ?_, ?_, ?_⟩
  · rw [optimize, ← hs0, hloop]
    simp [npIsFinite]
  · simp only [finish]
    rw [body, hstep, hpt, update_xcur, update_fopt, hfo]
    have : ¬ γ + γ * (1 - γ) ≤ γ := by nlinarith
    simp only [ple_fin, decide_eq_true_eq, this, if_false]
    intro h
    injection h with h
    nlinarith
  · simp only [finish]
    rw [body, hstep, hpt, update_xopt, update_fopt, update_ftemp, hfo, hB.xopt]
    have : ¬ γ + γ * (1 - γ) ≤ γ := by nlinarith
    simp [this]

/-! ## The hypotheses are met -/

/-- `(x - 2)² + 1` on `[-1, 5]` (the docstring example) with rational constants and a budget of 5 evaluations -/
example : (match optimize (fun x : Fl ℚ => ((x -. fin 2) ^. 2) +. fin 1) (fin (1 / 10 ^ 8)) (fin (382 / 1000)) (fin (-1))
    (fin 5) (fin (1 / 10 ^ 5)) 5 with
    | .ok (some o) => o.count == 5 && o.flag == 1 && o.evals.length == 5
    | _ => false) = true := by
  decide +kernel

/-- a run that stops by itself (flag 0) -/
example : (match optimize (fun x : Fl ℚ => PyNum.abs (x -. fin 2)) (fin (1 / 10 ^ 8)) (fin (382 / 1000)) (fin (-1))
    (fin 5) (fin 1) 500 with
    | .ok (some o) => o.flag == 0 && o.evals.length == o.count && 2 ≤ o.count
    | _ => false) = true := by
  decide +kernel

end Proadv.Props
