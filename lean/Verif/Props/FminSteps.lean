import Verif.Props.FminConv

/-!
# C239: how far `_optimize_within_bounds` moves in one pass
-/

set_option linter.unusedSectionVars false

namespace Proadv.Props

open Proadv Fl Fmin

variable {K : Type} [Field K] [LinearOrder K] [IsStrictOrderedRing K] [FloorRing K]

/-! ## Specification -/

/-- the loop variables after `n` passes, had the budget not ended the loop — optimize.py:220-324 -/
def passes (target : Fl K → Fl K) (ε γ a b τ : K) (n : ℕ) : St (Fl K) :=
  (body target (fin ε) (fin γ) (fin τ))^[n] (initial target (fin γ) (fin a) (fin b))

/-- the pass from `s` to `s'` evaluates the target at distance `d` from the best point so far -/
def Moves (s s' : St (Fl K)) (d : K) : Prop := ∃ x y, s.xopt = fin x ∧ s'.xcur = fin y ∧ d = |y - x|

/-- `L` is the distance from the best point to the farther end of the bracket -/
def Longer (s : St (Fl K)) (L : K) : Prop :=
  ∃ l r x, s.left = fin l ∧ s.right = fin r ∧ s.xopt = fin x ∧ L = max (x - l) (r - x)

/-- `T` is the least distance at which the target is evaluated from the best point -/
def LeastMove (ε τ : K) (s : St (Fl K)) (T : K) : Prop := ∃ x, s.xopt = fin x ∧ T = ε * |x| + τ / 3

/-! ## One pass -/

private theorem accepted_half {a b l r x e : K} {s : St (Fl K)} (h : Br a b s l r x) (he : s.e = fin e)
    (hacc : acceptable s = true) : ∃ σ, (parabola s).1 /. (parabola s).2 = fin σ ∧ |σ| ≤ |e| / 2 := by
  have hq : ∃ q0 : Fl K, (parabola s).2 = PyNum.abs q0 := ⟨_, rfl⟩
  replace hacc : ((PyNum.abs (parabola s).1 <. PyNum.abs ((lit (1 / 2) *. (parabola s).2) *. s.e)) &&
    (((parabola s).2 *. (s.left -. s.xopt)) <. (parabola s).1) &&
    ((parabola s).1 <. ((parabola s).2 *. (s.right -. s.xopt)))) = true := hacc
  rw [h.left, h.right, h.xopt, he] at hacc
  generalize (parabola s).1 = p at *
  generalize (parabola s).2 = q at *
  obtain ⟨q0, rfl⟩ := hq
  simp only [Bool.and_eq_true, psub_fin] at hacc
  obtain ⟨⟨h1, h2⟩, h3⟩ := hacc
  have he0 : 0 ≤ |e| / 2 := by have := abs_nonneg e; linarith
  cases p with
  | nan => simp at h1
  | pinf =>
    exfalso
    revert h1
    show ((pinf : Fl K) <. _) = true → False
    intro h1; cases hh : (PyNum.abs ((lit (1 / 2) *. PyNum.abs q0) *. fin e) : Fl K) <;> rw [hh] at h1 <;> cases h1
  | ninf =>
    exfalso
    revert h1
    show ((pinf : Fl K) <. _) = true → False
    intro h1; cases hh : (PyNum.abs ((lit (1 / 2) *. PyNum.abs q0) *. fin e) : Fl K) <;> rw [hh] at h1 <;> cases h1
  | fin P =>
    cases q0 with
    | nan => simp at h2
    | fin Q =>
      simp only [pabs_fin, lit_eq, pmul_fin, plt_fin, decide_eq_true_eq] at h1
      have hQ0 : |Q| ≠ 0 := by
        intro h0
        rw [h0] at h1
        simp at h1
        exact absurd h1 (not_lt.mpr (abs_nonneg P))
      have hQ : 0 < |Q| := lt_of_le_of_ne (abs_nonneg Q) (Ne.symm hQ0)
      refine ⟨P / |Q|, pdiv_fin hQ0, ?_⟩
      rw [abs_div, abs_abs, div_le_iff₀ hQ]
      rw [abs_mul, abs_mul, abs_abs] at h1
      push_cast at h1
      rw [abs_of_pos (by norm_num : (0 : K) < 1 / 2)] at h1
      nlinarith
    | pinf => exact ⟨0, rfl, by simpa using he0⟩
    | ninf => exact ⟨0, rfl, by simpa using he0⟩

private theorem next_disp {a b l r x ε τ σ : K} {s : St (Fl K)} (h : Br a b s l r x) (hT : 0 ≤ ε * |x| + τ / 3) :
    ∃ y, nextPoint (fin ε) (fin τ) s (fin σ) = fin y ∧ |y - x| = max |σ| (ε * |x| + τ / 3) := by
  refine ⟨x + (if σ < 0 then -1 else 1) * max |σ| (ε * |x| + τ / 3), ?_, ?_⟩
  · rw [nextPoint, dir_fin, tol1_fin h, pabs_fin, npMaximum_fin, h.xopt, pmul_fin, padd_fin]
  · have h0 : 0 ≤ max |σ| (ε * |x| + τ / 3) := le_max_of_le_right hT
    rw [add_sub_cancel_left, abs_mul, abs_of_nonneg h0]
    split <;> simp

/-- what one pass chooses: the golden section of the longer side, or an interpolated step at most half of `e` -/
private theorem choose_cases {a b l r x ε γ τ e : K} {s : St (Fl K)} (h : Br a b s l r x) (he : s.e = fin e)
    (hT : 0 ≤ ε * |x| + τ / 3) :
    (∃ L, |L| = max (x - l) (r - x) ∧ chooseStep (fin ε) (fin γ) (fin τ) s = (fin L, fin (γ * L))) ∨
    (ε * |x| + τ / 3 < |e| ∧ ∃ σ, chooseStep (fin ε) (fin γ) (fin τ) s = (s.step, fin σ) ∧
      |σ| ≤ max (|e| / 2) (ε * |x| + τ / 3)) := by
  have ht := tol1_fin (ε := ε) (τ := τ) h
  have hxc := xcentral_fin h
  have lx := h.lx
  have xr := h.xr
  unfold chooseStep
  split
  · rename_i hacc
    rw [Bool.and_eq_true] at hacc
    right
    refine ⟨?_, ?_⟩
    · have := hacc.1
      rw [ht, he] at this
      simpa using this
    · obtain ⟨σ, hσ, hs⟩ := accepted_half h he hacc.2
      have hps : parabolicStep (fin ε) (fin τ) s =
          if ((s.xopt +. ((parabola s).1 /. (parabola s).2) -. s.left) <. tol2 (fin ε) (fin τ) s)
          || ((s.right -. (s.xopt +. ((parabola s).1 /. (parabola s).2))) <. tol2 (fin ε) (fin τ) s) then
          tol1 (fin ε) (fin τ) s *. (npSign (xcentral s -. s.xopt) +. (if xcentral s ==. s.xopt then lit 1 else lit 0))
          else (parabola s).1 /. (parabola s).2 := rfl
      rw [hps]
      split
      · have hd := dir_fin ((l + r) / 2 - x)
        have hd' : npSign (fin ((l + r) / 2) -. fin x : Fl K) +.
            (if (fin ((l + r) / 2) : Fl K) ==. fin x then lit 1 else lit 0) = fin (if (l + r) / 2 - x < 0 then -1 else 1) := by
          rw [← hd, dir]
          simp only [psub_fin, peq_fin, lit_eq, decide_eq_true_eq, Rat.cast_zero, sub_eq_zero]
        rw [ht, hxc, h.xopt, hd', pmul_fin]
        refine ⟨_, rfl, ?_⟩
        rw [abs_mul, abs_of_nonneg hT]
        refine le_max_of_le_right ?_
        split <;> simp
      · rw [hσ]
        exact ⟨σ, rfl, le_max_of_le_left hs⟩
  · left
    by_cases hm : (l + r) / 2 ≤ x
    · have : goldenE s = fin (l - x) := by rw [goldenE, hxc, h.xopt, h.left]; simp [hm]
      rw [this, pmul_fin]
      exact ⟨l - x, by rw [abs_of_nonpos (by linarith), max_eq_left (by linarith)]; ring, rfl⟩
    · have : goldenE s = fin (r - x) := by rw [goldenE, hxc, h.xopt, h.right]; simp [hm]
      rw [this, pmul_fin]
      push Not at hm
      exact ⟨r - x, by rw [abs_of_nonneg (by linarith), max_eq_right (by linarith)], rfl⟩

private theorem update_e (target : Fl K → Fl K) (s : St (Fl K)) (e step x : Fl K) : (update target s e step x).e = e := by
  unfold update; simp only; split_ifs <;> rfl

private theorem update_step (target : Fl K → Fl K) (s : St (Fl K)) (e step x : Fl K) :
    (update target s e step x).step = step := by
  unfold update; simp only; split_ifs <;> rfl

/-- everything known about one pass of the loop -/
private theorem one_pass {a b l r x ε γ τ e st : K} {s : St (Fl K)} (target : Fl K → Fl K) (h : Br a b s l r x) (he : s.e = fin e)
    (hs : s.step = fin st) (hε : 0 ≤ ε) (hτ : 0 < τ) (hγ : 0 < γ) (hγ1 : γ ≤ 1 / 2)
    (hc : Fmin.cond (fin ε) (fin τ) s = true) :
    ∃ l' r' x' e' st' d, Br a b (body target (fin ε) (fin γ) (fin τ) s) l' r' x' ∧
      (body target (fin ε) (fin γ) (fin τ) s).e = fin e' ∧ (body target (fin ε) (fin γ) (fin τ) s).step = fin st' ∧
      Moves s (body target (fin ε) (fin γ) (fin τ) s) d ∧ |st'| ≤ d ∧
      ((|e'| = max (x - l) (r - x) ∧ d = max (γ * max (x - l) (r - x)) (ε * |x| + τ / 3)) ∨
       (ε * |x| + τ / 3 < |e| ∧ e' = st ∧ d ≤ max (|e| / 2) (ε * |x| + τ / 3))) := by
  have hT : 0 ≤ ε * |x| + τ / 3 := by have := mul_nonneg hε (abs_nonneg x); linarith
  obtain ⟨y, l', r', x', hB, hcur, -⟩ := body_cases (target := target) h hε hτ hγ hγ1 hc
  have hbe : (body target (fin ε) (fin γ) (fin τ) s).e = (chooseStep (fin ε) (fin γ) (fin τ) s).1 := by
    rw [body]; exact update_e _ _ _ _ _
  have hbs : (body target (fin ε) (fin γ) (fin τ) s).step = (chooseStep (fin ε) (fin γ) (fin τ) s).2 := by
    rw [body]; exact update_step _ _ _ _ _
  have hbx : (body target (fin ε) (fin γ) (fin τ) s).xcur =
      nextPoint (fin ε) (fin τ) s (chooseStep (fin ε) (fin γ) (fin τ) s).2 := by
    rw [body]; exact update_xcur _ _ _ _ _
  rcases choose_cases (γ := γ) h he hT with ⟨L, hL, hch⟩ | ⟨hlt, σ, hch, hσ⟩
  · rw [hch] at hbe hbs hbx
    obtain ⟨y', hy', hd⟩ := next_disp (σ := γ * L) h hT
    rw [abs_mul, hL, abs_of_pos hγ] at hd
    refine ⟨l', r', x', L, γ * L, _, hB, hbe, hbs, ⟨x, y', h.xopt, hbx.trans hy', rfl⟩, ?_, .inl ⟨hL, hd⟩⟩
    rw [hd, abs_mul, hL, abs_of_pos hγ]
    exact le_max_left _ _
  · rw [hch] at hbe hbs hbx
    obtain ⟨y', hy', hd⟩ := next_disp (σ := σ) h hT
    refine ⟨l', r', x', st, σ, _, hB, hbe.trans hs, hbs, ⟨x, y', h.xopt, hbx.trans hy', rfl⟩, ?_, .inr ⟨hlt, rfl, ?_⟩⟩
    · rw [hd]; exact le_max_left _ _
    · rw [hd]; exact max_le hσ (le_max_right _ _)

section run

variable {target : Fl K → Fl K} {ε γ a b τ : K}

private theorem passes_succ (n : ℕ) : passes target ε γ a b τ (n + 1) =
    body target (fin ε) (fin γ) (fin τ) (passes target ε γ a b τ n) := by
  rw [passes, Function.iterate_succ_apply']; rfl

private theorem passes_inv (hε : 0 ≤ ε) (hτ : 0 < τ) (hγ : 0 < γ) (hγ1 : γ ≤ 1 / 2) (hab : a ≤ b) (n : ℕ)
    (hc : ∀ i < n, Fmin.cond (fin ε) (fin τ) (passes target ε γ a b τ i) = true) :
    ∃ l r x e st, Br a b (passes target ε γ a b τ n) l r x ∧ (passes target ε γ a b τ n).e = fin e ∧
      (passes target ε γ a b τ n).step = fin st := by
  induction n with
  | zero =>
    have h0 : 0 ≤ b - a := by linarith
    exact ⟨a, b, a + γ * (b - a), 0, 0, ⟨rfl, rfl, by simp [passes, initial], le_refl _, by nlinarith, by nlinarith, le_refl _⟩,
      by simp [passes, initial], by simp [passes, initial]⟩
  | succ n ih =>
    obtain ⟨l, r, x, e, st, hB, he, hs⟩ := ih (fun i hi => hc i (by omega))
    obtain ⟨l', r', x', e', st', d, hB', he', hs', -⟩ := one_pass target hB he hs hε hτ hγ hγ1 (hc n (by omega))
    rw [passes_succ]
    exact ⟨l', r', x', e', st', hB', he', hs'⟩

/-- **C239** the first pass is a golden-section step: it evaluates the target in the longer part of the bracket. -/
theorem C239_first (hε : 0 ≤ ε) (hτ : 0 < τ) (hγ : 0 < γ) (hγ1 : γ ≤ 1 / 2) (hab : a ≤ b)
    (hc : Fmin.cond (fin ε) (fin τ) (passes target ε γ a b τ 0) = true) :
    ∃ d L T, Moves (passes target ε γ a b τ 0) (passes target ε γ a b τ 1) d ∧ Longer (passes target ε γ a b τ 0) L ∧
      LeastMove ε τ (passes target ε γ a b τ 0) T ∧ d = max (γ * L) T := by
  obtain ⟨l, r, x, e, st, hB, he, hs⟩ := passes_inv (target := target) hε hτ hγ hγ1 hab 0 (by intro i hi; omega)
  obtain ⟨l', r', x', e', st', d, hB', he', hs', hm, hst, hd⟩ := one_pass target hB he hs hε hτ hγ hγ1 hc
  have he0 : e = 0 := by
    have h2 : (passes target ε γ a b τ 0).e = fin 0 := by simp [passes, initial]
    rw [h2] at he; cases he; rfl
  refine ⟨d, _, _, by rw [passes_succ]; exact hm, ⟨l, r, x, hB.left, hB.right, hB.xopt, rfl⟩, ⟨x, hB.xopt, rfl⟩, ?_⟩
  rcases hd with ⟨-, hd⟩ | ⟨hlt, -⟩
  · exact hd
  · rw [he0, abs_zero] at hlt
    have := mul_nonneg hε (abs_nonneg x)
    linarith

/-- **C239** each later pass either takes the golden section of the longer part of the bracket, or moves at most half as far
as the pass before the previous one moved — at most half of the longer part of the previous bracket if the previous pass
was a golden-section step — or by the least distance allowed. -/
theorem C239_halving (hε : 0 ≤ ε) (hτ : 0 < τ) (hγ : 0 < γ) (hγ1 : γ ≤ 1 / 2) (hab : a ≤ b) (n : ℕ)
    (hc : ∀ i ≤ n + 2, Fmin.cond (fin ε) (fin τ) (passes target ε γ a b τ i) = true) :
    ∃ d₀ d₁ d₂ L₁ L₂ T₁ T₂,
      Moves (passes target ε γ a b τ n) (passes target ε γ a b τ (n + 1)) d₀ ∧
      Moves (passes target ε γ a b τ (n + 1)) (passes target ε γ a b τ (n + 2)) d₁ ∧
      Moves (passes target ε γ a b τ (n + 2)) (passes target ε γ a b τ (n + 3)) d₂ ∧
      Longer (passes target ε γ a b τ (n + 1)) L₁ ∧ Longer (passes target ε γ a b τ (n + 2)) L₂ ∧
      LeastMove ε τ (passes target ε γ a b τ (n + 1)) T₁ ∧ LeastMove ε τ (passes target ε γ a b τ (n + 2)) T₂ ∧
      (d₂ = max (γ * L₂) T₂ ∨ (d₁ = max (γ * L₁) T₁ ∧ d₂ ≤ max (L₁ / 2) T₂) ∨ d₂ ≤ max (d₀ / 2) T₂) := by
  obtain ⟨l, r, x, e, st, hB, he, hs⟩ := passes_inv (target := target) hε hτ hγ hγ1 hab n (fun i hi => hc i (by omega))
  obtain ⟨l₁, r₁, x₁, e₁, st₁, d₀, hB₁, he₁, hs₁, hm₀, hst₁, -⟩ := one_pass target hB he hs hε hτ hγ hγ1 (hc n (by omega))
  rw [← passes_succ] at hB₁ he₁ hs₁ hm₀
  obtain ⟨l₂, r₂, x₂, e₂, st₂, d₁, hB₂, he₂, hs₂, hm₁, hst₂, hd₁⟩ :=
    one_pass target hB₁ he₁ hs₁ hε hτ hγ hγ1 (hc (n + 1) (by omega))
  rw [← passes_succ] at hB₂ he₂ hs₂ hm₁
  obtain ⟨l₃, r₃, x₃, e₃, st₃, d₂, hB₃, he₃, hs₃, hm₂, hst₃, hd₂⟩ :=
    one_pass target hB₂ he₂ hs₂ hε hτ hγ hγ1 (hc (n + 2) (by omega))
  rw [← passes_succ] at hB₃ he₃ hs₃ hm₂
  refine ⟨d₀, d₁, d₂, _, _, _, _, hm₀, hm₁, hm₂, ⟨l₁, r₁, x₁, hB₁.left, hB₁.right, hB₁.xopt, rfl⟩,
    ⟨l₂, r₂, x₂, hB₂.left, hB₂.right, hB₂.xopt, rfl⟩, ⟨x₁, hB₁.xopt, rfl⟩, ⟨x₂, hB₂.xopt, rfl⟩, ?_⟩
  rcases hd₂ with ⟨-, h2⟩ | ⟨-, -, h2⟩
  · exact .inl h2
  · right
    rcases hd₁ with ⟨h1, h1'⟩ | ⟨-, h1, -⟩
    · rw [h1] at h2
      exact .inl ⟨h1', h2⟩
    · right
      rw [h1] at h2
      refine h2.trans (max_le_max ?_ le_rfl)
      linarith

/-- **C239** so in a stretch of passes without golden-section steps the distances are halved every other pass, down to the
least distance allowed anywhere between the bounds. -/
theorem C239_stretch (hε : 0 ≤ ε) (hτ : 0 < τ) (hγ : 0 < γ) (hγ1 : γ ≤ 1 / 2) (hab : a ≤ b) (n k : ℕ)
    (hc : ∀ i ≤ n + 2 * k, Fmin.cond (fin ε) (fin τ) (passes target ε γ a b τ i) = true)
    (hgold : ∀ i, n < i → i ≤ n + 2 * k → ∀ d L T, Moves (passes target ε γ a b τ i) (passes target ε γ a b τ (i + 1)) d →
      Longer (passes target ε γ a b τ i) L → LeastMove ε τ (passes target ε γ a b τ i) T → d ≠ max (γ * L) T) :
    ∃ d₀ d, Moves (passes target ε γ a b τ n) (passes target ε γ a b τ (n + 1)) d₀ ∧
      Moves (passes target ε γ a b τ (n + 2 * k)) (passes target ε γ a b τ (n + 2 * k + 1)) d ∧
      d ≤ max (d₀ / 2 ^ k) (ε * max |a| |b| + τ / 3) := by
  induction k with
  | zero =>
    obtain ⟨l, r, x, e, st, hB, he, hs⟩ := passes_inv (target := target) hε hτ hγ hγ1 hab n (fun i hi => hc i (by omega))
    obtain ⟨l₁, r₁, x₁, e₁, st₁, d₀, hB₁, he₁, hs₁, hm₀, -⟩ := one_pass target hB he hs hε hτ hγ hγ1 (hc n (by omega))
    rw [← passes_succ] at hm₀
    exact ⟨d₀, d₀, hm₀, hm₀, le_max_of_le_left (by simp)⟩
  | succ k ih =>
    obtain ⟨d₀, d, hm₀, hm, hd⟩ := ih (fun i hi => hc i (by omega)) (fun i h1 h2 => hgold i h1 (by omega))
    obtain ⟨e₀, e₁, e₂, L₁, L₂, T₁, T₂, k₀, k₁, k₂, hL₁, hL₂, hT₁, hT₂, h⟩ :=
      C239_halving (target := target) hε hτ hγ hγ1 hab (n + 2 * k) (fun i hi => hc i (by omega))
    have hde : e₀ = d := by
      obtain ⟨x, y, h1, h2, rfl⟩ := k₀
      obtain ⟨x', y', h1', h2', rfl⟩ := hm
      rw [h1] at h1'; rw [h2] at h2'
      cases h1'; cases h2'; rfl
    refine ⟨d₀, e₂, hm₀, k₂, ?_⟩
    rcases h with h | ⟨h, -⟩ | h
    · exact absurd h (hgold (n + 2 * k + 2) (by omega) (by omega) _ _ _ k₂ hL₂ hT₂)
    · exact absurd h (hgold (n + 2 * k + 1) (by omega) (by omega) _ _ _ k₁ hL₁ hT₁)
    · rw [hde] at h
      obtain ⟨l, r, x, e, st, hB, -⟩ :=
        passes_inv (target := target) hε hτ hγ hγ1 hab (n + 2 * k + 2) (fun i hi => hc i (by omega))
      obtain ⟨x', hx', rfl⟩ := hT₂
      rw [hB.xopt] at hx'
      cases hx'
      have hxm : |x| ≤ max |a| |b| := by
        have h1 : a ≤ x := hB.al.trans hB.lx
        have h2 : x ≤ b := hB.xr.trans hB.rb
        rw [abs_le]
        constructor
        · have := neg_abs_le a; have := le_max_left |a| |b|; linarith
        · have := le_abs_self b; have := le_max_right |a| |b|; linarith
      have hm0 : 0 ≤ ε * max |a| |b| + τ / 3 := by
        have := mul_nonneg hε (le_max_of_le_left (abs_nonneg a) : 0 ≤ max |a| |b|); linarith
      refine h.trans (max_le ?_ (le_max_of_le_right ?_))
      · have h1 : d / 2 ≤ max (d₀ / 2 ^ k) (ε * max |a| |b| + τ / 3) / 2 := by linarith
        refine h1.trans ?_
        rcases max_cases (d₀ / 2 ^ k) (ε * max |a| |b| + τ / 3) with ⟨h2, -⟩ | ⟨h2, -⟩ <;> rw [h2]
        · refine le_max_of_le_left (le_of_eq ?_)
          rw [pow_succ, div_div]
        · refine le_max_of_le_right ?_
          linarith
      · have := mul_le_mul_of_nonneg_left hxm hε
        linarith

end run

/-- **C239** the states `passes 0, passes 1, …` are those of the call: the reported evaluation points are the starting point
followed by the points the passes evaluate, and the loop condition held before each of them. -/
theorem C239_trace (target : Fl K → Fl K) (ε γ a b τ : K) (limit : Int) (o : Fmin.Out (Fl K))
    (h : optimize target (fin ε) (fin γ) (fin a) (fin b) (fin τ) limit = .ok (some o)) :
    ∃ m, o.evals = (List.range (m + 1)).map (fun i : ℕ => (passes target ε γ a b τ i).xcur) ∧
      ∀ i < m, Fmin.cond (fin ε) (fin τ) (passes target ε γ a b τ i) = true := by
  obtain ⟨-, -, -, r, hr, rfl⟩ := optimize_ok h
  have key : ∀ (n m : ℕ), (∀ i < m, Fmin.cond (fin ε) (fin τ) (passes target ε γ a b τ i) = true) →
      (passes target ε γ a b τ m).evals = (List.range (m + 1)).map (fun i : ℕ => (passes target ε γ a b τ i).xcur) →
      ∀ r, loop target (fin ε) (fin γ) (fin τ) limit n (passes target ε γ a b τ m) = some r →
      ∃ m, r.1.evals = (List.range (m + 1)).map (fun i : ℕ => (passes target ε γ a b τ i).xcur) ∧
        ∀ i < m, Fmin.cond (fin ε) (fin τ) (passes target ε γ a b τ i) = true := by
    intro n
    induction n with
    | zero => intro m _ _ r hr; cases hr
    | succ n ih =>
      intro m hm hev r hr
      rw [loop] at hr
      split at hr
      · rename_i hc
        have hm' : ∀ i < m + 1, Fmin.cond (fin ε) (fin τ) (passes target ε γ a b τ i) = true := by
          intro i hi
          rcases Nat.lt_succ_iff_lt_or_eq.mp hi with h | rfl
          · exact hm i h
          · exact hc
        have hev' : (passes target ε γ a b τ (m + 1)).evals =
            (List.range (m + 1 + 1)).map (fun i : ℕ => (passes target ε γ a b τ i).xcur) := by
          rw [List.range_succ, List.map_append, ← hev, passes_succ, body, update_evals]
          simp only [List.map_cons, List.map_nil]
          rw [passes_succ, body, update_xcur]
        simp only [← passes_succ] at hr
        split at hr
        · cases hr; exact ⟨m + 1, hev', hm'⟩
        · exact ih (m + 1) hm' hev' r hr
      · cases hr; exact ⟨m, hev, hm⟩
  exact key _ 0 (by intro i hi; omega) (by simp [passes, initial]) r hr

/-! ## The hypotheses are met: minimising `|x − 1/3|` on `[0, 1]` -/

/-- the target `|x − 1/3|` -/
private def vee : Fl ℚ → Fl ℚ := fun x => PyNum.abs (x -. fin (1 / 3))

/-- seven passes; the first is a golden-section step (2/5 of the longer part 3/5), the third is not: it moves from the
best point 2/5 to 61/175, that is by 9/175, while 2/5 of the longer part of `[6/25, 16/25]` is 12/125 -/
example : (∀ i ≤ 6, Fmin.cond (fin 0) (fin (1 / 100)) (passes vee 0 (2 / 5) 0 1 (1 / 100) i) = true) ∧
    (List.range 5).map (fun i : ℕ => (passes vee 0 (2 / 5) 0 1 (1 / 100) i).xcur) =
      [fin (2 / 5), fin (16 / 25), fin (6 / 25), fin (61 / 175), fin (803 / 2450)] ∧
    (passes vee 0 (2 / 5) 0 1 (1 / 100) 2).xopt = fin (2 / 5) ∧ (passes vee 0 (2 / 5) 0 1 (1 / 100) 2).left = fin (6 / 25) ∧
    (passes vee 0 (2 / 5) 0 1 (1 / 100) 2).right = fin (16 / 25) := by
  decide +kernel

end Proadv.Props
