import Verif.Model.Brent
import Verif.Model.Fmin
import Verif.Lemmas.Fl
import Mathlib.Algebra.Order.Field.Basic
import Mathlib.Tactic.FieldSimp
import Mathlib.Tactic.Ring
import Mathlib.Tactic.Linarith

/-!
# C163–C164: `brentq` and `fminbound` do not depend on the units of their argument and of the function value
-/

set_option linter.unusedSectionVars false

namespace Proadv.Props

open Proadv Fl

variable {K : Type} [Field K] [LinearOrder K] [FloorRing K] [IsStrictOrderedRing K]

/-! ## C163: fminbound -/

namespace FminUnits

open Fmin

/-- multiplication by a positive constant, on floats -/
def scl (c : K) : Fl K → Fl K
  | fin a => fin (c * a)
  | x => x

/-- `k x + d` with `k > 0`, on floats -/
def aff (k d : K) : Fl K → Fl K
  | fin a => fin (k * a + d)
  | x => x

theorem infSgn_mul {c : K} (hc : 0 < c) (x : K) : infSgn (c * x) = infSgn x := by
  unfold infSgn
  rcases lt_trichotomy x 0 with h | h | h
  · rw [if_neg (mul_ne_zero hc.ne' h.ne), if_neg h.ne, if_neg (not_lt.mpr (mul_neg_of_pos_of_neg hc h).le), if_neg (not_lt.mpr h.le)]
  · subst h; simp
  · rw [if_neg (mul_ne_zero hc.ne' h.ne'), if_neg h.ne', if_pos (mul_pos hc h), if_pos h]

theorem scl_infSgn (c x : K) : scl c (infSgn x) = infSgn x := by
  unfold infSgn; split
  · rfl
  · split <;> rfl

theorem scl_add (c : K) (a b : Fl K) : scl c a +. scl c b = scl c (a +. b) := by
  cases a <;> cases b <;> first | rfl | exact congrArg fin (mul_add _ _ _).symm

theorem scl_sub (c : K) (a b : Fl K) : scl c a -. scl c b = scl c (a -. b) := by
  cases a <;> cases b <;> first | rfl | exact congrArg fin (mul_sub _ _ _).symm

theorem aff_sub (k d : K) (a b : Fl K) : aff k d a -. aff k d b = scl k (a -. b) := by
  cases a <;> cases b <;> first | rfl | exact congrArg fin (by ring)

theorem scl_neg (c : K) (a : Fl K) : PyNum.neg (scl c a) = scl c (PyNum.neg a) := by
  cases a <;> first | rfl | exact congrArg fin (by ring)

theorem scl_abs {c : K} (hc : 0 < c) (a : Fl K) : PyNum.abs (scl c a) = scl c (PyNum.abs a) := by
  cases a <;> first | rfl | exact congrArg fin (by rw [abs_mul, abs_of_pos hc])

theorem scl_mul {c k : K} (hc : 0 < c) (hk : 0 < k) (a b : Fl K) : scl c a *. scl k b = scl (c * k) (a *. b) := by
  cases a with
  | fin a =>
    cases b with
    | fin b => exact congrArg fin (by ring)
    | nan => rfl
    | pinf => change infSgn (c * a) = scl _ (infSgn a); rw [scl_infSgn, infSgn_mul hc]
    | ninf => change infSgn (-(c * a)) = scl _ (infSgn (-a)); rw [scl_infSgn, ← mul_neg, infSgn_mul hc]
  | nan => cases b <;> rfl
  | pinf =>
    cases b with
    | fin b => change infSgn (k * b) = scl _ (infSgn b); rw [scl_infSgn, infSgn_mul hk]
    | _ => rfl
  | ninf =>
    cases b with
    | fin b => change infSgn (-(k * b)) = scl _ (infSgn (-b)); rw [scl_infSgn, ← mul_neg, infSgn_mul hk]
    | _ => rfl

theorem scl_one (a : Fl K) : scl 1 a = a := by cases a <;> simp [scl]

theorem mul_scl {k : K} (hk : 0 < k) (a b : Fl K) : a *. scl k b = scl k (a *. b) := by
  have := scl_mul one_pos hk a b
  rwa [scl_one, one_mul] at this

theorem scl_mul_left {c : K} (hc : 0 < c) (a b : Fl K) : scl c a *. b = scl c (a *. b) := by
  have := scl_mul hc one_pos a b
  rwa [scl_one, mul_one] at this

theorem scl_div {c k : K} (hc : 0 < c) (hk : 0 < k) (a b : Fl K) : scl c a /. scl k b = scl (c / k) (a /. b) := by
  cases a with
  | fin a =>
    cases b with
    | fin b =>
      change (if k * b = 0 then infSgn (c * a) else fin (c * a / (k * b))) = scl _ (if b = 0 then infSgn a else fin (a / b))
      by_cases hb : b = 0
      · rw [if_pos (by rw [hb, mul_zero]), if_pos hb, scl_infSgn, infSgn_mul hc]
      · rw [if_neg (mul_ne_zero hk.ne' hb), if_neg hb]
        exact congrArg fin (by field_simp)
    | nan => rfl
    | pinf => exact congrArg fin (by ring)
    | ninf => exact congrArg fin (by ring)
  | nan => cases b <;> rfl
  | pinf =>
    cases b with
    | fin b =>
      change (if 0 ≤ k * b then pinf else ninf) = scl _ (if 0 ≤ b then pinf else ninf)
      by_cases hb : 0 ≤ b
      · rw [if_pos (mul_nonneg hk.le hb), if_pos hb]; rfl
      · rw [if_neg (not_le.mpr (mul_neg_of_pos_of_neg hk (not_le.mp hb))), if_neg hb]; rfl
    | _ => rfl
  | ninf =>
    cases b with
    | fin b =>
      change (if 0 ≤ k * b then ninf else pinf) = scl _ (if 0 ≤ b then ninf else pinf)
      by_cases hb : 0 ≤ b
      · rw [if_pos (mul_nonneg hk.le hb), if_pos hb]; rfl
      · rw [if_neg (not_le.mpr (mul_neg_of_pos_of_neg hk (not_le.mp hb))), if_neg hb]; rfl
    | _ => rfl

theorem scl_lt {c : K} (hc : 0 < c) (a b : Fl K) : (scl c a <. scl c b) = (a <. b) := by
  cases a <;> cases b <;> first | rfl | exact decide_eq_decide.mpr (mul_lt_mul_iff_right₀ hc)

theorem scl_le {c : K} (hc : 0 < c) (a b : Fl K) : (scl c a ≤. scl c b) = (a ≤. b) := by
  cases a <;> cases b <;> first | rfl | exact decide_eq_decide.mpr (mul_le_mul_iff_right₀ hc)

theorem scl_eq {c : K} (hc : 0 < c) (a b : Fl K) : (scl c a ==. scl c b) = (a ==. b) := by
  cases a <;> cases b <;> first | rfl | exact decide_eq_decide.mpr (mul_right_inj' hc.ne')

theorem aff_le {k : K} (hk : 0 < k) (d : K) (a b : Fl K) : (aff k d a ≤. aff k d b) = (a ≤. b) := by
  cases a <;> cases b <;>
    first | rfl | exact decide_eq_decide.mpr (by rw [add_le_add_iff_right, mul_le_mul_iff_right₀ hk])

theorem scl_isNaN (c : K) (a : Fl K) : PyNum.isNaN (scl c a) = PyNum.isNaN a := by cases a <;> rfl

theorem aff_isNaN (k d : K) (a : Fl K) : PyNum.isNaN (aff k d a) = PyNum.isNaN a := by cases a <;> rfl

theorem scl_zero (c : K) : scl c (lit 0 : Fl K) = lit 0 := by simp [scl]

theorem lt_zero {c : K} (hc : 0 < c) (a : Fl K) : (lit 0 <. scl c a) = (lit 0 <. a) := by
  rw [← scl_lt hc (lit 0) a, scl_zero]

theorem zero_lt {c : K} (hc : 0 < c) (a : Fl K) : (scl c a <. lit 0) = (a <. lit 0) := by
  rw [← scl_lt hc a (lit 0), scl_zero]

theorem eq_zero {c : K} (hc : 0 < c) (a : Fl K) : (scl c a ==. lit 0) = (a ==. lit 0) := by
  rw [← scl_eq hc a (lit 0), scl_zero]

theorem npSign_scl {c : K} (hc : 0 < c) (a : Fl K) : npSign (scl c a) = npSign a := by
  unfold npSign; rw [lt_zero hc, zero_lt hc, eq_zero hc]

theorem dir_scl {c : K} (hc : 0 < c) (a : Fl K) : dir (scl c a) = dir a := by
  unfold dir; rw [npSign_scl hc, eq_zero hc]

theorem scl_nan (c : K) : scl c (PyNum.nan : Fl K) = PyNum.nan := rfl

theorem scl_ite (c : K) (p : Prop) [Decidable p] (a b : Fl K) : (if p then scl c a else scl c b) = scl c (if p then a else b) := by
  split <;> rfl

theorem npMaximum_scl {c : K} (hc : 0 < c) (a b : Fl K) : npMaximum (scl c a) (scl c b) = scl c (npMaximum a b) := by
  unfold npMaximum
  rw [scl_isNaN, scl_isNaN, scl_lt hc, scl_ite]
  split <;> rfl

theorem npIsFinite_scl {c : K} (hc : 0 < c) (a : Fl K) : npIsFinite (scl c a) = npIsFinite a := by
  unfold npIsFinite; rw [scl_sub, eq_zero hc]

theorem scl_scl (c k : K) (a : Fl K) : scl c (scl k a) = scl (c * k) a := by
  cases a <;> first | rfl | exact congrArg fin (by ring)

/-- the same state in other units -/
def conv (c k d : K) (s : St (Fl K)) : St (Fl K) where
  left := scl c s.left
  right := scl c s.right
  xopt := scl c s.xopt
  xmid := scl c s.xmid
  xtmp := scl c s.xtmp
  e := scl c s.e
  step := scl c s.step
  xcur := scl c s.xcur
  fopt := aff k d s.fopt
  fmid := aff k d s.fmid
  fxtmp := aff k d s.fxtmp
  ftemp := aff k d s.ftemp
  count := s.count
  evals := s.evals.map (scl c)

variable {c k : K} (hc : 0 < c) (hk : 0 < k) (d : K)
include hc hk

theorem xcentral_conv (s : St (Fl K)) : xcentral (conv c k d s) = scl c (xcentral s) := by
  unfold xcentral conv
  simp only [scl_add, mul_scl hc]

theorem tol1_conv (eps tol : Fl K) (s : St (Fl K)) : tol1 eps (scl c tol) (conv c k d s) = scl c (tol1 eps tol s) := by
  unfold tol1 conv
  have : scl c tol /. lit 3 = scl c (tol /. lit 3) := by
    have := scl_div hc one_pos tol (lit 3)
    rwa [scl_one, div_one] at this
  simp only [scl_abs hc, mul_scl hc, this, scl_add]

theorem tol2_conv (eps tol : Fl K) (s : St (Fl K)) : tol2 eps (scl c tol) (conv c k d s) = scl c (tol2 eps tol s) := by
  unfold tol2; rw [tol1_conv hc hk, mul_scl hc]

theorem cond_conv (eps tol : Fl K) (s : St (Fl K)) : Fmin.cond eps (scl c tol) (conv c k d s) = Fmin.cond eps tol s := by
  unfold Fmin.cond
  rw [tol2_conv hc hk, xcentral_conv hc hk]
  simp only [conv, scl_sub, mul_scl hc, scl_abs hc, scl_lt hc]

theorem parabola_conv (s : St (Fl K)) :
    parabola (conv c k d s) = (scl (c * (c * k)) (parabola s).1, scl (c * k) (parabola s).2) := by
  have hck : 0 < c * k := mul_pos hc hk
  unfold parabola conv
  simp only [scl_sub, aff_sub, scl_mul hc hk, scl_mul hc hck, mul_scl hck, scl_abs hck, scl_neg, lt_zero hck, scl_ite]

theorem acceptable_conv (s : St (Fl K)) : acceptable (conv c k d s) = acceptable s := by
  have hck : 0 < c * k := mul_pos hc hk
  have hcck : 0 < c * (c * k) := mul_pos hc hck
  unfold acceptable
  rw [parabola_conv hc hk]
  simp only [conv, scl_sub, mul_scl hck, scl_mul hck hc, mul_comm (c * k) c, scl_abs hcck, scl_lt hcck]

theorem parabolicStep_conv (eps tol : Fl K) (s : St (Fl K)) :
    parabolicStep eps (scl c tol) (conv c k d s) = scl c (parabolicStep eps tol s) := by
  have hck : 0 < c * k := mul_pos hc hk
  have hcck : 0 < c * (c * k) := mul_pos hc hck
  unfold parabolicStep
  rw [parabola_conv hc hk, tol2_conv hc hk, tol1_conv hc hk, xcentral_conv hc hk]
  have e : c * (c * k) / (c * k) = c := by field_simp
  simp only [scl_div hcck hck, e, conv, scl_add, scl_sub, scl_lt hc, npSign_scl hc, scl_eq hc, scl_mul_left hc, scl_ite]

theorem goldenE_conv (s : St (Fl K)) : goldenE (conv c k d s) = scl c (goldenE s) := by
  unfold goldenE
  rw [xcentral_conv hc hk]
  simp only [conv, scl_le hc, scl_sub, scl_ite]

theorem chooseStep_conv (eps g tol : Fl K) (s : St (Fl K)) : chooseStep eps g (scl c tol) (conv c k d s) =
    (scl c (chooseStep eps g tol s).1, scl c (chooseStep eps g tol s).2) := by
  unfold chooseStep
  rw [tol1_conv hc hk, acceptable_conv hc hk, parabolicStep_conv hc hk, goldenE_conv hc hk, mul_scl hc]
  have : PyNum.abs (conv c k d s).e = scl c (PyNum.abs s.e) := scl_abs hc _
  rw [this, scl_lt hc]
  split <;> rfl

theorem nextPoint_conv (eps tol : Fl K) (s : St (Fl K)) (step : Fl K) :
    nextPoint eps (scl c tol) (conv c k d s) (scl c step) = scl c (nextPoint eps tol s step) := by
  unfold nextPoint
  rw [tol1_conv hc hk, dir_scl hc, scl_abs hc, npMaximum_scl hc, mul_scl hc]
  exact scl_add _ _ _

theorem update_conv (f f' : Fl K → Fl K) (hf : ∀ x, f' (scl c x) = aff k d (f x)) (s : St (Fl K)) (e step x : Fl K) :
    update f' (conv c k d s) (scl c e) (scl c step) (scl c x) = conv c k d (update f s e step x) := by
  unfold update
  simp only [hf]
  have h1 : (aff k d (f x) ≤. (conv c k d s).fopt) = (f x ≤. s.fopt) := aff_le hk d _ _
  have h2 : ((conv c k d s).xopt ≤. scl c x) = (s.xopt ≤. x) := scl_le hc _ _
  have h3 : (scl c x <. (conv c k d s).xopt) = (x <. s.xopt) := scl_lt hc _ _
  have h4 : (aff k d (f x) ≤. (conv c k d s).fxtmp) = (f x ≤. s.fxtmp) := aff_le hk d _ _
  have h5 : (aff k d (f x) ≤. (conv c k d s).fmid) = (f x ≤. s.fmid) := aff_le hk d _ _
  have h6 : ((conv c k d s).xtmp ==. (conv c k d s).xopt) = (s.xtmp ==. s.xopt) := scl_eq hc _ _
  have h7 : ((conv c k d s).xmid ==. (conv c k d s).xopt) = (s.xmid ==. s.xopt) := scl_eq hc _ _
  have h8 : ((conv c k d s).xmid ==. (conv c k d s).xtmp) = (s.xmid ==. s.xtmp) := scl_eq hc _ _
  rw [h1]
  cases f x ≤. s.fopt with
  | true =>
    simp only [if_true, h2]
    cases s.xopt ≤. x <;> simp [conv]
  | false =>
    simp only [Bool.false_eq_true, if_false, h3]
    cases x <. s.xopt
    all_goals
      simp only [Bool.false_eq_true, if_false, if_true, h4, h5, h6, h7, h8]
      cases (f x ≤. s.fxtmp) <;> cases (s.xtmp ==. s.xopt) <;> cases (f x ≤. s.fmid) <;> cases (s.xmid ==. s.xopt) <;>
        cases (s.xmid ==. s.xtmp) <;> simp [conv]

theorem body_conv (f f' : Fl K → Fl K) (hf : ∀ x, f' (scl c x) = aff k d (f x)) (eps g tol : Fl K) (s : St (Fl K)) :
    body f' eps g (scl c tol) (conv c k d s) = conv c k d (body f eps g tol s) := by
  unfold body
  rw [chooseStep_conv hc hk]
  simp only
  rw [nextPoint_conv hc hk, update_conv hc hk d f f' hf]

theorem loop_conv (f f' : Fl K → Fl K) (hf : ∀ x, f' (scl c x) = aff k d (f x)) (eps g tol : Fl K) (limit : Int) (n : Nat) :
    ∀ s : St (Fl K), loop f' eps g (scl c tol) limit n (conv c k d s) =
      (loop f eps g tol limit n s).map (fun r => (conv c k d r.1, r.2)) := by
  induction n with
  | zero => intro s; rfl
  | succ n ih =>
    intro s
    unfold loop
    rw [cond_conv hc hk, body_conv hc hk d f f' hf]
    cases Fmin.cond eps tol s with
    | false => rfl
    | true =>
      simp only [if_true]
      have : (conv c k d (body f eps g tol s)).count = (body f eps g tol s).count := rfl
      rw [this]
      split
      · rfl
      · exact ih _

theorem initial_conv (f f' : Fl K → Fl K) (hf : ∀ x, f' (scl c x) = aff k d (f x)) (g lower upper : Fl K) :
    initial f' g (scl c lower) (scl c upper) = conv c k d (initial f g lower upper) := by
  unfold initial
  simp only [scl_sub, mul_scl hc, scl_add, hf]
  have e : (lit 1 /. lit 0 : Fl K) = pinf := by
    simp [Fl.lit_eq, Fl.pdiv_fin', infSgn]
  simp only [conv, e, scl_zero, List.map_cons, List.map_nil]
  rfl

end FminUnits

open FminUnits in
/-- the report of `fminbound` in other units: positions times `c`, values `k v + d`; flag and number of evaluations unchanged -/
def convOut (c k d : K) (o : Fmin.Out (Fl K)) : Fmin.Out (Fl K) :=
  ⟨fin c *. o.x, fin k *. o.fval +. fin d, o.flag, o.count, o.evals.map (fun x => fin c *. x)⟩

open FminUnits in
theorem scl_mul_eq {c : K} (hc : 0 < c) (x : Fl K) : fin c *. x = scl c x := by
  cases x with
  | fin a => rfl
  | nan => rfl
  | pinf => change infSgn c = _; simp [infSgn, hc, hc.ne', scl]
  | ninf => change infSgn (-c) = _; simp [infSgn, hc.ne', scl, hc.le]

open FminUnits in
theorem aff_eq {k : K} (hk : 0 < k) (d : K) (x : Fl K) : fin k *. x +. fin d = aff k d x := by
  rw [scl_mul_eq hk]; cases x <;> rfl

open FminUnits in
/-- **C163** `_optimize_within_bounds` commutes with changes of units: expressing positions in another unit (`x ↦ c x`, bounds and
tolerance included) and values in another unit and zero (`v ↦ k v + d`), `c, k > 0`, changes the report in exactly that way —
for every target, with NaN and infinite values too. -/
theorem C163_core (target : Fl K → Fl K) (eps g lower upper tol : Fl K) (limit : Int) (c k d : K) (hc : 0 < c) (hk : 0 < k) :
    Fmin.optimize (fun x => fin k *. target (x /. fin c) +. fin d) eps g (fin c *. lower) (fin c *. upper) (fin c *. tol) limit =
      (Fmin.optimize target eps g lower upper tol limit).map (Option.map (convOut c k d)) := by
  have hf : ∀ x, (fun x => fin k *. target (x /. fin c) +. fin d) (scl c x) = aff k d (target x) := by
    intro x
    simp only
    rw [aff_eq hk]
    congr 2
    have h1 : (fin c : Fl K) = scl c (fin 1) := congrArg fin (mul_one c).symm
    rw [h1, scl_div hc hc, div_self hc.ne', scl_one]
    cases x with
    | fin a => change (if (1 : K) = 0 then _ else fin (a / 1)) = _; simp
    | nan => rfl
    | pinf => change (if (0 : K) ≤ 1 then _ else _) = _; simp
    | ninf => change (if (0 : K) ≤ 1 then _ else _) = _; simp
  unfold Fmin.optimize
  simp only [scl_mul_eq hc]
  rw [npIsFinite_scl hc, npIsFinite_scl hc, scl_lt hc]
  split
  · rfl
  split
  · rfl
  rw [initial_conv hc hk d target _ hf, loop_conv hc hk d target _ hf]
  simp only [Except.map, Option.map_map]
  congr 2
  funext r
  simp only [Function.comp, Fmin.finish, conv, convOut, scl_isNaN, aff_isNaN, aff_eq hk, scl_mul_eq hc]

/-- **C163** the same for `fminbound` itself. -/
theorem C163_fminbound (target : Fl ℝ → Fl ℝ) (lower upper tol : Fl ℝ) (limit : Int) (c k d : ℝ) (hc : 0 < c) (hk : 0 < k) :
    Fmin.fminbound (fun x => fin k *. target (x /. fin c) +. fin d) (fin c *. lower) (fin c *. upper) (fin c *. tol) limit =
      (Fmin.fminbound target lower upper tol limit).map (Option.map (convOut c k d)) :=
  C163_core target _ _ lower upper tol limit c k d hc hk

/-! ## C164: brentq -/

namespace BrentUnits

open Brent

/-- `t` is `s` in other units (`x ↦ c x`, `f ↦ k f`); of the two step sizes only the magnitude matters -/
structure Rel (c k : K) (s t : St K) : Prop where
  xpre : t.xpre = c * s.xpre
  xcur : t.xcur = c * s.xcur
  xblk : t.xblk = c * s.xblk
  fpre : t.fpre = k * s.fpre
  fcur : t.fcur = k * s.fcur
  fblk : t.fblk = k * s.fblk
  spre : |t.spre| = |c| * |s.spre|
  scur : |t.scur| = |c| * |s.scur|

theorem sign_scale {k : K} (hk : k ≠ 0) (a b : K) :
    SignType.sign (k * a) = SignType.sign (k * b) ↔ SignType.sign a = SignType.sign b := by
  rw [sign_mul, sign_mul]
  have : SignType.sign k ≠ 0 := sign_ne_zero.mpr hk
  revert this
  generalize SignType.sign k = p
  generalize SignType.sign a = q
  generalize SignType.sign b = r
  revert p q r
  decide

variable {c k : K} (hc : c ≠ 0) (hk : k ≠ 0)
include hc hk

theorem rebracket_rel {s t : St K} (h : Rel c k s t) : Rel c k (rebracket s) (rebracket t) := by
  have hsg : SignType.sign t.fpre = SignType.sign t.fcur ↔ SignType.sign s.fpre = SignType.sign s.fcur := by
    rw [h.fpre, h.fcur, sign_scale hk]
  unfold rebracket
  by_cases hs : SignType.sign s.fpre = SignType.sign s.fcur
  · rw [if_neg (not_not.mpr hs), if_neg (not_not.mpr (hsg.mpr hs))]; exact h
  · rw [if_pos hs, if_pos (fun h' => hs (hsg.mp h'))]
    have e : |t.xcur - t.xpre| = |c| * |s.xcur - s.xpre| := by rw [h.xcur, h.xpre, ← mul_sub, abs_mul]
    exact ⟨h.xpre, h.xcur, h.xpre, h.fpre, h.fcur, h.fpre, e, e⟩

theorem swap_rel {s t : St K} (h : Rel c k s t) : Rel c k (swap s) (swap t) := by
  have hk' : 0 < |k| := abs_pos.mpr hk
  have hsg : |t.fblk| < |t.fcur| ↔ |s.fblk| < |s.fcur| := by
    rw [h.fblk, h.fcur, abs_mul, abs_mul, mul_lt_mul_iff_right₀ hk']
  unfold swap
  by_cases hs : |s.fblk| < |s.fcur|
  · rw [if_pos hs, if_pos (hsg.mpr hs)]
    exact ⟨h.xcur, h.xblk, h.xcur, h.fcur, h.fblk, h.fcur, h.spre, h.scur⟩
  · rw [if_neg hs, if_neg (fun h' => hs (hsg.mp h'))]
    exact h

theorem delta_rel {s t : St K} (xtol rtol : K) (h : Rel c k s t) : delta (|c| * xtol) rtol t = |c| * delta xtol rtol s := by
  unfold delta; rw [h.xcur, abs_mul]; ring

theorem sbis_rel {s t : St K} (h : Rel c k s t) : sbis t = c * sbis s := by
  unfold sbis; rw [h.xcur, h.xblk]; ring

theorem pdiv_rel {m : K} (hm : m ≠ 0) (l a b : K) : pdiv (l * a) (m * b) = (pdiv a b).map (fun x => l / m * x) := by
  unfold pdiv
  by_cases hb : b = 0
  · rw [if_pos (by rw [hb, mul_zero]), if_pos hb]; rfl
  · rw [if_neg (mul_ne_zero hm hb), if_neg hb]
    simp only [Except.map]
    congr 1
    field_simp

omit hc hk in
/-- the interpolation step of `steps` -/
def trial (s : St K) : Py K :=
  if s.xpre = s.xblk then pdiv (-s.fcur * (s.xcur - s.xpre)) (s.fcur - s.fpre)
  else (pdiv (s.fpre - s.fcur) (s.xpre - s.xcur)).bind fun dpre =>
    (pdiv (s.fblk - s.fcur) (s.xblk - s.xcur)).bind fun dblk =>
      pdiv (-s.fcur * (s.fblk * dblk - s.fpre * dpre)) (dblk * dpre * (s.fblk - s.fpre))

omit hc hk in
theorem steps_eq (xtol rtol : K) (s : St K) : steps xtol rtol s =
    if delta xtol rtol s < |s.spre| ∧ |s.fcur| < |s.fpre| then (trial s).bind fun stry =>
      if 2 * |stry| < min |s.spre| (3 * |sbis s| - delta xtol rtol s) then .ok (s.scur, stry) else .ok (sbis s, sbis s)
    else .ok (sbis s, sbis s) := by
  unfold steps trial
  by_cases h1 : delta xtol rtol s < |s.spre| ∧ |s.fcur| < |s.fpre|
  · by_cases h2 : s.xpre = s.xblk
    · simp only [h1, h2, if_true]; rfl
    · simp only [h1, h2, if_false, bind, Except.bind]
      cases pdiv (s.fpre - s.fcur) (s.xpre - s.xcur) with
      | error e => rfl
      | ok y => cases pdiv (s.fblk - s.fcur) (s.xblk - s.xcur) <;> rfl
  · rw [if_neg h1, if_neg h1]

theorem trial_rel {s t : St K} (h : Rel c k s t) : trial t = (trial s).map (fun x => c * x) := by
  have e2 : t.xpre = t.xblk ↔ s.xpre = s.xblk := by rw [h.xpre, h.xblk, mul_right_inj' hc]
  unfold trial
  by_cases hx : s.xpre = s.xblk
  · rw [if_pos hx, if_pos (e2.mpr hx), h.fcur, h.xcur, h.xpre, h.fpre,
      show -(k * s.fcur) * (c * s.xcur - c * s.xpre) = (k * c) * (-s.fcur * (s.xcur - s.xpre)) by ring,
      show k * s.fcur - k * s.fpre = k * (s.fcur - s.fpre) by ring, pdiv_rel hc hk hk]
    congr 1; funext x; field_simp
  · rw [if_neg hx, if_neg (fun h' => hx (e2.mp h'))]
    have d1 : pdiv (t.fpre - t.fcur) (t.xpre - t.xcur) = (pdiv (s.fpre - s.fcur) (s.xpre - s.xcur)).map (fun x => k / c * x) := by
      rw [h.fcur, h.xcur, h.xpre, h.fpre, ← mul_sub, ← mul_sub, pdiv_rel hc hk hc]
    have d2 : pdiv (t.fblk - t.fcur) (t.xblk - t.xcur) = (pdiv (s.fblk - s.fcur) (s.xblk - s.xcur)).map (fun x => k / c * x) := by
      rw [h.fcur, h.xcur, h.xblk, h.fblk, ← mul_sub, ← mul_sub, pdiv_rel hc hk hc]
    rw [d1, d2]
    cases pdiv (s.fpre - s.fcur) (s.xpre - s.xcur) with
    | error e => rfl
    | ok y1 =>
      cases pdiv (s.fblk - s.fcur) (s.xblk - s.xcur) with
      | error e => rfl
      | ok y2 =>
        simp only [Except.bind, Except.map]
        have hm : k / c * (k / c) * k ≠ 0 := mul_ne_zero (mul_ne_zero (div_ne_zero hk hc) (div_ne_zero hk hc)) hk
        rw [h.fcur, h.fblk, h.fpre,
          show -(k * s.fcur) * (k * s.fblk * (k / c * y2) - k * s.fpre * (k / c * y1)) =
            (k * k * (k / c)) * (-s.fcur * (s.fblk * y2 - s.fpre * y1)) by ring,
          show k / c * y2 * (k / c * y1) * (k * s.fblk - k * s.fpre) =
            (k / c * (k / c) * k) * (y2 * y1 * (s.fblk - s.fpre)) by ring, pdiv_rel hc hk hm]
        have : (fun x => k * k * (k / c) / (k / c * (k / c) * k) * x) = fun x => c * x := by funext x; field_simp
        rw [this]; rfl

theorem steps_rel {s t : St K} (xtol rtol : K) (h : Rel c k s t) :
    (∃ e, steps xtol rtol s = .error e ∧ steps (|c| * xtol) rtol t = .error e) ∨
    ∃ a b a' b', steps xtol rtol s = .ok (a, b) ∧ steps (|c| * xtol) rtol t = .ok (a', b') ∧ |a'| = |c| * |a| ∧ b' = c * b := by
  have hc' : 0 < |c| := abs_pos.mpr hc
  have hk' : 0 < |k| := abs_pos.mpr hk
  have e1 : delta (|c| * xtol) rtol t < |t.spre| ∧ |t.fcur| < |t.fpre| ↔ delta xtol rtol s < |s.spre| ∧ |s.fcur| < |s.fpre| := by
    rw [delta_rel hc hk xtol rtol h, h.spre, h.fcur, h.fpre, abs_mul, abs_mul, mul_lt_mul_iff_right₀ hc', mul_lt_mul_iff_right₀ hk']
  rw [steps_eq, steps_eq]
  by_cases hs : delta xtol rtol s < |s.spre| ∧ |s.fcur| < |s.fpre|
  · rw [if_pos hs, if_pos (e1.mpr hs), trial_rel hc hk h]
    cases trial s with
    | error e => exact .inl ⟨e, rfl, rfl⟩
    | ok y =>
      simp only [Except.bind, Except.map]
      right
      have e3 : 2 * |c * y| < min |t.spre| (3 * |sbis t| - delta (|c| * xtol) rtol t) ↔
          2 * |y| < min |s.spre| (3 * |sbis s| - delta xtol rtol s) := by
        rw [h.spre, sbis_rel hc hk h, delta_rel hc hk xtol rtol h, abs_mul, abs_mul, show 2 * (|c| * |y|) = |c| * (2 * |y|) by ring,
          show 3 * (|c| * |sbis s|) - |c| * delta xtol rtol s = |c| * (3 * |sbis s| - delta xtol rtol s) by ring, lt_min_iff,
          mul_lt_mul_iff_right₀ hc', mul_lt_mul_iff_right₀ hc', lt_min_iff]
      by_cases h3 : 2 * |y| < min |s.spre| (3 * |sbis s| - delta xtol rtol s)
      · rw [if_pos h3, if_pos (e3.mpr h3)]
        exact ⟨_, _, _, _, rfl, rfl, h.scur, rfl⟩
      · rw [if_neg h3, if_neg (fun h' => h3 (e3.mp h'))]
        exact ⟨_, _, _, _, rfl, rfl, by rw [sbis_rel hc hk h, abs_mul], sbis_rel hc hk h⟩
  · rw [if_neg hs, if_neg (fun h' => hs (e1.mp h'))]
    exact .inr ⟨_, _, _, _, rfl, rfl, by rw [sbis_rel hc hk h, abs_mul], sbis_rel hc hk h⟩

theorem advance_rel (f g : K → K) (hfg : ∀ x, g (c * x) = k * f x) {s t : St K} (xtol rtol : K) (h : Rel c k s t)
    (hs : 0 < c ∨ sbis s ≠ 0) {a b a' b' : K} (ha : |a'| = |c| * |a|) (hb : b' = c * b) :
    Rel c k (advance f xtol rtol s a b) (advance g (|c| * xtol) rtol t a' b') := by
  have hc' : 0 < |c| := abs_pos.mpr hc
  have hx : (advance g (|c| * xtol) rtol t a' b').xcur = c * (advance f xtol rtol s a b).xcur := by
    unfold advance
    simp only [delta_rel hc hk xtol rtol h, sbis_rel hc hk h, hb, abs_mul, mul_lt_mul_iff_right₀ hc', h.xcur]
    split
    · ring
    · rcases lt_or_gt_of_ne hc with hneg | hpos
      · have hne : sbis s ≠ 0 := hs.resolve_left (not_lt.mpr hneg.le)
        rcases lt_or_gt_of_ne hne with h1 | h1
        · rw [if_pos (mul_pos_of_neg_of_neg hneg h1), if_neg (not_lt.mpr h1.le), abs_of_neg hneg]; ring
        · rw [if_neg (not_lt.mpr (mul_neg_of_neg_of_pos hneg h1).le), if_pos h1, abs_of_neg hneg]; ring
      · simp only [mul_pos_iff_of_pos_left hpos, abs_of_pos hpos]
        split <;> ring
  refine ⟨h.xcur, hx, h.xblk, h.fcur, ?_, h.fblk, ha, ?_⟩
  · change g (advance g (|c| * xtol) rtol t a' b').xcur = k * f (advance f xtol rtol s a b).xcur
    rw [hx, hfg]
  · change |b'| = |c| * |b|
    rw [hb, abs_mul]

/-- report in other units -/
def _root_.Proadv.Brent.Out.conv (c : K) : Out K → Out K
  | .endpoint r => .endpoint (c * r)
  | .info r calls iters ok => .info (c * r) calls iters ok

omit hc hk in
/-- the two runs produce corresponding reports -/
def LoopRel (c xtol rtol : K) (f g : K → K) (n i last : Nat) (s t : St K) : Prop :=
  loop g (|c| * xtol) rtol n i last t =
    ((loop f xtol rtol n i last s).1.map (Out.conv c), (loop f xtol rtol n i last s).2.map (c * ·))

theorem loop_succ_rel (f g : K → K) (hfg : ∀ x, g (c * x) = k * f x) (xtol rtol : K)
    (htol : 0 < c ∨ 0 < xtol ∧ 0 ≤ rtol) (n : Nat)
    (ih : ∀ (i last : Nat) (s t : St K), Rel c k s t → LoopRel c xtol rtol f g n i last s t) (i last : Nat) (s t : St K)
    (h2 : Rel c k (swap (rebracket s)) (swap (rebracket t))) : LoopRel c xtol rtol f g (n + 1) i last s t := by
  have hc' : 0 < |c| := abs_pos.mpr hc
  unfold LoopRel loop
  simp only
  generalize swap (rebracket s) = s2 at *
  generalize swap (rebracket t) = t2 at *
  have e : t2.fcur = 0 ∨ |sbis t2| < delta (|c| * xtol) rtol t2 ↔ s2.fcur = 0 ∨ |sbis s2| < delta xtol rtol s2 := by
    rw [delta_rel hc hk xtol rtol h2, sbis_rel hc hk h2, h2.fcur, abs_mul, mul_lt_mul_iff_right₀ hc', mul_eq_zero_iff_left hk]
  by_cases hend : s2.fcur = 0 ∨ |sbis s2| < delta xtol rtol s2
  · rw [if_pos hend, if_pos (e.mpr hend)]; simp [Except.map, Out.conv, h2.xcur]
  · rw [if_neg hend, if_neg (fun h' => hend (e.mp h'))]
    push Not at hend
    have hs : 0 < c ∨ sbis s2 ≠ 0 := by
      rcases htol with h0 | ⟨h0, h1⟩
      · exact .inl h0
      · right
        have : 0 < delta xtol rtol s2 := by
          unfold delta; have := mul_nonneg h1 (abs_nonneg s2.xcur); linarith
        exact abs_pos.mp (lt_of_lt_of_le this hend.2)
    rcases steps_rel hc hk xtol rtol h2 with ⟨e, q1, q2⟩ | ⟨a, b, a', b', q1, q2, qa, qb⟩
    · rw [q1, q2]; rfl
    · rw [q1, q2]
      simp only
      have h3 := advance_rel hc hk f g hfg xtol rtol h2 hs qa qb
      rw [ih (i + 1) i _ _ h3, h3.xcur]
      rfl

theorem loop_rel (f g : K → K) (hfg : ∀ x, g (c * x) = k * f x) (xtol rtol : K)
    (htol : 0 < c ∨ 0 < xtol ∧ 0 ≤ rtol) (n : Nat) : ∀ (i last : Nat) (s t : St K), Rel c k s t →
      LoopRel c xtol rtol f g n i last s t := by
  induction n with
  | zero => intro i last s t h; simp [LoopRel, loop, Except.map, Out.conv, h.xcur]
  | succ n ih =>
    intro i last s t h
    exact loop_succ_rel hc hk f g hfg xtol rtol htol n ih i last s t (swap_rel hc hk (rebracket_rel hc hk h))

end BrentUnits

open BrentUnits in
/-- **C164** `brentq` commutes with changes of units: `x ↦ c x` (bracket and `xtol` included), `c > 0`, and `f ↦ k f`, `k ≠ 0`.
The whole report changes accordingly, and `f` is evaluated at corresponding points in the same order. -/
theorem C164_units (f : K → K) (a b xtol rtol : K) (maxiter : Int) (c k : K) (hc : 0 < c) (hk : k ≠ 0) :
    Brent.brentq (fun x => k * f (x / c)) (c * a) (c * b) (c * xtol) rtol maxiter =
      ((Brent.brentq f a b xtol rtol maxiter).1.map (Brent.Out.conv c), (Brent.brentq f a b xtol rtol maxiter).2.map (c * ·)) := by
  have hfg : ∀ x, (fun x => k * f (x / c)) (c * x) = k * f x := by
    intro x; simp only; rw [mul_div_cancel_left₀ _ hc.ne']
  have hxa : k * f (c * a / c) = k * f a := hfg a
  have hxb : k * f (c * b / c) = k * f b := hfg b
  unfold Brent.brentq
  simp only [hxa, hxb, mul_le_mul_iff_right₀ hc, mul_eq_zero, hk, false_or, sign_scale hk]
  split
  · rfl
  split
  · rfl
  split
  · rfl
  split
  · rfl
  have := loop_rel hc.ne' hk f (fun x => k * f (x / c)) hfg xtol rtol (.inl hc) maxiter.toNat 0 0
    ⟨a, b, f a, f b, 0, 0, 0, 0⟩ ⟨c * a, c * b, k * f a, k * f b, 0, 0, 0, 0⟩
    ⟨rfl, rfl, by simp, rfl, rfl, by simp, by simp, by simp⟩
  rw [LoopRel, abs_of_pos hc] at this
  simp only [this, List.map_cons]

open BrentUnits in
/-- **C164** mirror image: solving `f (−x) = 0` on `[−b, −a]` gives the mirrored report, provided the end values differ in
magnitude (otherwise the search starts from `b` in one case and from `−a` in the other). -/
theorem C164_mirror (f : K → K) (a b xtol rtol : K) (maxiter : Int) (hx : 0 < xtol) (hr : 0 ≤ rtol) (hab : |f a| ≠ |f b|)
    (hm : 1 ≤ maxiter) :
    (Brent.brentq (fun x => f (-x)) (-b) (-a) xtol rtol maxiter).1 =
      (Brent.brentq f a b xtol rtol maxiter).1.map (Brent.Out.conv (-1)) := by
  have hne : (-1 : K) ≠ 0 := by norm_num
  have hfg : ∀ x, (fun x => f (-x)) (-1 * x) = 1 * f x := by intro x; simp
  unfold Brent.brentq
  simp only [neg_neg, neg_le_neg_iff]
  by_cases h1 : b ≤ a
  · rw [if_pos h1, if_pos h1]; rfl
  rw [if_neg h1, if_neg h1]
  by_cases h2 : f a = 0
  · have h3 : f b ≠ 0 := by intro h3; rw [h2, h3] at hab; exact hab rfl
    rw [if_neg h3, if_pos h2, if_pos h2]; simp [Except.map, Brent.Out.conv]
  by_cases h3 : f b = 0
  · rw [if_pos h3, if_neg h2, if_pos h3]; simp [Except.map, Brent.Out.conv]
  rw [if_neg h2, if_neg h2, if_neg h3, if_neg h3]
  by_cases h4 : SignType.sign (f a) = SignType.sign (f b)
  · rw [if_pos h4, if_pos h4.symm]; rfl
  rw [if_neg h4, if_neg (fun h => h4 h.symm)]
  simp only
  obtain ⟨n, hn⟩ : ∃ n, maxiter.toNat = n + 1 := ⟨maxiter.toNat - 1, by omega⟩
  rw [hn]
  have hrel : Rel (-1) 1 (Brent.swap (Brent.rebracket (⟨a, b, f a, f b, 0, 0, 0, 0⟩ : Brent.St K)))
      (Brent.swap (Brent.rebracket ⟨-b, -a, f b, f a, 0, 0, 0, 0⟩)) := by
    unfold Brent.rebracket
    rw [if_pos h4, if_pos (fun h => h4 h.symm)]
    unfold Brent.swap
    simp only
    have habs : |-a - -b| = |(-1 : K)| * |b - a| := by rw [abs_neg, abs_one, one_mul]; congr 1; ring
    rcases lt_or_gt_of_ne hab with hlt | hlt
    · rw [if_pos hlt, if_neg (not_lt.mpr hlt.le)]
      exact ⟨by simp, by simp, by simp, by simp, by simp, by simp, habs, habs⟩
    · rw [if_neg (not_lt.mpr hlt.le), if_pos hlt]
      exact ⟨by simp, by simp, by simp, by simp, by simp, by simp, habs, habs⟩
  have := loop_succ_rel hne one_ne_zero f (fun x => f (-x)) hfg xtol rtol (.inr ⟨hx, hr⟩) n
    (loop_rel hne one_ne_zero f (fun x => f (-x)) hfg xtol rtol (.inr ⟨hx, hr⟩) n) 0 0 _ _ hrel
  rw [LoopRel, abs_neg, abs_one, one_mul] at this
  rw [this]

/-- **C164** the proviso is needed: with end values of equal magnitude the mirrored problem may give another root. -/
theorem C164_mirror_needs : ∃ (f : ℚ → ℚ) (a b xtol : ℚ), |f a| = |f b| ∧ 0 < xtol ∧
    (Brent.brentq (fun x => f (-x)) (-b) (-a) xtol 0 100).1 ≠ (Brent.brentq f a b xtol 0 100).1.map (Brent.Out.conv (-1)) :=
  ⟨fun x => 2 * x ^ 2 - 1, 0, 1, 1 / 100, by decide +kernel, by decide +kernel, by decide +kernel⟩

/-! ## The hypotheses are met -/

example : (0 : ℚ) < 1000 ∧ (-3 : ℚ) ≠ 0 ∧
    Brent.brentq (fun x : ℚ => x - 1 / 3) 0 1 (1 / 100) 0 50 = (.ok (.info (1 / 3) 3 2 true), [0, 1, 1 / 3]) ∧
    Brent.brentq (fun x : ℚ => -3 * (x / 1000 - 1 / 3)) (1000 * 0) (1000 * 1) (1000 * (1 / 100)) 0 50 =
      (.ok (.info (1000 / 3) 3 2 true), [0, 1000, 1000 / 3]) := by decide +kernel

example : |(0 : ℚ) - 1 / 3| ≠ |1 - 1 / 3| ∧
    (Brent.brentq (fun x : ℚ => -x - 1 / 3) (-1) (-0) (1 / 100) 0 50).1 = .ok (.info (-1 / 3) 3 2 true) := by decide +kernel

example : (Fmin.optimize (fun x : Fl ℚ => x *. x) (fin 0) (fin (2 / 5)) (fin (-1)) (fin 1) (fin (1 / 10)) 3).map
      (Option.map (fun o => (o.x, o.fval, o.count))) = .ok (some (fin (-13 / 25), fin (1 / 25), 3)) ∧
    (Fmin.optimize (fun x : Fl ℚ => fin 3 *. ((x /. fin 10) *. (x /. fin 10)) +. fin 5) (fin 0) (fin (2 / 5)) (fin 10 *. fin (-1))
      (fin 10 *. fin 1) (fin 10 *. fin (1 / 10)) 3).map (Option.map (fun o => (o.x, o.fval, o.count))) =
      .ok (some (fin (-26 / 5), fin (128 / 25), 3)) := by decide +kernel

end Proadv.Props
