import Verif.Props.ButterProto
import Mathlib.Analysis.SpecialFunctions.Trigonometric.Arctan
import Mathlib.Data.List.Perm.Basic

/-! # `butterworth`: C99–C101 -/

namespace Proadv

open Proadv.Butter Complex Spec

set_option linter.unusedSectionVars false

noncomputable section

namespace Spec

/-- the critical frequencies in the units of the design: a fraction of the Nyquist frequency when `sr` is given -/
def freqs (w : List ℝ) : SrArg → List ℝ
  | .scalar x => w.map (fun v => 2 * v / x)
  | _ => w

/-- arguments that are acceptable irrespective of the filter type's name -/
structure Valid (q : ℝ) (w : List ℝ) (btype : BType) (ag : Bool) (output : Output) (sr : SrArg) : Prop where
  sr_scalar : sr ≠ .nonScalar
  sr_digital : ∀ x, sr = .scalar x → ag = false
  pos : ∀ v ∈ freqs w sr, 0 < v
  below_nyquist : ag = false → ∀ v ∈ freqs w sr, v < 1
  increasing : 1 < w.length → (freqs w sr).getD 0 0 < (freqs w sr).getD 1 0
  output_ok : output ≠ .other
  order : ∃ n : Nat, q = n
  single : btype = .lp ∨ btype = .hp → w.length = 1
  pair : btype = .bp ∨ btype = .bs → 2 ≤ w.length

end Spec

theorem length_freqs (w : List ℝ) (sr : SrArg) : (freqs w sr).length = w.length := by
  cases sr <;> simp [freqs]

/-- the prototype filter of order `n` -/
def proto (n : Nat) : Zpk := ⟨[], (List.range n).map (bpole n), 1⟩

/-- pre-warped frequencies -/
def warped (ag : Bool) (W : List ℝ) : List ℝ := if ag then W else W.map (fun v => 2 * 2 * Real.tan (Real.pi * v / 2))

theorem length_warped (ag : Bool) (W : List ℝ) : (warped ag W).length = W.length := by
  unfold warped; split <;> simp

theorem any_nonpos {W : List ℝ} : (W.any (fun v => decide (v ≤ 0)) = true) ↔ ¬ ∀ v ∈ W, 0 < v := by
  simp [List.any_eq_true]

theorem any_range {W : List ℝ} (hp : ∀ v ∈ W, 0 < v) :
    (W.any (fun v => decide (v ≤ 0) || decide (1 ≤ v)) = true) ↔ ¬ ∀ v ∈ W, v < 1 := by
  rw [List.any_eq_true]
  constructor
  · rintro ⟨v, hv, h⟩ hall
    rw [Bool.or_eq_true, decide_eq_true_eq, decide_eq_true_eq] at h
    rcases h with h | h
    · linarith [hp v hv]
    · linarith [hall v hv]
  · intro h
    push Not at h
    obtain ⟨v, hv, h⟩ := h
    exact ⟨v, hv, by simp [h]⟩

/-- the checks before the band dispatch -/
structure Pre (q : ℝ) (w : List ℝ) (ag : Bool) (output : Output) (sr : SrArg) : Prop where
  sr_scalar : sr ≠ .nonScalar
  sr_digital : ∀ x, sr = .scalar x → ag = false
  pos : ∀ v ∈ freqs w sr, 0 < v
  below_nyquist : ag = false → ∀ v ∈ freqs w sr, v < 1
  increasing : 1 < w.length → (freqs w sr).getD 0 0 < (freqs w sr).getD 1 0
  output_ok : output ≠ .other
  order : ∃ n : Nat, q = n

theorem design_eq (csqrt : ℂ → ℂ) (q : ℝ) (w : List ℝ) (btype : BType) (ag : Bool) (output : Output) (sr : SrArg)
    (h1 : sr ≠ .nonScalar) (h2 : ¬ ((∃ x, sr = .scalar x) ∧ ag = true)) :
    design csqrt q w btype ag output sr =
      if (freqs w sr).any (fun v => decide (v ≤ 0)) = true then .error .valueError
      else if 1 < w.length ∧ ¬ ((freqs w sr).getD 0 0 < (freqs w sr).getD 1 0) then .error .valueError
      else if output = .other then .error .valueError
      else (buttap q).bind fun f0 =>
        if (!ag && (freqs w sr).any (fun v => decide (v ≤ 0) || decide (1 ≤ v))) = true then .error .valueError
        else (transform csqrt f0 w.length btype (warped ag (freqs w sr))).bind fun f =>
          if ag then .ok f else bilinear f (.scalar 2) := by
  unfold design validG
  cases sr with
  | nonScalar => exact absurd rfl h1
  | none => rfl
  | scalar x =>
    cases ag with
    | true => exact absurd ⟨⟨x, rfl⟩, rfl⟩ h2
    | false =>
      simp only [bind, Except.bind, Option.isSome_some, Bool.and_false, Bool.false_eq_true, if_false, freqs, List.length_map, warped]

theorem design_bad_sr (csqrt : ℂ → ℂ) (q : ℝ) (w : List ℝ) (btype : BType) (ag : Bool) (output : Output) (sr : SrArg)
    (h : sr = .nonScalar ∨ ((∃ x, sr = .scalar x) ∧ ag = true)) : design csqrt q w btype ag output sr = .error .valueError := by
  rcases h with rfl | ⟨⟨x, rfl⟩, rfl⟩ <;> rfl

theorem design_pre (csqrt : ℂ → ℂ) {w : List ℝ} (btype : BType) {ag : Bool} {output : Output} {sr : SrArg} (n : Nat)
    (h : Pre n w ag output sr) : design csqrt n w btype ag output sr =
      (transform csqrt (proto n) w.length btype (warped ag (freqs w sr))).bind fun f =>
        if ag then .ok f else bilinear f (.scalar 2) := by
  rw [design_eq _ _ _ _ _ _ _ h.sr_scalar, if_neg, if_neg, if_neg h.output_ok, buttap_nat]
  · show (if _ then _ else _) = _
    rw [if_neg]; · rfl
    rw [Bool.and_eq_true, any_range h.pos]
    rintro ⟨h1, h2⟩; exact h2 (h.below_nyquist (by simpa using h1))
  · rintro ⟨h1, h2⟩; exact h2 (h.increasing h1)
  · rw [any_nonpos, not_not]; exact h.pos
  · rintro ⟨⟨x, hx⟩, h2⟩; rw [h.sr_digital x hx] at h2; exact Bool.noConfusion h2

theorem design_not_pre (csqrt : ℂ → ℂ) {q : ℝ} {w : List ℝ} (btype : BType) {ag : Bool} {output : Output} {sr : SrArg}
    (h : ¬ Pre q w ag output sr) : design csqrt q w btype ag output sr = .error .valueError := by
  by_cases h1 : sr = .nonScalar
  · exact design_bad_sr _ _ _ _ _ _ _ (Or.inl h1)
  by_cases h2 : (∃ x, sr = .scalar x) ∧ ag = true
  · exact design_bad_sr _ _ _ _ _ _ _ (Or.inr h2)
  rw [design_eq _ _ _ _ _ _ _ h1 h2]
  split; · rfl
  split; · rfl
  split; · rfl
  rename_i h3 h4 h5
  rw [any_nonpos, not_not] at h3
  by_cases hq : ∃ n : Nat, q = n
  · obtain ⟨n, rfl⟩ := hq
    rw [buttap_nat]
    show (if _ then _ else _) = _
    rw [if_pos]
    by_contra hb
    rw [Bool.and_eq_true, any_range h3] at hb
    apply h
    refine ⟨h1, ?_, h3, ?_, ?_, h5, n, rfl⟩
    · intro x hx
      cases ag with
      | false => rfl
      | true => exact absurd ⟨⟨x, hx⟩, rfl⟩ h2
    · intro hag; by_contra hc; exact hb ⟨by simp [hag], hc⟩
    · intro hl; by_contra hc; exact h4 ⟨hl, hc⟩
  · rw [buttap_err fun n hn => hq ⟨n, hn⟩]; rfl

/-! ## Conjugate pairs -/

theorem closed_map {l : List ℂ} (h : ConjClosed l) (f : ℂ → ℂ) (hf : ∀ x, starRingEnd ℂ (f x) = f (starRingEnd ℂ x)) :
    ConjClosed (l.map f) := by
  unfold ConjClosed
  have e : (l.map f).map (starRingEnd ℂ) = (l.map (starRingEnd ℂ)).map f := by
    rw [List.map_map, List.map_map]; exact List.map_congr_left fun x _ => hf x
  rw [e]; exact h.map f

theorem closed_append {a b : List ℂ} (ha : ConjClosed a) (hb : ConjClosed b) : ConjClosed (a ++ b) := by
  unfold ConjClosed at *; rw [List.map_append]; exact ha.append hb

theorem closed_replicate (n : Nat) {x : ℂ} (hx : starRingEnd ℂ x = x) : ConjClosed (List.replicate n x) := by
  unfold ConjClosed; rw [List.map_replicate, hx]

theorem closed_nil : ConjClosed [] := List.Perm.refl _

theorem closed_catenate {csqrt : ℂ → ℂ} (hc : IsSqrt csqrt) {l : List ℂ} (h : ConjClosed l) (pc : ℝ) :
    ConjClosed (catenate csqrt l pc) := by
  set r : ℂ → ℂ := fun x => csqrt (x ^ 2 - (pc : ℂ) ^ 2) with hr
  have hflat : ∀ m : List ℂ, (catenate csqrt m pc).Perm (m.flatMap (fun a => [a + r a, a - r a])) := by
    intro m
    induction m with
    | nil => exact List.Perm.refl _
    | cons a t ih =>
      have : (catenate csqrt (a :: t) pc).Perm ((a + r a) :: (a - r a) :: catenate csqrt t pc) := by
        simp only [catenate, List.map_cons, List.cons_append]
        exact (List.perm_middle).cons _
      exact this.trans ((ih.cons _).cons _)
  have hsw : ∀ a : ℂ, [starRingEnd ℂ (a + r a), starRingEnd ℂ (a - r a)].Perm
      [starRingEnd ℂ a + r (starRingEnd ℂ a), starRingEnd ℂ a - r (starRingEnd ℂ a)] := by
    intro a
    have hsq : r (starRingEnd ℂ a) ^ 2 = (starRingEnd ℂ (r a)) ^ 2 := by
      rw [hr, ← map_pow]; simp only [hc _]; simp
    rcases sq_eq_sq_iff_eq_or_eq_neg.mp hsq with h1 | h1
    · rw [h1, map_add, map_sub]
    · rw [h1, map_add, map_sub, sub_neg_eq_add, ← sub_eq_add_neg]
      exact List.Perm.swap _ _ _
  unfold ConjClosed
  refine (hflat l).trans ?_
  refine List.Perm.trans ?_ ((hflat l).map _).symm
  rw [List.map_flatMap]
  have e1 : (l.flatMap (fun a => [a + r a, a - r a])).Perm ((l.map (starRingEnd ℂ)).flatMap (fun a => [a + r a, a - r a])) :=
    h.flatMap_right _
  refine e1.trans ?_
  rw [List.flatMap_map]
  exact List.Perm.flatMap_left _ fun a _ => (hsw a).symm

/-! ## The analog transformation of the prototype -/

/-- frequency substitution of each filter type -/
def subst (btype : BType) (d : List ℝ) (s : ℂ) : ℂ :=
  match btype with
  | .lp => s / (d.getD 0 0 : ℝ)
  | .hp => (d.getD 0 0 : ℝ) / s
  | .bp => (s ^ 2 + ((d.getD 0 0 * d.getD 1 0 : ℝ) : ℂ)) / (((d.getD 1 0 - d.getD 0 0 : ℝ) : ℂ) * s)
  | .bs => ((d.getD 1 0 - d.getD 0 0 : ℝ) : ℂ) * s / (s ^ 2 + ((d.getD 0 0 * d.getD 1 0 : ℝ) : ℂ))
  | .other => s

/-- points where the substitution is defined -/
def adm (btype : BType) (d : List ℝ) (s : ℂ) : Prop :=
  match btype with
  | .lp => True
  | .hp => s ≠ 0
  | .bp => s ≠ 0
  | .bs => s ^ 2 + ((d.getD 0 0 * d.getD 1 0 : ℝ) : ℂ) ≠ 0
  | .other => True

/-- what the band transformation produces from the prototype -/
structure Analog (n : Nat) (btype : BType) (d : List ℝ) (f : Zpk) : Prop where
  proper : f.z.length ≤ f.p.length
  left : ∀ p ∈ f.p, p.re < 0
  zeros : ∀ z ∈ f.z, z.re = 0
  closedZ : ConjClosed f.z
  closedP : ConjClosed f.p
  transfer : ∀ s, adm btype d s → H f s = H (proto n) (subst btype d s)
  blocked : 0 < n → ∀ s, ¬ adm btype d s → H f s = 0
  infinity : 0 < n → (btype = .lp ∨ btype = .bp → f.z.length < f.p.length) ∧
    (btype = .hp ∨ btype = .bs → f.z.length = f.p.length ∧ f.k = 1)

theorem proto_ne {n : Nat} : ∀ x ∈ (proto n).p, x ≠ 0 := by
  intro x hx h
  obtain ⟨k, hk, rfl⟩ := List.mem_map.mp hx
  have := bpole_re (List.mem_range.mp hk)
  rw [h] at this; simp at this

theorem proto_re {n : Nat} : ∀ x ∈ (proto n).p, x.re < 0 := by
  intro x hx
  obtain ⟨k, hk, rfl⟩ := List.mem_map.mp hx
  exact bpole_re (List.mem_range.mp hk)

theorem proto_closed (n : Nat) : ConjClosed (proto n).p := bpoles_closed n

theorem proto_zero {n : Nat} (hn : 0 < n) : H (proto n) 0 = 1 := by
  obtain ⟨f, hf, h, -⟩ := C98_shape n hn
  rw [buttap_nat] at hf
  rw [← Except.ok.inj hf] at h
  exact h

theorem proto_gain {n : Nat} (hn : 0 < n) :
    (proto n).k * (((proto n).z.map (fun x => -x)).prod / ((proto n).p.map (fun x => -x)).prod).re = 1 := by
  have h := proto_zero hn
  have e : H (proto n) 0 = ((proto n).z.map (fun x => -x)).prod / ((proto n).p.map (fun x => -x)).prod := by
    simp [H, proto]
  rw [← e, h]; simp [proto]

theorem H_zero_of_mem {f : Zpk} {s : ℂ} (h : s ∈ f.z) : H f s = 0 := by
  have : (f.z.map (fun z => s - z)).prod = 0 := List.prod_eq_zero (List.mem_map.mpr ⟨s, h, sub_self s⟩)
  unfold H; rw [this]; simp

/-- a root of `s² - 2as + c²` with `Re a < 0`, `c ≠ 0` is in the left half plane -/
theorem root_left {a s : ℂ} {c : ℝ} (hc : c ≠ 0) (ha : a.re < 0) (h : s ^ 2 - 2 * a * s + (c : ℂ) ^ 2 = 0) : s.re < 0 := by
  have hs : s ≠ 0 := by
    rintro rfl
    simp at h; exact hc h
  have hn : 0 < normSq s := Complex.normSq_pos.mpr hs
  -- multiply by the conjugate
  have h2 : s * (normSq s : ℂ) + (c : ℂ) ^ 2 * starRingEnd ℂ s = 2 * a * (normSq s : ℂ) := by
    have e : s * starRingEnd ℂ s = (normSq s : ℂ) := Complex.mul_conj s
    rw [← e]; linear_combination (starRingEnd ℂ s) * h
  have h3 := congrArg Complex.re h2
  have hc2 : ((c : ℂ) ^ 2) = ((c ^ 2 : ℝ) : ℂ) := by push_cast; rfl
  rw [hc2] at h3
  simp only [Complex.add_re, Complex.mul_re, Complex.ofReal_re, Complex.ofReal_im, Complex.conj_re, Complex.conj_im, Complex.re_ofNat,
    Complex.im_ofNat, mul_zero, sub_zero, zero_mul] at h3
  have h4 : s.re * (normSq s + c ^ 2) = 2 * a.re * normSq s := by linarith
  by_contra hcon
  have : 0 ≤ s.re * (normSq s + c ^ 2) := mul_nonneg (not_lt.mp hcon) (by positivity)
  nlinarith

theorem catenate_root {csqrt : ℂ → ℂ} (hc : IsSqrt csqrt) {l : List ℂ} {pc : ℝ} {s : ℂ} (h : s ∈ catenate csqrt l pc) :
    ∃ a ∈ l, s ^ 2 - 2 * a * s + (pc : ℂ) ^ 2 = 0 := by
  unfold catenate at h
  rcases List.mem_append.mp h with h | h <;> obtain ⟨a, ha, rfl⟩ := List.mem_map.mp h <;> refine ⟨a, ha, ?_⟩ <;>
    have := hc (a ^ 2 - (pc : ℂ) ^ 2) <;> linear_combination this

theorem div_re_neg {d : ℝ} {x : ℂ} (hd : 0 < d) (hx : x.re < 0) : ((d : ℂ) / x).re < 0 := by
  have hx0 : x ≠ 0 := by rintro rfl; simp at hx
  have hn : 0 < normSq x := Complex.normSq_pos.mpr hx0
  rw [Complex.div_re]
  simp only [Complex.ofReal_re, Complex.ofReal_im, zero_mul, zero_div, add_zero]
  exact div_neg_of_neg_of_pos (mul_neg_of_pos_of_neg hd hx) hn

theorem transform_spec {csqrt : ℂ → ℂ} (hc : IsSqrt csqrt) (n size : Nat) (btype : BType) (d : List ℝ)
    (hb : btype ≠ .other) (h1 : btype = .lp ∨ btype = .hp → size = 1 ∧ 0 < d.getD 0 0)
    (h2 : btype = .bp ∨ btype = .bs → 2 ≤ d.length ∧ 0 < d.getD 0 0 ∧ d.getD 0 0 < d.getD 1 0) :
    ∃ f, transform csqrt (proto n) size btype d = .ok f ∧ Analog n btype d f := by
  have hz0 : ∀ x ∈ (proto n).z, x ≠ 0 := by simp [proto]
  have hle : (proto n).z.length ≤ (proto n).p.length := by simp [proto]
  have hside : (((proto n).z.map (fun x => -x)).prod / ((proto n).p.map (fun x => -x)).prod).im = 0 :=
    C92_side _ closed_nil (proto_closed n)
  cases btype with
  | other => exact absurd rfl hb
  | lp =>
    obtain ⟨hsz, hd⟩ := h1 (Or.inl rfl)
    obtain ⟨g, hg, hH⟩ := C91_low_to_low (proto n) (d.getD 0 0) hle hd.ne'
    refine ⟨g, ?_, ?_⟩
    · show (if size ≠ 1 then _ else _) = _
      rw [if_neg (by omega)]; exact hg
    · unfold lowToLow at hg
      rw [relativeScale_ok hle] at hg
      have e := (Except.ok.inj hg).symm
      refine ⟨?_, ?_, ?_, ?_, ?_, fun s _ => hH s, fun _ s hs => absurd trivial hs, fun hn => ⟨fun _ => ?_, fun h => by simp at h⟩⟩ <;> rw [e]
      · simp [proto]
      · intro p hp
        obtain ⟨x, hx, rfl⟩ := List.mem_map.mp hp
        have := proto_re x hx
        rw [Complex.re_ofReal_mul]; exact mul_neg_of_pos_of_neg hd this
      · simp [proto]
      · simp only [proto, List.map_nil]; exact closed_nil
      · exact closed_map (proto_closed n) _ fun x => by simp
      · simpa [proto] using hn
  | hp =>
    obtain ⟨hsz, hd⟩ := h1 (Or.inr rfl)
    obtain ⟨g, hg, hH⟩ := C92_low_to_high (proto n) (d.getD 0 0) hle hz0 proto_ne hside
    refine ⟨g, ?_, ?_⟩
    · show (if size ≠ 1 then _ else _) = _
      rw [if_neg (by omega)]; exact hg
    · unfold lowToHigh at hg
      rw [relativeScale_ok hle] at hg
      have e := (Except.ok.inj hg).symm
      refine ⟨?_, ?_, ?_, ?_, ?_, fun s hs => hH s hs, fun hn s hs => ?_, fun hn => ⟨fun h => by simp at h, fun _ => ⟨?_, ?_⟩⟩⟩ <;> rw [e]
      · simp [proto]
      · intro p hp
        obtain ⟨x, hx, rfl⟩ := List.mem_map.mp hp
        exact div_re_neg hd (proto_re x hx)
      · intro z hz
        simp only [proto, List.map_nil, List.nil_append, List.mem_replicate] at hz
        rw [hz.2]; simp
      · exact closed_append (by simp only [proto, List.map_nil]; exact closed_nil) (closed_replicate _ (by simp))
      · exact closed_map (proto_closed n) _ fun x => by simp
      · rw [not_not.mp hs]
        exact H_zero_of_mem (by simp [proto, hn.ne'])
      · simp [proto]
      · exact proto_gain hn
  | bp =>
    obtain ⟨hsz, hd0, hd⟩ := h2 (Or.inl rfl)
    have hd1 : 0 < d.getD 1 0 := hd0.trans hd
    have hpc : Real.sqrt (d.getD 0 0 * d.getD 1 0) ≠ 0 := (Real.sqrt_pos.mpr (mul_pos hd0 hd1)).ne'
    have hsq : ((Real.sqrt (d.getD 0 0 * d.getD 1 0) : ℝ) : ℂ) ^ 2 = ((d.getD 0 0 * d.getD 1 0 : ℝ) : ℂ) := by
      rw [← Complex.ofReal_pow, Real.sq_sqrt (mul_pos hd0 hd1).le]
    have hw : 0 < d.getD 1 0 - d.getD 0 0 := sub_pos.mpr hd
    obtain ⟨g, hg, hH⟩ := C93_low_to_band hc (proto n) (Real.sqrt (d.getD 0 0 * d.getD 1 0)) (d.getD 1 0 - d.getD 0 0) hle hw.ne'
    refine ⟨g, ?_, ?_⟩
    · show (if d.length < 2 then _ else _) = _
      rw [if_neg (by omega)]; exact hg
    · have hT : ∀ s, adm .bp d s → H g s = H (proto n) (subst .bp d s) := by
        intro s hs
        rw [hH s hs, hsq]; rfl
      unfold lowToBand at hg
      rw [relativeScale_ok hle] at hg
      have e := (Except.ok.inj hg).symm
      refine ⟨?_, ?_, ?_, ?_, ?_, hT, fun hn s hs => ?_, fun hn => ⟨fun _ => ?_, fun h => by simp at h⟩⟩ <;> rw [e]
      · simp [proto, catenate]
      · intro p hp
        obtain ⟨a, ha, hr⟩ := catenate_root hc hp
        obtain ⟨x, hx, rfl⟩ := List.mem_map.mp ha
        refine root_left hpc ?_ hr
        have := proto_re x hx
        have e2 : x * ((d.getD 1 0 - d.getD 0 0 : ℝ) : ℂ) / 2 = (((d.getD 1 0 - d.getD 0 0) / 2 : ℝ) : ℂ) * x := by
          push_cast; ring
        rw [e2, Complex.re_ofReal_mul]
        exact mul_neg_of_pos_of_neg (by linarith) this
      · intro z hz
        simp only [proto, List.map_nil, catenate, List.append_nil, List.nil_append, List.mem_replicate] at hz
        rw [hz.2]; simp
      · refine closed_append (closed_catenate hc ?_ _) (closed_replicate _ (by simp))
        simp only [proto, List.map_nil]; exact closed_nil
      · exact closed_catenate hc (closed_map (proto_closed n) _ fun x => by simp [conj_two]) _
      · rw [not_not.mp hs]
        exact H_zero_of_mem (by simp [proto, catenate, hn.ne'])
      · simp [proto, catenate]; omega
  | bs =>
    obtain ⟨hsz, hd0, hd⟩ := h2 (Or.inr rfl)
    have hd1 : 0 < d.getD 1 0 := hd0.trans hd
    have hpc : Real.sqrt (d.getD 0 0 * d.getD 1 0) ≠ 0 := (Real.sqrt_pos.mpr (mul_pos hd0 hd1)).ne'
    have hsq : ((Real.sqrt (d.getD 0 0 * d.getD 1 0) : ℝ) : ℂ) ^ 2 = ((d.getD 0 0 * d.getD 1 0 : ℝ) : ℂ) := by
      rw [← Complex.ofReal_pow, Real.sq_sqrt (mul_pos hd0 hd1).le]
    have hw : 0 < d.getD 1 0 - d.getD 0 0 := sub_pos.mpr hd
    obtain ⟨g, hg, hH⟩ := C94_low_to_stop hc (proto n) (Real.sqrt (d.getD 0 0 * d.getD 1 0)) (d.getD 1 0 - d.getD 0 0) hle hz0
      proto_ne hside
    refine ⟨g, ?_, ?_⟩
    · show (if d.length < 2 then _ else _) = _
      rw [if_neg (by omega)]; exact hg
    · have hT : ∀ s, adm .bs d s → H g s = H (proto n) (subst .bs d s) := by
        intro s hs
        rw [hH s (by rw [hsq]; exact hs), hsq]; rfl
      unfold lowToStop at hg
      rw [relativeScale_ok hle] at hg
      have e := (Except.ok.inj hg).symm
      refine ⟨?_, ?_, ?_, ?_, ?_, hT, fun hn s hs => ?_, fun hn => ⟨fun h => by simp at h, fun _ => ⟨?_, ?_⟩⟩⟩ <;> rw [e]
      · simp [proto, catenate]
      · intro p hp
        obtain ⟨a, ha, hr⟩ := catenate_root hc hp
        obtain ⟨x, hx, rfl⟩ := List.mem_map.mp ha
        refine root_left hpc ?_ hr
        have e2 : ((d.getD 1 0 - d.getD 0 0 : ℝ) : ℂ) / 2 / x = ((((d.getD 1 0 - d.getD 0 0) / 2 : ℝ) : ℂ)) / x := by push_cast; rfl
        rw [e2]
        exact div_re_neg (by linarith) (proto_re x hx)
      · intro z hz
        simp only [proto, List.map_nil, catenate, List.append_nil, List.nil_append, List.mem_append, List.mem_replicate] at hz
        rcases hz with hz | hz <;> rw [hz.2] <;> simp
      · rw [List.append_assoc]
        refine closed_append (closed_catenate hc ?_ _) ?_
        · simp only [proto, List.map_nil]; exact closed_nil
        · unfold ConjClosed
          rw [List.map_append, List.map_replicate, List.map_replicate]
          simp only [map_mul, map_neg, Complex.conj_I, Complex.conj_ofReal, neg_neg]
          exact List.perm_append_comm
      · refine closed_catenate hc (closed_map (proto_closed n) _ fun x => ?_) _
        simp [conj_two]
      · have hs0 : s ^ 2 + ((d.getD 0 0 * d.getD 1 0 : ℝ) : ℂ) = 0 := not_not.mp hs
        rw [← hsq] at hs0
        have hfac : (s - I * ((Real.sqrt (d.getD 0 0 * d.getD 1 0) : ℝ) : ℂ)) * (s - -I * ((Real.sqrt (d.getD 0 0 * d.getD 1 0) : ℝ) : ℂ)) = 0 := by
          rw [← hs0]; linear_combination (-((Real.sqrt (d.getD 0 0 * d.getD 1 0) : ℝ) : ℂ) ^ 2) * I_sq
        apply H_zero_of_mem
        simp only [proto, List.map_nil, catenate, List.append_nil, List.nil_append, List.mem_append, List.mem_replicate,
          List.length_map, List.length_range, List.length_nil, Nat.sub_zero]
        rcases mul_eq_zero.mp hfac with h | h
        · exact Or.inl ⟨hn.ne', sub_eq_zero.mp h⟩
        · exact Or.inr ⟨hn.ne', sub_eq_zero.mp h⟩
      · simp [proto, catenate]
      · exact proto_gain hn

/-! ## The bilinear step -/

theorem bilinear_norm {c : ℝ} (hc : 0 < c) {s : ℂ} (hs : s.re < 0) : ‖((c : ℂ) + s) / ((c : ℂ) - s)‖ < 1 := by
  have hne : (c : ℂ) - s ≠ 0 := by
    intro h
    have := congrArg Complex.re h
    simp at this; linarith
  rw [norm_div, div_lt_one (norm_pos_iff.mpr hne)]
  apply lt_of_pow_lt_pow_left₀ 2 (norm_nonneg _)
  rw [← Complex.normSq_eq_norm_sq, ← Complex.normSq_eq_norm_sq, Complex.normSq_apply, Complex.normSq_apply]
  simp only [Complex.add_re, Complex.sub_re, Complex.add_im, Complex.sub_im, Complex.ofReal_re, Complex.ofReal_im]
  nlinarith

/-- what `bilinear` makes of such a filter at `sr = 2` -/
theorem bilinear_spec {n : Nat} {btype : BType} {d : List ℝ} {f : Zpk} (h : Analog n btype d f) :
    ∃ g, bilinear f (.scalar 2) = .ok g ∧ (∀ p ∈ g.p, ‖p‖ < 1) ∧ ConjClosed g.z ∧ ConjClosed g.p ∧
      (∀ w, w ≠ -1 → H g w = H f (4 * (w - 1) / (w + 1))) ∧ (f.z.length < f.p.length → H g (-1) = 0) ∧
      (f.z.length = f.p.length → H g (-1) = f.k) := by
  have hz : ∀ x ∈ f.z, x ≠ 2 * ((2 : ℝ) : ℂ) := by
    intro x hx he
    have := h.zeros x hx
    rw [he] at this; norm_num at this
  have hp : ∀ x ∈ f.p, x ≠ 2 * ((2 : ℝ) : ℂ) := by
    intro x hx he
    have := h.left x hx
    rw [he] at this; norm_num at this
  have hside := C95_side f 2 h.closedZ h.closedP
  obtain ⟨g, hg, hH⟩ := C95_bilinear f 2 h.proper hz hp hside
  have h4 : 2 * ((2 : ℝ) : ℂ) = ((4 : ℝ) : ℂ) := by norm_num
  refine ⟨g, hg, ?_⟩
  have hg' := hg
  unfold bilinear validG at hg'
  rw [relativeScale_ok h.proper] at hg'
  have e := (Except.ok.inj hg').symm
  simp only [Option.getD_some] at e
  have hcm : ∀ x : ℂ, starRingEnd ℂ ((2 * ((2 : ℝ) : ℂ) + x) / (2 * ((2 : ℝ) : ℂ) - x))
      = (2 * ((2 : ℝ) : ℂ) + starRingEnd ℂ x) / (2 * ((2 : ℝ) : ℂ) - starRingEnd ℂ x) := by
    intro x; rw [h4, map_div₀, map_add, map_sub, Complex.conj_ofReal]
  refine ⟨?_, ?_, ?_, ?_, ?_, ?_⟩
  · rw [e]
    intro p hp'
    obtain ⟨x, hx, rfl⟩ := List.mem_map.mp hp'
    rw [h4]
    exact bilinear_norm (by norm_num) (h.left x hx)
  · rw [e]
    exact closed_append (closed_map h.closedZ _ hcm) (closed_replicate _ (by simp))
  · rw [e]
    exact closed_map h.closedP _ hcm
  · intro w hw
    rw [hH w hw]
    norm_num
  · intro hlt
    rw [e]
    unfold H
    simp only [List.map_append, List.prod_append, List.map_replicate, List.prod_replicate, sub_self]
    rw [zero_pow (by omega)]; simp
  · intro heq
    have hre : ((((f.z.map (fun x => 2 * ((2 : ℝ) : ℂ) - x)).prod / (f.p.map (fun x => 2 * ((2 : ℝ) : ℂ) - x)).prod).re : ℝ) : ℂ)
        = (f.z.map (fun x => 2 * ((2 : ℝ) : ℂ) - x)).prod / (f.p.map (fun x => 2 * ((2 : ℝ) : ℂ) - x)).prod :=
      Complex.ext (Complex.ofReal_re _) (by rw [Complex.ofReal_im]; exact hside.symm)
    have key : ∀ l : List ℂ, (∀ x ∈ l, x ≠ 2 * ((2 : ℝ) : ℂ)) →
        ((l.map (fun x => (2 * ((2 : ℝ) : ℂ) + x) / (2 * ((2 : ℝ) : ℂ) - x))).map (fun z => -1 - z)).prod
        = (-8) ^ l.length / (l.map (fun x => 2 * ((2 : ℝ) : ℂ) - x)).prod := by
      intro l hl
      rw [List.map_map, ← prod_map_const', ← prod_map_div']
      refine prod_map_congr fun x hx => ?_
      have : 2 * ((2 : ℝ) : ℂ) - x ≠ 0 := sub_ne_zero.mpr (hl x hx).symm
      simp only [Function.comp]; rw [eq_div_iff this, sub_mul, div_mul_cancel₀ _ this]; push_cast; ring
    have h3 : (f.z.map (fun x => 2 * ((2 : ℝ) : ℂ) - x)).prod ≠ 0 := prod_map_ne fun x hx => sub_ne_zero.mpr (hz x hx).symm
    have h5 : (f.p.map (fun x => 2 * ((2 : ℝ) : ℂ) - x)).prod ≠ 0 := prod_map_ne fun x hx => sub_ne_zero.mpr (hp x hx).symm
    have h8 : ((-8 : ℂ)) ^ f.p.length ≠ 0 := pow_ne_zero _ (by norm_num)
    rw [e]
    unfold H
    simp only [heq, Nat.sub_self, List.replicate_zero, List.append_nil]
    rw [key _ hz, key _ hp, heq, Complex.ofReal_mul, hre]
    field_simp

end

end Proadv
