import Verif.Py.Full
import Verif.Props.Overflow
import Verif.Props.RoundFluid
import Verif.Props.Underflow

/-!
# Property C254: Reynolds stresses and kinetic energy with underflow and overflow
-/

set_option linter.unusedSectionVars false

namespace Proadv.Props

open Proadv Descriptive Signal Spread

variable {K : Type} [Field K] [LinearOrder K] [FloorRing K] [IsStrictOrderedRing K]

namespace Full

section shape
variable {F : Type} [PyNum F]

/-- deviations from the mean -/
private def dev (l : List F) : List F := l.map (fun x => x -. npMean l)

/-- mean square deviation -/
private def msq (l : List F) : F := npMean ((dev l).map (fun x => x ^. 2))

/-- mean product of deviations -/
private def mprod (l k : List F) : F := npMean (List.zipWith (· *. ·) (dev l) (dev k))

private theorem fluct_eq (l : List F) (h : l ≠ []) : fluctuation l = .ok (dev l) := by
  unfold fluctuation dev
  rw [meanOf_eq l h]; rfl

private theorem dev_length (l : List F) : (dev l).length = l.length := by simp [dev]

private theorem stresses_eq (u v w : List F) (hne : u ≠ []) (huv : u.length = v.length) (huw : u.length = w.length) :
    reynoldsStresses u v w = .ok ⟨msq u, msq v, msq w, mprod u v, mprod u w, mprod v w⟩ := by
  have hp := List.length_pos_of_ne_nil hne
  have hv : v ≠ [] := List.ne_nil_of_length_pos (by omega)
  have hw : w ≠ [] := List.ne_nil_of_length_pos (by omega)
  have hd : ∀ l : List F, l ≠ [] → (dev l).map (fun x => x ^. 2) ≠ [] := by
    intro l hl h0
    exact hl (List.length_eq_zero_iff.mp (by rw [← dev_length l, ← List.length_map (f := fun x : F => x ^. 2), h0]; rfl))
  have hz : ∀ l k : List F, l ≠ [] → l.length = k.length → List.zipWith (· *. ·) (dev l) (dev k) ≠ [] := by
    intro l k hl hlk h0
    have := congrArg List.length h0
    rw [List.length_zipWith, dev_length, dev_length, ← hlk, Nat.min_self] at this
    exact hl (List.length_eq_zero_iff.mp this)
  have hb : ∀ l k : List F, l.length = k.length →
      bcast (· *. ·) (dev l) (dev k) = .ok (List.zipWith (fun x y : F => x *. y) (dev l) (dev k)) := by
    intro l k hlk
    unfold bcast
    rw [if_pos (by rw [dev_length, dev_length, hlk])]
  unfold reynoldsStresses
  simp only [fluct_eq u hne, fluct_eq v hv, fluct_eq w hw, bind, Except.bind, meanOf_eq _ (hd u hne), meanOf_eq _ (hd v hv),
    meanOf_eq _ (hd w hw), hb u v huv, hb u w huw, hb v w (huv.symm.trans huw), meanOf_eq _ (hz u v hne huv),
    meanOf_eq _ (hz u w hne huw), meanOf_eq _ (hz v w hv (huv.symm.trans huw))]
  rfl

private theorem energy_eq (u v w : List F) (hu : u ≠ []) (hv : v ≠ []) (hw : w ≠ []) :
    kineticTurbulentEnergy u v w = .ok (lit (1/2) *. (msq u +. msq v +. msq w)) := by
  have hd : ∀ l : List F, l ≠ [] → (dev l).map (fun x => x ^. 2) ≠ [] := by
    intro l hl h0
    exact hl (List.length_eq_zero_iff.mp (by rw [← dev_length l, ← List.length_map (f := fun x : F => x ^. 2), h0]; rfl))
  unfold kineticTurbulentEnergy
  simp only [fluct_eq u hu, fluct_eq v hv, fluct_eq w hw, bind, Except.bind, meanOf_eq _ (hd u hu), meanOf_eq _ (hd v hv),
    meanOf_eq _ (hd w hw)]
  rfl

end shape

/-! ## A number computed with overflow is the number computed without -/

section Le
variable {O : OArith K} {u η : K} {Rep : K → Prop}

theorem sum_le_f (h : OGrad O u η Rep) {vs : List (Ov O)} {ws : List (Rd O.toArith)} (hv : List.Forall₂ Ov.Le vs ws) :
    Ov.Le (PyNum.sum vs) (PyNum.sum ws) := by
  intro x hx
  obtain ⟨xs, hl, hx', _⟩ := h.sound vs x hx
  have hw : ws = Rd.fins O.toArith xs := by
    clear hx hx'
    subst hl
    induction xs generalizing ws with
    | nil => cases hv; rfl
    | cons y t ih =>
      cases hv with
      | cons h1 h2 => rw [h1 y rfl, ih h2]; rfl
  rw [hw, Rd.sum_fins, hx']

theorem npMean_le_f (h : OGrad O u η Rep) {vs : List (Ov O)} {ws : List (Rd O.toArith)} (hv : List.Forall₂ Ov.Le vs ws)
    (hne : vs ≠ []) (hn : Over.Nat? O vs.length) : Ov.Le (npMean vs) (npMean ws) := by
  unfold npMean
  rw [← hv.length_eq]
  exact Over.div_nat_le hn (by simpa using hne) (sum_le_f h hv)

private theorem sq_num {v : Ov O} {x : K} (h : v ^. 2 = Ov.fin O x) : ∃ a, v = Ov.fin O a ∧ x = O.rnd (a ^ 2) ∧ |x| ≤ O.top := by
  obtain ⟨y, hy, hx⟩ := Ov.squash_fin (O := O) (v := Fl.npow v 2) h
  cases v with
  | fin a => exact ⟨a, rfl, Fl.fin.inj hy ▸ hx⟩
  | nan => cases hy
  | pinf => cases hy
  | ninf => cases hy

private theorem le_sq {v : Ov O} {w : Rd O.toArith} (h : Ov.Le v w) : Ov.Le (v ^. 2) (w ^. 2) := by
  intro x hx
  obtain ⟨a, ha, hx', _⟩ := sq_num hx
  rw [h a ha, hx']; rfl

private theorem dev_le (h : OGrad O u η Rep) (xs : List K) (hne : xs ≠ []) (hn : Over.Nat? O xs.length) :
    List.Forall₂ Ov.Le (dev (Ov.fins O xs)) (dev (Rd.fins O.toArith xs)) := by
  have hf := Over.forall2_fins (O := O) xs
  have hm := npMean_le_f h hf (by simpa using hne) (by simpa using hn)
  unfold dev
  rw [List.forall₂_map_left_iff, List.forall₂_map_right_iff]
  exact hf.imp (fun a b hab => Ov.le_sub hab hm)

private theorem msq_le (h : OGrad O u η Rep) (xs : List K) (hne : xs ≠ []) (hn : Over.Nat? O xs.length) :
    Ov.Le (msq (Ov.fins O xs)) (msq (Rd.fins O.toArith xs)) := by
  refine npMean_le_f h ?_ ?_ ?_
  · rw [List.forall₂_map_left_iff, List.forall₂_map_right_iff]
    exact (dev_le h xs hne hn).imp (fun a b hab => le_sq hab)
  · intro h0
    have := congrArg List.length h0
    simp [dev] at this
    exact hne this
  · simpa [dev] using hn

private theorem forall2_zipWith {α β γ α' β' γ' : Type} {R : α → α' → Prop} {S : β → β' → Prop} {T : γ → γ' → Prop}
    {f : α → β → γ} {g : α' → β' → γ'} (hfg : ∀ a a' b b', R a a' → S b b' → T (f a b) (g a' b'))
    {l : List α} {l' : List α'} {k : List β} {k' : List β'} (hl : List.Forall₂ R l l') (hk : List.Forall₂ S k k') :
    List.Forall₂ T (List.zipWith f l k) (List.zipWith g l' k') := by
  induction hl generalizing k k' with
  | nil => simp
  | cons h _ ih =>
    cases hk with
    | nil => simp
    | cons h' hk' => exact List.Forall₂.cons (hfg _ _ _ _ h h') (ih hk')

private theorem mprod_le (h : OGrad O u η Rep) (xs ys : List K) (hne : xs ≠ []) (hl : xs.length = ys.length)
    (hn : Over.Nat? O xs.length) : Ov.Le (mprod (Ov.fins O xs) (Ov.fins O ys)) (mprod (Rd.fins O.toArith xs) (Rd.fins O.toArith ys)) := by
  have hney : ys ≠ [] := by rintro rfl; simp at hl; exact hne hl
  have e : (List.zipWith (fun x y : Ov O => x *. y) (dev (Ov.fins O xs)) (dev (Ov.fins O ys))).length = xs.length := by
    simp [dev, hl]
  refine npMean_le_f h ?_ ?_ ?_
  · exact forall2_zipWith (R := Ov.Le) (S := Ov.Le) (fun a a' b b' h1 h2 => Ov.le_mul h1 h2) (dev_le h xs hne hn) (dev_le h ys hney (hl ▸ hn))
  · intro h0
    rw [h0] at e
    exact hne (List.length_eq_zero_iff.mp e.symm)
  · rw [e]; exact hn

end Le

end Full

open Full

/-- **C254** Whatever finite recordings are given, `reynolds_stresses` returns six values, and each that is a number is within the
error of C235 of the exact stress: neither underflow nor overflow makes a number wrong without notice. -/
theorem C254_stresses (O : OArith K) (u η : K) (Rep : K → Prop) (h : OGrad O u η Rep) (us vs ws : List K) (hne : us ≠ [])
    (huv : us.length = vs.length) (huw : us.length = ws.length) (hu : ∀ x ∈ us, Rep x) (hv : ∀ x ∈ vs, Rep x)
    (hw : ∀ x ∈ ws, Rep x) (hn : Over.Nat? O us.length) :
    ∃ s : Stresses (Ov O), reynoldsStresses (Ov.fins O us) (Ov.fins O vs) (Ov.fins O ws) = .ok s ∧
      (∀ x, s.uu = Ov.fin O x → |x - Spec.var us| ≤ stressErr u η us us) ∧
      (∀ x, s.vv = Ov.fin O x → |x - Spec.var vs| ≤ stressErr u η vs vs) ∧
      (∀ x, s.ww = Ov.fin O x → |x - Spec.var ws| ≤ stressErr u η ws ws) ∧
      (∀ x, s.uv = Ov.fin O x → |x - Spec.cov us vs| ≤ stressErr u η us vs) ∧
      (∀ x, s.uw = Ov.fin O x → |x - Spec.cov us ws| ≤ stressErr u η us ws) ∧
      (∀ x, s.vw = Ov.fin O x → |x - Spec.cov vs ws| ≤ stressErr u η vs ws) := by
  have hnev : vs ≠ [] := by rintro rfl; simp at huv; exact hne huv
  have hnew : ws ≠ [] := by rintro rfl; simp at huw; exact hne huw
  have hvw : vs.length = ws.length := huv.symm.trans huw
  obtain ⟨a1, a2, a3, a4, a5, a6, e, b1, b2, b3, b4, b5, b6⟩ := C235_stresses O.toArith u η Rep h.grad us vs ws hne huv huw hu hv hw hn.1
  rw [stresses_eq _ _ _ (by simpa using hne) (by simpa using huv) (by simpa using huw)] at e
  injection e with e
  injection e with e1 e2 e3 e4 e5 e6
  have fin_inj : ∀ {a b : K}, Rd.fin O.toArith a = Rd.fin O.toArith b → a = b := fun h => Fl.fin.inj h
  refine ⟨_, stresses_eq _ _ _ (by simpa using hne) (by simpa using huv) (by simpa using huw), ?_, ?_, ?_, ?_, ?_, ?_⟩
  · intro x hx
    rw [fin_inj ((msq_le h us hne hn x hx).symm.trans e1)]; exact b1
  · intro x hx
    rw [fin_inj ((msq_le h vs hnev (huv ▸ hn) x hx).symm.trans e2)]; exact b2
  · intro x hx
    rw [fin_inj ((msq_le h ws hnew (huw ▸ hn) x hx).symm.trans e3)]; exact b3
  · intro x hx
    rw [fin_inj ((mprod_le h us vs hne huv hn x hx).symm.trans e4)]; exact b4
  · intro x hx
    rw [fin_inj ((mprod_le h us ws hne huw hn x hx).symm.trans e5)]; exact b5
  · intro x hx
    rw [fin_inj ((mprod_le h vs ws hnev hvw (huv ▸ hn) x hx).symm.trans e6)]; exact b6

/-- **C254** The same of `kinetic_turbulent_energy`. -/
theorem C254_energy (O : OArith K) (u η : K) (Rep : K → Prop) (h : OGrad O u η Rep) (us vs ws : List K) (hu0 : us ≠ [])
    (hv0 : vs ≠ []) (hw0 : ws ≠ []) (hu : ∀ x ∈ us, Rep x) (hv : ∀ x ∈ vs, Rep x) (hw : ∀ x ∈ ws, Rep x)
    (hnu : Over.Nat? O us.length) (hnv : Over.Nat? O vs.length) (hnw : Over.Nat? O ws.length)
    (hhalf : O.rnd (1 / 2) = 1 / 2) (htop : 1 / 2 ≤ O.top) :
    ∃ e : Ov O, kineticTurbulentEnergy (Ov.fins O us) (Ov.fins O vs) (Ov.fins O ws) = .ok e ∧
      ∀ x, e = Ov.fin O x → |x - (Spec.var us + Spec.var vs + Spec.var ws) / 2| ≤
        ((1 + u) ^ 3 * (stressErr u η us us + stressErr u η vs vs + stressErr u η ws ws) +
          ((1 + u) ^ 3 - 1) * (Spec.var us + Spec.var vs + Spec.var ws)) / 2 + η := by
  obtain ⟨e, he, hb⟩ := C235_energy O.toArith u η Rep h.grad us vs ws hu0 hv0 hw0 hu hv hw hnu.1 hnv.1 hnw.1 hhalf
  rw [energy_eq _ _ _ (by simpa using hu0) (by simpa using hv0) (by simpa using hw0)] at he
  injection he with he
  refine ⟨_, energy_eq _ _ _ (by simpa using hu0) (by simpa using hv0) (by simpa using hw0), ?_⟩
  intro x hx
  have hc : (((1 / 2 : ℚ)) : K) = 1 / 2 := by push_cast; rfl
  have l1 : (lit (1 / 2) : Ov O) = Ov.fin O (1 / 2) := by
    rw [Ov.lit_num (by rw [hc, hhalf]) (by rw [hc, abs_of_pos (by norm_num)]; exact htop), hc]
  have l2 : (lit (1 / 2) : Rd O.toArith) = Rd.fin O.toArith (1 / 2) := by rw [Rd.lit_fin, hc, hhalf]
  have hle : Ov.Le (lit (1 / 2) *. (msq (Ov.fins O us) +. msq (Ov.fins O vs) +. msq (Ov.fins O ws)))
      (lit (1 / 2) *. (msq (Rd.fins O.toArith us) +. msq (Rd.fins O.toArith vs) +. msq (Rd.fins O.toArith ws))) := by
    rw [l1, l2]
    exact Ov.le_mul (Ov.le_fin _) (Ov.le_add (Ov.le_add (msq_le h us hu0 hnu) (msq_le h vs hv0 hnv)) (msq_le h ws hw0 hnw))
  have : x = e := Fl.fin.inj ((hle x hx).symm.trans he)
  rw [this]; exact hb

/-! ## When nothing overflows -/

/-- bound of a mean of numbers up to `B` -/
def meanCap (u η : K) (n : Nat) (B : K) : K := (1 + u) ^ (n + 1) * B + η

/-- bound of a product of deviations of numbers up to `B` -/
def productCap (u η : K) (n : Nat) (B : K) : K := (1 + u) * ((1 + u) * (B + meanCap u η n B)) ^ 2 + η

namespace Full

section fits
variable {O : OArith K} {u η : K} {Rep : K → Prop}

private theorem rnd_cap (h : OGrad O u η Rep) (x : K) : |O.rnd x| ≤ (1 + u) * |x| + η := by
  have a1 := abs_add_le (O.rnd x - x) x
  rw [sub_add_cancel] at a1
  have a2 : |O.rnd x - x| ≤ u * |x| + η := h.grad.rnd x
  linarith

private theorem sub_cap (h : OGrad O u η Rep) (x y : K) (hx : Rep x) (hy : Rep y) : |O.rnd (x - y)| ≤ (1 + u) * (|x| + |y|) := by
  have a1 := abs_add_le (O.rnd (x - y) - (x - y)) (x - y)
  rw [sub_add_cancel] at a1
  have a2 : |O.rnd (x - y) - (x - y)| ≤ u * |x - y| := h.grad.sub x y hx hy
  have a3 := abs_sub x y
  have := h.grad.nonneg
  nlinarith

private theorem add_cap (h : OGrad O u η Rep) (x y : K) (hx : Rep x) (hy : Rep y) : |O.rnd (x + y)| ≤ (1 + u) * (|x| + |y|) := by
  have a1 := abs_add_le (O.rnd (x + y) - (x + y)) (x + y)
  rw [sub_add_cancel] at a1
  have a2 : |O.rnd (x + y) - (x + y)| ≤ u * |x + y| := h.grad.add x y hx hy
  have a3 := abs_add_le x y
  have := h.grad.nonneg
  nlinarith

private theorem mean_fits_f (h : OGrad O u η Rep) (xs : List K) (hne : xs ≠ []) (hrep : ∀ x ∈ xs, Rep x) (hn : Over.Nat? O xs.length)
    (B : K) (hB : ∀ x ∈ xs, |x| ≤ B) (hB0 : 0 ≤ B) (hs : (1 + u) ^ (xs.length + 1) * (xs.length * B) + η ≤ O.top) :
    ∃ m, npMean (Ov.fins O xs) = Ov.fin O m ∧ |m| ≤ meanCap u η xs.length B ∧ Rep m := by
  have hu := h.grad.nonneg
  have hη := h.grad.eta
  have hn1 : (1 : K) ≤ xs.length := by exact_mod_cast List.length_pos_of_ne_nil hne
  have hn0 : (xs.length : K) ≠ 0 := by linarith
  set T := (xs.map (fun x => |x|)).sum with hT
  have hTB : T ≤ xs.length * B := by
    have := List.sum_le_card_nsmul (xs.map (fun x => |x|)) B (by
      intro y hy; obtain ⟨z, hz, rfl⟩ := List.mem_map.mp hy; exact hB z hz)
    rw [nsmul_eq_mul, List.length_map] at this
    exact this
  have hT0 : 0 ≤ T := List.sum_nonneg (by intro y hy; obtain ⟨z, -, rfl⟩ := List.mem_map.mp hy; exact abs_nonneg z)
  have hp : 1 ≤ (1 + u) ^ xs.length := one_le_pow₀ (by linarith)
  have hpp : (1 + u) ^ (xs.length + 1) = (1 + u) ^ xs.length * (1 + u) := pow_succ _ _
  have hnB : 0 ≤ (xs.length : K) * B := by positivity
  have f1 : (1 + u) ^ xs.length * T ≤ (1 + u) ^ xs.length * (xs.length * B) := mul_le_mul_of_nonneg_left hTB (by linarith)
  have f2 : (1 + u) ^ xs.length * (xs.length * B) ≤ (1 + u) ^ (xs.length + 1) * (xs.length * B) := by
    rw [hpp]
    have : 0 ≤ (1 + u) ^ xs.length * (xs.length * B) := by positivity
    nlinarith
  have hsum := h.fits xs hrep (by linarith)
  have hS : |O.sum xs| ≤ (1 + u) ^ xs.length * (xs.length * B) := by
    have a1 := abs_add_le (O.sum xs - xs.sum) xs.sum
    rw [sub_add_cancel] at a1
    have a2 := h.grad.sum xs hrep
    have a3 : |xs.sum| ≤ T := by
      rw [hT]
      clear * -
      induction xs with
      | nil => simp
      | cons x t ih => simp only [List.sum_cons, List.map_cons]; exact (abs_add_le _ _).trans (by linarith)
    have a4 : |O.sum xs - xs.sum| ≤ ((1 + u) ^ xs.length - 1) * T := a2
    nlinarith
  have hq : |O.sum xs / xs.length| ≤ (1 + u) ^ xs.length * B := by
    rw [abs_div, abs_of_pos (by linarith : (0 : K) < xs.length), div_le_iff₀ (by linarith)]
    linarith
  have hm : |O.rnd (O.sum xs / xs.length)| ≤ meanCap u η xs.length B := by
    refine (rnd_cap h _).trans ?_
    unfold meanCap
    rw [hpp]
    nlinarith
  have hmt : |O.rnd (O.sum xs / xs.length)| ≤ O.top := by
    refine hm.trans (le_trans ?_ hs)
    unfold meanCap
    have : (1 + u) ^ (xs.length + 1) * B ≤ (1 + u) ^ (xs.length + 1) * (xs.length * B) :=
      mul_le_mul_of_nonneg_left (by nlinarith) (by positivity)
    linarith
  refine ⟨O.rnd (O.sum xs / xs.length), ?_, hm, h.grad.rep _⟩
  unfold npMean
  rw [List.length_map, Ov.ofNat_num hn.1 hn.2]
  have e : (PyNum.sum (Ov.fins O xs) : Ov O) = Ov.fin O (O.sum xs) := hsum
  rw [e]
  show Ov.squash O (Fl.div (Fl.fin (O.sum xs)) (Fl.fin (xs.length : K))) = _
  have e2 : Fl.div (Fl.fin (O.sum xs)) (Fl.fin (xs.length : K)) = Fl.fin (O.sum xs / xs.length) := by
    simp only [Fl.div, hn0, if_false]
  rw [e2, Ov.squash_ok hmt]; rfl

/-- the room needed for recordings of `n` samples up to `B` -/
def Room (O : OArith K) (u η : K) (n : Nat) (B : K) : Prop :=
  1 ≤ B ∧ 3 * (1 + u) ^ 3 * ((1 + u) ^ (n + 1) * (n * productCap u η n B) + η) ≤ O.top

private theorem room_facts (h : OGrad O u η Rep) {n : Nat} {B : K} (hn1 : 1 ≤ n) (hr : Room O u η n B) :
    (1 + u) ^ (n + 1) * (n * B) + η ≤ O.top ∧ (1 + u) * (B + meanCap u η n B) ≤ O.top ∧ productCap u η n B ≤ O.top ∧
      (1 + u) ^ (n + 1) * (n * productCap u η n B) + η ≤ O.top ∧ 0 ≤ productCap u η n B := by
  have hu := h.grad.nonneg
  have hη := h.grad.eta
  obtain ⟨hB, hr⟩ := hr
  have hn : (1 : K) ≤ n := by exact_mod_cast hn1
  have hp : 1 ≤ (1 + u) ^ (n + 1) := one_le_pow₀ (by linarith)
  have hp3 : 1 ≤ (1 + u) ^ 3 := one_le_pow₀ (by linarith)
  have hM : 0 ≤ meanCap u η n B := by unfold meanCap; positivity
  set F := (1 + u) * (B + meanCap u η n B) with hF
  have hFB : B ≤ F := by rw [hF]; nlinarith
  have hFF : F ≤ F ^ 2 := by nlinarith
  have hP : productCap u η n B = (1 + u) * F ^ 2 + η := rfl
  set P := productCap u η n B with hPd
  have hFP : F ≤ P := by rw [hP]; nlinarith
  have hP0 : 0 ≤ P := by linarith
  have hnP : P ≤ n * P := by nlinarith
  have hX : n * P ≤ (1 + u) ^ (n + 1) * (n * P) := by nlinarith
  have hY : 0 ≤ (1 + u) ^ (n + 1) * (n * P) + η := by nlinarith
  have hZ : (1 + u) ^ (n + 1) * (n * P) + η ≤ O.top := by
    refine le_trans ?_ hr
    nlinarith
  have hnB : (n : K) * B ≤ n * P := mul_le_mul_of_nonneg_left (hFB.trans hFP) (by linarith)
  have hW : (1 + u) ^ (n + 1) * (n * B) ≤ (1 + u) ^ (n + 1) * (n * P) := mul_le_mul_of_nonneg_left hnB (by linarith)
  exact ⟨by linarith, by linarith, by linarith, hZ, hP0⟩

private theorem dev_fits (h : OGrad O u η Rep) (xs : List K) (hne : xs ≠ []) (hrep : ∀ x ∈ xs, Rep x) (hn : Over.Nat? O xs.length)
    (B : K) (hB : ∀ x ∈ xs, |x| ≤ B) (hr : Room O u η xs.length B) :
    ∃ ds : List K, dev (Ov.fins O xs) = Ov.fins O ds ∧ ds.length = xs.length ∧
      ∀ d ∈ ds, |d| ≤ (1 + u) * (B + meanCap u η xs.length B) := by
  have hpos := List.length_pos_of_ne_nil hne
  obtain ⟨r1, r2, _⟩ := room_facts h (by omega) hr
  obtain ⟨m, em, hm, rm⟩ := mean_fits_f h xs hne hrep hn B hB (by linarith [hr.1]) r1
  have hu := h.grad.nonneg
  have hc : ∀ x ∈ xs, |O.rnd (x - m)| ≤ (1 + u) * (B + meanCap u η xs.length B) := by
    intro x hx
    exact (sub_cap h x m (hrep x hx) rm).trans (mul_le_mul_of_nonneg_left (add_le_add (hB x hx) hm) (by linarith))
  refine ⟨xs.map (fun x => O.rnd (x - m)), ?_, by simp, ?_⟩
  · unfold dev
    rw [em, List.map_map, Ov.fins, List.map_map]
    apply List.map_congr_left
    intro x hx
    have e : Fl.sub (Fl.fin x) (Fl.fin m) = Fl.fin (x - m) := rfl
    show Ov.squash O (Fl.sub (Fl.fin x) (Fl.fin m)) = _
    rw [e, Ov.squash_ok ((hc x hx).trans r2)]; rfl
  · intro d hd
    obtain ⟨x, hx, rfl⟩ := List.mem_map.mp hd
    exact hc x hx

private theorem prod_cap (h : OGrad O u η Rep) {n : Nat} {B : K} (a b : K)
    (ha : |a| ≤ (1 + u) * (B + meanCap u η n B)) (hb : |b| ≤ (1 + u) * (B + meanCap u η n B)) :
    |O.rnd (a * b)| ≤ productCap u η n B := by
  have hu := h.grad.nonneg
  refine (rnd_cap h _).trans ?_
  unfold productCap
  have : |a * b| ≤ ((1 + u) * (B + meanCap u η n B)) ^ 2 := by
    rw [abs_mul, sq]
    exact mul_le_mul ha hb (abs_nonneg _) ((abs_nonneg _).trans ha)
  have := mul_le_mul_of_nonneg_left this (by linarith : 0 ≤ 1 + u)
  linarith

private theorem mprod_fits (h : OGrad O u η Rep) (xs ys : List K) (hne : xs ≠ []) (hl : xs.length = ys.length)
    (hx : ∀ x ∈ xs, Rep x) (hy : ∀ y ∈ ys, Rep y) (hn : Over.Nat? O xs.length) (B : K) (hBx : ∀ x ∈ xs, |x| ≤ B)
    (hBy : ∀ y ∈ ys, |y| ≤ B) (hr : Room O u η xs.length B) :
    ∃ m, mprod (Ov.fins O xs) (Ov.fins O ys) = Ov.fin O m := by
  have hpos := List.length_pos_of_ne_nil hne
  have hney : ys ≠ [] := List.ne_nil_of_length_pos (by omega)
  obtain ⟨_, _, r3, r4, r5⟩ := room_facts h (by omega) hr
  obtain ⟨ds, e1, l1, b1⟩ := dev_fits h xs hne hx hn B hBx hr
  obtain ⟨es, e2, l2, b2⟩ := dev_fits h ys hney hy (hl ▸ hn) B hBy (hl ▸ hr)
  rw [← hl] at b2
  have ez : List.zipWith (fun x y : Ov O => x *. y) (Ov.fins O ds) (Ov.fins O es) =
      Ov.fins O (List.zipWith (fun a b => O.rnd (a * b)) ds es) := by
    clear l1 l2 e1 e2
    induction ds generalizing es with
    | nil => rfl
    | cons a t ih =>
      cases es with
      | nil => rfl
      | cons b s =>
        simp only [List.map_cons, List.zipWith_cons_cons]
        rw [ih (fun d hd => b1 d (by simp [hd])) s (fun d hd => b2 d (by simp [hd]))]
        congr 1
        show Ov.squash O (Fl.fin (a * b)) = _
        rw [Ov.squash_ok ((prod_cap h a b (b1 a (by simp)) (b2 b (by simp))).trans r3)]; rfl
  have hlen : (List.zipWith (fun a b => O.rnd (a * b)) ds es).length = xs.length := by
    rw [List.length_zipWith, l1, l2, ← hl, Nat.min_self]
  have hmem : ∀ p ∈ List.zipWith (fun a b => O.rnd (a * b)) ds es, ∃ a ∈ ds, ∃ b ∈ es, p = O.rnd (a * b) := by
    intro p hp
    rw [← List.map_uncurry_zip_eq_zipWith] at hp
    obtain ⟨⟨a, b⟩, hab, rfl⟩ := List.mem_map.mp hp
    exact ⟨a, (List.of_mem_zip hab).1, b, (List.of_mem_zip hab).2, rfl⟩
  obtain ⟨m, em, _⟩ := mean_fits_f h (List.zipWith (fun a b => O.rnd (a * b)) ds es) (List.ne_nil_of_length_pos (by omega))
    (by intro p hp; obtain ⟨a, _, b, _, rfl⟩ := hmem p hp; exact h.grad.rep _) (by rw [hlen]; exact hn)
    (productCap u η xs.length B)
    (by intro p hp; obtain ⟨a, ha, b, hb, rfl⟩ := hmem p hp; exact prod_cap h a b (b1 a ha) (b2 b hb)) r5 (by rw [hlen]; exact r4)
  refine ⟨m, ?_⟩
  unfold mprod
  rw [e1, e2, ez, em]

private theorem msq_fits (h : OGrad O u η Rep) (xs : List K) (hne : xs ≠ []) (hx : ∀ x ∈ xs, Rep x) (hn : Over.Nat? O xs.length)
    (B : K) (hBx : ∀ x ∈ xs, |x| ≤ B) (hr : Room O u η xs.length B) :
    ∃ m, msq (Ov.fins O xs) = Ov.fin O m ∧ |m| ≤ (1 + u) ^ (xs.length + 1) * (xs.length * productCap u η xs.length B) + η ∧ Rep m := by
  have hpos := List.length_pos_of_ne_nil hne
  have hu := h.grad.nonneg
  obtain ⟨_, _, r3, r4, r5⟩ := room_facts h (by omega) hr
  obtain ⟨ds, e1, l1, b1⟩ := dev_fits h xs hne hx hn B hBx hr
  have ez : (Ov.fins O ds).map (fun x : Ov O => x ^. 2) = Ov.fins O (ds.map (fun a => O.rnd (a * a))) := by
    rw [List.map_map, Ov.fins, List.map_map]
    apply List.map_congr_left
    intro a ha
    show Ov.squash O (Fl.fin (a ^ 2)) = Fl.fin (O.rnd (a * a))
    rw [sq, Ov.squash_ok ((prod_cap h a a (b1 a ha) (b1 a ha)).trans r3)]
  have hlen : (ds.map (fun a => O.rnd (a * a))).length = xs.length := by rw [List.length_map, l1]
  obtain ⟨m, em, hm, rm⟩ := mean_fits_f h (ds.map (fun a => O.rnd (a * a))) (List.ne_nil_of_length_pos (by omega))
    (by intro p hp; obtain ⟨a, _, rfl⟩ := List.mem_map.mp hp; exact h.grad.rep _) (by rw [hlen]; exact hn)
    (productCap u η xs.length B)
    (by intro p hp; obtain ⟨a, ha, rfl⟩ := List.mem_map.mp hp; exact prod_cap h a a (b1 a ha) (b1 a ha)) r5 (by rw [hlen]; exact r4)
  refine ⟨m, ?_, ?_, rm⟩
  · unfold msq
    rw [e1, ez, em]
  · refine hm.trans ?_
    rw [hlen]
    unfold meanCap
    have h1 : (1 : K) ≤ xs.length := by exact_mod_cast hpos
    have : (1 + u) ^ (xs.length + 1) * productCap u η xs.length B ≤
        (1 + u) ^ (xs.length + 1) * (xs.length * productCap u η xs.length B) :=
      mul_le_mul_of_nonneg_left (by nlinarith) (by positivity)
    linarith

private theorem half_sum_fits (h : OGrad O u η Rep) {a b c U : K} (ra : Rep a) (rb : Rep b) (rc : Rep c) (ba : |a| ≤ U) (bb : |b| ≤ U)
    (bc : |c| ≤ U) (hUη : η ≤ U) (hroom : 3 * (1 + u) ^ 3 * U ≤ O.top) :
    |O.rnd (a + b)| ≤ O.top ∧ |O.rnd (O.rnd (a + b) + c)| ≤ O.top ∧ |O.rnd (1 / 2 * O.rnd (O.rnd (a + b) + c))| ≤ O.top := by
  have hu0 := h.grad.nonneg
  have hU0 : 0 ≤ U := h.grad.eta.trans hUη
  have c1 : |O.rnd (a + b)| ≤ (1 + u) * (U + U) :=
    (add_cap h a b ra rb).trans (mul_le_mul_of_nonneg_left (add_le_add ba bb) (by linarith))
  have c2 : |O.rnd (O.rnd (a + b) + c)| ≤ (1 + u) * ((1 + u) * (U + U) + U) :=
    (add_cap h _ c (h.grad.rep _) rc).trans (mul_le_mul_of_nonneg_left (add_le_add c1 bc) (by linarith))
  have c3 : |O.rnd (1 / 2 * O.rnd (O.rnd (a + b) + c))| ≤ (1 + u) * (|O.rnd (O.rnd (a + b) + c)| / 2) + η := by
    refine (rnd_cap h _).trans ?_
    rw [abs_mul, abs_of_pos (by norm_num : (0 : K) < 1 / 2)]
    linarith
  have c4 := mul_le_mul_of_nonneg_left c2 (by linarith : 0 ≤ 1 + u)
  have uU : 0 ≤ u * U := mul_nonneg hu0 hU0
  have uuU : 0 ≤ u * (u * U) := mul_nonneg hu0 uU
  have uuuU : 0 ≤ u * (u * (u * U)) := mul_nonneg hu0 uuU
  have e3 : 3 * (1 + u) ^ 3 * U = 3 * U + 9 * (u * U) + 9 * (u * (u * U)) + 3 * (u * (u * (u * U))) := by ring
  have e1 : (1 + u) * (U + U) = 2 * U + 2 * (u * U) := by ring
  have e2 : (1 + u) * ((1 + u) * (U + U) + U) = 3 * U + 5 * (u * U) + 2 * (u * (u * U)) := by ring
  have e4 : (1 + u) * ((1 + u) * ((1 + u) * (U + U) + U)) = 3 * U + 8 * (u * U) + 7 * (u * (u * U)) + 2 * (u * (u * (u * U))) := by ring
  rw [e1] at c1
  rw [e4] at c4
  rw [e2] at c2
  rw [e3] at hroom
  exact ⟨by linarith, by linarith, by linarith⟩

end fits

end Full

/-- **C254** No stress and no energy overflows as long as all samples are at most `B` and
`3 (1 + u)³ ((1 + u)^(n+1) n P + η)` is at most the largest number, `P` being the largest product of two deviations. -/
theorem C254_fits (O : OArith K) (u η : K) (Rep : K → Prop) (h : OGrad O u η Rep) (us vs ws : List K) (hne : us ≠ [])
    (huv : us.length = vs.length) (huw : us.length = ws.length) (hu : ∀ x ∈ us, Rep x) (hv : ∀ x ∈ vs, Rep x)
    (hw : ∀ x ∈ ws, Rep x) (hn : Over.Nat? O us.length) (hhalf : O.rnd (1 / 2) = 1 / 2) (B : K) (hB : 1 ≤ B)
    (bu : ∀ x ∈ us, |x| ≤ B) (bv : ∀ x ∈ vs, |x| ≤ B) (bw : ∀ x ∈ ws, |x| ≤ B)
    (hroom : 3 * (1 + u) ^ 3 * ((1 + u) ^ (us.length + 1) * (us.length * productCap u η us.length B) + η) ≤ O.top) :
    (∃ uu vv ww uv uw vw : K, reynoldsStresses (Ov.fins O us) (Ov.fins O vs) (Ov.fins O ws) =
      .ok ⟨Ov.fin O uu, Ov.fin O vv, Ov.fin O ww, Ov.fin O uv, Ov.fin O uw, Ov.fin O vw⟩) ∧
    ∃ e : K, kineticTurbulentEnergy (Ov.fins O us) (Ov.fins O vs) (Ov.fins O ws) = .ok (Ov.fin O e) := by
  have hr : Room O u η us.length B := ⟨hB, hroom⟩
  have hpos := List.length_pos_of_ne_nil hne
  have hnev : vs ≠ [] := List.ne_nil_of_length_pos (by omega)
  have hnew : ws ≠ [] := List.ne_nil_of_length_pos (by omega)
  have hu0 := h.grad.nonneg
  have hη := h.grad.eta
  obtain ⟨a, ea, ba, ra⟩ := msq_fits h us hne hu hn B bu hr
  obtain ⟨b, eb, bb, rb⟩ := msq_fits h vs hnev hv (huv ▸ hn) B bv (huv ▸ hr)
  obtain ⟨c, ec, bc, rc⟩ := msq_fits h ws hnew hw (huw ▸ hn) B bw (huw ▸ hr)
  rw [← huv] at bb
  rw [← huw] at bc
  constructor
  · obtain ⟨x, ex⟩ := mprod_fits h us vs hne huv hu hv hn B bu bv hr
    obtain ⟨y, ey⟩ := mprod_fits h us ws hne huw hu hw hn B bu bw hr
    obtain ⟨z, ez⟩ := mprod_fits h vs ws hnev (huv.symm.trans huw) hv hw (huv ▸ hn) B bv bw (huv ▸ hr)
    refine ⟨a, b, c, x, y, z, ?_⟩
    rw [stresses_eq _ _ _ (by simpa using hne) (by simpa using huv) (by simpa using huw), ea, eb, ec, ex, ey, ez]
  · obtain ⟨r1, r2, r3, r4, r5⟩ := room_facts h (by omega) hr
    have hUη : η ≤ (1 + u) ^ (us.length + 1) * (us.length * productCap u η us.length B) + η := by
      have : 0 ≤ (1 + u) ^ (us.length + 1) * (us.length * productCap u η us.length B) := by positivity
      linarith
    obtain ⟨t1, t2, t3⟩ := half_sum_fits h ra rb rc ba bb bc hUη hroom
    set s := O.rnd (O.rnd (a + b) + c) with hs
    have htop : 1 / 2 ≤ O.top := by
      have : B ≤ (1 + u) * (B + meanCap u η us.length B) := by
        have : 0 ≤ meanCap u η us.length B := by unfold meanCap; positivity
        nlinarith
      linarith
    have hc : (((1 / 2 : ℚ)) : K) = 1 / 2 := by push_cast; rfl
    have l1 : (lit (1 / 2) : Ov O) = Ov.fin O (1 / 2) := by
      rw [Ov.lit_num (by rw [hc, hhalf]) (by rw [hc, abs_of_pos (by norm_num)]; exact htop), hc]
    refine ⟨O.rnd (1 / 2 * s), ?_⟩
    rw [energy_eq _ _ _ (by simpa using hne) (by simpa using hnev) (by simpa using hnew), ea, eb, ec, l1]
    congr 1
    have p1 : (Ov.fin O a +. Ov.fin O b : Ov O) = Ov.fin O (O.rnd (a + b)) := by
      show Ov.squash O (Fl.fin (a + b)) = _
      rw [Ov.squash_ok t1]; rfl
    have p2 : (Ov.fin O (O.rnd (a + b)) +. Ov.fin O c : Ov O) = Ov.fin O s := by
      show Ov.squash O (Fl.fin (O.rnd (a + b) + c)) = _
      rw [Ov.squash_ok t2]; rfl
    rw [p1, p2]
    show Ov.squash O (Fl.fin (1 / 2 * s)) = _
    rw [Ov.squash_ok t3]; rfl

/-! ## Normal stresses and energy are never NaN -/

/-- a number that is not negative, or plus infinity -/
def NonnegOrInf {O : OArith K} (v : Ov O) : Prop := v = Ov.inf O ∨ ∃ x, 0 ≤ x ∧ v = Ov.fin O x

namespace Full

section nan
variable {rnd : K → K} {top : K}

/-- not NaN -/
private def Real? (v : Fl K) : Prop := v ≠ Fl.nan

private theorem squash_real {O : OArith K} {v : Fl K} (h : Real? v) : Real? (Ov.squash O v) := by
  cases v with
  | fin x =>
    intro h0
    simp only [Ov.squash] at h0
    split at h0
    · cases h0
    · split at h0 <;> cases h0
  | nan => exact absurd rfl h
  | pinf => intro h0; cases h0
  | ninf => intro h0; cases h0

private theorem add_fin_real {v : Fl K} (h : Real? v) (x : K) : Real? (Fl.add v (Fl.fin x)) := by
  cases v with
  | fin y => intro h0; cases h0
  | nan => exact absurd rfl h
  | pinf => intro h0; cases h0
  | ninf => intro h0; cases h0

private theorem sum_real (xs : List K) : Real? ((leftOArith rnd top).osum (xs.map Fl.fin)) := by
  rw [leftOArith_osum]
  have key : ∀ (xs : List K) (s : Fl K), Real? s →
      Real? ((xs.map Fl.fin).foldl (fun s x => Ov.squash (leftOArith rnd top) (Fl.add s x)) s) := by
    intro xs
    induction xs with
    | nil => intro s hs; exact hs
    | cons x t ih => intro s hs; exact ih _ (squash_real (add_fin_real hs x))
  exact key xs _ (by intro h0; cases h0)

private theorem div_real {v : Fl K} (h : Real? v) {c : K} (hc : c ≠ 0) : Real? (Fl.div v (Fl.fin c)) := by
  cases v with
  | fin y => intro h0; simp only [Fl.div, hc, if_false] at h0; cases h0
  | nan => exact absurd rfl h
  | pinf => intro h0; simp only [Fl.div] at h0; split at h0 <;> cases h0
  | ninf => intro h0; simp only [Fl.div] at h0; split at h0 <;> cases h0

private theorem mean_real (xs : List K) (hne : xs ≠ []) (hn : Over.Nat? (leftOArith rnd top) xs.length) :
    @npMean (Ov (leftOArith rnd top)) _ (Ov.fins (leftOArith rnd top) xs) ≠ PyNum.nan := by
  have h0 : (xs.length : K) ≠ 0 := by exact_mod_cast (List.length_pos_of_ne_nil hne).ne'
  unfold npMean
  rw [List.length_map, Ov.ofNat_num hn.1 hn.2]
  exact squash_real (O := leftOArith rnd top) (div_real (sum_real xs) h0)

private theorem sub_real {v : Fl K} (h : Real? v) (x : K) : Real? (Fl.sub (Fl.fin x) v) := by
  cases v with
  | fin y => intro h0; cases h0
  | nan => exact absurd rfl h
  | pinf => intro h0; cases h0
  | ninf => intro h0; cases h0

private theorem squash_nonneg {O : OArith K} (ht : 0 ≤ O.top) (hr : ∀ x, 0 ≤ x → 0 ≤ O.rnd x) {x : K} (hx : 0 ≤ x) :
    NonnegOrInf (O := O) (Ov.squash O (Fl.fin x)) := by
  by_cases h : |O.rnd x| ≤ O.top
  · exact Or.inr ⟨O.rnd x, hr x hx, Ov.squash_ok h⟩
  · left
    have h1 : 0 < O.rnd x := by
      rcases (hr x hx).lt_or_eq with h1 | h1
      · exact h1
      · exact absurd (by rw [← h1, abs_zero]; exact ht) h
    show (if |O.rnd x| ≤ O.top then Fl.fin (O.rnd x) else if 0 < O.rnd x then Fl.pinf else Fl.ninf : Fl K) = Fl.pinf
    rw [if_neg h, if_pos h1]

private theorem sq_nonneg_f {O : OArith K} (ht : 0 ≤ O.top) (hr : ∀ x, 0 ≤ x → 0 ≤ O.rnd x) {v : Ov O} (h : Real? (K := K) v) :
    NonnegOrInf (v ^. 2) := by
  cases v with
  | fin x => exact squash_nonneg ht hr (sq_nonneg x)
  | nan => exact absurd rfl h
  | pinf => exact Or.inl rfl
  | ninf => exact Or.inl rfl

private theorem add_nonneg_f {O : OArith K} (ht : 0 ≤ O.top) (hr : ∀ x, 0 ≤ x → 0 ≤ O.rnd x) {v w : Ov O} (hv : NonnegOrInf v)
    (hw : NonnegOrInf w) : NonnegOrInf (v +. w) ∧ (v = Ov.inf O ∨ w = Ov.inf O → v +. w = Ov.inf O) := by
  rcases hv with rfl | ⟨x, hx, rfl⟩ <;> rcases hw with rfl | ⟨y, hy, rfl⟩
  · exact ⟨Or.inl rfl, fun _ => rfl⟩
  · exact ⟨Or.inl rfl, fun _ => rfl⟩
  · exact ⟨Or.inl rfl, fun _ => rfl⟩
  · refine ⟨squash_nonneg ht hr (add_nonneg hx hy), ?_⟩
    rintro (h | h) <;> cases h

private theorem sum_nonneg_f (ht : 0 ≤ top) (hr : ∀ x, 0 ≤ x → 0 ≤ rnd x) (l : List (Ov (leftOArith rnd top)))
    (hl : ∀ v ∈ l, NonnegOrInf v) :
    NonnegOrInf (PyNum.sum l) ∧ (Ov.inf (leftOArith rnd top) ∈ l → PyNum.sum l = Ov.inf (leftOArith rnd top)) := by
  have e : (PyNum.sum l : Ov (leftOArith rnd top)) = l.foldl (fun s x => s +. x) (Ov.fin (leftOArith rnd top) 0) :=
    leftOArith_osum rnd top l
  rw [e]
  have key : ∀ (l : List (Ov (leftOArith rnd top))) (s : Ov (leftOArith rnd top)), (∀ v ∈ l, NonnegOrInf v) → NonnegOrInf s →
      NonnegOrInf (l.foldl (fun s x => s +. x) s) ∧
        (s = Ov.inf (leftOArith rnd top) ∨ Ov.inf (leftOArith rnd top) ∈ l →
          l.foldl (fun s x => s +. x) s = Ov.inf (leftOArith rnd top)) := by
    intro l
    induction l with
    | nil =>
      intro s _ hs
      refine ⟨hs, ?_⟩
      rintro (h | h)
      · exact h
      · cases h
    | cons x t ih =>
      intro s hl hs
      obtain ⟨a1, a2⟩ := add_nonneg_f (O := leftOArith rnd top) ht hr hs (hl x (by simp))
      obtain ⟨b1, b2⟩ := ih _ (fun v hv => hl v (by simp [hv])) a1
      refine ⟨b1, ?_⟩
      intro h
      apply b2
      rcases h with h | h
      · exact Or.inl (a2 (Or.inl h))
      · rcases List.mem_cons.mp h with h | h
        · exact Or.inl (a2 (Or.inr h.symm))
        · exact Or.inr h
  obtain ⟨k1, k2⟩ := key l _ hl (Or.inr ⟨0, le_rfl, rfl⟩)
  exact ⟨k1, fun h => k2 (Or.inr h)⟩

private theorem mean_nonneg_f (ht : 0 ≤ top) (hr : ∀ x, 0 ≤ x → 0 ≤ rnd x) (l : List (Ov (leftOArith rnd top))) (hne : l ≠ [])
    (hn : Over.Nat? (leftOArith rnd top) l.length) (hl : ∀ v ∈ l, NonnegOrInf v) :
    NonnegOrInf (npMean l) ∧ (Ov.inf (leftOArith rnd top) ∈ l → npMean l = Ov.inf (leftOArith rnd top)) := by
  have h0 : 0 < (l.length : K) := by exact_mod_cast List.length_pos_of_ne_nil hne
  obtain ⟨h1, h2⟩ := sum_nonneg_f ht hr l hl
  have hinf : (Ov.inf (leftOArith rnd top) /. Ov.fin (leftOArith rnd top) (l.length : K) : Ov (leftOArith rnd top)) =
      Ov.inf (leftOArith rnd top) := by
    show Ov.squash _ (Fl.div Fl.pinf (Fl.fin (l.length : K))) = Fl.pinf
    have : Fl.div Fl.pinf (Fl.fin (l.length : K)) = (Fl.pinf : Fl K) := by
      simp only [Fl.div]
      rw [if_pos h0.le]
    rw [this]; rfl
  unfold npMean
  rw [Ov.ofNat_num hn.1 hn.2]
  constructor
  · rcases h1 with h | ⟨x, hx, h⟩
    · rw [h, hinf]; exact Or.inl rfl
    · rw [h]
      have e : Fl.div (Fl.fin x) (Fl.fin (l.length : K)) = Fl.fin (x / l.length) := by simp only [Fl.div, h0.ne', if_false]
      show NonnegOrInf (O := leftOArith rnd top) (Ov.squash _ (Fl.div (Fl.fin x) (Fl.fin (l.length : K))))
      rw [e]
      exact squash_nonneg (O := leftOArith rnd top) ht hr (div_nonneg hx h0.le)
  · intro h
    rw [h2 h, hinf]

private theorem msq_nonneg (ht : 0 ≤ top) (hr : ∀ x, 0 ≤ x → 0 ≤ rnd x) (xs : List K) (hne : xs ≠ [])
    (hn : Over.Nat? (leftOArith rnd top) xs.length) :
    NonnegOrInf (msq (Ov.fins (leftOArith rnd top) xs)) ∧
      ((∃ x ∈ xs, ¬ Ov.IsNum ((Ov.fin (leftOArith rnd top) x -. npMean (Ov.fins (leftOArith rnd top) xs)) ^. 2)) →
        msq (Ov.fins (leftOArith rnd top) xs) = Ov.inf (leftOArith rnd top)) := by
  have hm := mean_real (rnd := rnd) (top := top) xs hne hn
  generalize hmd : @npMean (Ov (leftOArith rnd top)) _ (Ov.fins (leftOArith rnd top) xs) = m at hm
  have hsq : ∀ x : K, NonnegOrInf ((Ov.fin (leftOArith rnd top) x -. npMean (Ov.fins (leftOArith rnd top) xs)) ^. 2) := by
    intro x
    rw [hmd]
    exact sq_nonneg_f (O := leftOArith rnd top) ht hr (squash_real (O := leftOArith rnd top) (sub_real (v := m) hm x))
  have hlen : ((dev (Ov.fins (leftOArith rnd top) xs)).map (fun x => x ^. 2)).length = xs.length := by simp [dev]
  obtain ⟨a, b⟩ := mean_nonneg_f ht hr ((dev (Ov.fins (leftOArith rnd top) xs)).map (fun x => x ^. 2))
    (List.ne_nil_of_length_pos (by rw [hlen]; exact List.length_pos_of_ne_nil hne)) (by rw [hlen]; exact hn) (by
      intro v hv
      obtain ⟨w, hw, rfl⟩ := List.mem_map.mp hv
      obtain ⟨y, hy, rfl⟩ := List.mem_map.mp hw
      obtain ⟨x, -, rfl⟩ := List.mem_map.mp hy
      exact hsq x)
  refine ⟨a, ?_⟩
  rintro ⟨x, hx, hnum⟩
  apply b
  have : (Ov.fin (leftOArith rnd top) x -. npMean (Ov.fins (leftOArith rnd top) xs)) ^. 2 = Ov.inf (leftOArith rnd top) := by
    rcases hsq x with h | ⟨y, _, h⟩
    · exact h
    · rw [hmd] at h
      exact absurd ⟨y, h⟩ hnum
  rw [← this]
  exact List.mem_map_of_mem (List.mem_map_of_mem (List.mem_map_of_mem hx))

end nan

end Full

/-- **C254** The normal stresses of finite recordings are never NaN and never negative: each is a number or plus infinity, and it is
infinite as soon as the square of one deviation is not a number. -/
theorem C254_normal (rnd : K → K) (top : K) (ht : 0 ≤ top) (hr : ∀ x, 0 ≤ x → 0 ≤ rnd x) (us vs ws : List K) (hne : us ≠ [])
    (huv : us.length = vs.length) (huw : us.length = ws.length) (hn : Over.Nat? (leftOArith rnd top) us.length) :
    ∃ s, reynoldsStresses (Ov.fins (leftOArith rnd top) us) (Ov.fins (leftOArith rnd top) vs) (Ov.fins (leftOArith rnd top) ws) = .ok s ∧
      NonnegOrInf s.uu ∧ NonnegOrInf s.vv ∧ NonnegOrInf s.ww ∧
      ∀ m, meanOf (Ov.fins (leftOArith rnd top) us) = .ok m →
        (∃ x ∈ us, ¬ Ov.IsNum ((Ov.fin (leftOArith rnd top) x -. m) ^. 2)) → s.uu = Ov.inf (leftOArith rnd top) := by
  have hpos := List.length_pos_of_ne_nil hne
  have hnev : vs ≠ [] := List.ne_nil_of_length_pos (by omega)
  have hnew : ws ≠ [] := List.ne_nil_of_length_pos (by omega)
  refine ⟨_, stresses_eq _ _ _ (by simpa using hne) (by simpa using huv) (by simpa using huw), (msq_nonneg ht hr us hne hn).1,
    (msq_nonneg ht hr vs hnev (huv ▸ hn)).1, (msq_nonneg ht hr ws hnew (huw ▸ hn)).1, ?_⟩
  intro m hm hx
  rw [meanOf_eq _ (by simpa using hne)] at hm
  injection hm with hm
  subst hm
  exact (msq_nonneg ht hr us hne hn).2 hx

/-- **C254** Nor is the energy, which is infinite as soon as one normal stress is. -/
theorem C254_energy_real (rnd : K → K) (top : K) (ht : 1 / 2 ≤ top) (hr : ∀ x, 0 ≤ x → 0 ≤ rnd x) (hhalf : rnd (1 / 2) = 1 / 2)
    (us vs ws : List K) (hne : us ≠ []) (huv : us.length = vs.length) (huw : us.length = ws.length)
    (hn : Over.Nat? (leftOArith rnd top) us.length) :
    ∃ s e, reynoldsStresses (Ov.fins (leftOArith rnd top) us) (Ov.fins (leftOArith rnd top) vs) (Ov.fins (leftOArith rnd top) ws) = .ok s ∧
      kineticTurbulentEnergy (Ov.fins (leftOArith rnd top) us) (Ov.fins (leftOArith rnd top) vs) (Ov.fins (leftOArith rnd top) ws) = .ok e ∧
      NonnegOrInf e ∧
      (s.uu = Ov.inf (leftOArith rnd top) ∨ s.vv = Ov.inf (leftOArith rnd top) ∨ s.ww = Ov.inf (leftOArith rnd top) →
        e = Ov.inf (leftOArith rnd top)) := by
  have hpos := List.length_pos_of_ne_nil hne
  have hnev : vs ≠ [] := List.ne_nil_of_length_pos (by omega)
  have hnew : ws ≠ [] := List.ne_nil_of_length_pos (by omega)
  have ht0 : 0 ≤ top := le_trans (by norm_num) ht
  have a := (msq_nonneg ht0 hr us hne hn).1
  have b := (msq_nonneg ht0 hr vs hnev (huv ▸ hn)).1
  have c := (msq_nonneg ht0 hr ws hnew (huw ▸ hn)).1
  obtain ⟨d1, d2⟩ := add_nonneg_f (O := leftOArith rnd top) ht0 hr a b
  obtain ⟨f1, f2⟩ := add_nonneg_f (O := leftOArith rnd top) ht0 hr d1 c
  have hc : (((1 / 2 : ℚ)) : K) = 1 / 2 := by push_cast; rfl
  have l1 : (lit (1 / 2) : Ov (leftOArith rnd top)) = Ov.fin (leftOArith rnd top) (1 / 2) := by
    rw [Ov.lit_num (by rw [hc]; exact hhalf) (by rw [hc, abs_of_pos (by norm_num)]; exact ht), hc]
  have hinf : (Ov.fin (leftOArith rnd top) (1 / 2) *. Ov.inf (leftOArith rnd top) : Ov (leftOArith rnd top)) =
      Ov.inf (leftOArith rnd top) := by
    show Ov.squash _ (Fl.mul (Fl.fin (1 / 2 : K)) Fl.pinf) = Fl.pinf
    have : Fl.mul (Fl.fin (1 / 2 : K)) Fl.pinf = Fl.pinf := by
      simp only [Fl.mul, Fl.infSgn]
      norm_num
    rw [this]; rfl
  refine ⟨_, _, stresses_eq _ _ _ (by simpa using hne) (by simpa using huv) (by simpa using huw),
    energy_eq _ _ _ (by simpa using hne) (by simpa using hnev) (by simpa using hnew), ?_, ?_⟩
  · rw [l1]
    rcases f1 with h | ⟨x, hx, h⟩
    · rw [h, hinf]; exact Or.inl rfl
    · rw [h]
      exact squash_nonneg (O := leftOArith rnd top) ht0 hr (by positivity : 0 ≤ 1 / 2 * x)
  · intro h
    rw [l1, f2 (by
      rcases h with h | h | h
      · exact Or.inl (d2 (Or.inl h))
      · exact Or.inl (d2 (Or.inr h))
      · exact Or.inr h), hinf]

/-! ## Binary64 -/

/-- binary64 with subnormal numbers and infinities, left-to-right summation -/
def bin64f : OArith ℚ := leftOArith rndSub top64

theorem bin64f_grad : OGrad bin64f (1 / 2 ^ 53) (2 ^ (-1075 : ℤ)) Grid :=
  leftOArith_grad rndSub _ _ _ _ (by unfold top64; norm_num) bin64g_gradual

theorem rndSub_nonneg (x : ℚ) (hx : 0 ≤ x) : 0 ≤ rndSub x := by
  unfold rndSub
  split_ifs with h
  · exact le_rfl
  · have : 0 ≤ x / 2 ^ (Max.max (Int.log 2 |x| - 52) (-1074) : ℤ) := by positivity
    have h2 : 0 ≤ Fl.rint (x / 2 ^ (Max.max (Int.log 2 |x| - 52) (-1074) : ℤ)) := by
      unfold Fl.rint
      have hf : 0 ≤ ⌊x / 2 ^ (Max.max (Int.log 2 |x| - 52) (-1074) : ℤ)⌋ := Int.floor_nonneg.mpr this
      simp only
      split_ifs <;> omega
    have h3 : (0 : ℚ) ≤ (Fl.rint (x / 2 ^ (Max.max (Int.log 2 |x| - 52) (-1074) : ℤ)) : ℚ) := by exact_mod_cast h2
    positivity

/-- **C254** In binary64 the shear stress of finite recordings may be NaN: two uncorrelated components alternating between `±2^600`
have exact shear stress 0, normal stresses `2^1200`, and get NaN and infinity. -/
theorem C254_binary64 :
    reynoldsStresses (Ov.fins bin64f [2 ^ 600, -2 ^ 600, 2 ^ 600, -2 ^ 600]) (Ov.fins bin64f [2 ^ 600, 2 ^ 600, -2 ^ 600, -2 ^ 600])
        (Ov.fins bin64f [1, 2, 1, 2]) =
      .ok ⟨Ov.inf bin64f, Ov.inf bin64f, Ov.fin bin64f (1 / 4), PyNum.nan, Ov.fin bin64f (-(2 ^ 599)), Ov.fin bin64f 0⟩ ∧
    Spec.cov [2 ^ 600, -2 ^ 600, 2 ^ 600, -2 ^ 600] [2 ^ 600, 2 ^ 600, -2 ^ 600, (-2 ^ 600 : ℚ)] = 0 := by
  constructor
  · decide +kernel
  · decide +kernel

/-- the hypotheses of C254 are met by binary64, with room for 1000 samples up to 10^150 -/
example : OGrad bin64f (1 / 2 ^ 53) (2 ^ (-1075 : ℤ)) Grid ∧ Over.Nat? bin64f 1000 ∧ bin64f.rnd (1 / 2) = 1 / 2 ∧
    (∀ x, 0 ≤ x → 0 ≤ bin64f.rnd x) ∧
    3 * (1 + 1 / 2 ^ 53 : ℚ) ^ 3 * ((1 + 1 / 2 ^ 53) ^ (1000 + 1) * (1000 * productCap (1 / 2 ^ 53) (2 ^ (-1075 : ℤ)) 1000 (10 ^ 150)) +
      2 ^ (-1075 : ℤ)) ≤ bin64f.top := by
  refine ⟨bin64f_grad, ⟨rndSub_nat 1000 (by norm_num), ?_⟩, ?_, rndSub_nonneg, ?_⟩
  · decide +kernel
  · decide +kernel
  · decide +kernel

end Proadv.Props
