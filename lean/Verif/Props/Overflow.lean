import Verif.Py.Overflow
import Verif.Props.Rounding
import Verif.Props.RoundSpread

/-!
# Property C223: overflow in the statistics and moving averages

The same model definitions as in C02–C17 and C139–C142, evaluated with an arithmetic that rounds and overflows
(`Verif/Py/Overflow.lean`).
-/

set_option linter.unusedSectionVars false

namespace Proadv.Props

open Proadv Descriptive Series Spread

variable {K : Type} [Field K] [LinearOrder K] [FloorRing K] [IsStrictOrderedRing K]

namespace Over

variable {O : OArith K} {u : K}

/-- an integer that the arithmetic represents -/
def Nat? (O : OArith K) (n : Nat) : Prop := O.rnd (n : K) = n ∧ |(n : K)| ≤ O.top

theorem sum_num (h : OStd O u) {l : List (Ov O)} {x : K} (hx : PyNum.sum l = Ov.fin O x) :
    ∃ xs : List K, l = Ov.fins O xs ∧ x = O.sum xs ∧ |x| ≤ O.top := h.sound l x hx

theorem npMean_num (h : OStd O u) {l : List (Ov O)} (hne : l ≠ []) (hn : Nat? O l.length) {x : K} (hx : npMean l = Ov.fin O x) :
    ∃ xs : List K, l = Ov.fins O xs ∧ x = O.rnd (O.sum xs / xs.length) ∧ |x| ≤ O.top := by
  have h0 : (l.length : K) ≠ 0 := by
    have := List.length_pos_of_ne_nil hne
    exact_mod_cast this.ne'
  unfold npMean at hx
  rw [Ov.ofNat_num hn.1 hn.2] at hx
  obtain ⟨a, ha, hx', ht⟩ := Ov.div_num h0 hx
  obtain ⟨xs, hl, hs, _⟩ := sum_num h ha
  exact ⟨xs, hl, by rw [hx', hs, hl, List.length_map], ht⟩

theorem npMean_le (h : OStd O u) (xs : List K) (hne : xs ≠ []) (hn : Nat? O xs.length) :
    Ov.Le (npMean (Ov.fins O xs)) (npMean (Rd.fins O.toArith xs)) := by
  intro x hx
  obtain ⟨ys, hl, hx', _⟩ := npMean_num h (by simpa using hne) (by simpa using hn) hx
  have e : xs = ys := (List.map_injective_iff.mpr (fun a b h => Fl.fin.inj h)) hl
  subst e
  have h0 : (xs.length : K) ≠ 0 := by
    have := List.length_pos_of_ne_nil hne
    exact_mod_cast this.ne'
  unfold npMean
  rw [Rd.sum_fins, List.length_map, Rd.ofNat_fin, hn.1, Rd.div_fin _ h0, hx']

theorem forall2_getD {vs : List (Ov O)} {ws : List (Rd O.toArith)} (h : List.Forall₂ Ov.Le vs ws) (i : Nat) :
    Ov.Le (vs.getD i PyNum.nan) (ws.getD i PyNum.nan) := by
  induction h generalizing i with
  | nil => intro x hx; cases hx
  | cons h _ ih =>
    cases i with
    | zero => exact h
    | succ i => exact ih i

theorem forall2_fins (xs : List K) : List.Forall₂ (Ov.Le (O := O)) (Ov.fins O xs) (Rd.fins O.toArith xs) := by
  induction xs with
  | nil => exact List.Forall₂.nil
  | cons x t ih => exact List.Forall₂.cons (Ov.le_fin x) ih

theorem forall2_append {vs vs' : List (Ov O)} {ws ws' : List (Rd O.toArith)} (h : List.Forall₂ Ov.Le vs ws)
    (h' : List.Forall₂ Ov.Le vs' ws') : List.Forall₂ Ov.Le (vs ++ vs') (ws ++ ws') := List.rel_append h h'

theorem sum_le (h : OStd O u) {vs : List (Ov O)} {ws : List (Rd O.toArith)} (hv : List.Forall₂ Ov.Le vs ws) :
    Ov.Le (PyNum.sum vs) (PyNum.sum ws) := by
  intro x hx
  obtain ⟨xs, hl, hx', _⟩ := sum_num h hx
  have hw : ws = Rd.fins O.toArith xs := by
    clear hx hx'
    subst hl
    induction xs generalizing ws with
    | nil => cases hv; rfl
    | cons y t ih =>
      cases hv with
      | cons h1 h2 =>
        rw [h1 y rfl, ih h2]; rfl
  rw [hw, Rd.sum_fins, hx']

theorem div_nat_le {v : Ov O} {w : Rd O.toArith} {n : Nat} (hn : Nat? O n) (h0 : n ≠ 0) (h : Ov.Le v w) :
    Ov.Le (v /. ofNat n) (w /. ofNat n) := by
  have h0' : (n : K) ≠ 0 := by exact_mod_cast h0
  rw [Ov.ofNat_num hn.1 hn.2, Rd.ofNat_fin, hn.1]
  exact Ov.le_div h0' h

theorem npMean_le' (h : OStd O u) {vs : List (Ov O)} {ws : List (Rd O.toArith)} (hv : List.Forall₂ Ov.Le vs ws) (hne : vs ≠ [])
    (hn : Nat? O vs.length) : Ov.Le (npMean vs) (npMean ws) := by
  unfold npMean
  rw [← hv.length_eq]
  exact div_nat_le hn (by simpa using hne) (sum_le h hv)

theorem npVar_le (h : OStd O u) {vs : List (Ov O)} {ws : List (Rd O.toArith)} (hv : List.Forall₂ Ov.Le vs ws) (hne : vs ≠ [])
    (hn : Nat? O vs.length) : Ov.Le (npVar vs) (npVar ws) := by
  have hm := npMean_le' h hv hne hn
  unfold npVar
  simp only
  rw [← hv.length_eq]
  refine div_nat_le hn (by simpa using hne) (sum_le h ?_)
  rw [List.forall₂_map_left_iff, List.forall₂_map_right_iff]
  exact hv.imp (fun a b hab => Ov.le_mul (Ov.le_sub hab hm) (Ov.le_sub hab hm))

theorem maStep_le {vs : List (Ov O)} {ws : List (Rd O.toArith)} (hv : List.Forall₂ Ov.Le vs ws) {w : Nat} (hn : Nat? O w) (h0 : w ≠ 0)
    {ma : List (Ov O)} {mb : List (Rd O.toArith)} (hm : List.Forall₂ Ov.Le ma mb) (i : Nat) :
    List.Forall₂ Ov.Le (maStep vs w ma i) (maStep ws w mb i) := by
  unfold maStep
  refine forall2_append hm (List.Forall₂.cons ?_ List.Forall₂.nil)
  exact Ov.le_add (forall2_getD hm _) (div_nat_le hn h0 (Ov.le_sub (forall2_getD hv _) (forall2_getD hv _)))

end Over

open Over

/-- **C223** If `mean` returns a number, then no sample was an infinity or NaN, no partial sum overflowed, and the number is the
mean up to the rounding error of C142. -/
theorem C223_mean (O : OArith K) (u : K) (h : OStd O u) (parse : String → Option (Ov O)) (l : List (Ov O)) (hne : l ≠ [])
    (hn : Nat? O l.length) (m : K) (hm : mean parse (.seq (numItems l)) = .ok (.val (Ov.fin O m))) :
    ∃ xs : List K, l = Ov.fins O xs ∧
      |m - Spec.avg xs| ≤ ((1 + u) ^ (xs.length + 1) - 1) * Spec.avg (xs.map (fun x => |x|)) := by
  rw [mean_numItems parse l hne] at hm
  have hm' : npMean l = Ov.fin O m := by injection hm with hm; injection hm
  obtain ⟨xs, hl, hx, _⟩ := npMean_num h hne hn hm'
  have hne' : xs ≠ [] := by rintro rfl; exact hne hl
  have hlen : l.length = xs.length := by rw [hl, List.length_map]
  obtain ⟨m', hm', hb⟩ := C142_mean O.toArith u h.std (fun _ => none) xs hne' (by rw [← hlen]; exact hn.1)
  rw [mean_numItems _ _ (by simpa using hne')] at hm'
  have e := npMean_le h xs hne' (by rw [← hlen]; exact hn) m (by rw [← hl]; assumption)
  rw [e] at hm'
  have : m = m' := by
    injection hm' with h1; injection h1 with h2; exact Fl.fin.inj h2
  subst this
  exact ⟨xs, hl, hb⟩

private theorem abs_sum_le'' (xs : List K) : |xs.sum| ≤ (xs.map (fun x => |x|)).sum := by
  induction xs with
  | nil => simp
  | cons x t ih => simp only [List.sum_cons, List.map_cons]; exact (abs_add_le _ _).trans (by linarith)

/-- **C223** `mean` of numbers does not overflow when their absolute values, with room for rounding, add up to at most the largest
number -/
theorem C223_mean_fits (O : OArith K) (u : K) (h : OStd O u) (parse : String → Option (Ov O)) (xs : List K) (hne : xs ≠ [])
    (hn : Nat? O xs.length) (hs : (1 + u) ^ (xs.length + 1) * (xs.map (fun x => |x|)).sum ≤ O.top) :
    ∃ m, mean parse (.seq (numItems (Ov.fins O xs))) = .ok (.val (Ov.fin O m)) := by
  have hu := h.std.nonneg
  have hT : 0 ≤ (xs.map (fun x => |x|)).sum := List.sum_nonneg (by
    intro y hy; obtain ⟨z, -, rfl⟩ := List.mem_map.mp hy; exact abs_nonneg z)
  have hp : 1 ≤ (1 + u) ^ xs.length := one_le_pow₀ (by linarith)
  have hs' : (1 + u) ^ xs.length * (xs.map (fun x => |x|)).sum ≤ O.top := by
    refine le_trans (mul_le_mul_of_nonneg_right ?_ hT) hs
    rw [pow_succ]; nlinarith
  have h1 : (1 : K) ≤ xs.length := by exact_mod_cast List.length_pos_of_ne_nil hne
  have hsum : |O.sum xs| ≤ (1 + u) ^ xs.length * (xs.map (fun x => |x|)).sum := by
    have a1 := h.std.sum xs
    have a2 : |xs.sum| ≤ (xs.map (fun x => |x|)).sum := abs_sum_le'' xs
    have a3 := abs_add_le (O.sum xs - xs.sum) xs.sum
    rw [sub_add_cancel] at a3
    linarith
  rw [mean_numItems parse _ (by simpa using hne)]
  unfold npMean
  rw [show (PyNum.sum (Ov.fins O xs) : Ov O) = Ov.fin O (O.sum xs) from h.fits xs hs', List.length_map, Ov.ofNat_num hn.1 hn.2]
  have h0 : (xs.length : K) ≠ 0 := by linarith
  have hd : |O.rnd (O.sum xs / xs.length)| ≤ O.top := by
    have a1 := h.std.rnd (O.sum xs / xs.length)
    have a3 := abs_add_le (O.rnd (O.sum xs / xs.length) - O.sum xs / xs.length) (O.sum xs / xs.length)
    rw [sub_add_cancel] at a3
    have a4 : |O.sum xs / xs.length| ≤ |O.sum xs| := by
      rw [abs_div, abs_of_pos (by linarith : (0 : K) < xs.length)]
      exact div_le_self (abs_nonneg _) h1
    refine le_trans ?_ hs
    have a5 : |O.rnd (O.sum xs / xs.length)| ≤ (1 + u) * |O.sum xs| := by nlinarith
    refine a5.trans ?_
    rw [pow_succ]
    nlinarith
  refine ⟨O.rnd (O.sum xs / xs.length), ?_⟩
  have e : (Ov.fin O (O.sum xs) /. Ov.fin O (xs.length : K) : Ov O) = Ov.fin O (O.rnd (O.sum xs / xs.length)) := by
    show Ov.squash O (Fl.div (Fl.fin _) (Fl.fin _)) = _
    simp only [Fl.div, h0, if_false]
    exact Ov.squash_ok hd
  rw [e]

/-- **C223** If `variance` of numbers returns a number, it is the one of C142: nothing overflowed -/
theorem C223_variance (O : OArith K) (u : K) (h : OStd O u) (b : Bool) (xs : List K) (hne : xs ≠ []) (hn : Nat? O xs.length) (v : K)
    (hv : variance ⟨1, b, numItems (Ov.fins O xs)⟩ = .ok (Ov.fin O v)) :
    |v - Spec.var xs| ≤ ((1 + u) ^ (xs.length + 4) - 1) * Spec.var xs +
        (1 + u) ^ (xs.length + 4) * (((1 + u) ^ (xs.length + 1) - 1) * Spec.avg (xs.map (fun x => |x|))) ^ 2 := by
  have red : ∀ {F : Type} [PyNum F] (l : List F), l ≠ [] → variance ⟨1, b, numItems l⟩ = .ok (npVar l) := by
    intro F _ l hl
    have e1 : (numItems l).filterMap Item.val? = l := by
      simp [numItems, List.filterMap_map, Function.comp_def, Item.val?]
    have hs : (numItems l).any Item.isStr = false := by simp [numItems, Item.isStr]
    unfold variance
    simp only [hs]
    rw [if_neg (by simp), if_neg (by simp), if_neg (by simpa [numItems] using hl), e1]
  rw [red _ (by simpa using hne)] at hv
  obtain ⟨v', hv', hb⟩ := C142_variance O.toArith u h.std b xs hne hn.1
  rw [red _ (by simpa using hne)] at hv'
  have e := npVar_le h (forall2_fins xs) (by simpa using hne) (by simpa using hn) v (by injection hv)
  rw [e] at hv'
  have : v = v' := by injection hv' with h1; exact Fl.fin.inj h1
  rw [this]; exact hb

theorem Over.ma (O : OArith K) (u : K) (h : OStd O u) (b : Bool) (xs : List K) (w : Nat) (hw : 1 ≤ w) (hwn : w ≤ xs.length)
    (hnat : ∀ n : ℕ, n ≤ w → Nat? O n) (M : K) (hM : ∀ x ∈ xs, |x| ≤ M) :
    ∃ vs : List (Ov O), movingAverage ⟨1, b, Ov.fins O xs⟩ (w : Int) = .ok vs ∧ vs.length = xs.length ∧
      (∀ i y, vs[i]? = some (Ov.fin O y) →
        |y - trailingMean xs w i| ≤ ((1 + u) ^ (i + 2) - 1) * (M * (1 + 2 * (1 + u) * (2 + u) / w))) ∧
      (∀ i j, w ≤ i + 1 → i ≤ j → (hj : j < vs.length) → (hi : i < vs.length) → ¬ Ov.IsNum vs[i] → ¬ Ov.IsNum vs[j]) ∧
      (∀ i, i < w → vs[i]? = some (npMean ((Ov.fins O xs).take (i + 1)))) := by
  obtain ⟨ys, hys, hyl, hyb⟩ := C139_moving_average O.toArith u h.std b xs w hw hwn (fun n hn => (hnat n hn).1) M hM
  have hne : xs ≠ [] := by rintro rfl; simp at hwn; omega
  have red : ∀ {F : Type} [PyNum F] (l : List F), l.length = xs.length → movingAverage ⟨1, b, l⟩ (w : Int) =
      .ok ((List.range (xs.length - w)).foldl (fun ma t => maStep l w ma (w + t)) ((List.range w).map (fun i => npMean (l.take (i + 1))))) := by
    intro F _ l hl
    have hl0 : l ≠ [] := by rintro rfl; simp at hl; omega
    unfold movingAverage
    simp only [Int.toNat_natCast, hl]
    rw [if_neg (by omega), if_neg (by omega), if_neg (by simp), if_neg (by omega)]
    have h1 : (List.range w).mapM (fun i => meanOf (l.take (i + 1))) = (.ok ((List.range w).map (fun i => npMean (l.take (i + 1)))) : Py _) := by
      apply mapM_ok
      intro i _
      exact meanOf_eq _ (by
        intro h0
        have h2 := congrArg List.length h0
        rw [List.length_take, List.length_nil] at h2
        have h3 := List.length_pos_of_ne_nil hl0
        omega)
    rw [h1]; rfl
  have hlo : (Ov.fins O xs).length = xs.length := List.length_map _
  have hlr : (Rd.fins O.toArith xs).length = xs.length := List.length_map _
  rw [red _ hlr] at hys
  -- the run with overflow
  set start : List (Ov O) := (List.range w).map (fun i => npMean ((Ov.fins O xs).take (i + 1))) with hstart
  have hrel0 : List.Forall₂ Ov.Le start ((List.range w).map (fun i => npMean ((Rd.fins O.toArith xs).take (i + 1)))) := by
    rw [hstart, List.forall₂_map_left_iff, List.forall₂_map_right_iff, List.forall₂_same]
    intro i hi
    have hi := List.mem_range.mp hi
    have hl : (xs.take (i + 1)).length = i + 1 := by rw [List.length_take]; omega
    rw [← List.map_take, ← List.map_take]
    refine npMean_le' h (forall2_fins _) ?_ ?_
    · intro h0
      have := congrArg List.length h0
      rw [List.length_map, hl] at this; simp at this
    · rw [List.length_map, hl]; exact hnat _ (by omega)
  have hrel : ∀ m, List.Forall₂ Ov.Le ((List.range m).foldl (fun ma t => maStep (Ov.fins O xs) w ma (w + t)) start)
      ((List.range m).foldl (fun ma t => maStep (Rd.fins O.toArith xs) w ma (w + t))
        ((List.range w).map (fun i => npMean ((Rd.fins O.toArith xs).take (i + 1))))) := by
    intro m
    induction m with
    | zero => exact hrel0
    | succ m ih =>
      rw [List.range_succ, List.foldl_append, List.foldl_append]
      exact maStep_le (forall2_fins xs) (hnat w le_rfl) (by omega) ih _
  obtain ⟨run, hrun⟩ : ∃ run : Nat → List (Ov O), ∀ m, run m =
      (List.range m).foldl (fun ma t => maStep (Ov.fins O xs) w ma (w + t)) start := ⟨_, fun _ => rfl⟩
  have hrun0 : run 0 = start := hrun 0
  have hstep : ∀ m, ∃ d, run (m + 1) = run m ++ [(run m).getD (w + m - 1) PyNum.nan +. d] := by
    intro m
    rw [hrun (m + 1), List.range_succ, List.foldl_append, ← hrun m]
    exact ⟨_, rfl⟩
  have hlen : ∀ m, (run m).length = w + m := by
    intro m
    induction m with
    | zero => simp [hrun0, hstart]
    | succ m ih =>
      obtain ⟨d, hd⟩ := hstep m
      rw [hd, List.length_append, ih]; rfl
  have gi : ∀ (l : List (Ov O)) (x : Ov O) (k : Nat), k < l.length → (l ++ [x]).getD k PyNum.nan = l.getD k PyNum.nan := by
    intro l x k hk; simp [List.getD, List.getElem?_append_left hk]
  have ge : ∀ (l : List (Ov O)) (x : Ov O) (k : Nat), k = l.length → (l ++ [x]).getD k PyNum.nan = x := by
    intro l x k hk; subst hk; simp [List.getD]
  have hprop : ∀ m, ∀ i, w ≤ i + 1 → ∀ j, i ≤ j → j < w + m →
      ¬ Ov.IsNum ((run m).getD i PyNum.nan) → ¬ Ov.IsNum ((run m).getD j PyNum.nan) := by
    intro m
    induction m with
    | zero =>
      intro i hi j hij hj hni
      have : i = j := by omega
      rw [← this]; exact hni
    | succ m ih =>
      intro i hi j hij hj hni
      obtain ⟨d, hd⟩ := hstep m
      have hl := hlen m
      rw [hd] at hni ⊢
      by_cases hje : j < w + m
      · rw [gi _ _ _ (by omega)] at hni ⊢
        exact ih i hi j hij hje hni
      · by_cases hie : i = w + m
        · have : i = j := by omega
          rw [← this]; exact hni
        · rw [gi _ _ _ (by omega)] at hni
          have hprev := ih i hi (w + m - 1) (by omega) (by omega) hni
          rw [ge _ _ _ (by omega)]
          rintro ⟨x, hx⟩
          obtain ⟨a, _, ha, _⟩ := Ov.add_num hx
          exact hprev ⟨a, ha⟩
  simp only [← hrun] at hrel
  refine ⟨run (xs.length - w), by rw [red _ hlo, hrun], ?_, ?_, ?_, ?_⟩
  · rw [hlen]; omega
  · intro i y hy
    have hr := forall2_getD (hrel (xs.length - w)) i
    have hy' : (run (xs.length - w)).getD i PyNum.nan = Ov.fin O y := by
      rw [List.getD, hy]; rfl
    have := hr y hy'
    have e : (List.range (xs.length - w)).foldl (fun ma t => maStep (Rd.fins O.toArith xs) w ma (w + t))
        ((List.range w).map (fun i => npMean ((Rd.fins O.toArith xs).take (i + 1)))) = Rd.fins O.toArith ys := by injection hys
    rw [e] at this
    have hi : i < xs.length := by
      have := List.getElem?_eq_some_iff.mp hy
      obtain ⟨hi, _⟩ := this
      rw [hlen] at hi; omega
    have e2 : (Rd.fins O.toArith ys).getD i PyNum.nan = Rd.fin O.toArith (ys.getD i 0) := by
      have : i < ys.length := by omega
      simp [List.getD, this]
    rw [e2] at this
    have hyy : ys.getD i 0 = y := Fl.fin.inj this
    rw [← hyy]; exact hyb i hi
  · intro i j hi hij hj hi' hni
    have g : ∀ (l : List (Ov O)) (k : Nat) (hk : k < l.length), l.getD k PyNum.nan = l[k] := by
      intro l k hk; simp [List.getD, hk]
    rw [← g _ _ hi'] at hni
    rw [← g _ _ hj]
    exact hprop _ i hi j hij (by rw [hlen] at hj; exact hj) hni

  · intro i hi
    have : ∀ m, (run m)[i]? = start[i]? := by
      intro m
      induction m with
      | zero => rw [hrun0]
      | succ m ih =>
        obtain ⟨d, hd⟩ := hstep m
        rw [hd, List.getElem?_append_left (by rw [hlen]; omega), ih]
    rw [this, hstart, List.getElem?_map, List.getElem?_range hi]; rfl

/-- **C223** An output of `moving_average` that is a number is the one of C139; and an output that is not (beyond the start-up
phase) makes every later output an infinity or NaN too. -/
theorem C223_moving_average (O : OArith K) (u : K) (h : OStd O u) (b : Bool) (xs : List K) (w : Nat) (hw : 1 ≤ w) (hwn : w ≤ xs.length)
    (hnat : ∀ n : ℕ, n ≤ w → Nat? O n) (M : K) (hM : ∀ x ∈ xs, |x| ≤ M) :
    ∃ vs : List (Ov O), movingAverage ⟨1, b, Ov.fins O xs⟩ (w : Int) = .ok vs ∧ vs.length = xs.length ∧
      (∀ i y, vs[i]? = some (Ov.fin O y) →
        |y - trailingMean xs w i| ≤ ((1 + u) ^ (i + 2) - 1) * (M * (1 + 2 * (1 + u) * (2 + u) / w))) ∧
      (∀ i j, w ≤ i + 1 → i ≤ j → (hj : j < vs.length) → (hi : i < vs.length) → ¬ Ov.IsNum vs[i] → ¬ Ov.IsNum vs[j]) := by
  obtain ⟨vs, h1, h2, h3, h4, _⟩ := Over.ma O u h b xs w hw hwn hnat M hM
  exact ⟨vs, h1, h2, h3, h4⟩

/-- **C223** Likewise for `weighted_moving_average`; here a number is returned whenever its own window fits. -/
theorem C223_weighted (O : OArith K) (u : K) (h : OStd O u) (xs : List K) (p : Nat) (hp : 1 ≤ p) (hpn : p ≤ xs.length)
    (hnat : ∀ n : ℕ, n ≤ p * (p + 1) / 2 → Nat? O n) :
    ∃ vs : List (Ov O), weightedMovingAverage (Ov.fins O xs) (p : Int) = .ok ⟨decide (p = xs.length), vs⟩ ∧ vs.length = xs.length - p ∧
      ∀ k y, vs[k]? = some (Ov.fin O y) → ∀ M, (∀ j < p, |xs.getD (k + j) 0| ≤ M) →
        |y - linearMean xs p k| ≤ ((1 + u) ^ (p + 2) - 1) * M := by
  obtain ⟨ys, hys, hyl, hyb⟩ := C140_weighted_moving_average O.toArith u h.std xs p hp hpn (fun n hn => (hnat n hn).1)
  have red : ∀ {F : Type} [PyNum F] (l : List F), l.length = xs.length → weightedMovingAverage l (p : Int) =
      .ok ⟨decide (p = xs.length), (List.range (xs.length - p)).map (fun t => wmaAt l p (p + t))⟩ := by
    intro F _ l hl
    unfold weightedMovingAverage
    simp only [Int.toNat_natCast, hl]
    rw [if_neg (by omega), if_neg (by omega)]
    congr 2
    rw [Bool.eq_iff_iff, List.isEmpty_iff, decide_eq_true_iff, List.map_eq_nil_iff, List.range_eq_nil]
    omega
  have hlo : (Ov.fins O xs).length = xs.length := List.length_map _
  have hlr : (Rd.fins O.toArith xs).length = xs.length := List.length_map _
  rw [red _ hlr] at hys
  have hys' : (List.range (xs.length - p)).map (fun t => wmaAt (Rd.fins O.toArith xs) p (p + t)) = Rd.fins O.toArith ys := by
    injection hys with h1; injection h1
  refine ⟨_, red _ hlo, by simp, ?_⟩
  intro k y hk M hM
  rw [List.getElem?_map] at hk
  have hk' : k < xs.length - p := by
    by_contra hc
    rw [List.getElem?_eq_none (by simpa using not_lt.mp hc)] at hk; cases hk
  rw [List.getElem?_range hk'] at hk
  have hv : wmaAt (Ov.fins O xs) p (p + k) = Ov.fin O y := by injection hk
  have hle : Ov.Le (wmaAt (Ov.fins O xs) p (p + k)) (wmaAt (Rd.fins O.toArith xs) p (p + k)) := by
    have htot : ((List.range p).map (fun j => j + 1)).sum = p * (p + 1) / 2 := by
      have : ∀ p : Nat, 2 * ((List.range p).map (fun j => j + 1)).sum = p * (p + 1) := by
        intro p
        induction p with
        | zero => rfl
        | succ p ih =>
          rw [List.range_succ, List.map_append, List.sum_append, mul_add, ih]; simp; ring
      have := this p; omega
    have hpos : p * (p + 1) / 2 ≠ 0 := by
      have : 2 ≤ p * (p + 1) := by nlinarith
      omega
    unfold wmaAt
    simp only
    rw [htot]
    refine div_nat_le (hnat _ le_rfl) hpos (sum_le h ?_)
    have hsl : List.Forall₂ (Ov.Le (O := O)) (slice (Ov.fins O xs) (p + k - p) (p + k)) (slice (Rd.fins O.toArith xs) (p + k - p) (p + k)) := by
      unfold slice
      rw [← List.map_take, ← List.map_take, ← List.map_drop, ← List.map_drop]
      exact forall2_fins _
    have hws : ∀ n ∈ (List.range p).map (fun j => j + 1), n ≤ p * (p + 1) / 2 := by
      intro n hn
      obtain ⟨j, hj, rfl⟩ := List.mem_map.mp hn
      have hj := List.mem_range.mp hj
      have : 2 * p ≤ p * (p + 1) := by nlinarith
      omega
    generalize (List.range p).map (fun j => j + 1) = ws at hws
    clear hk hv
    generalize slice (Ov.fins O xs) (p + k - p) (p + k) = a at hsl
    generalize slice (Rd.fins O.toArith xs) (p + k - p) (p + k) = b at hsl
    induction hsl generalizing ws with
    | nil => simp
    | cons hab _ ih =>
      cases ws with
      | nil => simp
      | cons n ws =>
        simp only [List.zipWith_cons_cons]
        refine List.Forall₂.cons ?_ (ih ws (fun m hm => hws m (by simp [hm])))
        have hn := hnat n (hws n (by simp))
        refine Ov.le_mul ?_ hab
        rw [Ov.ofNat_num hn.1 hn.2, Rd.ofNat_fin, hn.1]
        exact Ov.le_fin _
  have hr := hle y hv
  have e : (Rd.fins O.toArith ys)[k]? = some (wmaAt (Rd.fins O.toArith xs) p (p + k)) := by
    rw [← hys', List.getElem?_map, List.getElem?_range hk']; rfl
  have hky : k < ys.length := by omega
  rw [List.getElem?_map, List.getElem?_eq_getElem hky, hr] at e
  have e2 : ys[k] = y := by
    simp only [Option.map_some] at e
    injection e with e; exact Fl.fin.inj e
  have := hyb k hky M hM
  rw [List.getD, List.getElem?_eq_getElem hky] at this
  rw [← e2]; exact this

/-- bounds on the intermediate results of one step of the exponential moving average -/
private theorem ema_fits (O : OArith K) (u : K) (h : OStd O u) (alpha : K) (h0 : 0 < alpha) (h1 : alpha ≤ 1) (h1t : 1 + u ≤ O.top) (x p P : K)
    (hx : |x| ≤ P) (hP0 : 0 ≤ P) (hp : |p| ≤ P) (htop' : (1 + u) ^ 3 * P ≤ O.top) :
    |O.rnd (O.rnd (alpha * x) + O.rnd (O.rnd (1 - alpha) * p))| ≤ (1 + u) ^ 3 * P ∧ |O.rnd (alpha * x)| ≤ O.top ∧
      |O.rnd (1 - alpha)| ≤ O.top ∧ |O.rnd (O.rnd (1 - alpha) * p)| ≤ O.top := by
  have hq : 1 ≤ 1 + u := by have := h.std.nonneg; linarith
  have hrb : ∀ y, |O.rnd y| ≤ (1 + u) * |y| := by
    intro y
    have a1 := h.std.rnd y
    have a3 := abs_add_le (O.rnd y - y) y
    rw [sub_add_cancel] at a3
    linarith
  have ha : 0 ≤ 1 - alpha := by linarith
  generalize 1 + u = q at hq hrb h1t htop' ⊢
  have hq0 : 0 ≤ q := by linarith
  have h12 : q ≤ q ^ 2 := by nlinarith
  have h23 : q ^ 2 ≤ q ^ 3 := pow_le_pow_right₀ hq (by norm_num)
  have b1 : |O.rnd (alpha * x)| ≤ q * (alpha * P) := by
    refine (hrb _).trans (mul_le_mul_of_nonneg_left ?_ hq0)
    rw [abs_mul, abs_of_pos h0]
    exact mul_le_mul_of_nonneg_left hx h0.le
  have b2 : |O.rnd (1 - alpha)| ≤ q * (1 - alpha) := by
    have := hrb (1 - alpha)
    rwa [abs_of_nonneg ha] at this
  have b3 : |O.rnd (O.rnd (1 - alpha) * p)| ≤ q ^ 2 * ((1 - alpha) * P) := by
    refine (hrb _).trans ?_
    rw [abs_mul]
    have := mul_le_mul b2 hp (abs_nonneg _) (by positivity)
    refine (mul_le_mul_of_nonneg_left this hq0).trans (le_of_eq (by ring))
  have hA : 0 ≤ alpha * P := mul_nonneg h0.le hP0
  have hB : 0 ≤ (1 - alpha) * P := mul_nonneg ha hP0
  have hAB : alpha * P + (1 - alpha) * P = P := by ring
  have b4 : |O.rnd (O.rnd (alpha * x) + O.rnd (O.rnd (1 - alpha) * p))| ≤ q ^ 3 * P := by
    refine (hrb _).trans ?_
    have c1 := (abs_add_le (O.rnd (alpha * x)) (O.rnd (O.rnd (1 - alpha) * p))).trans (add_le_add b1 b3)
    have c2 : q * (alpha * P) ≤ q ^ 2 * (alpha * P) := mul_le_mul_of_nonneg_right h12 hA
    have c3 : q * (alpha * P) + q ^ 2 * ((1 - alpha) * P) ≤ q ^ 2 * P := by
      rw [← hAB, mul_add]; linarith
    exact (mul_le_mul_of_nonneg_left (c1.trans c3) hq0).trans (le_of_eq (by ring))
  have hP3 : q ^ 2 * P ≤ O.top := (mul_le_mul_of_nonneg_right h23 hP0).trans htop'
  refine ⟨b4, b1.trans (le_trans ?_ hP3), b2.trans (le_trans ?_ h1t), b3.trans (le_trans ?_ hP3)⟩
  · exact (mul_le_mul_of_nonneg_right h12 hA).trans (mul_le_mul_of_nonneg_left (by linarith) (by positivity))
  · exact mul_le_of_le_one_right hq0 (by linarith)
  · exact mul_le_mul_of_nonneg_left (by linarith) (by positivity)

/-- **C223** `exponential_moving_average` of numbers: an output that is a number is the one of C141, and there is no overflow at all
as long as the largest sample, with room for rounding, does not exceed the largest number. -/
theorem C223_ema (O : OArith K) (u : K) (h : OStd O u) (hone : O.rnd 1 = 1) (h1t : 1 + u ≤ O.top) (xs : List K) (hne : xs ≠ []) (alpha : K)
    (h0 : 0 < alpha) (h1 : alpha ≤ 1) (M : K) (hM : ∀ x ∈ xs, |x| ≤ M) :
    ∃ vs : List (Ov O), exponentialMovingAverage ⟨1, false, Ov.fins O xs⟩ (Ov.fin O alpha) = .ok vs ∧ vs.length = xs.length ∧
      (∀ i y, vs[i]? = some (Ov.fin O y) → |y - emaClosed alpha (fun j => xs.getD j 0) i| ≤ ((1 + u) ^ (3 * i) - 1) * M) ∧
      ((1 + u) ^ (3 * xs.length) * M ≤ O.top → ∀ v ∈ vs, Ov.IsNum v) := by
  obtain ⟨ys, hys, hyl, hyb, _⟩ := C141_ema O.toArith u h.std hone xs hne alpha h0 h1 M hM
  have hu := h.std.nonneg
  have hz : O.rnd 0 = 0 := h.std.rnd_zero
  have ht0 : 0 ≤ O.top := by linarith
  have l1 : (lit 1 : Ov O) = Ov.fin O 1 := by
    have := Ov.lit_num (O := O) (q := 1) (by simpa using hone) (by simp; linarith)
    simpa using this
  have l0 : (lit 0 : Ov O) = Ov.fin O 0 := by
    have := Ov.lit_num (O := O) (q := 0) (by simpa using hz) (by simpa using ht0)
    simpa using this
  have r1 : (lit 1 : Rd O.toArith) = Rd.fin O.toArith 1 := by rw [Rd.lit_fin, Rat.cast_one, hone]
  have hc : ((Ov.fin O alpha ≤. lit 0) || (lit 1 <. Ov.fin O alpha)) = false := by
    rw [l0, l1]
    show (decide (alpha ≤ 0) || decide (1 < alpha)) = false
    simp [h0, h1]
  obtain ⟨x0, t, rfl⟩ := List.exists_cons_of_ne_nil hne
  have hrel : ∀ (vs : List (Ov O)) (ws : List (Rd O.toArith)), List.Forall₂ Ov.Le vs ws → ∀ v w, Ov.Le v w →
      List.Forall₂ Ov.Le (emaLoop false (Ov.fin O alpha) v vs) (emaLoop false (Rd.fin O.toArith alpha) w ws) := by
    intro vs ws hvw
    induction hvw with
    | nil => intro v w _; exact List.Forall₂.nil
    | cons hab _ ih =>
      intro v w hv
      simp only [emaLoop, store, Bool.false_eq_true, if_false]
      have h1' : Ov.Le (lit 1 : Ov O) (lit 1 : Rd O.toArith) := by rw [l1, r1]; exact Ov.le_fin 1
      have hy := Ov.le_add (Ov.le_mul (Ov.le_fin alpha) hab) (Ov.le_mul (Ov.le_sub h1' (Ov.le_fin alpha)) hv)
      exact List.Forall₂.cons hy (ih _ _ hy)
  have hlen : ∀ (l : List (Ov O)) v, (emaLoop false (Ov.fin O alpha) v l).length = l.length := by
    intro l
    induction l with
    | nil => intro v; rfl
    | cons a l ih => intro v; simp [emaLoop, ih]
  have hrd : ∀ {F : Type} [PyNum F] (a x : F) (l : List F), ((a ≤. lit 0) || (lit 1 <. a)) = false →
      exponentialMovingAverage ⟨1, false, x :: l⟩ a = .ok (x :: emaLoop false a x l) := by
    intro F _ a x l ha
    simp only [exponentialMovingAverage, ha, Bool.false_eq_true, if_false]
  refine ⟨_, hrd _ _ _ hc, by simp [hlen], ?_, ?_⟩
  · intro i y hi
    have hcr : ((Rd.fin O.toArith alpha ≤. lit 0) || (lit 1 <. Rd.fin O.toArith alpha)) = false := by
      rw [Rd.lit_fin, Rd.lit_fin, Rat.cast_zero, Rat.cast_one, hone, hz, Rd.le_fin, Rd.lt_fin]
      simp [h0, h1]
    have hrr : exponentialMovingAverage ⟨1, false, Rd.fins O.toArith (x0 :: t)⟩ (Rd.fin O.toArith alpha) =
        .ok (Rd.fin O.toArith x0 :: emaLoop false (Rd.fin O.toArith alpha) (Rd.fin O.toArith x0) (Rd.fins O.toArith t)) := hrd _ _ _ hcr
    rw [hrr] at hys
    have e : Rd.fin O.toArith x0 :: emaLoop false (Rd.fin O.toArith alpha) (Rd.fin O.toArith x0) (Rd.fins O.toArith t) = Rd.fins O.toArith ys := by
      injection hys
    have hall : List.Forall₂ Ov.Le (Ov.fin O x0 :: emaLoop false (Ov.fin O alpha) (Ov.fin O x0) (Ov.fins O t)) (Rd.fins O.toArith ys) := by
      rw [← e]
      exact List.Forall₂.cons (Ov.le_fin x0) (hrel _ _ (forall2_fins t) _ _ (Ov.le_fin x0))
    have hg := forall2_getD hall i y (by
      rw [List.getD]
      have hi' : (Ov.fin O x0 :: emaLoop false (Ov.fin O alpha) (Ov.fin O x0) (Ov.fins O t))[i]? = some (Ov.fin O y) := hi
      rw [hi']; rfl)
    have hil : i < ys.length := by
      have hi2 := (List.getElem?_eq_some_iff.mp hi).1
      have := hall.length_eq
      simp only [List.length_map] at this
      simp only [List.length_cons, hlen, List.length_map] at hi2 this
      omega
    have e2 : (Rd.fins O.toArith ys).getD i PyNum.nan = Rd.fin O.toArith (ys.getD i 0) := by
      simp [List.getD, hil]
    rw [e2] at hg
    have e3 : ys.getD i 0 = y := Fl.fin.inj hg
    rw [← e3]
    exact hyb i (by omega)
  · intro hfit
    have hM0 : 0 ≤ M := (abs_nonneg x0).trans (hM x0 (by simp))
    have hq : 1 ≤ 1 + u := by linarith
    have key : ∀ (l : List K) (p P : K), (∀ x ∈ l, |x| ≤ M) → M ≤ P → |p| ≤ P → (1 + u) ^ (3 * l.length) * P ≤ O.top →
        ∀ v ∈ emaLoop false (Ov.fin O alpha) (Ov.fin O p) (Ov.fins O l), Ov.IsNum v := by
      intro l
      induction l with
      | nil => intro p P _ _ _ _ v hv; simp [emaLoop] at hv
      | cons x l ih =>
        intro p P hl hMP hp htop v hv
        have hP0 : 0 ≤ P := hM0.trans hMP
        have hx := hl x (by simp)
        have hk : 1 ≤ (1 + u) ^ (3 * l.length) := one_le_pow₀ hq
        have e : (1 + u) ^ (3 * (x :: l).length) = (1 + u) ^ (3 * l.length) * (1 + u) ^ 3 := by
          rw [List.length_cons, ← pow_add]; congr 1
        rw [e, mul_assoc] at htop
        have h3P : 0 ≤ (1 + u) ^ 3 * P := by positivity
        have htop' : (1 + u) ^ 3 * P ≤ O.top := (le_mul_of_one_le_left h3P hk).trans htop
        obtain ⟨b4, t1, t2, t3⟩ := ema_fits O u h alpha h0 h1 h1t x p P (hx.trans hMP) hP0 hp htop'
        have hstep : (Ov.fin O alpha *. Ov.fin O x +. (lit 1 -. Ov.fin O alpha) *. Ov.fin O p : Ov O) =
            Ov.fin O (O.rnd (O.rnd (alpha * x) + O.rnd (O.rnd (1 - alpha) * p))) := by
          have s1 : (Ov.fin O alpha *. Ov.fin O x : Ov O) = Ov.fin O (O.rnd (alpha * x)) := Ov.squash_ok t1
          have s2 : (Ov.fin O 1 -. Ov.fin O alpha : Ov O) = Ov.fin O (O.rnd (1 - alpha)) := Ov.squash_ok t2
          have s3 : (Ov.fin O (O.rnd (1 - alpha)) *. Ov.fin O p : Ov O) = Ov.fin O (O.rnd (O.rnd (1 - alpha) * p)) := Ov.squash_ok t3
          rw [l1, s1, s2, s3]
          exact Ov.squash_ok (b4.trans htop')
        simp only [List.map_cons, emaLoop, store, Bool.false_eq_true, if_false] at hv
        rw [hstep] at hv
        rcases List.mem_cons.mp hv with rfl | hv
        · exact ⟨_, rfl⟩
        · refine ih _ ((1 + u) ^ 3 * P) (fun y hy => hl y (by simp [hy])) ?_ b4 htop v hv
          exact hMP.trans (le_mul_of_one_le_left hP0 (one_le_pow₀ hq))
    intro v hv
    have hv' : v ∈ Ov.fin O x0 :: emaLoop false (Ov.fin O alpha) (Ov.fin O x0) (Ov.fins O t) := hv
    rcases List.mem_cons.mp hv' with rfl | hv'
    · exact ⟨x0, rfl⟩
    · refine key t x0 M (fun y hy => hM y (by simp [hy])) le_rfl (hM x0 (by simp)) ?_ v hv'
      refine le_trans (mul_le_mul_of_nonneg_right ?_ hM0) hfit
      exact pow_le_pow_right₀ hq (by simp)

/-! ### binary64 -/

/-- the largest binary64 number -/
def top64 : ℚ := (2 ^ 53 - 1) * 2 ^ 971

/-- binary64 with overflow, sums from left to right -/
def bin64o : OArith ℚ := leftOArith rnd53 top64

/-- it meets the contract -/
theorem bin64o_std : OStd bin64o (1 / 2 ^ 53) := leftOArith_std rnd53 _ _ (by positivity) (by unfold top64; norm_num) rnd53_near

theorem bin64o_nat (n : ℕ) (h : n < 2 ^ 53) : Over.Nat? bin64o n := by
  refine ⟨rnd53_nat n h, ?_⟩
  rw [abs_of_nonneg (by positivity)]
  have : (n : ℚ) ≤ 2 ^ 53 := by exact_mod_cast h.le
  refine this.trans ?_
  show (2 ^ 53 : ℚ) ≤ top64
  decide +kernel

theorem bin64o_top : rnd53 top64 = top64 := by decide +kernel

private theorem mean_top : npMean (Ov.fins bin64o [top64, top64]) = (Ov.inf bin64o) := by decide +kernel

/-- **C223** The mean of two equal representable samples need not be a number: the sum overflows although the mean is representable. -/
theorem C223_mean_overflows (parse : String → Option (Ov bin64o)) :
    mean parse (.seq (numItems (Ov.fins bin64o [top64, top64]))) = .ok (.val (Ov.inf bin64o)) ∧ Spec.avg [top64, top64] = top64 := by
  constructor
  · rw [mean_numItems parse _ (by simp), mean_top]
  · simp [Spec.avg]

/-- **C223** The median of two equal samples too. -/
theorem C223_median_overflows (b : Bool) : median ⟨1, b, (Ov.fins bin64o [top64, top64]).map Item.num⟩ = .ok (Ov.inf bin64o) := by
  cases b <;> decide +kernel

/-- **C223** One overflowing window spoils a moving average for ever: after two samples of the largest number, followed by any number
of ones, no further output is a number, although the window means are 1 from the fourth sample on. -/
theorem C223_contamination (n : ℕ) :
    ∃ vs : List (Ov bin64o), movingAverage ⟨1, false, Ov.fins bin64o (top64 :: top64 :: List.replicate n 1)⟩ 2 = .ok vs ∧
      vs.length = n + 2 ∧ (∀ j (hj : j < vs.length), 1 ≤ j → ¬ Ov.IsNum vs[j]) ∧
      ∀ j, 3 ≤ j → j < n + 2 → trailingMean (top64 :: top64 :: List.replicate n 1) 2 j = 1 := by
  obtain ⟨vs, h1, h2, _, h4, h5⟩ := Over.ma bin64o _ bin64o_std false (top64 :: top64 :: List.replicate n 1) 2 (by norm_num)
    (by simp) (fun m hm => bin64o_nat m (by omega)) top64 (by
      intro x hx
      have ht : (0 : ℚ) ≤ top64 := by unfold top64; norm_num
      have h1 : (1 : ℚ) ≤ top64 := by decide +kernel
      simp only [List.mem_cons, List.mem_replicate] at hx
      rcases hx with rfl | rfl | ⟨_, rfl⟩
      · rw [abs_of_nonneg ht]
      · rw [abs_of_nonneg ht]
      · rw [abs_one]; exact h1)
  have hl : vs.length = n + 2 := by rw [h2]; simp
  refine ⟨vs, h1, hl, ?_, ?_⟩
  · intro j hj hj1
    refine h4 1 j (by norm_num) hj1 hj (by omega) ?_
    have e := h5 1 (by norm_num)
    rw [List.getElem?_eq_getElem (by omega : 1 < vs.length)] at e
    have e' : vs[1] = npMean (Ov.fins bin64o [top64, top64]) := by
      injection e
    rw [e', mean_top]
    rintro ⟨x, hx⟩
    cases hx
  · intro j hj hjn
    unfold trailingMean
    obtain ⟨k, rfl⟩ : ∃ k, j = k + 3 := ⟨j - 3, by omega⟩
    have : ((top64 :: top64 :: List.replicate n (1 : ℚ)).take (k + 3 + 1)).drop (k + 3 + 1 - 2) = [1, 1] := by
      rw [show k + 3 + 1 - 2 = k + 2 by omega, show k + 3 + 1 = (k + 2) + 2 by omega, List.take_succ_cons, List.take_succ_cons]
      simp only [List.drop_succ_cons, List.take_replicate, List.drop_replicate]
      rw [show min (k + 2) n - k = 2 by omega]; rfl
    rw [this]
    norm_num

/-- **C223** Overflow can also produce a number that is wrong: with prior covariance and measurement noise equal to the largest number
their sum is infinite, its inverse and hence the gain are 0, and `kalman_filter` returns the initial state for ever, whatever is
measured; exactly, the gain of the first step is 1/2. -/
theorem C223_kalman (zs : List ℚ) (hz : ∀ z ∈ zs, rnd53 z = z ∧ |z| ≤ top64) :
    kalmanFilter (Ov.fins bin64o zs) (Ov.fin bin64o 0) (Ov.fin bin64o top64) (Ov.fin bin64o 0) (Ov.fin bin64o top64) =
      .ok (Ov.fins bin64o (List.replicate zs.length 0)) ∧
    kalmanStep (Fl.fin 0) (Fl.fin top64) (Fl.fin 0, Fl.fin top64) (Fl.fin (1 : ℚ)) = .ok (Fl.fin (1 / 2), Fl.fin (top64 / 2)) := by
  constructor
  · have hstep : ∀ z, rnd53 z = z → |z| ≤ top64 →
        kalmanStep (Ov.fin bin64o 0) (Ov.fin bin64o top64) (Ov.fin bin64o 0, Ov.fin bin64o top64) (Ov.fin bin64o z) =
          .ok (Ov.fin bin64o 0, Ov.fin bin64o top64) := by
      intro z hz ht
      have l1 : (lit 1 : Ov bin64o) = Ov.fin bin64o 1 := by decide +kernel
      have l0 : (lit 0 : Ov bin64o) = Ov.fin bin64o 0 := by decide +kernel
      have p1 : (Ov.fin bin64o 1 *. Ov.fin bin64o 0 : Ov bin64o) = Ov.fin bin64o 0 := by decide +kernel
      have p2 : ((Ov.fin bin64o 1 *. Ov.fin bin64o top64) *. Ov.fin bin64o 1 +. Ov.fin bin64o 0 : Ov bin64o) = Ov.fin bin64o top64 := by
        decide +kernel
      have p3 : ((Ov.fin bin64o 1 *. Ov.fin bin64o top64) *. Ov.fin bin64o 1 +. Ov.fin bin64o top64 : Ov bin64o) = (Ov.inf bin64o) := by
        decide +kernel
      have p4 : inv1 (Ov.inf bin64o) = .ok (Ov.fin bin64o 0) := by decide +kernel
      have p5 : ((Ov.fin bin64o top64 *. Ov.fin bin64o 1) *. Ov.fin bin64o 0 : Ov bin64o) = Ov.fin bin64o 0 := by decide +kernel
      have p6 : ((Ov.fin bin64o 1 -. Ov.fin bin64o 0 *. Ov.fin bin64o 1) *. Ov.fin bin64o top64 : Ov bin64o) = Ov.fin bin64o top64 := by
        decide +kernel
      have p7 : (Ov.fin bin64o z -. Ov.fin bin64o 0 : Ov bin64o) = Ov.fin bin64o z := by
        show Ov.squash bin64o (Fl.fin (z - 0)) = _
        rw [sub_zero, Ov.squash_ok (by show |rnd53 z| ≤ top64; rw [hz]; exact ht)]
        show Fl.fin (rnd53 z) = _
        rw [hz]; rfl
      have p8 : (Ov.fin bin64o 0 *. Ov.fin bin64o z : Ov bin64o) = Ov.fin bin64o 0 := by
        show Ov.squash bin64o (Fl.fin (0 * z)) = _
        rw [zero_mul]
        have : rnd53 0 = 0 := by decide +kernel
        rw [Ov.squash_ok (by show |rnd53 0| ≤ top64; rw [this]; decide +kernel)]
        show Fl.fin (rnd53 0) = _
        rw [this]; rfl
      have p9 : (Ov.fin bin64o 0 +. Ov.fin bin64o 0 : Ov bin64o) = Ov.fin bin64o 0 := by decide +kernel
      unfold kalmanStep
      simp only [l1, p1, p2, p3, p4, bind, Except.bind, p5, p6, p7, p8, p9]
    have hloop : kalmanLoop (Ov.fin bin64o 0) (Ov.fin bin64o top64) (Ov.fin bin64o 0, Ov.fin bin64o top64) (Ov.fins bin64o zs) =
        .ok (List.replicate zs.length (Ov.fin bin64o 0, Ov.fin bin64o top64)) := by
      induction zs with
      | nil => rfl
      | cons z t ih =>
        have h1 := hz z (by simp)
        simp only [List.map_cons, kalmanLoop, hstep z h1.1 h1.2, bind, Except.bind, ih (fun y hy => hz y (by simp [hy]))]
        rfl
    unfold kalmanFilter
    simp only [hloop, bind, Except.bind]
    congr 1
    simp
  · decide +kernel

/-- the hypotheses of C223 are met by binary64 -/
example : OStd bin64o (1 / 2 ^ 53) ∧ Over.Nat? bin64o 1000 ∧ bin64o.rnd 1 = 1 ∧ 1 + 1 / 2 ^ 53 ≤ bin64o.top ∧
    (1 + 1 / 2 ^ 53 : ℚ) ^ (3 * 2) * 10 ^ 300 ≤ bin64o.top := by
  refine ⟨bin64o_std, bin64o_nat 1000 (by norm_num), by decide +kernel, ?_, ?_⟩ <;> decide +kernel

end Proadv.Props
