import Verif.Py.OverflowReal
import Verif.Props.SeriesFull
import Verif.Props.RoundDetect
import Verif.Props.Acceleration
import Verif.Lemmas.RoundMonoReal

/-!
# Property C258: overflow in std, acceleration_thresholding and pollution_rate
-/

set_option linter.unusedSectionVars false
set_option exponentiation.threshold 2000

namespace Proadv.Props

open Proadv Descriptive Series Spread Detect

namespace Over

variable {O : OArith ℝ} {u η : ℝ} {Rep : ℝ → Prop}

theorem std_red {F : Type} [PyMath F] (b : Bool) (l : List F) (hl : l ≠ []) : std ⟨1, b, l⟩ = .ok (npStd l) := by
  have e1 : (l.map Item.num).filterMap Item.val? = l := by
    simp [List.filterMap_map, Function.comp_def, Item.val?]
  have hs : (l.map Item.num).any Item.isStr = false := by simp [Item.isStr]
  unfold std stdItems
  simp only [hs]
  rw [if_neg (by simp), if_neg (by simp), if_neg (by simpa using hl), e1]

private theorem var_red {F : Type} [PyNum F] (b : Bool) (l : List F) (hl : l ≠ []) : variance ⟨1, b, numItems l⟩ = .ok (npVar l) := by
  have e1 : (numItems l).filterMap Item.val? = l := by
    simp [numItems, List.filterMap_map, Function.comp_def, Item.val?]
  have hs : (numItems l).any Item.isStr = false := by simp [numItems, Item.isStr]
  unfold variance
  simp only [hs]
  rw [if_neg (by simp), if_neg (by simp), if_neg (by simpa [numItems] using hl), e1]

/-- a computed variance beyond the largest number is not a number -/
theorem var_not (h : OGrad O u η Rep) (xs : List ℝ) (hne : xs ≠ []) (hrep : ∀ x ∈ xs, Rep x) (hn : Nat? O xs.length)
    (hbig : O.top + varErr u η xs < Spec.var xs) : ¬ Ov.IsNum (npVar (Ov.fins O xs)) := by
  rintro ⟨y, hy⟩
  obtain ⟨v, hv, hb⟩ := C255_variance O u η Rep h true xs hne hrep hn
  rw [var_red true _ (by simpa using hne)] at hv
  injection hv with hv
  have hb := hb y (hv.symm.trans hy)
  have h0 : (xs.length : ℝ) ≠ 0 := by
    have := List.length_pos_of_ne_nil hne
    exact_mod_cast this.ne'
  unfold npVar at hy
  simp only [List.length_map] at hy
  rw [Ov.ofNat_num hn.1 hn.2] at hy
  obtain ⟨_, _, _, ht⟩ := Ov.div_num h0 hy
  unfold varErr meanErr at hbig
  have h1 := (abs_le.mp hb).1
  have h2 := (abs_le.mp ht).2
  linarith

private theorem lt_inf (x : ℝ) {t : Ov O} (h : t = Ov.inf O ∨ t = (PyNum.nan : Ov O)) : (t <. Ov.fin O x) = false := by
  rcases h with rfl | rfl <;> rfl

private theorem ninf_lt (x : ℝ) {t : Ov O} (h : t = (Fl.ninf : Fl ℝ) ∨ t = (PyNum.nan : Ov O)) : (Ov.fin O x <. t) = false := by
  rcases h with rfl | rfl <;> rfl

private theorem mul_inf {k : ℝ} (hk : 0 < k) {s : Ov O} (h : s = Ov.inf O ∨ s = (PyNum.nan : Ov O)) :
    Ov.fin O k *. s = Ov.inf O ∨ Ov.fin O k *. s = (PyNum.nan : Ov O) := by
  rcases h with rfl | rfl
  · left
    show Ov.squash O (Fl.mul (Fl.fin k) Fl.pinf) = Fl.pinf
    simp only [Fl.mul, Fl.infSgn]
    rw [if_neg hk.ne', if_pos hk]
    rfl
  · exact Or.inr rfl

private theorem add_inf (m : Ov O) {s : Ov O} (h : s = Ov.inf O ∨ s = (PyNum.nan : Ov O)) :
    m +. s = Ov.inf O ∨ m +. s = (PyNum.nan : Ov O) := by
  rcases h with rfl | rfl <;> cases m <;> first | exact Or.inl rfl | exact Or.inr rfl

private theorem sub_inf (m : Ov O) {s : Ov O} (h : s = Ov.inf O ∨ s = (PyNum.nan : Ov O)) :
    m -. s = (Fl.ninf : Fl ℝ) ∨ m -. s = (PyNum.nan : Ov O) := by
  rcases h with rfl | rfl <;> cases m <;> first | exact Or.inl rfl | exact Or.inr rfl

theorem whereTrue_none {α : Type} (l : List α) (f : α → Bool) (h : ∀ x ∈ l, f x = false) : whereTrue (l.map f) = [] := by
  unfold whereTrue
  rw [List.filter_eq_nil_iff]
  intro i hi
  rw [List.mem_range, List.length_map] at hi
  simp [List.getD, hi, h _ (List.getElem_mem hi)]

private theorem intersect_nil (a : List Nat) : intersect1d a [] = [] := by
  unfold intersect1d; simp; rfl

end Over

open Over

/-- **C258** when the variance of the numbers exceeds the largest float by more than the rounding error, `std` returns an
infinity or NaN -/
theorem C258_std (O : OArith ℝ) (u η : ℝ) (Rep : ℝ → Prop) (h : OGrad O u η Rep) (b : Bool) (xs : List ℝ) (hne : xs ≠ [])
    (hrep : ∀ x ∈ xs, Rep x) (hn : Nat? O xs.length) (hbig : O.top + varErr u η xs < Spec.var xs) :
    ∃ s, std ⟨1, b, Ov.fins O xs⟩ = .ok s ∧ (s = Ov.inf O ∨ s = (PyNum.nan : Ov O)) :=
  ⟨_, std_red b _ (by simpa using hne), Ov.sqrt_not (var_not h xs hne hrep hn hbig)⟩

/-- **C258** then `acceleration_thresholding` flags nothing, whatever the other arguments are -/
theorem C258_silent (O : OArith ℝ) (u η : ℝ) (Rep : ℝ → Prop) (h : OGrad O u η Rep) (b : Bool) (xs : List ℝ) (hne : xs ≠ [])
    (hrep : ∀ x ∈ xs, Rep x) (hn : Nat? O xs.length) (hbig : O.top + varErr u η xs < Spec.var xs) (f g kg : Ov O) (ks : ℝ)
    (hk : 0 < ks) (tag : Int) (ht : tag = 1 ∨ tag = 2) :
    acceleration ⟨1, b, Ov.fins O xs⟩ f tag g kg (Ov.fin O ks) = .ok [] := by
  obtain ⟨s, hs, hs'⟩ := C258_std O u η Rep h b xs hne hrep hn hbig
  rcases ht with rfl | rfl
  · unfold acceleration
    rw [if_neg (by simp), if_pos rfl, hs]
    show Except.ok _ = _
    rw [whereTrue_none (Ov.fins O xs), intersect_nil]
    intro x hx
    obtain ⟨y, -, rfl⟩ := List.mem_map.mp hx
    exact lt_inf y (add_inf _ (mul_inf hk hs'))
  · unfold acceleration
    rw [if_neg (by simp), if_neg (by decide), if_pos rfl, hs]
    show Except.ok _ = _
    rw [whereTrue_none (Ov.fins O xs), intersect_nil]
    intro x hx
    obtain ⟨y, -, rfl⟩ := List.mem_map.mp hx
    exact ninf_lt y (sub_inf _ (mul_inf hk hs'))

/-- **C258** and `pollution_rate` is 0, whatever the filtered series is -/
theorem C258_pollution (O : OArith ℝ) (u η : ℝ) (Rep : ℝ → Prop) (h : OGrad O u η Rep) (b : Bool) (xs : List ℝ) (hne : xs ≠ [])
    (hrep : ∀ x ∈ xs, Rep x) (hn : Nat? O xs.length) (h0 : Nat? O 0) (h100 : Nat? O 100)
    (hbig : O.top + varErr u η xs < Spec.var xs) (ys : List (Ov O)) (hl : ys.length = xs.length) (k : ℝ) (hk : 0 < k) :
    pollutionRate ⟨1, b, Ov.fins O xs⟩ ys (Ov.fin O k) = .ok (Ov.fin O 0) := by
  obtain ⟨s, hs, hs'⟩ := C258_std O u η Rep h b xs hne hrep hn hbig
  have hm := mul_inf hk hs'
  have hz : ∀ (f : Ov O → Ov O → Bool), (∀ y, ∀ x ∈ Ov.fins O xs, f x y = false) → whereTrue (List.zipWith f (Ov.fins O xs) ys) = [] := by
    intro f hf
    have e : List.zipWith f (Ov.fins O xs) ys = ((Ov.fins O xs).zip ys).map (fun p => f p.1 p.2) := by
      rw [List.zip, List.map_zipWith]
    rw [e]
    exact whereTrue_none _ _ (fun p hp => hf p.2 p.1 (List.of_mem_zip hp).1)
  have hlen : (Ov.fins O xs).length = ys.length := by rw [hl]; exact List.length_map _
  unfold pollutionRate
  rw [hs]
  show (bcast _ (Ov.fins O xs) ys >>= _) = _
  unfold bcast
  rw [if_pos hlen, if_pos hlen]
  show Except.ok _ = _
  rw [hz _ (fun y x hx => by
      obtain ⟨x', -, rfl⟩ := List.mem_map.mp hx
      exact lt_inf x' (add_inf _ hm)), hz _ (fun y x hx => by
      obtain ⟨x', -, rfl⟩ := List.mem_map.mp hx
      exact ninf_lt x' (sub_inf _ hm))]
  have hn0 : (xs.length : ℝ) ≠ 0 := by
    have := List.length_pos_of_ne_nil hne
    exact_mod_cast this.ne'
  have r0 : O.rnd 0 = 0 := by simpa using h0.1
  have t0 : |O.rnd 0| ≤ O.top := by simpa [r0] using h0.2
  have e0 : (ofNat 0 : Ov O) = Ov.fin O 0 := by rw [Ov.ofNat_num h0.1 h0.2]; simp
  have e1 : (ofNat (Ov.fins O xs).length : Ov O) = Ov.fin O xs.length := by
    rw [List.length_map, Ov.ofNat_num hn.1 hn.2]
  have e2 : (lit 100 : Ov O) = Ov.fin O 100 := by
    rw [Ov.lit_num (by simpa using h100.1) (by simpa using h100.2)]; simp
  have e3 : (Ov.fin O 0 /. Ov.fin O (xs.length : ℝ) : Ov O) = Ov.fin O 0 := by
    show Ov.squash O (Fl.div (Fl.fin 0) (Fl.fin _)) = _
    simp only [Fl.div, hn0, if_false, zero_div]
    rw [Ov.squash_ok t0, r0]; rfl
  have e4 : (Ov.fin O 0 *. Ov.fin O (100 : ℝ) : Ov O) = Ov.fin O 0 := by
    show Ov.squash O (Fl.mul (Fl.fin 0) (Fl.fin _)) = _
    simp only [Fl.mul, zero_mul]
    rw [Ov.squash_ok t0, r0]; rfl
  show Except.ok (ofNat 0 /. ofNat (Ov.fins O xs).length *. lit 100) = _
  rw [e0, e1, e2, e3, e4]

private theorem lt_same {O : OArith ℝ} {v v' : Ov O} {w w' : Rd O.toArith} (h1 : Ov.Le v w) (h2 : Ov.Le v' w') (hv : Ov.IsNum v)
    (hv' : Ov.IsNum v') : (v <. v') = (w <. w') := by
  obtain ⟨x, rfl⟩ := hv
  obtain ⟨x', rfl⟩ := hv'
  rw [h1 x rfl, h2 x' rfl]; rfl

private theorem map_same {O : OArith ℝ} {l : List (Ov O)} {l' : List (Rd O.toArith)} {c : Ov O} {c' : Rd O.toArith}
    (hll : List.Forall₂ Ov.Le l l') (hc : Ov.Le c c') (hcn : Ov.IsNum c) (hd : ∀ d ∈ l, Ov.IsNum d) :
    l.map (fun d => c <. d) = l'.map (fun d => c' <. d) ∧ l.map (fun d => d <. c) = l'.map (fun d => d <. c') := by
  induction hll with
  | nil => exact ⟨rfl, rfl⟩
  | cons h1 _ ih =>
    obtain ⟨i1, i2⟩ := ih (fun d hd' => hd d (by simp [hd']))
    constructor
    · rw [List.map_cons, List.map_cons, i1, lt_same hc h1 hcn (hd _ (by simp))]
    · rw [List.map_cons, List.map_cons, i2, lt_same h1 hc (hd _ (by simp)) hcn]

private theorem differences_le {O : OArith ℝ} (h0 : Nat? O 0) (xs : List ℝ) (f : ℝ) :
    List.Forall₂ Ov.Le (differences (Ov.fins O xs) (Ov.fin O f)) (differences (Rd.fins O.toArith xs) (Rd.fin _ f)) := by
  unfold differences
  refine List.Forall₂.cons ?_ ?_
  · rw [Ov.lit_num (by simpa using h0.1) (by simpa using h0.2), Rd.lit_fin]
    rw [show O.rnd ((0 : ℚ) : ℝ) = ((0 : ℚ) : ℝ) by simpa using h0.1]
    exact Ov.le_fin _
  · rw [List.forall₂_map_left_iff, List.forall₂_map_right_iff]
    have hdiff : ∀ (l : List ℝ), List.Forall₂ Ov.Le (diff (Ov.fins O l)) (diff (Rd.fins O.toArith l)) := by
      intro l
      induction l with
      | nil => exact List.Forall₂.nil
      | cons x t ih =>
        cases t with
        | nil => exact List.Forall₂.nil
        | cons y t => exact List.Forall₂.cons (Ov.le_sub (Ov.le_fin y) (Ov.le_fin x)) ih
    exact (hdiff xs).imp (fun a b hab => Ov.le_mul hab (Ov.le_fin f))

private theorem fins_num (O : OArith ℝ) (xs : List ℝ) : ∀ d ∈ Ov.fins O xs, Ov.IsNum d := by
  intro d hd; obtain ⟨x, -, rfl⟩ := List.mem_map.mp hd; exact ⟨x, rfl⟩

/-- **C258** when no threshold and no acceleration overflows, the flags are those of the arithmetic without overflow (C237) -/
theorem C258_same_up (O : OArith ℝ) (u η : ℝ) (Rep : ℝ → Prop) (h : OGrad O u η Rep) (b : Bool) (xs : List ℝ) (hne : xs ≠ [])
    (hn : Nat? O xs.length) (h0 : Nat? O 0) (f g kg ks : ℝ) (hlev : Ov.IsNum (npMean (Ov.fins O xs) +. Ov.fin O ks *. npStd (Ov.fins O xs)))
    (hg : Ov.IsNum (Ov.fin O kg *. Ov.fin O g)) (hd : ∀ d ∈ differences (Ov.fins O xs) (Ov.fin O f), Ov.IsNum d) :
    acceleration ⟨1, b, Ov.fins O xs⟩ (Ov.fin O f) 1 (Ov.fin O g) (Ov.fin O kg) (Ov.fin O ks) =
      acceleration ⟨1, b, Rd.fins O.toArith xs⟩ (Rd.fin _ f) 1 (Rd.fin _ g) (Rd.fin _ kg) (Rd.fin _ ks) := by
  have hxs := forall2_fins (O := O) xs
  have hm := Full.npMean_le_f h hxs (by simpa using hne) (by simpa using hn)
  have hv := Full.npVar_le_f h hxs (by simpa using hne) (by simpa using hn)
  have hl := Ov.le_add hm (Ov.le_mul (Ov.le_fin ks) (Ov.le_sqrt hv))
  have e1 := (map_same (differences_le h0 xs f) (Ov.le_mul (Ov.le_fin kg) (Ov.le_fin g)) hg hd).1
  have e2 := (map_same hxs hl hlev (fins_num O xs)).1
  unfold acceleration
  rw [if_neg (by simp), if_pos rfl, if_neg (by simp), if_pos rfl, std_red b _ (by simpa using hne), std_red b _ (by simpa using hne)]
  exact congrArg Except.ok (congrArg₂ (fun p q => intersect1d (whereTrue p) (whereTrue q)) e1 e2)

/-- **C258** the same for downward events -/
theorem C258_same_down (O : OArith ℝ) (u η : ℝ) (Rep : ℝ → Prop) (h : OGrad O u η Rep) (b : Bool) (xs : List ℝ) (hne : xs ≠ [])
    (hn : Nat? O xs.length) (h0 : Nat? O 0) (f g kg ks : ℝ) (hlev : Ov.IsNum (npMean (Ov.fins O xs) -. Ov.fin O ks *. npStd (Ov.fins O xs)))
    (hg : Ov.IsNum (Ov.fin O (-kg) *. Ov.fin O g)) (hd : ∀ d ∈ differences (Ov.fins O xs) (Ov.fin O f), Ov.IsNum d) :
    acceleration ⟨1, b, Ov.fins O xs⟩ (Ov.fin O f) 2 (Ov.fin O g) (Ov.fin O kg) (Ov.fin O ks) =
      acceleration ⟨1, b, Rd.fins O.toArith xs⟩ (Rd.fin _ f) 2 (Rd.fin _ g) (Rd.fin _ kg) (Rd.fin _ ks) := by
  have hxs := forall2_fins (O := O) xs
  have hm := Full.npMean_le_f h hxs (by simpa using hne) (by simpa using hn)
  have hv := Full.npVar_le_f h hxs (by simpa using hne) (by simpa using hn)
  have hl := Ov.le_sub hm (Ov.le_mul (Ov.le_fin ks) (Ov.le_sqrt hv))
  have e1 := (map_same (differences_le h0 xs f) (Ov.le_mul (Ov.le_fin (-kg)) (Ov.le_fin g)) hg hd).2
  have e2 := (map_same hxs hl hlev (fins_num O xs)).2
  unfold acceleration
  rw [if_neg (by simp), if_neg (by decide), if_pos rfl, if_neg (by simp), if_neg (by decide), if_pos rfl,
    std_red b _ (by simpa using hne), std_red b _ (by simpa using hne)]
  exact congrArg Except.ok (congrArg₂ (fun p q => intersect1d (whereTrue p) (whereTrue q)) e1 e2)

/-- **C258** in binary64 (without underflow) a spike of `2 ^ 600` is not flagged; in exact arithmetic it is -/
theorem C258_missed :
    acceleration ⟨1, false, Ov.fins bin64oR [0, 0, 0, 0, 2 ^ 600]⟩ (Ov.fin _ 100) 1 (Ov.fin _ 980) (Ov.fin _ 1) (Ov.fin _ 1.5) = .ok [] ∧
    pollutionRate ⟨1, false, Ov.fins bin64oR [0, 0, 0, 0, 2 ^ 600]⟩ (Ov.fins bin64oR [0, 0, 0, 0, 0]) (Ov.fin _ 1) = .ok (Ov.fin _ 0) ∧
    ∃ r, acceleration ⟨1, false, fins [(0 : ℝ), 0, 0, 0, 2 ^ 600]⟩ (Fl.fin 100) 1 (Fl.fin 980) (Fl.fin 1) (Fl.fin 1.5) = .ok r ∧ 4 ∈ r := by
  have hv : Spec.var [(0 : ℝ), 0, 0, 0, 2 ^ 600] = 4 / 25 * (2 ^ 600) ^ 2 := by
    simp only [Spec.var, Spec.cmoment, Spec.avg, List.sum_cons, List.sum_nil, List.map_cons, List.map_nil, List.length_cons, List.length_nil]
    push_cast
    ring
  have ha : Spec.avg ([(0 : ℝ), 0, 0, 0, 2 ^ 600].map (fun x => |x|)) = 2 ^ 600 / 5 := by
    norm_num [Spec.avg]
  have hnat : ∀ n : ℕ, n < 2 ^ 53 → Nat? bin64oR n := by
    intro n hn
    refine ⟨rnd53R_nat n hn, ?_⟩
    rw [abs_of_nonneg (by positivity)]
    have : (n : ℝ) < 2 ^ 53 := by exact_mod_cast hn
    show (n : ℝ) ≤ (2 ^ 53 - 1) * 2 ^ 971
    linarith [show (2 : ℝ) ^ 53 ≤ (2 ^ 53 - 1) * 2 ^ 971 by norm_num]
  have hbig : bin64oR.top + varErr (1 / 2 ^ 53) 0 [0, 0, 0, 0, 2 ^ 600] < Spec.var [(0 : ℝ), 0, 0, 0, 2 ^ 600] := by
    unfold varErr meanErr
    rw [hv, ha]
    show (2 ^ 53 - 1) * 2 ^ 971 + _ < _
    norm_num
  refine ⟨C258_silent bin64oR _ _ _ bin64oR_std.grad false [0, 0, 0, 0, 2 ^ 600] (by simp) (by simp) (hnat 5 (by norm_num)) hbig _ _ _ _ (by norm_num) 1 (Or.inl rfl),
    C258_pollution bin64oR _ _ _ bin64oR_std.grad false [0, 0, 0, 0, 2 ^ 600] (by simp) (by simp) (hnat 5 (by norm_num)) (hnat 0 (by norm_num))
      (hnat 100 (by norm_num)) hbig _ rfl 1 one_pos, ?_⟩
  obtain ⟨r, h1, -, h3⟩ := C60_exact_up false [(0 : ℝ), 0, 0, 0, 2 ^ 600] (by simp) 100 980 1 1.5 (by norm_num)
  refine ⟨r, h1, (h3 4).mpr ⟨2 ^ 600, 0, by norm_num, rfl, rfl, by norm_num, ?_⟩⟩
  have hs : √(Spec.var [(0 : ℝ), 0, 0, 0, 2 ^ 600]) = 2 / 5 * 2 ^ 600 := by
    rw [hv, Real.sqrt_eq_iff_mul_self_eq (by positivity) (by positivity)]; ring
  rw [hs]
  norm_num [Spec.avg]

/-- integers are exact in binary64 -/
private theorem squash_int (n : ℤ) (h : |n| ≤ 2 ^ 53 - 1) : Ov.squash bin64oR (Fl.fin (n : ℝ)) = Fl.fin (n : ℝ) := by
  have e : bin64oR.rnd (n : ℝ) = n := by
    show rnd53R n = n
    have := rnd53R_rep n 0 (by omega)
    simpa using this
  have h1 : |(n : ℝ)| ≤ 2 ^ 53 - 1 := by exact_mod_cast h
  rw [Ov.squash_ok, e]
  rw [e]
  refine h1.trans ?_
  show (2 : ℝ) ^ 53 - 1 ≤ (2 ^ 53 - 1) * 2 ^ 971
  norm_num

/-- the hypotheses of `C258_same_up` are met by a series of binary64 numbers that are not all equal -/
example : acceleration ⟨1, false, Ov.fins bin64oR [0, 0, 0, 0, 5]⟩ (Ov.fin _ 100) 1 (Ov.fin _ 980) (Ov.fin _ 1) (Ov.fin _ 1) =
    acceleration ⟨1, false, Rd.fins bin64oR.toArith [0, 0, 0, 0, 5]⟩ (Rd.fin _ 100) 1 (Rd.fin _ 980) (Rd.fin _ 1) (Rd.fin _ 1) := by
  have sq : ∀ (x : ℝ) (n : ℤ), x = n → |n| ≤ 2 ^ 53 - 1 → Ov.squash bin64oR (Fl.fin x) = Fl.fin x := by
    rintro x n rfl h; exact squash_int n h
  have q0 := sq 0 0 (by norm_num) (by norm_num)
  have q5 := sq 5 5 (by norm_num) (by norm_num)
  have add : ∀ (a b : ℝ) (n : ℤ), a + b = n → |n| ≤ 2 ^ 53 - 1 → (Ov.fin bin64oR a +. Ov.fin bin64oR b) = Ov.fin bin64oR (a + b) :=
    fun a b n h h' => sq _ n h h'
  have sub : ∀ (a b : ℝ) (n : ℤ), a - b = n → |n| ≤ 2 ^ 53 - 1 → (Ov.fin bin64oR a -. Ov.fin bin64oR b) = Ov.fin bin64oR (a - b) := by
    intro a b n h h'
    show Ov.squash bin64oR (Fl.fin (a + -b)) = _
    rw [← sub_eq_add_neg]; exact sq _ n h h'
  have mul : ∀ (a b : ℝ) (n : ℤ), a * b = n → |n| ≤ 2 ^ 53 - 1 → (Ov.fin bin64oR a *. Ov.fin bin64oR b) = Ov.fin bin64oR (a * b) :=
    fun a b n h h' => sq _ n h h'
  have div : ∀ (a b : ℝ) (n : ℤ), b ≠ 0 → a / b = n → |n| ≤ 2 ^ 53 - 1 → (Ov.fin bin64oR a /. Ov.fin bin64oR b) = Ov.fin bin64oR (a / b) := by
    intro a b n hb h h'
    show Ov.squash bin64oR (Fl.div (Fl.fin a) (Fl.fin b)) = _
    simp only [Fl.div, hb, if_false]; exact sq _ n h h'
  have hnat : ∀ n : ℕ, n < 2 ^ 53 → Nat? bin64oR n := by
    intro n hn
    refine ⟨rnd53R_nat n hn, ?_⟩
    rw [abs_of_nonneg (by positivity)]
    have : (n : ℝ) < 2 ^ 53 := by exact_mod_cast hn
    show (n : ℝ) ≤ (2 ^ 53 - 1) * 2 ^ 971
    linarith [show (2 : ℝ) ^ 53 ≤ (2 ^ 53 - 1) * 2 ^ 971 by norm_num]
  have o5 : (ofNat 5 : Ov bin64oR) = Ov.fin _ 5 := by
    rw [Ov.ofNat_num (hnat 5 (by norm_num)).1 (hnat 5 (by norm_num)).2]; norm_num
  have hsum : ∀ a b c d e : ℝ, PyNum.sum (Ov.fins bin64oR [a, b, c, d, e]) =
      Ov.fin _ 0 +. Ov.fin _ a +. Ov.fin _ b +. Ov.fin _ c +. Ov.fin _ d +. Ov.fin bin64oR e := fun _ _ _ _ _ => rfl
  have hm : npMean (Ov.fins bin64oR [0, 0, 0, 0, 5]) = Ov.fin _ 1 := by
    unfold npMean
    rw [hsum, add 0 0 0 (by norm_num) (by norm_num), add (0 + 0) 0 0 (by norm_num) (by norm_num),
      add (0 + 0 + 0) 0 0 (by norm_num) (by norm_num), add (0 + 0 + 0 + 0) 0 0 (by norm_num) (by norm_num),
      add (0 + 0 + 0 + 0 + 0) 5 5 (by norm_num) (by norm_num)]
    show _ /. ofNat 5 = _
    rw [o5, div _ 5 1 (by norm_num) (by norm_num) (by norm_num)]
    norm_num
  have hs : npStd (Ov.fins bin64oR [0, 0, 0, 0, 5]) = Ov.fin _ 2 := by
    unfold npStd npVar
    simp only [hm]
    have e0 : (Ov.fin bin64oR 0 -. Ov.fin _ 1) *. (Ov.fin _ 0 -. Ov.fin _ 1) = Ov.fin _ 1 := by
      rw [sub 0 1 (-1) (by norm_num) (by norm_num), mul _ _ 1 (by norm_num) (by norm_num)]; norm_num
    have e5 : (Ov.fin bin64oR 5 -. Ov.fin _ 1) *. (Ov.fin _ 5 -. Ov.fin _ 1) = Ov.fin _ 16 := by
      rw [sub 5 1 4 (by norm_num) (by norm_num), mul _ _ 16 (by norm_num) (by norm_num)]; norm_num
    have el : (Ov.fins bin64oR [0, 0, 0, 0, 5]).map (fun x => (x -. Ov.fin _ 1) *. (x -. Ov.fin _ 1)) = Ov.fins bin64oR [1, 1, 1, 1, 16] := by
      simp only [List.map_cons, List.map_nil, e0, e5]
    rw [el, hsum, add 0 1 1 (by norm_num) (by norm_num), add (0 + 1) 1 2 (by norm_num) (by norm_num),
      add (0 + 1 + 1) 1 3 (by norm_num) (by norm_num), add (0 + 1 + 1 + 1) 1 4 (by norm_num) (by norm_num),
      add (0 + 1 + 1 + 1 + 1) 16 20 (by norm_num) (by norm_num)]
    show PyMath.sqrt (_ /. ofNat 5) = _
    rw [o5, div _ 5 4 (by norm_num) (by norm_num) (by norm_num)]
    show Ov.squash bin64oR (Fl.sqrtR (Fl.fin _)) = Fl.fin 2
    simp only [Fl.sqrtR]
    rw [if_neg (by norm_num), show √((0 + 1 + 1 + 1 + 1 + 16) / 5 : ℝ) = 2 by
      rw [Real.sqrt_eq_iff_mul_self_eq (by norm_num) (by norm_num)]; norm_num]
    exact sq 2 2 (by norm_num) (by norm_num)
  refine C258_same_up bin64oR _ _ _ bin64oR_std.grad false [0, 0, 0, 0, 5] (by simp) (hnat 5 (by norm_num)) (hnat 0 (by norm_num)) 100 980 1 1 ?_ ?_ ?_
  · rw [hm, hs, mul 1 2 2 (by norm_num) (by norm_num), add 1 (1 * 2) 3 (by norm_num) (by norm_num)]; exact ⟨_, rfl⟩
  · rw [mul 1 980 980 (by norm_num) (by norm_num)]; exact ⟨_, rfl⟩
  · intro d hd
    have ed : differences (Ov.fins bin64oR [0, 0, 0, 0, 5]) (Ov.fin bin64oR 100) =
        [lit 0, (Ov.fin _ 0 -. Ov.fin _ 0) *. Ov.fin _ 100, (Ov.fin _ 0 -. Ov.fin _ 0) *. Ov.fin _ 100,
          (Ov.fin _ 0 -. Ov.fin _ 0) *. Ov.fin _ 100, (Ov.fin _ 5 -. Ov.fin _ 0) *. Ov.fin _ 100] := rfl
    rw [ed, sub 0 0 0 (by norm_num) (by norm_num), sub 5 0 5 (by norm_num) (by norm_num),
      mul (0 - 0) 100 0 (by norm_num) (by norm_num), mul (5 - 0) 100 500 (by norm_num) (by norm_num),
      Ov.lit_num (by simpa using (hnat 0 (by norm_num)).1) (by simpa using (hnat 0 (by norm_num)).2)] at hd
    simp only [List.mem_cons, List.not_mem_nil, or_false] at hd
    rcases hd with rfl | rfl | rfl | rfl | rfl <;> exact ⟨_, rfl⟩

end Proadv.Props
