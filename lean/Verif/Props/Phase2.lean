import Verif.Props.Phase

/-!
# Properties C64 (exact ellipses), C66, C103: `phasespace_thresholding` at exact arithmetic
-/

set_option linter.unusedSectionVars false

namespace Proadv.Props

open Proadv Fl Detect Spread

theorem lambdaOf_fin {n : Nat} (hn : 0 < n) : (lambdaOf n : Fl ℝ) = fin √(2 * Real.log n) := by
  have h1 : (1 : ℝ) ≤ n := by exact_mod_cast hn
  have h2 := Real.log_nonneg h1
  unfold lambdaOf
  rw [ofNat_eq, plog_fin (by linarith)]
  simp only [lit_eq, pmul_fin, Rat.cast_ofNat]
  exact psqrt_fin (by linarith)

/-- the least squares slope through the origin used as the tangent of the third plane's angle -/
noncomputable def slope (xs ys : List ℝ) : ℝ :=
  (List.zipWith (fun x y => x * y) xs ys).sum / (xs.map (fun x => x ^ 2)).sum

theorem zipWith_fins (f : Fl ℝ → Fl ℝ → Fl ℝ) (g : ℝ → ℝ → ℝ) (h : ∀ x y, f (fin x) (fin y) = fin (g x y))
    (xs ys : List ℝ) : List.zipWith f (fins xs) (fins ys) = fins (List.zipWith g xs ys) := by
  rw [List.zipWith_map, show fins (List.zipWith g xs ys) = _ from List.map_zipWith]
  congr 1; funext x y; exact h x y

theorem map_fins (f : Fl ℝ → Fl ℝ) (g : ℝ → ℝ) (h : ∀ x, f (fin x) = fin (g x)) (xs : List ℝ) :
    (fins xs).map f = fins (xs.map g) := by
  simp only [fins, List.map_map]
  apply List.map_congr_left
  intro x _; exact h x

theorem phaseAngle_fins (xs ys : List ℝ) (h : (xs.map (fun x => x ^ 2)).sum ≠ 0) :
    phaseAngle (fins xs) (fins ys) = (fin (Real.arctan (slope xs ys)) : Fl ℝ) := by
  unfold phaseAngle
  rw [zipWith_fins _ (fun x y => x * y) (fun _ _ => rfl), map_fins _ (fun x => x ^ 2) (fun x => pnpow_fin x 2)]
  rw [show PyNum.sum (fins (List.zipWith (fun x y => x * y) xs ys)) = (fin _ : Fl ℝ) from psum_fin _,
    show PyNum.sum (fins (xs.map (fun x => x ^ 2))) = (fin _ : Fl ℝ) from psum_fin _, pdiv_fin h]
  rfl

/-- third-plane half-axis as phasespace.py:75 computes it -/
noncomputable def phaseAxis (r1 r2 θ : ℝ) : ℝ := √(numA r1 r2 θ) / (Real.cos θ ^ 2 - Real.sin θ ^ 2)

theorem phaseCoefs_fin (sc sdc sdc2 l θ : ℝ) (h1 : 0 ≤ numA (l * sc) (l * sdc2) θ) (h2 : 0 ≤ numA (l * sdc2) (l * sc) θ)
    (hf : Real.cos θ ^ 2 - Real.sin θ ^ 2 ≠ 0) :
    phaseCoefs (fin sc) (fin sdc) (fin sdc2) (fin l) (fin θ) =
      ({ theta := fin θ, a1 := fin (l * sc), b1 := fin (l * sdc), a2 := fin (l * sdc), b2 := fin (l * sdc2),
         a3 := fin (phaseAxis (l * sc) (l * sdc2) θ), b3 := fin (phaseAxis (l * sdc2) (l * sc) θ) } : PhaseParams (Fl ℝ)) := by
  unfold phaseCoefs
  simp only [fact_fin, pcos_fin, psin_fin, pnpow_fin, pmul_fin, psub_fin]
  unfold numA at h1 h2
  rw [psqrt_fin h1, psqrt_fin h2, pdiv_fin hf, pdiv_fin hf]
  rfl

/-! ## C64 exact -/

/-- **C64** exact arithmetic, non-degenerate series: with `λ = √(2 ln n)`, the standard deviations `σ₀, σ₁, σ₂` of the series
and its two derivatives and the angle `θ = arctan(Σ c·c'' / Σ c²)`, sample `i` is returned iff one of its three phase points
lies outside the corresponding (rotated) ellipse. -/
theorem C64_ellipses (b : Bool) (xs : List ℝ) (hne : xs ≠ []) (l s0 s1 s2 θ : ℝ)
    (hl : l = √(2 * Real.log xs.length)) (h0 : s0 = √(Spec.var xs)) (h1 : s1 = √(Spec.var (cdiff b xs)))
    (h2 : s2 = √(Spec.var (cdiff b (cdiff b xs)))) (hθ : θ = Real.arctan (slope xs (cdiff b (cdiff b xs))))
    (hl0 : l ≠ 0) (hs0 : s0 ≠ 0) (hs1 : s1 ≠ 0) (hs2 : s2 ≠ 0)
    (ha : 0 < numA (l * s0) (l * s2) θ) (hb : 0 < numA (l * s2) (l * s0) θ)
    (hf : Real.cos θ ^ 2 - Real.sin θ ^ 2 ≠ 0) :
    ∃ r, phasespaceThresholding ⟨1, b, fins xs⟩ = .ok r ∧ ∀ i, i ∈ r ↔
      ∃ x y z, xs[i]? = some x ∧ (cdiff b xs)[i]? = some y ∧ (cdiff b (cdiff b xs))[i]? = some z ∧
        (¬ EllipseDisc 0 (l * s0) (l * s1) x y ∨ ¬ EllipseDisc 0 (l * s1) (l * s2) y z ∨
         ¬ EllipseDisc θ (phaseAxis (l * s0) (l * s2) θ) (phaseAxis (l * s2) (l * s0) θ) x z) := by
  have hne' : fins xs ≠ [] := by simpa using hne
  obtain ⟨r, hr⟩ := (C64_errors (⟨1, b, fins xs⟩ : Arr (Fl ℝ))).1.mpr ⟨rfl, hne'⟩
  refine ⟨r, hr, fun i => ((C64_char b _ r hr).2 i).trans ?_⟩
  have hlen : 0 < xs.length := List.length_pos_iff.mpr hne
  have hd1 : cdiff b xs ≠ [] := by
    intro h; have := cdiff_length b xs; rw [h] at this; simp at this; exact hne (List.length_eq_zero_iff.mp this.symm)
  have hd2 : cdiff b (cdiff b xs) ≠ [] := by
    intro h; have := cdiff_length b (cdiff b xs); rw [h] at this; simp at this; exact hd1 (List.length_eq_zero_iff.mp this.symm)
  have hsum : (xs.map (fun x => x ^ 2)).sum ≠ 0 := by
    intro hz
    apply hs0
    rw [h0, Spec.var_eq_sub hne]
    have e1 : Spec.avg (xs.map (fun x => x ^ 2)) = 0 := by unfold Spec.avg; rw [hz, zero_div]
    have hall := (Spec.avg_eq_zero (xs := xs.map (fun x => x ^ 2)) (by
      intro y hy; obtain ⟨x, _, rfl⟩ := List.mem_map.mp hy; positivity)).mp e1
    have hx0 : ∀ x ∈ xs, x = 0 := fun x hx => by
      have := hall _ (List.mem_map.mpr ⟨x, hx, rfl⟩)
      exact pow_eq_zero_iff (two_ne_zero) |>.mp this
    have e2 : Spec.avg xs = 0 := by unfold Spec.avg; rw [List.sum_eq_zero hx0, zero_div]
    rw [e1, e2]; norm_num
  have hp : phaseP b (fins xs) =
      ({ theta := fin θ, a1 := fin (l * s0), b1 := fin (l * s1), a2 := fin (l * s1), b2 := fin (l * s2),
         a3 := fin (phaseAxis (l * s0) (l * s2) θ), b3 := fin (phaseAxis (l * s2) (l * s0) θ) } : PhaseParams (Fl ℝ)) := by
    unfold phaseP
    rw [show centralDiff b (fins xs) = fins (cdiff b xs) from centralDiff_fins b xs,
      show centralDiff b (fins (cdiff b xs)) = fins (cdiff b (cdiff b xs)) from centralDiff_fins b _,
      npStd_fins xs hne, npStd_fins _ hd1, npStd_fins _ hd2, phaseAngle_fins _ _ hsum, List.length_map,
      lambdaOf_fin hlen, ← hl, ← h0, ← h1, ← h2, ← hθ, phaseCoefs_fin _ _ _ _ _ ha.le hb.le hf]
  rw [hp]
  have ea : phaseAxis (l * s0) (l * s2) θ ≠ 0 := div_ne_zero (Real.sqrt_pos.mpr ha).ne' hf
  have eb : phaseAxis (l * s2) (l * s0) θ ≠ 0 := div_ne_zero (Real.sqrt_pos.mpr hb).ne' hf
  have key : ∀ (θ a b x y : ℝ), a ≠ 0 → b ≠ 0 →
      (((lit 1 : Fl ℝ) <. rhoAt (fin θ) (fin a) (fin b) (fin x) (fin y)) = true ↔ ¬ EllipseDisc θ a b x y) := by
    intro θ a b x y ha hb
    obtain ⟨ρ, h1, _, h2, _⟩ := C70_rho θ a b x y ha hb
    rw [h1]; exact h2
  rw [show centralDiff b (fins xs) = fins (cdiff b xs) from centralDiff_fins b xs,
      show centralDiff b (fins (cdiff b xs)) = fins (cdiff b (cdiff b xs)) from centralDiff_fins b _]
  have e0 : (lit 0 : Fl ℝ) = fin 0 := by simp
  rw [e0]
  constructor
  · rintro ⟨x, y, z, hx, hy, hz, h⟩
    obtain ⟨x, hx', rfl⟩ := (fins_get _ _ _).mp hx
    obtain ⟨y, hy', rfl⟩ := (fins_get _ _ _).mp hy
    obtain ⟨z, hz', rfl⟩ := (fins_get _ _ _).mp hz
    refine ⟨x, y, z, hx', hy', hz', ?_⟩
    rw [key _ _ _ _ _ (mul_ne_zero hl0 hs0) (mul_ne_zero hl0 hs1), key _ _ _ _ _ (mul_ne_zero hl0 hs1) (mul_ne_zero hl0 hs2),
      key _ _ _ _ _ ea eb] at h
    exact h
  · rintro ⟨x, y, z, hx, hy, hz, h⟩
    refine ⟨fin x, fin y, fin z, (fins_get _ _ _).mpr ⟨x, hx, rfl⟩, (fins_get _ _ _).mpr ⟨y, hy, rfl⟩,
      (fins_get _ _ _).mpr ⟨z, hz, rfl⟩, ?_⟩
    rw [key _ _ _ _ _ (mul_ne_zero hl0 hs0) (mul_ne_zero hl0 hs1), key _ _ _ _ _ (mul_ne_zero hl0 hs1) (mul_ne_zero hl0 hs2),
      key _ _ _ _ _ ea eb]
    exact h

/-- the axis hypotheses are met, e.g. by `r₁ = r₂ = 1` at angle 0 -/
example : 0 < numA 1 1 0 ∧ Real.cos 0 ^ 2 - Real.sin 0 ^ 2 ≠ 0 ∧ phaseAxis 1 1 0 = 1 := by
  unfold phaseAxis numA; norm_num

/-! ## C66 -/

theorem origin_inside (t a b : Fl ℝ) : ((lit 1 : Fl ℝ) <. rhoAt t a b (fin 0) (fin 0)) = false := by
  have h0 : ∀ u : Fl ℝ, (fin 0 : Fl ℝ) *. u = fin 0 ∨ (fin 0 : Fl ℝ) *. u = nan := by
    intro u; cases u <;> simp [mul_def, Fl.mul, infSgn]
  have hd : ∀ u : Fl ℝ, ((fin 0 : Fl ℝ) /. u) ^. 2 = fin 0 ∨ ((fin 0 : Fl ℝ) /. u) ^. 2 = nan := by
    intro u
    cases u with
    | fin u =>
      by_cases hu : u = 0
      · right; simp [div_def, Fl.div, hu, infSgn, npow_def, Fl.npow]
      · left; rw [pdiv_fin hu]; simp
    | nan => right; simp [npow_def, Fl.npow]
    | pinf => left; simp [div_def, Fl.div]
    | ninf => left; simp [div_def, Fl.div]
  have hd' : ((nan : Fl ℝ) ^. 2) = nan := rfl
  have hX : rotX t (fin 0) (fin 0) = fin 0 ∨ rotX t (fin 0) (fin 0) = (nan : Fl ℝ) := by
    unfold rotX
    rcases h0 (PyMath.cos t) with h | h <;> rcases h0 (PyMath.sin t) with h' | h' <;> rw [h, h'] <;> simp
  have hY : rotY t (fin 0) (fin 0) = fin 0 ∨ rotY t (fin 0) (fin 0) = (nan : Fl ℝ) := by
    unfold rotY
    rcases h0 (PyMath.cos t) with h | h <;> rcases h0 (PyMath.sin t) with h' | h' <;> rw [h, h'] <;> simp
  unfold rhoAt
  rcases hX with h | h
  swap
  · rw [h, nan_div, hd', nan_add, lt_nan]
  rcases hY with h' | h'
  swap
  · rw [h', nan_div, hd', add_nan, lt_nan]
  rw [h, h']
  rcases hd a with h1 | h1 <;> rcases hd b with h2 | h2 <;> rw [h1, h2] <;> simp

/-- **C66** a sample whose value and both derivatives are 0 is never flagged; in particular an end sample of value 0 (for
every series, NaN and infinities included). -/
theorem C66_origin (b : Bool) (c : List (Fl ℝ)) (r : List Nat) (h : phasespaceThresholding ⟨1, b, c⟩ = .ok r)
    (i : Nat) (hx : c[i]? = some (fin 0)) (hi : i = 0 ∨ i + 1 = c.length) : i ∉ r := by
  have hlt : i < c.length := by
    by_contra hc; rw [List.getElem?_eq_none (by omega)] at hx; cases hx
  have hend : ∀ d : List (Fl ℝ), d.length = c.length → (centralDiff b d)[i]? = some (fin 0) := by
    intro d hd
    unfold centralDiff
    rw [List.getElem?_map, hd, List.getElem?_range hlt]
    simp only [Option.map_some, Option.some.injEq]
    rw [if_neg (by omega)]; simp
  intro hir
  obtain ⟨x, y, z, hx', hy', hz', ho⟩ := ((C64_char b c r h).2 i).mp hir
  rw [hx] at hx'
  rw [hend c rfl] at hy'
  rw [hend _ (centralDiff_length b c)] at hz'
  cases hx'; cases hy'; cases hz'
  rcases ho with ho | ho | ho <;> rw [origin_inside] at ho <;> exact Bool.noConfusion ho

private theorem cdiff_shift (xs : List ℝ) (o : ℝ) : cdiff false (xs.map (fun x => x + o)) = cdiff false xs := by
  unfold cdiff
  rw [List.length_map]
  apply List.map_congr_left
  intro i hi
  split_ifs with h
  · have e : ∀ k, k < xs.length → (xs.map (fun x => x + o)).getD k 0 = xs.getD k 0 + o := by
      intro k hk; simp [List.getD, hk]
    rw [e _ h.2, e _ (by omega), add_sub_add_right_eq_sub]
  · rfl

/-- **C66** the mean level matters: for *every* series (n ≥ 2) whose values and first derivatives are not constant, adding
a large enough constant makes every sample a spike. -/
theorem C66_offset_flags_all (xs : List ℝ) (hn : 2 ≤ xs.length) (h0 : Spec.var xs ≠ 0)
    (h1 : Spec.var (cdiff false xs) ≠ 0) :
    ∃ M, ∀ o, M ≤ o → ∃ r, phasespaceThresholding ⟨1, false, fins (xs.map (fun x => x + o))⟩ = .ok r ∧
      ∀ i, i < xs.length → i ∈ r := by
  have hne : xs ≠ [] := by rintro rfl; simp at hn
  have hd1 : cdiff false xs ≠ [] := by
    intro h; have := cdiff_length false xs; rw [h] at this; simp at this; exact hne (List.length_eq_zero_iff.mp this.symm)
  set l := √(2 * Real.log xs.length) with hl
  have hlpos : 0 < l := by
    rw [hl]; apply Real.sqrt_pos.mpr
    have : (1 : ℝ) < xs.length := by exact_mod_cast hn
    have := Real.log_pos this
    linarith
  set s0 := √(Spec.var xs) with hs0
  have hs0p : 0 < s0 := Real.sqrt_pos.mpr (lt_of_le_of_ne (Spec.var_nonneg xs) (Ne.symm h0))
  set s1 := √(Spec.var (cdiff false xs)) with hs1
  have hs1p : 0 < s1 := Real.sqrt_pos.mpr (lt_of_le_of_ne (Spec.var_nonneg _) (Ne.symm h1))
  refine ⟨l * s0 + (xs.map (fun x => |x|)).sum + 1, fun o ho => ?_⟩
  have hne' : xs.map (fun x => x + o) ≠ [] := by simpa using hne
  have hc : fins (xs.map (fun x => x + o)) ≠ [] := by simpa using hne
  obtain ⟨r, hr⟩ := (C64_errors (⟨1, false, fins (xs.map (fun x => x + o))⟩ : Arr (Fl ℝ))).1.mpr ⟨rfl, hc⟩
  refine ⟨r, hr, fun i hi => ((C64_char false _ r hr).2 i).mpr ?_⟩
  have hdc : centralDiff false (fins (xs.map (fun x => x + o))) = (fins (cdiff false xs) : List (Fl ℝ)) := by
    rw [show centralDiff false (fins (xs.map (fun x => x + o))) = _ from centralDiff_fins false _, cdiff_shift]
  have hdc2 : centralDiff false (fins (cdiff false xs)) = (fins (cdiff false (cdiff false xs)) : List (Fl ℝ)) :=
    centralDiff_fins false _
  have hvar : Spec.var (xs.map (fun x => x + o)) = Spec.var xs := by
    have := Spec.cmoment_affine 2 1 o hne
    simp only [one_mul] at this
    unfold Spec.var; rw [this]; norm_num
  obtain ⟨y, hy⟩ : ∃ y, (cdiff false xs)[i]? = some y := ⟨_, List.getElem?_eq_getElem (by rw [cdiff_length]; exact hi)⟩
  obtain ⟨z, hz⟩ : ∃ z, (cdiff false (cdiff false xs))[i]? = some z :=
    ⟨_, List.getElem?_eq_getElem (by rw [cdiff_length, cdiff_length]; exact hi)⟩
  refine ⟨fin (xs[i] + o), fin y, fin z, ?_, ?_, ?_, Or.inl ?_⟩
  · simp [hi]
  · rw [hdc, List.getElem?_map, hy]; rfl
  · rw [hdc, hdc2, List.getElem?_map, hz]; rfl
  · have ea : (phaseP false (fins (xs.map (fun x => x + o))) : PhaseParams (Fl ℝ)).a1 = fin (l * s0) := by
      show lambdaOf _ *. npStd _ = _
      rw [npStd_fins _ hne', hvar, List.length_map, List.length_map, lambdaOf_fin (by omega)]; rfl
    have eb : (phaseP false (fins (xs.map (fun x => x + o))) : PhaseParams (Fl ℝ)).b1 = fin (l * s1) := by
      show lambdaOf _ *. npStd _ = _
      rw [hdc, npStd_fins _ hd1, List.length_map, List.length_map, lambdaOf_fin (by omega)]; rfl
    rw [ea, eb]
    have e0 : (lit 0 : Fl ℝ) = fin 0 := by simp
    have p1 : 0 < l * s0 := mul_pos hlpos hs0p
    have p2 : 0 < l * s1 := mul_pos hlpos hs1p
    rw [e0, rhoAt_fin _ _ _ p1.ne' p2.ne']
    have hxi : -xs[i] ≤ (xs.map (fun x => |x|)).sum := by
      have h1 : |xs[i]| ≤ (xs.map (fun x => |x|)).sum :=
        List.single_le_sum (by
          intro y hy; obtain ⟨x, _, rfl⟩ := List.mem_map.mp hy; exact abs_nonneg x) _
          (List.mem_map.mpr ⟨xs[i], List.getElem_mem hi, rfl⟩)
      linarith [neg_abs_le xs[i], neg_le_abs xs[i]]
    have hbig : l * s0 < xs[i] + o := by linarith
    have hlt : 1 < rhoR 0 (l * s0) (l * s1) (xs[i] + o) y := by
      unfold rhoR
      rw [Real.cos_zero, Real.sin_zero]
      have h2 : 1 < (xs[i] + o) / (l * s0) := by rwa [lt_div_iff₀ p1, one_mul]
      have h3 : 0 ≤ ((y * 1 - (xs[i] + o) * 0) / (l * s1)) ^ 2 := sq_nonneg _
      have h4 : 1 < (((xs[i] + o) * 1 + y * 0) / (l * s0)) ^ 2 := by
        rw [mul_one, mul_zero, add_zero]; nlinarith
      linarith
    simpa using hlt

/-- **C66** witness that the detection is not offset-invariant: sample 0 of `[0,0,0,1,0]` is not flagged, but it is after
adding some constant. -/
theorem C66_not_offset_invariant :
    ∃ (xs : List ℝ) (o : ℝ) (r r' : List Nat), phasespaceThresholding ⟨1, false, fins xs⟩ = .ok r ∧
      phasespaceThresholding ⟨1, false, fins (xs.map (fun x => x + o))⟩ = .ok r' ∧ 0 ∉ r ∧ 0 ∈ r' := by
  have hc : cdiff false [(0 : ℝ), 0, 0, 1, 0] = [0, 0, 1 / 2, 0, 0] := by
    have hr : aroundK ((1 : ℝ) / 2) 4 = 1 / 2 := by
      unfold aroundK
      have : (1 : ℝ) / 2 * 10 ^ (4 : Int) = ((5000 : ℤ) : ℝ) := by norm_num
      rw [this, rint_int]; norm_num
    have hz : aroundK (0 : ℝ) 4 = 0 := aroundK_zero 4
    simp only [one_div] at hr
    simp [cdiff, List.range_succ, storeK, hr, hz]
  obtain ⟨M, hM⟩ := C66_offset_flags_all [0, 0, 0, 1, 0] (by simp) (by
    rw [Ne, Spec.var_eq_zero]; intro h; have := h 0 (by simp) 1 (by simp); norm_num at this) (by
    rw [hc, Ne, Spec.var_eq_zero]; intro h; have := h 0 (by simp) (1 / 2) (by simp); norm_num at this)
  obtain ⟨r', hr', hall⟩ := hM M le_rfl
  obtain ⟨r, hr⟩ := (C64_errors (⟨1, false, fins [(0 : ℝ), 0, 0, 1, 0]⟩ : Arr (Fl ℝ))).1.mpr ⟨rfl, by simp⟩
  refine ⟨[0, 0, 0, 1, 0], M, r, r', hr, hr', ?_, hall 0 (by simp)⟩
  exact C66_origin false _ r hr 0 (by simp) (Or.inl rfl)

/-- **C66** a constant series flags nothing. -/
theorem C66_constant (b : Bool) (k : ℝ) (n : Nat) (hn : 0 < n) :
    phasespaceThresholding ⟨1, b, fins (List.replicate n k)⟩ = .ok [] := by
  have hne : List.replicate n k ≠ [] := by simpa using (by omega : n ≠ 0)
  have hz : ∀ m : ℝ, cdiff b (List.replicate n m) = List.replicate n 0 := by
    intro m
    unfold cdiff
    apply List.ext_getElem
    · simp
    · intro i h1 h2
      have hi : i < n := by simpa using h1
      simp only [List.getElem_map, List.getElem_range, List.getElem_replicate, List.length_replicate]
      split_ifs with h
      · have e : ∀ j, j < n → (List.replicate n m).getD j 0 = m := by
          intro j hj; simp [List.getD, hj]
        rw [e _ h.2, e _ (by omega), sub_self, zero_div, aroundK_zero]
        cases b <;> simp [storeK, truncK]
      · rfl
  have hv : ∀ m : ℝ, Spec.var (List.replicate n m) = 0 := fun m => Spec.var_eq_zero.mpr (by
    intro x hx y hy
    rw [List.eq_of_mem_replicate hx, List.eq_of_mem_replicate hy])
  have hs : ∀ m : ℝ, npStd (fins (List.replicate n m)) = (fin 0 : Fl ℝ) := by
    intro m; rw [npStd_fins _ (by simpa using (by omega : n ≠ 0)), hv, Real.sqrt_zero]
  obtain ⟨r, hr⟩ := (C64_errors (⟨1, b, fins (List.replicate n k)⟩ : Arr (Fl ℝ))).1.mpr ⟨rfl, by
    simpa using (by omega : n ≠ 0)⟩
  rw [hr]
  congr 1
  apply List.eq_nil_iff_forall_not_mem.mpr
  intro i hi
  obtain ⟨x, y, z, hx, hy, hz', ho⟩ := ((C64_char b _ r hr).2 i).mp hi
  have e1 : centralDiff b (fins (List.replicate n k)) = (fins (List.replicate n 0) : List (Fl ℝ)) := by
    rw [show centralDiff b (fins (List.replicate n k)) = _ from centralDiff_fins b _, hz]
  have e2 : centralDiff b (fins (List.replicate n (0 : ℝ))) = (fins (List.replicate n 0) : List (Fl ℝ)) := by
    rw [show centralDiff b (fins (List.replicate n (0 : ℝ))) = _ from centralDiff_fins b _, hz]
  rw [e1] at hy
  rw [e1, e2] at hz'
  have rep : ∀ (m : ℝ) (w : Fl ℝ), (fins (List.replicate n m))[i]? = some w → w = fin m := by
    intro m w hw
    obtain ⟨u, hu, rfl⟩ := (fins_get _ _ _).mp hw
    rw [List.eq_of_mem_replicate (List.mem_of_getElem? hu)]
  obtain rfl := rep _ _ hx
  obtain rfl := rep _ _ hy
  obtain rfl := rep _ _ hz'
  -- the coefficients
  have el : (lambdaOf (fins (List.replicate n k)).length : Fl ℝ) = fin √(2 * Real.log n) := by
    rw [List.length_map, List.length_replicate]; exact lambdaOf_fin hn
  have a1 : (phaseP b (fins (List.replicate n k)) : PhaseParams (Fl ℝ)).a1 = fin 0 := by
    show lambdaOf _ *. npStd _ = _
    rw [hs, el, pmul_fin, mul_zero]
  have b1 : (phaseP b (fins (List.replicate n k)) : PhaseParams (Fl ℝ)).b1 = fin 0 := by
    show lambdaOf _ *. npStd _ = _
    rw [e1, hs, el, pmul_fin, mul_zero]
  have b2 : (phaseP b (fins (List.replicate n k)) : PhaseParams (Fl ℝ)).b2 = fin 0 := by
    show lambdaOf _ *. npStd _ = _
    rw [e1, e2, hs, el, pmul_fin, mul_zero]
  have hd0 : (((fin 0 : Fl ℝ) /. fin 0) ^. 2) = nan := by simp [pdiv_fin', infSgn, npow_def, Fl.npow]
  have c0 : (PyMath.cos (lit 0) : Fl ℝ) = fin 1 := by simp
  have s0 : (PyMath.sin (lit 0) : Fl ℝ) = fin 0 := by simp
  rcases ho with ho | ho | ho
  · rw [a1, b1] at ho
    unfold rhoAt rotX rotY at ho
    rw [c0, s0] at ho
    simp [hd0] at ho
  · rw [b2] at ho
    unfold rhoAt rotX rotY at ho
    rw [c0, s0] at ho
    simp [hd0] at ho
  · have ht : (phaseP b (fins (List.replicate n k)) : PhaseParams (Fl ℝ)).theta = fin 0 ∨
        (phaseP b (fins (List.replicate n k)) : PhaseParams (Fl ℝ)).theta = nan := by
      show phaseAngle _ _ = _ ∨ phaseAngle _ _ = _
      rw [e1, e2]
      have hsum0 : (List.zipWith (fun x y : ℝ => x * y) (List.replicate n k) (List.replicate n 0)).sum = 0 := by
        apply List.sum_eq_zero
        intro x hx
        rw [List.zipWith_replicate] at hx
        rw [List.eq_of_mem_replicate hx, mul_zero]
      by_cases hq : ((List.replicate n k).map (fun x => x ^ 2)).sum = 0
      · right
        unfold phaseAngle
        rw [zipWith_fins _ (fun x y => x * y) (fun _ _ => rfl), map_fins _ (fun x => x ^ 2) (fun x => pnpow_fin x 2)]
        rw [show PyNum.sum (fins (List.zipWith (fun x y => x * y) (List.replicate n k) (List.replicate n 0))) =
          (fin _ : Fl ℝ) from psum_fin _,
          show PyNum.sum (fins ((List.replicate n k).map (fun x => x ^ 2))) = (fin _ : Fl ℝ) from psum_fin _, hq, hsum0]
        simp [pdiv_fin', infSgn]
      · left
        rw [phaseAngle_fins _ _ hq]
        unfold slope
        rw [hsum0, zero_div, Real.arctan_zero]
    rcases ht with ht | ht
    · have b3 : (phaseP b (fins (List.replicate n k)) : PhaseParams (Fl ℝ)).b3 = fin 0 := by
        have : (phaseP b (fins (List.replicate n k)) : PhaseParams (Fl ℝ)).b3 =
            PyMath.sqrt (((phaseP b (fins (List.replicate n k)) : PhaseParams (Fl ℝ)).b2) ^. 2 *.
              PyMath.cos (phaseP b (fins (List.replicate n k)) : PhaseParams (Fl ℝ)).theta ^. 2 -.
              (phaseP b (fins (List.replicate n k)) : PhaseParams (Fl ℝ)).a1 ^. 2 *.
              PyMath.sin (phaseP b (fins (List.replicate n k)) : PhaseParams (Fl ℝ)).theta ^. 2) /.
              fact (phaseP b (fins (List.replicate n k)) : PhaseParams (Fl ℝ)).theta := rfl
        rw [this, ht, a1, b2, fact_fin]
        simp only [pcos_fin, psin_fin, pnpow_fin, pmul_fin, psub_fin, Real.cos_zero, Real.sin_zero]
        rw [psqrt_fin (by norm_num), pdiv_fin (by norm_num)]
        norm_num
      rw [ht, b3] at ho
      unfold rhoAt rotX rotY at ho
      simp only [pcos_fin, psin_fin, Real.cos_zero, Real.sin_zero, pmul_fin, mul_one, mul_zero, psub_fin, sub_zero, hd0,
        add_nan, lt_nan] at ho
      exact Bool.noConfusion ho
    · rw [ht] at ho
      unfold rhoAt rotX rotY at ho
      simp [npow_def, Fl.npow] at ho

/-! ## C103: the third ellipse -/

/-- **C103** partial: with `f = cos²θ - sin²θ > 0`, the third-plane axes of `phasespace_thresholding` solve the ellipse
equations with right-hand sides `(λσ)²/f` instead of `(λσ)²`: rho is `f` times the rho of the true ellipse, so the code flags a
subset of the points outside the true ellipse. -/
theorem C103_partial (sc sdc sdc2 l θ : ℝ) (hf : 0 < Real.cos θ ^ 2 - Real.sin θ ^ 2)
    (ha : 0 < numA (l * sc) (l * sdc2) θ) (hb : 0 < numA (l * sdc2) (l * sc) θ) :
    ∃ a3 b3 a b : ℝ,
      (phaseCoefs (fin sc) (fin sdc) (fin sdc2) (fin l) (fin θ) : PhaseParams (Fl ℝ)).a3 = fin a3 ∧
      (phaseCoefs (fin sc) (fin sdc) (fin sdc2) (fin l) (fin θ) : PhaseParams (Fl ℝ)).b3 = fin b3 ∧
      calculateAb (fin sc) (fin sdc2) (fin θ) (fin l) = ((fin a : Fl ℝ), .scal (fin b)) ∧
      (Real.cos θ ^ 2 - Real.sin θ ^ 2) * (a3 ^ 2 * Real.cos θ ^ 2 + b3 ^ 2 * Real.sin θ ^ 2) = (l * sc) ^ 2 ∧
      (Real.cos θ ^ 2 - Real.sin θ ^ 2) * (a3 ^ 2 * Real.sin θ ^ 2 + b3 ^ 2 * Real.cos θ ^ 2) = (l * sdc2) ^ 2 ∧
      (∀ x y, rhoR θ a3 b3 x y = (Real.cos θ ^ 2 - Real.sin θ ^ 2) * rhoR θ a b x y) ∧
      (∀ x y, ¬ EllipseDisc θ a3 b3 x y → ¬ EllipseDisc θ a b x y) := by
  have h1 := Real.sin_sq_add_cos_sq θ
  set f := Real.cos θ ^ 2 - Real.sin θ ^ 2 with hfd
  have hax : AxesPos (l * sc) (l * sdc2) θ := ⟨div_pos ha hf, div_pos hb hf⟩
  have hq := phaseCoefs_fin sc sdc sdc2 l θ ha.le hb.le hf.ne'
  have hab : calculateAb (fin sc) (fin sdc2) (fin θ) (fin l) =
      ((fin √(numA (l * sc) (l * sdc2) θ / f) : Fl ℝ), .scal (fin √(numA (l * sdc2) (l * sc) θ / f))) := by
    unfold calculateAb
    rw [if_pos ((axes_pos_iff sc sdc2 θ l).mpr hax), axisA_fin, axisB_fin, pdiv_fin hf.ne', pdiv_fin hf.ne',
      psqrt_fin (div_pos ha hf).le, psqrt_fin (div_pos hb hf).le]
  have A : phaseAxis (l * sc) (l * sdc2) θ ^ 2 = numA (l * sc) (l * sdc2) θ / f ^ 2 := by
    unfold phaseAxis; rw [div_pow, Real.sq_sqrt ha.le]
  have B : phaseAxis (l * sdc2) (l * sc) θ ^ 2 = numA (l * sdc2) (l * sc) θ / f ^ 2 := by
    unfold phaseAxis; rw [div_pow, Real.sq_sqrt hb.le]
  have hrho : ∀ x y, rhoR θ (phaseAxis (l * sc) (l * sdc2) θ) (phaseAxis (l * sdc2) (l * sc) θ) x y =
      f * rhoR θ √(numA (l * sc) (l * sdc2) θ / f) √(numA (l * sdc2) (l * sc) θ / f) x y := by
    intro x y
    unfold rhoR
    rw [div_pow, div_pow, div_pow, div_pow, A, B, Real.sq_sqrt (div_pos ha hf).le, Real.sq_sqrt (div_pos hb hf).le]
    field_simp
  refine ⟨_, _, _, _, by rw [hq], by rw [hq], hab, ?_, ?_, hrho, ?_⟩
  · rw [A, B]
    unfold numA
    field_simp
    rw [hfd]
    linear_combination ((Real.cos θ ^ 2 - Real.sin θ ^ 2) * (l * sc) ^ 2) * h1
  · rw [A, B]
    unfold numA
    field_simp
    rw [hfd]
    linear_combination ((Real.cos θ ^ 2 - Real.sin θ ^ 2) * (l * sdc2) ^ 2) * h1
  · intro x y
    unfold phaseAxis
    rw [← hfd, ← rhoR_le_one_iff θ x y (div_ne_zero (Real.sqrt_pos.mpr ha).ne' hf.ne') (div_ne_zero (Real.sqrt_pos.mpr hb).ne' hf.ne'),
      ← rhoR_le_one_iff θ x y (Real.sqrt_pos.mpr hax.1).ne' (Real.sqrt_pos.mpr hax.2).ne']
    have e := hrho x y
    unfold phaseAxis at e
    rw [← hfd] at e
    rw [e, not_le, not_le]
    intro h
    have hf1 : f ≤ 1 := by rw [hfd]; nlinarith [sq_nonneg (Real.sin θ)]
    have hr : 0 ≤ rhoR θ √(numA (l * sc) (l * sdc2) θ / f) √(numA (l * sdc2) (l * sc) θ / f) x y := by
      unfold rhoR; positivity
    nlinarith

/-- **C103** full claim: the axes `a3`, `b3` solve the ellipse equations of the cited paper (the ones `calculate_ab` solves,
C71). -/
def C103_claim : Prop :=
  ∀ (sc sdc sdc2 l θ a3 b3 : ℝ), 0 < Real.cos θ ^ 2 - Real.sin θ ^ 2 → 0 < numA (l * sc) (l * sdc2) θ →
    0 < numA (l * sdc2) (l * sc) θ →
    (phaseCoefs (fin sc) (fin sdc) (fin sdc2) (fin l) (fin θ) : PhaseParams (Fl ℝ)).a3 = fin a3 →
    (phaseCoefs (fin sc) (fin sdc) (fin sdc2) (fin l) (fin θ) : PhaseParams (Fl ℝ)).b3 = fin b3 →
    a3 ^ 2 * Real.cos θ ^ 2 + b3 ^ 2 * Real.sin θ ^ 2 = (l * sc) ^ 2

/-- **C103** is false: with unit deviations, `λ = 1` and `θ = π/6` the left-hand side is 2, not 1. -/
theorem C103_false : ¬ C103_claim := by
  intro hcl
  have hc : Real.cos (Real.pi / 6) ^ 2 = 3 / 4 := by rw [Real.cos_pi_div_six, div_pow, Real.sq_sqrt (by norm_num)]; norm_num
  have hs : Real.sin (Real.pi / 6) ^ 2 = 1 / 4 := by rw [Real.sin_pi_div_six]; norm_num
  have hf : 0 < Real.cos (Real.pi / 6) ^ 2 - Real.sin (Real.pi / 6) ^ 2 := by rw [hc, hs]; norm_num
  have hn : 0 < numA (1 * 1) (1 * 1) (Real.pi / 6) := by unfold numA; rw [hc, hs]; norm_num
  obtain ⟨a3, b3, _, _, h1, h2, _, h3, _⟩ := C103_partial 1 1 1 1 (Real.pi / 6) hf hn hn
  have := hcl 1 1 1 1 (Real.pi / 6) a3 b3 hf hn hn h1 h2
  rw [this, hc, hs] at h3
  norm_num at h3

end Proadv.Props
