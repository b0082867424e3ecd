import Verif.Props.Spherical2
import Verif.Props.CorrelationPerm
import Mathlib.Analysis.SpecialFunctions.Trigonometric.Bounds
import Mathlib.Analysis.Complex.ExponentialBounds

/-!
# C228: `spherical_phasespace_thresholding` and the direction of time
-/

set_option linter.unusedSectionVars false

namespace Proadv.Props

open Proadv Fl Spherical

private theorem getD_rev (a : List ℝ) (i : Nat) (h : i < a.length) : a.reverse.getD i 0 = a.getD (a.length - 1 - i) 0 := by
  simp only [List.getD]
  rw [List.getElem?_reverse h]

theorem gradR_getD (a : List ℝ) (i : Nat) (h : i < a.length) : (gradR a).getD i 0 = gradAtR a i := by
  unfold gradR; simp [List.getD, h]

theorem gradAtR_reverse (a : List ℝ) (hn : 2 ≤ a.length) (i : Nat) (h : i < a.length) :
    gradAtR a.reverse i = -gradAtR a (a.length - 1 - i) := by
  unfold gradAtR
  rw [List.length_reverse]
  by_cases h0 : i = 0
  · subst h0
    rw [if_pos rfl, if_neg (by omega), if_pos (by omega), getD_rev _ _ (by omega), getD_rev _ _ (by omega),
      show a.length - 1 - 0 = a.length - 1 by omega, show a.length - 1 - 1 = a.length - 2 by omega]
    ring
  by_cases h1 : i + 1 = a.length
  · rw [if_neg h0, if_pos h1, if_pos (by omega), getD_rev _ _ (by omega), getD_rev _ _ (by omega),
      show a.length - 1 - i = 0 by omega, show a.length - 1 - (i - 1) = 1 by omega]
    ring
  · rw [if_neg h0, if_neg h1, if_neg (by omega), if_neg (by omega), getD_rev _ _ (by omega), getD_rev _ _ (by omega),
      show a.length - 1 - (i + 1) = a.length - 1 - i - 1 by omega, show a.length - 1 - (i - 1) = a.length - 1 - i + 1 by omega]
    ring

private theorem ext_getD {a b : List ℝ} (hl : a.length = b.length) (h : ∀ i < a.length, a.getD i 0 = b.getD i 0) : a = b := by
  apply List.ext_getElem hl
  intro i h1 h2
  have := h i h1
  simpa [List.getD, h1, h2] using this

/-- the gradient of a reversed series is the reversed gradient with the opposite sign -/
theorem gradR_reverse (a : List ℝ) (hn : 2 ≤ a.length) : gradR a.reverse = (gradR a).reverse.map (fun x => -x) := by
  apply ext_getD
  · simp [gradR_length]
  · intro i hi
    rw [gradR_length, List.length_reverse] at hi
    rw [gradR_getD _ _ (by simpa using hi), gradAtR_reverse a hn i hi, ← gradR_getD _ _ (by omega)]
    have h1 : i < (gradR a).reverse.length := by rw [List.length_reverse, gradR_length]; exact hi
    have : ((gradR a).reverse.map (fun x => -x)).getD i 0 = -(gradR a).reverse.getD i 0 := by
      simp only [List.getD, List.getElem?_map]
      rw [List.getElem?_eq_getElem h1]; simp
    rw [this, getD_rev _ _ (by rw [gradR_length]; exact hi), gradR_length]

theorem gradR_neg (a : List ℝ) : gradR (a.map (fun x => -x)) = (gradR a).map (fun x => -x) := by
  have hg : ∀ k, (a.map (fun x => -x)).getD k 0 = -a.getD k 0 := by
    intro k; simp only [List.getD, List.getElem?_map]
    rcases a[k]? with _ | x <;> simp
  unfold gradR
  rw [List.map_map, List.length_map]
  apply List.map_congr_left
  intro i _
  simp only [Function.comp, gradAtR, List.length_map, hg]
  split_ifs <;> ring

theorem gradR2_reverse (a : List ℝ) (hn : 2 ≤ a.length) : gradR (gradR a.reverse) = (gradR (gradR a)).reverse := by
  rw [gradR_reverse a hn, gradR_neg,
    gradR_reverse _ (by rw [gradR_length]; exact hn), List.map_map]
  simp

private theorem dot_reverse_neg (a b : List ℝ) (h : a.length = b.length) :
    Spec.dot a.reverse (b.reverse.map (fun x => -x)) = -Spec.dot a b := by
  unfold Spec.dot
  rw [List.zipWith_map_right, List.zipWith_reverse_reverse _ _ _ h, List.sum_reverse]
  have e : List.zipWith (fun x y : ℝ => x * -y) a b = (List.zipWith (fun x y => x * y) a b).map (fun z => -z) := by
    rw [List.map_zipWith]; congr 1; funext x y; ring
  rw [e]
  exact List.sum_neg _
where
  List.zipWith_reverse_reverse (f : ℝ → ℝ → ℝ) (a b : List ℝ) (h : a.length = b.length) :
      List.zipWith f a.reverse b.reverse = (List.zipWith f a b).reverse := (List.reverse_zipWith h).symm
  List.sum_neg (l : List ℝ) : (l.map (fun z => -z)).sum = -l.sum := by
    induction l with
    | nil => simp
    | cons x l ih => rw [List.map_cons, List.sum_cons, ih, List.sum_cons]; ring

/-- **C228** reversing time turns the rotation angle of a centred series into its opposite -/
theorem C228_angle (f : List ℝ) (hn : 2 ≤ f.length) : thetaR f.reverse = -thetaR f := by
  unfold thetaR
  rw [gradR2_reverse f hn, gradR_reverse f hn, dot_reverse_neg _ _ (gradR_length f).symm, List.map_reverse, List.sum_reverse,
    ← aroundK_neg]
  congr 1
  set A := ((gradR (gradR f)).map (fun v => v ^ 2)).sum with hA
  have hA0 : 0 ≤ A := List.sum_nonneg (by
    intro y hy
    obtain ⟨v, _, rfl⟩ := List.mem_map.mp hy
    positivity)
  have hc : (⟨A, -Spec.dot f (gradR f)⟩ : ℂ) = (starRingEnd ℂ) ⟨A, Spec.dot f (gradR f)⟩ := by
    apply Complex.ext <;> simp
  rw [hc, Complex.arg_conj, if_neg]
  intro h
  rw [Complex.arg_eq_pi_iff] at h
  exact absurd h.1 (not_lt.mpr hA0)

private theorem axisR_perm {xs ys : List ℝ} (h : xs.Perm ys) : axisR xs = axisR ys := by
  unfold axisR; rw [h.length_eq, var_perm h]

private theorem axisR_neg (xs : List ℝ) : axisR (xs.map (fun x => -x)) = axisR xs := by
  unfold axisR
  rw [List.length_map]
  rcases eq_or_ne xs [] with rfl | h
  · rfl
  · have := var_affine (-1) 0 h
    simp only [neg_mul, one_mul, add_zero, even_two, Even.neg_pow, one_pow] at this
    rw [this]

private theorem flagged_neg_y (a b c x y z : ℝ) : FlaggedR a b c (x, -y, z) ↔ FlaggedR a b c (x, y, z) := by
  have hd : denR a b c (x, -y, z) = denR a b c (x, y, z) := by unfold denR; simp only; congr 2; ring
  have hy : aroundK (a * b * c * -y / denR a b c (x, y, z)) 4 = -aroundK (a * b * c * y / denR a b c (x, y, z)) 4 := by
    rw [← aroundK_neg]; congr 1; ring
  have hz : ∀ x2 y2, ztR a b c x2 (-y2) = ztR a b c x2 y2 := by
    intro x2 y2; unfold ztR; congr 1; ring
  unfold FlaggedR
  simp only [hd, hy, hz, neg_sq]

theorem centR_reverse (xs : List ℝ) : centR xs.reverse = (centR xs).reverse := by
  unfold centR
  rw [avg_perm xs.reverse_perm, List.map_reverse]

private theorem ptsR_zero (f : List ℝ) (h : thetaR f = 0) : ptsR f = f.zip ((gradR f).zip (gradR (gradR f))) := by
  unfold ptsR
  rw [h, show rotSph 0 = id from by funext p; simp [rotSph], List.map_id]

/-- **C228** when the rotation angle is zero — the end terms cancel, as they do when the recording reads the same in both directions or
its first and last samples are at the mean — sample `i` of the reversed recording is flagged iff its mirror image is -/
theorem C228_reversal (xs : List ℝ) (it it' : Int) (mean mean' : Fl ℝ) (m : Nat) (hn : xs.length = m + 2)
    (he : (centR xs).getD (m + 1) 0 ^ 2 - (centR xs).getD 0 0 ^ 2 +
      ((centR xs).getD 0 0 * (centR xs).getD 1 0 - (centR xs).getD m 0 * (centR xs).getD (m + 1) 0) / 2 = 0) :
    ∃ r r', sphericalThresholding (fins xs) it mean = .ok r ∧ sphericalThresholding (fins xs.reverse) it' mean' = .ok r' ∧
      ∀ i < xs.length, (i ∈ r' ↔ xs.length - 1 - i ∈ r) := by
  obtain ⟨r, hr, hm⟩ := C121_flags xs it mean (by omega)
  obtain ⟨r', hr', hm'⟩ := C121_flags xs.reverse it' mean' (by rw [List.length_reverse]; omega)
  refine ⟨r, r', hr, hr', fun i hi => ?_⟩
  rw [hm, hm', centR_reverse]
  have hl : (centR xs).length = xs.length := by simp [centR]
  have ht : thetaR (centR xs) = 0 := by
    unfold thetaR
    rw [C105_telescope _ m (by rw [hl, hn]), he]
    have h0 : 0 ≤ ((gradR (gradR (centR xs))).map (fun v => v ^ 2)).sum := List.sum_nonneg (by
      intro y hy
      obtain ⟨v, _, rfl⟩ := List.mem_map.mp hy
      positivity)
    rw [show (⟨((gradR (gradR (centR xs))).map (fun v => v ^ 2)).sum, 0⟩ : ℂ) =
      (((gradR (gradR (centR xs))).map (fun v => v ^ 2)).sum : ℝ) from rfl, Complex.arg_ofReal_of_nonneg h0, aroundK_zero]
  generalize centR xs = f at *
  have hf2 : 2 ≤ f.length := by omega
  have ht' : thetaR f.reverse = 0 := by rw [C228_angle f hf2, ht, neg_zero]
  rw [ptsR_zero f ht, ptsR_zero f.reverse ht', gradR2_reverse f hf2, gradR_reverse f hf2]
  have lg := gradR_length f
  have lg2 : (gradR (gradR f)).length = f.length := by rw [gradR_length, gradR_length]
  generalize gradR (gradR f) = d2 at *
  generalize gradR f = d at *
  have p1 : (f.zip (d.zip d2)).map (fun q => q.1) = f := List.map_fst_zip (by simp [lg, lg2])
  have p2 : (f.zip (d.zip d2)).map (fun q => q.2.1) = d := by
    rw [show (fun q : ℝ × ℝ × ℝ => q.2.1) = Prod.fst ∘ Prod.snd from rfl, ← List.map_map,
      List.map_snd_zip (by simp [lg, lg2]), List.map_fst_zip (by omega)]
  have p3 : (f.zip (d.zip d2)).map (fun q => q.2.2) = d2 := by
    rw [show (fun q : ℝ × ℝ × ℝ => q.2.2) = Prod.snd ∘ Prod.snd from rfl, ← List.map_map,
      List.map_snd_zip (by simp [lg, lg2]), List.map_snd_zip (by omega)]
  set dr := d.reverse.map (fun x => -x) with hdr
  have ld : dr.length = f.length := by simp [hdr, lg]
  have q1 : (f.reverse.zip (dr.zip d2.reverse)).map (fun q => q.1) = f.reverse := List.map_fst_zip (by simp [ld, lg2])
  have q2 : (f.reverse.zip (dr.zip d2.reverse)).map (fun q => q.2.1) = dr := by
    rw [show (fun q : ℝ × ℝ × ℝ => q.2.1) = Prod.fst ∘ Prod.snd from rfl, ← List.map_map,
      List.map_snd_zip (by simp [ld, lg2]), List.map_fst_zip (by simp [ld, lg2])]
  have q3 : (f.reverse.zip (dr.zip d2.reverse)).map (fun q => q.2.2) = d2.reverse := by
    rw [show (fun q : ℝ × ℝ × ℝ => q.2.2) = Prod.snd ∘ Prod.snd from rfl, ← List.map_map,
      List.map_snd_zip (by simp [ld, lg2]), List.map_snd_zip (by simp [ld, lg2])]
  rw [p1, p2, p3, q1, q2, q3, axisR_perm f.reverse_perm, axisR_perm d2.reverse_perm, hdr, axisR_neg, axisR_perm d.reverse_perm]
  have g1 : f.reverse[i]? = f[xs.length - 1 - i]? := by rw [List.getElem?_reverse (by omega), hl]
  have g2 : (d.reverse.map (fun x => -x))[i]? = (d[xs.length - 1 - i]?).map (fun x => -x) := by
    rw [List.getElem?_map, List.getElem?_reverse (by omega), lg, hl]
  have g3 : d2.reverse[i]? = d2[xs.length - 1 - i]? := by rw [List.getElem?_reverse (by omega), lg2, hl]
  have z1 : ∀ p : ℝ × ℝ × ℝ, (f.reverse.zip ((d.reverse.map (fun x => -x)).zip d2.reverse))[i]? = some p ↔
      (f.zip (d.zip d2))[xs.length - 1 - i]? = some (p.1, -p.2.1, p.2.2) := by
    rintro ⟨x, y, z⟩
    rw [List.getElem?_zip_eq_some, List.getElem?_zip_eq_some, List.getElem?_zip_eq_some, List.getElem?_zip_eq_some, g1, g2, g3]
    simp only
    rw [Option.map_eq_some_iff]
    constructor
    · rintro ⟨a, ⟨y', b, rfl⟩, c⟩; exact ⟨a, by rw [neg_neg]; exact b, c⟩
    · rintro ⟨a, b, c⟩; exact ⟨a, ⟨-y, b, neg_neg y⟩, c⟩
  constructor
  · rintro ⟨⟨x, y, z⟩, h1, h2⟩
    exact ⟨(x, -y, z), (z1 _).mp h1, (flagged_neg_y _ _ _ _ _ _).mpr h2⟩
  · rintro ⟨⟨x, y, z⟩, h1, h2⟩
    exact ⟨(x, -y, z), (z1 _).mpr (by simpa using h1), (flagged_neg_y _ _ _ _ _ _).mpr h2⟩

/-! ### In general the direction of time matters -/

private theorem around4_exact (x : ℝ) (k : ℤ) (h : x = k / 10000) : aroundK x 4 = x := by
  rw [around4_eq x k (by rw [h]; norm_num), h]

/-- six standard deviations squared: bounds for a half-axis of eight samples -/
private theorem axis_sq (xs : List ℝ) (hl : xs.length = 8) (hv : 1 ≤ Spec.var xs) :
    0 < axisR xs ∧ 41 / 10 * Spec.var xs ≤ axisR xs ^ 2 ∧ axisR xs ^ 2 ≤ 42 / 10 * Spec.var xs := by
  unfold axisR
  rw [hl]
  have l2a := Real.log_two_gt_d9
  have l2b := Real.log_two_lt_d9
  have hlog : Real.log ((8 : ℕ) : ℝ) = 3 * Real.log 2 := by
    rw [show ((8 : ℕ) : ℝ) = 2 ^ 3 by norm_num, Real.log_pow]; norm_num
  rw [hlog]
  set L := √(2 * (3 * Real.log 2)) with hL
  have hL2 : L ^ 2 = 6 * Real.log 2 := by rw [hL, Real.sq_sqrt (by linarith)]; ring
  have hL0 : 0 ≤ L := Real.sqrt_nonneg _
  have n1 := abs_le.mp (around4_near L)
  have hLa : 2039 / 1000 ≤ L := by nlinarith
  have hLb : L ≤ 20395 / 10000 := by nlinarith
  set s := √(Spec.var xs) with hs
  have hs2 : s ^ 2 = Spec.var xs := Real.sq_sqrt (by linarith)
  have hs1 : 1 ≤ s := by rw [hs]; exact Real.one_le_sqrt.mpr hv
  have n2 := abs_le.mp (around4_near (aroundK L 4 * s))
  set l := aroundK L 4
  have la : 2038 / 1000 ≤ l := by linarith [n1.1]
  have lb : l ≤ 2040 / 1000 := by linarith [n1.2]
  set a := aroundK (l * s) 4
  have a1 : 2037 / 1000 * s ≤ a := by nlinarith [n2.1]
  have a2 : a ≤ 2041 / 1000 * s := by nlinarith [n2.2]
  have a0 : 0 < a := by linarith
  rw [← hs2]
  refine ⟨a0, ?_, ?_⟩
  · calc 41 / 10 * s ^ 2 ≤ (2037 / 1000 * s) ^ 2 := by nlinarith
      _ ≤ a ^ 2 := pow_le_pow_left₀ (by linarith) a1 2
  · calc a ^ 2 ≤ (2041 / 1000 * s) ^ 2 := pow_le_pow_left₀ a0.le a2 2
      _ ≤ 42 / 10 * s ^ 2 := by nlinarith

private theorem sq_near {u v : ℝ} (h : |u - v| ≤ 1 / 20000) (hv : |v| ≤ 3) : |u ^ 2 - v ^ 2| ≤ 1 / 3000 := by
  have h1 := abs_le.mp h
  have h2 := abs_le.mp hv
  rw [show u ^ 2 - v ^ 2 = (u - v) * (u + v) by ring, abs_mul]
  have : |u + v| ≤ 6 + 1 / 20000 := by rw [abs_le]; constructor <;> linarith [h1.1, h1.2, h2.1, h2.2]
  calc |u - v| * |u + v| ≤ 1 / 20000 * (6 + 1 / 20000) := mul_le_mul h this (abs_nonneg _) (by norm_num)
    _ ≤ 1 / 3000 := by norm_num

/-- what the rounded surface point measures, when the axes are comparable -/
private theorem surface_near (a b c x y z S : ℝ) (ha : 0 < a) (hb : 0 < b) (hc : 0 < c) (hca : c ^ 2 ≤ 6 * a ^ 2)
    (hcb : c ^ 2 ≤ 6 * b ^ 2) (hS : S = (x / a) ^ 2 + (y / b) ^ 2 + (z / c) ^ 2) (hS0 : 0 < S) (hx : x ^ 2 ≤ 9 * S)
    (hy : y ^ 2 ≤ 9 * S) (hz : z ^ 2 ≤ 9 * S) (hz' : S / 100 ≤ z ^ 2) :
    denR a b c (x, y, z) ≠ 0 ∧
    0 ≤ ztR a b c (aroundK (a * b * c * x / denR a b c (x, y, z)) 4) (aroundK (a * b * c * y / denR a b c (x, y, z)) 4) ∧
    |aroundK (a * b * c * x / denR a b c (x, y, z)) 4 ^ 2 + aroundK (a * b * c * y / denR a b c (x, y, z)) 4 ^ 2 +
      aroundK (√(ztR a b c (aroundK (a * b * c * x / denR a b c (x, y, z)) 4)
        (aroundK (a * b * c * y / denR a b c (x, y, z)) 4))) 4 ^ 2 - (x ^ 2 + y ^ 2 + z ^ 2) / S| ≤ 1 / 100 := by
  have hD : denR a b c (x, y, z) = a * b * c * √S := by
    unfold denR
    simp only
    rw [show (a * c * y) ^ 2 + b ^ 2 * (c ^ 2 * x ^ 2 + a ^ 2 * z ^ 2) = (a * b * c) ^ 2 * S by rw [hS]; field_simp; ring,
      Real.sqrt_mul (by positivity), Real.sqrt_sq (by positivity)]
  have hs : 0 < √S := Real.sqrt_pos.mpr hS0
  have hs2 : √S ^ 2 = S := Real.sq_sqrt hS0.le
  have hX : ∀ t, a * b * c * t / denR a b c (x, y, z) = t / √S := by
    intro t; rw [hD, mul_div_mul_left _ _ (by positivity)]
  have bound : ∀ t : ℝ, t ^ 2 ≤ 9 * S → |t / √S| ≤ 3 := by
    intro t ht
    apply abs_le_of_sq_le_sq _ (by norm_num)
    rw [div_pow, hs2, div_le_iff₀ hS0]; linarith
  rw [hX, hX]
  refine ⟨by rw [hD]; positivity, ?_⟩
  have ex := sq_near (around4_near (x / √S)) (bound x hx)
  have ey := sq_near (around4_near (y / √S)) (bound y hy)
  set x2 := aroundK (x / √S) 4
  set y2 := aroundK (y / √S) 4
  have hzt : |ztR a b c x2 y2 - z ^ 2 / S| ≤ 5 / 1000 := by
    have n := abs_le.mp (around4_near (c ^ 2 * (1 - (x2 / a) ^ 2 - (y2 / b) ^ 2)))
    have e : c ^ 2 * (1 - (x2 / a) ^ 2 - (y2 / b) ^ 2) = z ^ 2 / S - c ^ 2 / a ^ 2 * (x2 ^ 2 - (x / √S) ^ 2) -
        c ^ 2 / b ^ 2 * (y2 ^ 2 - (y / √S) ^ 2) := by
      rw [div_pow x (√S), div_pow y (√S), hs2]
      have : (1 : ℝ) = ((x / a) ^ 2 + (y / b) ^ 2 + (z / c) ^ 2) / S := by rw [← hS, div_self hS0.ne']
      rw [this]
      field_simp
      ring
    have r1 : c ^ 2 / a ^ 2 ≤ 6 := by rw [div_le_iff₀ (by positivity)]; exact hca
    have r2 : c ^ 2 / b ^ 2 ≤ 6 := by rw [div_le_iff₀ (by positivity)]; exact hcb
    have r1' : 0 ≤ c ^ 2 / a ^ 2 := by positivity
    have r2' : 0 ≤ c ^ 2 / b ^ 2 := by positivity
    have m1 : |c ^ 2 / a ^ 2 * (x2 ^ 2 - (x / √S) ^ 2)| ≤ 6 * (1 / 3000) := by
      rw [abs_mul, abs_of_nonneg r1']; exact mul_le_mul r1 ex (abs_nonneg _) (by norm_num)
    have m2 : |c ^ 2 / b ^ 2 * (y2 ^ 2 - (y / √S) ^ 2)| ≤ 6 * (1 / 3000) := by
      rw [abs_mul, abs_of_nonneg r2']; exact mul_le_mul r2 ey (abs_nonneg _) (by norm_num)
    have m1' := abs_le.mp m1
    have m2' := abs_le.mp m2
    unfold ztR
    rw [e] at n ⊢
    rw [abs_le]
    constructor <;> linarith [n.1, n.2, m1'.1, m1'.2, m2'.1, m2'.2]
  have hzt' := abs_le.mp hzt
  have hzS : 1 / 100 ≤ z ^ 2 / S := by rw [le_div_iff₀ hS0]; linarith
  have hzS' : z ^ 2 / S ≤ 9 := by rw [div_le_iff₀ hS0]; linarith
  have hpos : 0 ≤ ztR a b c x2 y2 := by linarith [hzt'.1]
  refine ⟨hpos, ?_⟩
  set zt := ztR a b c x2 y2
  have q2 : √zt ^ 2 = zt := Real.sq_sqrt hpos
  have hq : |√zt| ≤ 4 := by
    apply abs_le_of_sq_le_sq _ (by norm_num)
    rw [q2]; linarith [hzt'.2]
  have ez : |aroundK (√zt) 4 ^ 2 - zt| ≤ 1 / 2000 := by
    have h1 := abs_le.mp (around4_near (√zt))
    have h2 := abs_le.mp hq
    rw [show aroundK (√zt) 4 ^ 2 - zt = (aroundK (√zt) 4 - √zt) * (aroundK (√zt) 4 + √zt) by
      rw [show (aroundK (√zt) 4 - √zt) * (aroundK (√zt) 4 + √zt) = aroundK (√zt) 4 ^ 2 - √zt ^ 2 by ring, q2], abs_mul]
    have : |aroundK (√zt) 4 + √zt| ≤ 8 + 1 / 20000 := by rw [abs_le]; constructor <;> linarith [h1.1, h1.2, h2.1, h2.2]
    calc |aroundK (√zt) 4 - √zt| * |aroundK (√zt) 4 + √zt| ≤ 1 / 20000 * (8 + 1 / 20000) :=
          mul_le_mul (around4_near _) this (abs_nonneg _) (by norm_num)
      _ ≤ 1 / 2000 := by norm_num
  rw [div_pow, hs2] at ex ey
  have ex' := abs_le.mp ex
  have ey' := abs_le.mp ey
  have ez' := abs_le.mp ez
  rw [add_div, add_div, abs_le]
  constructor <;> linarith [ex'.1, ex'.2, ey'.1, ey'.2, ez'.1, ez'.2, hzt'.1, hzt'.2]

/-- rounded cosine and sine of the rounded angle of the vector `(33/2, 22)` -/
private theorem angle_345 (t : ℝ) (ht : t = aroundK (Complex.arg ⟨33 / 2, 22⟩) 4) :
    aroundK (Real.cos t) 4 = 3 / 5 ∧ aroundK (Real.sin t) 4 = 4 / 5 ∧ t ≠ 0 := by
  have hne : (⟨33 / 2, 22⟩ : ℂ) ≠ 0 := by
    intro h
    have := congrArg Complex.re h
    norm_num at this
  have hnorm : ‖(⟨33 / 2, 22⟩ : ℂ)‖ = 55 / 2 := by
    rw [Complex.norm_def, Complex.normSq_mk, Real.sqrt_eq_iff_mul_self_eq (by norm_num) (by norm_num)]
    norm_num
  have hc : Real.cos (Complex.arg ⟨33 / 2, 22⟩) = 3 / 5 := by rw [Complex.cos_arg hne, hnorm]; norm_num
  have hs : Real.sin (Complex.arg ⟨33 / 2, 22⟩) = 4 / 5 := by rw [Complex.sin_arg, hnorm]; norm_num
  have hd := around4_near (Complex.arg ⟨33 / 2, 22⟩)
  rw [← ht] at hd
  set g := Complex.arg ⟨33 / 2, 22⟩
  set d := t - g with hdd
  have htg : t = g + d := by rw [hdd]; ring
  have sd : |Real.sin d| ≤ 1 / 20000 := (Real.abs_sin_le_abs).trans hd
  have cd : |Real.cos d - 1| ≤ 1 / 800000000 := by
    have h1 := Real.one_sub_sq_div_two_le_cos (x := d)
    have h2 := Real.cos_le_one d
    have h3 : d ^ 2 ≤ (1 / 20000) ^ 2 := by
      rw [← sq_abs]; exact pow_le_pow_left₀ (abs_nonneg _) hd 2
    rw [abs_le]; constructor <;> linarith
  have sd' := abs_le.mp sd
  have cd' := abs_le.mp cd
  have e1 : Real.cos t = 3 / 5 * Real.cos d - 4 / 5 * Real.sin d := by rw [htg, Real.cos_add, hc, hs]
  have e2 : Real.sin t = 4 / 5 * Real.cos d + 3 / 5 * Real.sin d := by rw [htg, Real.sin_add, hc, hs]
  have b1 : aroundK (Real.cos t) 4 = 3 / 5 := by
    rw [around4_eq _ 6000 (by rw [e1, abs_lt]; push_cast; constructor <;> linarith [sd'.1, sd'.2, cd'.1, cd'.2])]
    norm_num
  have b2 : aroundK (Real.sin t) 4 = 4 / 5 := by
    rw [around4_eq _ 8000 (by rw [e2, abs_lt]; push_cast; constructor <;> linarith [sd'.1, sd'.2, cd'.1, cd'.2])]
    norm_num
  refine ⟨b1, b2, ?_⟩
  intro h0
  rw [h0, Real.sin_zero, aroundK_zero] at b2
  norm_num at b2

/-- a recording of eight samples with mean 0 whose last sample is the largest -/
private noncomputable def eight : List ℝ := [-2, -1, 0, -2, -1, 1, 0, 5]

private theorem eight_cent : centR eight = eight := by
  have h : Spec.avg eight = 0 := by norm_num [Spec.avg, eight]
  unfold centR
  rw [h]
  have hi : ∀ z : ℤ, aroundK ((z : ℝ) - 0) 4 = z := fun z => by rw [sub_zero]; exact around4_int z
  have a := hi (-2)
  have b := hi (-1)
  have c := hi 0
  have d := hi 1
  have e := hi 5
  push_cast at a b c d e
  simp only [eight, List.map_cons, List.map_nil, a, b, c, d, e]

private theorem eight_grad : gradR eight = [1, 1, -1 / 2, -1 / 2, 3 / 2, 1 / 2, 2, 5] := by
  norm_num [gradR, gradAtR, eight, List.range_succ]

private theorem eight_grad2 : gradR (gradR eight) = [0, -3 / 4, -3 / 4, 1, 1 / 2, 1 / 4, 9 / 4, 3] := by
  rw [eight_grad]
  norm_num [gradR, gradAtR, List.range_succ]

private theorem eight_theta : thetaR eight = aroundK (Complex.arg ⟨33 / 2, 22⟩) 4 := by
  unfold thetaR
  rw [eight_grad2, eight_grad]
  congr 3
  · norm_num
  · norm_num [Spec.dot, eight]

/-- rotation by the rounded matrix when the rounded cosine and sine are `co` and `si`, multiples of 1/10, and the coordinates multiples
of 1/4 -/
private theorem rot_exact (t co si : ℝ) (ht : t ≠ 0) (hco : aroundK (Real.cos t) 4 = co) (hsi : aroundK (Real.sin t) 4 = si)
    (k1 k2 : ℤ) (h1 : co = k1 / 10) (h2 : si = k2 / 10) (p : ℝ × ℝ × ℝ) (a b c : ℤ) (hp : p = ((a : ℝ) / 4, (b : ℝ) / 4, (c : ℝ) / 4)) :
    rotSph t p = (p.1 * co + p.2.2 * si, p.2.1, p.2.2 * co - p.1 * si) := by
  unfold rotSph
  rw [if_neg ht, hco, hsi]
  subst hp
  simp only
  rw [around4_exact _ (250 * (a * k1 + c * k2)) (by rw [h1, h2]; push_cast; ring), around4_exact _ (2500 * b) (by push_cast; ring),
    around4_exact _ (250 * (c * k1 - a * k2)) (by rw [h1, h2]; push_cast; ring)]

private theorem eight_pts : ptsR eight = [(-6 / 5, 1, 8 / 5), (-6 / 5, 1, 7 / 20), (-3 / 5, -1 / 2, -9 / 20), (-2 / 5, -1 / 2, 11 / 5),
    (-1 / 5, 3 / 2, 11 / 10), (4 / 5, 1 / 2, -13 / 20), (9 / 5, 2, 27 / 20), (27 / 5, 5, -11 / 5)] := by
  obtain ⟨h1, h2, h3⟩ := angle_345 (thetaR eight) eight_theta
  have R := rot_exact _ _ _ h3 h1 h2 6 8 (by norm_num) (by norm_num)
  unfold ptsR
  rw [eight_grad2, eight_grad]
  simp only [eight] at *
  simp only [List.zip_cons_cons, List.zip_nil_right, List.map_cons, List.map_nil]
  rw [R _ (-8) 4 0 (by norm_num), R _ (-4) 4 (-3) (by norm_num), R _ 0 (-2) (-3) (by norm_num), R _ (-8) (-2) 4 (by norm_num),
    R _ (-4) 6 2 (by norm_num), R _ 4 2 1 (by norm_num), R _ 0 8 9 (by norm_num), R _ 20 20 12 (by norm_num)]
  norm_num

private theorem eight_rev_pts : ptsR eight.reverse = [(3 / 5, -5, 29 / 5), (-9 / 5, -2, 27 / 20), (2 / 5, -1 / 2, 19 / 20),
    (-1, -3 / 2, -1 / 2), (-2, 1 / 2, -1), (3 / 5, 1 / 2, -9 / 20), (0, -1, -5 / 4), (-6 / 5, -1, -8 / 5)] := by
  obtain ⟨h1, h2, h3⟩ := angle_345 (thetaR eight) eight_theta
  have h2' : aroundK (Real.sin (-thetaR eight)) 4 = -(4 / 5) := by rw [Real.sin_neg, aroundK_neg, h2]
  have R := rot_exact (-thetaR eight) (3 / 5) _ (neg_ne_zero.mpr h3) (by rw [Real.cos_neg]; exact h1) h2' 6 (-8) (by norm_num) (by norm_num)
  have hl : 2 ≤ eight.length := by simp [eight]
  unfold ptsR
  rw [C228_angle eight hl, gradR2_reverse eight hl, gradR_reverse eight hl, eight_grad2, eight_grad]
  simp only [eight] at *
  simp only [List.reverse_cons, List.reverse_nil, List.nil_append, List.cons_append, List.map_cons, List.map_nil, List.zip_cons_cons,
    List.zip_nil_right]
  rw [R _ 20 (-20) 12 (by norm_num), R _ 0 (-8) 9 (by norm_num), R _ 4 (-2) 1 (by norm_num), R _ (-4) (-6) 2 (by norm_num),
    R _ (-8) 2 4 (by norm_num), R _ 0 2 (-3) (by norm_num), R _ (-4) (-4) (-3) (by norm_num), R _ (-8) (-4) 0 (by norm_num)]
  norm_num

/-- **C228** but in general the direction of time matters: in this recording sample 6 is not flagged, and it is flagged when the same
recording is read backwards (as sample 1) -/
theorem C228_direction (it it' : Int) (mean mean' : Fl ℝ) :
    ∃ r r', sphericalThresholding (fins [-2, -1, 0, -2, -1, 1, 0, 5]) it mean = .ok r ∧
      sphericalThresholding (fins [5, 0, 1, -1, -2, 0, -1, -2]) it' mean' = .ok r' ∧ 6 ∉ r ∧ 1 ∈ r' := by
  obtain ⟨r, hr, hm⟩ := C121_flags eight it mean (by simp [eight])
  obtain ⟨r', hr', hm'⟩ := C121_flags eight.reverse it' mean' (by simp [eight])
  refine ⟨r, r', hr, by simpa [eight] using hr', ?_, ?_⟩
  · rw [hm, eight_cent, eight_pts]
    rintro ⟨p, hp, hf⟩
    obtain rfl : ((9 / 5, 2, 27 / 20) : ℝ × ℝ × ℝ) = p := by simpa using hp
    simp only [List.map_cons, List.map_nil] at hf
    obtain ⟨a0, a1, a2⟩ := axis_sq [-6 / 5, -6 / 5, -3 / 5, -2 / 5, -1 / 5, 4 / 5, 9 / 5, 27 / 5] rfl (by
      norm_num [Spec.var, Spec.cmoment, Spec.avg])
    obtain ⟨b0, b1, b2⟩ := axis_sq [1, 1, -1 / 2, -1 / 2, 3 / 2, 1 / 2, 2, 5] rfl (by norm_num [Spec.var, Spec.cmoment, Spec.avg])
    obtain ⟨c0, c1, c2⟩ := axis_sq [8 / 5, 7 / 20, -9 / 20, 11 / 5, 11 / 10, -13 / 20, 27 / 20, -11 / 5] rfl (by
      norm_num [Spec.var, Spec.cmoment, Spec.avg])
    rw [show Spec.var [-6 / 5, -6 / 5, -3 / 5, -2 / 5, -1 / 5, 4 / 5, 9 / 5, 27 / 5] = (1703 / 400 : ℝ) by
      norm_num [Spec.var, Spec.cmoment, Spec.avg]] at a1 a2
    rw [show Spec.var [1, 1, -1 / 2, -1 / 2, 3 / 2, 1 / 2, 2, 5] = (43 / 16 : ℝ) by
      norm_num [Spec.var, Spec.cmoment, Spec.avg]] at b1 b2
    rw [show Spec.var [8 / 5, 7 / 20, -9 / 20, 11 / 5, 11 / 10, -13 / 20, 27 / 20, -11 / 5] = (11727 / 6400 : ℝ) by
      norm_num [Spec.var, Spec.cmoment, Spec.avg]] at c1 c2
    generalize axisR [-6 / 5, -6 / 5, -3 / 5, -2 / 5, -1 / 5, 4 / 5, 9 / 5, 27 / 5] = a at *
    generalize axisR [1, 1, -1 / 2, -1 / 2, 3 / 2, 1 / 2, 2, 5] = b at *
    generalize axisR [8 / 5, 7 / 20, -9 / 20, 11 / 5, 11 / 10, -13 / 20, 27 / 20, -11 / 5] = c at *
    have s1 : ((9 / 5) / a) ^ 2 ≤ 19 / 100 := by rw [div_pow, div_le_iff₀ (by positivity)]; linarith
    have s2 : (2 / b) ^ 2 ≤ 37 / 100 := by rw [div_pow, div_le_iff₀ (by positivity)]; linarith
    have s3 : ((27 / 20) / c) ^ 2 ≤ 25 / 100 := by rw [div_pow, div_le_iff₀ (by positivity)]; linarith
    have t1 : 18 / 100 ≤ ((9 / 5) / a) ^ 2 := by rw [div_pow, le_div_iff₀ (by positivity)]; linarith
    have t2 : 35 / 100 ≤ (2 / b) ^ 2 := by rw [div_pow, le_div_iff₀ (by positivity)]; linarith
    have t3 : 23 / 100 ≤ ((27 / 20) / c) ^ 2 := by rw [div_pow, le_div_iff₀ (by positivity)]; linarith
    obtain ⟨S, hS⟩ : ∃ S, S = ((9 / 5) / a) ^ 2 + (2 / b) ^ 2 + ((27 / 20) / c) ^ 2 := ⟨_, rfl⟩
    have hS0 : 0 < S := by linarith
    obtain ⟨_, _, h⟩ := surface_near a b c (9 / 5) 2 (27 / 20) S a0 b0 c0 (by linarith) (by linarith) hS hS0 (by linarith)
      (by linarith) (by linarith) (by linarith)
    have hf' := hf.2
    simp only at hf'
    rw [if_neg (by norm_num)] at hf'
    have hq : 11 ≤ ((9 / 5 : ℝ) ^ 2 + 2 ^ 2 + (27 / 20) ^ 2) / S := by rw [le_div_iff₀ hS0]; linarith
    linarith [(abs_le.mp h).1, hf'.2.2.2]
  · rw [hm', centR_reverse, eight_cent, eight_rev_pts]
    refine ⟨(-9 / 5, -2, 27 / 20), rfl, ?_⟩
    simp only [List.map_cons, List.map_nil]
    obtain ⟨a0, a1, a2⟩ := axis_sq [3 / 5, -9 / 5, 2 / 5, -1, -2, 3 / 5, 0, -6 / 5] rfl (by
      norm_num [Spec.var, Spec.cmoment, Spec.avg])
    obtain ⟨b0, b1, b2⟩ := axis_sq [-5, -2, -1 / 2, -3 / 2, 1 / 2, 1 / 2, -1, -1] rfl (by norm_num [Spec.var, Spec.cmoment, Spec.avg])
    obtain ⟨c0, c1, c2⟩ := axis_sq [29 / 5, 27 / 20, 19 / 20, -1 / 2, -1, -9 / 20, -5 / 4, -8 / 5] rfl (by
      norm_num [Spec.var, Spec.cmoment, Spec.avg])
    rw [show Spec.var [3 / 5, -9 / 5, 2 / 5, -1, -2, 3 / 5, 0, -6 / 5] = (407 / 400 : ℝ) by
      norm_num [Spec.var, Spec.cmoment, Spec.avg]] at a1 a2
    rw [show Spec.var [-5, -2, -1 / 2, -3 / 2, 1 / 2, 1 / 2, -1, -1] = (43 / 16 : ℝ) by
      norm_num [Spec.var, Spec.cmoment, Spec.avg]] at b1 b2
    rw [show Spec.var [29 / 5, 27 / 20, 19 / 20, -1 / 2, -1, -9 / 20, -5 / 4, -8 / 5] = (32463 / 6400 : ℝ) by
      norm_num [Spec.var, Spec.cmoment, Spec.avg]] at c1 c2
    generalize axisR [3 / 5, -9 / 5, 2 / 5, -1, -2, 3 / 5, 0, -6 / 5] = a at *
    generalize axisR [-5, -2, -1 / 2, -3 / 2, 1 / 2, 1 / 2, -1, -1] = b at *
    generalize axisR [29 / 5, 27 / 20, 19 / 20, -1 / 2, -1, -9 / 20, -5 / 4, -8 / 5] = c at *
    have s1 : ((-9 / 5) / a) ^ 2 ≤ 78 / 100 := by rw [div_pow, div_le_iff₀ (by positivity)]; linarith
    have s2 : (-2 / b) ^ 2 ≤ 37 / 100 := by rw [div_pow, div_le_iff₀ (by positivity)]; linarith
    have s3 : ((27 / 20) / c) ^ 2 ≤ 10 / 100 := by rw [div_pow, div_le_iff₀ (by positivity)]; linarith
    have t1 : 75 / 100 ≤ ((-9 / 5) / a) ^ 2 := by rw [div_pow, le_div_iff₀ (by positivity)]; linarith
    have t2 : 35 / 100 ≤ (-2 / b) ^ 2 := by rw [div_pow, le_div_iff₀ (by positivity)]; linarith
    have t3 : 8 / 100 ≤ ((27 / 20) / c) ^ 2 := by rw [div_pow, le_div_iff₀ (by positivity)]; linarith
    obtain ⟨S, hS⟩ : ∃ S, S = ((-9 / 5) / a) ^ 2 + (-2 / b) ^ 2 + ((27 / 20) / c) ^ 2 := ⟨_, rfl⟩
    have hS0 : 0 < S := by linarith
    obtain ⟨h0, h1, h⟩ := surface_near a b c (-9 / 5) (-2) (27 / 20) S a0 b0 c0 (by linarith) (by linarith) hS hS0 (by linarith)
      (by linarith) (by linarith) (by linarith)
    refine ⟨h0, ?_⟩
    simp only
    rw [if_neg (by norm_num)]
    have hq : ((-9 / 5 : ℝ) ^ 2 + (-2) ^ 2 + (27 / 20) ^ 2) / S ≤ 9 := by rw [div_le_iff₀ hS0]; linarith
    exact ⟨a0.ne', b0.ne', h1, by linarith [(abs_le.mp h).2]⟩

/-- a recording that begins and ends at its mean, and is not symmetric in time -/
example : (centR [2, 7, -3, 2]).getD 3 0 ^ 2 - (centR [2, 7, -3, 2]).getD 0 0 ^ 2 +
    ((centR [2, 7, -3, 2]).getD 0 0 * (centR [2, 7, -3, 2]).getD 1 0 -
      (centR [2, 7, -3, 2]).getD 2 0 * (centR [2, 7, -3, 2]).getD 3 0) / 2 = 0 := by
  have h : Spec.avg [2, 7, -3, 2] = (2 : ℝ) := by norm_num [Spec.avg]
  have h0 : aroundK (0 : ℝ) 4 = 0 := aroundK_zero 4
  unfold centR
  rw [h]
  norm_num [h0]

end Proadv.Props
