import Mathlib.Algebra.Order.Field.Basic
import Mathlib.LinearAlgebra.FiniteDimensional.Basic
import Mathlib.Tactic.Linarith
import Mathlib.Tactic.FieldSimp
import Mathlib.Tactic.IntervalCases
import Mathlib.Tactic.LinearCombination

/-!
# Specification: cubic spline with not-a-knot end conditions on the abscissae `1, …, 12, 14, …, 25`

This is what `scipy.interpolate.interp1d(x, y, 3)` is documented to return on the 24 abscissae used by
`cubic_12points_polynomial`.
-/

namespace Proadv.Spec

variable {K : Type} [Field K] [LinearOrder K] [IsStrictOrderedRing K]

/-- distance between node `k` and node `k+1` (nodes `1..12, 14..25`, numbered from 0) -/
def gap (k : ℕ) : K := if k = 11 then 2 else 1

/-- twice continuously differentiable piecewise cubic through the 24 ordinates, third derivative continuous at the second
and at the last but one node; piece `k` is `y k + b k * t + c k * t^2 + d k * t^3` with `t` measured from node `k` -/
structure IsSpline (y b c d : ℕ → K) : Prop where
  node : ∀ k < 23, y (k + 1) = y k + b k * gap k + c k * gap k ^ 2 + d k * gap k ^ 3
  slope : ∀ k < 22, b (k + 1) = b k + 2 * c k * gap k + 3 * d k * gap k ^ 2
  curv : ∀ k < 22, c (k + 1) = c k + 3 * d k * gap k
  knotL : d 1 = d 0
  knotR : d 22 = d 21

/-- `z` is the value at abscissa 13 (one unit after the twelfth node) of the spline through `y` -/
def SplineAt13 (y : ℕ → K) (z : K) : Prop := ∃ b c d, IsSpline y b c d ∧ z = y 11 + b 11 + c 11 + d 11

/-- the tridiagonal system for the second derivatives -/
structure Tri (y e : ℕ → K) : Prop where
  eqn : ∀ k < 22, gap k * e k + 2 * (gap k + gap (k + 1)) * e (k + 1) + gap (k + 1) * e (k + 2) =
    3 * ((y (k + 2) - y (k + 1)) / gap (k + 1) - (y (k + 1) - y k) / gap k)
  left : e 0 - 2 * e 1 + e 2 = 0
  right : e 21 - 2 * e 22 + e 23 = 0

theorem gap_pos (k : ℕ) : (0 : K) < gap k := by unfold gap; split_ifs <;> norm_num

/-- the homogeneous system has only the zero solution -/
theorem tri_zero {e : ℕ → K} (E : ∀ k < 22, gap k * e k + 2 * (gap k + gap (k + 1)) * e (k + 1) + gap (k + 1) * e (k + 2) = 0)
    (hl : e 0 - 2 * e 1 + e 2 = 0) (hr : e 21 - 2 * e 22 + e 23 = 0) : ∀ k < 24, e k = 0 := by
  have e1 : e 1 = 0 := by have := E 0 (by omega); norm_num [gap] at this; linarith
  have e3 : e 3 = (-4) * e 2 := by have := E 1 (by omega); norm_num [gap] at this; linarith
  have e4 : e 4 = (15) * e 2 := by have := E 2 (by omega); norm_num [gap] at this; linarith
  have e5 : e 5 = (-56) * e 2 := by have := E 3 (by omega); norm_num [gap] at this; linarith
  have e6 : e 6 = (209) * e 2 := by have := E 4 (by omega); norm_num [gap] at this; linarith
  have e7 : e 7 = (-780) * e 2 := by have := E 5 (by omega); norm_num [gap] at this; linarith
  have e8 : e 8 = (2911) * e 2 := by have := E 6 (by omega); norm_num [gap] at this; linarith
  have e9 : e 9 = (-10864) * e 2 := by have := E 7 (by omega); norm_num [gap] at this; linarith
  have e10 : e 10 = (40545) * e 2 := by have := E 8 (by omega); norm_num [gap] at this; linarith
  have e11 : e 11 = (-151316) * e 2 := by have := E 9 (by omega); norm_num [gap] at this; linarith
  have e12 : e 12 = (867351/2) * e 2 := by have := E 10 (by omega); norm_num [gap] at this; linarith
  have e13 : e 13 = (-2299421) * e 2 := by have := E 11 (by omega); norm_num [gap] at this; linarith
  have e14 : e 14 = (17528017/2) * e 2 := by have := E 12 (by omega); norm_num [gap] at this; linarith
  have e15 : e 15 = (-32756613) * e 2 := by have := E 13 (by omega); norm_num [gap] at this; linarith
  have e16 : e 16 = (244524887/2) * e 2 := by have := E 14 (by omega); norm_num [gap] at this; linarith
  have e17 : e 17 = (-456293161) * e 2 := by have := E 15 (by omega); norm_num [gap] at this; linarith
  have e18 : e 18 = (3405820401/2) * e 2 := by have := E 16 (by omega); norm_num [gap] at this; linarith
  have e19 : e 19 = (-6355347641) * e 2 := by have := E 17 (by omega); norm_num [gap] at this; linarith
  have e20 : e 20 = (47436960727/2) * e 2 := by have := E 18 (by omega); norm_num [gap] at this; linarith
  have e21 : e 21 = (-88518573813) * e 2 := by have := E 19 (by omega); norm_num [gap] at this; linarith
  have e22 : e 22 = (660711629777/2) * e 2 := by have := E 20 (by omega); norm_num [gap] at this; linarith
  have e23 : e 23 = (-1232904685741) * e 2 := by have := E 21 (by omega); norm_num [gap] at this; linarith
  have e2 : e 2 = 0 := by
    rw [e21, e22, e23] at hr
    linarith
  have e0 : e 0 = 0 := by rw [e1, e2] at hl; linarith
  rw [e2] at e3 e4 e5 e6 e7 e8 e9 e10 e11 e12 e13 e14 e15 e16 e17 e18 e19 e20 e21 e22 e23
  simp only [mul_zero] at *
  intro k hk
  interval_cases k <;> assumption

theorem tri_of_spline {y b c d : ℕ → K} (h : IsSpline y b c d) :
    Tri y (fun k => if k = 23 then c 22 + 3 * d 22 else c k) := by
  have hc : ∀ k, k < 23 → (if k + 1 = 23 then c 22 + 3 * d 22 else c (k + 1)) = c k + 3 * d k * gap k := by
    intro k hk
    by_cases h22 : k = 22
    · subst h22; simp [gap]
    · rw [if_neg (by omega), h.curv k (by omega)]
  refine ⟨fun k hk => ?_, ?_, ?_⟩
  · simp only [if_neg (by omega : ¬ k = 23), if_neg (by omega : ¬ k + 1 = 23)]
    rw [show k + 2 = (k + 1) + 1 from rfl, hc (k + 1) (by omega)]
    have g1 := gap_pos (K := K) k
    have g2 := gap_pos (K := K) (k + 1)
    have n1 := h.node k (by omega)
    have n2 := h.node (k + 1) (by omega)
    have s := h.slope k hk
    have cv := h.curv k hk
    have q1 : (y (k + 1) - y k) / gap k = b k + c k * gap k + d k * gap k ^ 2 := by
      rw [n1]; field_simp; ring
    have q2 : (y (k + 1 + 1) - y (k + 1)) / gap (k + 1) = b (k + 1) + c (k + 1) * gap (k + 1) + d (k + 1) * gap (k + 1) ^ 2 := by
      rw [n2]; field_simp; ring
    rw [q1, q2, s, cv]
    ring
  · have c0 := h.curv 0 (by omega)
    have c1 := h.curv 1 (by omega)
    have := h.knotL
    simp only [gap] at c0 c1
    norm_num at c0 c1 ⊢
    linarith
  · have c0 := h.curv 21 (by omega)
    have := h.knotR
    simp only [gap] at c0
    norm_num at c0 ⊢
    linarith

theorem spline_value {y b c d : ℕ → K} (h : IsSpline y b c d) :
    y 11 + b 11 + c 11 + d 11 = (y 11 + y 12) / 2 - (c 11 + c 12) / 2 := by
  have n := h.node 11 (by omega)
  have cv := h.curv 11 (by omega)
  simp only [gap] at n cv
  norm_num at n cv
  rw [cv, n]
  ring

/-- ordinates that are antisymmetric about abscissa 13: the spline passes through the centre -/
theorem spline_antisym {y b c d : ℕ → K} (h : IsSpline y b c d) (s : K) (hy : ∀ k < 24, y k + y (23 - k) = s) :
    y 11 + b 11 + c 11 + d 11 = s / 2 := by
  have T := tri_of_spline h
  set m : ℕ → K := fun k => if k = 23 then c 22 + 3 * d 22 else c k with hm
  have hgap : ∀ k, k < 23 → gap (K := K) (22 - k) = gap k := by
    intro k hk
    unfold gap
    by_cases h11 : k = 11
    · subst h11; norm_num
    · rw [if_neg (by omega), if_neg h11]
  have hz := tri_zero (e := fun k => m k + m (23 - k)) (fun k hk => by
    have t1 := T.eqn k hk
    have t2 := T.eqn (21 - k) (by omega)
    rw [show 21 - k + 1 = 22 - k by omega, show 21 - k + 2 = 23 - k by omega, hgap k (by omega)] at t2
    rw [show 21 - k = 22 - (k + 1) by omega, hgap (k + 1) (by omega)] at t2
    have y0 := hy k (by omega)
    have y1 := hy (k + 1) (by omega)
    have y2 := hy (k + 2) (by omega)
    rw [show 23 - (k + 1) = 22 - k by omega] at y1
    rw [show 23 - (k + 2) = 22 - (k + 1) by omega] at y2
    have r1 : y (23 - k) - y (22 - k) = -(y k - y (k + 1)) := by linear_combination y0 - y1
    have r2 : y (22 - k) - y (22 - (k + 1)) = -(y (k + 1) - y (k + 2)) := by linear_combination y1 - y2
    rw [r1, r2] at t2
    rw [show 23 - (k + 1) = 22 - k by omega, show 23 - (k + 2) = 22 - (k + 1) by omega]
    linear_combination t1 + t2) (by
    have := T.left
    have := T.right
    norm_num
    linarith) (by
    have := T.left
    have := T.right
    norm_num
    linarith)
  have h11 := hz 11 (by omega)
  norm_num [hm] at h11
  rw [spline_value h, h11, hy 11 (by omega)]
  ring

/-- the spline exists for all ordinates -/
theorem spline_exists (y : ℕ → K) : ∃ b c d, IsSpline y b c d := by
  -- the tridiagonal map on `K^24` is injective, hence surjective
  let e (x : Fin 24 → K) (k : ℕ) : K := if h : k < 24 then x ⟨k, h⟩ else 0
  let T : (Fin 24 → K) →ₗ[K] (Fin 24 → K) :=
    { toFun := fun x i =>
        if i.val < 22 then gap i.val * e x i.val + 2 * (gap i.val + gap (i.val + 1)) * e x (i.val + 1) +
          gap (i.val + 1) * e x (i.val + 2)
        else if i.val = 22 then e x 0 - 2 * e x 1 + e x 2
        else e x 21 - 2 * e x 22 + e x 23
      map_add' := by
        intro x x'
        have he : ∀ k, e (x + x') k = e x k + e x' k := by
          intro k; simp only [e]; split_ifs <;> simp
        funext i
        simp only [he, Pi.add_apply]
        split_ifs <;> ring
      map_smul' := by
        intro r x
        have he : ∀ k, e (r • x) k = r * e x k := by
          intro k; simp only [e]; split_ifs <;> simp
        funext i
        simp only [he, Pi.smul_apply, smul_eq_mul, RingHom.id_apply]
        split_ifs <;> ring }
  have hinj : Function.Injective T := by
    rw [← LinearMap.ker_eq_bot, LinearMap.ker_eq_bot']
    intro x hx
    have hx' : ∀ i : Fin 24, T x i = 0 := fun i => by rw [hx]; rfl
    have := tri_zero (e := e x) (fun k hk => by
        have := hx' ⟨k, by omega⟩
        simpa [T, hk] using this) (by
        have := hx' ⟨22, by omega⟩
        simpa [T] using this) (by
        have := hx' ⟨23, by omega⟩
        simpa [T] using this)
    funext i
    have h := this i.val i.isLt
    simpa [e] using h
  have hsur := LinearMap.surjective_of_injective hinj
  obtain ⟨x, hx⟩ := hsur (fun i => if i.val < 22 then
    3 * ((y (i.val + 2) - y (i.val + 1)) / gap (i.val + 1) - (y (i.val + 1) - y i.val) / gap i.val) else 0)
  have hx' := fun i : Fin 24 => congrFun hx i
  set c := e x with hc
  have E : ∀ k < 22, gap k * c k + 2 * (gap k + gap (k + 1)) * c (k + 1) + gap (k + 1) * c (k + 2) =
      3 * ((y (k + 2) - y (k + 1)) / gap (k + 1) - (y (k + 1) - y k) / gap k) := by
    intro k hk
    have := hx' ⟨k, by omega⟩
    simpa [T, hk] using this
  have L : c 0 - 2 * c 1 + c 2 = 0 := by
    have := hx' ⟨22, by omega⟩
    simpa [T] using this
  have R : c 21 - 2 * c 22 + c 23 = 0 := by
    have := hx' ⟨23, by omega⟩
    simpa [T] using this
  refine ⟨fun k => (y (k + 1) - y k) / gap k - gap k * (2 * c k + c (k + 1)) / 3, c,
    fun k => (c (k + 1) - c k) / (3 * gap k), ⟨?_, ?_, ?_, ?_, ?_⟩⟩
  · intro k _
    have := (gap_pos (K := K) k).ne'
    field_simp
    ring
  · intro k hk
    have h1 := (gap_pos (K := K) k).ne'
    have h2 := (gap_pos (K := K) (k + 1)).ne'
    have := E k hk
    have e1 : 3 * ((c (k + 1) - c k) / (3 * gap k)) * gap k ^ 2 = (c (k + 1) - c k) * gap k := by field_simp
    simp only [show k + 1 + 1 = k + 2 from rfl]
    rw [e1]
    linear_combination (-1 / 3 : K) * this
  · intro k _
    have h1 := (gap_pos (K := K) k).ne'
    field_simp
    ring
  · simp only [gap]; norm_num; linarith
  · simp only [gap]; norm_num; linarith

end Proadv.Spec
