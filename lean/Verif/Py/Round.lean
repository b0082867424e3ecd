import Verif.Lemmas.Fl
import Verif.Lemmas.Descriptive
import Mathlib.Algebra.Order.BigOperators.Group.List
import Mathlib.Tactic.Linarith
import Mathlib.Tactic.Positivity

/-!
# Arithmetic with rounding

`Fl K` computes exactly.  `Rd A` is the same set of values with every operation followed by a rounding function, and a
summation routine of its own.  The contract `Std A u` is the standard model of floating-point arithmetic with unit roundoff
`u` (binary64: `u = 2⁻⁵³`): every operation has relative error at most `u`, and `np.sum` of `n` numbers is off by at most
`((1 + u)ⁿ - 1) Σ|x|`, which holds for left-to-right and for numpy's pairwise summation.  Not modelled: overflow and underflow.
-/

namespace Proadv

/-- a rounding function and a summation routine -/
structure Arith (K : Type) where
  rnd : K → K
  sum : List K → K

/-- values computed with the arithmetic `A` -/
def Rd {K : Type} (_ : Arith K) : Type := Fl K

namespace Rd

variable {K : Type} [Field K] [LinearOrder K] [FloorRing K]

instance (A : Arith K) : DecidableEq (Rd A) := inferInstanceAs (DecidableEq (Fl K))

/-- an ordinary number -/
def fin (A : Arith K) (x : K) : Rd A := Fl.fin x

/-- an array of ordinary numbers -/
abbrev fins (A : Arith K) (xs : List K) : List (Rd A) := xs.map (fin A)

/-- round an exact result -/
def round (A : Arith K) : Fl K → Rd A
  | .fin x => Fl.fin (A.rnd x)
  | x => x

/-- the numbers of a list without special values -/
def nums : List (Fl K) → Option (List K)
  | [] => some []
  | .fin x :: t => (nums t).map (fun l => x :: l)
  | _ :: _ => none

/-- `np.around` as numpy computes it: a rounded product, rounded to an integer, and a rounded quotient -/
def around (A : Arith K) : Fl K → Int → Rd A
  | .fin x, d => Fl.fin (A.rnd ((Fl.rint (A.rnd (x * (10 : K) ^ d)) : K) / (10 : K) ^ d))
  | x, _ => x

instance instPyNum (A : Arith K) : PyNum (Rd A) where
  add x y := round A (Fl.add x y)
  sub x y := round A (Fl.sub x y)
  mul x y := round A (Fl.mul x y)
  div x y := round A (Fl.div x y)
  neg := Fl.neg
  abs := Fl.abs
  lt := Fl.lt
  le := Fl.le
  eq := Fl.eq
  isNaN := Fl.isNaN
  nan := Fl.nan
  ofRat q := Fl.fin (A.rnd (q : K))
  around x d := around A x d
  castInt := Fl.castInt
  sum l := match nums l with
    | some xs => Fl.fin (A.sum xs)
    | none => Fl.sum l
  npow x n := round A (Fl.npow x n)

variable (A : Arith K)

theorem add_fin (a b : K) : fin A a +. fin A b = fin A (A.rnd (a + b)) := rfl
theorem sub_fin (a b : K) : fin A a -. fin A b = fin A (A.rnd (a - b)) := rfl
theorem mul_fin (a b : K) : fin A a *. fin A b = fin A (A.rnd (a * b)) := rfl
theorem div_fin {a b : K} (h : b ≠ 0) : fin A a /. fin A b = fin A (A.rnd (a / b)) := by
  show round A (Fl.div (Fl.fin a) (Fl.fin b)) = _
  simp only [Fl.div, h, if_false]; rfl
theorem le_fin (a b : K) : (fin A a ≤. fin A b) = decide (a ≤ b) := rfl
theorem lt_fin (a b : K) : (fin A a <. fin A b) = decide (a < b) := rfl
theorem ofNat_fin (n : Nat) : (ofNat n : Rd A) = fin A (A.rnd (n : K)) := by
  show fin A (A.rnd (((n : ℚ)) : K)) = _
  rw [Rat.cast_natCast]
theorem lit_fin (q : ℚ) : (lit q : Rd A) = fin A (A.rnd (q : K)) := rfl

omit [Field K] [LinearOrder K] [FloorRing K] in
theorem nums_fins (xs : List K) : nums (xs.map Fl.fin) = some xs := by
  induction xs with
  | nil => rfl
  | cons x t ih => simp [nums, ih]

theorem sum_fins (xs : List K) : PyNum.sum (fins A xs) = fin A (A.sum xs) := by
  show (match nums (xs.map Fl.fin) with
    | some xs => (Fl.fin (A.sum xs) : Fl K)
    | none => Fl.sum _) = _
  rw [nums_fins]; rfl

end Rd

variable {K : Type} [Field K] [LinearOrder K] [IsStrictOrderedRing K]

/-- standard model of floating-point arithmetic with unit roundoff `u` -/
structure Std (A : Arith K) (u : K) : Prop where
  nonneg : 0 ≤ u
  rnd : ∀ x, |A.rnd x - x| ≤ u * |x|
  sum : ∀ xs : List K, |A.sum xs - xs.sum| ≤ ((1 + u) ^ xs.length - 1) * (xs.map (fun x => |x|)).sum

/-- the arithmetic that adds from left to right with the given rounding -/
def leftArith (rnd : K → K) : Arith K := ⟨rnd, fun xs => xs.foldl (fun s x => rnd (s + x)) 0⟩

/-- left-to-right summation meets the contract for every rounding of relative error `u` -/
theorem leftArith_std (rnd : K → K) (u : K) (hu : 0 ≤ u) (h : ∀ x, |rnd x - x| ≤ u * |x|) : Std (leftArith rnd) u where
  nonneg := hu
  rnd := h
  sum := by
    have key : ∀ (xs : List K) (s : K), |xs.foldl (fun s x => rnd (s + x)) s - (s + xs.sum)| ≤
        ((1 + u) ^ xs.length - 1) * (|s| + (xs.map (fun x => |x|)).sum) := by
      intro xs
      induction xs with
      | nil => intro s; simp
      | cons x t ih =>
        intro s
        simp only [List.foldl_cons, List.sum_cons, List.length_cons, List.map_cons]
        have h1 := ih (rnd (s + x))
        have h2 := h (s + x)
        have h3 : |s + x| ≤ |s| + |x| := abs_add_le s x
        have h4 : |rnd (s + x)| ≤ (1 + u) * (|s| + |x|) := by
          have : |rnd (s + x)| ≤ |rnd (s + x) - (s + x)| + |s + x| := by
            have := abs_add_le (rnd (s + x) - (s + x)) (s + x); simpa using this
          nlinarith
        have hP : 1 ≤ (1 + u) ^ t.length := one_le_pow₀ (by linarith)
        have hT : 0 ≤ (t.map (fun x => |x|)).sum := List.sum_nonneg (by
          intro y hy; obtain ⟨z, -, rfl⟩ := List.mem_map.mp hy; exact abs_nonneg z)
        have h5 : |t.foldl (fun s x => rnd (s + x)) (rnd (s + x)) - (s + (x + t.sum))| ≤
            |t.foldl (fun s x => rnd (s + x)) (rnd (s + x)) - (rnd (s + x) + t.sum)| + |rnd (s + x) - (s + x)| := by
          have := abs_add_le (t.foldl (fun s x => rnd (s + x)) (rnd (s + x)) - (rnd (s + x) + t.sum)) (rnd (s + x) - (s + x))
          have e : t.foldl (fun s x => rnd (s + x)) (rnd (s + x)) - (rnd (s + x) + t.sum) + (rnd (s + x) - (s + x)) =
              t.foldl (fun s x => rnd (s + x)) (rnd (s + x)) - (s + (x + t.sum)) := by ring
          rwa [e] at this
        have h6 : ((1 + u) ^ t.length - 1) * (|rnd (s + x)| + (t.map (fun x => |x|)).sum) ≤
            ((1 + u) ^ t.length - 1) * ((1 + u) * (|s| + |x|) + (t.map (fun x => |x|)).sum) :=
          mul_le_mul_of_nonneg_left (by linarith) (by linarith)
        have h7 : u * |s + x| ≤ u * (|s| + |x|) := mul_le_mul_of_nonneg_left h3 hu
        have h8 : 0 ≤ u * (1 + u) ^ t.length * (t.map (fun x => |x|)).sum := by positivity
        rw [pow_succ]
        nlinarith [h1, h5, h6, h7, h2]
    intro xs
    have := key xs 0
    simpa [leftArith] using this

/-- exact arithmetic is the case `u = 0` -/
theorem exact_std : Std (⟨id, List.sum⟩ : Arith K) 0 := ⟨le_rfl, by simp, by simp⟩

end Proadv
