import Verif.Py.Round

/-!
# Arithmetic with rounding and overflow

`Ov O` is `Rd` with a largest finite number `O.top`: a rounded result beyond it becomes an infinity of its sign, as IEEE 754
prescribes for round-to-nearest.  `osum` is the summation routine on arrays that may hold infinities and NaNs.  The contract
`OStd O u` adds to `Std` what every order of summation provides: a finite sum means that no term was an infinity or NaN and no
partial sum overflowed, and sums whose absolute values add up to less than `top` (with room for rounding) do not overflow.
Not modelled: underflow.
-/

set_option linter.unusedSectionVars false

namespace Proadv

/-- rounding, summation of numbers, largest finite number, summation of arrays -/
structure OArith (K : Type) extends Arith K where
  top : K
  osum : List (Fl K) → Fl K

/-- values computed with rounding and overflow -/
def Ov {K : Type} (_ : OArith K) : Type := Fl K

namespace Ov

variable {K : Type} [Field K] [LinearOrder K] [FloorRing K]

instance (O : OArith K) : DecidableEq (Ov O) := inferInstanceAs (DecidableEq (Fl K))

/-- an ordinary number -/
def fin (O : OArith K) (x : K) : Ov O := Fl.fin x

/-- plus infinity, the value of an overflowing operation -/
def inf (O : OArith K) : Ov O := (Fl.pinf : Fl K)

/-- an array of ordinary numbers -/
abbrev fins (O : OArith K) (xs : List K) : List (Ov O) := xs.map (fin O)

/-- round an exact result; too large a number becomes an infinity -/
def squash (O : OArith K) : Fl K → Fl K
  | .fin x => if |O.rnd x| ≤ O.top then Fl.fin (O.rnd x) else if 0 < O.rnd x then Fl.pinf else Fl.ninf
  | x => x

/-- `np.around` as numpy computes it; the product may overflow -/
def around (O : OArith K) (x : Fl K) (d : Int) : Fl K :=
  match x with
  | .fin a =>
    match squash O (Fl.fin (a * (10 : K) ^ d)) with
    | .fin y => squash O (Fl.fin ((Fl.rint y : K) / (10 : K) ^ d))
    | y => y
  | _ => x

instance instPyNum (O : OArith K) : PyNum (Ov O) where
  add x y := squash O (Fl.add x y)
  sub x y := squash O (Fl.sub x y)
  mul x y := squash O (Fl.mul x y)
  div x y := squash O (Fl.div x y)
  neg := Fl.neg
  abs := Fl.abs
  lt := Fl.lt
  le := Fl.le
  eq := Fl.eq
  isNaN := Fl.isNaN
  nan := Fl.nan
  ofRat q := squash O (Fl.fin (q : K))
  around x d := around O x d
  castInt := Fl.castInt
  sum := O.osum
  npow x n := squash O (Fl.npow x n)

/-- the value is a number -/
def IsNum {O : OArith K} (v : Ov O) : Prop := ∃ x, v = fin O x

/-- `v`, computed with overflow, is not a number or equals `w`, computed without -/
def Le {O : OArith K} (v : Ov O) (w : Rd O.toArith) : Prop := ∀ x, v = fin O x → w = Rd.fin O.toArith x

theorem squash_fin {O : OArith K} {v : Fl K} {x : K} (h : squash O v = Fl.fin x) : ∃ y, v = Fl.fin y ∧ x = O.rnd y ∧ |x| ≤ O.top := by
  cases v with
  | fin y =>
    refine ⟨y, rfl, ?_⟩
    simp only [squash] at h
    by_cases h' : |O.rnd y| ≤ O.top
    · rw [if_pos h'] at h
      have e : O.rnd y = x := Fl.fin.inj h
      exact ⟨e.symm, e ▸ h'⟩
    · rw [if_neg h'] at h
      split at h <;> cases h
  | nan => cases h
  | pinf => cases h
  | ninf => cases h

theorem squash_ok {O : OArith K} {y : K} (h : |O.rnd y| ≤ O.top) : squash O (Fl.fin y) = Fl.fin (O.rnd y) := if_pos h

theorem add_num {O : OArith K} {v w : Ov O} {x : K} (h : v +. w = fin O x) :
    ∃ a b, v = fin O a ∧ w = fin O b ∧ x = O.rnd (a + b) ∧ |x| ≤ O.top := by
  obtain ⟨y, hy, hx⟩ := squash_fin (O := O) (v := Fl.add v w) h
  cases v <;> cases w <;> simp only [Fl.add] at hy <;> first | exact ⟨_, _, rfl, rfl, Fl.fin.inj hy ▸ hx⟩ | cases hy

theorem sub_num {O : OArith K} {v w : Ov O} {x : K} (h : v -. w = fin O x) :
    ∃ a b, v = fin O a ∧ w = fin O b ∧ x = O.rnd (a - b) ∧ |x| ≤ O.top := by
  obtain ⟨y, hy, hx⟩ := squash_fin (O := O) (v := Fl.sub v w) h
  cases v <;> cases w <;> simp only [Fl.sub, Fl.add, Fl.neg] at hy <;> first | exact ⟨_, _, rfl, rfl, Fl.fin.inj hy ▸ hx⟩ | cases hy

theorem infSgn_ne (a x : K) : (Fl.infSgn a : Fl K) ≠ Fl.fin x := by
  unfold Fl.infSgn; split
  · simp
  · split <;> simp

theorem mul_num {O : OArith K} {v w : Ov O} {x : K} (h : v *. w = fin O x) :
    ∃ a b, v = fin O a ∧ w = fin O b ∧ x = O.rnd (a * b) ∧ |x| ≤ O.top := by
  obtain ⟨y, hy, hx⟩ := squash_fin (O := O) (v := Fl.mul v w) h
  cases v <;> cases w <;> simp only [Fl.mul] at hy <;>
    first | exact ⟨_, _, rfl, rfl, Fl.fin.inj hy ▸ hx⟩ | exact absurd hy (infSgn_ne _ _) | cases hy

/-- division by a number other than zero -/
theorem div_num {O : OArith K} {v : Ov O} {c x : K} (hc : c ≠ 0) (h : v /. fin O c = fin O x) :
    ∃ a, v = fin O a ∧ x = O.rnd (a / c) ∧ |x| ≤ O.top := by
  obtain ⟨y, hy, hx⟩ := squash_fin (O := O) (v := Fl.div v (Fl.fin c)) h
  cases v with
  | fin a =>
    simp only [Fl.div, hc, if_false] at hy
    exact ⟨a, rfl, Fl.fin.inj hy ▸ hx⟩
  | nan => cases hy
  | pinf => simp only [Fl.div] at hy; split at hy <;> cases hy
  | ninf => simp only [Fl.div] at hy; split at hy <;> cases hy

section Le
variable {O : OArith K}

theorem le_fin (x : K) : Le (fin O x) (Rd.fin O.toArith x) := fun y h => by
  have : x = y := Fl.fin.inj h
  rw [this]

theorem le_nan (w : Rd O.toArith) : Le (PyNum.nan : Ov O) w := fun x h => by cases h

theorem le_add {v v' : Ov O} {w w' : Rd O.toArith} (h : Le v w) (h' : Le v' w') : Le (v +. v') (w +. w') := by
  intro x hx
  obtain ⟨a, b, ha, hb, hx', _⟩ := add_num hx
  rw [h a ha, h' b hb, Rd.add_fin, hx']

theorem le_sub {v v' : Ov O} {w w' : Rd O.toArith} (h : Le v w) (h' : Le v' w') : Le (v -. v') (w -. w') := by
  intro x hx
  obtain ⟨a, b, ha, hb, hx', _⟩ := sub_num hx
  rw [h a ha, h' b hb, Rd.sub_fin, hx']

theorem le_mul {v v' : Ov O} {w w' : Rd O.toArith} (h : Le v w) (h' : Le v' w') : Le (v *. v') (w *. w') := by
  intro x hx
  obtain ⟨a, b, ha, hb, hx', _⟩ := mul_num hx
  rw [h a ha, h' b hb, Rd.mul_fin, hx']

theorem le_div {v : Ov O} {w : Rd O.toArith} {c : K} (hc : c ≠ 0) (h : Le v w) : Le (v /. fin O c) (w /. Rd.fin O.toArith c) := by
  intro x hx
  obtain ⟨a, ha, hx', _⟩ := div_num hc hx
  rw [h a ha, Rd.div_fin _ hc, hx']

theorem lit_num {q : ℚ} (h1 : O.rnd (q : K) = q) (h2 : |(q : K)| ≤ O.top) : (lit q : Ov O) = fin O (q : K) := by
  show squash O (Fl.fin (q : K)) = _
  rw [squash_ok (by rw [h1]; exact h2), h1]; rfl

theorem ofNat_num {n : Nat} (h1 : O.rnd (n : K) = n) (h2 : |(n : K)| ≤ O.top) : (ofNat n : Ov O) = fin O (n : K) := by
  show squash O (Fl.fin (((n : ℚ)) : K)) = _
  rw [Rat.cast_natCast, squash_ok (by rw [h1]; exact h2), h1]; rfl

end Le

end Ov

variable {K : Type} [Field K] [LinearOrder K] [IsStrictOrderedRing K]

/-- floating-point arithmetic with unit roundoff `u` and overflow -/
structure OStd (O : OArith K) (u : K) : Prop where
  std : Std O.toArith u
  sound : ∀ l x, O.osum l = Fl.fin x → ∃ xs : List K, l = xs.map Fl.fin ∧ x = O.sum xs ∧ |x| ≤ O.top
  fits : ∀ xs : List K, (1 + u) ^ xs.length * (xs.map (fun x => |x|)).sum ≤ O.top → O.osum (xs.map Fl.fin) = Fl.fin (O.sum xs)

/-- binary64-like arithmetic: the given rounding, the given largest number, sums from left to right -/
def leftOArith (rnd : K → K) (top : K) : OArith K where
  toArith := leftArith rnd
  top := top
  osum l := l.foldl (fun s x => match Fl.add s x with
    | .fin x => if |rnd x| ≤ top then Fl.fin (rnd x) else if 0 < rnd x then Fl.pinf else Fl.ninf
    | x => x) (Fl.fin 0)

/-- left-to-right summation meets the contract -/
theorem leftOArith_std [FloorRing K] (rnd : K → K) (u top : K) (hu : 0 ≤ u) (ht : 0 ≤ top) (h : ∀ x, |rnd x - x| ≤ u * |x|) : OStd (leftOArith rnd top) u := by
  have hs : ∀ l : List (Fl K), (leftOArith rnd top).osum l = l.foldl (fun s x => Ov.squash (leftOArith rnd top) (Fl.add s x)) (Fl.fin 0) := by
    intro l
    show l.foldl _ _ = _
    congr 1
  have hadd : ∀ v w : Fl K, ∀ x, Ov.squash (leftOArith rnd top) (Fl.add v w) = Fl.fin x →
      ∃ a b, v = Fl.fin a ∧ w = Fl.fin b ∧ x = rnd (a + b) ∧ |x| ≤ top := fun v w x hx =>
    Ov.add_num (O := leftOArith rnd top) (v := v) (w := w) hx
  refine ⟨leftArith_std rnd u hu h, ?_, ?_⟩
  · intro l x hx
    rw [hs] at hx
    have key : ∀ (l : List (Fl K)) (s : Fl K), l.foldl (fun s x => Ov.squash (leftOArith rnd top) (Fl.add s x)) s = Fl.fin x →
        ∃ (xs : List K) (s0 : K), l = xs.map Fl.fin ∧ s = Fl.fin s0 ∧ x = xs.foldl (fun s x => rnd (s + x)) s0 ∧ (|s0| ≤ top → |x| ≤ top) := by
      intro l
      induction l with
      | nil => intro s hs'; exact ⟨[], x, rfl, hs', rfl, id⟩
      | cons y t ih =>
        intro s hs'
        rw [List.foldl_cons] at hs'
        obtain ⟨xs, s1, e1, e2, e3, e4⟩ := ih _ hs'
        obtain ⟨a, b, ha, hb, hc, hd⟩ := hadd _ _ _ e2
        refine ⟨b :: xs, a, by rw [e1, hb]; rfl, ha, ?_, fun _ => e4 hd⟩
        rw [List.foldl_cons, ← hc, e3]
    obtain ⟨xs, s0, e1, e2, e3, e4⟩ := key l _ hx
    have e0 : s0 = 0 := (Fl.fin.inj e2).symm
    subst e0
    exact ⟨xs, e1, e3, e4 (by simpa using ht)⟩
  · intro xs hx
    rw [hs]
    have key : ∀ (xs : List K) (s : K), (1 + u) ^ xs.length * (|s| + (xs.map (fun x => |x|)).sum) ≤ top →
        (xs.map Fl.fin).foldl (fun s x => Ov.squash (leftOArith rnd top) (Fl.add s x)) (Fl.fin s) =
          Fl.fin (xs.foldl (fun s x => rnd (s + x)) s) := by
      intro xs
      induction xs with
      | nil => intro s _; rfl
      | cons y t ih =>
        intro s hst
        simp only [List.map_cons, List.sum_cons, List.length_cons] at hst
        have hT : 0 ≤ (t.map (fun x => |x|)).sum := List.sum_nonneg (by
          intro y hy; obtain ⟨z, -, rfl⟩ := List.mem_map.mp hy; exact abs_nonneg z)
        have h1 : |rnd (s + y)| ≤ (1 + u) * (|s| + |y|) := by
          have a1 := abs_add_le (rnd (s + y) - (s + y)) (s + y)
          rw [sub_add_cancel] at a1
          have a2 := h (s + y)
          have a3 := abs_add_le s y
          nlinarith
        have hp : 1 ≤ (1 + u) ^ t.length := one_le_pow₀ (by linarith)
        have h2 : (1 + u) ^ t.length * (|rnd (s + y)| + (t.map (fun x => |x|)).sum) ≤ top := by
          refine le_trans ?_ hst
          rw [pow_succ, mul_assoc]
          refine mul_le_mul_of_nonneg_left ?_ (by positivity)
          nlinarith
        have h3 : |rnd (s + y)| ≤ top := by
          refine le_trans ?_ h2
          have := abs_nonneg (rnd (s + y))
          nlinarith
        rw [List.map_cons, List.foldl_cons, List.foldl_cons]
        have e : Ov.squash (leftOArith rnd top) (Fl.add (Fl.fin s) (Fl.fin y)) = Fl.fin (rnd (s + y)) := Ov.squash_ok (O := leftOArith rnd top) h3
        rw [e]
        exact ih _ h2
    have hx' : (1 + u) ^ xs.length * (xs.map (fun x => |x|)).sum ≤ top := hx
    exact key xs 0 (by simpa using hx')

end Proadv
