import Verif.Py.Overflow
import Verif.Py.Underflow

/-!
# Rounding, gradual underflow and overflow together

`OGrad O u η Rep` is the contract of `Verif/Py/Underflow.lean` for the numbers and that of `Verif/Py/Overflow.lean` for the
infinities.  `leftOArith_grad`: left-to-right summation meets it, so does binary64 with subnormal numbers and infinities.
-/

set_option linter.unusedSectionVars false

namespace Proadv

variable {K : Type} [Field K] [LinearOrder K] [IsStrictOrderedRing K]

/-- floating-point arithmetic with unit roundoff `u`, underflow error `η` and overflow; `Rep` holds of the numbers that can be
stored -/
structure OGrad (O : OArith K) (u η : K) (Rep : K → Prop) : Prop where
  grad : Gradual O.toArith u η Rep
  sound : ∀ l x, O.osum l = Fl.fin x → ∃ xs : List K, l = xs.map Fl.fin ∧ x = O.sum xs ∧ |x| ≤ O.top
  fits : ∀ xs : List K, (∀ x ∈ xs, Rep x) → (1 + u) ^ xs.length * (xs.map (fun x => |x|)).sum ≤ O.top →
    O.osum (xs.map Fl.fin) = Fl.fin (O.sum xs)

/-- without underflow -/
theorem OStd.grad {O : OArith K} {u : K} (h : OStd O u) : OGrad O u 0 (fun _ => True) :=
  ⟨h.std.gradual, h.sound, fun xs _ => h.fits xs⟩

theorem leftOArith_osum [FloorRing K] (rnd : K → K) (top : K) (l : List (Fl K)) :
    (leftOArith rnd top).osum l = l.foldl (fun s x => Ov.squash (leftOArith rnd top) (Fl.add s x)) (Fl.fin 0) := by
  show l.foldl _ _ = _
  congr 1

/-- left-to-right summation meets the contract -/
theorem leftOArith_grad [FloorRing K] (rnd : K → K) (u η top : K) (Rep : K → Prop) (ht : 0 ≤ top)
    (h : Gradual (leftArith rnd) u η Rep) : OGrad (leftOArith rnd top) u η Rep := by
  have hu := h.nonneg
  have hadd : ∀ v w : Fl K, ∀ x, Ov.squash (leftOArith rnd top) (Fl.add v w) = Fl.fin x →
      ∃ a b, v = Fl.fin a ∧ w = Fl.fin b ∧ x = rnd (a + b) ∧ |x| ≤ top := fun v w x hx =>
    Ov.add_num (O := leftOArith rnd top) (v := v) (w := w) hx
  refine ⟨h, ?_, ?_⟩
  · intro l x hx
    rw [leftOArith_osum] at hx
    have key : ∀ (l : List (Fl K)) (s : Fl K), l.foldl (fun s x => Ov.squash (leftOArith rnd top) (Fl.add s x)) s = Fl.fin x →
        ∃ (xs : List K) (s0 : K), l = xs.map Fl.fin ∧ s = Fl.fin s0 ∧ x = xs.foldl (fun s x => rnd (s + x)) s0 ∧
          (|s0| ≤ top → |x| ≤ top) := by
      intro l
      induction l with
      | nil => intro s hs'; exact ⟨[], x, rfl, hs', rfl, id⟩
      | cons y t ih =>
        intro s hs'
        rw [List.foldl_cons] at hs'
        obtain ⟨xs, s1, e1, e2, e3, e4⟩ := ih _ hs'
        obtain ⟨a, b, ha, hb, hc, hd⟩ := hadd _ _ _ e2
        refine ⟨b :: xs, a, by rw [e1, hb]; rfl, ha, ?_, fun _ => e4 hd⟩
        rw [List.foldl_cons, ← hc, e3]
    obtain ⟨xs, s0, e1, e2, e3, e4⟩ := key l _ hx
    have e0 : s0 = 0 := (Fl.fin.inj e2).symm
    subst e0
    exact ⟨xs, e1, e3, e4 (by simpa using ht)⟩
  · intro xs hrep hx
    rw [leftOArith_osum]
    have key : ∀ (xs : List K) (s : K), (∀ x ∈ xs, Rep x) → Rep s → (1 + u) ^ xs.length * (|s| + (xs.map (fun x => |x|)).sum) ≤ top →
        (xs.map Fl.fin).foldl (fun s x => Ov.squash (leftOArith rnd top) (Fl.add s x)) (Fl.fin s) =
          Fl.fin (xs.foldl (fun s x => rnd (s + x)) s) := by
      intro xs
      induction xs with
      | nil => intro s _ _ _; rfl
      | cons y t ih =>
        intro s hr hs hst
        simp only [List.map_cons, List.sum_cons, List.length_cons] at hst
        have hT : 0 ≤ (t.map (fun x => |x|)).sum := List.sum_nonneg (by
          intro y hy; obtain ⟨z, -, rfl⟩ := List.mem_map.mp hy; exact abs_nonneg z)
        have h1 : |rnd (s + y)| ≤ (1 + u) * (|s| + |y|) := by
          have a1 := abs_add_le (rnd (s + y) - (s + y)) (s + y)
          rw [sub_add_cancel] at a1
          have a2 : |rnd (s + y) - (s + y)| ≤ u * |s + y| := h.add s y hs (hr y (by simp))
          have a3 := abs_add_le s y
          nlinarith
        have hp : 1 ≤ (1 + u) ^ t.length := one_le_pow₀ (by linarith)
        have h2 : (1 + u) ^ t.length * (|rnd (s + y)| + (t.map (fun x => |x|)).sum) ≤ top := by
          refine le_trans ?_ hst
          rw [pow_succ, mul_assoc]
          refine mul_le_mul_of_nonneg_left ?_ (by positivity)
          nlinarith
        have h3 : |rnd (s + y)| ≤ top := by
          refine le_trans ?_ h2
          have := abs_nonneg (rnd (s + y))
          nlinarith
        rw [List.map_cons, List.foldl_cons, List.foldl_cons]
        have e : Ov.squash (leftOArith rnd top) (Fl.add (Fl.fin s) (Fl.fin y)) = Fl.fin (rnd (s + y)) :=
          Ov.squash_ok (O := leftOArith rnd top) h3
        rw [e]
        exact ih _ (fun z hz => hr z (by simp [hz])) (h.rep _) h2
    have hx' : (1 + u) ^ xs.length * (xs.map (fun x => |x|)).sum ≤ top := hx
    exact key xs 0 hrep h.rep_zero (by simpa using hx')

end Proadv
