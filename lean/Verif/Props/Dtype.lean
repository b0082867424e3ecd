import Verif.Model.Dtype

/-!
# C195: the kernel chosen by `_type`
-/

namespace Proadv.Props

open Proadv Proadv.Dtype

namespace Spec

/-- real element types no wider than double -/
def Plain (t : DType) : Prop := t = .int ∨ t = .half ∨ t = .single ∨ t = .double

/-- numeric types -/
def Numeric (t : DType) : Prop := t ≠ .bool ∧ t ≠ .other

/-- complex types -/
def Cplx (t : DType) : Prop := t = .csingle ∨ t = .cdouble ∨ t = .clongdouble

instance : DecidablePred Plain := fun t => by unfold Plain; infer_instance
instance : DecidablePred Numeric := fun t => by unfold Numeric; infer_instance
instance : DecidablePred Cplx := fun t => by unfold Cplx; infer_instance

end Spec

open Spec

/-- the sizes a long double has on the platforms numpy supports -/
def LongDoubleSize (ld : Nat) : Prop := ld = 8 ∨ ld = 12 ∨ ld = 16

/-- **C195** boolean and non-numeric arrays, and only these, are a TypeError; the order of the two arguments does not matter. -/
theorem C195_errors (ld : Nat) (a b : DType) :
    (typeOf ld a b = .error .typeError ↔ ¬ (Numeric a ∧ Numeric b)) ∧ (Numeric a ∧ Numeric b → ∃ r, typeOf ld a b = .ok r) ∧
      typeOf ld a b = typeOf ld b a := by
  have h : ∀ a b, commonType a b = commonType b a ∧ (Numeric a ∧ Numeric b → ∃ t, commonType a b = .ok t) ∧
      (¬ (Numeric a ∧ Numeric b) → commonType a b = .error .typeError) := by decide
  obtain ⟨h1, h2, h3⟩ := h a b
  have hok : Numeric a ∧ Numeric b → ∃ r, typeOf ld a b = .ok r := by
    intro hn
    obtain ⟨t, ht⟩ := h2 hn
    unfold typeOf
    rw [ht]
    simp only [bind, Except.bind]
    split_ifs <;> exact ⟨_, rfl⟩
  refine ⟨⟨fun he hn => ?_, fun hn => ?_⟩, hok, ?_⟩
  · obtain ⟨r, hr⟩ := hok hn
    rw [hr] at he
    cases he
  · unfold typeOf; rw [h3 hn]; rfl
  · unfold typeOf; rw [h1]

/-- **C195** with the double covariance `np.cov` makes of ordinary data, every ordinary grid selects the double kernel. -/
theorem C195_double (ld : Nat) (t : DType) (ht : Plain t) : typeOf ld .double t = .ok (.double, .double) := by
  rcases ht with rfl | rfl | rfl | rfl <;> rfl

/-- **C195** the single-precision kernel is selected exactly for two real arguments of at most single precision, one of them single;
so never with a double covariance. -/
theorem C195_float (ld : Nat) (hld : LongDoubleSize ld) (a b : DType) :
    (∃ t, typeOf ld a b = .ok (t, .float)) ↔
      (a = .single ∧ b = .single) ∨ (a = .single ∧ b = .half) ∨ (a = .half ∧ b = .single) := by
  rcases hld with rfl | rfl | rfl <;> revert a b <;> decide

/-- **C195** (documented: the size of the data type decides the kernel) the item size of a complex type counts both parts, so single
complex data select the double kernel and double complex data the long double kernel. -/
theorem C195_complex (ld : Nat) (hld : LongDoubleSize ld) (a : DType) :
    (a = .csingle ∨ a = .half ∨ a = .single → typeOf ld .csingle a = .ok (.csingle, .double)) ∧
    (a = .cdouble ∨ a = .csingle ∨ Plain a → typeOf ld .cdouble a = .ok (.cdouble, .longDouble)) ∧
    (typeOf 16 .clongdouble .clongdouble = .ok (.clongdouble, .size 32)) := by
  rcases hld with rfl | rfl | rfl <;> revert a <;> decide

/-- **C195** two half-precision arrays match none of the branches: the number 2 is returned in place of a kernel name. -/
theorem C195_half (ld : Nat) : typeOf ld .half .half = .ok (.half, .size 2) := rfl

/-- **C195** the chosen type is complex exactly when an argument is, and at least as precise as each argument. -/
theorem C195_promotes (ld : Nat) (a b t : DType) (m : Mode) (h : typeOf ld a b = .ok (t, m)) :
    (Cplx t ↔ Cplx a ∨ Cplx b) ∧ ∃ p q r, precision a = .ok p ∧ precision b = .ok q ∧ precision t = .ok r ∧ r = Max.max p q := by
  have hall : ∀ a b t, commonType a b = .ok t → (Cplx t ↔ Cplx a ∨ Cplx b) ∧
      ∃ p q r, precision a = .ok p ∧ precision b = .ok q ∧ precision t = .ok r ∧ r = Max.max p q := by
    intro a b t h
    cases a <;> cases b <;>
      first
      | (exfalso; revert h; revert t; decide)
      | (injection h with h
         subst h
         exact ⟨by decide, _, _, _, rfl, rfl, rfl, rfl⟩)
  have hc : commonType a b = .ok t := by
    unfold typeOf at h
    cases hc : commonType a b with
    | error e => rw [hc] at h; cases h
    | ok t' =>
      rw [hc] at h
      simp only [bind, Except.bind] at h
      split_ifs at h <;> simp only [Except.ok.injEq, Prod.mk.injEq] at h <;> rw [h.1]
  obtain ⟨h1, p, q, r, h2⟩ := hall a b t hc
  exact ⟨h1, p, q, r, h2⟩

end Proadv.Props
