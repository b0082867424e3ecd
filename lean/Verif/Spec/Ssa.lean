import Mathlib.Algebra.Field.Basic
import Mathlib.Algebra.BigOperators.NatAntidiagonal

/-! # Specification: anti-diagonal means -/

namespace Proadv

variable {K : Type} [Field K]

/-- the mean of the entries on the anti-diagonal `row + col = m` of an `a × b` matrix -/
def antiDiagMean (M : Nat → Nat → K) (a b m : Nat) : K :=
  (∑ p ∈ (Finset.antidiagonal m).filter (fun p => p.1 < a ∧ p.2 < b), M p.1 p.2) /
    (((Finset.antidiagonal m).filter (fun p => p.1 < a ∧ p.2 < b)).card : K)

end Proadv
