import Verif.Model.Replace
import Verif.Py.Num
import Mathlib.Data.Real.Basic
import Mathlib.Algebra.BigOperators.Fin

/-!
# Model of `_create_model` — `proadv/filtration/replacement/replacements.py:367-390`

`_create_model` chains three library calls; here each is written out from its documentation, over the reals.

* `PolynomialFeatures(degree).fit_transform` — the columns `1, x, …, x^degree` (the bias column is included by default).
* `LinearRegression().fit` — subtracts the column means and the mean of the samples, solves the centred system with
  `scipy.linalg.lstsq`, sets the intercept.
* `scipy.linalg.lstsq` — the least-squares solution of least Euclidean norm.

Simplifications: exact arithmetic; `lstsq` treats tiny singular values as zero, here only zero ones; the powers do not
overflow.
-/

namespace Proadv.Replace

open Proadv Fl

noncomputable section

/-- one row of `poly.fit_transform(x.reshape(-1, 1))` — replacements.py:383-384, 387 -/
def polyFeatures (d : Nat) (x : ℝ) (j : Fin (d + 1)) : ℝ := x ^ (j : ℕ)

/-- mean of a column, `X.mean(axis=0)` in `LinearRegression.fit` — replacements.py:386 -/
def colMean {m n : Nat} (X : Fin m → Fin n → ℝ) (j : Fin n) : ℝ := (∑ i, X i j) / m

/-- mean of the samples, `y.mean()` in `LinearRegression.fit` — replacements.py:386 -/
def sampleMean {m : Nat} (y : Fin m → ℝ) : ℝ := (∑ i, y i) / m

/-- sum of squares of the centred system for the coefficients `c` — replacements.py:386 -/
def centredSse {m n : Nat} (X : Fin m → Fin n → ℝ) (y : Fin m → ℝ) (c : Fin n → ℝ) : ℝ :=
  ∑ i, (∑ j, (X i j - colMean X j) * c j - (y i - sampleMean y)) ^ 2

/-- `c` is what `scipy.linalg.lstsq` returns for the centred system: least sum of squares, and the least norm among those
— replacements.py:386 -/
def IsLstsq {m n : Nat} (X : Fin m → Fin n → ℝ) (y : Fin m → ℝ) (c : Fin n → ℝ) : Prop :=
  (∀ c', centredSse X y c ≤ centredSse X y c') ∧
    ∀ c', centredSse X y c' = centredSse X y c → ∑ j, c j ^ 2 ≤ ∑ j, c' j ^ 2

/-- `model.coef_` — replacements.py:386; it exists and is unique by `C204_fit` -/
def coef {m n : Nat} (X : Fin m → Fin n → ℝ) (y : Fin m → ℝ) : Fin n → ℝ := Classical.epsilon (IsLstsq X y)

/-- `model.intercept_` — replacements.py:386 -/
def intercept {m n : Nat} (X : Fin m → Fin n → ℝ) (y : Fin m → ℝ) : ℝ :=
  sampleMean y - ∑ j, colMean X j * coef X y j

/-- `model.predict` for one row — replacements.py:389 -/
def regressAt {m n : Nat} (X : Fin m → Fin n → ℝ) (y : Fin m → ℝ) (row : Fin n → ℝ) : ℝ :=
  intercept X y + ∑ j, coef X y j * row j

/-- the matrix `poly_data` for the abscissae `lo, lo + 1, …` — replacements.py:384 -/
def designMatrix (d m : Nat) (lo : Int) (i : Fin m) : Fin (d + 1) → ℝ := polyFeatures d ((lo : ℝ) + (i : ℕ))

/-- the samples, if all are finite: `fit` rejects NaN and infinity — replacements.py:386 -/
def finiteAll : List (Fl ℝ) → Option (List ℝ)
  | [] => some []
  | fin x :: t => (finiteAll t).map (x :: ·)
  | _ :: _ => none

/-- `_create_model(y, np.arange(lo, i), i, degree).squeeze()` — replacements.py:367-390, called at 429 and 432.  The libraries
raise ValueError for a negative degree, for no abscissa, for different numbers of abscissae and samples, and for samples that
are not finite. -/
def createModel (degree : Int) (y : List (Fl ℝ)) (lo i : Int) : Py (Fl ℝ) :=
  if degree < 0 then .error .valueError
  else if i ≤ lo then .error .valueError
  else if (y.length : Int) ≠ i - lo then .error .valueError
  else match finiteAll y with
    | none => .error .valueError
    | some z => .ok (fin (regressAt (designMatrix degree.toNat z.length lo) (fun k => z[k]) (polyFeatures degree.toNat (i : ℝ))))

end

end Proadv.Replace
