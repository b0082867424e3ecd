import Verif.Model.Brent

/-!
# `brentq` with rounded arithmetic

The operations of `Model/Brent.lean`, each followed by a rounding function `fl`.  Comparisons, signs, absolute values, negation
and the selection of a minimum do not round.  `f` is the function as computed: it returns a number for every number.  Not
modelled: overflow, underflow, NaN.
-/

namespace Proadv.Brent

open Proadv

variable {K : Type} [Field K] [LinearOrder K]

/-- optimize.py:83-86: re-bracketing -/
def rebracketR (fl : K → K) (s : St K) : St K :=
  if SignType.sign s.fpre ≠ SignType.sign s.fcur then
    { s with xblk := s.xpre, fblk := s.fpre, spre := fl (s.xcur - s.xpre), scur := fl (s.xcur - s.xpre) }
  else s

/-- optimize.py:96 -/
def deltaR (fl : K → K) (xtol rtol : K) (s : St K) : K := fl (fl (xtol + fl (rtol * |s.xcur|)) / 2)

/-- optimize.py:97 -/
def sbisR (fl : K → K) (s : St K) : K := fl (fl (s.xblk - s.xcur) / 2)

/-- Python division of floats, rounded — optimize.py:109-115. -/
def pdivR (fl : K → K) (a b : K) : Py K := if b = 0 then .error .zeroDivisionError else .ok (fl (a / b))

/-- optimize.py:107-115: the step tried -/
def tryR (fl : K → K) (s : St K) : Py K :=
  if s.xpre = s.xblk then pdivR fl (fl (-s.fcur * fl (s.xcur - s.xpre))) (fl (s.fcur - s.fpre))
  else do
    let dpre ← pdivR fl (fl (s.fpre - s.fcur)) (fl (s.xpre - s.xcur))
    let dblk ← pdivR fl (fl (s.fblk - s.fcur)) (fl (s.xblk - s.xcur))
    pdivR fl (fl (-s.fcur * fl (fl (s.fblk * dblk) - fl (s.fpre * dpre)))) (fl (fl (dblk * dpre) * fl (s.fblk - s.fpre)))

/-- optimize.py:106-129: the pair `(spre, scur)` -/
def stepsR (fl : K → K) (xtol rtol : K) (s : St K) : Py (K × K) := do
  let d := deltaR fl xtol rtol s
  let b := sbisR fl s
  if d < |s.spre| ∧ |s.fcur| < |s.fpre| then
    let stry ← tryR fl s
    if fl (2 * |stry|) < min |s.spre| (fl (fl (3 * |b|) - d)) then .ok (s.scur, stry) else .ok (b, b)
  else .ok (b, b)

/-- optimize.py:132-140: move the current point and evaluate `f` there -/
def advanceR (fl f : K → K) (xtol rtol : K) (s : St K) (spre scur : K) : St K :=
  let d := deltaR fl xtol rtol s
  let x := if d < |scur| then fl (s.xcur + scur) else if 0 < sbisR fl s then fl (s.xcur + d) else fl (s.xcur + -d)
  { s with xpre := s.xcur, fpre := s.fcur, spre := spre, scur := scur, xcur := x, fcur := f x }

/-- optimize.py:81-140 and 143-153, as `loop`. -/
def loopR (fl f : K → K) (xtol rtol : K) : Nat → Nat → Nat → St K → Py (Out K) × List K
  | 0, _, last, s => (.ok (.info s.xcur (last + 2) (last + 1) false), [])
  | n + 1, i, _, s =>
    let s := swap (rebracketR fl s)
    if s.fcur = 0 ∨ |sbisR fl s| < deltaR fl xtol rtol s then (.ok (.info s.xcur (i + 2) (i + 1) true), [])
    else
      match stepsR fl xtol rtol s with
      | .error e => (.error e, [])
      | .ok (a, b) =>
        let s' := advanceR fl f xtol rtol s a b
        let r := loopR fl f xtol rtol n (i + 1) i s'
        (r.1, s'.xcur :: r.2)

/-- `optimize.brentq` — optimize.py:4-153, with rounded arithmetic: result and list of evaluation points, in order. -/
def brentqR (fl f : K → K) (xa xb xtol rtol : K) (maxiter : Int) : Py (Out K) × List K :=
  if xb ≤ xa then (.error .valueError, [])
  else if f xa = 0 then (.ok (.endpoint xa), [xa, xb])
  else if f xb = 0 then (.ok (.endpoint xb), [xa, xb])
  else if SignType.sign (f xa) = SignType.sign (f xb) then (.error .valueError, [xa, xb])
  else
    let r := loopR fl f xtol rtol maxiter.toNat 0 0 ⟨xa, xb, f xa, f xb, 0, 0, 0, 0⟩
    (r.1, xa :: xb :: r.2)

end Proadv.Brent
