import Verif.Py.Num
import Mathlib.Data.Sign.Basic

/-!
# Model of `brentq` of `proadv/statistics/optimize/optimize.py`

Numbers are elements of an ordered field (exact arithmetic, real-valued `f`); a division by zero is the exception
ZeroDivisionError, and `C36` shows that it does not happen.
-/

namespace Proadv.Brent

open Proadv

variable {K : Type} [Field K] [LinearOrder K]

/-- the loop variables of `brentq` — optimize.py:62-65, 78 -/
structure St (K : Type) where
  xpre : K
  xcur : K
  fpre : K
  fcur : K
  xblk : K
  fblk : K
  spre : K
  scur : K
deriving DecidableEq, Repr

/-- Python division of floats — optimize.py:109-115. -/
def pdiv (a b : K) : Py K := if b = 0 then .error .zeroDivisionError else .ok (a / b)

/-- optimize.py:83-86: re-bracketing -/
def rebracket (s : St K) : St K :=
  if SignType.sign s.fpre ≠ SignType.sign s.fcur then
    { s with xblk := s.xpre, fblk := s.fpre, spre := s.xcur - s.xpre, scur := s.xcur - s.xpre }
  else s

/-- optimize.py:89-93: swap so that `fcur` is the smaller residual -/
def swap (s : St K) : St K :=
  if |s.fblk| < |s.fcur| then
    { s with xpre := s.xcur, xcur := s.xblk, xblk := s.xcur, fpre := s.fcur, fcur := s.fblk, fblk := s.fcur }
  else s

/-- optimize.py:96 -/
def delta (xtol rtol : K) (s : St K) : K := (xtol + rtol * |s.xcur|) / 2

/-- optimize.py:97 -/
def sbis (s : St K) : K := (s.xblk - s.xcur) / 2

/-- optimize.py:106-129: the pair `(spre, scur)` -/
def steps (xtol rtol : K) (s : St K) : Py (K × K) := do
  let d := delta xtol rtol s
  let b := sbis s
  if d < |s.spre| ∧ |s.fcur| < |s.fpre| then
    let stry ← if s.xpre = s.xblk then pdiv (-s.fcur * (s.xcur - s.xpre)) (s.fcur - s.fpre)
      else do
        let dpre ← pdiv (s.fpre - s.fcur) (s.xpre - s.xcur)
        let dblk ← pdiv (s.fblk - s.fcur) (s.xblk - s.xcur)
        pdiv (-s.fcur * (s.fblk * dblk - s.fpre * dpre)) (dblk * dpre * (s.fblk - s.fpre))
    if 2 * |stry| < min |s.spre| (3 * |b| - d) then .ok (s.scur, stry) else .ok (b, b)
  else .ok (b, b)

/-- optimize.py:132-140: move the current point and evaluate `f` there -/
def advance (f : K → K) (xtol rtol : K) (s : St K) (spre scur : K) : St K :=
  let d := delta xtol rtol s
  let x := if d < |scur| then s.xcur + scur else if 0 < sbis s then s.xcur + d else s.xcur + -d
  { s with xpre := s.xcur, fpre := s.fcur, spre := spre, scur := scur, xcur := x, fcur := f x }

/-- the values returned with `full_output=True`: a tuple when an endpoint is a root (68-71), a dictionary otherwise
(101-103, 143-149) — optimize.py:68-71, 101-103, 143-149. -/
inductive Out (K : Type) where
  | endpoint (root : K)
  | info (root : K) (functionCalls iterations : Nat) (converged : Bool)
deriving DecidableEq, Repr

/-- the value returned with `full_output=False` — optimize.py:69, 71, 103, 153. -/
def Out.root : Out K → K
  | .endpoint r => r
  | .info r _ _ _ => r

/-- optimize.py:81-140 and 143-153: iterations number `i, i+1, …`, `n` of them left.  The second component lists the
points at which `f` is evaluated.  `last` is the value of the variable `i` after the loop. -/
def loop (f : K → K) (xtol rtol : K) : Nat → Nat → Nat → St K → Py (Out K) × List K
  | 0, _, last, s => (.ok (.info s.xcur (last + 2) (last + 1) false), [])
  | n + 1, i, _, s =>
    let s := swap (rebracket s)
    if s.fcur = 0 ∨ |sbis s| < delta xtol rtol s then (.ok (.info s.xcur (i + 2) (i + 1) true), [])
    else
      match steps xtol rtol s with
      | .error e => (.error e, [])
      | .ok (a, b) =>
        let s' := advance f xtol rtol s a b
        let r := loop f xtol rtol n (i + 1) i s'
        (r.1, s'.xcur :: r.2)

/-- `optimize.brentq` — optimize.py:4-153: result (with `full_output=True`) and list of evaluation points, in order. -/
def brentq (f : K → K) (xa xb xtol rtol : K) (maxiter : Int) : Py (Out K) × List K :=
  if xb ≤ xa then (.error .valueError, [])
  else if f xa = 0 then (.ok (.endpoint xa), [xa, xb])
  else if f xb = 0 then (.ok (.endpoint xb), [xa, xb])
  else if SignType.sign (f xa) = SignType.sign (f xb) then (.error .valueError, [xa, xb])
  else
    let r := loop f xtol rtol maxiter.toNat 0 0 ⟨xa, xb, f xa, f xb, 0, 0, 0, 0⟩
    (r.1, xa :: xb :: r.2)

end Proadv.Brent
