import Verif.Py.Array
import Mathlib.Analysis.SpecialFunctions.Complex.Log
import Mathlib.Analysis.SpecialFunctions.Trigonometric.Basic
import Mathlib.Data.Complex.Basic

/-!
# Model of `statistics/signal/butter.py` (filter design)

Exact complex arithmetic.  A division by zero of the code (a zero or pole at the origin in `low_to_high` / `low_to_stop`, or
equal to `2 sr` in `bilinear`) yields `inf`/`nan` in numpy and 0 here; the theorems exclude it by hypothesis.
`np.sqrt` on complex numbers is a parameter `csqrt`, of which only `csqrt x ^ 2 = x` is ever used.
-/

namespace Proadv.Butter

open Proadv Complex

noncomputable section

/-- zeros, poles and gain of a filter — butter.py:264-275. -/
structure Zpk where
  z : List ℂ
  p : List ℂ
  k : ℝ

/-- `_relative_scale` — butter.py:4-12. -/
def relativeScale (z p : List ℂ) : Py Nat :=
  if p.length < z.length then .error .valueError else .ok (p.length - z.length)

/-- `_catenate` — butter.py:15-21. -/
def catenate (csqrt : ℂ → ℂ) (a : List ℂ) (fpc : ℝ) : List ℂ :=
  a.map (fun x => x + csqrt (x ^ 2 - (fpc : ℂ) ^ 2)) ++ a.map (fun x => x - csqrt (x ^ 2 - (fpc : ℂ) ^ 2))

/-- `low_to_stop` — butter.py:24-78. -/
def lowToStop (csqrt : ℂ → ℂ) (f : Zpk) (pc pw : ℝ) : Py Zpk := do
  let scale ← relativeScale f.z f.p
  let zl := f.z.map (fun x => ((pw : ℂ) / 2) / x)
  let pl := f.p.map (fun x => ((pw : ℂ) / 2) / x)
  .ok ⟨catenate csqrt zl pc ++ List.replicate scale (I * pc) ++ List.replicate scale (-I * pc), catenate csqrt pl pc,
    f.k * ((f.z.map (fun x => -x)).prod / (f.p.map (fun x => -x)).prod).re⟩

/-- `low_to_band` — butter.py:81-137. -/
def lowToBand (csqrt : ℂ → ℂ) (f : Zpk) (pc pw : ℝ) : Py Zpk := do
  let scale ← relativeScale f.z f.p
  let zl := f.z.map (fun x => x * (pw : ℂ) / 2)
  let pl := f.p.map (fun x => x * (pw : ℂ) / 2)
  .ok ⟨catenate csqrt zl pc ++ List.replicate scale 0, catenate csqrt pl pc, f.k * pw ^ scale⟩

/-- `low_to_high` — butter.py:140-175. -/
def lowToHigh (f : Zpk) (dc : ℝ) : Py Zpk := do
  let scale ← relativeScale f.z f.p
  .ok ⟨f.z.map (fun x => (dc : ℂ) / x) ++ List.replicate scale 0, f.p.map (fun x => (dc : ℂ) / x),
    f.k * ((f.z.map (fun x => -x)).prod / (f.p.map (fun x => -x)).prod).re⟩

/-- A sampling-rate argument: `None`, a scalar, or anything else — butter.py:557-571. -/
inductive SrArg where
  | none | scalar (x : ℝ) | nonScalar

/-- `_valid_g` — butter.py:557-571. -/
def validG (g : SrArg) (an : Bool) : Py (Option ℝ) :=
  match g with
  | .none => if an then .ok Option.none else .error .valueError
  | .scalar x => .ok (some x)
  | .nonScalar => .error .valueError

/-- `bilinear` — butter.py:178-216. -/
def bilinear (f : Zpk) (sr : SrArg) : Py Zpk := do
  let fsr ← validG sr false
  let scale ← relativeScale f.z f.p
  let fsr2 : ℂ := 2 * ((fsr.getD 0 : ℝ) : ℂ)
  .ok ⟨f.z.map (fun x => (fsr2 + x) / (fsr2 - x)) ++ List.replicate scale (-1), f.p.map (fun x => (fsr2 + x) / (fsr2 - x)),
    f.k * ((f.z.map (fun x => fsr2 - x)).prod / (f.p.map (fun x => fsr2 - x)).prod).re⟩

/-- `low_to_low` — butter.py:219-261. -/
def lowToLow (f : Zpk) (dc : ℝ) : Py Zpk := do
  let scale ← relativeScale f.z f.p
  .ok ⟨f.z.map (fun x => (dc : ℂ) * x), f.p.map (fun x => (dc : ℂ) * x), f.k * dc ^ scale⟩

/-- Python's `int(x)` on a finite float — butter.py:268. -/
def pyInt (x : ℝ) : Int := if 0 ≤ x then ⌊x⌋ else ⌈x⌉

/-- `np.arange(a, b, step)` on integers, positive step — butter.py:271. -/
def arange (a b step : Int) : List Int :=
  (List.range ((b - a + step - 1) / step).toNat).map (fun k : Nat => a + step * (k : Int))

/-- `buttap` — butter.py:264-275.  `number` is any finite real; past the check it equals its integer part. -/
def buttap (number : ℝ) : Py Zpk :=
  if ((|pyInt number| : Int) : ℝ) ≠ number then .error .valueError
  else
    let n := pyInt number
    .ok ⟨[], (arange (-n + 1) n 2).map (fun y : Int => -Complex.exp (I * (Real.pi : ℂ) * (y : ℂ) / (2 * (n : ℂ)))), 1⟩

/-! ## Coefficients -/

/-- `np.convolve(a, [1, -r])`, coefficients with the highest power first — butter.py:443-451. -/
def convRoot (a : List ℂ) (r : ℂ) : List ℂ := List.zipWith (fun x y => x - r * y) (a ++ [0]) (0 :: a)

open Classical in
/-- `np.poly(roots)`: repeated convolution; real parts are taken when the roots are closed under conjugation (numpy compares
the sorted arrays; here: equal up to order) — butter.py:443-451. -/
def npPoly (roots : List ℂ) : List ℂ :=
  let a := roots.foldl convRoot [1]
  if roots.Perm (roots.map (starRingEnd ℂ)) then a.map (fun c => ((c.re : ℝ) : ℂ)) else a

open Classical in
/-- the test of butter.py:455-460 and 465-470: the roots in the upper half plane are the conjugates of those in the lower
one (numpy compares the sorted arrays; here: equal up to order). -/
def paired (r : List ℂ) : Prop :=
  (r.filter (fun x => 0 < x.im)).length = ((r.filter (fun x => x.im < 0)).map (starRingEnd ℂ)).length ∧
  ((r.filter (fun x => x.im < 0)).map (starRingEnd ℂ)).Perm (r.filter (fun x => 0 < x.im))

open Classical in
/-- `xyz_to_ptf` for 1-D zeros — butter.py:427-473.  For arrays of real dtype the real part changes nothing, so the dtype
tests of 453 and 463 are not modelled. -/
def xyzToPtf (f : Zpk) : List ℂ × List ℂ :=
  let g := (npPoly f.z).map (fun c => (f.k : ℂ) * c)
  let h := npPoly f.p
  (if paired f.z then g.map (fun c => ((c.re : ℝ) : ℂ)) else g,
   if paired f.p then h.map (fun c => ((c.re : ℝ) : ℂ)) else h)

/-- `z[i]` for each row — butter.py:446-449: a single gain is repeated, too few gains are an IndexError. -/
def rowGains (n : Nat) (ks : List ℝ) : Py (List ℝ) :=
  if ks.length = 1 then .ok (List.replicate n (ks.getD 0 0))
  else if ks.length < n then .error .indexError else .ok (ks.take n)

open Classical in
/-- `xyz_to_ptf` for 2-D zeros (a list of rows of equal length) and a 1-D gain — butter.py:427-473.  No rows: `x[0]` is an
IndexError; rows without entries: `np.poly` returns a Python float, which has no `dtype` (AttributeError).  The dtype of
the first row's polynomial decides (445): complex makes the 2-D condition of `np.compress` (456) a ValueError, real
makes the assignment of 449 drop imaginary parts. -/
def xyzToPtfRows (rows : List (List ℂ)) (p : List ℂ) (ks : List ℝ) : Py (List (List ℂ) × List ℂ) := do
  if rows.isEmpty then .error .indexError
  else if (rows.headD []).isEmpty then .error .attributeError
  else do
    let k ← rowGains rows.length ks
    if (rows.headD []).Perm ((rows.headD []).map (starRingEnd ℂ)) then
      .ok (List.zipWith (fun (k : ℝ) row => (npPoly row).map (fun c => (((k : ℂ) * c).re : ℂ))) k rows, (xyzToPtf ⟨[], p, 1⟩).2)
    else .error .valueError

/-! ## `butterworth` -/

inductive BType where
  | lp | hp | bp | bs | other
deriving DecidableEq

/-- the `output` argument — butter.py:601, 614, 663-668. -/
inductive Output where
  | nd | zps | sop | other
deriving DecidableEq

/-- result of `butterworth` in one of its three forms — butter.py:663-668. -/
inductive Result where
  | zps (f : Zpk)
  | nd (g h : List ℂ)
  | sop (s : List (List ℂ))

/-- the band dispatch — butter.py:634-656; `size` is `numpy.size(w)` -/
def transform (csqrt : ℂ → ℂ) (proto : Zpk) (size : Nat) (btype : BType) (dc : List ℝ) : Py Zpk :=
  match btype with
  | .lp => if size ≠ 1 then .error .valueError else lowToLow proto (dc.getD 0 0)
  | .hp => if size ≠ 1 then .error .valueError else lowToHigh proto (dc.getD 0 0)
  | .bp =>
    if dc.length < 2 then .error .valueError
    else lowToBand csqrt proto (Real.sqrt (dc.getD 0 0 * dc.getD 1 0)) (dc.getD 1 0 - dc.getD 0 0)
  | .bs =>
    if dc.length < 2 then .error .valueError
    else lowToStop csqrt proto (Real.sqrt (dc.getD 0 0 * dc.getD 1 0)) (dc.getD 1 0 - dc.getD 0 0)
  | .other => .error .notImplementedError

/-- `butterworth` up to zeros, poles and gain — butter.py:600-660.  `w` lists the critical frequencies (a scalar is a
one-element list: both raise IndexError at `dc[1]`); `btype`, `output` are already lower-cased.  Simplification: finite
frequencies, `sr ≠ 0`. -/
def design (csqrt : ℂ → ℂ) (q : ℝ) (w : List ℝ) (btype : BType) (ag : Bool) (output : Output) (sr : SrArg) : Py Zpk := do
  let s ← validG sr true
  if s.isSome && ag then .error .valueError
  else
    let w := match s with
      | some x => w.map (fun v => 2 * v / x)
      | none => w
    if w.any (fun v => decide (v ≤ 0)) then .error .valueError
    else if 1 < w.length ∧ ¬ (w.getD 0 0 < w.getD 1 0) then .error .valueError
    else if output = .other then .error .valueError
    else do
      let proto ← buttap q
      if !ag && w.any (fun v => decide (v ≤ 0) || decide (1 ≤ v)) then .error .valueError
      else
        let dc := if ag then w else w.map (fun v => 2 * 2 * Real.tan (Real.pi * v / 2))
        let f ← transform csqrt proto w.length btype dc
        if ag then .ok f else bilinear f (.scalar 2)

/-- `butterworth` — butter.py:574-668; `toSop` is `xyz_to_sop`. -/
def butterworth (csqrt : ℂ → ℂ) (toSop : Zpk → Bool → Py (List (List ℂ))) (q : ℝ) (w : List ℝ) (btype : BType) (ag : Bool)
    (output : Output) (sr : SrArg) : Py Result := do
  let f ← design csqrt q w btype ag output sr
  match output with
  | .zps => .ok (.zps f)
  | .nd => .ok (.nd (xyzToPtf f).1 (xyzToPtf f).2)
  | _ => do
    let s ← toSop f ag
    .ok (.sop s)

end

end Proadv.Butter
