import Verif.Model.Butter

/-!
# Model of `statistics/signal/butter.py`: second-order sections

Exact complex arithmetic.  `np.argsort` does not fix the order of ties, so the ordering used by `_closest_real_complex_i` is a
parameter `order`; the theorems only use that it lists every index once.  A section is the list of its six coefficients.
-/

namespace Proadv.Butter

open Proadv Complex

noncomputable section

open Classical

/-- `np.isreal` — butter.py:360. -/
def isReal (x : ℂ) : Bool := decide (x.im = 0)

/-! ## `_cxr` -/

/-- the order of `np.lexsort((abs(x.imag), x.real))`: real part first, then magnitude of the imaginary part
— butter.py:503. -/
def lexLe (a b : ℂ) : Bool := decide (a.re < b.re ∨ (a.re = b.re ∧ |a.im| ≤ |b.im|))

/-- the order of `np.lexsort([np.abs(chunk.imag)])` — butter.py:533. -/
def imLe (a b : ℂ) : Bool := decide (|a.im| ≤ |b.im|)

/-- lengths of the blocks of butter.py:522-526: maximal runs of neighbours with `diff(real) <= me * abs(xp)`, an entry
outside every run being a block of its own -/
def blocks (me : ℝ) : List ℂ → List Nat
  | [] => []
  | [_] => [1]
  | a :: b :: t =>
    match blocks me (b :: t) with
    | [] => []
    | n :: ns => if b.re - a.re ≤ me * ‖a‖ then (n + 1) :: ns else 1 :: n :: ns

/-- sort each block of the given lengths by imaginary magnitude — butter.py:528-533 -/
def sortBlocks : List Nat → List ℂ → List ℂ
  | [], _ => []
  | n :: ns, l => (l.take n).mergeSort imLe ++ sortBlocks ns (l.drop n)

/-- the final check and average of `_cxr` — butter.py:535-541 -/
def matchPairs (me : ℝ) (xp xn : List ℂ) : Py (List ℂ) :=
  if (List.zipWith (fun p n => decide (me * ‖n‖ < ‖p - starRingEnd ℂ n‖)) xp xn).any id then .error .valueError
  else .ok (List.zipWith (fun p n => (p + starRingEnd ℂ n) / 2) xp xn)

/-- `_cxr` — butter.py:491-543, for a 1-D array, with tolerance `me` (the code passes none: `100 * eps`), giving the
upper half of the conjugate pairs and the real entries. -/
def cxr (me : ℝ) (x : List ℂ) : Py (List ℂ × List ℂ) :=
  if x.isEmpty then .ok ([], [])
  else
    let xs := x.mergeSort lexLe
    let ri : ℂ → Bool := fun v => decide (|v.im| ≤ me * ‖v‖)
    let xr := (xs.filter ri).map (fun v => ((v.re : ℝ) : ℂ))
    if xr.length = xs.length then .ok ([], xr)
    else
      let xc := xs.filter (fun v => !ri v)
      let xp := xc.filter (fun v => decide (0 < v.im))
      let xn := xc.filter (fun v => decide (v.im < 0))
      if xp.length ≠ xn.length then .error .valueError
      else do
        let m ← matchPairs me (sortBlocks (blocks me xp) xp) (sortBlocks (blocks me xp) xn)
        .ok (m, xr)

/-- `np.concatenate(_cxr(x))` — butter.py:336-337 -/
def halves (me : ℝ) (x : List ℂ) : Py (List ℂ) := do
  let r ← cxr me x
  .ok (r.1 ++ r.2)

/-! ## Pairing -/

/-- the `pg` argument; `other` is any string not listed — butter.py:300-305. -/
inductive Pairing where
  | nr | kd | ml | other
deriving DecidableEq

/-- last argument of `_closest_real_complex_i` — butter.py:480. -/
inductive Kind where
  | real | complex | any

/-- `np.argmin`: index of the first minimum; ValueError on an empty array — butter.py:344, 347. -/
def argmin (l : List ℝ) : Py Nat :=
  if l.isEmpty then .error .valueError else .ok (l.findIdx (fun v => l.all (fun u => decide (v ≤ u))))

/-- `iw` — butter.py:342-347 -/
def iw (ag : Bool) (a : List ℂ) : Py Nat := argmin (a.map (fun v => if ag then |v.re| else |1 - ‖v‖|))

/-- `_closest_real_complex_i` — butter.py:476-488; no entry of the wanted kind: IndexError. -/
def closest (order : List ℂ → ℂ → List Nat) (x : List ℂ) (y : ℂ) (kind : Kind) : Py Nat :=
  match kind with
  | .any => match (order x y).head? with
    | some i => .ok i
    | none => .error .indexError
  | .real => match (order x y).find? (fun i => isReal (x.getD i 0)) with
    | some i => .ok i
    | none => .error .indexError
  | .complex => match (order x y).find? (fun i => !isReal (x.getD i 0)) with
    | some i => .ok i
    | none => .error .indexError

/-- `v = l[i]; l = np.delete(l, i)` — butter.py:355-356, 364-365. -/
def takeAt (l : List ℂ) (i : Nat) : Py (ℂ × List ℂ) :=
  match l[i]? with
  | some v => .ok (v, l.eraseIdx i)
  | none => .error .indexError

/-- choose and remove a zero — butter.py:363-365, 400-402. -/
def pickZero (order : List ℂ → ℂ → List Nat) (x : List ℂ) (y1 : ℂ) (kind : Kind) : Py (ℂ × List ℂ) := do
  let i ← closest order x y1 kind
  takeAt x i

/-- choose and remove the worst pole — butter.py:353-356 -/
def pickPole (ag : Bool) (y : List ℂ) : Py (ℂ × List ℂ) := do
  let i ← iw ag y
  takeAt y i

/-- choose and remove the worst real pole — butter.py:391-394 -/
def pickRealPole (ag : Bool) (y : List ℂ) : Py (ℂ × List ℂ) := do
  let idx := (List.range y.length).filter (fun i => isReal (y.getD i 0))
  let j ← iw ag (idx.map (fun i => y.getD i 0))
  match idx[j]? with
  | some i => takeAt y i
  | none => .error .indexError

/-- `_lone_xyzsop` with gain 1 — butter.py:546-554, at most two zeros and poles. -/
def lone (x y : List ℂ) : List ℂ :=
  let g := (xyzToPtf ⟨x, y, 1⟩).1
  let h := (xyzToPtf ⟨x, y, 1⟩).2
  (List.replicate (3 - g.length) 0 ++ g) ++ (List.replicate (3 - h.length) 0 ++ h)

/-- special case (1), last remaining real pole — butter.py:360-373: the section and the remaining zeros. -/
def stepLast (order : List ℂ → ℂ → List Nat) (pg : Pairing) (x : List ℂ) (y1 : ℂ) : Py (List ℂ × List ℂ) :=
  if pg ≠ .ml then do
    let (x1, x') ← pickZero order x y1 .real
    .ok (lone [x1, 0] [y1, 0], x')
  else if x.isEmpty then .ok (lone [] [y1], x)
  else do
    let (x1, x') ← pickZero order x y1 .real
    .ok (lone [x1] [y1], x')

/-- the second pole — butter.py:390-396 -/
def secondPole (ag : Bool) (y1 : ℂ) (y : List ℂ) : Py (ℂ × List ℂ) :=
  if isReal y1 then pickRealPole ag y else .ok (starRingEnd ℂ y1, y)

/-- the second zero — butter.py:404-414 -/
def secondZero (order : List ℂ → ℂ → List Nat) (x1 : ℂ) (x : List ℂ) (y1 y2 : ℂ) : Py (List ℂ × List ℂ) :=
  if !isReal x1 then .ok (lone [x1, starRingEnd ℂ x1] [y1, y2], x)
  else if x.isEmpty then .ok (lone [x1] [y1, y2], x)
  else do
    let (x2, x') ← pickZero order x y1 .real
    if isReal x2 then .ok (lone [x1, x2] [y1, y2], x') else .error .assertionError

/-- zeros for a pair of poles — butter.py:398-417 -/
def zerosFor (order : List ℂ → ℂ → List Nat) (x : List ℂ) (y1 y2 : ℂ) : Py (List ℂ × List ℂ) :=
  if x.isEmpty then .ok (lone [] [y1, y2], x)
  else do
    let (x1, x') ← pickZero order x y1 .any
    secondZero order x1 x' y1 y2

/-- the three cases of the loop body, after the worst pole `y1` has been removed — butter.py:360-417 -/
def stepWith (order : List ℂ → ℂ → List Nat) (pg : Pairing) (ag : Bool) (x : List ℂ) (y1 : ℂ) (y : List ℂ) :
    Py (List ℂ × List ℂ × List ℂ) :=
  if isReal y1 && !(y.any isReal) then do
    let (s, x') ← stepLast order pg x y1
    .ok (s, x', y)
  else if y.length + 1 = x.length ∧ isReal y1 = false ∧ y.countP isReal = 1 ∧ x.countP isReal = 1 then do
    let (x1, x') ← pickZero order x y1 .complex
    .ok (lone [x1, starRingEnd ℂ x1] [y1, starRingEnd ℂ y1], x', y)
  else do
    let (y2, y') ← secondPole ag y1 y
    let (s, x') ← zerosFor order x y1 y2
    .ok (s, x', y')

/-- one pass of the loop — butter.py:352-417 -/
def step (order : List ℂ → ℂ → List Nat) (pg : Pairing) (ag : Bool) (x y : List ℂ) : Py (List ℂ × List ℂ × List ℂ) := do
  let (y1, y') ← pickPole ag y
  stepWith order pg ag x y1 y'

/-- the loop, filling sections from the last to the first, and the final assertion — butter.py:349-420 -/
def sopLoop (order : List ℂ → ℂ → List Nat) (pg : Pairing) (ag : Bool) : Nat → List ℂ → List ℂ → List (List ℂ) → Py (List (List ℂ))
  | 0, x, y, acc => if y.isEmpty && x.isEmpty then .ok acc else .error .assertionError
  | n + 1, x, y, acc => do
    let (s, x', y') ← step order pg ag x y
    sopLoop order pg ag n x' y' (s :: acc)

/-- `sop[0][:3] *= z` — butter.py:423 -/
def applyGain (k : ℝ) : List (List ℂ) → List (List ℂ)
  | [] => []
  | s :: t => ((s.take 3).map (fun c => c * (k : ℂ)) ++ s.drop 3) :: t

/-- padding with zeros and number of sections — butter.py:317-332 -/
def prepare (pg : Pairing) (x y : List ℂ) : Py (List ℂ × List ℂ × Nat) :=
  if pg ≠ .ml then
    let y' := y ++ List.replicate (x.length - y.length) 0
    let x' := x ++ List.replicate (y'.length - x.length) 0
    if y'.length % 2 = 1 ∧ pg = .nr then .ok (x' ++ [0], y' ++ [0], (Max.max y'.length x'.length + 1) / 2)
    else .ok (x', y', (Max.max y'.length x'.length + 1) / 2)
  else if y.length < x.length then .error .valueError
  else .ok (x, y, (y.length + 1) / 2)

/-- `xyz_to_sop` — butter.py:278-424.  `pg = none` is the default.  The gain is a real number, so the check of 338-339 passes. -/
def xyzToSop (order : List ℂ → ℂ → List Nat) (me : ℝ) (f : Zpk) (pg : Option Pairing) (ag : Bool) : Py (List (List ℂ)) :=
  let pg := pg.getD (if ag then .ml else .nr)
  if pg = .other then .error .valueError
  else if ag = true ∧ pg ≠ .ml then .error .valueError
  else if f.z.isEmpty && f.p.isEmpty then
    .ok (if ag then [[0, 0, (f.k : ℂ), 0, 0, 1]] else [[(f.k : ℂ), 0, 0, 1, 0, 0]])
  else do
    let (x, y, c) ← prepare pg f.z f.p
    let x ← halves me x
    let y ← halves me y
    let s ← sopLoop order pg ag c x y []
    .ok (applyGain f.k s)

end

end Proadv.Butter
