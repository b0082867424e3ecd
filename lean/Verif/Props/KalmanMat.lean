import Verif.Model.KalmanMat
import Verif.Props.Kalman

/-!
# C138: `kalman_filter` with arrays of arbitrary shape
-/

set_option linter.unusedSectionVars false
set_option linter.unusedSimpArgs false

namespace Proadv.Props

open Proadv Fl Series

section shapes
variable {F : Type} [PyNum F]

/-- What the theorems use of `np.linalg.inv`: it raises LinAlgError or returns a matrix of the (square) shape of its
argument, and on a 1x1 matrix it is the reciprocal. -/
structure InvContract (inv : Mat F → Py (Mat F)) : Prop where
  shape : ∀ m m', inv m = .ok m' → m.rows = m.cols ∧ m'.rows = m.rows ∧ m'.cols = m.cols
  error : ∀ m e, inv m = .error e → e = .linAlgError
  one : ∀ m, m.rows = 1 → m.cols = 1 → inv m = (inv1 (m.get 0 0)).map Mat.one

private theorem bind_ok {α β : Type} {x : Py α} {f : α → Py β} {b : β} (h : x >>= f = .ok b) : ∃ a, x = .ok a ∧ f a = .ok b := by
  cases x with
  | error e => cases h
  | ok a => exact ⟨a, rfl, h⟩

private theorem dot_ok {a b m : Mat F} (h : a.dot b = .ok m) : a.cols = b.rows ∧ m.rows = a.rows ∧ m.cols = b.cols := by
  unfold Mat.dot at h
  split_ifs at h with hc
  obtain rfl := Except.ok.inj h
  exact ⟨hc, rfl, rfl⟩

private theorem bop_ok {f : F → F → F} {a b m : Mat F} (h : a.bop f b = .ok m) :
    bdim a.rows b.rows = .ok m.rows ∧ bdim a.cols b.cols = .ok m.cols := by
  unfold Mat.bop at h
  obtain ⟨r, hr, h⟩ := bind_ok h
  obtain ⟨c, hc, h⟩ := bind_ok h
  obtain rfl := Except.ok.inj h
  exact ⟨hr, hc⟩

private theorem bdim_one {n k : Nat} (h : bdim 1 n = .ok k) : k = n := by
  unfold bdim at h
  by_cases h1 : 1 = n
  · rw [if_pos h1] at h
    exact (Except.ok.inj h).symm.trans h1
  · rw [if_neg h1, if_pos rfl] at h
    exact (Except.ok.inj h).symm

/-- **C138** one measurement is processed only if the state has one row, and the covariance and both noises are 1x1. -/
theorem C138_step_shapes (inv : Mat F → Py (Mat F)) (hinv : InvContract inv) (q r x p z : Mat F) (st' : Mat F × Mat F)
    (h : kalmanMatStep inv q r (x, p) z = .ok st') :
    x.rows = 1 ∧ (p.rows = 1 ∧ p.cols = 1) ∧ (q.rows = 1 ∧ q.cols = 1) ∧ r.rows = 1 ∧ r.cols = 1 := by
  unfold kalmanMatStep at h
  obtain ⟨ps, h1, h⟩ := bind_ok h
  obtain ⟨ap, h2, h⟩ := bind_ok h
  obtain ⟨apa, h3, h⟩ := bind_ok h
  obtain ⟨pc, h4, h⟩ := bind_ok h
  obtain ⟨ph, h5, h⟩ := bind_ok h
  obtain ⟨hp, h6, h⟩ := bind_ok h
  obtain ⟨hph, h7, h⟩ := bind_ok h
  obtain ⟨s, h8, h⟩ := bind_ok h
  obtain ⟨i, h9, h⟩ := bind_ok h
  obtain ⟨g, h10, h⟩ := bind_ok h
  have o1 : (Mat.one (lit 1) : Mat F).rows = 1 := rfl
  have o2 : (Mat.one (lit 1) : Mat F).cols = 1 := rfl
  have o3 : (Mat.one (lit 1) : Mat F).tr.rows = 1 := rfl
  have o4 : (Mat.one (lit 1) : Mat F).tr.cols = 1 := rfl
  have h1 := dot_ok h1
  have h2 := dot_ok h2
  have h3 := dot_ok h3
  have h4 := bop_ok h4
  have h5 := dot_ok h5
  have h6 := dot_ok h6
  have h7 := dot_ok h7
  have h8 := bop_ok h8
  have h9 := hinv.shape _ _ h9
  have h10 := dot_ok h10
  simp only at h1 h2
  rw [h3.2.1, h2.2.1, o1] at h4
  rw [h3.2.2, o4] at h4
  have q1 := bdim_one h4.1
  have q2 := bdim_one h4.2
  rw [h7.2.1, h6.2.1, o1, h7.2.2, o4] at h8
  have r1 := bdim_one h8.1
  have r2 := bdim_one h8.2
  omega

private theorem bind_err {α β : Type} {x : Py α} {f : α → Py β} {e : PyErr} (h : x >>= f = .error e) :
    x = .error e ∨ ∃ a, x = .ok a ∧ f a = .error e := by
  cases x with
  | error e' => left; exact congrArg _ (Except.error.inj h)
  | ok a => exact Or.inr ⟨a, rfl, h⟩

private theorem dot_err {a b : Mat F} {e : PyErr} (h : a.dot b = .error e) : e = .valueError := by
  unfold Mat.dot at h
  split_ifs at h
  exact (Except.error.inj h).symm

private theorem bdim_err {m n : Nat} {e : PyErr} (h : bdim m n = .error e) : e = .valueError := by
  unfold bdim at h
  split_ifs at h
  exact (Except.error.inj h).symm

private theorem bop_err {f : F → F → F} {a b : Mat F} {e : PyErr} (h : a.bop f b = .error e) : e = .valueError := by
  unfold Mat.bop at h
  rcases bind_err h with h | ⟨r, -, h⟩
  · exact bdim_err h
  rcases bind_err h with h | ⟨c, -, h⟩
  · exact bdim_err h
  · cases h

/-- the errors of one measurement: ValueError from a shape, or LinAlgError from the inverse, which is reached only with
proper shapes of state, covariance and process noise -/
private theorem step_err (inv : Mat F → Py (Mat F)) (hinv : InvContract inv) (q r x p z : Mat F) (e : PyErr)
    (h : kalmanMatStep inv q r (x, p) z = .error e) :
    e = .valueError ∨ (e = .linAlgError ∧ x.rows = 1 ∧ (p.rows = 1 ∧ p.cols = 1) ∧ q.rows = 1 ∧ q.cols = 1) := by
  unfold kalmanMatStep at h
  rcases bind_err h with h | ⟨ps, h1, h⟩
  · exact Or.inl (dot_err h)
  rcases bind_err h with h | ⟨ap, h2, h⟩
  · exact Or.inl (dot_err h)
  rcases bind_err h with h | ⟨apa, h3, h⟩
  · exact Or.inl (dot_err h)
  rcases bind_err h with h | ⟨pc, h4, h⟩
  · exact Or.inl (bop_err h)
  rcases bind_err h with h | ⟨ph, h5, h⟩
  · exact Or.inl (dot_err h)
  rcases bind_err h with h | ⟨hp, h6, h⟩
  · exact Or.inl (dot_err h)
  rcases bind_err h with h | ⟨hph, h7, h⟩
  · exact Or.inl (dot_err h)
  rcases bind_err h with h | ⟨s, h8, h⟩
  · exact Or.inl (bop_err h)
  rcases bind_err h with h | ⟨i, h9, h⟩
  · right
    have o1 : (Mat.one (lit 1) : Mat F).rows = 1 := rfl
    have o2 : (Mat.one (lit 1) : Mat F).cols = 1 := rfl
    have o3 : (Mat.one (lit 1) : Mat F).tr.rows = 1 := rfl
    have o4 : (Mat.one (lit 1) : Mat F).tr.cols = 1 := rfl
    have h1 := dot_ok h1
    have h2 := dot_ok h2
    have h3 := dot_ok h3
    have h4 := bop_ok h4
    have h5 := dot_ok h5
    have h6 := dot_ok h6
    simp only at h1 h2
    rw [h3.2.1, h2.2.1, o1, h3.2.2, o4] at h4
    have q1 := bdim_one h4.1
    have q2 := bdim_one h4.2
    exact ⟨hinv.error _ _ h, by omega, ⟨by omega, by omega⟩, by omega, by omega⟩
  left
  rcases bind_err h with h | ⟨g, -, h⟩
  · exact dot_err h
  rcases bind_err h with h | ⟨_, -, h⟩
  · exact dot_err h
  rcases bind_err h with h | ⟨_, -, h⟩
  · exact bop_err h
  rcases bind_err h with h | ⟨_, -, h⟩
  · exact dot_err h
  rcases bind_err h with h | ⟨_, -, h⟩
  · exact bop_err h
  rcases bind_err h with h | ⟨_, -, h⟩
  · exact dot_err h
  rcases bind_err h with h | ⟨_, -, h⟩
  · exact bop_err h
  rcases bind_err h with h | ⟨_, -, h⟩
  · exact dot_err h
  · cases h

/-- **C138** all other shapes raise at the first measurement: ValueError for a wrong state, covariance or process noise;
ValueError or LinAlgError for a wrong measurement noise. -/
theorem C138_rejects (inv : Mat F → Py (Mat F)) (hinv : InvContract inv) (z : Mat F) (zs : List (Mat F)) (x0 p0 q r : Mat F) :
    (¬ (x0.rows = 1 ∧ (p0.rows = 1 ∧ p0.cols = 1) ∧ q.rows = 1 ∧ q.cols = 1) →
      kalmanMat inv (z :: zs) x0 p0 q r = .error .valueError) ∧
    (¬ (r.rows = 1 ∧ r.cols = 1) → kalmanMat inv (z :: zs) x0 p0 q r = .error .valueError ∨
      kalmanMat inv (z :: zs) x0 p0 q r = .error .linAlgError) := by
  have key : ∀ e, kalmanMatStep inv q r (x0, p0) z = .error e → kalmanMat inv (z :: zs) x0 p0 q r = .error e := by
    intro e he
    unfold kalmanMat
    rw [kalmanMatLoop, he]; rfl
  cases h : kalmanMatStep inv q r (x0, p0) z with
  | ok st' =>
    have := C138_step_shapes inv hinv q r x0 p0 z st' h
    exact ⟨fun hb => absurd ⟨this.1, this.2.1, this.2.2.1⟩ hb, fun hb => absurd this.2.2.2 hb⟩
  | error e =>
    rw [key e h]
    rcases step_err inv hinv q r x0 p0 z e h with rfl | ⟨rfl, h1⟩
    · exact ⟨fun _ => rfl, fun _ => Or.inl rfl⟩
    · exact ⟨fun hb => absurd h1 hb, fun _ => Or.inr rfl⟩

/-- **C138** no data, no error: the shapes are only examined in the loop. -/
theorem C138_empty (inv : Mat F → Py (Mat F)) (x0 p0 q r : Mat F) : kalmanMat inv [] x0 p0 q r = .ok [] := rfl

end shapes

section columns
variable {K : Type} [Field K] [LinearOrder K] [IsStrictOrderedRing K] [FloorRing K]

private theorem sum_one (x : Fl K) : PyNum.sum [x] = x := by
  show Fl.add (fin 0) x = x
  cases x <;> simp [Fl.add]

private theorem mul_get {a b : Mat (Fl K)} (h : a.cols = 1) (i j : Nat) : (a.mul b).get i j = a.get i 0 *. b.get 0 j := by
  show PyNum.sum ((List.range a.cols).map _) = _
  rw [h]; exact sum_one _

private theorem dot_val {a b : Mat (Fl K)} (h : a.cols = 1) (h' : b.rows = 1) :
    a.dot b = .ok ⟨a.rows, b.cols, fun i j => a.get i 0 *. b.get 0 j⟩ := by
  unfold Mat.dot
  rw [if_pos (h.trans h'.symm)]
  congr 1
  show (⟨a.rows, b.cols, _⟩ : Mat (Fl K)) = _
  congr 1
  funext i j
  exact mul_get h i j

/-- a measurement fits a state with `c` columns -/
def Fits (c : Nat) (z : Mat (Fl K)) : Prop := z.rows = 1 ∧ (z.cols = 1 ∨ z.cols = c)

private theorem bop_val (f : Fl K → Fl K → Fl K) {a b : Mat (Fl K)} {c : Nat} (ha : a.rows = 1) (hb : b.rows = 1)
    (hac : a.cols = 1 ∨ a.cols = c) (hbc : b.cols = c) :
    ∃ m, a.bop f b = .ok m ∧ m.rows = 1 ∧ m.cols = c ∧
      ∀ j, j < c → m.get 0 j = f (a.get 0 (if a.cols = 1 then 0 else j)) (b.get 0 j) := by
  have hd : bdim a.cols b.cols = .ok c := by
    unfold bdim
    rcases hac with h | h
    · rw [h, hbc]
      by_cases h1 : 1 = c
      · rw [if_pos h1, h1]
      · rw [if_neg h1, if_pos rfl]
    · rw [h, hbc, if_pos rfl]
  have hr : bdim a.rows b.rows = .ok 1 := by rw [ha, hb]; rfl
  refine ⟨⟨1, c, fun i j => f (a.bget i j) (b.bget i j)⟩, ?_, rfl, rfl, ?_⟩
  · unfold Mat.bop; rw [hr, hd]; rfl
  · intro j hj
    show f (a.bget 0 j) (b.bget 0 j) = _
    unfold Mat.bget
    simp only [ha, hb, if_true, hbc]
    congr 1
    split_ifs with h1
    · have : j = 0 := by omega
      rw [this]
    · rfl

private theorem step_columns (inv : Mat (Fl K) → Py (Mat (Fl K))) (hinv : InvContract inv) (x p q r z : Mat (Fl K)) (c : Nat)
    (hx : x.rows = 1) (hxc : x.cols = c) (hp : p.rows = 1) (hpc : p.cols = 1) (hq : q.rows = 1) (hqc : q.cols = 1)
    (hr : r.rows = 1) (hrc : r.cols = 1) (hz : Fits c z) :
    (kalmanMatStep inv q r (x, p) z = .error .linAlgError ∧
      ∀ u w, kalmanStep (q.get 0 0) (r.get 0 0) (u, p.get 0 0) w = .error .linAlgError) ∨
    ∃ x' p', kalmanMatStep inv q r (x, p) z = .ok (x', p') ∧ x'.rows = 1 ∧ x'.cols = c ∧ p'.rows = 1 ∧ p'.cols = 1 ∧
      (∀ u w, ∃ y, kalmanStep (q.get 0 0) (r.get 0 0) (u, p.get 0 0) w = .ok (y, p'.get 0 0)) ∧
      ∀ j, j < c → kalmanStep (q.get 0 0) (r.get 0 0) (x.get 0 j, p.get 0 0) (z.get 0 (if z.cols = 1 then 0 else j)) =
        .ok (x'.get 0 j, p'.get 0 0) := by
  set one : Mat (Fl K) := Mat.one (lit 1) with hone
  have e1 : one.dot x = .ok ⟨1, x.cols, fun i j => lit 1 *. x.get 0 j⟩ := dot_val rfl hx
  have e2 : one.dot p = .ok ⟨1, p.cols, fun i j => lit 1 *. p.get 0 j⟩ := dot_val rfl hp
  have e3 : (⟨1, p.cols, fun i j => lit 1 *. p.get 0 j⟩ : Mat (Fl K)).dot one.tr =
      .ok ⟨1, 1, fun i j => (lit 1 *. p.get 0 0) *. lit 1⟩ := dot_val hpc rfl
  obtain ⟨pc, e4, pcr, pcc, pcv⟩ := bop_val (fun u v => u +. v)
    (a := ⟨1, 1, fun i j => (lit 1 *. p.get 0 0) *. lit 1⟩) (b := q) (c := 1) rfl hq (Or.inl rfl) hqc
  have pcv := pcv 0 (by omega)
  have e5 : pc.dot one.tr = .ok ⟨1, 1, fun i j => pc.get i 0 *. lit 1⟩ := by
    rw [dot_val pcc rfl, pcr]; rfl
  have e6 : one.dot pc = .ok ⟨1, 1, fun i j => lit 1 *. pc.get 0 j⟩ := by
    rw [dot_val rfl pcr, pcc]; rfl
  have e7 : (⟨1, 1, fun i j => lit 1 *. pc.get 0 j⟩ : Mat (Fl K)).dot one.tr =
      .ok ⟨1, 1, fun i j => (lit 1 *. pc.get 0 0) *. lit 1⟩ := dot_val rfl rfl
  obtain ⟨s, e8, sr, scl, sv⟩ := bop_val (fun u v => u +. v)
    (a := ⟨1, 1, fun i j => (lit 1 *. pc.get 0 0) *. lit 1⟩) (b := r) (c := 1) rfl hr (Or.inl rfl) hrc
  have sv := sv 0 (by omega)
  simp only [if_true] at pcv sv
  have e9 := hinv.one s sr scl
  have hstep : ∀ u w, kalmanStep (q.get 0 0) (r.get 0 0) (u, p.get 0 0) w = (do
      let i ← inv1 (s.get 0 0)
      .ok (lit 1 *. u +. ((pc.get 0 0 *. lit 1) *. i) *. (w -. lit 1 *. (lit 1 *. u)),
        (lit 1 -. ((pc.get 0 0 *. lit 1) *. i) *. lit 1) *. pc.get 0 0)) := by
    intro u w
    unfold kalmanStep
    rw [sv, pcv]
  cases hi : inv1 (s.get 0 0) with
  | error e =>
    have he : e = .linAlgError := hinv.error s e (by rw [e9, hi]; rfl)
    subst he
    left
    constructor
    · unfold kalmanMatStep
      simp only [← hone, e1, e2, e3, e4, e5, e6, e7, e8, e9, hi, bind, Except.bind, Except.map]
    · intro u w; rw [hstep, hi]; rfl
  | ok i =>
    right
    have e10 : (⟨1, 1, fun i j => pc.get i 0 *. lit 1⟩ : Mat (Fl K)).dot (Mat.one i) =
        .ok ⟨1, 1, fun k j => (pc.get k 0 *. lit 1) *. i⟩ := dot_val rfl rfl
    have e11 : one.dot ⟨1, x.cols, fun i j => lit 1 *. x.get 0 j⟩ =
        .ok ⟨1, x.cols, fun i j => lit 1 *. (lit 1 *. x.get 0 j)⟩ := dot_val rfl rfl
    obtain ⟨d, e12, dr, dc, dv⟩ := bop_val (fun u v => u -. v) (a := z)
      (b := ⟨1, x.cols, fun i j => lit 1 *. (lit 1 *. x.get 0 j)⟩) (c := c) hz.1 rfl hz.2 hxc
    have e13 : (⟨1, 1, fun k j => (pc.get k 0 *. lit 1) *. i⟩ : Mat (Fl K)).dot d =
        .ok ⟨1, d.cols, fun k j => ((pc.get k 0 *. lit 1) *. i) *. d.get 0 j⟩ := dot_val rfl dr
    obtain ⟨x', e14, xr, xc, xv⟩ := bop_val (fun u v => u +. v) (a := ⟨1, x.cols, fun i j => lit 1 *. x.get 0 j⟩)
      (b := ⟨1, d.cols, fun k j => ((pc.get k 0 *. lit 1) *. i) *. d.get 0 j⟩) (c := c) rfl rfl (Or.inr hxc) dc
    have e15 : (⟨1, 1, fun k j => (pc.get k 0 *. lit 1) *. i⟩ : Mat (Fl K)).dot one =
        .ok ⟨1, 1, fun k j => ((pc.get k 0 *. lit 1) *. i) *. lit 1⟩ := dot_val rfl rfl
    obtain ⟨w, e16, wr, wc, wv⟩ := bop_val (fun u v => u -. v) (a := (Mat.eye x'.rows : Mat (Fl K)))
      (b := ⟨1, 1, fun k j => ((pc.get k 0 *. lit 1) *. i) *. lit 1⟩) (c := 1) xr rfl (Or.inl xr) rfl
    have e17 : w.dot pc = .ok ⟨1, 1, fun k j => w.get k 0 *. pc.get 0 j⟩ := by
      rw [dot_val wc pcr, wr, pcc]
    have wv := wv 0 (by omega)
    have wv : w.get 0 0 = lit 1 -. ((pc.get 0 0 *. lit 1) *. i) *. lit 1 := by
      rw [wv]
      have : (Mat.eye x'.rows : Mat (Fl K)).get 0 (if (Mat.eye x'.rows : Mat (Fl K)).cols = 1 then 0 else 0) = lit 1 := by
        simp only [ite_self]; rfl
      rw [this]
    refine ⟨x', ⟨1, 1, fun k j => w.get k 0 *. pc.get 0 j⟩, ?_, xr, xc, rfl, rfl, ?_, ?_⟩
    · unfold kalmanMatStep
      simp only [← hone, e1, e2, e3, e4, e5, e6, e7, e8, e9, hi, bind, Except.bind, Except.map, e10, e11, e12, e13, e14, e15,
        e16, e17]
    · intro u v
      rw [hstep, hi, show (⟨1, 1, fun k j => w.get k 0 *. pc.get 0 j⟩ : Mat (Fl K)).get 0 0 = w.get 0 0 *. pc.get 0 0 from rfl,
        wv]
      exact ⟨_, rfl⟩
    · intro j hj
      rw [hstep, hi, show (⟨1, 1, fun k j => w.get k 0 *. pc.get 0 j⟩ : Mat (Fl K)).get 0 0 = w.get 0 0 *. pc.get 0 0 from rfl,
        wv, xv j hj]
      have hj0 : (if x.cols = 1 then 0 else j) = j := by
        split_ifs with h1
        · omega
        · rfl
      show Except.ok (_, _) = Except.ok (_, _)
      rw [show (⟨1, x.cols, fun i j => lit 1 *. x.get 0 j⟩ : Mat (Fl K)).cols = x.cols from rfl, hj0]
      simp only [dv j hj]

/-- **C138** with a one-row state of `c` columns, 1x1 covariance and noises, and measurements that are scalars or rows of
length `c`, the columns are `c` independent scalar filters; if the scalar filter raises, so does the call. -/
theorem C138_columns (inv : Mat (Fl K) → Py (Mat (Fl K))) (hinv : InvContract inv) (x p q r : Mat (Fl K)) (c : Nat)
    (hx : x.rows = 1) (hxc : x.cols = c) (hp : p.rows = 1 ∧ p.cols = 1) (hq : q.rows = 1 ∧ q.cols = 1)
    (hr : r.rows = 1 ∧ r.cols = 1) (zs : List (Mat (Fl K))) (hz : ∀ z ∈ zs, Fits c z) :
    (kalmanMat inv zs x p q r = .error .linAlgError ∧
      ∀ (u : Fl K) (j : Nat), kalmanFilter (zs.map (fun z => z.get 0 (if z.cols = 1 then 0 else j))) u (p.get 0 0) (q.get 0 0)
        (r.get 0 0) = .error .linAlgError) ∨
    ∃ out, kalmanMat inv zs x p q r = .ok out ∧ (∀ m ∈ out, m.rows = 1 ∧ m.cols = c) ∧
      ∀ j, j < c → kalmanFilter (zs.map (fun z => z.get 0 (if z.cols = 1 then 0 else j))) (x.get 0 j) (p.get 0 0) (q.get 0 0)
        (r.get 0 0) = .ok (out.map (fun m => m.get 0 j)) := by
  induction zs generalizing x p with
  | nil => exact Or.inr ⟨[], rfl, by simp, fun j _ => rfl⟩
  | cons z t ih =>
    rcases step_columns inv hinv x p q r z c hx hxc hp.1 hp.2 hq.1 hq.2 hr.1 hr.2 (hz z (by simp)) with
      ⟨h1, h2⟩ | ⟨x', p', h1, xr, xc, pr, pc, h2, h3⟩
    · left
      constructor
      · unfold kalmanMat kalmanMatLoop; rw [h1]; rfl
      · intro u j
        unfold kalmanFilter
        rw [List.map_cons, kalmanLoop, h2]; rfl
    · have hcons : kalmanMat inv (z :: t) x p q r = (kalmanMat inv t x' p' q r).map (fun l => x' :: l) := by
        unfold kalmanMat
        rw [kalmanMatLoop, h1]
        cases h : kalmanMatLoop inv q r (x', p') t <;>
          simp only [bind, Except.bind, h, Except.map, List.map_cons]
      have hsc : ∀ (u y w : Fl K) (ws : List (Fl K)),
          kalmanStep (q.get 0 0) (r.get 0 0) (u, p.get 0 0) w = .ok (y, p'.get 0 0) →
          kalmanFilter (w :: ws) u (p.get 0 0) (q.get 0 0) (r.get 0 0) =
            (kalmanFilter ws y (p'.get 0 0) (q.get 0 0) (r.get 0 0)).map (fun l => y :: l) := by
        intro u y w ws hk
        unfold kalmanFilter
        rw [kalmanLoop, hk]
        cases h : kalmanLoop (q.get 0 0) (r.get 0 0) (y, p'.get 0 0) ws <;>
          simp only [bind, Except.bind, h, Except.map, List.map_cons]
      rcases ih x' p' xr xc ⟨pr, pc⟩ (fun z hz' => hz z (by simp [hz'])) with ⟨i1, i2⟩ | ⟨out, i1, i2, i3⟩
      · left
        refine ⟨by rw [hcons, i1]; rfl, fun u j => ?_⟩
        obtain ⟨y, hy⟩ := h2 u (z.get 0 (if z.cols = 1 then 0 else j))
        rw [List.map_cons, hsc _ _ _ _ hy, i2]; rfl
      · right
        refine ⟨x' :: out, by rw [hcons, i1]; rfl, ?_, fun j hj => ?_⟩
        · intro m hm
          rcases List.mem_cons.mp hm with rfl | hm
          · exact ⟨xr, xc⟩
          · exact i2 m hm
        · rw [List.map_cons, hsc _ _ _ _ (h3 j hj), i3 j hj]; rfl

/-- an inverse that meets the contract: LinAlgError for everything but invertible 1x1 matrices -/
private def invOne (m : Mat (Fl K)) : Py (Mat (Fl K)) :=
  if m.rows = 1 ∧ m.cols = 1 then (inv1 (m.get 0 0)).map Mat.one else .error .linAlgError

example : InvContract (invOne : Mat (Fl K) → _) where
  shape := by
    intro m m' h
    unfold invOne at h
    split_ifs at h with hc
    unfold inv1 at h
    split_ifs at h
    · cases h
    · obtain rfl := Except.ok.inj h
      exact ⟨hc.1.trans hc.2.symm, hc.1.symm, hc.2.symm⟩
  error := by
    intro m e h
    unfold invOne inv1 at h
    split_ifs at h <;> first | exact (Except.error.inj h).symm | cases h
  one := by intro m h1 h2; unfold invOne; rw [if_pos ⟨h1, h2⟩]

end columns

/-- two columns, one filtered from 0 and one from 4, on a scalar and a row measurement -/
example : (kalmanMat (fun m : Mat (Fl ℚ) => (inv1 (m.get 0 0)).map Mat.one) [Mat.one (fin 2), ⟨1, 2, fun _ j => fin j⟩]
    ⟨1, 2, fun _ j => fin (4 * j)⟩ (Mat.one (fin 1)) (Mat.one (fin 1)) (Mat.one (fin 2))).map
      (fun l => l.map (fun m => [m.get 0 0, m.get 0 1])) = .ok [[fin 1, fin 3], [fin (1 / 2), fin 2]] := by decide +kernel

end Proadv.Props
