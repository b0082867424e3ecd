import Verif.Model.KalmanNd
import Verif.Props.KalmanMat

/-!
# C194: `kalman_filter` with scalar, 1-D and 2-D arguments
-/

set_option linter.unusedSectionVars false

namespace Proadv.Props

open Proadv Proadv.Series Fl

section shapes
variable {F : Type} [PyNum F]

private theorem bop_d2 (f : F → F → F) (a b : Mat F) : (Nd.d2 a).bop f (.d2 b) = (a.bop f b).map Nd.d2 := by
  unfold Nd.bop
  simp only [Nd.up, Nd.ndim]
  cases a.bop f b <;> rfl

private theorem bop_up2 (f : F → F → F) (a : Nd F) (b : Mat F) : a.bop f (.d2 b) = (a.up.bop f b).map Nd.d2 := by
  unfold Nd.bop
  simp only [Nd.up, Nd.ndim]
  cases a with
  | d0 v => cases (Nd.d0 v).up.bop f b <;> rfl
  | d1 n g => cases (Nd.d1 n g).up.bop f b <;> rfl
  | d2 m => cases (Nd.d2 m).up.bop f b <;> rfl

private theorem dot_d2 (a b : Mat F) : (Nd.d2 a).dot (.d2 b) = (a.dot b).map Nd.d2 := by
  show (a.dot b >>= fun c => .ok (Nd.d2 c)) = _
  cases a.dot b <;> rfl

private theorem map_bind {α β γ : Type} (x : Py α) (f : α → β) (g : β → Py γ) : (x.map f >>= g) = (x >>= fun a => g (f a)) := by
  cases x <;> rfl

private theorem bind_map {α β γ : Type} (x : Py α) (g : α → Py β) (f : β → γ) : (x >>= g).map f = (x >>= fun a => (g a).map f) := by
  cases x <;> rfl

private theorem step_d2 (inv : Mat F → Py (Mat F)) (q r x p : Mat F) (z : Nd F) :
    kalmanNdStep inv (.d2 q) (.d2 r) (.d2 x, .d2 p) z =
      (kalmanMatStep inv q r (x, p) z.up).map (fun s => (Nd.d2 s.1, Nd.d2 s.2)) := by
  unfold kalmanNdStep kalmanMatStep
  have ht : (Mat.one (lit 1) : Mat F).tr = Mat.one (lit 1) := rfl
  have hi : ∀ m : Mat F, (Nd.d2 m).inv inv = (inv m).map Nd.d2 := by
    intro m
    show (inv m >>= fun i => .ok (Nd.d2 i)) = _
    cases inv m <;> rfl
  simp only [dot_d2, bop_up2, hi, map_bind, bind_map, ht, Nd.up, Nd.len]
  rfl

/-- **C194** when the initial state, covariance and noises are 2-D arrays the filter is the one of C138, for scalar and row measurements
alike, in every float arithmetic. -/
theorem C194_two_dimensional (inv : Mat F → Py (Mat F)) (zs : List (Nd F)) (x p q r : Mat F) :
    kalmanNd inv zs (.d2 x) (.d2 p) (.d2 q) (.d2 r) = (kalmanMat inv (zs.map Nd.up) x p q r).map (fun l => l.map Nd.d2) := by
  have key : ∀ (zs : List (Nd F)) (x p : Mat F), kalmanNdLoop inv (.d2 q) (.d2 r) (.d2 x, .d2 p) zs =
      (kalmanMatLoop inv q r (x, p) (zs.map Nd.up)).map (fun l => l.map (fun s => (Nd.d2 s.1, Nd.d2 s.2))) := by
    intro zs
    induction zs with
    | nil => intro x p; rfl
    | cons z t ih =>
      intro x p
      simp only [List.map_cons, kalmanNdLoop, kalmanMatLoop, step_d2, map_bind, bind_map]
      cases kalmanMatStep inv q r (x, p) z.up with
      | error e => rfl
      | ok s =>
        show (kalmanNdLoop inv (.d2 q) (.d2 r) (.d2 s.1, .d2 s.2) t >>= _) = (kalmanMatLoop inv q r s (t.map Nd.up) >>= _)
        rw [ih s.1 s.2, map_bind]
        rfl
  unfold kalmanNd kalmanMat
  rw [key, map_bind, bind_map]
  cases kalmanMatLoop inv q r (x, p) (zs.map Nd.up) with
  | error e => rfl
  | ok l => simp [bind, Except.bind, Except.map, Function.comp_def]

/-- **C194** a 1-D initial state or covariance of a length other than 1 is a ValueError as soon as there is a measurement, whatever the
other arguments. -/
theorem C194_rejects (inv : Mat F → Py (Mat F)) (z : Nd F) (zs : List (Nd F)) (x p q r : Nd F) (n : Nat) (f : Nat → F) (hn : n ≠ 1) :
    kalmanNd inv (z :: zs) (.d1 n f) p q r = .error .valueError ∧ kalmanNd inv (z :: zs) x (.d1 n f) q r = .error .valueError := by
  have hd : (Nd.d2 (Mat.one (lit 1)) : Nd F).dot (.d1 n f) = .error .valueError := by
    show (if 1 = n then _ else _) = _
    rw [if_neg (Ne.symm hn)]
  have hx : ∀ x : Nd F, (∃ y, (Nd.d2 (Mat.one (lit 1)) : Nd F).dot x = .ok y) ∨ (Nd.d2 (Mat.one (lit 1)) : Nd F).dot x = .error .valueError := by
    intro x
    cases x with
    | d0 v => exact Or.inl ⟨_, rfl⟩
    | d1 k g =>
      by_cases h : 1 = k
      · exact Or.inl ⟨_, if_pos h⟩
      · exact Or.inr (if_neg h)
    | d2 m =>
      rw [dot_d2]
      unfold Mat.dot
      by_cases h : (Mat.one (lit 1) : Mat F).cols = m.rows
      · rw [if_pos h]; exact Or.inl ⟨_, rfl⟩
      · rw [if_neg h]; exact Or.inr rfl
  constructor
  · simp only [kalmanNd, kalmanNdLoop, kalmanNdStep, hd, bind, Except.bind]
  · rcases hx x with ⟨y, hy⟩ | hy
    · simp only [kalmanNd, kalmanNdLoop, kalmanNdStep, hd, hy, bind, Except.bind]
    · simp only [kalmanNd, kalmanNdLoop, kalmanNdStep, hy, bind, Except.bind]

/-! ### Which errors can occur -/

private def NoType {α : Type} (x : Py α) : Prop := x ≠ .error .typeError

private theorem noType_bind {α β : Type} {x : Py α} {f : α → Py β} (hx : NoType x) (hf : ∀ a, x = .ok a → NoType (f a)) :
    NoType (x >>= f) := by
  cases x with
  | error e => exact fun h => hx (by simpa [bind, Except.bind] using h)
  | ok a => exact hf a rfl

private theorem noType_dot (a b : Nd F) : NoType (a.dot b) := by
  cases a <;> cases b <;> unfold NoType Nd.dot <;> simp only [bind, Except.bind, Mat.dot, ne_eq]
  all_goals first
    | (intro h; cases h)
    | (split_ifs <;> simp)

private theorem noType_bop (f : F → F → F) (a b : Nd F) : NoType (a.bop f b) := by
  have hb : ∀ m n, NoType (bdim m n) := by
    intro m n
    unfold NoType bdim
    split_ifs <;> simp
  exact noType_bind (noType_bind (hb _ _) fun _ _ => noType_bind (hb _ _) fun _ _ => by simp [NoType]) fun _ _ => by simp [NoType]

/-- `one.dot x` has at least one dimension -/
private theorem one_dot_ndim (x y : Nd F) (h : (Nd.d2 (Mat.one (lit 1)) : Nd F).dot x = .ok y) : 1 ≤ y.ndim := by
  cases x with
  | d0 v => cases h; exact (by decide : 1 ≤ 2)
  | d1 n f =>
    have h : (if 1 = n then _ else _) = _ := h
    split_ifs at h
    cases h; exact le_rfl
  | d2 m =>
    rw [dot_d2] at h
    cases hm : (Mat.one (lit 1) : Mat F).dot m with
    | error e => rw [hm] at h; cases h
    | ok c => rw [hm] at h; cases h; exact (by decide : 1 ≤ 2)

private theorem bop_ndim (f : F → F → F) (a b c : Nd F) (h : a.bop f b = .ok c) (ha : a.ndim ≤ 2) (hb : b.ndim ≤ 2) :
    c.ndim = Max.max a.ndim b.ndim := by
  unfold Nd.bop at h
  cases hm : a.up.bop f b.up with
  | error e => rw [hm] at h; cases h
  | ok m =>
    rw [hm] at h
    cases h
    have : ∀ n ≤ 2, (Nd.down n m).ndim = n := by
      intro n hn
      match n, hn with
      | 0, _ => rfl
      | 1, _ => rfl
      | 2, _ => rfl
    exact this _ (by omega)

private theorem ndim_le (a : Nd F) : a.ndim ≤ 2 := by cases a <;> simp [Nd.ndim]

/-- **C194** the filter never asks for the length of a scalar: whatever the arguments, no TypeError occurs unless `np.linalg.inv` raises
one -/
theorem C194_no_type_error (inv : Mat F → Py (Mat F)) (hinv : ∀ m, inv m ≠ .error .typeError) (zs : List (Nd F)) (x p q r : Nd F) :
    kalmanNd inv zs x p q r ≠ .error .typeError := by
  have hi : ∀ s : Nd F, NoType (s.inv inv) := by
    intro s
    cases s with
    | d0 v => simp [NoType, Nd.inv]
    | d1 n f => simp [NoType, Nd.inv]
    | d2 m => exact noType_bind (hinv m) (fun a _ => by simp [NoType])
  have step : ∀ (st : Nd F × Nd F) (z : Nd F), NoType (kalmanNdStep inv q r st z) := by
    intro st z
    unfold kalmanNdStep
    refine noType_bind (noType_dot _ _) fun s hs => ?_
    refine noType_bind (noType_dot _ _) fun _ _ => ?_
    refine noType_bind (noType_dot _ _) fun _ _ => ?_
    refine noType_bind (noType_bop _ _ _) fun _ _ => ?_
    refine noType_bind (noType_dot _ _) fun _ _ => ?_
    refine noType_bind (noType_dot _ _) fun _ _ => ?_
    refine noType_bind (noType_dot _ _) fun _ _ => ?_
    refine noType_bind (noType_bop _ _ _) fun _ _ => ?_
    refine noType_bind (hi _) fun _ _ => ?_
    refine noType_bind (noType_dot _ _) fun _ _ => ?_
    refine noType_bind (noType_dot _ _) fun _ _ => ?_
    refine noType_bind (noType_bop _ _ _) fun _ _ => ?_
    refine noType_bind (noType_dot _ _) fun _ _ => ?_
    refine noType_bind (noType_bop _ _ _) fun y hy => ?_
    have h1 := one_dot_ndim _ _ hs
    have h2 := bop_ndim _ _ _ _ hy (ndim_le _) (ndim_le _)
    refine noType_bind ?_ fun _ _ => ?_
    · cases y with
      | d0 v => exact absurd (h2 ▸ le_max_of_le_left h1 : 1 ≤ (Nd.d0 v).ndim) (by simp [Nd.ndim])
      | d1 n f => simp [NoType, Nd.len]
      | d2 m => simp [NoType, Nd.len]
    refine noType_bind (noType_dot _ _) fun _ _ => ?_
    refine noType_bind (noType_bop _ _ _) fun _ _ => ?_
    refine noType_bind (noType_dot _ _) fun _ _ => ?_
    simp [NoType]
  have loop : ∀ (zs : List (Nd F)) (st : Nd F × Nd F), NoType (kalmanNdLoop inv q r st zs) := by
    intro zs
    induction zs with
    | nil => intro st; simp [NoType, kalmanNdLoop]
    | cons z t ih =>
      intro st
      exact noType_bind (step st z) fun _ _ => noType_bind (ih _) fun _ _ => by simp [NoType]
  exact noType_bind (loop zs (x, p)) fun _ _ => by simp [NoType]

end shapes

section values
variable {K : Type} [Field K] [LinearOrder K] [IsStrictOrderedRing K] [FloorRing K]

/-- an array of `d` dimensions holding the single number `v` -/
def Holds (d : Nat) (v : Fl K) : Nd (Fl K) → Prop
  | .d0 w => d = 0 ∧ w = v
  | .d1 n f => d = 1 ∧ n = 1 ∧ f 0 = v
  | .d2 m => d = 2 ∧ m.rows = 1 ∧ m.cols = 1 ∧ m.get 0 0 = v

/-- dimensions of `np.dot` -/
private def dotDim : Nat → Nat → Nat
  | 0, b => b
  | a, 0 => a
  | 1, 1 => 0
  | 2, 1 => 1
  | 1, 2 => 1
  | _, _ => 2

private theorem sum_one' (x : Fl K) : PyNum.sum [x] = x := by
  show Fl.add (fin 0) x = x
  cases x <;> simp [Fl.add]

private theorem dot_holds {a b : Nat} {u v : Fl K} {A B : Nd (Fl K)} (hA : Holds a u A) (hB : Holds b v B) :
    ∃ C, A.dot B = .ok C ∧ Holds (dotDim a b) (u *. v) C := by
  cases A with
  | d0 w =>
    obtain ⟨rfl, rfl⟩ := hA
    cases B with
    | d0 w' => obtain ⟨rfl, rfl⟩ := hB; exact ⟨_, rfl, rfl, rfl⟩
    | d1 n f => obtain ⟨rfl, rfl, rfl⟩ := hB; exact ⟨_, rfl, rfl, rfl, rfl⟩
    | d2 m => obtain ⟨rfl, h1, h2, rfl⟩ := hB; exact ⟨_, rfl, rfl, h1, h2, rfl⟩
  | d1 n f =>
    obtain ⟨rfl, rfl, rfl⟩ := hA
    cases B with
    | d0 w' => obtain ⟨rfl, rfl⟩ := hB; exact ⟨_, rfl, rfl, rfl, rfl⟩
    | d1 n g => obtain ⟨rfl, rfl, rfl⟩ := hB; exact ⟨.d0 (PyNum.sum [f 0 *. g 0]), rfl, rfl, sum_one' _⟩
    | d2 m =>
      obtain ⟨rfl, h1, h2, rfl⟩ := hB
      refine ⟨_, if_pos h1.symm, rfl, h2, sum_one' _⟩
  | d2 m =>
    obtain ⟨rfl, h1, h2, rfl⟩ := hA
    cases B with
    | d0 w' => obtain ⟨rfl, rfl⟩ := hB; exact ⟨_, rfl, rfl, h1, h2, rfl⟩
    | d1 n g => obtain ⟨rfl, rfl, rfl⟩ := hB; exact ⟨_, if_pos h2, rfl, h1, sum_one' _⟩
    | d2 k =>
      obtain ⟨rfl, h3, h4, rfl⟩ := hB
      refine ⟨.d2 (m.mul k), ?_, rfl, h1, h4, ?_⟩
      · rw [dot_d2]; unfold Mat.dot; rw [if_pos (h2.trans h3.symm)]; rfl
      · show PyNum.sum ((List.range m.cols).map _) = _
        rw [h2]; exact sum_one' _

private theorem up_holds {a : Nat} {u : Fl K} {A : Nd (Fl K)} (hA : Holds a u A) :
    A.ndim = a ∧ A.up.rows = 1 ∧ A.up.cols = 1 ∧ A.up.get 0 0 = u ∧ a ≤ 2 := by
  cases A with
  | d0 w => obtain ⟨rfl, rfl⟩ := hA; exact ⟨rfl, rfl, rfl, rfl, by norm_num⟩
  | d1 n f => obtain ⟨rfl, rfl, rfl⟩ := hA; exact ⟨rfl, rfl, rfl, rfl, by norm_num⟩
  | d2 m => obtain ⟨rfl, h1, h2, rfl⟩ := hA; exact ⟨rfl, h1, h2, rfl, le_refl _⟩

private theorem bop_holds (f : Fl K → Fl K → Fl K) {a b : Nat} {u v : Fl K} {A B : Nd (Fl K)} (hA : Holds a u A) (hB : Holds b v B) :
    ∃ C, A.bop f B = .ok C ∧ Holds (Max.max a b) (f u v) C := by
  obtain ⟨ha, ha1, ha2, ha3, ha4⟩ := up_holds hA
  obtain ⟨hb, hb1, hb2, hb3, hb4⟩ := up_holds hB
  have hm : A.up.bop f B.up = .ok ⟨1, 1, fun i j => f (A.up.bget i j) (B.up.bget i j)⟩ := by
    unfold Mat.bop
    rw [ha1, ha2, hb1, hb2]
    rfl
  refine ⟨Nd.down (Max.max a b) ⟨1, 1, fun i j => f (A.up.bget i j) (B.up.bget i j)⟩, ?_, ?_⟩
  · unfold Nd.bop; rw [hm, ha, hb]; rfl
  · have hv : f (A.up.bget 0 0) (B.up.bget 0 0) = f u v := by
      unfold Mat.bget
      simp only [ite_self, ha3, hb3]
    have hc : Max.max a b = 0 ∨ Max.max a b = 1 ∨ Max.max a b = 2 := by
      rcases Nat.le_total a b with h | h <;> simp only [Nat.max_eq_right, Nat.max_eq_left, h] <;> omega
    rcases hc with h | h | h <;> rw [h]
    · exact ⟨rfl, hv⟩
    · exact ⟨rfl, rfl, hv⟩
    · exact ⟨rfl, rfl, rfl, hv⟩

private theorem one_holds (v : Fl K) : Holds 2 v (.d2 (Mat.one v)) := ⟨rfl, rfl, rfl, rfl⟩

/-- dimensions of the predicted covariance: one only for a 1-D covariance with scalar or 1-D process noise -/
def covDim (b c : Nat) : Nat := if b = 1 ∧ c ≤ 1 then 1 else 2

private theorem covDim_eq {b c : Nat} (hb : b ≤ 2) (hc : c ≤ 2) : Max.max (dotDim (dotDim 2 b) 2) c = covDim b c := by
  have : ∀ b ≤ 2, ∀ c ≤ 2, Max.max (dotDim (dotDim 2 b) 2) c = covDim b c := by decide
  exact this b hb c hc

private theorem step_holds (inv : Mat (Fl K) → Py (Mat (Fl K))) (hinv : InvContract inv) {a b c d : Nat} {x p q r z : Fl K}
    {X P Q R : Nd (Fl K)} (hX : Holds a x X) (hP : Holds b p P) (hQ : Holds c q Q) (hR : Holds d r R) :
    (b = 1 ∧ c ≤ 1 ∧ d ≤ 1 → kalmanNdStep inv Q R (X, P) (.d0 z) = .error .linAlgError) ∧
    (¬ (b = 1 ∧ c ≤ 1 ∧ d ≤ 1) → (kalmanStep q r (x, p) z = .error .linAlgError ∧
        kalmanNdStep inv Q R (X, P) (.d0 z) = .error .linAlgError) ∨
      ∃ x' p' X' P', kalmanStep q r (x, p) z = .ok (x', p') ∧ kalmanNdStep inv Q R (X, P) (.d0 z) = .ok (X', P') ∧
        Holds (if a = 1 then 1 else 2) x' X' ∧ Holds (covDim b c) p' P') := by
  obtain ⟨-, -, -, -, ha⟩ := up_holds hX
  obtain ⟨-, -, -, -, hb⟩ := up_holds hP
  obtain ⟨-, -, -, -, hc⟩ := up_holds hQ
  obtain ⟨-, -, -, -, hd⟩ := up_holds hR
  obtain ⟨S1, e1, H1⟩ := dot_holds (one_holds (lit 1)) hX
  obtain ⟨S2, e2, H2⟩ := dot_holds (one_holds (lit 1)) hP
  obtain ⟨S3, e3, H3⟩ := dot_holds H2 (one_holds (lit 1))
  obtain ⟨S4, e4, H4⟩ := bop_holds (fun u v => u +. v) H3 hQ
  rw [covDim_eq hb hc] at H4
  obtain ⟨S5, e5, H5⟩ := dot_holds H4 (one_holds (lit 1))
  obtain ⟨S6, e6, H6⟩ := dot_holds (one_holds (lit 1)) H4
  obtain ⟨S7, e7, H7⟩ := dot_holds H6 (one_holds (lit 1))
  obtain ⟨S8, e8, H8⟩ := bop_holds (fun u v => u +. v) H7 hR
  set sv := lit 1 *. (lit 1 *. p *. lit 1 +. q) *. lit 1 +. r with hsv
  have hdim : ∀ b ≤ 2, ∀ c ≤ 2, ∀ d ≤ 2, Max.max (dotDim (dotDim 2 (covDim b c)) 2) d = if b = 1 ∧ c ≤ 1 ∧ d ≤ 1 then 1 else 2 := by
    decide
  rw [hdim b hb c hc d hd] at H8
  constructor
  · intro h
    rw [if_pos h] at H8
    have e9 : S8.inv inv = .error .linAlgError := by
      cases S8 with
      | d0 w => rfl
      | d1 n f => rfl
      | d2 m => exact absurd H8.1 (by norm_num)
    unfold kalmanNdStep
    simp only [e1, e2, e3, e4, e5, e6, e7, e8, e9, bind, Except.bind]
  · intro h
    rw [if_neg h] at H8
    have e9 : S8.inv inv = (inv1 sv).map (fun i => Nd.d2 (Mat.one i)) := by
      cases S8 with
      | d0 w => exact absurd H8.1 (by norm_num)
      | d1 n f => exact absurd H8.1 (by norm_num)
      | d2 m =>
        obtain ⟨-, h1, h2, h3⟩ := H8
        show (inv m >>= fun i => .ok (Nd.d2 i)) = _
        rw [hinv.one m h1 h2, h3]
        cases inv1 sv <;> rfl
    have hk : kalmanStep q r (x, p) z = (inv1 sv >>= fun i =>
        .ok (lit 1 *. x +. ((lit 1 *. p *. lit 1 +. q) *. lit 1) *. i *. (z -. lit 1 *. (lit 1 *. x)),
          (lit 1 -. ((lit 1 *. p *. lit 1 +. q) *. lit 1) *. i *. lit 1) *. (lit 1 *. p *. lit 1 +. q))) := rfl
    cases hi : inv1 sv with
    | error e =>
      have he : e = .linAlgError := by
        unfold inv1 at hi
        split_ifs at hi
        exact (Except.error.inj hi).symm
      subst he
      left
      constructor
      · rw [hk, hi]; rfl
      · unfold kalmanNdStep
        simp only [e1, e2, e3, e4, e5, e6, e7, e8, e9, hi, bind, Except.bind, Except.map]
    | ok i =>
      right
      rw [hi] at e9
      obtain ⟨S10, e10, H10⟩ := dot_holds H5 (one_holds i)
      obtain ⟨S11, e11, H11⟩ := dot_holds (one_holds (lit 1)) H1
      obtain ⟨S12, e12, H12⟩ := bop_holds (fun u v => u -. v) (show Holds 0 z (.d0 z) from ⟨rfl, rfl⟩) H11
      obtain ⟨S13, e13, H13⟩ := dot_holds H10 H12
      obtain ⟨S14, e14, H14⟩ := bop_holds (fun u v => u +. v) H1 H13
      have hl : S14.len = .ok 1 := by
        cases S14 with
        | d0 w =>
          exfalso
          have := H14.1
          have hne : ∀ a ≤ 2, ∀ e ≤ 2, Max.max (dotDim 2 a) e ≠ 0 := by decide
          obtain ⟨-, -, -, -, h13⟩ := up_holds H13
          exact hne a ha _ h13 this
        | d1 n f => obtain ⟨-, rfl, -⟩ := H14; rfl
        | d2 m => obtain ⟨-, h1, -⟩ := H14; show Except.ok m.rows = _; rw [h1]
      obtain ⟨S15, e15, H15⟩ := dot_holds H10 (one_holds (lit 1))
      obtain ⟨S16, e16, H16⟩ := bop_holds (fun u v => u -. v)
        (show Holds 2 (lit 1) (Nd.d2 (Mat.eye 1) : Nd (Fl K)) from ⟨rfl, rfl, rfl, rfl⟩) H15
      obtain ⟨S17, e17, H17⟩ := dot_holds H16 H4
      refine ⟨_, _, S14, S17, by rw [hk, hi]; rfl, ?_, ?_, ?_⟩
      · unfold kalmanNdStep
        simp only [e1, e2, e3, e4, e5, e6, e7, e8, e9, e10, e11, e12, e13, e14, hl, e15, e16, e17, bind, Except.bind, Except.map]
      · have hd : ∀ a ≤ 2, ∀ b ≤ 2, ∀ c ≤ 2, Max.max (dotDim 2 a)
            (dotDim (dotDim (dotDim (covDim b c) 2) 2) (Max.max 0 (dotDim 2 (dotDim 2 a)))) = if a = 1 then 1 else 2 := by decide
        rw [hd a ha b hb c hc] at H14
        exact H14
      · have hd : ∀ b ≤ 2, ∀ c ≤ 2, dotDim (Max.max 2 (dotDim (dotDim (dotDim (covDim b c) 2) 2) 2)) (covDim b c) = covDim b c := by
          decide
        rw [hd b hb c hc] at H17
        exact H17

/-- **C194** with one-element arguments of any dimensions `a`, `b`, `c`, `d` (0 to 2: numbers, `np.array([v])`, `np.array([[v]])`) and at
least one measurement, `kalman_filter` raises LinAlgError when covariance is 1-D and both noises have at most one dimension; otherwise it
gives exactly the estimates of the 1×1 filter (or its LinAlgError), as 1-D arrays for a 1-D initial state and 2-D arrays else. -/
theorem C194_scalars (inv : Mat (Fl K) → Py (Mat (Fl K))) (hinv : InvContract inv) {a b c d : Nat} {x p q r : Fl K}
    {X P Q R : Nd (Fl K)} (hX : Holds a x X) (hP : Holds b p P) (hQ : Holds c q Q) (hR : Holds d r R) (z : Fl K) (zs : List (Fl K)) :
    (b = 1 ∧ c ≤ 1 ∧ d ≤ 1 → kalmanNd inv ((z :: zs).map Nd.d0) X P Q R = .error .linAlgError) ∧
    (¬ (b = 1 ∧ c ≤ 1 ∧ d ≤ 1) → (kalmanFilter (z :: zs) x p q r = .error .linAlgError ∧
        kalmanNd inv ((z :: zs).map Nd.d0) X P Q R = .error .linAlgError) ∨
      ∃ ys out, kalmanFilter (z :: zs) x p q r = .ok ys ∧ kalmanNd inv ((z :: zs).map Nd.d0) X P Q R = .ok out ∧
        List.Forall₂ (Holds (if a = 1 then 1 else 2)) ys out) := by
  constructor
  · intro h
    unfold kalmanNd
    simp only [List.map_cons, kalmanNdLoop, (step_holds inv hinv (z := z) hX hP hQ hR).1 h, bind, Except.bind]
  · have key : ∀ (zs : List (Fl K)) (a b : Nat) (x p : Fl K) (X P : Nd (Fl K)), Holds a x X → Holds b p P → ¬ (b = 1 ∧ c ≤ 1 ∧ d ≤ 1) →
        (kalmanLoop q r (x, p) zs = .error .linAlgError ∧ kalmanNdLoop inv Q R (X, P) (zs.map Nd.d0) = .error .linAlgError) ∨
        ∃ ys out, kalmanLoop q r (x, p) zs = .ok ys ∧ kalmanNdLoop inv Q R (X, P) (zs.map Nd.d0) = .ok out ∧
          List.Forall₂ (Holds (if a = 1 then 1 else 2)) (ys.map Prod.fst) (out.map Prod.fst) := by
      intro zs
      induction zs with
      | nil => intro a b x p X P _ _ _; exact Or.inr ⟨[], [], rfl, rfl, List.Forall₂.nil⟩
      | cons z t ih =>
        intro a b x p X P hX hP hn
        rcases (step_holds inv hinv (z := z) hX hP hQ hR).2 hn with ⟨h1, h2⟩ | ⟨x', p', X', P', h1, h2, h3, h4⟩
        · left
          simp only [List.map_cons, kalmanLoop, kalmanNdLoop, h1, h2, bind, Except.bind, and_self]
        · have hn' : ¬ (covDim b c = 1 ∧ c ≤ 1 ∧ d ≤ 1) := by
            rintro ⟨h5, h6, h7⟩
            unfold covDim at h5
            split_ifs at h5 with h8
            · exact hn ⟨h8.1, h6, h7⟩
            · omega
          have hi := ih _ _ x' p' X' P' h3 h4 hn'
          rw [show (if (if a = 1 then 1 else 2) = 1 then 1 else 2) = (if a = 1 then 1 else 2) by by_cases h : a = 1 <;> simp [h]] at hi
          rcases hi with ⟨i1, i2⟩ | ⟨ys, out, i1, i2, i3⟩
          · left
            simp only [List.map_cons, kalmanLoop, kalmanNdLoop, h1, h2, i1, i2, bind, Except.bind, and_self]
          · right
            refine ⟨(x', p') :: ys, (X', P') :: out, ?_, ?_, List.Forall₂.cons h3 i3⟩
            · simp only [kalmanLoop, h1, i1, bind, Except.bind]
            · simp only [List.map_cons, kalmanNdLoop, h2, i2, bind, Except.bind]
    intro h
    rcases key (z :: zs) a b x p X P hX hP h with ⟨h1, h2⟩ | ⟨ys, out, h1, h2, h3⟩
    · left
      unfold kalmanFilter kalmanNd
      rw [h1, h2]
      exact ⟨rfl, rfl⟩
    · right
      refine ⟨ys.map Prod.fst, out.map Prod.fst, ?_, ?_, h3⟩
      · unfold kalmanFilter; rw [h1]; rfl
      · unfold kalmanNd; rw [h2]; rfl

/-- **C194** with a 1-D one-element state and covariance, a 2-D one-element measurement noise, and process noise of at most one
dimension, a row of any number of components but one is a ValueError (unless the innovation covariance vanishes: LinAlgError) -/
theorem C194_rows_rejected (inv : Mat (Fl K) → Py (Mat (Fl K))) (hinv : InvContract inv) {c : Nat} {x p q r : Fl K}
    {X P Q R : Nd (Fl K)} (hX : Holds 1 x X) (hP : Holds 1 p P) (hQ : Holds c q Q) (hc1 : c ≤ 1) (hR : Holds 2 r R) (k : Nat)
    (f : Nat → Fl K) (hk : k ≠ 1) (zs : List (Nd (Fl K))) :
    kalmanNd inv (.d1 k f :: zs) X P Q R =
      .error (if (lit 1 *. (lit 1 *. p *. lit 1 +. q) *. lit 1 +. r ==. lit 0) then .linAlgError else .valueError) := by
  have hc : c ≤ 2 := by omega
  obtain ⟨S1, e1, H1⟩ := dot_holds (one_holds (lit 1)) hX
  obtain ⟨S2, e2, H2⟩ := dot_holds (one_holds (lit 1)) hP
  obtain ⟨S3, e3, H3⟩ := dot_holds H2 (one_holds (lit 1))
  obtain ⟨S4, e4, H4⟩ := bop_holds (fun u v => u +. v) H3 hQ
  rw [covDim_eq (by norm_num) hc] at H4
  obtain ⟨S5, e5, H5⟩ := dot_holds H4 (one_holds (lit 1))
  obtain ⟨S6, e6, H6⟩ := dot_holds (one_holds (lit 1)) H4
  obtain ⟨S7, e7, H7⟩ := dot_holds H6 (one_holds (lit 1))
  obtain ⟨S8, e8, H8⟩ := bop_holds (fun u v => u +. v) H7 hR
  set sv := lit 1 *. (lit 1 *. p *. lit 1 +. q) *. lit 1 +. r with hsv
  have hcov : covDim 1 c = 1 := by unfold covDim; rw [if_pos ⟨rfl, hc1⟩]
  rw [hcov] at H4 H5 H6 H7 H8
  have e9 : S8.inv inv = (inv1 sv).map (fun i => Nd.d2 (Mat.one i)) := by
    cases S8 with
    | d0 w => exact absurd H8.1 (by decide)
    | d1 n f => exact absurd H8.1 (by decide)
    | d2 m =>
      obtain ⟨-, h1, h2, h3⟩ := H8
      show (inv m >>= fun i => .ok (Nd.d2 i)) = _
      rw [hinv.one m h1 h2, h3]
      cases inv1 sv <;> rfl
  by_cases hz : (sv ==. lit 0) = true
  · rw [if_pos hz]
    have hi : inv1 sv = .error .linAlgError := if_pos hz
    simp only [kalmanNd, kalmanNdLoop, kalmanNdStep, e1, e2, e3, e4, e5, e6, e7, e8, e9, hi, bind, Except.bind, Except.map]
  · rw [if_neg hz]
    have hi : inv1 sv = .ok (lit 1 /. sv) := if_neg hz
    obtain ⟨S10, e10, H10⟩ := dot_holds H5 (one_holds (lit 1 /. sv))
    obtain ⟨S11, e11, H11⟩ := dot_holds (one_holds (lit 1)) H1
    -- gain and prediction are 1-D with one element
    cases S10 with
    | d0 w => exact absurd H10.1 (by decide)
    | d2 m => exact absurd H10.1 (by decide)
    | d1 n g =>
    obtain ⟨-, rfl, -⟩ := H10
    cases S11 with
    | d0 w => exact absurd H11.1 (by decide)
    | d2 m => exact absurd H11.1 (by decide)
    | d1 n' g' =>
    obtain ⟨-, rfl, -⟩ := H11
    -- the difference has `k` components
    have e12 : ∃ h, (Nd.d1 k f).bop (fun u v => u -. v) (.d1 1 g') = .ok (.d1 k h) := by
      refine ⟨fun j => (Nd.d1 k f).up.bget 0 j -. (Nd.d1 1 g').up.bget 0 j, ?_⟩
      unfold Nd.bop
      have : (Nd.d1 k f).up.bop (fun u v => u -. v) (Nd.d1 1 g').up =
          .ok ⟨1, k, fun i j => (Nd.d1 k f).up.bget i j -. (Nd.d1 1 g').up.bget i j⟩ := by
        have hb : bdim k 1 = .ok k := by unfold bdim; rw [if_neg hk, if_pos rfl]; split_ifs <;> simp_all
        show (bdim 1 1 >>= fun r => bdim k 1 >>= fun c => _) = _
        rw [hb]; rfl
      rw [this]; rfl
    obtain ⟨h, e12⟩ := e12
    have e13 : (Nd.d1 1 g : Nd (Fl K)).dot (.d1 k h) = .error .valueError := if_neg (Ne.symm hk)
    simp only [kalmanNd, kalmanNdLoop, kalmanNdStep, e1, e2, e3, e4, e5, e6, e7, e8, e9, hi, e10, e11, e12, e13, bind, Except.bind,
      Except.map]

/-- the hypotheses of `C194_rows_rejected` are met by `np.array([0.])`, `np.array([1.])`, 1 and `np.array([[1.]])` -/
example : Holds 1 (fin (0 : ℚ)) (.d1 1 fun _ => fin 0) ∧ Holds 0 (fin (1 : ℚ)) (.d0 (fin 1)) ∧
    Holds 2 (fin (1 : ℚ)) (.d2 (Mat.one (fin 1))) := ⟨⟨rfl, rfl, rfl⟩, ⟨rfl, rfl⟩, ⟨rfl, rfl, rfl, rfl⟩⟩

end values

/-- plain numbers as arguments: the filter of the docstring -/
example : (kalmanNd (fun m : Mat (Fl ℚ) => (inv1 (m.get 0 0)).map Mat.one) [.d0 (fin 3), .d0 (fin 0)] (.d0 (fin 0)) (.d0 (fin 1))
    (.d0 (fin 1)) (.d0 (fin 1))).map (fun l => l.map (fun y => (y.ndim, y.up.get 0 0))) =
      .ok [(2, fin 2), (2, fin (3 / 4))] := by decide +kernel

/-- 1-D arrays throughout are rejected; a 2-D measurement noise makes them acceptable -/
example : (kalmanNd (fun m : Mat (Fl ℚ) => (inv1 (m.get 0 0)).map Mat.one) [.d0 (fin 3)] (.d1 1 fun _ => fin 0) (.d1 1 fun _ => fin 1)
    (.d1 1 fun _ => fin 1) (.d1 1 fun _ => fin 1)).map (fun l => l.length) = .error .linAlgError ∧
    (kalmanNd (fun m : Mat (Fl ℚ) => (inv1 (m.get 0 0)).map Mat.one) [.d0 (fin 3)] (.d1 1 fun _ => fin 0) (.d1 1 fun _ => fin 1)
    (.d1 1 fun _ => fin 1) (.d2 (Mat.one (fin 1)))).map (fun l => l.map (fun y => (y.ndim, y.up.get 0 0))) = .ok [(1, fin 2)] := by
  decide +kernel

end Proadv.Props
