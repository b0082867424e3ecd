import Verif.Py.Array

/-! # Index assignment and monadic folds -/

namespace Proadv

variable {α β F : Type}

theorem pyIdx_lt {n : Nat} {i : Int} {k : Nat} (h : pyIdx n i = some k) : k < n := by
  unfold pyIdx at h
  split_ifs at h <;> cases h <;> omega

theorem pyIdx_nat {n i : Nat} (h : i < n) : pyIdx n (i : Int) = some i := by simp [pyIdx, h]

theorem pyIdx_nat_some {n i k : Nat} (h : pyIdx n (i : Int) = some k) : k = i := by
  unfold pyIdx at h
  split_ifs at h <;> cases h <;> omega

theorem getIdx_ok {l : List α} {i : Int} {x : α} :
    getIdx l i = .ok x ↔ ∃ k, pyIdx l.length i = some k ∧ l[k]? = some x := by
  unfold getIdx
  cases h : pyIdx l.length i with
  | none => simp
  | some k =>
    have := pyIdx_lt h
    simp [List.getElem?_eq_getElem this]

theorem getIdx_nat {l : List α} {i : Nat} {x : α} (h : l[i]? = some x) : getIdx l (i : Int) = .ok x := by
  have hi : i < l.length := by
    by_contra hc; rw [List.getElem?_eq_none (not_lt.mp hc)] at h; cases h
  exact getIdx_ok.mpr ⟨i, pyIdx_nat hi, h⟩

theorem getIdx_error {l : List α} {i : Int} (h : pyIdx l.length i = none) : getIdx l i = .error .indexError := by
  unfold getIdx; rw [h]

theorem setIdx_ok {l l' : List α} {i : Int} {x : α} :
    setIdx l i x = .ok l' ↔ ∃ k, pyIdx l.length i = some k ∧ l' = l.set k x := by
  unfold setIdx
  cases h : pyIdx l.length i with
  | none => simp
  | some k => simp [eq_comm]

theorem foldlM_cons_ok {f : β → α → Py β} {a : α} {l : List α} {b r : β} :
    (a :: l).foldlM f b = .ok r ↔ ∃ b', f b a = .ok b' ∧ l.foldlM f b' = .ok r := by
  rw [List.foldlM_cons]
  simp only [bind, Except.bind]
  cases h : f b a with
  | error e => simp
  | ok b' => simp

theorem foldlM_inv {f : β → α → Py β} (P : β → Prop) {l : List α} :
    ∀ {b r : β}, (∀ a ∈ l, ∀ b b', P b → f b a = .ok b' → P b') → P b → l.foldlM f b = .ok r → P r := by
  induction l with
  | nil => intro b r _ hb h; cases h; exact hb
  | cons a t ih =>
    intro b r hf hb h
    obtain ⟨b', h1, h2⟩ := foldlM_cons_ok.mp h
    exact ih (fun a' ha' => hf a' (by simp [ha'])) (hf a (by simp) b b' hb h1) h2

/-- if every step succeeds on states satisfying the invariant, the fold succeeds -/
theorem foldlM_total {f : β → α → Py β} (P : β → Prop) {l : List α} :
    ∀ {b : β}, (∀ a ∈ l, ∀ b, P b → ∃ b', f b a = .ok b' ∧ P b') → P b → ∃ r, l.foldlM f b = .ok r ∧ P r := by
  induction l with
  | nil => intro b _ hb; exact ⟨b, rfl, hb⟩
  | cons a t ih =>
    intro b hf hb
    obtain ⟨b', h1, h2⟩ := hf a (by simp) b hb
    obtain ⟨r, h3, h4⟩ := ih (fun a' ha' => hf a' (by simp [ha'])) h2
    exact ⟨r, foldlM_cons_ok.mpr ⟨b', h1, h3⟩, h4⟩

/-- position `k` of an array of length `n` is addressed by one of the (possibly negative) indices -/
def Hits (n : Nat) (idx : List Int) (k : Nat) : Prop := ∃ i ∈ idx, pyIdx n i = some k

theorem hits_nat {n : Nat} {sp : List Nat} (h : ∀ i ∈ sp, i < n) (k : Nat) :
    Hits n (sp.map (fun i : Nat => (i : Int))) k ↔ k ∈ sp := by
  constructor
  · rintro ⟨i, hi, hk⟩
    obtain ⟨j, hj, rfl⟩ := List.mem_map.mp hi
    rw [pyIdx_nat_some hk]; exact hj
  · intro hk
    exact ⟨k, List.mem_map.mpr ⟨k, hk, rfl⟩, pyIdx_nat (h k hk)⟩

/-- a fold whose steps write only at the addressed position keeps everything else -/
theorem foldlM_frame {f : List α → Int → Py (List α)} {idx : List Int} {l r : List α}
    (hf : ∀ i ∈ idx, ∀ a b, a.length = l.length → f a i = .ok b → ∃ x, setIdx a i x = .ok b)
    (h : idx.foldlM f l = .ok r) : r.length = l.length ∧ ∀ k, ¬ Hits l.length idx k → r[k]? = l[k]? := by
  refine foldlM_inv (fun a => a.length = l.length ∧ ∀ k, ¬ Hits l.length idx k → a[k]? = l[k]?) ?_ ⟨rfl, fun _ _ => rfl⟩ h
  rintro i hi a b ⟨ha, hk⟩ hab
  obtain ⟨x, hx⟩ := hf i hi a b ha hab
  obtain ⟨k, hk', rfl⟩ := setIdx_ok.mp hx
  refine ⟨by simpa using ha, fun m hm => ?_⟩
  rw [List.getElem?_set_ne]
  · exact hk m hm
  · rintro rfl
    exact hm ⟨i, hi, by rw [← ha]; exact hk'⟩

/-- pointwise result of a fold that writes `val k` at every addressed position `k` -/
theorem foldlM_write {f : List α → Int → Py (List α)} {idx : List Int} {l r : List α} (val : Nat → α)
    (hf : ∀ i ∈ idx, ∀ a b, a.length = l.length → f a i = .ok b → ∃ k, pyIdx l.length i = some k ∧ b = a.set k (val k))
    (h : idx.foldlM f l = .ok r) : ∀ k, Hits l.length idx k → r[k]? = some (val k) := by
  have key : ∀ (idx : List Int) (a : List α), a.length = l.length →
      (∀ i ∈ idx, ∀ a b, a.length = l.length → f a i = .ok b → ∃ k, pyIdx l.length i = some k ∧ b = a.set k (val k)) →
      ∀ r, idx.foldlM f a = .ok r → ∀ k, (Hits l.length idx k ∨ a[k]? = some (val k)) → r[k]? = some (val k) := by
    intro idx
    induction idx with
    | nil =>
      intro a _ _ r h k hk
      cases h
      rcases hk with ⟨i, hi, _⟩ | hk
      · cases hi
      · exact hk
    | cons i t ih =>
      intro a ha hf r h k hk
      obtain ⟨b, h1, h2⟩ := foldlM_cons_ok.mp h
      obtain ⟨m, hm, rfl⟩ := hf i (by simp) a b ha h1
      have hmn := pyIdx_lt hm
      refine ih _ (by simpa using ha) (fun j hj => hf j (by simp [hj])) r h2 k ?_
      by_cases hkm : k = m
      · subst hkm
        right
        rw [List.getElem?_set_self (by omega)]
      · rcases hk with ⟨j, hj, hjk⟩ | hk
        · rcases List.mem_cons.mp hj with rfl | hj
          · rw [hm] at hjk; cases hjk; exact absurd rfl hkm
          · exact Or.inl ⟨j, hj, hjk⟩
        · right
          rw [List.getElem?_set_ne (fun h => hkm h.symm)]; exact hk
  intro k hk
  exact key idx l rfl hf r h k (Or.inl hk)

end Proadv
