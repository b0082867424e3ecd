import Verif.Props.Descriptive
import Verif.Props.MedianMode

/-!
# Property C259: how min, max and mode combine and transform
-/

set_option linter.unusedSectionVars false

namespace Proadv.Props

open Proadv Fl Descriptive

variable {K : Type} [Field K] [LinearOrder K] [FloorRing K] [IsStrictOrderedRing K]

/-- numbers only, no NaN, and `r` is an entry below all others -/
def Lowest (data : List (Item (Fl K))) (r : Fl K) : Prop :=
  (∀ s, Item.str s ∉ data) ∧ (∀ i ∈ data, i.val? ≠ some nan) ∧ (∃ i ∈ data, i.val? = some r) ∧
    ∀ i ∈ data, ∀ y, i.val? = some y → (r ≤. y) = true

/-- numbers only, no NaN, and `r` is an entry above all others -/
def Highest (data : List (Item (Fl K))) (r : Fl K) : Prop :=
  (∀ s, Item.str s ∉ data) ∧ (∀ i ∈ data, i.val? ≠ some nan) ∧ (∃ i ∈ data, i.val? = some r) ∧
    ∀ i ∈ data, ∀ y, i.val? = some y → (y ≤. r) = true

private theorem le_anti {a b : Fl K} (h1 : (a ≤. b) = true) (h2 : (b ≤. a) = true) : a = b := by
  cases a <;> cases b <;> simp_all [PyNum.le, Fl.le]
  exact le_antisymm h1 h2

private theorem le_trans' {a b c : Fl K} (h1 : (a ≤. b) = true) (h2 : (b ≤. c) = true) : (a ≤. c) = true := by
  cases a <;> cases b <;> cases c <;> simp_all [PyNum.le, Fl.le]
  exact le_trans h1 h2

private theorem lt_le {a b : Fl K} (h : (a <. b) = true) : (a ≤. b) = true := by
  cases a <;> cases b <;> simp_all [PyNum.le, Fl.le, PyNum.lt, Fl.lt]
  exact le_of_lt h

private theorem not_lt_le {a b : Fl K} (ha : a ≠ nan) (hb : b ≠ nan) (h : ¬ (a <. b) = true) : (b ≤. a) = true := by
  cases a <;> cases b <;> simp_all [PyNum.le, Fl.le, PyNum.lt, Fl.lt]

/-- **C259** `min` succeeds exactly on non-empty lists of numbers without NaN, and only with the least entry -/
theorem C259_min_iff (data : List (Item (Fl K))) (r : Fl K) : Descriptive.min data = .ok r ↔ Lowest data r := by
  obtain ⟨h1, h2, h3, h4⟩ := C01_min data
  constructor
  · intro h
    have n1 : ∀ s, Item.str s ∉ data := fun s hs => by rw [h1 ⟨s, hs⟩] at h; cases h
    have n2 : ∀ i ∈ data, i.val? ≠ some nan := fun i hi hv => by rw [h2 n1 ⟨i, hi, hv⟩] at h; cases h
    have n3 : data ≠ [] := fun e => by rw [h3 e] at h; cases h
    obtain ⟨r', hr, ha, hb⟩ := h4 n1 n2 n3
    rw [hr] at h
    injection h with h
    exact h ▸ ⟨n1, n2, ha, hb⟩
  · rintro ⟨n1, n2, ⟨i, hi, hv⟩, hb⟩
    obtain ⟨r', hr, ⟨j, hj, hw⟩, hb'⟩ := h4 n1 n2 (List.ne_nil_of_mem hi)
    rw [hr, le_anti (hb' i hi r hv) (hb j hj r' hw)]

/-- **C259** the same for `max` -/
theorem C259_max_iff (data : List (Item (Fl K))) (r : Fl K) : Descriptive.max data = .ok r ↔ Highest data r := by
  obtain ⟨h1, h2, h3, h4⟩ := C01_max data
  constructor
  · intro h
    have n1 : ∀ s, Item.str s ∉ data := fun s hs => by rw [h1 ⟨s, hs⟩] at h; cases h
    have n2 : ∀ i ∈ data, i.val? ≠ some nan := fun i hi hv => by rw [h2 n1 ⟨i, hi, hv⟩] at h; cases h
    have n3 : data ≠ [] := fun e => by rw [h3 e] at h; cases h
    obtain ⟨r', hr, ha, hb⟩ := h4 n1 n2 n3
    rw [hr] at h
    injection h with h
    exact h ▸ ⟨n1, n2, ha, hb⟩
  · rintro ⟨n1, n2, ⟨i, hi, hv⟩, hb⟩
    obtain ⟨r', hr, ⟨j, hj, hw⟩, hb'⟩ := h4 n1 n2 (List.ne_nil_of_mem hi)
    rw [hr, le_anti (hb j hj r' hw) (hb' i hi r hv)]

open Classical in
private theorem min_err {data : List (Item (Fl K))} (h : ∀ r, Descriptive.min data ≠ .ok r) :
    Descriptive.min data = .error (if ∃ s, Item.str s ∈ data then .typeError else .valueError) := by
  obtain ⟨h1, h2, h3, h4⟩ := C01_min data
  by_cases hs : ∃ s, Item.str s ∈ data
  · rw [if_pos hs, h1 hs]
  · rw [if_neg hs]
    have n1 : ∀ s, Item.str s ∉ data := fun s hs' => hs ⟨s, hs'⟩
    by_cases hn : ∃ i ∈ data, i.val? = some nan
    · exact h2 n1 hn
    · by_cases he : data = []
      · exact h3 he
      · obtain ⟨r, hr, _⟩ := h4 n1 (fun i hi hv => hn ⟨i, hi, hv⟩) he
        exact absurd hr (h r)

open Classical in
private theorem max_err {data : List (Item (Fl K))} (h : ∀ r, Descriptive.max data ≠ .ok r) :
    Descriptive.max data = .error (if ∃ s, Item.str s ∈ data then .typeError else .valueError) := by
  obtain ⟨h1, h2, h3, h4⟩ := C01_max data
  by_cases hs : ∃ s, Item.str s ∈ data
  · rw [if_pos hs, h1 hs]
  · rw [if_neg hs]
    have n1 : ∀ s, Item.str s ∉ data := fun s hs' => hs ⟨s, hs'⟩
    by_cases hn : ∃ i ∈ data, i.val? = some nan
    · exact h2 n1 hn
    · by_cases he : data = []
      · exact h3 he
      · obtain ⟨r, hr, _⟩ := h4 n1 (fun i hi hv => hn ⟨i, hi, hv⟩) he
        exact absurd hr (h r)

/-- **C259** order and repetition of the items do not matter, errors included -/
theorem C259_set (data data' : List (Item (Fl K))) (h : ∀ i, i ∈ data ↔ i ∈ data') :
    Descriptive.min data = Descriptive.min data' ∧ Descriptive.max data = Descriptive.max data' := by
  have hl : ∀ r, Lowest data r ↔ Lowest data' r := fun r => by unfold Lowest; simp only [h]
  have hh : ∀ r, Highest data r ↔ Highest data' r := fun r => by unfold Highest; simp only [h]
  have hs : (∃ s, Item.str s ∈ data) ↔ ∃ s, Item.str s ∈ data' := by simp only [h]
  constructor
  · by_cases e : ∃ r, Descriptive.min data = .ok r
    · obtain ⟨r, hr⟩ := e
      rw [hr, (C259_min_iff data' r).mpr ((hl r).mp ((C259_min_iff data r).mp hr))]
    · rw [min_err (fun r hr => e ⟨r, hr⟩), min_err (data := data') (fun r hr => e ⟨r, (C259_min_iff data r).mpr ((hl r).mpr ((C259_min_iff data' r).mp hr))⟩)]
      by_cases q : ∃ s, Item.str s ∈ data
      · rw [if_pos q, if_pos (hs.mp q)]
      · rw [if_neg q, if_neg (fun h => q (hs.mpr h))]
  · by_cases e : ∃ r, Descriptive.max data = .ok r
    · obtain ⟨r, hr⟩ := e
      rw [hr, (C259_max_iff data' r).mpr ((hh r).mp ((C259_max_iff data r).mp hr))]
    · rw [max_err (fun r hr => e ⟨r, hr⟩), max_err (data := data') (fun r hr => e ⟨r, (C259_max_iff data r).mpr ((hh r).mpr ((C259_max_iff data' r).mp hr))⟩)]
      by_cases q : ∃ s, Item.str s ∈ data
      · rw [if_pos q, if_pos (hs.mp q)]
      · rw [if_neg q, if_neg (fun h => q (hs.mpr h))]

/-- **C259** `min` of two recordings in one list succeeds exactly when it does on both, with the smaller of the two results -/
theorem C259_min_append (a b : List (Item (Fl K))) (ha : a ≠ []) (hb : b ≠ []) (r : Fl K) :
    Descriptive.min (a ++ b) = .ok r ↔
      ∃ x y, Descriptive.min a = .ok x ∧ Descriptive.min b = .ok y ∧ r = if (y <. x) = true then y else x := by
  have fwd : ∀ x y, Descriptive.min a = .ok x → Descriptive.min b = .ok y →
      Descriptive.min (a ++ b) = .ok (if (y <. x) = true then y else x) := by
    intro x y hx hy
    obtain ⟨a1, a2, ⟨i, hi, hv⟩, a4⟩ := (C259_min_iff a x).mp hx
    obtain ⟨b1, b2, ⟨j, hj, hw⟩, b4⟩ := (C259_min_iff b y).mp hy
    have nx : x ≠ nan := fun e => a2 i hi (e ▸ hv)
    have ny : y ≠ nan := fun e => b2 j hj (e ▸ hw)
    rw [C259_min_iff]
    refine ⟨?_, ?_, ?_, ?_⟩
    · intro s hs
      rcases List.mem_append.mp hs with h | h
      · exact a1 s h
      · exact b1 s h
    · intro k hk
      rcases List.mem_append.mp hk with h | h
      · exact a2 k h
      · exact b2 k h
    · split_ifs
      · exact ⟨j, List.mem_append.mpr (Or.inr hj), hw⟩
      · exact ⟨i, List.mem_append.mpr (Or.inl hi), hv⟩
    · intro k hk z hz
      rcases List.mem_append.mp hk with h | h <;> split_ifs with hlt
      · exact le_trans' (lt_le hlt) (a4 k h z hz)
      · exact a4 k h z hz
      · exact b4 k h z hz
      · exact le_trans' (not_lt_le ny nx hlt) (b4 k h z hz)
  constructor
  · intro h
    obtain ⟨h1, h2, -, -⟩ := (C259_min_iff _ r).mp h
    obtain ⟨x, hx, -⟩ := (C01_min a).2.2.2 (fun s hs => h1 s (List.mem_append.mpr (Or.inl hs)))
      (fun i hi => h2 i (List.mem_append.mpr (Or.inl hi))) ha
    obtain ⟨y, hy, -⟩ := (C01_min b).2.2.2 (fun s hs => h1 s (List.mem_append.mpr (Or.inr hs)))
      (fun i hi => h2 i (List.mem_append.mpr (Or.inr hi))) hb
    refine ⟨x, y, hx, hy, ?_⟩
    rw [fwd x y hx hy] at h
    injection h with h
    exact h.symm
  · rintro ⟨x, y, hx, hy, rfl⟩
    exact fwd x y hx hy

private theorem num_val {l : List (Fl K)} {i : Item (Fl K)} (hi : i ∈ l.map Item.num) : ∃ x ∈ l, i = Item.num x := by
  obtain ⟨x, hx, rfl⟩ := List.mem_map.mp hi
  exact ⟨x, hx, rfl⟩

private theorem neg_le {a b : Fl K} : (Fl.neg a ≤. Fl.neg b) = (b ≤. a) := by
  cases a <;> cases b <;> simp [PyNum.le, Fl.le, Fl.neg]

/-- **C259** the largest of the negated numbers is the negated smallest, errors included -/
theorem C259_neg (l : List (Fl K)) :
    Descriptive.max ((l.map Fl.neg).map Item.num) = (Descriptive.min (l.map Item.num)).map Fl.neg := by
  have hs : ∀ l : List (Fl K), ¬ ∃ s, (Item.str s : Item (Fl K)) ∈ l.map Item.num := by
    rintro l ⟨s, hs⟩
    obtain ⟨x, -, h⟩ := num_val hs
    cases h
  have hnn : ∀ x : Fl K, Fl.neg (Fl.neg x) = x := by intro x; cases x <;> simp [Fl.neg]
  have hnan : ∀ x : Fl K, Fl.neg x = nan → x = nan := by intro x; cases x <;> simp [Fl.neg]
  have key : ∀ r, Lowest (l.map Item.num) r ↔ Highest ((l.map Fl.neg).map Item.num) (Fl.neg r) := by
    intro r
    constructor
    · rintro ⟨-, h2, ⟨i, hi, hv⟩, h4⟩
      refine ⟨fun s h => hs _ ⟨s, h⟩, ?_, ?_, ?_⟩
      · intro j hj hw
        obtain ⟨y, hy, rfl⟩ := num_val hj
        obtain ⟨z, hz, rfl⟩ := List.mem_map.mp hy
        exact h2 (Item.num z) (List.mem_map.mpr ⟨z, hz, rfl⟩) (congrArg some (hnan z (Option.some.inj hw)))
      · obtain ⟨x, hx, rfl⟩ := num_val hi
        have : x = r := Option.some.inj hv
        exact ⟨Item.num (Fl.neg x), List.mem_map.mpr ⟨_, List.mem_map.mpr ⟨x, hx, rfl⟩, rfl⟩, by rw [this]; rfl⟩
      · intro j hj y hw
        obtain ⟨y', hy, rfl⟩ := num_val hj
        obtain ⟨z, hz, rfl⟩ := List.mem_map.mp hy
        have e : Fl.neg z = y := Option.some.inj hw
        rw [← e, neg_le]
        exact h4 (Item.num z) (List.mem_map.mpr ⟨z, hz, rfl⟩) z rfl
    · rintro ⟨-, h2, ⟨i, hi, hv⟩, h4⟩
      refine ⟨fun s h => hs _ ⟨s, h⟩, ?_, ?_, ?_⟩
      · intro j hj hw
        obtain ⟨y, hy, rfl⟩ := num_val hj
        have e : y = nan := Option.some.inj hw
        exact h2 (Item.num (Fl.neg y)) (List.mem_map.mpr ⟨_, List.mem_map.mpr ⟨y, hy, rfl⟩, rfl⟩) (by rw [e]; rfl)
      · obtain ⟨x, hx, rfl⟩ := num_val hi
        obtain ⟨z, hz, rfl⟩ := List.mem_map.mp hx
        have : Fl.neg z = Fl.neg r := Option.some.inj hv
        have e : z = r := by rw [← hnn z, this, hnn]
        exact ⟨Item.num z, List.mem_map.mpr ⟨z, hz, rfl⟩, by rw [e]; rfl⟩
      · intro j hj y hw
        obtain ⟨y', hy, rfl⟩ := num_val hj
        have e : y' = y := Option.some.inj hw
        have := h4 (Item.num (Fl.neg y')) (List.mem_map.mpr ⟨_, List.mem_map.mpr ⟨y', hy, rfl⟩, rfl⟩) _ rfl
        rwa [neg_le, e] at this
  by_cases e : ∃ r, Descriptive.min (l.map Item.num) = .ok r
  · obtain ⟨r, hr⟩ := e
    rw [hr, (C259_max_iff _ _).mpr ((key r).mp ((C259_min_iff _ _).mp hr))]
    rfl
  · have e' : ∀ r, Descriptive.max ((l.map Fl.neg).map Item.num) ≠ .ok r := by
      intro r hr
      refine e ⟨Fl.neg r, (C259_min_iff _ _).mpr ((key _).mpr ?_)⟩
      rw [hnn]
      exact (C259_max_iff _ _).mp hr
    rw [min_err (fun r hr => e ⟨r, hr⟩), max_err e', if_neg (hs _), if_neg (hs _)]
    rfl

/-- **C259** `min` and `max` commute with every non-decreasing conversion of finite data -/
theorem C259_map (f : K → K) (hf : Monotone f) (xs : List K) (m : K) :
    (Descriptive.min ((fins xs).map Item.num) = .ok (fin m) → Descriptive.min ((fins (xs.map f)).map Item.num) = .ok (fin (f m))) ∧
    (Descriptive.max ((fins xs).map Item.num) = .ok (fin m) → Descriptive.max ((fins (xs.map f)).map Item.num) = .ok (fin (f m))) := by
  have hmem : ∀ {i : Item (Fl K)} {l : List K}, i ∈ (fins l).map Item.num → ∃ x ∈ l, i = Item.num (fin x) := by
    intro i l hi
    obtain ⟨y, hy, rfl⟩ := num_val hi
    obtain ⟨x, hx, rfl⟩ := List.mem_map.mp hy
    exact ⟨x, hx, rfl⟩
  have hin : ∀ {x : K} {l : List K}, x ∈ l → (Item.num (fin x) : Item (Fl K)) ∈ (fins l).map Item.num :=
    fun hx => List.mem_map.mpr ⟨_, List.mem_map.mpr ⟨_, hx, rfl⟩, rfl⟩
  have hstr : ∀ (l : List K) s, (Item.str s : Item (Fl K)) ∉ (fins l).map Item.num := by
    intro l s h
    obtain ⟨x, -, h⟩ := hmem h
    cases h
  have hnan : ∀ (l : List K), ∀ i ∈ ((fins l).map Item.num : List (Item (Fl K))), i.val? ≠ some nan := by
    intro l i hi h
    obtain ⟨x, -, rfl⟩ := hmem hi
    cases Option.some.inj h
  constructor
  · rw [C259_min_iff, C259_min_iff]
    rintro ⟨-, -, ⟨i, hi, hv⟩, h4⟩
    obtain ⟨x, hx, rfl⟩ := hmem hi
    have e : x = m := Fl.fin.inj (Option.some.inj hv)
    subst e
    refine ⟨hstr _, hnan _, ⟨_, hin (List.mem_map.mpr ⟨x, hx, rfl⟩), rfl⟩, ?_⟩
    intro j hj y hw
    obtain ⟨z, hz, rfl⟩ := hmem hj
    obtain ⟨t, ht, rfl⟩ := List.mem_map.mp hz
    have e : (fin (f t) : Fl K) = y := Option.some.inj hw
    have h : (fin x ≤. fin t : Bool) = true := h4 _ (hin ht) _ rfl
    rw [← e]
    exact decide_eq_true (hf (of_decide_eq_true h))
  · rw [C259_max_iff, C259_max_iff]
    rintro ⟨-, -, ⟨i, hi, hv⟩, h4⟩
    obtain ⟨x, hx, rfl⟩ := hmem hi
    have e : x = m := Fl.fin.inj (Option.some.inj hv)
    subst e
    refine ⟨hstr _, hnan _, ⟨_, hin (List.mem_map.mpr ⟨x, hx, rfl⟩), rfl⟩, ?_⟩
    intro j hj y hw
    obtain ⟨z, hz, rfl⟩ := hmem hj
    obtain ⟨t, ht, rfl⟩ := List.mem_map.mp hz
    have e : (fin (f t) : Fl K) = y := Option.some.inj hw
    have h : (fin t ≤. fin x : Bool) = true := h4 _ (hin ht) _ rfl
    rw [← e]
    exact decide_eq_true (hf (of_decide_eq_true h))

private theorem leN_total (a b : Fl K) : leN a b = true ∨ leN b a = true := by
  cases a <;> cases b <;> simp [leN, PyNum.isNaN, Fl.isNaN, PyNum.le, Fl.le, le_total]

/-- **C259** `mode` is determined by the counts: the pair of C06 is the only one -/
theorem C259_mode_iff (data : List (Fl K)) (v : Fl K) (c : Nat) : mode data = .ok (v, c) ↔
    v ∈ data ∧ c = data.count v ∧ (∀ w, data.count w ≤ c) ∧ ∀ w, ltN w v → data.count w < c := by
  by_cases hne : data = []
  · subst hne
    constructor
    · intro h; cases h
    · rintro ⟨h, -⟩; simp at h
  obtain ⟨v', c', hm, h1, h2, h3, h4⟩ := C06_mode data hne
  rw [hm]
  constructor
  · intro h
    injection h with h
    injection h with e1 e2
    subst e1; subst e2
    exact ⟨h1, h2, h3, h4⟩
  · rintro ⟨g1, g2, g3, g4⟩
    have ec : c' = c := le_antisymm (h2 ▸ g3 v') (g2 ▸ h3 v)
    have ev : v' = v := by
      by_contra hv
      rcases leN_total v' v with h | h
      · have := g4 v' ⟨h, hv⟩; omega
      · have := h4 v ⟨h, fun e => hv e.symm⟩; omega
    rw [ec, ev]

/-- **C259** recording everything `k + 1` times multiplies the count and keeps the value -/
theorem C259_mode_repeat (data : List (Fl K)) (v : Fl K) (c k : Nat) (h : mode data = .ok (v, c)) :
    mode ((List.replicate (k + 1) data).flatten) = .ok (v, (k + 1) * c) := by
  rw [C259_mode_iff] at h ⊢
  obtain ⟨h1, h2, h3, h4⟩ := h
  have hc : ∀ w n, (List.replicate n data).flatten.count w = n * data.count w := by
    intro w n
    induction n with
    | zero => simp
    | succ n ih => rw [List.replicate_succ, List.flatten_cons, List.count_append, ih]; ring
  refine ⟨?_, by rw [hc, ← h2], fun w => by rw [hc]; exact Nat.mul_le_mul_left _ (h3 w), fun w hw => by
    rw [hc]; exact Nat.mul_lt_mul_of_pos_left (h4 w hw) (Nat.succ_pos k)⟩
  rw [List.mem_flatten]
  exact ⟨data, List.mem_replicate.mpr ⟨by omega, rfl⟩, h1⟩

private theorem count_fins (xs : List K) (x : K) : (fins xs).count (fin x) = xs.count x :=
  List.count_map_of_injective xs fin (fun _ _ h => Fl.fin.inj h) x

private theorem count_not (xs : List K) (w : Fl K) (h : ∀ x ∈ xs, w ≠ fin x) : (fins xs).count w = 0 := by
  rw [List.count_eq_zero]
  intro hw
  obtain ⟨x, hx, e⟩ := List.mem_map.mp hw
  exact h x hx e.symm

private theorem mode_fins (xs : List K) (v : K) (c : Nat) : mode (fins xs) = .ok (fin v, c) ↔
    v ∈ xs ∧ c = xs.count v ∧ (∀ w, xs.count w ≤ c) ∧ ∀ w, w < v → xs.count w < c := by
  rw [C259_mode_iff]
  constructor
  · rintro ⟨h1, h2, h3, h4⟩
    obtain ⟨x, hx, e⟩ := List.mem_map.mp h1
    have e := Fl.fin.inj e
    subst e
    refine ⟨hx, by rw [h2, count_fins], fun w => by rw [← count_fins]; exact h3 _, fun w hw => ?_⟩
    rw [← count_fins]
    exact h4 _ ⟨by simpa [leN, PyNum.isNaN, Fl.isNaN, PyNum.le, Fl.le] using hw.le, fun e => hw.ne (Fl.fin.inj e)⟩
  · rintro ⟨h1, h2, h3, h4⟩
    have hpos : 0 < c := by rw [h2]; exact List.count_pos_iff.mpr h1
    refine ⟨List.mem_map.mpr ⟨v, h1, rfl⟩, by rw [h2, count_fins], fun w => ?_, fun w hw => ?_⟩
    · by_cases hx : ∃ x ∈ xs, w = fin x
      · obtain ⟨x, -, rfl⟩ := hx
        rw [count_fins]; exact h3 x
      · rw [count_not xs w (fun x hx' e => hx ⟨x, hx', e⟩)]; omega
    · by_cases hx : ∃ x ∈ xs, w = fin x
      · obtain ⟨x, -, rfl⟩ := hx
        rw [count_fins]
        refine h4 x (lt_of_le_of_ne ?_ (fun e => hw.2 (by rw [e])))
        simpa [leN, PyNum.isNaN, Fl.isNaN, PyNum.le, Fl.le] using hw.1
      · rw [count_not xs w (fun x hx' e => hx ⟨x, hx', e⟩)]; exact hpos

/-- **C259** `mode` commutes with every strictly increasing conversion of finite data -/
theorem C259_mode_map (f : K → K) (hf : StrictMono f) (xs : List K) (v : K) (c : Nat) (h : mode (fins xs) = .ok (fin v, c)) :
    mode (fins (xs.map f)) = .ok (fin (f v), c) := by
  rw [mode_fins] at h ⊢
  obtain ⟨h1, h2, h3, h4⟩ := h
  have hc : ∀ x, (xs.map f).count (f x) = xs.count x := fun x => List.count_map_of_injective xs f hf.injective x
  have hpos : 0 < c := by rw [h2]; exact List.count_pos_iff.mpr h1
  refine ⟨List.mem_map.mpr ⟨v, h1, rfl⟩, by rw [hc, h2], fun w => ?_, fun w hw => ?_⟩
  · by_cases hx : ∃ x ∈ xs, f x = w
    · obtain ⟨x, -, rfl⟩ := hx; rw [hc]; exact h3 x
    · rw [List.count_eq_zero.mpr (fun hw => hx (List.mem_map.mp hw))]; omega
  · by_cases hx : ∃ x ∈ xs, f x = w
    · obtain ⟨x, -, rfl⟩ := hx; rw [hc]; exact h4 x (hf.lt_iff_lt.mp hw)
    · rw [List.count_eq_zero.mpr (fun hw => hx (List.mem_map.mp hw))]; exact hpos

/-- **C259** under a strictly decreasing conversion `mode` gives the image of the largest most frequent value instead: it is the
image of the mode exactly when no other value is as frequent -/
theorem C259_mode_reverse (f : K → K) (hf : StrictAnti f) (xs : List K) (v : K) (c : Nat) (h : mode (fins xs) = .ok (fin v, c)) :
    mode (fins (xs.map f)) = .ok (fin (f v), c) ↔ ∀ w, w ≠ v → xs.count w < c := by
  rw [mode_fins] at h ⊢
  obtain ⟨h1, h2, h3, h4⟩ := h
  have hc : ∀ x, (xs.map f).count (f x) = xs.count x := fun x => List.count_map_of_injective xs f hf.injective x
  have hpos : 0 < c := by rw [h2]; exact List.count_pos_iff.mpr h1
  constructor
  · rintro ⟨-, -, -, g4⟩ w hw
    rcases lt_or_gt_of_ne hw with hw | hw
    · exact h4 w hw
    · have := g4 (f w) (hf hw)
      rwa [hc] at this
  · intro g
    refine ⟨List.mem_map.mpr ⟨v, h1, rfl⟩, by rw [hc, h2], fun w => ?_, fun w hw => ?_⟩
    · by_cases hx : ∃ x ∈ xs, f x = w
      · obtain ⟨x, -, rfl⟩ := hx; rw [hc]; exact h3 x
      · rw [List.count_eq_zero.mpr (fun hw => hx (List.mem_map.mp hw))]; omega
    · by_cases hx : ∃ x ∈ xs, f x = w
      · obtain ⟨x, -, rfl⟩ := hx; rw [hc]; exact g x (hf.lt_iff_gt.mp hw).ne'
      · rw [List.count_eq_zero.mpr (fun hw => hx (List.mem_map.mp hw))]; exact hpos

/-- two values equally frequent: the mode of the negated data is not the negated mode -/
example : mode (fins [3, 1, 3, 1, (2 : ℚ)]) = .ok (fin 1, 2) ∧ mode (fins ([3, 1, 3, 1, (2 : ℚ)].map (fun x => -x))) = .ok (fin (-3), 2) := by
  constructor <;> decide +kernel

example : Descriptive.min ((fins [3, 1, (2 : ℚ)]).map Item.num) = .ok (fin 1) ∧
    Descriptive.min ([Item.num (fin (3 : ℚ)), Item.num pinf] ++ [Item.num ninf]) = .ok ninf := by
  constructor <;> decide +kernel

end Proadv.Props
