import Verif.Py.Array
import Verif.Lemmas.Lists
import Mathlib.Data.List.Nodup
import Mathlib.Data.List.Dedup

/-! # Index sets: `np.nonzero`, `np.unique`, `np.intersect1d` -/

set_option linter.unusedSectionVars false

namespace Proadv

theorem mem_whereTrue {m : List Bool} {i : Nat} : i ∈ whereTrue m ↔ m[i]? = some true := by
  unfold whereTrue
  rw [List.mem_filter, List.mem_range, List.getD_eq_getElem?_getD]
  constructor
  · rintro ⟨h, h'⟩
    rw [List.getElem?_eq_getElem h] at h' ⊢
    simpa using h'
  · intro h
    have hi : i < m.length := by
      by_contra hc
      rw [List.getElem?_eq_none (by omega)] at h; cases h
    exact ⟨hi, by rw [h]; rfl⟩

theorem whereTrue_lt {m : List Bool} {i : Nat} (h : i ∈ whereTrue m) : i < m.length := by
  unfold whereTrue at h
  exact List.mem_range.mp (List.mem_filter.mp h).1

theorem whereTrue_sorted (m : List Bool) : (whereTrue m).Pairwise (· < ·) :=
  List.Pairwise.filter _ List.pairwise_lt_range

theorem mem_uniqueNat {l : List Nat} {i : Nat} : i ∈ uniqueNat l ↔ i ∈ l := by
  unfold uniqueNat
  rw [List.mem_dedup]
  exact (List.perm_insertionSort _ l).mem_iff

theorem uniqueNat_sorted (l : List Nat) : (uniqueNat l).Pairwise (· < ·) := by
  unfold uniqueNat
  have h1 : ((l.insertionSort (· ≤ ·)).dedup).Pairwise (· ≤ ·) :=
    (List.pairwise_insertionSort (· ≤ ·) l).sublist (List.dedup_sublist _)
  have h2 : ((l.insertionSort (· ≤ ·)).dedup).Nodup := List.nodup_dedup _
  exact (h1.and h2).imp (fun h => lt_of_le_of_ne h.1 h.2)

/-- two strictly increasing lists with the same members are equal -/
theorem sorted_ext {l l' : List Nat} (h : l.Pairwise (· < ·)) (h' : l'.Pairwise (· < ·)) (hm : ∀ i, i ∈ l ↔ i ∈ l') :
    l = l' := by
  have hp : l.Perm l' :=
    (List.perm_ext_iff_of_nodup (h.imp (fun h => ne_of_lt h)) (h'.imp (fun h => ne_of_lt h))).mpr hm
  exact hp.eq_of_pairwise' (h.imp (fun h => le_of_lt h)) (h'.imp (fun h => le_of_lt h))

theorem filter_range_sorted (n : Nat) (p : Nat → Bool) : ((List.range n).filter p).Pairwise (· < ·) :=
  List.Pairwise.filter _ List.pairwise_lt_range

theorem mem_intersect1d {a b : List Nat} {i : Nat} : i ∈ intersect1d a b ↔ i ∈ a ∧ i ∈ b := by
  unfold intersect1d
  rw [mem_uniqueNat, List.mem_filter, decide_eq_true_eq]

theorem intersect1d_sorted (a b : List Nat) : (intersect1d a b).Pairwise (· < ·) := uniqueNat_sorted _

theorem mem_whereTrue_map {α : Type} {l : List α} {p : α → Bool} {i : Nat} :
    i ∈ whereTrue (l.map p) ↔ ∃ x, l[i]? = some x ∧ p x = true := by
  rw [mem_whereTrue, List.getElem?_map, Option.map_eq_some_iff]

theorem bcast_same {α β γ : Type} (f : α → β → γ) {a : List α} {b : List β} (h : a.length = b.length) :
    bcast f a b = .ok (List.zipWith f a b) := by unfold bcast; rw [if_pos h]

theorem bcast_length {α β γ : Type} {f : α → β → γ} {a : List α} {b : List β} {r : List γ} (h : bcast f a b = .ok r) :
    (a.length = b.length ∧ r.length = a.length) ∨ (a.length = 1 ∧ r.length = b.length) ∨
      (b.length = 1 ∧ r.length = a.length) := by
  unfold bcast at h
  split_ifs at h with hl
  · cases h; left; simp [hl]
  · split at h
    · cases h; right; left; simp
    · cases h; right; right; simp
    · cases h

end Proadv
