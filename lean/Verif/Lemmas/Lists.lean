import Verif.Py.Array
import Mathlib.Algebra.BigOperators.Group.Finset.Basic

/-! # Generic list lemmas -/

namespace Proadv

theorem mapM_ok {α β : Type} (f : α → Py β) (g : α → β) (l : List α) (h : ∀ a ∈ l, f a = .ok (g a)) :
    l.mapM f = .ok (l.map g) := by
  induction l with
  | nil => rfl
  | cons a t ih =>
    rw [List.mapM_cons, h a (by simp), ih (fun b hb => h b (by simp [hb]))]
    rfl

theorem mapM_error {α β : Type} (f : α → Py β) (l : List α) (a : α) (ha : a ∈ l) (e : PyErr) (h : f a = .error e) :
    ∃ e', l.mapM f = .error e' := by
  induction l with
  | nil => cases ha
  | cons b t ih =>
    rw [List.mapM_cons]
    cases hb : f b with
    | error e' => exact ⟨e', rfl⟩
    | ok v =>
      rcases List.mem_cons.mp ha with rfl | ht
      · rw [h] at hb; cases hb
      · obtain ⟨e', he⟩ := ih ht
        exact ⟨e', by simp only [bind, Except.bind, he]⟩

theorem sum_range_map {M : Type} [AddCommMonoid M] (n : Nat) (f : Nat → M) :
    ((List.range n).map f).sum = ∑ i ∈ Finset.range n, f i := by
  rw [Finset.sum_eq_multiset_sum]
  simp [Finset.range, Multiset.range]

theorem whereTrue_map_range (n : Nat) (p : Nat → Bool) :
    whereTrue ((List.range n).map p) = (List.range n).filter p := by
  unfold whereTrue
  rw [List.length_map, List.length_range]
  apply List.filter_congr
  intro i hi
  have hi := List.mem_range.mp hi
  rw [List.getD_eq_getElem?_getD, List.getElem?_map, List.getElem?_range hi]; rfl

end Proadv
