import Verif.Lemmas.Fl
import Mathlib.Data.List.Sort
import Mathlib.Tactic.Linarith

/-! # `np.sort` on exact floats: total order with NaN last -/

set_option linter.unusedSectionVars false

namespace Proadv

open Fl

variable {K : Type} [Field K] [LinearOrder K] [FloorRing K]

theorem leN_fin (a b : K) : leN (fin a) (fin b) = decide (a ≤ b) := by simp [leN]

theorem ple_def (a b : Fl K) : (a ≤. b) = Fl.le a b := rfl
theorem isNaN_def (a : Fl K) : PyNum.isNaN a = Fl.isNaN a := rfl

theorem leN_total (a b : Fl K) : leN a b = true ∨ leN b a = true := by
  cases a <;> cases b <;> simp [leN, ple_def, isNaN_def, Fl.le, Fl.isNaN, le_total]

theorem leN_trans {a b c : Fl K} (h1 : leN a b = true) (h2 : leN b c = true) : leN a c = true := by
  cases a <;> cases b <;> cases c <;> simp_all [leN, ple_def, isNaN_def, Fl.le, Fl.isNaN]
  exact le_trans h1 h2

theorem leN_antisymm {a b : Fl K} (h1 : leN a b = true) (h2 : leN b a = true) : a = b := by
  cases a <;> cases b <;> simp_all [leN, ple_def, isNaN_def, Fl.le, Fl.isNaN]
  exact le_antisymm h1 h2

theorem leN_refl (a : Fl K) : leN a a = true := (leN_total a a).elim id id

instance : Std.Total (fun a b : Fl K => leN a b = true) := ⟨leN_total⟩
instance : IsTrans (Fl K) (fun a b : Fl K => leN a b = true) := ⟨fun _ _ _ => leN_trans⟩
instance : Std.Antisymm (fun a b : Fl K => leN a b = true) := ⟨fun _ _ => leN_antisymm⟩

theorem npSort_perm (l : List (Fl K)) : (npSort l).Perm l := List.perm_insertionSort _ l

theorem npSort_sorted (l : List (Fl K)) : (npSort l).Pairwise (fun a b => leN a b = true) :=
  List.pairwise_insertionSort _ l

theorem npSort_eq_of_perm {l l' : List (Fl K)} (h : l.Perm l') : npSort l = npSort l' :=
  List.Perm.eq_of_pairwise (fun _ _ _ _ => leN_antisymm) (npSort_sorted l) (npSort_sorted l')
    ((npSort_perm l).trans (h.trans (npSort_perm l').symm))

theorem npSort_fins (xs : List K) : npSort (fins xs) = fins (xs.insertionSort (· ≤ ·)) := by
  unfold npSort fins
  exact (List.map_insertionSort (r := (· ≤ ·)) (s := fun a b : Fl K => leN a b = true) Fl.fin xs
    (fun a _ b _ => by simp [leN_fin])).symm

end Proadv
