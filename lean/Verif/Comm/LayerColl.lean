import Verif.Comm.LayerModel
import Mathlib.Algebra.BigOperators.Group.List.Basic
import Mathlib.Tactic.Ring

/-! # Collective operations of `MPILayer` -/

namespace LGD.Layer

variable {α : Type}

theorem sum_take_add_one (l : List Nat) (i : Nat) (h : i < l.length) : (l.take (i + 1)).sum = (l.take i).sum + l[i] := by
  rw [List.take_add_one, List.getElem?_eq_getElem h, List.sum_append]
  simp only [Option.toList_some, List.sum_cons, List.sum_nil, Nat.add_zero]

theorem dispLoop_eq (lengths : List Nat) : ∀ (m i : Nat) (d : List Nat), d.length = i + 1 + m → d[i]? = some (lengths.take i).sum →
    i + m ≤ lengths.length →
    dispLoop lengths m i d = some (d.take (i + 1) ++ (List.range' (i + 1) m).map fun s => (lengths.take s).sum) := by
  intro m
  induction m with
  | zero => intro i d hl _ _; simp [dispLoop, List.take_of_length_le (show d.length ≤ i + 1 by omega)]
  | succ m ih =>
    intro i d hl hi hb
    have hlt : i < lengths.length := by omega
    simp only [dispLoop, hi, List.getElem?_eq_getElem hlt, Option.bind_some]
    rw [if_pos (by omega), ih (i + 1) _ (by simp; omega) (by
      rw [List.getElem?_set_self (by omega), sum_take_add_one _ _ hlt]) (by omega)]
    congr 1
    rw [List.range'_succ, List.map_cons, List.take_add_one (i := i + 1), List.take_set_of_le (by omega), List.getElem?_set_self (by omega), sum_take_add_one _ _ hlt]
    simp

theorem displacements_eq (N : Nat) (lengths : List Nat) (hN : 0 < N) (hl : N ≤ lengths.length + 1) :
    displacements N lengths = some ((List.range N).map fun s => (lengths.take s).sum) := by
  unfold displacements
  rw [if_neg (by omega), dispLoop_eq _ _ _ _ (by simp; omega) (by simp [hN]) (by omega)]
  obtain ⟨n, rfl⟩ : ∃ n, N = n + 1 := ⟨N - 1, by omega⟩
  rw [List.range_eq_range', List.range'_succ]
  simp [List.replicate_succ]

theorem mpiGatherv_eq (src : Nat → List α) (num : Nat → Option Nat) (counts displs : List Nat) (len off : Nat → Nat) :
    ∀ (m s : Nat) (pre rest : List α),
      (∀ i, s ≤ i → i < s + m → num i = some (len i) ∧ len i ≤ (src i).length ∧ counts[i]? = some (len i) ∧ displs[i]? = some (off i) ∧
        off (i + 1) = off i + len i) → pre.length = off s →
      mpiGatherv src num counts displs m s (pre ++ rest) =
        if ((List.range' s m).map len).sum ≤ rest.length then
          some (pre ++ ((List.range' s m).flatMap fun i => (src i).take (len i)) ++ rest.drop ((List.range' s m).map len).sum)
        else none := by
  intro m
  induction m with
  | zero => intro s pre rest _ _; simp [mpiGatherv]
  | succ m ih =>
    intro s pre rest h hp
    obtain ⟨h1, h2, h3, h4, h5⟩ := h s (le_refl _) (by omega)
    have hd : ((src s).take (len s)).length = len s := by simp [h2]
    simp only [mpiGatherv, h1, Option.bind_some, rd, h2, if_true, h3, h4, put, hd, ← hp]
    rw [List.range'_succ, List.map_cons, List.sum_cons, List.flatMap_cons]
    by_cases hf : len s ≤ rest.length
    · rw [if_pos (by simp; omega)]
      simp only [Option.bind_some, List.take_append_of_le_length (le_refl pre.length), List.take_length]
      rw [show (pre ++ rest).drop (pre.length + len s) = rest.drop (len s) by rw [List.drop_append]; simp]
      rw [ih (s + 1) (pre ++ (src s).take (len s)) (rest.drop (len s)) (fun i a b => h i (by omega) (by omega)) (by simp [h2, h5, hp])]
      simp only [List.length_drop, List.drop_drop]
      by_cases hc : ((List.range' (s + 1) m).map len).sum ≤ rest.length - len s
      · rw [if_pos hc, if_pos (by omega)]
        simp
      · rw [if_neg hc, if_neg (by omega)]
    · rw [if_neg (by simp; omega), if_neg (by omega)]
      rfl

/-- the sum of the first elements -/
theorem sum_range_getD (l : List Nat) : ∀ (N : Nat), ((List.range N).map fun i => l.getD i 0).sum = (l.take N).sum := by
  intro N
  induction N with
  | zero => simp
  | succ N ih =>
    rw [List.range_succ, List.map_append, List.sum_append, ih]
    by_cases h : N < l.length
    · rw [sum_take_add_one _ _ h]
      simp [List.getD_eq_getElem?_getD, List.getElem?_eq_getElem h]
    · rw [List.take_of_length_le (by omega), List.take_of_length_le (by omega)]
      simp [List.getD_eq_getElem?_getD, List.getElem?_eq_none (by omega : l.length ≤ N)]

end LGD.Layer
