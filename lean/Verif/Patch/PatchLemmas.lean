import Verif.Patch.PatchModel

namespace LGD.Patch

variable {κ α : Type} [DecidableEq κ]

theorem mem_setInsert (s t : Nat) (l : List Nat) : t ∈ setInsert s l ↔ t = s ∨ t ∈ l := by
  induction l with
  | nil => simp [setInsert]
  | cons x l ih =>
    rw [setInsert]
    split
    · simp
    · split
      · rename_i h; subst h; simp
      · rw [List.mem_cons, ih, List.mem_cons]; tauto

theorem setInsert_sorted (s : Nat) (l : List Nat) (h : l.Pairwise (· < ·)) : (setInsert s l).Pairwise (· < ·) := by
  induction l with
  | nil => simp [setInsert]
  | cons x l ih =>
    rw [setInsert]
    have h' := List.pairwise_cons.1 h
    split
    · rename_i hs
      refine List.pairwise_cons.2 ⟨fun y hy => ?_, h⟩
      rcases List.mem_cons.1 hy with rfl | hy
      · exact hs
      · have := h'.1 y hy; omega
    · split
      · exact h
      · refine List.pairwise_cons.2 ⟨fun y hy => ?_, ih h'.2⟩
        rcases (mem_setInsert s y l).1 hy with rfl | hy
        · omega
        · exact h'.1 y hy

theorem setInsert_last (s : Nat) (l : List Nat) (h : ∀ t ∈ l, t < s) : setInsert s l = l ++ [s] := by
  induction l with
  | nil => rfl
  | cons x l ih =>
    have := h x (List.mem_cons_self ..)
    rw [setInsert, if_neg (by omega), if_neg (by omega), ih (fun t ht => h t (List.mem_cons_of_mem _ ht))]
    rfl

theorem loadRegion_not_mem (cs : List κ) (vs : List α) (g : κ → α) (c : κ) (h : c ∉ cs) : loadRegion cs vs g c = g c := by
  induction cs generalizing vs g with
  | nil => rfl
  | cons d cs ih =>
    cases vs with
    | nil => rfl
    | cons v vs =>
      rw [loadRegion, ih _ _ (fun hh => h (List.mem_cons_of_mem _ hh)), Function.update_of_ne]
      rintro rfl
      exact h (List.mem_cons_self ..)

theorem load_save (cs : List κ) (hcs : cs.Nodup) (p g : κ → α) (c : κ) :
    loadRegion cs (saveRegion cs p) g c = if c ∈ cs then p c else g c := by
  induction cs generalizing g with
  | nil => simp [loadRegion, saveRegion]
  | cons d cs ih =>
    have h := List.nodup_cons.1 hcs
    show loadRegion cs (saveRegion cs p) (Function.update g d (p d)) c = _
    rw [ih h.2]
    by_cases e : c = d
    · subst e
      rw [if_neg h.1, if_pos (List.mem_cons_self ..)]
      simp
    · simp [e]

end LGD.Patch
