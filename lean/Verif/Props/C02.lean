import Verif.Props.C01

/-!
# C02 – Region equality is set equality
-/

namespace LGD.C02
open LGD.C01

/-- **C02.** Regions reached by arbitrary histories compare equal exactly if they contain the same coordinates. -/
theorem region_eq_iff (n : Nat) (opsA opsB : List Op) (a b : Idx) (ha : run n emptyIdx opsA = some a)
    (hb : run n emptyIdx opsB = some b) :
    regEq n a b = true ↔ ∀ c, specSet n (fun _ => False) opsA c ↔ specSet n (fun _ => False) opsB c := by
  obtain ⟨⟨t, h1⟩, h2⟩ := run_ok n opsA a ha
  obtain ⟨⟨u, h3⟩, h4⟩ := run_ok n opsB b hb
  rw [rep_eq_iff h1 h3]
  constructor
  · intro h c; rw [← h2, ← h4]; exact h c
  · intro h c; rw [h2, h4]; exact h c

/-- The stored streaks of any row are non-empty and ascending, with at least one missing coordinate between
neighboring ones: the row vectors never contain two entries that could be merged. Stated for 1D regions, where the
single vector is the row. (For higher dimensions see `Verif.Props.C05`, where all streaks are enumerated.) -/
theorem region_row_canonical (ops : List Op) (a : Idx) (ha : run 0 emptyIdx ops = some a) :
    (∀ p ∈ a 0, p.1 < p.2) ∧ (a 0).Pairwise (fun p q => p.2 < q.1) := by
  obtain ⟨⟨t, h1⟩, _⟩ := run_ok 0 ops a ha
  have h0 : a 0 = t := by rw [h1.eq 0 (by omega)]; simp [enc]
  have hok : RowOK t := h1.ok
  rw [h0]
  refine ⟨hok.pos, ?_⟩
  clear h1 h0
  induction t with
  | nil => exact List.Pairwise.nil
  | cons p ps ih => exact List.Pairwise.cons hok.2.1 (ih hok.2.2)

/-! non-vacuity: two different histories of the same set, and of different sets -/

def hist1 : List Op := [.insert (mk2 0 0 3), .insert (mk2 3 0 5), .insert (mk2 0 2 4), .remove (mk2 0 2 9)]
def hist2 : List Op := [.insert (mk2 0 0 9), .remove (mk2 5 0 9)]
def hist3 : List Op := [.insert (mk2 0 1 9), .remove (mk2 5 1 9)]

example : (do let a ← run 1 emptyIdx hist1; let b ← run 1 emptyIdx hist2; some (regEq 1 a b)) = some true := by decide
example : (do let a ← run 1 emptyIdx hist1; let b ← run 1 emptyIdx hist3; some (regEq 1 a b)) = some false := by decide

end LGD.C02
