import Verif.Region.SetOps

/-!
# Regions given by their index tables (for examples)
-/

namespace LGD

/-- a region given by its tables, if they are those which result from inserting some streaks -/
theorem regLit (n : Nat) (l : List Streak) (idx : Idx)
    (h : (insAll n emptyIdx l).map (fun r => (List.range (n + 1)).map r) = some ((List.range (n + 1)).map idx)) : RegOK n idx ∧ ∀ c, RMem n idx c ↔ U n l c := by
  obtain ⟨r, e, ⟨t, hr⟩, hm⟩ := insAll_spec n l emptyIdx (regOK_empty n)
  rw [e] at h
  simp only [Option.map_some, Option.some.injEq] at h
  have hi : Rep n idx t := ⟨hr.ok, fun k hk => by
    rw [← hr.eq k hk]
    exact ((List.map_inj_left.mp h) k (List.mem_range.mpr (by omega))).symm⟩
  refine ⟨⟨t, hi⟩, fun c => ?_⟩
  rw [hi.mem_iff, ← hr.mem_iff, hm]
  exact ⟨fun h => h.elim (fun h => (regEmpty_mem n c h).elim) id, Or.inr⟩

end LGD
