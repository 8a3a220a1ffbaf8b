import Verif.Props.C12
import Verif.Region.SetOps

/-!
# C42 – adding and removing a `CoordBox` to/from a `Region`
-/

namespace LGD.C42
open LGD.C01 LGD.C12

theorem boxRegion (n : Nat) (b : Box) (h0 : 0 ≤ b.dims 0) (hd : ∀ k, 1 ≤ k → k < n → 0 < b.dims k) (hl : 0 ≤ b.dims n)
    (fuel : Nat) (hf : (Volume n (rows n b)).toNat < fuel) :
    ∃ ss buf, boxStreaks n b fuel = some ss ∧ insAll n emptyIdx ss = some buf ∧ RegOK n buf ∧
      ∀ c, RMem n buf c ↔ InBox n b c := by
  obtain ⟨ss, h1, h2, _⟩ := streaks_partial n b h0 hd hl fuel hf
  obtain ⟨buf, h3, h4, h5⟩ := insAll_spec n ss emptyIdx (regOK_empty n)
  refine ⟨ss, buf, h1, h3, h4, fun c => ?_⟩
  rw [h5, ← h2]
  unfold U
  constructor
  · rintro (h | ⟨s, h, h'⟩)
    · exact (regEmpty_mem n c h).elim
    · exact ⟨s, h, (inStreak_iff n s c).2 h'⟩
  · rintro ⟨s, h, h'⟩; exact Or.inr ⟨s, h, (inStreak_iff n s c).1 h'⟩

/-- `region << box` yields the union, `region >> box` the difference, for every region and every box whose inner extents
(axes strictly between first and last) are positive. -/
theorem box_insert_remove_partial (n : Nat) (idx : Idx) (h : RegOK n idx) (b : Box) (h0 : 0 ≤ b.dims 0)
    (hd : ∀ k, 1 ≤ k → k < n → 0 < b.dims k) (hl : 0 ≤ b.dims n) (fuel : Nat) (hf : (Volume n (rows n b)).toNat < fuel) :
    (∃ r, regInsertBox n idx b fuel = some r ∧ RegOK n r ∧ ∀ c, RMem n r c ↔ RMem n idx c ∨ InBox n b c) ∧
      (∃ r, regRemoveBox n idx b fuel = some r ∧ RegOK n r ∧ ∀ c, RMem n r c ↔ RMem n idx c ∧ ¬ InBox n b c) := by
  obtain ⟨ss, buf, h1, h2, h3, h4⟩ := boxRegion n b h0 hd hl fuel hf
  constructor
  · obtain ⟨la, a1, _, a3⟩ := toVector_spec h
    obtain ⟨lb, b1, _, b3⟩ := toVector_spec h3
    obtain ⟨r, r1, r2, r3⟩ := merge2_spec n emptyIdx la lb (regOK_empty n)
    refine ⟨r, by simp only [regInsertBox, h1, h2, a1, b1, r1, Option.bind_some], r2, fun c => ?_⟩
    rw [r3, ← h4, a3.memU, b3.memU]
    have := regEmpty_mem n c
    constructor
    · rintro (hh | hh)
      · exact (this hh).elim
      · exact hh
    · exact Or.inr
  · obtain ⟨r, r1, r2, r3⟩ := regMinus_spec n idx buf h h3
    refine ⟨r, by simp only [regRemoveBox, h1, h2, regMinusAssign, r1, Option.bind_some], r2, fun c => ?_⟩
    rw [r3, h4]

/-- For 1D and 2D regions there is no restriction apart from non-negative extents. -/
theorem box_insert_remove_low_dim (n : Nat) (hn : n ≤ 1) (idx : Idx) (h : RegOK n idx) (b : Box) (h0 : 0 ≤ b.dims 0)
    (hl : 0 ≤ b.dims n) : ∃ fuel,
    (∃ r, regInsertBox n idx b fuel = some r ∧ RegOK n r ∧ ∀ c, RMem n r c ↔ RMem n idx c ∨ InBox n b c) ∧
      (∃ r, regRemoveBox n idx b fuel = some r ∧ RegOK n r ∧ ∀ c, RMem n r c ↔ RMem n idx c ∧ ¬ InBox n b c) :=
  ⟨_, box_insert_remove_partial n idx h b h0 (fun k _ _ => by omega) hl _ (Nat.lt_succ_self _)⟩

/-- In 3D an empty box with zero y-extent but non-zero z-extent makes `<<` and `>>` run forever. -/
theorem box_insert_hangs (idx : Idx) (b : Box) (hy : b.dims 1 = 0) (hz : b.dims 2 ≠ 0) (fuel : Nat) :
    regInsertBox 2 idx b fuel = none ∧ regRemoveBox 2 idx b fuel = none := by
  have := streaks_zero_extent_hangs 2 b 1 (by omega) (by omega) hy hz fuel
  simp only [regInsertBox, regRemoveBox, this, Option.bind_none, and_self]

/-! non-vacuity: box added to and removed from a region -/

example : (((regInsertBox 1 emptyIdx (bx 0 0 0 3 2 0) 5).bind (fun r => regInsertBox 1 r (bx 2 1 0 3 2 0) 5)).bind (toVector 1)).map
    (List.map (fun s => (s.origin 0, s.origin 1, s.endX))) = some [(0, 0, 3), (0, 1, 5), (2, 2, 5)] := by decide +kernel
example : (((regInsertBox 1 emptyIdx (bx 0 0 0 3 2 0) 5).bind (fun r => regRemoveBox 1 r (bx 2 1 0 3 2 0) 5)).bind (toVector 1)).map
    (List.map (fun s => (s.origin 0, s.origin 1, s.endX))) = some [(0, 0, 3), (0, 1, 2)] := by decide +kernel
example : (boxStreaks 2 (bx 0 0 0 3 0 4) 100) = none := streaks_zero_extent_hangs 2 _ 1 (by omega) (by omega) rfl (by decide) _

end LGD.C42
