import Verif.Region.Access
import Verif.Props.C05

/-!
# C06 – Random access into a region agrees with iteration
-/

namespace LGD.C06

/-- **C06 (streaks).** `region[i]` yields an iterator from which iteration produces exactly the streaks from the `i`-th on
(none if `i ≥ numStreaks()`). -/
theorem index_access (n : Nat) (idx : Idx) (h : RegOK n idx) (i : Nat) :
    ∃ l it, toVector n idx = some l ∧ siAt n idx i = some it ∧ (∀ hi : i < l.length, it.streak = l[i]) ∧
      streakLoop n idx (fun _ => 0) 0 (numStreaks idx + 1) it = some (l.drop i) := by
  obtain ⟨t, ht⟩ := h
  obtain ⟨it, h1, h2, h3⟩ := siAt_spec ht i
  refine ⟨_, it, toVector_eq ht, h1, ?_, loop_from ht i it h2 h3⟩
  intro hi
  simp only [List.length_map, List.length_range] at hi
  rw [(h2 hi).streak, shiftS_zero]
  simp

/-- **C06 (planes).** `numPlanes()` is the number of distinct values of the highest coordinate, and
`planeStreakIterator(k)` yields an iterator from which iteration produces exactly the streaks from the `k`-th such value on;
for `k ≥ numPlanes()` it yields nothing. -/
theorem plane_access (n : Nat) (idx : Idx) (h : RegOK n idx) :
    ∃ l, toVector n idx = some l ∧ (l.map (fun s => s.origin n)).eraseDups.length = (idx n).length ∧
      ∀ k, ∃ it, planeIt n idx k = some it ∧
        (∀ hk : k < (l.map (fun s => s.origin n)).eraseDups.length,
          streakLoop n idx (fun _ => 0) 0 (numStreaks idx + 1) it =
            some (l.dropWhile (fun s => decide (s.origin n < (l.map (fun s => s.origin n)).eraseDups[k])))) ∧
        ((l.map (fun s => s.origin n)).eraseDups.length ≤ k →
          streakLoop n idx (fun _ => 0) 0 (numStreaks idx + 1) it = some []) := by
  obtain ⟨t, ht⟩ := h
  have hk := ht.keys
  refine ⟨_, toVector_eq ht, by rw [hk]; simp, ?_⟩
  intro k
  by_cases hkl : k < (idx n).length
  · obtain ⟨it, i, h1, h2, h3, h4, h5⟩ := planeIt_spec ht k hkl
    refine ⟨it, h1, ?_, ?_⟩
    · intro hk'
      rw [numStreaks, loop_from ht i it (fun _ => h3) (by omega)]
      congr 1
      rw [← plane_dropWhile ht k i hkl h4]
      congr 1
      funext s
      congr 2
      simp only [hk, List.getElem_map]
    · rw [hk]; simp only [List.length_map]; omega
  · refine ⟨if k = 0 then (siBegin n idx (fun _ => 0) 0).getD (siEnd idx) else siEnd idx, ?_, ?_, ?_⟩
    · unfold planeIt
      by_cases h0 : k = 0
      · obtain ⟨it, i1, _, _⟩ := siBegin_spec ht (fun _ => 0) 0
        rw [if_pos h0, if_pos h0, i1]; rfl
      · rw [if_neg h0, if_neg h0, if_pos (by omega)]
    · rw [hk]; simp only [List.length_map]; omega
    · intro _
      by_cases h0 : k = 0
      · have hn : (idx n).length = 0 := by omega
        have h00 : (idx 0).length = 0 := by
          have := ht.empty_iff
          rw [ht.len] at hn
          exact this.2 ((topLen_eq_zero n t).1 hn)
        obtain ⟨it, i1, _, i3⟩ := siBegin_spec ht (fun _ => 0) 0
        rw [if_pos h0, i1, Option.getD_some, streakLoop, if_pos (i3 h00)]
      · rw [if_neg h0, streakLoop, if_pos (siEq_end_refl n idx)]

/-! non-vacuity -/

example : (C05.sample.bind (fun i => (siAt 2 i 2).map (fun it => (it.streak.origin 0, it.streak.origin 1, it.streak.origin 2)))) =
    some (0, 1, 0) := by decide

example : (C05.sample.bind (fun i => (planeIt 2 i 1).map (fun it => (it.streak.origin 0, it.streak.origin 1, it.streak.origin 2)))) =
    some (5, 1, 1) := by decide

end LGD.C06
