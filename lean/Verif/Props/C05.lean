import Verif.Region.Iter
import Verif.Props.C01

/-!
# C05 – Region iteration enumerates each coordinate exactly once in storage order
-/

namespace LGD.C05
open LGD.C01 (InStreak inStreak_iff)

/-- Storage order of coordinates: the highest axis is most significant. -/
def Before (n : Nat) (a b : Crd) : Prop := ∃ k, k ≤ n ∧ a k < b k ∧ ∀ j, k < j → j ≤ n → a j = b j

/-- Streak `s` ends before `s'` starts, in storage order; within one row there is a gap of at least one coordinate. -/
def StreakBefore (n : Nat) (s s' : Streak) : Prop :=
  (∃ k, 1 ≤ k ∧ k ≤ n ∧ s.origin k < s'.origin k ∧ ∀ j, k < j → j ≤ n → s.origin j = s'.origin j) ∨
    ((∀ j, 1 ≤ j → j ≤ n → s.origin j = s'.origin j) ∧ s.endX < s'.origin 0)

/-- **C05 (streaks).** Iterating from `beginStreak()` to `endStreak()` terminates without undefined behaviour and yields
`numStreaks()` non-empty, strictly ordered, non-mergeable streaks which together cover exactly the region. -/
theorem streak_iteration (n : Nat) (idx : Idx) (h : RegOK n idx) :
    ∃ l, toVector n idx = some l ∧ l.length = numStreaks idx ∧ (∀ s ∈ l, s.origin 0 < s.endX) ∧
      l.Pairwise (StreakBefore n) ∧ ∀ c, RMem n idx c ↔ ∃ s ∈ l, InStreak n s c := by
  obtain ⟨t, ht⟩ := h
  have hc := ht.canon
  refine ⟨_, toVector_eq ht, by simp [numStreaks], hc.pos, hc.sorted, fun c => ?_⟩
  rw [hc.mem]
  constructor
  · rintro ⟨s, h1, h2⟩; exact ⟨s, h1, (inStreak_iff n s c).2 h2⟩
  · rintro ⟨s, h1, h2⟩; exact ⟨s, h1, (inStreak_iff n s c).1 h2⟩

/-- **C05 (coordinates).** Iterating from `begin()` to `end()` terminates (`cs.length + 1` checks of the loop condition)
without undefined behaviour, visits coordinates in strictly ascending order (hence each at most once) and visits exactly
the coordinates of the region. -/
theorem coord_iteration (n : Nat) (idx : Idx) (h : RegOK n idx) :
    ∃ cs : List Crd, (∀ fuel, cs.length < fuel → allCoords n idx fuel = some cs) ∧ cs.Pairwise (Before n) ∧
      ∀ c, RMem n idx c ↔ ∃ c' ∈ cs, ∀ k, k ≤ n → c' k = c k := by
  obtain ⟨t, ht⟩ := h
  have hc := ht.canon
  have hl := lenFrom_eq n idx 0 (idx 0).length
  simp only [Nat.zero_add] at hl
  refine ⟨((List.range (idx 0).length).map (streakAt n idx)).flatMap coordsOf, ?_, flatMap_sorted n _ hc.pos hc.sorted, ?_⟩
  · intro fuel hf
    apply allCoords_eq ht
    rw [hl]; exact hf
  · intro c
    rw [hc.mem]
    constructor
    · rintro ⟨s, h1, h2⟩
      refine ⟨upd s.origin 0 (c 0), List.mem_flatMap.2 ⟨s, h1, (mem_coordsOf s _ (hc.pos s h1)).2 ⟨c 0, h2.2.1, h2.2.2, rfl⟩⟩, ?_⟩
      intro k hk
      unfold upd
      split
      · rename_i h; rw [h]
      · exact (h2.1 k (by omega) hk).symm
    · rintro ⟨c', h1, h2⟩
      obtain ⟨s, h3, h4⟩ := List.mem_flatMap.1 h1
      obtain ⟨y, h5, h6, rfl⟩ := (mem_coordsOf s c' (hc.pos s h3)).1 h4
      have h0 := h2 0 (by omega)
      simp only [upd, if_true] at h0
      refine ⟨s, h3, ?_, by omega, by omega⟩
      intro k hk hk'
      have := h2 k hk'
      simp only [upd] at this
      rw [if_neg (by omega)] at this
      exact this.symm

/-- Strictly ordered lists have no duplicates (even modulo axes beyond the dimension). -/
theorem before_irrefl (n : Nat) (a b : Crd) (h : Before n a b) : ∃ k, k ≤ n ∧ a k ≠ b k := by
  obtain ⟨k, h1, h2, _⟩ := h
  exact ⟨k, h1, by omega⟩

/-! non-vacuity: a 3D region with two planes and three rows, iterated -/

def mk3 (x y z e : Int) : Streak := { origin := fun k => if k = 0 then x else if k = 1 then y else z, endX := e }

def sample : Option Idx :=
  C01.run 2 emptyIdx [.insert (mk3 5 1 1 6), .insert (mk3 0 0 0 2), .insert (mk3 4 0 0 5), .insert (mk3 0 1 0 1)]

example : RegOK 2 (sample.getD emptyIdx) := by
  obtain ⟨idx, h, -⟩ := C01.region_is_set 2
    [.insert (mk3 5 1 1 6), .insert (mk3 0 0 0 2), .insert (mk3 4 0 0 5), .insert (mk3 0 1 0 1)]
  have : sample = some idx := h
  rw [this]
  exact (C01.run_ok 2 _ idx h).1

example : (sample.bind (fun i => allCoords 2 i 6)).map (fun l => l.map (fun c => (c 0, c 1, c 2))) =
    some [(0, 0, 0), (1, 0, 0), (4, 0, 0), (0, 1, 0), (5, 1, 1)] := by decide

end LGD.C05
