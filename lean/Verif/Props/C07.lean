import Verif.Region.OnAfter
import Verif.Props.C05

/-!
# C07 – `streakIteratorOnOrAfter`
-/

namespace LGD.C07
open LGD.C05 (Before mk3)

/-- The wanted behaviour: the returned iterator continues with exactly those streaks that do not start before `c`. -/
def FindsFirst (n : Nat) (idx : Idx) (c : Crd) : Prop :=
  ∃ l it i, toVector n idx = some l ∧ onAfter n idx c = some it ∧ i ≤ l.length ∧
    (∀ j (hj : j < l.length), Before n (l[j]).origin c ↔ j < i) ∧
    streakLoop n idx (fun _ => 0) 0 (numStreaks idx + 1) it = some (l.drop i)

/-- On every inner axis `k` (neither the x-axis nor the highest one): if the region contains coordinates which agree with
`c` above axis `k`, then it contains such a coordinate which is not before `c` on axis `k`. -/
def InnerHit (n : Nat) (idx : Idx) (c : Crd) : Prop :=
  ∀ k, 1 ≤ k → k < n → (∃ c', RMem n idx c' ∧ ∀ m, k < m → m ≤ n → c' m = c m) →
    ∃ c', RMem n idx c' ∧ (∀ m, k < m → m ≤ n → c' m = c m) ∧ c k ≤ c' k

/-- **C07, partial.** Correct if the query does not run beyond the end of a plane. Missing for the full property: the
other 3D queries, which fail (see `not_finds_first_3d`). -/
theorem finds_first_partial (n : Nat) (idx : Idx) (h : RegOK n idx) (c : Crd) (hi : InnerHit n idx c) : FindsFirst n idx c := by
  obtain ⟨t, ht⟩ := h
  have H : NoOvershoot n idx c := by
    intro k hk hkn hj
    obtain ⟨j, hj1, hj2⟩ := hj
    have hcan := ht.canon
    have hin : ∀ s ∈ (List.range (idx 0).length).map (streakAt n idx), RMem n idx s.origin := by
      intro s hs
      exact (hcan.mem _).2 ⟨s, hs, fun _ _ _ => rfl, by omega, hcan.pos s hs⟩
    have hjm : streakAt n idx j ∈ (List.range (idx 0).length).map (streakAt n idx) := List.mem_map.2 ⟨j, by simpa using hj1, rfl⟩
    obtain ⟨c', h1, h2, h3⟩ := hi k hk hkn ⟨(streakAt n idx j).origin, hin _ hjm, hj2⟩
    obtain ⟨s, h4, h5⟩ := (hcan.mem _).1 h1
    obtain ⟨j', h6, rfl⟩ := List.mem_map.1 h4
    refine ⟨j', by simpa using h6, ?_, ?_⟩
    · intro m hm hmn
      rw [← h5.1 m (by omega) hmn]; exact h2 m hm hmn
    · rw [← h5.1 k hk (by omega)]; exact h3
  obtain ⟨it, i, h1, h2, h3, h4, h5⟩ := onAfter_spec ht c H
  refine ⟨_, it, i, toVector_eq ht, h1, by simpa using h2, ?_, loop_from ht i it h3 h4⟩
  intro j hj
  simp only [List.length_map, List.length_range] at hj
  simp only [List.getElem_map, List.getElem_range]
  exact h5 j hj

/-- **C07 in one and two dimensions**: no restriction. -/
theorem finds_first_1d_2d (n : Nat) (hn : n ≤ 1) (idx : Idx) (h : RegOK n idx) (c : Crd) : FindsFirst n idx c :=
  finds_first_partial n idx h c (fun k h1 h2 => by omega)

/-- A 3D region with one cell in each of two planes. -/
def bad : Option Idx := C01.run 2 emptyIdx [.insert (mk3 0 0 0 1), .insert (mk3 0 1 1 1)]

/-- **The full property is false in 3D**: searching (0, 1, 0) in {(0,0,0), (0,1,1)} yields `endStreak()` although
(0,1,1) starts after it. (region.h:1406 stores a coordinate instead of an offset.) -/
theorem not_finds_first_3d : ¬ ∀ (idx : Idx) (c : Crd), RegOK 2 idx → FindsFirst 2 idx c := by
  intro hall
  obtain ⟨idx, h, -⟩ := C01.region_is_set 2 [.insert (mk3 0 0 0 1), .insert (mk3 0 1 1 1)]
  have hok := (C01.run_ok 2 _ idx h).1
  let c : Crd := fun k => if k = 1 then 1 else 0
  obtain ⟨l, it, i, h1, h2, h3, h4, h5⟩ := hall idx c hok
  have e1 : (bad.bind (fun j => (onAfter 2 j c).bind (fun it => (streakLoop 2 j (fun _ => 0) 0 (numStreaks j + 1) it).map
      List.length))) = some 0 := by decide
  have e2 : (bad.bind (fun j => (toVector 2 j).map (fun l => (l.length, l.map (fun s => (s.origin 0, s.origin 1, s.origin 2)))))) =
      some (2, [(0, 0, 0), (0, 1, 1)]) := by decide
  have hb : bad = some idx := h
  rw [hb] at e1 e2
  simp only [Option.bind_some, h1, h2, h5, Option.map_some, Option.some.injEq, Prod.mk.injEq] at e1 e2
  obtain ⟨e2, e3⟩ := e2
  have hi2 : i = 2 := by
    rw [List.length_drop] at e1; omega
  have := (h4 1 (by omega)).2 (by omega)
  have hl : (l.map (fun s => (s.origin 0, s.origin 1, s.origin 2)))[1]? = some (0, 1, 1) := by rw [e3]; rfl
  rw [List.getElem?_map, List.getElem?_eq_getElem (by omega)] at hl
  simp only [Option.map_some, Option.some.injEq, Prod.mk.injEq] at hl
  obtain ⟨a, b, d⟩ := hl
  obtain ⟨k, k1, k2, k3⟩ := this
  have hk : k = 0 ∨ k = 1 ∨ k = 2 := by omega
  have hc0 : c 0 = 0 := rfl
  have hc1 : c 1 = 1 := rfl
  have hc2 : c 2 = 0 := rfl
  rcases hk with rfl | rfl | rfl
  · omega
  · omega
  · omega

/-! non-vacuity of the partial theorem: 3D region, a query that passes the end of a row -/

example : (C05.sample.bind (fun i => (onAfter 2 i (fun k => if k = 0 then 3 else 0)).map
    (fun it => (it.streak.origin 0, it.streak.origin 1, it.streak.origin 2)))) = some (4, 0, 0) := by decide

example : (C05.sample.bind (fun i => (onAfter 2 i (fun k => if k = 0 then 9 else 0)).map
    (fun it => (it.streak.origin 0, it.streak.origin 1, it.streak.origin 2)))) = some (0, 1, 0) := by decide

/-- the hypothesis `InnerHit` holds for a non-trivial 3D region and query -/
example : ∀ idx, bad = some idx → InnerHit 2 idx (fun _ => 0) := by
  intro idx h k h1 h2 _
  have hk : k = 1 := by omega
  subst hk
  have := (C01.run_ok 2 _ idx h).2 (fun _ => 0)
  refine ⟨fun _ => 0, this.2 ?_, fun _ _ _ => rfl, by omega⟩
  left; right
  exact ⟨by simp [mk3], by simp [mk3], fun k _ _ => by simp [mk3]⟩

end LGD.C07
