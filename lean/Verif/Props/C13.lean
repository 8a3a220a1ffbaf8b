import Verif.Props.C14

/-!
# C13 – topologies: normalization and lookup
-/

namespace LGD.C13
open LGD.C14

/-- Spec: `c` lies at most one period outside of `[0, dim)` on every periodic axis. -/
def OnePeriod (n : Nat) (wraps : Nat → Bool) (dim c : Crd) : Prop :=
  ∀ k, k ≤ n → wraps k = true → -dim k ≤ c k ∧ c k < 2 * dim k

/-- Spec: some constant (non-periodic) axis is outside. -/
def Outside (n : Nat) (wraps : Nat → Bool) (dim c : Crd) : Prop :=
  ∃ k, k ≤ n ∧ wraps k = false ∧ ¬ (0 ≤ c k ∧ c k < dim k)

theorem outOfBounds_iff (n : Nat) (wraps : Nat → Bool) (c dim : Crd) :
    outOfBounds n wraps c dim = true ↔ Outside n wraps dim c := by
  unfold outOfBounds Outside
  simp only [List.any_eq_true, List.mem_range, Bool.and_eq_true, Bool.not_eq_true', Bool.or_eq_true, decide_eq_true_eq]
  constructor
  · rintro ⟨k, h1, h2, h3⟩; exact ⟨k, by omega, h2, by omega⟩
  · rintro ⟨k, h1, h2, h3⟩; exact ⟨k, by omega, h2, by omega⟩

theorem normEdges_mod (n : Nat) (wraps : Nat → Bool) (dim c : Crd) (hp : OnePeriod n wraps dim c)
    (ho : ¬ Outside n wraps dim c) (k : Nat) (hk : k ≤ n) : normEdges c dim k = c k % dim k := by
  have hr : -dim k ≤ c k ∧ c k < 2 * dim k := by
    by_cases hw : wraps k = true
    · exact hp k hk hw
    · by_cases hb : 0 ≤ c k ∧ c k < dim k
      · omega
      · exact (ho ⟨k, hk, by simpa using hw, hb⟩).elim
  unfold normEdges wrap1
  split
  · rw [← Int.add_emod_right, Int.emod_eq_of_lt (by omega) (by omega)]
  · split
    · rw [← Int.sub_emod_right, Int.emod_eq_of_lt (by omega) (by omega)]
    · rw [Int.emod_eq_of_lt (by omega) (by omega)]

/-- **C13 (normalize).** Within one period, `normalize` yields the out-of-bounds marker `(-1, …)` exactly if a constant axis
is outside, and otherwise the residues modulo the extents, which are in bounds and a fixed point. -/
theorem normalize_spec (n : Nat) (wraps : Nat → Bool) (dim c : Crd) (hd : ∀ k, k ≤ n → 0 < dim k) (hp : OnePeriod n wraps dim c) :
    (Outside n wraps dim c → ∀ k, topoNormalize n wraps c dim k = -1) ∧
    (¬ Outside n wraps dim c → (∀ k, k ≤ n → topoNormalize n wraps c dim k = c k % dim k) ∧
      InDim n dim (topoNormalize n wraps c dim) ∧
      ∀ k, k ≤ n → topoNormalize n wraps (topoNormalize n wraps c dim) dim k = topoNormalize n wraps c dim k) := by
  constructor
  · intro h k
    unfold topoNormalize
    rw [if_pos ((outOfBounds_iff n wraps c dim).2 h)]
  · intro h
    have e : topoNormalize n wraps c dim = normEdges c dim := by
      unfold topoNormalize
      rw [if_neg (fun hh => h ((outOfBounds_iff n wraps c dim).1 hh))]
    have e1 : ∀ k, k ≤ n → normEdges c dim k = c k % dim k := normEdges_mod n wraps dim c hp h
    have hin : InDim n dim (normEdges c dim) := fun k hk => by
      rw [e1 k hk]
      have := hd k hk
      exact ⟨Int.emod_nonneg _ (by omega), Int.emod_lt_of_pos _ this⟩
    rw [e]
    refine ⟨e1, hin, fun k hk => ?_⟩
    have ho : ¬ Outside n wraps dim (normEdges c dim) := by
      rintro ⟨j, hj, _, hb⟩; exact hb (hin j hj)
    unfold topoNormalize
    rw [if_neg (fun hh => ho ((outOfBounds_iff n wraps _ dim).1 hh))]
    have := hin k hk
    show wrap1 (normEdges c dim k) (dim k) = _
    unfold wrap1
    rw [if_neg (by omega), if_neg (by omega)]

/-- the marker is never an in-bounds coordinate, so the two cases can be told apart -/
theorem marker_distinct (n : Nat) (wraps : Nat → Bool) (dim c : Crd) (hd : ∀ k, k ≤ n → 0 < dim k) (hp : OnePeriod n wraps dim c) :
    Outside n wraps dim c ↔ topoNormalize n wraps c dim 0 = -1 := by
  have h := normalize_spec n wraps dim c hd hp
  constructor
  · intro ho; exact h.1 ho 0
  · intro hm
    by_cases ho : Outside n wraps dim c
    · exact ho
    · have := ((h.2 ho).2.1 0 (by omega)).1
      omega

/-- **C13 (locate).** For 1D–3D grids, a lookup hits the edge cell exactly if a constant axis is outside, and otherwise the
array element with the linear index of the residues; that index is within the array. -/
theorem locate_spec (n : Nat) (hn : n ≤ 2) (wraps : Nat → Bool) (dim c : Crd) (hd : ∀ k, k ≤ n → 0 < dim k)
    (hp : OnePeriod n wraps dim c) :
    (Outside n wraps dim c → topoLocate n wraps c dim = none) ∧
    (¬ Outside n wraps dim c → ∃ i, topoLocate n wraps c dim = some i ∧ i = toIndex n (fun k => c k % dim k) dim ∧
      0 ≤ i ∧ i < C12.Volume n dim) := by
  constructor
  · intro h
    unfold topoLocate
    rw [if_pos ((outOfBounds_iff n wraps c dim).2 h)]
  · intro h
    have e1 : ∀ k, k ≤ n → normEdges c dim k = c k % dim k := normEdges_mod n wraps dim c hp h
    have hin : InDim n dim (normEdges c dim) := fun k hk => by
      rw [e1 k hk]
      have := hd k hk
      exact ⟨Int.emod_nonneg _ (by omega), Int.emod_lt_of_pos _ this⟩
    refine ⟨toIndex n (normEdges c dim) dim, ?_, ?_, ?_⟩
    · unfold topoLocate
      rw [if_neg (fun hh => h ((outOfBounds_iff n wraps c dim).1 hh))]
    · rw [toIndex_lin n hn, toIndex_lin n hn]
      exact lin_congr dim n 0 _ _ (fun j _ hj => e1 j (by omega))
    · have := (index_bijection n hn dim hd).1 _ hin
      exact ⟨this.1, this.2.1⟩

/-- Two coordinates with the same residues on every axis are the same cell of a torus. -/
theorem torus_periodic (n : Nat) (hn : n ≤ 2) (dim a b : Crd) (hd : ∀ k, k ≤ n → 0 < dim k)
    (ha : OnePeriod n (fun _ => true) dim a) (hb : OnePeriod n (fun _ => true) dim b) :
    topoLocate n (fun _ => true) a dim = topoLocate n (fun _ => true) b dim ↔ ∀ k, k ≤ n → a k % dim k = b k % dim k := by
  have oa : ¬ Outside n (fun _ => true) dim a := by rintro ⟨k, _, h, _⟩; cases h
  have ob : ¬ Outside n (fun _ => true) dim b := by rintro ⟨k, _, h, _⟩; cases h
  obtain ⟨i, h1, h2, _⟩ := (locate_spec n hn _ dim a hd ha).2 oa
  obtain ⟨j, h3, h4, _⟩ := (locate_spec n hn _ dim b hd hb).2 ob
  rw [h1, h3, h2, h4, Option.some.injEq]
  have hin : ∀ c : Crd, InDim n dim (fun k => c k % dim k) := fun c k hk =>
    ⟨Int.emod_nonneg _ (by have := hd k hk; omega), Int.emod_lt_of_pos _ (hd k hk)⟩
  constructor
  · intro h k hk
    have ea := ((index_bijection n hn dim hd).1 _ (hin a)).2.2 k hk
    have eb := ((index_bijection n hn dim hd).1 _ (hin b)).2.2 k hk
    rw [h] at ea
    exact ea.symm.trans eb
  · intro h
    rw [toIndex_lin n hn, toIndex_lin n hn]
    exact lin_congr dim n 0 _ _ (fun l _ hl => h l (by omega))

/-- Without the one-period hypothesis `normalize` on a torus does *not* produce in-bounds coordinates. -/
theorem normalize_two_periods : topoNormalize 0 (fun _ => true) (fun _ => 7) (fun _ => 3) 0 = 4 := by decide

/-! non-vacuity: a cylinder (x periodic, y constant) -/

def cyl : Nat → Bool := fun k => k == 0

example : OnePeriod 1 cyl (c3 4 3 0) (c3 (-1) 2 0) ∧ ¬ Outside 1 cyl (c3 4 3 0) (c3 (-1) 2 0) ∧
    topoLocate 1 cyl (c3 (-1) 2 0) (c3 4 3 0) = some 11 := by
  refine ⟨?_, ?_, by decide⟩
  · intro k hk hw
    have : k = 0 := by simpa [cyl] using hw
    subst this; decide
  · rw [← outOfBounds_iff]; decide
example : Outside 1 cyl (c3 4 3 0) (c3 (-1) 3 0) := by rw [← outOfBounds_iff]; decide

end LGD.C13
