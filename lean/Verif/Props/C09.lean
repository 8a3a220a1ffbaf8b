import Verif.Props.C12
import Verif.Region.TopoExpand

/-!
# C09 – `expandWithTopology`
-/

namespace LGD.C09
open LGD.C01 LGD.C14

/-- Spec: the grid coordinate `c` is where `c1` ends up in a grid of size `dim`: periodic axes are reduced modulo the extent,
on constant axes the coordinate has to be inside already. -/
def ImageIn (n : Nat) (wraps : Nat → Bool) (dim c1 c : Crd) : Prop :=
  InDim n dim c ∧ ∀ k, k ≤ n → (wraps k = true → c1 k % dim k = c k) ∧ (wraps k = false → c1 k = c k)

theorem img_iff (n : Nat) (wraps : Nat → Bool) (dim c1 c : Crd) : Img n wraps dim c1 c ↔ ImageIn n wraps dim c1 c := by
  unfold Img ImageIn InDim
  constructor
  · intro h
    refine ⟨fun k hk => ⟨(h k hk).1, (h k hk).2.1⟩, fun k hk => ⟨fun hw => ?_, fun hw => ?_⟩⟩
    · have := h k hk
      rw [hw] at this
      have h2 : dim k ∣ c1 k - c k := by simpa using this.2.2
      have h1 := (Int.emod_eq_emod_iff_emod_sub_eq_zero).2 (Int.emod_eq_zero_of_dvd h2)
      rw [h1, Int.emod_eq_of_lt this.1 this.2.1]
    · have := h k hk
      rw [hw] at this
      simpa using this.2.2
  · rintro ⟨h1, h2⟩ k hk
    refine ⟨(h1 k hk).1, (h1 k hk).2, ?_⟩
    cases hw : wraps k
    · simpa using (h2 k hk).2 hw
    · simp only [if_true]
      rw [← (h2 k hk).1 hw]
      exact ⟨c1 k / dim k, by have := Int.emod_add_mul_ediv (c1 k) (dim k); omega⟩

/-- **C09.** For every region inside the grid, every combination of periodic and constant axes, and every width that does not
exceed the extent of any periodic axis, `expandWithTopology` yields exactly the images of the coordinates within the
given maximum-norm distance. Missing: widths larger than a periodic extent (see `wide_expansion_wrong`). -/
theorem expandWithTopology_partial (n : Nat) (idx : Idx) (h : RegOK n idx) (w : Nat) (dim : Crd) (wraps : Nat → Bool)
    (hin : ∀ c, RMem n idx c → InDim n dim c) (hw : ∀ k, k ≤ n → wraps k = true → (w : Int) ≤ dim k) :
    ∃ r, expandWithTopology n idx w dim wraps = some r ∧ RegOK n r ∧
      ∀ c, RMem n r c ↔ ∃ c0, RMem n idx c0 ∧ ∃ c1, (∀ k, k ≤ n → -(w : Int) ≤ c1 k - c0 k ∧ c1 k - c0 k ≤ w) ∧
        ImageIn n wraps dim c1 c := by
  obtain ⟨r, h1, h2, h3⟩ := expandWithTopology_spec n idx h w dim wraps hin hw
  refine ⟨r, h1, h2, fun c => ?_⟩
  rw [h3]
  simp only [img_iff]

/-- The result stays inside the grid and contains the region. -/
theorem inside_and_extensive (n : Nat) (idx : Idx) (h : RegOK n idx) (w : Nat) (dim : Crd) (wraps : Nat → Bool)
    (hin : ∀ c, RMem n idx c → InDim n dim c) (hw : ∀ k, k ≤ n → wraps k = true → (w : Int) ≤ dim k) :
    ∃ r, expandWithTopology n idx w dim wraps = some r ∧ (∀ c, RMem n r c → InDim n dim c) ∧ ∀ c, RMem n idx c → RMem n r c := by
  obtain ⟨r, h1, _, h3⟩ := expandWithTopology_partial n idx h w dim wraps hin hw
  refine ⟨r, h1, fun c hc => ?_, fun c hc => (h3 c).2 ⟨c, hc, c, fun k _ => by omega, hin c hc, fun k hk => ⟨fun _ => ?_, fun _ => rfl⟩⟩⟩
  · obtain ⟨_, _, _, _, hi, _⟩ := (h3 c).1 hc
    exact hi
  · have := hin c hc k hk
    exact Int.emod_eq_of_lt this.1 this.2

/-- On a grid with constant boundaries only, there is no restriction on the width. -/
theorem cube_expansion (n : Nat) (idx : Idx) (h : RegOK n idx) (w : Nat) (dim : Crd) (hin : ∀ c, RMem n idx c → InDim n dim c) :
    ∃ r, expandWithTopology n idx w dim (fun _ => false) = some r ∧ RegOK n r ∧
      ∀ c, RMem n r c ↔ InDim n dim c ∧ ∃ c0, RMem n idx c0 ∧ ∀ k, k ≤ n → -(w : Int) ≤ c k - c0 k ∧ c k - c0 k ≤ w := by
  obtain ⟨r, h1, h2, h3⟩ := expandWithTopology_partial n idx h w dim (fun _ => false) hin (fun _ _ h => Bool.noConfusion h)
  refine ⟨r, h1, h2, fun c => ?_⟩
  rw [h3]
  constructor
  · rintro ⟨c0, a, c1, b, d, e⟩
    refine ⟨d, c0, a, fun k hk => ?_⟩
    have := (e k hk).2 rfl
    have := b k hk
    omega
  · rintro ⟨d, c0, a, b⟩
    exact ⟨c0, a, c, b, d, fun k _ => ⟨fun h => Bool.noConfusion h, fun _ => rfl⟩⟩

/-! ### non-vacuity and the failing case -/

/-- a 2D torus of 4 × 3 cells, region = the corner cell; width 1 reaches all four corners -/
example : ((C01.run 1 emptyIdx [.insert (mk2 0 0 1)]).bind (fun i => (expandWithTopology 1 i 1 (c3 4 3 0) (fun _ => true)).bind (toVector 1))).map
    (List.map (fun s => (s.origin 0, s.origin 1, s.endX))) =
    some [(0, 0, 2), (3, 0, 4), (0, 1, 2), (3, 1, 4), (0, 2, 2), (3, 2, 4)] := by decide +kernel

/-- the full 2 × 2 torus -/
def full22 : Option Idx := C01.run 1 emptyIdx [.insert (mk2 0 0 2), .insert (mk2 0 1 2)]

/-- The statement fails for widths beyond a periodic extent: on a 2 × 2 torus, expanding the full region by 3 delivers
coordinates outside of the grid. -/
theorem wide_expansion_wrong : ∃ i r, full22 = some i ∧ expandWithTopology 1 i 3 (c3 2 2 0) (fun _ => true) = some r ∧
    regCountCoord 1 r (c3 3 0 0) = some true ∧ ¬ InDim 1 (c3 2 2 0) (c3 3 0 0) := by
  have h : ((full22.bind (fun i => expandWithTopology 1 i 3 (c3 2 2 0) (fun _ => true))).bind
      (fun r => regCountCoord 1 r (c3 3 0 0))) = some true := by decide +kernel
  cases hi : full22 with
  | none => rw [hi] at h; cases h
  | some i =>
    rw [hi, Option.bind_some] at h
    cases hr : expandWithTopology 1 i 3 (c3 2 2 0) (fun _ => true) with
    | none => rw [hr] at h; cases h
    | some r =>
      rw [hr, Option.bind_some] at h
      exact ⟨i, r, rfl, hr, h, fun hc => by have := (hc 0 (by omega)).2; simp [c3] at this⟩

end LGD.C09
