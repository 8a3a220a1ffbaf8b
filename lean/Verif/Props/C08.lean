import Verif.Props.C01
import Verif.Region.Expand

/-!
# C08 – `expand` computes the maximum-norm neighborhood
-/

namespace LGD.C08
open LGD.C01

/-- Spec: `c'` lies in the box with half extents `radii` around `c`. -/
def Within (n : Nat) (radii : Crd) (c c' : Crd) : Prop := ∀ k, k ≤ n → -radii k ≤ c' k - c k ∧ c' k - c k ≤ radii k

/-- **C08.** For every region (any dimension) and all non-negative radii, `expand` terminates without undefined behaviour
and yields exactly the coordinates within the given radii of some coordinate of the region. -/
theorem expand_neighborhood (n : Nat) (idx : Idx) (h : RegOK n idx) (radii : Crd) (hr : ∀ k, k ≤ n → 0 ≤ radii k) :
    ∃ r, expand n idx radii = some r ∧ RegOK n r ∧ ∀ c, RMem n r c ↔ ∃ c0, RMem n idx c0 ∧ Within n radii c0 c := by
  obtain ⟨r, h1, h2, h3⟩ := expand_spec n idx radii hr h
  refine ⟨r, h1, h2, fun c => ?_⟩
  rw [h3]
  constructor
  · rintro ⟨c0, a, b⟩; exact ⟨c0, a, fun k hk => by have := b k hk; omega⟩
  · rintro ⟨c0, a, b⟩; exact ⟨c0, a, fun k hk => by have := b k hk; omega⟩

/-- `expand(width)` for histories, and composition: expanding by `a` and then by `b` equals expanding by `a + b`. -/
theorem expand_expand (n : Nat) (idx : Idx) (h : RegOK n idx) (a b : Nat) :
    ∃ x y z, expandW n idx a = some x ∧ expandW n x b = some y ∧ expandW n idx (a + b) = some z ∧ regEq n y z = true := by
  obtain ⟨x, h1, h2, h3⟩ := expand_neighborhood n idx h (fun _ => (a : Int)) (fun _ _ => by simp)
  obtain ⟨y, i1, ⟨ty, i2⟩, i3⟩ := expand_neighborhood n x h2 (fun _ => (b : Int)) (fun _ _ => by simp)
  obtain ⟨z, j1, ⟨tz, j2⟩, j3⟩ := expand_neighborhood n idx h (fun _ => ((a + b : Nat) : Int)) (fun _ _ => by omega)
  refine ⟨x, y, z, h1, i1, j1, ?_⟩
  rw [rep_eq_iff i2 j2]
  intro c
  rw [i3, j3]
  unfold Within
  constructor
  · rintro ⟨c1, hc1, w1⟩
    obtain ⟨c0, hc0, w0⟩ := (h3 c1).1 hc1
    refine ⟨c0, hc0, fun k hk => ?_⟩
    have := w1 k hk
    have := w0 k hk
    simp only at *
    omega
  · rintro ⟨c0, hc0, w⟩
    -- clamp the difference to the first radius
    refine ⟨fun k => c0 k + max (-(a : Int)) (min (a : Int) (c k - c0 k)), (h3 _).2 ⟨c0, hc0, fun k hk => ?_⟩, fun k hk => ?_⟩
    · simp only; omega
    · have := w k hk
      simp only at *
      omega

/-! non-vacuity: two far cells in 2D, radius (1, 4); the doubling loop of the y-axis runs once and is followed by the
final merge -/

def two : Option Idx := run 1 emptyIdx [.insert (mk2 0 0 1), .insert (mk2 10 1 11)]

example : ((two.bind (fun i => expand 1 i (fun k => if k = 0 then 1 else 4))).bind (toVector 1)).map
    (List.map (fun s => (s.origin 0, s.origin 1, s.endX))) =
    some [(-1, -4, 2), (-1, -3, 2), (9, -3, 12), (-1, -2, 2), (9, -2, 12), (-1, -1, 2), (9, -1, 12), (-1, 0, 2), (9, 0, 12),
      (-1, 1, 2), (9, 1, 12), (-1, 2, 2), (9, 2, 12), (-1, 3, 2), (9, 3, 12), (-1, 4, 2), (9, 4, 12), (9, 5, 12)] := by
  decide +kernel

end LGD.C08
