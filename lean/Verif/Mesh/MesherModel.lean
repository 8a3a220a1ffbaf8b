import Verif.Ieee.RoundModel

/-!
# `UnstructuredGridMesher`

`rd` is the rounding of arithmetic operations: `Ieee.rnd` for `double`, the identity for exact arithmetic. Dimensions are `d ≤ n`.
`none` is undefined behaviour: vectors accessed out of range, or infinite, undefined or too large numbers converted to `int`.
-/

namespace LGD.Mesher

abbrev Point := Nat → ℚ

/-- `round` of <cmath>: halves are rounded away from zero -/
def roundAway (x : ℚ) : ℤ := if 0 ≤ x then ⌊x + 1 / 2⌋ else -⌊-x + 1 / 2⌋

/-- range of `int` -/
def Fits (z : ℤ) : Prop := -2 ^ 31 ≤ z ∧ z < 2 ^ 31
instance (z : ℤ) : Decidable (Fits z) := by unfold Fits; infer_instance

/-- the members (unstructuredgridmesher.h:68-72) -/
structure Mesher where
  logicalGridDim : Nat → ℤ
  cellDim : Point
  gridDim : Point
  minCoord : Point
  maxCoord : Point

variable (rd : ℚ → ℚ) (n : Nat)

/-- the loop over the neighbors of a point (unstructuredgridmesher.h:90-93) -/
def overNeighbors (points : List Point) (p : Point) : List Nat → Point → Option Point
  | [], maxDelta => some maxDelta
  | j :: js, maxDelta => points[j]?.bind fun q => overNeighbors points p js fun d => max (maxDelta d) |rd (p d - q d)|

/-- the loop over points (unstructuredgridmesher.h:89-97): largest distance, minimum and maximum -/
def overPoints (points : List Point) (neighbors : List (List Nat)) : List Nat → Point × Point × Point → Option (Point × Point × Point)
  | [], a => some a
  | i :: is, a => points[i]?.bind fun p => neighbors[i]?.bind fun hood => (overNeighbors rd points p hood a.1).bind fun maxDelta =>
    overPoints points neighbors is (maxDelta, fun d => min (a.2.1 d) (p d), fun d => max (a.2.2 d) (p d))

/-- the constructor (unstructuredgridmesher.h:28-43, 74-101) -/
def make (points : List Point) (neighbors : List (List Nat)) : Option Mesher :=
  points.head?.bind fun p => (overPoints rd points neighbors (List.range points.length) (fun _ => 0, p, p)).bind fun a =>
    let gridDim : Point := fun d => rd (a.2.2 d - a.2.1 d)
    let logical : Nat → ℤ := fun d => roundAway (rd (rd (gridDim d / a.1 d) + 1 / 2))
    if (List.range (n + 1)).all (fun d => decide (a.1 d ≠ 0 ∧ Fits (logical d))) then some ⟨logical, a.1, gridDim, a.2.1, a.2.2⟩ else none

/-- `positionToLogicalCoord` (unstructuredgridmesher.h:55-65) -/
def Mesher.toLogical (m : Mesher) (pos : Point) : Option (Nat → ℤ) :=
  let raw : Point := fun d => rd (rd (pos d - m.minCoord d) / m.cellDim d)
  if (List.range (n + 1)).all (fun d => decide (m.cellDim d ≠ 0 ∧ Fits ⌊raw d⌋)) then some fun d => ⌊raw d⌋ else none

end LGD.Mesher
