import Mathlib.Data.List.Sort

/-!
# `UnstructuredTestCell` and `UnstructuredTestInitializer`

`W` is the type of edge weights (`double`) with its order; `toInt` is the conversion of a weight to `int`. Exceptions are `none`. Messages to the output are left out.
-/

namespace LGD.UTC

/-- members (unstructuredtestcell.h:229-233); `expected` is a `FixedArray<double, 100>` -/
structure Cell (W : Type) where
  id : Int
  counter : Nat
  valid : Bool
  isEdge : Bool
  expected : List W
deriving DecidableEq, Repr

variable {W : Type} [LinearOrder W] (toInt : W → Int)

/-- default constructor (unstructuredtestcell.h:144-150) -/
def dfltCell : Cell W := ⟨-1, 0, false, false, []⟩

/-- `checkNeighbor` (unstructuredtestcell.h:236-257), whether the cell stays valid -/
def checkNeighbor (c : Cell W) (otherID : Int) (o : Cell W) : Bool :=
  if o.id ≠ otherID then false
  else if o.counter ≠ c.counter then false
  else if !o.valid then false
  else true

/-- `verify` (unstructuredtestcell.h:259-302): `nbrs` are the weights and cells which the neighborhood yields. The arrays of actual neighbors have a capacity of 100, more elements cause an exception. -/
def verify (c : Cell W) (nbrs : List (W × Cell W)) (nano : Nat) : Option (Cell W) :=
  if 100 < nbrs.length then none
  else
    let v := c.valid && nbrs.all (fun p => checkNeighbor c (toInt p.1) p.2)
    let v := v && decide (c.expected = (nbrs.map Prod.fst).insertionSort (· ≤ ·))
    let v := v && decide (c.counter % 13 = nano)
    some { c with valid := v, counter := (c.counter + 1) % 2 ^ 32 }

/-- `std::map::operator[]` assignment; keys ascending -/
def mapInsert (k : Int) (w : W) : List (Int × W) → List (Int × W)
  | [] => [(k, w)]
  | (k', w') :: rest => if k < k' then (k, w) :: (k', w') :: rest else if k = k' then (k, w) :: rest else (k', w') :: mapInsert k w rest

/-- assembly of the neighbors in `updateLineX` (unstructuredtestcell.h:191-201): columns and weights of a row, padding is ignored -/
def assemble (zero : W) : List (Int × W) → List (Int × W) → List (Int × W)
  | [], m => m
  | (column, weight) :: rest, m => assemble zero rest (if column ≠ 0 ∨ weight ≠ zero then mapInsert column weight m else m)

/-- `update` (unstructuredtestcell.h:177-182): `self` is the old cell, `grid` the old cells by column -/
def update (self : Cell W) (grid : Int → Cell W) (row : List (Int × W)) (nano : Nat) : Option (Cell W) :=
  verify toInt self (row.map fun p => (p.2, grid p.1)) nano

/-- one cell of `updateLineX` (unstructuredtestcell.h:184-215) -/
def updateLine (zero : W) (self : Cell W) (grid : Int → Cell W) (row : List (Int × W)) (nano : Nat) : Option (Cell W) :=
  verify toInt self ((assemble zero row []).map fun p => (p.2, grid p.1)) nano

/-- neighbors of a cell (unstructuredtestinitializer.h:40-53, 86-95) -/
def neighbors (dim maxN x : Nat) : List Nat := (List.range (x % maxN + 1)).map fun j => (x + 1 + j) % dim

/-- `getReverseAdjacency` (unstructuredtestinitializer.h:100-120), for `maxN ≤ dim` -/
def reverse (dim maxN x : Nat) : List Nat :=
  (List.range maxN).filterMap fun (j : Nat) =>
    let actual := (x + dim - maxN + j) % dim
    if x ≤ actual + (actual % maxN + 1) then some actual else none

/-- expected weights (unstructuredtestinitializer.h:44-57): the map holds each neighbor once, in ascending order; `wt` yields the weight -/
def expectedOf (wt : Int → W) (dim maxN : Nat) (id : Int) : List W :=
  ((List.range dim).filter fun a => decide (a ∈ neighbors dim maxN id.toNat)).map fun a => wt (a : Nat)

/-- initial cell (unstructuredtestinitializer.h:34-60) -/
def initCell (expected : Int → List W) (start : Nat) (id : Int) : Cell W := ⟨id, start * 13, true, false, expected id⟩

/-- edge cell (unstructuredtestinitializer.h:64) -/
def edgeCell : Cell W := ⟨-1, 0, true, true, []⟩

end LGD.UTC
