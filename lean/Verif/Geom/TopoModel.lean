import Verif.Geom.BoxModel

/-!
# Topologies and linear indices

A `TopologiesHelpers::Topology<DIM, W0, W1, W2>` is modelled by the function `wraps : Nat → Bool` of its axes.
-/

namespace LGD

/-- `NormalizeEdges::wrap` (topologies.h:82-93). -/
def wrap1 (x dim : Int) : Int := if x < 0 then x + dim else if x ≥ dim then x - dim else x

/-- `NormalizeEdges::operator()` (topologies.h:53-79): all axes, the first `n + 1` are meaningful. -/
def normEdges (c dim : Crd) : Crd := fun k => wrap1 (c k) (dim k)

/-- `OutOfBounds::operator()` (topologies.h:99-141). -/
def outOfBounds (n : Nat) (wraps : Nat → Bool) (c dim : Crd) : Bool :=
  (List.range (n + 1)).any (fun k => !wraps k && (decide (c k < 0) || decide (c k ≥ dim k)))

/-- `NormalizeCoord::operator()` / `Topology::normalize` (topologies.h:146-161, 222-226). -/
def topoNormalize (n : Nat) (wraps : Nat → Bool) (c dim : Crd) : Crd :=
  if outOfBounds n wraps c dim then fun _ => -1 else normEdges c dim

/-- `Coord::toIndex` (coord.h:160-163, 427-430, 710-716) for `DIM = n + 1 ≤ 3`; the conversion to `std::size_t` is not
modelled (results are non-negative for in-bounds coordinates). -/
def toIndex (n : Nat) (c dim : Crd) : Int :=
  match n with
  | 0 => c 0
  | 1 => c 1 * dim 0 + c 0
  | _ => c 2 * dim 0 * dim 1 + c 1 * dim 0 + c 0

/-- `Coord::indexToCoord` (coord.h:151-154, 418-421, 697-704); C++ division truncates. -/
def indexToCoord (n : Nat) (dim : Crd) (i : Int) : Crd :=
  match n with
  | 0 => fun k => if k = 0 then i else 0
  | 1 => fun k => if k = 0 then i.tmod (dim 0) else if k = 1 then i.tdiv (dim 0) else 0
  | _ => fun k =>
    if k = 0 then i.tmod (dim 0) else if k = 1 then (i.tdiv (dim 0)).tmod (dim 1)
    else if k = 2 then (i.tdiv (dim 0)).tdiv (dim 1) else 0

/-- `Topology::locate` (topologies.h:186-216): which cell is accessed; `none` = the edge cell, `some i` = `grid[i]`. -/
def topoLocate (n : Nat) (wraps : Nat → Bool) (c dim : Crd) : Option Int :=
  if outOfBounds n wraps c dim then none else some (toIndex n (normEdges c dim) dim)

end LGD
