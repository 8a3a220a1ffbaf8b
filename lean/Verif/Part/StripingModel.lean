import Verif.Part.CurveModel
import Verif.Geom.TopoModel

/-!
# `StripingPartition`, `UnstructuredStripingPartition`
-/

namespace LGD

/-- Constructor (stripingpartition.h:28-44): dimensions after the correction for empty grids. -/
def stripDims (n : Nat) (dims : Crd) : Crd := if crdProd n dims = 0 then fun k => if k = n then 0 else 1 else dims

/-- `CoordBox::Iterator` (coordbox.h:124-190) as used by `StripingPartition` (stripingpartition.h:46-69). -/
def stripIter (n : Nat) (b : Box) : IterOps Crd where
  eq := crdEq n
  next := fun c => some (boxIncr b.origin (fun k => b.origin k + stripDims n b.dims k) n 0 c)
  deref := fun c => c

/-- `StripingPartition::operator[]` (stripingpartition.h:65-69). -/
def stripStart (n : Nat) (b : Box) (pos : Nat) : Option Crd :=
  some (fun k => indexToCoord n (stripDims n b.dims) pos k + b.origin k)

/-- `StripingPartition::getRegion`. -/
def stripRegion (n : Nat) (b : Box) (offset : Nat) (weights : List Nat) (fuel node : Nat) : Option Idx :=
  curveRegion n (stripIter n b) (stripStart n b) offset weights fuel node

/-- `UnstructuredStripingPartition` (unstructuredstripingpartition.h:27-46); `start` is `origin.x() + offset`. -/
def ustripRegion (start : Nat) (weights : List Nat) (node : Nat) : Option Idx :=
  ((startOffsets start weights)[node]?).bind (fun a => ((startOffsets start weights)[node + 1]?).bind (fun b =>
    regInsert 0 emptyIdx { origin := fun _ => (a : Int), endX := b }))

end LGD
