import Verif.Region.SetOpsModel
import Verif.Geom.BoxModel

/-!
# Partitions given by a linear order of the cells
-/

namespace LGD

/-- `Partition::startOffsets` (partition.h:33-43); offsets are assumed to be non-negative. -/
def startOffsets (offset : Nat) : List Nat → List Nat
  | [] => [offset]
  | w :: ws => offset :: startOffsets (offset + w) ws

/-- Iterator interface as used by `Region(start, end)`. -/
structure IterOps (S : Type) where
  eq : S → S → Bool
  next : S → Option S
  deref : S → Crd

/-- `Region::load` (region.h:690-696): insert `*i` for all `i` from `s` until `stop`. -/
def loadRegion {S : Type} (n : Nat) (I : IterOps S) (stop : S) : Nat → S → Idx → Option Idx
  | 0, _, _ => none
  | fuel + 1, s, r =>
    if I.eq s stop then some r
    else (regInsert n r { origin := I.deref s, endX := I.deref s 0 + 1 }).bind (fun r' =>
      (I.next s).bind (fun s' => loadRegion n I stop fuel s' r'))

/-- `getRegion` of the space-filling curves (stripingpartition.h:58-63, zcurvepartition.h:305-310, hilbertpartition.h:332-337,
hindexingpartition.h:544-549); `start` is `operator[]`. -/
def curveRegion {S : Type} (n : Nat) (I : IterOps S) (start : Nat → Option S) (offset : Nat) (weights : List Nat) (fuel node : Nat) :
    Option Idx :=
  ((startOffsets offset weights)[node]?).bind (fun a => ((startOffsets offset weights)[node + 1]?).bind (fun b =>
    (start a).bind (fun s => (start b).bind (fun t => loadRegion n I t fuel s emptyIdx))))

end LGD
