import Verif.Geom.BoxModel
import Verif.Comm.GatherModel
import Mathlib.Data.Int.Log
import Mathlib.Data.Rat.Floor

/-!
# Partitions based on SCOTCH

`ScotchPartition`, `PTScotchPartition` (regular grids), `PTScotchUnstructuredPartition` and
`DistributedPTScotchUnstructuredPartition` (`geometry/partitions/`). The graph partitioner belongs to the trusted base: its answer is an
arbitrary assignment of nodes to parts. Modelled are the graph it is handed, the translation of its answer to regions, and the exchange of
fragments in the distributed case (on top of `Comm/MpiModel.lean`).

Simplifications: `int`, `SCOTCH_Num` and `std::size_t` are unbounded; `%` and `/` are only applied to non-negative numbers.
Out-of-bounds accesses are `none`. Strategies, architectures and error codes of SCOTCH are left out.
-/

namespace LGD.Scotch
open LGD.Mpi LGD.Gather

/-! ## Regular grids -/

/-- `dimensions[0] * dimensions[1]` -/
def area (dim : Crd) : Int := dim 0 * dim 1

/-- `edgenbrGra` (scotchpartition.h:71-80, ptscotchpartition.h:68-76) -/
def edgeNbr (n : Nat) (dim : Crd) : Int :=
  let e := 2 * (dim 0 * (dim 1 - 1) + (dim 0 - 1) * dim 1)
  if n = 2 then e * dim 2 + 2 * (dim 0 * dim 1 * (dim 2 - 1)) else e

/-- the edges which one pass of the loop stores (scotchpartition.h:91-114, ptscotchpartition.h:87-112) -/
def cellEdges (n : Nat) (dim : Crd) (i : Int) : List Int :=
  (if i % dim 0 ≠ 0 then [i - 1] else []) ++
  (if i % dim 0 ≠ dim 0 - 1 then [i + 1] else []) ++
  (if ¬ i % area dim < dim 0 then [i - dim 0] else []) ++
  (if ¬ dim 0 * (dim 1 - 1) ≤ i % area dim then [i + dim 0] else []) ++
  (if n = 2 ∧ area dim ≤ i then [i - area dim] else []) ++
  (if n = 2 ∧ i < area dim * (dim 2 - 1) then [i + area dim] else [])

/-- `edgetabGra[index] = …; index++` for an array of `cap` elements -/
def storeAll (cap : Int) : List Int → List Int → Option (List Int)
  | tab, [] => some tab
  | tab, x :: xs => if (tab.length : Int) < cap then storeAll cap (tab ++ [x]) xs else none

/-- the loop over all cells (scotchpartition.h:87-116): `verttabGra` and `edgetabGra` -/
def graphLoop (n : Nat) (dim : Crd) : Nat → Int → List Int → List Int → Option (List Int × List Int)
  | 0, _, vert, tab => some (vert ++ [(tab.length : Int)], tab)
  | c + 1, i, vert, tab =>
    (storeAll (edgeNbr n dim) tab (cellEdges n dim i)).bind fun tab' =>
      graphLoop n dim c (i + 1) (vert ++ [(tab.length : Int)]) tab'

/-- The graph `initIndices` hands to SCOTCH (scotchpartition.h:53-139, ptscotchpartition.h:54-141). -/
def graph (n : Nat) (dim : Crd) : Option (List Int × List Int) :=
  graphLoop n dim (crdProd n dim).toNat 0 [] []

/-- `startCoord` (scotchpartition.h:157-172) -/
def startCoord (n : Nat) (origin dim : Crd) (start : Int) : Crd :=
  if n = 2 then fun k =>
    if k = 0 then origin 0 + start % area dim % dim 0
    else if k = 1 then origin 1 + start % area dim / dim 0
    else origin 2 + start / area dim
  else fun k =>
    if k = 0 then origin 0 + start % dim 0
    else origin 1 + start / dim 0

/-- `CoordBox(startCoord, lengthCoord)` (scotchpartition.h:153-176) -/
def rowBox (n : Nat) (origin dim : Crd) (start length : Int) : Box where
  origin := startCoord n origin dim start
  dims := fun k => if k = 0 then length else 1

/-- the value `indices[i]`; `past` is what lies behind the last element, `none` for an invalid access -/
def readInd (ind : List Int) (past : Option Int) (i : Nat) : Option Int :=
  if i = ind.length then past else ind[i]?

/-- apply a fallible operation to the element with the given index -/
def modifyAt {β : Type} (f : β → Option β) (l : List β) (r : Int) : Option (List β) :=
  if r < 0 then none
  else (l[r.toNat]?).bind fun x => (f x).map fun y => l.set r.toNat y

/-- The loop of `createRegions` (scotchpartition.h:146-181, ptscotchpartition.h:148-181). Both the first operand of the condition and the assignment at the
end read `indices[i]`, also for `i = cellNbr`. `fuel` bounds the iteration through the inserted box. -/
def regionLoop (n : Nat) (origin dim : Crd) (fuel : Nat) (ind : List Int) (past : Option Int) :
    Nat → Nat → Int → Int → Int → List Idx → Option (List Idx)
  | 0, _, _, _, _, regions => some regions
  | c + 1, i, rank, length, start, regions =>
    (readInd ind past i).bind fun v =>
      if rank = v ∧ i < ind.length ∧ (i : Int) % dim 0 ≠ 0 then
        regionLoop n origin dim fuel ind past c (i + 1) rank (length + 1) start regions
      else
        (modifyAt (fun idx => regInsertBox n idx (rowBox n origin dim start (length + 1)) fuel) regions rank).bind fun regions =>
          regionLoop n origin dim fuel ind past c (i + 1) v 0 i regions

/-- `createRegions` for `k` nodes (scotchpartition.h:141-182) -/
def createRegions (n : Nat) (origin dim : Crd) (fuel : Nat) (k : Nat) (ind : List Int) (past : Option Int) : Option (List Idx) :=
  (readInd ind past 0).bind fun rank =>
    regionLoop n origin dim fuel ind past ind.length 1 rank 0 0 (List.replicate k emptyIdx)

/-! ## Unstructured grids -/

/-- `regions[indices[i]] << Coord<1>(start + i)` for all `i` (ptscotchunstructuredpartition.h:129-131, distributedptscotchunstructuredpartition.h:209-211) -/
def insertIds : Int → List Int → List Idx → Option (List Idx)
  | _, [], regions => some regions
  | i, v :: vs, regions =>
    (modifyAt (fun idx => regInsert 0 idx ⟨fun _ => i, i + 1⟩) regions v).bind fun regions => insertIds (i + 1) vs regions

/-- `PTScotchUnstructuredPartition::createRegions` (ptscotchunstructuredpartition.h:127-132): `origin` isn't used -/
def unstructuredRegions (k : Nat) (ind : List Int) : Option (List Idx) :=
  insertIds 0 ind (List.replicate k emptyIdx)

/-! ## Single precision -/

/-- to the nearest integer, ties to even -/
def roundEven (x : ℚ) : Int :=
  if x - ⌊x⌋ < 1 / 2 then ⌊x⌋
  else if 1 / 2 < x - ⌊x⌋ then ⌊x⌋ + 1
  else if ⌊x⌋ % 2 = 0 then ⌊x⌋ else ⌊x⌋ + 1

/-- spacing of the floats from `2 ^ Int.log 2 x` on -/
def ulp (x : ℚ) : ℚ := (2 : ℚ) ^ (Int.log 2 x - 23)

/-- IEEE 754 single precision: 24 bits, round to nearest, ties to even (no overflow or underflow; not negative) -/
def f32 (x : ℚ) : ℚ := if x ≤ 0 then 0 else roundEven (x / ulp x) * ulp x

/-- `float(rank) / numPartitions * cells`, converted to `std::size_t` (distributedptscotchunstructuredpartition.h:111-112) -/
def bound (N : Nat) (cells : Nat) (rank : Nat) : Int :=
  ⌊f32 (f32 (f32 rank / f32 N) * f32 cells)⌋

/-- `getStartEnd` (distributedptscotchunstructuredpartition.h:108-113) -/
def startEnd (N : Nat) (cells : Nat) (rank : Nat) : Int × Int := (bound N cells rank, bound N cells (rank + 1))

/-! ## The exchange of fragments -/

/-- programs whose events show vectors of regions -/
abbrev Prg := Gather.P Idx

/-- `MPILayer().sendRegion(partials.at(k), j)` for all `k` (distributedptscotchunstructuredpartition.h:220-222); the default tag is 0 -/
def sendParts (j : Nat) : List Idx → Prg → Prg
  | [], c => c
  | p :: ps, c => sendRegion 0 p j 0 (sendParts j ps c)

/-- `recvRegion`, then `regions.at(k) += received`, for `k` and the following (distributedptscotchunstructuredpartition.h:229-235) -/
def recvParts (i : Nat) : Nat → Nat → List Idx → (List Idx → Prg) → Prg
  | 0, _, regions, c => c regions
  | m + 1, k, regions, c =>
    recvRegion 0 i 0 fun received =>
      match modifyAt (fun idx => regPlusAssign 0 idx received) regions (k : Int) with
      | some regions => recvParts i m (k + 1) regions c
      | none => .abort

/-- the loop over the senders (distributedptscotchunstructuredpartition.h:225-236) -/
def recvAll (N j : Nat) : List Nat → List Idx → (List Idx → Prg) → Prg
  | [], regions, c => c regions
  | i :: is, regions, c =>
    if i = j then recvAll N j is regions c
    else recvParts i N 0 regions fun regions => recvAll N j is regions c

/-- the loop over the receivers (distributedptscotchunstructuredpartition.h:216-238) -/
def exchange (N self : Nat) (partials : List Idx) : List Nat → List Idx → (List Idx → Prg) → Prg
  | [], regions, c => c regions
  | j :: js, regions, c =>
    if j ≠ self then sendParts j partials (exchange N self partials js regions c)
    else recvAll N j (List.range N) regions fun regions => exchange N self partials js regions c

/-- what `getRegion` is going to yield on this rank, as a visible event -/
def result (regions : List Idx) : Shot Idx := ⟨0, .initialized, regions, emptyIdx⟩

/-- `createRegions` (distributedptscotchunstructuredpartition.h:203-238) -/
def distProg (N self : Nat) (start : Int) (ind : List Int) : Prg :=
  match insertIds start ind (List.replicate N emptyIdx) with
  | none => .abort
  | some partials => exchange N self partials (List.range N) partials fun regions => .emit (result regions) .done

end LGD.Scotch
