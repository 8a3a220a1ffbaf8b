import Verif.Part.SubdivModel

/-!
# `ZCurvePartition`
-/

namespace LGD

/-- `Coord::sum` on the axes `0 .. n` (coord.h). -/
def crdSum : Nat → Crd → Int
  | 0, d => d 0
  | n + 1, d => crdSum n d + d (n + 1)

/-- `hasTrivialDimensions` (spacefillingcurve.h:53-58); `DIM = n + 1`. -/
def hasTriv (n : Nat) (d : Crd) : Bool := decide (crdProd n d = 0) || decide (crdProd n d = crdSum n d - ((n : Int) + 1) + 1)

/-- Loop in `digDownTrivial` (zcurvepartition.h:159-164): the last axis `≥ 1` with an extent above 1, or 0. -/
def zDir : Nat → Crd → Nat
  | 0, _ => 0
  | n + 1, d => if d (n + 1) > 1 then n + 1 else zDir n d

/-- Dimensions and origin of a quadrant (zcurvepartition.h:187-208, 227-234). -/
def zKid (n : Nat) (b : Box) (j : Nat) : Box where
  origin := fun k => if k ≤ n ∧ j.testBit k then b.origin k + (b.dims k).tdiv 2 else b.origin k
  dims := fun k => if j.testBit k then b.dims k - (b.dims k).tdiv 2 else (b.dims k).tdiv 2

/-- `accuSizes` (zcurvepartition.h:210-214). -/
def zAccu (n : Nat) (b : Box) : Nat → Int
  | 0 => 0
  | j + 1 => zAccu n b j + crdProd n (zKid n b j).dims

/-- `std::upper_bound(accuSizes, accuSizes + numQuadrants, pos) - accuSizes - 1` (zcurvepartition.h:216-220), by the
specification of `upper_bound`: number of entries `≤ pos`, minus one. -/
def zSelect (n : Nat) (b : Box) (pos : Int) : Nat :=
  ((List.range (2 ^ (n + 1))).takeWhile (fun j => decide (zAccu n b j ≤ pos))).length - 1

/-- Effect of `digUp` on the stack (zcurvepartition.h:245-259). -/
def zUp {Q : Type} (K : Nat) : List (Q × Nat) → List (Q × Nat)
  | [] => []
  | (q, k) :: st => if k = K - 1 then zUp K st else (q, k + 1) :: st

/-- `ZCurvePartition<DIM>::Iterator`; `cache` is the content of `coordsCache` for cached dimensions. -/
def zSub (n : Nat) (cache : Crd → Option (List Crd)) : Subdiv Box where
  K := 2 ^ (n + 1)
  size := fun b => crdProd n b.dims
  triv := fun b => hasTriv n b.dims
  org := fun b => b.origin
  dir := fun b => zDir n b.dims
  len := fun b => b.dims (zDir n b.dims)
  kid := zKid n
  accu := zAccu n
  select := zSelect n
  cached := fun b => cache b.dims
  up := zUp (2 ^ (n + 1))

/-- Sequential iteration from `it` until the end iterator, collecting the coordinates. -/
def sqCollect {Q : Type} (n : Nat) (G : Subdiv Q) (stop : SqIter Q) : Nat → SqIter Q → Option (List Crd)
  | 0, _ => none
  | fuel + 1, it =>
    if sqEq n it stop then some []
    else (sqNext G it).bind (fun it' => (sqCollect n G stop fuel it').map (fun l => it.cursor :: l))

/-- End iterator (zcurvepartition.h:83-85, 300-303). -/
def sqEnd {Q : Type} (o : Crd) : SqIter Q := { origin := o, cursor := o, endReached := true, stack := [], sub := .triv 0 0 }

/-- All coordinates in the order of `begin()` … `end()`. -/
def sqAll {Q : Type} (n : Nat) (G : Subdiv Q) (q : Q) (fuel : Nat) : Option (List Crd) :=
  (sqStart G q 0).bind (fun it => sqCollect n G (sqEnd (G.org q)) fuel it)

/-- Content of the cache after `fillCaches` (zcurvepartition.h:312-335) with `maxDim` in all axes: while it is being filled,
`maxCachedDimensions` is still 0, so that no cached squares are used; trivial squares are never looked up. -/
def zFill (n : Nat) (maxDim : Int) (d : Crd) : Option (List Crd) :=
  if (List.range (n + 1)).all (fun k => decide (d k < maxDim)) then
    sqAll n (zSub n (fun _ => none)) { origin := fun _ => 0, dims := d } ((crdProd n d).toNat + 1)
  else none

/-- `operator[]` (zcurvepartition.h:290-293). -/
def zStart (n : Nat) (cache : Crd → Option (List Crd)) (b : Box) (pos : Nat) : Option (SqIter Box) := sqStart (zSub n cache) b pos

/-- `getRegion` (zcurvepartition.h:305-310). -/
def zRegion (n : Nat) (cache : Crd → Option (List Crd)) (b : Box) (offset : Nat) (weights : List Nat) (fuel node : Nat) : Option Idx :=
  curveRegion n (sqOps n (zSub n cache)) (zStart n cache b) offset weights fuel node

end LGD
