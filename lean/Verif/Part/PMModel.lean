import Verif.Region.TopoExpandModel
import Verif.Region.SetOpsModel
import Verif.Region.CacheModel
import Verif.Geom.BoxModel

/-!
# `PartitionManager`
-/

namespace LGD

/-- What a `PartitionManager` gets from outside (partitionmanager.h:67-83, 257-265):
the partition and the two ways in which it expands regions. `ex w r` stands for
`r.expandWithTopology(w, simulationArea.dimensions, Topology(), *adjacency(r))`, `rex r` for
`r.expandWithTopology(1, simulationArea.dimensions, Topology(), *reverseAdjacency(r))`. -/
structure PMEnv where
  n : Nat
  part : Nat → Option Idx
  ex : Nat → Idx → Option Idx
  rex : Idx → Option Idx

/-- `RegionVecMap regions` (partitionmanager.h:247) -/
abbrev RegCache := Nat → Option (List Idx)

/-- Members of `PartitionManager` (partitionmanager.h:241-255). The map entries of the key `OUTGROUP` are kept in
separate fields. -/
structure PM where
  rank : Nat
  gw : Nat
  regions : RegCache
  outerRim : Idx
  volatileKernel : Idx
  innerRim : Idx
  rims : List Idx
  innerSets : List Idx
  outer : Nat → Option (List Idx)
  inner : Nat → Option (List Idx)
  outerOut : List Idx
  innerOut : List Idx

/-- `k` successive expansions by one step; all intermediate regions are returned, the initial one first. -/
def exChain (ex1 : Idx → Option Idx) : Nat → Idx → Option (List Idx)
  | 0, r => some [r]
  | k + 1, r => (ex1 r).bind (fun r' => (exChain ex1 k r').map (fun l => r :: l))

/-- `fillRegion` (partitionmanager.h:267-282): the vector that is stored in `regions[node]`. -/
def fillRegion (env : PMEnv) (gw node : Nat) : Option (List Idx) := (env.part node).bind (exChain (env.ex 1) gw)

/-- `resetRegions` (partitionmanager.h:67-83) with `fillOwnRegion` (partitionmanager.h:284-324). -/
def resetRegions (env : PMEnv) (gw rank : Nat) : Option PM :=
  (fillRegion env gw rank).bind fun own =>
  own[0]?.bind fun own0 =>
  own.getLast?.bind fun ownE =>
  (env.rex own0).bind fun revx =>
  (regMinus env.n revx own0).bind fun surface =>
  (env.ex gw surface).bind fun sx =>
  (regMinus env.n own0 sx).bind fun kernel =>
  (regMinus env.n ownE own0).bind fun outerRim =>
  (regMinus env.n own0 kernel).bind fun rim =>
  (exChain (env.ex 1) gw rim).bind fun rims =>
  (exChain (env.ex 1) gw kernel).bind fun inners =>
  inners.reverse.getLast?.bind fun innerBack =>
  rims.reverse[0]?.bind fun rim0 =>
  (regAnd env.n innerBack rim0).bind fun vk =>
  (regAnd env.n innerBack rim0).bind fun ir =>
  some { rank := rank, gw := gw, regions := fun i => if i = rank then some own else none, outerRim := outerRim,
         volatileKernel := vk, innerRim := ir, rims := rims.reverse, innerSets := inners.reverse,
         outer := fun _ => none, inner := fun _ => none, outerOut := [], innerOut := [] }

/-- `ownRegion(w)` (partitionmanager.h:164-167) -/
def pmOwn (pm : PM) (w : Nat) : Option Idx := (pm.regions pm.rank).bind (fun l => l[w]?)

/-- `ownExpandedRegion()` (partitionmanager.h:169-172) -/
def pmOwnExpanded (pm : PM) : Option Idx := (pm.regions pm.rank).bind (fun l => l.getLast?)

/-- `getRegion` (partitionmanager.h:154-162): reads through the cache. -/
def pmGetRegion (env : PMEnv) (gw : Nat) (cache : RegCache) (node w : Nat) : Option (RegCache × Idx) :=
  match cache node with
  | some l => l[w]?.map (fun r => (cache, r))
  | none => (fillRegion env gw node).bind fun l => l[w]?.map (fun r => ((fun i => if i = node then some l else cache i), r))

/-- Loop of `intersect` (partitionmanager.h:336-342): fragments for the listed widths. -/
def isectLoop (env : PMEnv) (gw rank node : Nat) : List Nat → RegCache → Option (RegCache × List Idx × List Idx)
  | [], c => some (c, [], [])
  | i :: is, c =>
    (pmGetRegion env gw c rank i).bind fun p1 =>
    (pmGetRegion env gw p1.1 node 0).bind fun p2 =>
    (regAnd env.n p1.2 p2.2).bind fun o =>
    (pmGetRegion env gw p2.1 rank 0).bind fun p3 =>
    (pmGetRegion env gw p3.1 node i).bind fun p4 =>
    (regAnd env.n p3.2 p4.2).bind fun q =>
    (isectLoop env gw rank node is p4.1).map fun res => (res.1, o :: res.2.1, q :: res.2.2)

/-- `Region::empty` for all elements -/
def allEmpty (l : List Idx) : Bool := l.all (fun r => (r 0).length == 0)

/-- `intersect` (partitionmanager.h:326-351) -/
def pmIntersect (env : PMEnv) (pm : PM) (node : Nat) : Option PM :=
  (isectLoop env pm.gw pm.rank node (List.range (pm.gw + 1)) pm.regions).map fun res =>
    { pm with
      regions := res.1
      outer := fun i => if i = node then (if allEmpty res.2.1 then none else some res.2.1) else pm.outer i
      inner := fun i => if i = node then (if allEmpty res.2.2 then none else some res.2.2) else pm.inner i }

/-- One iteration of the loop over all nodes in `resetGhostZones` (partitionmanager.h:98-108) -/
def gzStep (env : PMEnv) (ownBB ownEBB : Box) (i : Nat) (bb ebb : Box) (pm : PM) : Option PM :=
  if i ≠ pm.rank ∧ (boxIntersects env.n bb ownEBB || boxIntersects env.n ebb ownBB) then
    (pmGetRegion env pm.gw pm.regions pm.rank pm.gw).bind fun p1 =>
    (pmGetRegion env pm.gw p1.1 i 0).bind fun p2 =>
    (regAnd env.n p1.2 p2.2).bind fun x =>
    if (x 0).length ≠ 0 then pmIntersect env { pm with regions := p2.1 } i
    else
      (pmGetRegion env pm.gw p2.1 i pm.gw).bind fun p3 =>
      (pmGetRegion env pm.gw p3.1 pm.rank 0).bind fun p4 =>
      (regAnd env.n p3.2 p4.2).bind fun y =>
      if (y 0).length ≠ 0 then pmIntersect env { pm with regions := p4.1 } i
      else some { pm with regions := p4.1 }
  else some pm

/-- The loop over all nodes (partitionmanager.h:98-108) -/
def gzLoop (env : PMEnv) (ownBB ownEBB : Box) : List (Nat × Box × Box) → PM → Option PM
  | [], pm => some pm
  | (i, bb, ebb) :: r, pm => (gzStep env ownBB ownEBB i bb ebb pm).bind (gzLoop env ownBB ownEBB r)

/-- `acc -= i->second.back()` if there is such an entry (partitionmanager.h:117-119, 124-126) -/
def subtractFrag (n : Nat) (m : Option (List Idx)) (acc : Idx) : Option Idx :=
  match m with
  | none => some acc
  | some l => l.getLast?.bind (fun r => regMinus n acc r)

/-- `acc -= i->second.back()` for all entries of the map (partitionmanager.h:114-127); the keys are visited in ascending
order. -/
def subtractFrags (n : Nat) (m : Nat → Option (List Idx)) : List Nat → Idx → Option Idx
  | [], acc => some acc
  | i :: is, acc => (subtractFrag n (m i) acc).bind (subtractFrags n m is)

/-- `resetGhostZones` (partitionmanager.h:85-132); `none` also stands for the exception in line 90. -/
def resetGhostZones (env : PMEnv) (pm : PM) (bbs ebbs : List Box) : Option PM :=
  if bbs.length ≠ ebbs.length then none
  else
    (pmOwn pm 0).bind fun own =>
    (pmOwnExpanded pm).bind fun ownE =>
    (determineGeometry env.n own).bind fun g =>
    (determineGeometry env.n ownE).bind fun gE =>
    (gzLoop env g.2 gE.2 ((List.range bbs.length).zip (bbs.zip ebbs)) pm).bind fun pm =>
    pm.rims[pm.gw]?.bind fun rimW =>
    (subtractFrags env.n pm.outer (List.range bbs.length) pm.outerRim).bind fun outer =>
    (subtractFrags env.n pm.inner (List.range bbs.length) rimW).map fun inner =>
    { pm with outerOut := List.replicate (pm.gw + 1) outer, innerOut := List.replicate (pm.gw + 1) inner }

/-- `gatherBoundingBoxes` for own and expanded regions (updategroup.h:169-179, 257-): every rank in the list builds its
own regions and contributes its two bounding boxes. -/
def gatherBoxes (env : PMEnv) (gw : Nat) : List Nat → Option (List Box × List Box)
  | [] => some ([], [])
  | i :: is =>
    (resetRegions env gw i).bind fun pm =>
    (pmOwn pm 0).bind fun own =>
    (pmOwnExpanded pm).bind fun ownE =>
    (determineGeometry env.n own).bind fun g =>
    (determineGeometry env.n ownE).bind fun gE =>
    (gatherBoxes env gw is).map fun r => (g.2 :: r.1, gE.2 :: r.2)

/-- Setup of the partition manager of one rank out of `N` in `UpdateGroup::init` (updategroup.h:169-180) -/
def setupPM (env : PMEnv) (gw N rank : Nat) : Option PM :=
  (gatherBoxes env gw (List.range N)).bind fun b =>
  (resetRegions env gw rank).bind fun pm => resetGhostZones env pm b.1 b.2

/-- Structured topologies: `expandWithTopology` ignores the adjacency (region.h:817-838). -/
def structuredEnv (n : Nat) (part : Nat → Option Idx) (dim : Crd) (wraps : Nat → Bool) : PMEnv :=
  { n := n, part := part, ex := fun w r => expandWithTopology n r w dim wraps, rex := fun r => expandWithTopology n r 1 dim wraps }

/-- Unstructured topology (region.h:840-863): the expansion follows the adjacency. `adj r x` are the neighbors of `x`
in the adjacency the manufacturer creates for the region `r`, `radj` belongs to the reverse adjacency. -/
def unstructuredEnv (part : Nat → Option Idx) (adj radj : Idx → Int → List Int) : PMEnv :=
  { n := 0, part := part, ex := fun w r => expandWithAdjacency r w (adj r), rex := fun r => expandWithAdjacency r 1 (radj r) }

end LGD
