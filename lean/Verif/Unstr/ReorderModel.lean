import Verif.Unstr.HoodModel
import Verif.Store.GridModel
import Verif.Region.CacheModel
import Verif.Geom.BoxModel

/-!
# `ReorderingUnstructuredGrid` on top of `UnstructuredGrid`, the update functor for unstructured grids

`none` stands for undefined behaviour (e.g. dereferencing an end iterator), a Boolean is set if an exception is thrown. Cell type `α`, weights `V`. The delegate is the array-of-structs grid `UnstructuredGrid`;
the struct-of-arrays variant is not modelled here. IDs are integers, physical positions natural numbers (no overflow). `std::sort` and `std::stable_sort` by first/second component are insertion sorts
(the keys sorted by `std::sort` are distinct, so its result is unique); the sort inside of `initFromMatrix` is a parameter. Coordinate iteration over a region is modelled by the nested loops over its
streaks, which visit the same coordinates (C05).
-/

namespace LGD.Unstr

open LGD.Sell

/-- members (reorderingunstructuredgrid.h:429-432); the delegate consists of cells and matrices (unstructuredgrid.h:390-391) -/
structure RGrid (α V : Type) where
  cells : Store.Grid α
  mats : List (Sell V)
  nodeSet : Idx
  l2p : List (Int × Nat)
  p2l : List Int

variable {α V : Type}

/-- loop over the nodes of a set (reorderingunstructuredgrid.h:160-166, 221-225) -/
def nodeIDs (r : Idx) : Option (List Int) :=
  (allStreaks 0 r (fun _ => 0) 0).map fun ss => ss.flatMap fun s => (List.range (s.endX - s.origin 0).toNat).map fun i : Nat => s.origin 0 + i

/-- `nodeSet.count(Coord<1>(id))` (region.h:928-931) -/
def count (r : Idx) (id : Int) : Option Bool := regCountCoord 0 r fun _ => id

/-- `r << Coord<1>(id)` (region.h:972-976) -/
def insertID (r : Idx) (id : Int) : Option Idx := regInsert 0 r ⟨fun _ => id, id + 1⟩

/-- `elements[Coord<1>(i)]` for reading (unstructuredgrid.h:111-114) -/
def cellRead (g : Store.Grid α) (i : Int) : Option α := Store.gridRead 0 (fun _ => false) g fun _ => i

/-- `elements[Coord<1>(i)]` for writing (unstructuredgrid.h:116-119) -/
def cellWrite (g : Store.Grid α) (i : Int) (v : α) : Option (Store.Grid α) := Store.gridWrite 0 (fun _ => false) g (fun _ => i) v

/-- constructor of `UnstructuredGrid` (unstructuredgrid.h:55-65) -/
def delegateMake (C matrices N : Nat) (default edge : α) : Store.Grid α × List (Sell V) := (Store.gridMake 0 (fun _ => N) default edge, List.replicate matrices (make C N))

/-- constructor (reorderingunstructuredgrid.h:148-169) -/
def rMake (C matrices : Nat) (nodeSet : Idx) (default edge : α) : Option (RGrid α V) :=
  (nodeIDs nodeSet).bind fun ids => (determineGeometry 0 nodeSet).map fun geo =>
    let d := delegateMake C matrices geo.1.toNat default edge
    ⟨d.1, d.2, nodeSet, ids.zipIdx, ids⟩

/-- `mapLogicalToPhysicalID` (reorderingunstructuredgrid.h:19-33): the inner `none` is the end iterator. The result of `lower_bound` is dereferenced even if it is the end iterator. -/
def mapID (id : Int) (l : List (Int × Nat)) : Option (Option (Int × Nat)) :=
  match l.dropWhile fun a => decide (a.1 < id) with
  | [] => none
  | a :: _ => if a.1 ≠ id then some none else some (some a)

/-- `get(int)` (reorderingunstructuredgrid.h:517-528) -/
def rGet (g : RGrid α V) (id : Int) : Option α :=
  (mapID id g.l2p).bind fun r => match r with
    | none => some g.cells.edge
    | some p => cellRead g.cells p.2

/-- `set(int, cell)` (reorderingunstructuredgrid.h:530-541): for an unknown ID, the edge cell is set and then the end iterator is dereferenced -/
def rSet (g : RGrid α V) (id : Int) (v : α) : Option (RGrid α V) :=
  (mapID id g.l2p).bind fun r => match r with
    | none => none
    | some p => (cellWrite g.cells p.2 v).map fun cells => { g with cells := cells }

/-- the IDs in a streak (loops in reorderingunstructuredgrid.h:303, 318) -/
def streakIDs (s : Streak) : List Int := (List.range (s.endX - s.origin 0).toNat).map fun i : Nat => s.origin 0 + i

/-- the loop in `set(Streak)` (reorderingunstructuredgrid.h:303-306); `vs` is the memory behind the pointer -/
def setLoop : List Int → List α → RGrid α V → Option (RGrid α V)
  | [], _, g => some g
  | _ :: _, [], _ => none
  | id :: ids, v :: vs, g => (rSet g id v).bind (setLoop ids vs)

/-- `set(Streak)` (reorderingunstructuredgrid.h:300-307): the loop does not terminate regularly for streaks of negative length -/
def rSetStreak (g : RGrid α V) (s : Streak) (vs : List α) : Option (RGrid α V) := if s.endX < s.origin 0 then none else setLoop (streakIDs s) vs g

/-- the loop in `get(Streak)` (reorderingunstructuredgrid.h:317-321): the cells written to the target -/
def getLoop (g : RGrid α V) : List Int → Option (List α)
  | [] => some []
  | id :: ids => (rGet g id).bind fun v => (getLoop g ids).map fun r => v :: r

/-- `get(Streak)` (reorderingunstructuredgrid.h:314-322) -/
def rGetStreak (g : RGrid α V) (s : Streak) : Option (List α) := if s.endX < s.origin 0 then none else getLoop g (streakIDs s)

/-- the streaks which a `ReorderingRegionIterator` (reorderingunstructuredgrid.h:39-98) yields for the given IDs: for an unknown ID the previous streak is kept -/
def iterStreaks (l2p : List (Int × Nat)) : List Int → Streak → Option (List Streak)
  | [], _ => some []
  | id :: ids, prev => (mapID id l2p).bind fun p =>
    let s := match p with
      | none => prev
      | some p => ⟨fun _ => p.2, p.2 + 1⟩
    (iterStreaks l2p ids s).map fun r => s :: r

/-- the streaks between `ReorderingRegionIterator(region.begin())` and `ReorderingRegionIterator(region.end())`. The constructor of the latter looks up the coordinate of the end iterator, which is 0
(region.h:450-490, 606-609); so does the former, if the region is empty. When the end is reached, the first ID of the last streak is looked up again (regionstreakiterator.h:92-98), without any effect on
the result. -/
def remapStreaks (l2p : List (Int × Nat)) (region : Idx) : Option (List Streak) :=
  (nodeIDs region).bind fun ids => (iterStreaks l2p ids zeroStreak).bind fun ss => (mapID 0 l2p).map fun _ => ss

/-- `saveRegion` (reorderingunstructuredgrid.h:344-351) for buffers of cells (grid.h:317-329): the offset is ignored -/
def rSave (g : RGrid α V) (b : List α) (region : Idx) (_off : Crd) : Option (List α) :=
  (remapStreaks g.l2p region).bind fun ss => Store.saveLoop 0 (fun _ => false) g.cells ss b 0

/-- `loadRegion` (reorderingunstructuredgrid.h:353-360) for buffers of cells (grid.h:331-343): the offset is ignored -/
def rLoad (g : RGrid α V) (b : List α) (region : Idx) (_off : Crd) : Option (RGrid α V) :=
  (remapStreaks g.l2p region).bind fun ss => (Store.loadLoop 0 (fun _ => false) ss b g.cells).map fun cells => { g with cells := cells }

/-- `setEdge` (reorderingunstructuredgrid.h:324-327) -/
def rSetEdge (g : RGrid α V) (v : α) : RGrid α V := { g with cells := Store.gridSetEdge g.cells v }

/-- `getEdge` (reorderingunstructuredgrid.h:329-332) -/
def rGetEdge (g : RGrid α V) : α := g.cells.edge

/-- row lengths and mask of rows with missing neighbors (reorderingunstructuredgrid.h:197-215): the map `rowLengths` is a function with default value 0 -/
def lengthLoop (nodeSet : Idx) : List (Entry V) → (Int → Nat) → Idx → Option ((Int → Nat) × Idx)
  | [], len, mask => some (len, mask)
  | e :: m, len, mask => (count nodeSet e.1.1).bind fun a =>
    if !a then lengthLoop nodeSet m len mask
    else (count nodeSet e.1.2).bind fun b => (count mask e.1.1).bind fun c =>
      if !b || c then (insertID mask e.1.1).bind fun mask => lengthLoop nodeSet m (Function.update len e.1.1 0) mask
      else lengthLoop nodeSet m (Function.update len e.1.1 (len e.1.1 + 1)) mask

/-- the comparison by row length (reorderingunstructuredgrid.h:230-232), as in `longer` -/
def longerRow (a b : Int × Nat) : Prop := ¬ b.2 > a.2

instance : DecidableRel longerRow := fun a b => inferInstanceAs (Decidable (¬ b.2 > a.2))

/-- stable sort in scopes of SIGMA rows (reorderingunstructuredgrid.h:227-235) -/
def blockSort (sigma : Nat) : Nat → List (Int × Nat) → Option (List (Int × Nat))
  | 0, _ => none
  | fuel + 1, l => if l.isEmpty then some [] else (blockSort sigma fuel (l.drop sigma)).map fun r => (l.take sigma).insertionSort longerRow ++ r

/-- the comparison by logical ID (reorderingunstructuredgrid.h:248-250) -/
def idLe (a b : Int × Nat) : Prop := ¬ b.1 < a.1

instance : DecidableRel idLe := fun a b => inferInstanceAs (Decidable (¬ b.1 < a.1))

/-- the loop in `reorderDelegateGrid` (reorderingunstructuredgrid.h:493-510) -/
def moveLoop (newIDs oldIDs : List (Int × Nat)) (old : Store.Grid α) : List Int → Store.Grid α → Option (Bool × Store.Grid α)
  | [], g => some (false, g)
  | id :: ids, g => (mapID id newIDs).bind fun a => match a with
    | none => some (true, g)
    | some a => (mapID id oldIDs).bind fun b => match b with
      | none => some (true, g)
      | some b => (cellRead old b.2).bind fun v => (cellWrite g a.2 v).bind fun g => moveLoop newIDs oldIDs old ids g

/-- `reorderDelegateGrid` (reorderingunstructuredgrid.h:490-515): the new delegate is as large as the bounding box of the node set; `dflt` is the default-constructed cell. In case of an exception the grid
is unchanged. -/
def reorder (C : Nat) (dflt : α) (newIDs : List (Int × Nat)) (newPhys : List Int) (g : RGrid α V) : Option (Bool × RGrid α V) :=
  (determineGeometry 0 g.nodeSet).bind fun geo =>
    let d := delegateMake C g.mats.length (geo.2.dims 0).toNat dflt dflt
    (nodeIDs g.nodeSet).bind fun ids => (moveLoop newIDs g.l2p g.cells ids d.1).map fun r => if r.1 then (true, g) else (false, ⟨r.2, d.2, g.nodeSet, newIDs, newPhys⟩)

/-- the matrix with physical IDs (reorderingunstructuredgrid.h:255-281) -/
def matrixLoop (nodeSet mask : Idx) (ids : List (Int × Nat)) : List (Entry V) → Option (Bool × List (Entry V))
  | [] => some (false, [])
  | e :: m => (count nodeSet e.1.1).bind fun a =>
    if !a then matrixLoop nodeSet mask ids m
    else (count mask e.1.1).bind fun b =>
      if b then matrixLoop nodeSet mask ids m
      else (mapID e.1.1 ids).bind fun p => match p with
        | none => some (true, [])
        | some p => (mapID e.1.2 ids).bind fun q => match q with
          | none => some (true, [])
          | some q => (matrixLoop nodeSet mask ids m).map fun r => (r.1, (((p.2 : Int), (q.2 : Int)), e.2) :: r.2)

/-- `setWeights` (reorderingunstructuredgrid.h:194-284), with `UnstructuredGrid::setWeights` (unstructuredgrid.h:86-90) and `initFromMatrix` (sellcsigmasparsematrixcontainer.h:221-228); `sort` stands for
`std::sort` -/
def rSetWeights (C sigma : Nat) (zero : V) (dflt : α) (sort : List (Entry V) → List (Entry V)) (k : Nat) (m : List (Entry V)) (g : RGrid α V) : Option (Bool × RGrid α V) :=
  (lengthLoop g.nodeSet m (fun _ => 0) emptyIdx).bind fun lm => (nodeIDs g.nodeSet).bind fun ids =>
    (blockSort sigma (ids.length + 1) (ids.map fun j => (j, lm.1 j))).bind fun rows =>
      let newIDs := ((rows.map Prod.fst).zipIdx).insertionSort idLe
      (reorder C dflt newIDs (rows.map Prod.fst) g).bind fun r =>
        if r.1 then some r
        else (matrixLoop r.2.nodeSet lm.2 r.2.l2p m).bind fun nm =>
          if nm.1 then some (true, r.2)
          else (r.2.mats[k]?).bind fun c => (initSorted C sigma zero c (sort nm.2)).map fun s => (s.1, { r.2 with mats := r.2.mats.set k s.2 })

/-- `remapRegion` (reorderingunstructuredgrid.h:366-382): loop over the remaining IDs -/
def remapLoop (l2p : List (Int × Nat)) : List Int → Idx → Option (Bool × Idx)
  | [], r => some (false, r)
  | id :: ids, r => (mapID id l2p).bind fun p => match p with
    | none => some (true, r)
    | some p => (insertID r p.2).bind fun r => remapLoop l2p ids r

/-- `remapRegion` (reorderingunstructuredgrid.h:366-382) -/
def remap (g : RGrid α V) (region : Idx) : Option (Bool × Idx) := (nodeIDs region).bind fun ids => remapLoop g.l2p ids emptyIdx

/-- the neighbors and weights which a cell's update function sees (unstructuredneighborhood.h:145-174): `hood[i.first()]`, `i.second()` for all weights -/
def neighbors (old : Store.Grid α) : List (Int × V) → Option (List (α × V))
  | [] => some []
  | w :: ws => (cellRead old w.1).bind fun v => (neighbors old ws).map fun r => (v, w.2) :: r

/-- the loop over a streak (unstructuredupdatefunctor.h:150-152). `f` stands for the cell's `update`: it is called for the cell in the new grid and sees its own old state (`hood[hood.index()]`), and the
old states of its neighbors with their weights (matrix `c`). -/
def updateLoop (C : Nat) (f : α → α → List (α × V) → α) (c : Sell V) (old : Store.Grid α) : Nat → AHood → Nat → Store.Grid α → Option (Store.Grid α)
  | 0, _, _, new => some new
  | m + 1, h, p, new => (new.cells[p]?).bind fun stale => (aWeights C c h).bind fun ws => (cellRead old h.x).bind fun own => (neighbors old ws).bind fun nb =>
    updateLoop C f c old m (aInc C h) (p + 1) { new with cells := new.cells.set p (f stale own nb) }

/-- update of a streak (unstructuredupdatefunctor.h:147-152): the pointer to the first cell has to point into the cells of the grid -/
def updateStreak (C : Nat) (f : α → α → List (α × V) → α) (c : Sell V) (old : Store.Grid α) (s : Streak) (new : Store.Grid α) : Option (Store.Grid α) :=
  if 0 ≤ s.origin 0 ∧ s.origin 0 < new.cells.length then updateLoop C f c old (s.endX - s.origin 0).toNat (aMake C (s.origin 0).toNat) (s.origin 0).toNat new else none

/-- all streaks -/
def updateAll (C : Nat) (f : α → α → List (α × V) → α) (c : Sell V) (old : Store.Grid α) : List Streak → Store.Grid α → Option (Store.Grid α)
  | [], new => some new
  | s :: ss, new => (updateStreak C f c old s new).bind fun new => updateAll C f c old ss new

/-- `UnstructuredUpdateFunctor` without threading (unstructuredupdatefunctor.h:134-163, updatefunctormacros.h:148-154), matrix `k` -/
def updateRegion (C : Nat) (f : α → α → List (α × V) → α) (k : Nat) (region : Idx) (old new : RGrid α V) : Option (RGrid α V) :=
  (old.mats[k]?).bind fun c => (allStreaks 0 region (fun _ => 0) 0).bind fun ss => (updateAll C f c old.cells ss new.cells).map fun cells => { new with cells := cells }

/-- state of `SerialSimulator`: current and new grid (serialsimulator.h:127-128) -/
abbrev Grids (α V : Type) := RGrid α V × RGrid α V

/-- `nanoStep` (serialsimulator.h:132-139): update, then swap the grids -/
def simNano (C : Nat) (f : Nat → α → α → List (α × V) → α) (k : Nat) (area : Idx) (nano : Nat) (s : Grids α V) : Option (Grids α V) :=
  (updateRegion C (f nano) k area s.1 s.2).map fun new => (new, s.1)

/-- the loop over nano steps in `step` (serialsimulator.h:82-84), from nano step `i` on -/
def simStep (C : Nat) (f : Nat → α → α → List (α × V) → α) (k : Nat) (area : Idx) : Nat → Nat → Grids α V → Option (Grids α V)
  | 0, _, s => some s
  | m + 1, i, s => (simNano C f k area i s).bind (simStep C f k area m (i + 1))

/-- the loop in `run` (serialsimulator.h:108-114) without steerers and writers -/
def simSteps (C : Nat) (f : Nat → α → α → List (α × V) → α) (k : Nat) (area : Idx) (nanoSteps : Nat) : Nat → Grids α V → Option (Grids α V)
  | 0, s => some s
  | t + 1, s => (simStep C f k area nanoSteps 0 s).bind (simSteps C f k area nanoSteps t)

/-- constructor (serialsimulator.h:49-60): the area and the two grids. `init` stands for `initializer->grid`, `none` here also stands for an exception. -/
def simMake (C M : Nat) (dflt : α) (init : RGrid α V → Option (RGrid α V)) (dim : Int) (fuel : Nat) : Option (Idx × Grids α V) :=
  (regInsertBox 0 emptyIdx ⟨fun _ => 0, fun _ => dim⟩ fuel).bind fun nodes => (rMake C M nodes dflt dflt).bind fun g =>
    (init g).bind fun cur => (init g).bind fun new => (remap cur nodes).bind fun r => if r.1 then none else some (r.2, cur, new)

/-- constructor and `run` (serialsimulator.h:99-117) for `t = maxSteps - startStep` steps: the current grid is initialized once more -/
def simRun (C M : Nat) (dflt : α) (init : RGrid α V → Option (RGrid α V)) (dim : Int) (fuel : Nat) (f : Nat → α → α → List (α × V) → α) (k nanoSteps t : Nat) : Option (Grids α V) :=
  (simMake C M dflt init dim fuel).bind fun s => (init s.2.1).bind fun cur => simSteps C f k s.1 nanoSteps t (cur, s.2.2)

end LGD.Unstr
