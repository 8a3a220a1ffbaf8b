import Verif.Geom.TopoModel
import Verif.Region.IterModel

/-!
# `Grid` and `DisplacedGrid`

`none` stands for undefined behaviour: an access outside of the cell vector or of a buffer. The topology is given by `wraps`, `n = DIM - 1`.
Boost/HPX serialization to `char` buffers, members (`saveMember`) and CUDA are not modelled here.
-/

namespace LGD.Store

/-- members of `Grid` (grid.h:491-493) -/
structure Grid (α : Type) where
  dim : Crd
  cells : List α
  edge : α

variable {α : Type} (n : Nat) (wraps : Nat → Bool)

/-- constructor (grid.h:64-71) -/
def gridMake (dim : Crd) (default edge : α) : Grid α := ⟨dim, List.replicate (crdProd n dim).toNat default, edge⟩

/-- `operator[]` for reading (grid.h:151-154), `get(Coord)` (grid.h:220-223) -/
def gridRead (g : Grid α) (c : Crd) : Option α :=
  match topoLocate n wraps c g.dim with
  | none => some g.edge
  | some i => if 0 ≤ i then g.cells[i.toNat]? else none

/-- `operator[]` for writing (grid.h:146-149), `set(Coord)` (grid.h:198-201) -/
def gridWrite (g : Grid α) (c : Crd) (v : α) : Option (Grid α) :=
  match topoLocate n wraps c g.dim with
  | none => some { g with edge := v }
  | some i => if 0 ≤ i ∧ i < g.cells.length then some { g with cells := g.cells.set i.toNat v } else none

/-- `setEdge` (grid.h:241-244) -/
def gridSetEdge (g : Grid α) (v : α) : Grid α := { g with edge := v }

/-- `CoordBox::inBounds(Streak)` (coordbox.h:94-101) for a box with origin 0, as in `boundingBox` (grid.h:273-276) -/
def streakInBounds (dim : Crd) (s : Streak) : Bool := !outOfBounds n (fun _ => false) s.origin dim && decide (s.endX ≤ dim 0)

/-- the loop in `get(Streak)` (grid.h:235-238): `m` cells, starting at `x` -/
def readLoop (g : Grid α) (o : Crd) : Nat → Int → Option (List α)
  | 0, _ => some []
  | m + 1, x => (gridRead n wraps g (upd o 0 x)).bind fun v => (readLoop g o m (x + 1)).map fun r => v :: r

/-- `get(Streak)` (grid.h:225-239): the cells written to the target -/
def gridGetStreak (g : Grid α) (s : Streak) : Option (List α) :=
  if streakInBounds n g.dim s then
    match topoLocate n wraps s.origin g.dim with
    | none => none
    | some i =>
      if 0 ≤ i ∧ s.origin 0 ≤ s.endX ∧ i + (s.endX - s.origin 0) ≤ g.cells.length then
        some ((g.cells.drop i.toNat).take (s.endX - s.origin 0).toNat)
      else none
  else readLoop n wraps g s.origin (s.endX - s.origin 0).toNat (s.origin 0)

/-- the loop in `set(Streak)` (grid.h:214-217) -/
def writeLoop (o : Crd) : Nat → Int → List α → Grid α → Option (Grid α)
  | 0, _, _, g => some g
  | _ + 1, _, [], _ => none
  | m + 1, x, v :: vs, g => (gridWrite n wraps g (upd o 0 x) v).bind fun g => writeLoop o m (x + 1) vs g

/-- `set(Streak)` (grid.h:203-218); `src` is the memory behind the source pointer -/
def gridSetStreak (g : Grid α) (s : Streak) (src : List α) : Option (Grid α) :=
  if streakInBounds n g.dim s then
    match topoLocate n wraps s.origin g.dim with
    | none => none
    | some i =>
      if 0 ≤ i ∧ s.origin 0 ≤ s.endX ∧ i + (s.endX - s.origin 0) ≤ g.cells.length ∧ s.endX - s.origin 0 ≤ src.length then
        some { g with cells := g.cells.take i.toNat ++ src.take (s.endX - s.origin 0).toNat ++ g.cells.drop (i.toNat + (s.endX - s.origin 0).toNat) }
      else none
  else writeLoop n wraps s.origin (s.endX - s.origin 0).toNat (s.origin 0) src g

/-- `saveRegionImplementation` (grid.h:317-329): `p` is the offset of `target` in the buffer -/
def saveLoop (g : Grid α) : List Streak → List α → Nat → Option (List α)
  | [], b, _ => some b
  | s :: ss, b, p => (gridGetStreak n wraps g s).bind fun cs =>
    if p + cs.length ≤ b.length then saveLoop g ss (b.take p ++ cs ++ b.drop (p + cs.length)) (p + (s.endX - s.origin 0).toNat) else none

/-- `loadRegionImplementation` (grid.h:331-343) -/
def loadLoop : List Streak → List α → Grid α → Option (Grid α)
  | [], _, g => some g
  | s :: ss, b, g => (gridSetStreak n wraps g s b).bind fun g => loadLoop ss (b.drop (s.endX - s.origin 0).toNat) g

/-- `saveRegion` (grid.h:278-284) -/
def gridSave (g : Grid α) (b : List α) (idx : Idx) (off : Crd) : Option (List α) :=
  (allStreaks n idx off 0).bind fun ss => saveLoop n wraps g ss b 0

/-- `loadRegion` (grid.h:297-303) -/
def gridLoad (g : Grid α) (b : List α) (idx : Idx) (off : Crd) : Option (Grid α) :=
  (allStreaks n idx off 0).bind fun ss => loadLoop n wraps ss b g

/-- members of `DisplacedGrid` (displacedgrid.h:422-423, gridbase.h:293) -/
structure DGrid (α : Type) where
  delegate : Grid α
  origin : Crd
  topo : Crd

variable (tc : Bool)

/-- the relative coordinate in `operator[]` (displacedgrid.h:202-209); `tc` is `TOPOLOGICALLY_CORRECT` -/
def dRel (d : DGrid α) (c : Crd) : Crd :=
  if tc then topoNormalize n wraps (fun k => c k - d.origin k) d.topo else fun k => c k - d.origin k

/-- `get(Coord)` (displacedgrid.h:228-231) -/
def dRead (d : DGrid α) (c : Crd) : Option α := gridRead n wraps d.delegate (dRel n wraps tc d c)

/-- `set(Coord)` (displacedgrid.h:216-219) -/
def dWrite (d : DGrid α) (c : Crd) (v : α) : Option (DGrid α) :=
  (gridWrite n wraps d.delegate (dRel n wraps tc d c) v).map fun g => { d with delegate := g }

/-- displaced streak in `set(Streak)` and `get(Streak)` (displacedgrid.h:223-225, 235-237) -/
def relStreak (d : DGrid α) (s : Streak) : Streak := ⟨fun k => s.origin k - d.origin k, s.endX - d.origin 0⟩

/-- `get(Streak)` (displacedgrid.h:233-238): no normalization -/
def dGetStreak (d : DGrid α) (s : Streak) : Option (List α) := gridGetStreak n wraps d.delegate (relStreak d s)

/-- `set(Streak)` (displacedgrid.h:221-226): no normalization -/
def dSetStreak (d : DGrid α) (s : Streak) (src : List α) : Option (DGrid α) :=
  (gridSetStreak n wraps d.delegate (relStreak d s) src).map fun g => { d with delegate := g }

/-- `NormalizingIterator::normalize` (displacedgrid.h:93-100) -/
def normStreak (topo : Crd) (s : Streak) : Streak :=
  if tc then
    let o := topoNormalize n wraps s.origin topo
    ⟨o, o 0 + (s.endX - s.origin 0)⟩
  else s

/-- loop over a `NormalizingIterator` (displacedgrid.h:64-68): `operator++` continues with the normalized streak, of which it overwrites only the
components which change -/
def normLoop (topo : Crd) (idx : Idx) (off : Crd) : Nat → SIter → Option (List Streak)
  | 0, _ => none
  | fuel + 1, it =>
    if siEq n it (siEnd idx) then some []
    else (siNext n idx off 0 it).bind fun it' =>
      (normLoop topo idx off fuel { it' with streak := normStreak n wraps tc topo it'.streak }).map fun rest => it.streak :: rest

/-- all streaks of a `NormalizingIterator` (displacedgrid.h:55-62, 264-266) -/
def normStreaks (topo : Crd) (idx : Idx) (off : Crd) : Option (List Streak) :=
  (siBegin n idx off 0).bind fun it => normLoop n wraps tc topo idx off ((idx 0).length + 1) { it with streak := normStreak n wraps tc topo it.streak }

/-- `saveRegion` (displacedgrid.h:260-268) -/
def dSave (d : DGrid α) (b : List α) (idx : Idx) (off : Crd) : Option (List α) :=
  (normStreaks n wraps tc d.topo idx (fun k => off k - d.origin k)).bind fun ss => saveLoop n wraps d.delegate ss b 0

/-- `loadRegion` (displacedgrid.h:281-289) -/
def dLoad (d : DGrid α) (b : List α) (idx : Idx) (off : Crd) : Option (DGrid α) :=
  ((normStreaks n wraps tc d.topo idx (fun k => off k - d.origin k)).bind fun ss => loadLoop n wraps ss b d.delegate).map fun g => { d with delegate := g }

end LGD.Store
