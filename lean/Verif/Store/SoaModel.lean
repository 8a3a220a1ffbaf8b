import Verif.Store.LineModel
import Verif.Geom.Linear

/-!
# `SoAGrid` and the update of its regions (`FixedNeighborhoodUpdateFunctor`)

`LibFlatArray::soa_grid` keeps one array per member of the cell class; all arrays have the same layout, so they are modelled by one list of cells. `ext` are the extents
`DIM_X`, `DIM_Y`, `DIM_Z` which `soa_grid` selects (soa_grid.hpp:123-144): the requested dimensions, rounded up. The topology is given by `wraps`, `n = DIM - 1`, `radius` is the
radius of the stencil. Byte buffers are lists of cells (one entry per cell; the order of the members inside of the buffer is LibFlatArray's business).
-/

namespace LGD.Soa
open LGD.Line

/-- why a call does not return: undefined behaviour (access outside of the memory), or `std::logic_error` -/
inductive Err where
  | undefined
  | logicError
  deriving DecidableEq, Repr

/-- members of `SoAGrid` (soagrid.h:687-692, gridbase.h:293) -/
structure SGrid (α : Type) where
  org : Crd
  dim : Crd
  topo : Crd
  ext : Crd
  edge : α
  mem : List α

variable {α β : Type} (n : Nat) (wraps : Nat → Bool) (radius : Nat)

/-- `calcEdgeRadii` (soagrid.h:567-573) -/
def edgeRadii (k : Nat) : Int := if wraps k = true ∨ n < k then 0 else radius

/-- `actualDimensions` (soagrid.h:392-396) -/
def actualDim (dim : Crd) : Crd := fun k => (if k ≤ n then dim k else 1) + edgeRadii n wraps radius k * 2

/-- one cell of the memory, `accessor >> cell` -/
def memAt (m : List α) (i : Int) : Except Err α :=
  if 0 ≤ i then (match m[i.toNat]? with | some v => .ok v | none => .error .undefined) else .error .undefined

/-- `accessor << cell` -/
def memSet (m : List α) (i : Int) (v : α) : Except Err (List α) :=
  if 0 ≤ i ∧ i < m.length then .ok (m.set i.toNat v) else .error .undefined

/-- consecutive writes; `none` skips a cell -/
def setRow : List α → Int → List (Option α) → Except Err (List α)
  | m, _, [] => .ok m
  | m, i, none :: vs => setRow m (i + 1) vs
  | m, i, some v :: vs => (memSet m i v).bind fun m => setRow m (i + 1) vs

/-- consecutive reads (get_instance_functor.hpp, called from soa_grid.hpp:207-220) -/
def getRow (m : List α) : Int → Nat → Except Err (List α)
  | _, 0 => .ok []
  | i, l + 1 => (memAt m i).bind fun v => (getRow m (i + 1) l).bind fun r => .ok (v :: r)

/-- the body of the loop over `y` in `SetContent` (soagrid.h:69-101): contents of row (`y`, `z`); `none` where the interior is left alone -/
def rowContent (gdim rad : Crd) (init : Bool) (edge inner : α) (y z : Int) : List (Option α) :=
  let onEdge1 := decide (z < rad 2) || decide (z ≥ gdim 2 - rad 2)
  let cell1 := if onEdge1 then edge else inner
  let onEdge2 := onEdge1 || (decide (y < rad 1) || decide (y ≥ gdim 1 - rad 1))
  let cell2 := if decide (y < rad 1) || decide (y ≥ gdim 1 - rad 1) then edge else cell1
  List.replicate (rad 0).toNat (some edge) ++ List.replicate (gdim 0 - rad 0 - rad 0).toNat (if onEdge2 || init then some cell2 else none) ++
    List.replicate (gdim 0 - (gdim 0 - rad 0)).toNat (some edge)

/-- the two outer loops in `SetContent` as a list of rows (soagrid.h:61-69) -/
def rows (gdim : Crd) : List (Int × Int) :=
  (List.range (gdim 2).toNat).flatMap fun (z : Nat) => (List.range (gdim 1).toNat).map fun (y : Nat) => ((y : Int), (z : Int))

/-- `SetContent::operator()` (soagrid.h:58-105) -/
def setContent (gdim rad ext : Crd) (init : Bool) (edge inner : α) (m : List α) : Except Err (List α) :=
  (rows gdim).foldlM (fun m p => setRow m (p.2 * ext 0 * ext 1 + p.1 * ext 0) (rowContent gdim rad init edge inner p.1 p.2)) m

/-- index of a relative coordinate: `GenIndex` (soagrid.h:124-151), `delegateGet`/`delegateSet` (soagrid.h:694-792) -/
def genIdx (g : SGrid α) (c : Crd) : Int := lin g.ext 2 0 fun k => edgeRadii n wraps radius k + (if k ≤ n then c k else 0)

/-- constructor (soagrid.h:350-385); `fit` are the extents chosen by `soa_grid`, whose memory initially holds the value `junk` -/
def soaMake (org dim topo fit : Crd) (junk default edge : α) : Except Err (SGrid α) :=
  (setContent (actualDim n wraps radius dim) (edgeRadii n wraps radius) fit true edge default (List.replicate (vol fit 2 0).toNat junk)).bind fun m =>
    .ok ⟨org, dim, topo, fit, edge, m⟩

/-- `setEdge` (soagrid.h:465-473) -/
def soaSetEdge (g : SGrid α) (v : α) : Except Err (SGrid α) :=
  (setContent (actualDim n wraps radius g.dim) (edgeRadii n wraps radius) g.ext false v v g.mem).bind fun m => .ok { g with edge := v, mem := m }

/-- `resize` (soagrid.h:387-408): `soa_grid::resize` (soa_grid.hpp:123-131) keeps the memory if the dimensions are the same -/
def soaResize (g : SGrid α) (org dim fit : Crd) (junk : α) : Except Err (SGrid α) :=
  let same := (List.range 3).all fun k => decide (actualDim n wraps radius g.dim k = actualDim n wraps radius dim k)
  let e := if same then g.ext else fit
  let m := if same then g.mem else List.replicate (vol fit 2 0).toNat junk
  (setContent (actualDim n wraps radius dim) (edgeRadii n wraps radius) e false g.edge g.edge m).bind fun m =>
    .ok ⟨org, dim, g.topo, e, g.edge, m⟩

variable (tc : Bool)

/-- relative coordinate (soagrid.h:422-425, 436-439, 446-449, 459-462); `tc` is `TOPOLOGICALLY_CORRECT` -/
def soaRel (g : SGrid α) (c : Crd) : Crd := if tc then topoNormalize n wraps (fun k => c k - g.org k) g.topo else fun k => c k - g.org k

/-- `get(Coord)` (soagrid.h:444-455) -/
def soaGet (g : SGrid α) (c : Crd) : Except Err α :=
  let r := soaRel n wraps tc g c
  if outOfBounds n wraps r g.dim then .ok g.edge else memAt g.mem (genIdx n wraps radius g r)

/-- `set(Coord)` (soagrid.h:420-432) -/
def soaSet (g : SGrid α) (c : Crd) (v : α) : Except Err (SGrid α) :=
  let r := soaRel n wraps tc g c
  if outOfBounds n wraps r g.dim then soaSetEdge n wraps radius g v
  else (memSet g.mem (genIdx n wraps radius g r) v).bind fun m => .ok { g with mem := m }

/-- `get(Streak)` (soagrid.h:457-463) -/
def soaGetStreak (g : SGrid α) (s : Streak) : Except Err (List α) :=
  getRow g.mem (genIdx n wraps radius g (soaRel n wraps tc g s.origin)) (s.endX - s.origin 0).toNat

/-- `set(Streak)` (soagrid.h:434-442); `src` is the memory behind the source pointer -/
def soaSetStreak (g : SGrid α) (s : Streak) (src : List α) : Except Err (SGrid α) :=
  if s.endX - s.origin 0 ≤ src.length then
    (setRow g.mem (genIdx n wraps radius g (soaRel n wraps tc g s.origin)) ((src.take (s.endX - s.origin 0).toNat).map some)).bind fun m => .ok { g with mem := m }
  else .error .undefined

/-- `OffsetStreakIterator` (soagrid.h:273-333) and the displacement in `saveRegion`/`loadRegion` (soagrid.h:511-514, 536-539): memory index and length of each streak.
Coordinates are not normalized. -/
def regionRows (g : SGrid α) (off : Crd) (ss : List Streak) : List (Int × Nat) :=
  ss.map fun s => (lin g.ext 2 0 (fun k => edgeRadii n wraps radius k + (if k ≤ n then -g.org k + off k + s.origin k else 0)), (s.endX - s.origin 0).toNat)

/-- all streaks of a region; a region which is no valid region is undefined behaviour -/
def streaksOf (idx : Idx) : Except Err (List Streak) := match allStreaks n idx (fun _ => 0) 0 with | some ss => .ok ss | none => .error .undefined

/-- `soa_grid::save` (soa_grid.hpp:293-313, save_functor.hpp:41-60): concatenation of the rows -/
def saveRows (m : List α) : List (Int × Nat) → Except Err (List α)
  | [] => .ok []
  | r :: rs => (getRow m r.1 r.2).bind fun a => (saveRows m rs).bind fun b => .ok (a ++ b)

/-- `soa_grid::load` (soa_grid.hpp:243-258, load_functor.hpp) -/
def loadRows : List (Int × Nat) → List α → List α → Except Err (List α)
  | [], _, m => .ok m
  | r :: rs, b, m => if r.2 ≤ b.length then (setRow m r.1 ((b.take r.2).map some)).bind fun m => loadRows rs (b.drop r.2) m else .error .undefined

/-- `saveRegion` (soagrid.h:509-521, 613-618) -/
def soaSave (g : SGrid α) (idx : Idx) (off : Crd) : Except Err (List α) :=
  (streaksOf n idx).bind fun ss => saveRows g.mem (regionRows n wraps radius g off ss)

/-- `loadRegion` (soagrid.h:534-546, 620-631): throws if the buffer is too small for the size of the region -/
def soaLoad (g : SGrid α) (b : List α) (idx : Idx) (off : Crd) : Except Err (SGrid α) :=
  (streaksOf n idx).bind fun ss =>
    let rs := regionRows n wraps radius g off ss
    if b.length < (rs.map (·.2)).sum then .error .logicError
    else (loadRows rs b g.mem).bind fun m => .ok { g with mem := m }

/-- `saveMember` (soagrid.h:575-594, 633-645) via `SaveMember` (soagrid.h:182-201): `out` extracts the member -/
def soaSaveMember (out : α → β) (g : SGrid α) (idx : Idx) : Except Err (List β) :=
  (streaksOf n idx).bind fun ss => (saveRows g.mem (regionRows n wraps radius g (fun _ => 0) ss)).bind fun l => .ok (l.map out)

/-- member writes to consecutive cells -/
def memberRow (put : α → β → α) : List α → Int → List β → Except Err (List α)
  | m, _, [] => .ok m
  | m, i, b :: bs => (memAt m i).bind fun v => (memSet m i (put v b)).bind fun m => memberRow put m (i + 1) bs

/-- loop in `LoadMember` (soagrid.h:242-261) -/
def memberRows (put : α → β → α) : List (Int × Nat) → List β → List α → Except Err (List α)
  | [], _, m => .ok m
  | r :: rs, b, m => if r.2 ≤ b.length then (memberRow put m r.1 (b.take r.2)).bind fun m => memberRows put rs (b.drop r.2) m else .error .undefined

/-- `loadMember` (soagrid.h:596-610, 647-660); `src` is the memory behind the source pointer, `put` replaces the member -/
def soaLoadMember (put : α → β → α) (g : SGrid α) (src : List β) (idx : Idx) : Except Err (SGrid α) :=
  (streaksOf n idx).bind fun ss => (memberRows put (regionRows n wraps radius g (fun _ => 0) ss) src g.mem).bind fun m => .ok { g with mem := m }

/-! ## updates -/

/-- the boundary offsets of a `FixedNeighborhood` (fixedneighborhood.h:41-62) -/
structure Bnd where
  west : Int
  east : Int
  top : Int
  bottom : Int
  south : Int
  north : Int

/-- `FixedNeighborhood::operator[]` (fixedneighborhood.h:64-82) at memory index `i` -/
def fixedAt (m : List α) (ext : Crd) (b : Bnd) (i : Int) (r : Rel) : Except Err α :=
  memAt m (i + lin ext 2 0 (relCrd r) + lin ext 2 0 (relCrd (
    (if r.1 < 0 then b.west else 0) + (if r.1 > 0 then b.east else 0),
    (if r.2.1 < 0 then b.top else 0) + (if r.2.1 > 0 then b.bottom else 0),
    (if r.2.2 < 0 then b.south else 0) + (if r.2.2 > 0 then b.north else 0))))

/-- all cells of the neighborhood -/
def fixedHood (st : Stencil) (m : List α) (ext : Crd) (b : Bnd) (i : Int) : Except Err (List α) := st.coords.mapM (fixedAt m ext b i)

/-- `updateLineX` of the cell class, assumed to be a loop `for (; hoodOld.index() < indexEnd; ++hoodOld.index(), ++hoodNew.index())` over updates of single cells; `l` iterations.
Yields the indices after the loop. -/
def lineX (st : Stencil) (upd : Nat → α → List α → α) (nano : Nat) (old : List α) (extOld : Crd) (b : Bnd) : Nat → Int × Int × List α → Except Err (Int × Int × List α)
  | 0, s => .ok s
  | l + 1, (i, j, m) => (fixedHood st old extOld b i).bind fun hood => (memAt m j).bind fun self => (memSet m j (upd nano self hood)).bind fun m =>
    lineX st upd nano old extOld b l (i + 1, j + 1, m)

/-- `Invoke` for axes 2 and 1 (fixedneighborhoodupdatefunctor.h:51-107): the flags `BOUNDARY_NORTH`, `BOUNDARY_SOUTH`, `BOUNDARY_BOTTOM`, `BOUNDARY_TOP`; `o` is
`streak.origin + *offsetOld` -/
def soaFlags (topo dimOld : Crd) (o : Crd) : Bool × Bool × Bool × Bool :=
  let c := if (List.range (n + 1)).any fun k => decide (topo k ≠ 0) then topoNormalize n wraps o topo else o
  (decide (2 ≤ n) && (wraps 2 && decide (c 2 = dimOld 2 - 1)), decide (2 ≤ n) && (wraps 2 && decide (c 2 = 0)),
    decide (1 ≤ n) && (wraps 1 && decide (c 1 = dimOld 1 - 1)), decide (1 ≤ n) && (wraps 1 && decide (c 1 = 0)))

/-- `Invoke` for axis 0 (fixedneighborhoodupdatefunctor.h:145-254); `offOld`, `offNew` include the origins and edge radii (updatefunctor.h:119-123). Axes above `n` are 0 in
`originOld` and `originNew`. -/
def soaStreak (st : Stencil) (upd : Nat → α → List α → α) (nano : Nat) (old : SGrid α) (offOld offNew dimNew extNew : Crd) (s : Streak) (m : List α) :
    Except Err (List α) :=
  let oOld : Crd := fun k => s.origin k + offOld k
  let oNew : Crd := fun k => s.origin k + offNew k
  let fl := soaFlags n wraps old.topo old.dim oOld
  let norm := ((List.range (n + 1)).any fun k => decide (old.topo k ≠ 0)) && !outOfBounds n wraps oOld old.topo
  let nOld := if norm then topoNormalize n wraps oOld old.topo else oOld
  let nNew := if norm then topoNormalize n wraps oNew old.topo else oNew
  let i0 := lin old.ext 2 0 fun k => if k ≤ n then nOld k else 0
  let j0 := lin extNew 2 0 fun k => if k ≤ n then nNew k else 0
  let len := s.endX - s.origin 0
  let indexEnd := i0 + len
  let b : Bnd := { west := 0, east := 0, top := if fl.2.2.2 then dimNew 1 else 0, bottom := if fl.2.2.1 then -dimNew 1 else 0,
                   south := if fl.2.1 then dimNew 2 else 0, north := if fl.1 then -dimNew 2 else 0 }
  (if wraps 0 && decide (nOld 0 = 0) then
      lineX st upd nano old.mem old.ext { b with west := dimNew 0, east := if nOld 0 + 1 = dimNew 0 then -dimNew 0 else 0 } 1 (i0, j0, m)
    else .ok (i0, j0, m)).bind fun r1 =>
  if wraps 0 && decide (nOld 0 + len = dimNew 0) then
    (lineX st upd nano old.mem old.ext b (indexEnd - 1 - r1.1).toNat r1).bind fun r2 =>
      (lineX st upd nano old.mem old.ext { b with east := -dimNew 0 } (indexEnd - r2.1).toNat r2).bind fun r3 => .ok r3.2.2
  else (lineX st upd nano old.mem old.ext b (indexEnd - r1.1).toNat r1).bind fun r2 => .ok r2.2.2

/-- `Selector::operator()` for SoA grids (updatefunctor.h:97-141), serial loop over streaks. `soa_grid::callback` (soa_grid.hpp:437-443) throws if the dimensions of the
grids differ (with the default of symmetric callbacks). -/
def soaUpdate (st : Stencil) (upd : Nat → α → List α → α) (nano : Nat) (srcOff tgtOff : Crd) (old new : SGrid α) (idx : Idx) : Except Err (SGrid α) :=
  if (List.range 3).any fun k => decide (actualDim n wraps radius old.dim k ≠ actualDim n wraps radius new.dim k) then .error .logicError
  else (streaksOf n idx).bind fun ss =>
    (ss.foldlM (fun m s => soaStreak n wraps st upd nano old (fun k => srcOff k - old.org k + edgeRadii n wraps radius k)
      (fun k => tgtOff k - new.org k + edgeRadii n wraps radius k) new.dim new.ext s m) new.mem).bind fun m => .ok { new with mem := m }

end LGD.Soa
