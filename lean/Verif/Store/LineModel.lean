import Verif.Store.GridModel

/-!
# Updating streaks: line pointers and generic neighborhoods

The model covers `UpdateFunctorHelpers::Selector` for cells in AoS grids: the variant with fixed coordinates (`LinePointerAssembly`,
`LinePointerUpdateFunctor`, `LinePointerNeighborhood`) and the vanilla variant (`VanillaUpdateFunctor`, `CoordMap`), both for the serial loop over the streaks of a region
(`LGD_UPDATE_FUNCTOR_THREADING_SELECTOR_8`). `none` stands for undefined behaviour: an access outside of the allocated cells, or behind the edge cell.

A cell's `update` is a function of the nano step, the previous content of the target cell and the cells of the stencil (in the order of `Stencil::Coords`).
`updateLineX` of a cell is assumed to do the same as the loop over `update` in `updateWrapper`.
-/

namespace LGD.Line
open LGD.Store

variable {α : Type}

/-- `FixedCoord<X, Y, Z>` (fixedcoord.h:13-25) -/
abbrev Rel := Int × Int × Int

/-- conversion of a `FixedCoord` to `Coord` (coord.h:110, 362, 637) -/
def relCrd (r : Rel) : Crd := fun k => if k = 0 then r.1 else if k = 1 then r.2.1 else if k = 2 then r.2.2 else 0

/-- a stencil: its `Coords` and `OffsetHelper` (stencils.h:306-329) -/
structure Stencil where
  coords : List Rel
  offset : Rel → Int

/-- `Moore<DIM, 1>` (stencils.h:182-192, 310-318, 465-467, 475-483, 511-537): coordinates for `n = DIM - 1`; the summand `RADIUS * Sum1<Moore, DIM - 1, RADIUS>` is 1, 4, 13 -/
def moore : Nat → Stencil
  | 0 => ⟨[(-1, 0, 0), (0, 0, 0), (1, 0, 0)], fun r => r.1 + 3 * r.2.1 + 9 * r.2.2 + 1⟩
  | 1 => ⟨[(-1, -1, 0), (0, -1, 0), (1, -1, 0), (-1, 0, 0), (0, 0, 0), (1, 0, 0), (-1, 1, 0), (0, 1, 0), (1, 1, 0)], fun r => r.1 + 3 * r.2.1 + 9 * r.2.2 + 4⟩
  | _ => ⟨[(-1, -1, -1), (0, -1, -1), (1, -1, -1), (-1, 0, -1), (0, 0, -1), (1, 0, -1), (-1, 1, -1), (0, 1, -1), (1, 1, -1),
           (-1, -1, 0), (0, -1, 0), (1, -1, 0), (-1, 0, 0), (0, 0, 0), (1, 0, 0), (-1, 1, 0), (0, 1, 0), (1, 1, 0),
           (-1, -1, 1), (0, -1, 1), (1, -1, 1), (-1, 0, 1), (0, 0, 1), (1, 0, 1), (-1, 1, 1), (0, 1, 1), (1, 1, 1)], fun r => r.1 + 3 * r.2.1 + 9 * r.2.2 + 13⟩

/-- `VonNeumann<DIM, 1>` (stencils.h:215-228, 321-329, 539-541, 549-553, 569-575): `VonNeumannDimDelta<2, 1, Y>` is `2 * Y`, `VonNeumannDimDelta<3, 1, Z>` is `3 * Z` for
`Y`, `Z` in -1, 0, 1 (see `Verif.Geom.StencilModel`), the last summand is 1, 2, 3 -/
def vonNeumann : Nat → Stencil
  | 0 => ⟨[(-1, 0, 0), (0, 0, 0), (1, 0, 0)], fun r => r.1 + 2 * r.2.1 + 3 * r.2.2 + 1⟩
  | 1 => ⟨[(0, -1, 0), (-1, 0, 0), (0, 0, 0), (1, 0, 0), (0, 1, 0)], fun r => r.1 + 2 * r.2.1 + 3 * r.2.2 + 2⟩
  | _ => ⟨[(0, 0, -1), (0, -1, 0), (-1, 0, 0), (0, 0, 0), (1, 0, 0), (0, 1, 0), (0, 0, 1)], fun r => r.1 + 2 * r.2.1 + 3 * r.2.2 + 3⟩

/-- what the update functors use of a grid: the memory (`Grid`, or `delegate` of `DisplacedGrid`), the location selected by `operator[]` (`none` is the edge cell), the location
selected by the neighborhood object of a cell, and the bounding box -/
structure View (α : Type) where
  mem : Grid α
  loc : Crd → Option Int
  nb : Crd → Rel → Option Int
  org : Crd
  ext : Crd

variable (n : Nat) (wraps : Nat → Bool)

/-- `Grid`: `operator[]` (grid.h:146-154), `getNeighborhood` (grid.h:112-115) with `CoordMap::operator[]` (coordmap.h:36-45), `boundingBox` (grid.h:273-276) -/
def gridView (g : Grid α) : View α :=
  { mem := g, loc := fun c => topoLocate n wraps c g.dim, nb := fun c r => topoLocate n wraps (fun k => c k + relCrd r k) g.dim, org := fun _ => 0, ext := g.dim }

/-- `DisplacedGrid<CELL, TOPOLOGY, true>`: `operator[]` (displacedgrid.h:202-214), `getNeighborhood` (displacedgrid.h:324-331; the neighborhood refers to the delegate),
`boundingBox` (displacedgrid.h:255-258) -/
def dispView (d : DGrid α) : View α :=
  { mem := d.delegate, loc := fun c => topoLocate n wraps (dRel n wraps true d c) d.delegate.dim,
    nb := fun c r => topoLocate n wraps (fun k => dRel n wraps true d c k + relCrd r k) d.delegate.dim, org := d.origin, ext := d.delegate.dim }

/-- a pointer to the edge cell or into the cell vector -/
inductive Ptr where
  | edge
  | cell (i : Int)

/-- `p[k]`, read -/
def load (g : Grid α) : Ptr → Int → Option α
  | .edge, k => if k = 0 then some g.edge else none
  | .cell i, k => if 0 ≤ i + k then g.cells[(i + k).toNat]? else none

/-- `p[k]`, written -/
def store (g : Grid α) : Ptr → Int → α → Option (Grid α)
  | .edge, k, v => if k = 0 then some { g with edge := v } else none
  | .cell i, k, v => if 0 ≤ i + k ∧ i + k < g.cells.length then some { g with cells := g.cells.set (i + k).toNat v } else none

/-- `&cell` for a location -/
def addr (g : Grid α) : Option Int → Option Ptr
  | none => some .edge
  | some i => if 0 ≤ i ∧ i < g.cells.length then some (.cell i) else none

/-! ## the vanilla path -/

/-- all cells of the neighborhood, as `CoordMap` delivers them -/
def vanHood (st : Stencil) (old : View α) (c : Crd) : Option (List α) :=
  st.coords.mapM fun r => (addr old.mem (old.nb c r)).bind fun p => load old.mem p 0

/-- the loop in `VanillaUpdateFunctor::operator()` (vanillaupdatefunctor.h:29-33): `m` cells; `loc'` is `operator[]` of the target grid, whose memory is `g` -/
def vanLoop (st : Stencil) (upd : Nat → α → List α → α) (nano : Nat) (old : View α) (loc' : Crd → Option Int) : Nat → Crd → Crd → Grid α → Option (Grid α)
  | 0, _, _, g => some g
  | m + 1, c, t, g =>
    (vanHood st old c).bind fun hood => (addr g (loc' t)).bind fun p => (load g p 0).bind fun self =>
      (store g p 0 (upd nano self hood)).bind fun g => vanLoop st upd nano old loc' m (LGD.upd c 0 (c 0 + 1)) (LGD.upd t 0 (t 0 + 1)) g

/-- the body of the loop over streaks for the vanilla path (updatefunctor.h:204-208, 242-246) -/
def vanStreak (st : Stencil) (upd : Nat → α → List α → α) (nano : Nat) (srcOff tgtOff : Crd) (old : View α) (loc' : Crd → Option Int) (i : Streak) (g : Grid α) :
    Option (Grid α) :=
  vanLoop st upd nano old loc' (i.endX + srcOff 0 - (i.origin 0 + srcOff 0)).toNat (fun k => i.origin k + srcOff k) (fun k => i.origin k + tgtOff k) g

/-! ## the line pointer path -/

/-- `CalcXCoord` (linepointerassembly.h:17-59) -/
def calcX (s : Streak) (x : Int) : Option Int := if x = -1 then some (s.origin 0 - 1) else if x = 0 then some (s.origin 0) else if x = 1 then some s.endX else none

/-- `DetermineLinePointerCoord` (linepointerassembly.h:68-113) -/
def lineCoord (s : Streak) (r : Rel) : Option Crd := (calcX s r.1).map fun x => fun k => if k = 0 then x else s.origin k + relCrd r k

/-- `LinePointerAssembly` (linepointerassembly.h:118-150) -/
def assemble (st : Stencil) (old : View α) (s : Streak) : Option (List Ptr) :=
  st.coords.mapM fun r => (lineCoord s r).bind fun c => addr old.mem (old.loc c)

/-- the template flags of `LinePointerNeighborhood` (linepointerneighborhood.h:272-280) -/
structure Flags where
  west : Bool
  east : Bool
  top : Bool
  bottom : Bool
  south : Bool
  north : Bool

/-- `pointers[OffsetHelper<STENCIL, r>::VALUE][k]` -/
def atPtr (st : Stencil) (g : Grid α) (ptrs : List Ptr) (r : Rel) (k : Int) : Option α :=
  if 0 ≤ st.offset r then (ptrs[(st.offset r).toNat]?).bind fun p => load g p k else none

/-- `LinePointerNeighborhood::operator[]` (linepointerneighborhood.h:13-240, 304-314). Overload resolution: the functions of `West` and `East` are no templates and win; the templates
of `Top` and `Bottom` are more specialized than those of `North` and `South`, which are more specialized than the general one. -/
def access (st : Stencil) (fl : Flags) (g : Grid α) (ptrs : List Ptr) (offset : Int) (r : Rel) : Option α :=
  if fl.west = true ∧ r.1 = -1 then atPtr st g ptrs (-1, r.2) 0
  else if fl.east = true ∧ r.1 = 1 then atPtr st g ptrs (1, r.2) 0
  else if fl.top = true ∧ r.2.1 = -1 then atPtr st g ptrs (0, -1, r.2.2) 0
  else if fl.bottom = true ∧ r.2.1 = 1 then atPtr st g ptrs (0, 1, r.2.2) 0
  else if fl.north = true ∧ r.2.2 = 1 then atPtr st g ptrs (0, r.2.1, 1) 0
  else if fl.south = true ∧ r.2.2 = -1 then atPtr st g ptrs (0, r.2.1, -1) 0
  else atPtr st g ptrs (0, r.2) (r.1 + offset)

/-- all cells of the neighborhood -/
def lineHood (st : Stencil) (fl : Flags) (g : Grid α) (ptrs : List Ptr) (x : Int) : Option (List α) := st.coords.mapM (access st fl g ptrs x)

/-- `updateWrapper` (linepointerupdatefunctor.h:158-163): `m` iterations, starting at `x`; `p` is `newLine` -/
def wrapper (st : Stencil) (fl : Flags) (upd : Nat → α → List α → α) (nano : Nat) (old : Grid α) (ptrs : List Ptr) (p : Ptr) : Nat → Int → Grid α → Option (Grid α)
  | 0, _, g => some g
  | m + 1, x, g =>
    (lineHood st fl old ptrs x).bind fun hood => (load g p x).bind fun self => (store g p x (upd nano self hood)).bind fun g =>
      wrapper st fl upd nano old ptrs p m (x + 1) g

/-- the flags set in `LinePointerUpdateFunctor` for the axes 1 and 2 (linepointerupdatefunctor.h:67-105) -/
def rowFlags (old : View α) (c : Crd) : Flags :=
  { west := false, east := false,
    north := decide (2 ≤ n) && !wraps 2 && decide (c 2 = old.org 2 + old.ext 2 - 1),
    south := decide (2 ≤ n) && !wraps 2 && decide (c 2 = old.org 2),
    bottom := decide (1 ≤ n) && !wraps 1 && decide (c 1 = old.org 1 + old.ext 1 - 1),
    top := decide (1 ≤ n) && !wraps 1 && decide (c 1 = old.org 1) }

/-- `LinePointerUpdateFunctor::operator()` for `CUR_DIM = 0` (linepointerupdatefunctor.h:115-150) -/
def lineFunctor (st : Stencil) (fl : Flags) (upd : Nat → α → List α → α) (nano : Nat) (s : Streak) (old : Grid α) (ptrs : List Ptr) (p : Ptr) (g : Grid α) : Option (Grid α) :=
  if s.endX = s.origin 0 + 1 then
    wrapper st { fl with west := true, east := true } upd nano old ptrs p (s.endX - s.origin 0).toNat 0 g
  else
    (wrapper st { fl with west := true, east := false } upd nano old ptrs p 1 0 g).bind fun g =>
      (wrapper st { fl with west := false, east := false } upd nano old ptrs p (s.endX - s.origin 0 - 1 - 1).toNat 1 g).bind fun g =>
        wrapper st { fl with west := false, east := true } upd nano old ptrs p (s.endX - s.origin 0 - max 1 (s.endX - s.origin 0 - 1)).toNat (max 1 (s.endX - s.origin 0 - 1)) g

/-- the body of the loop over streaks for the line pointer path (updatefunctor.h:161-170). The pointers are taken at the streak of the region, the flags at the streak
displaced by the source offset. -/
def lineStreak (st : Stencil) (upd : Nat → α → List α → α) (nano : Nat) (srcOff tgtOff : Crd) (old : View α) (loc' : Crd → Option Int) (i : Streak) (g : Grid α) :
    Option (Grid α) :=
  let s : Streak := ⟨fun k => i.origin k + srcOff k, i.endX + srcOff 0⟩
  (assemble st old i).bind fun ptrs => (addr g (loc' fun k => i.origin k + tgtOff k)).bind fun p =>
    lineFunctor st (rowFlags n wraps old s.origin) upd nano s old.mem ptrs p g

/-! ## regions -/

/-- `LGD_UPDATE_FUNCTOR_THREADING_SELECTOR_8` (updatefunctormacros.h:148-153) -/
def updateRegion (body : Streak → Grid α → Option (Grid α)) (region : Idx) (g : Grid α) : Option (Grid α) :=
  (allStreaks n region (fun _ => 0) 0).bind fun ss => ss.foldlM (fun g i => body i g) g

end LGD.Line
