import Verif.Store.SoaModel
import Verif.Store.GridModel

/-!
# `UnstructuredSoAGrid`

The cells are kept in a `SoAGrid` (C47) of one dimension with the topology of a torus which is *not* topologically correct (unstructuredsoagrid.h:331, soagrid.h:343). `radius` is the radius of the
stencil of the cell class, `fit` are the extents selected by `soa_grid`, whose memory initially holds `junk`. The matrices are abstract: `μ`, `empty` is the matrix without entries for the given number of rows.
`Coord::operator[]`, the comparison with other grid classes and `toString` (unstructuredsoagrid.h:117-120, 142-161, 185-206) don't compile if used: `(*this)[coord.x()]` finds no `operator[]` for `int`.
-/

namespace LGD.USoa
open LGD.Soa

/-- `Topologies::Torus<1>` -/
def torus : Nat → Bool := fun _ => true

/-- number of cells in `paddedBoundingBox` (unstructuredsoagrid.h:52-59); C++ division truncates -/
def padded (C dim : Int) : Int := ((dim - 1).tdiv C + 1) * C

/-- members (unstructuredsoagrid.h:331-333) -/
structure UGrid (α μ : Type) where
  elements : SGrid α
  matrices : List μ
  dimension : Int

variable {α μ : Type} (radius : Nat) (C : Int)

/-- constructor (unstructuredsoagrid.h:61-75) -/
def make (matrices : Nat) (empty : Int → μ) (fit : Crd) (junk : α) (dim : Int) (default edge : α) : Except Err (UGrid α μ) :=
  (soaMake 0 torus radius (fun _ => 0) (fun _ => padded C dim) (fun _ => 0) fit junk default edge).bind fun e => .ok ⟨e, List.replicate matrices (empty dim), dim⟩

/-- `get(Coord)` (unstructuredsoagrid.h:218-221) -/
def get (g : UGrid α μ) (c : Crd) : Except Err α := soaGet 0 torus radius false g.elements c

/-- `set(Coord)` (unstructuredsoagrid.h:208-211) -/
def set (g : UGrid α μ) (c : Crd) (v : α) : Except Err (UGrid α μ) := (soaSet 0 torus radius false g.elements c v).bind fun e => .ok { g with elements := e }

/-- `set(Streak)` (unstructuredsoagrid.h:213-216) -/
def setStreak (g : UGrid α μ) (s : Streak) (src : List α) : Except Err (UGrid α μ) :=
  (soaSetStreak 0 torus radius false g.elements s src).bind fun e => .ok { g with elements := e }

/-- `setEdge` (unstructuredsoagrid.h:228-231) -/
def setEdge (g : UGrid α μ) (v : α) : Except Err (UGrid α μ) := (soaSetEdge 0 torus radius g.elements v).bind fun e => .ok { g with elements := e }

/-- `loadRegion` (unstructuredsoagrid.h:266-275, soagrid.h:565-576): the radii of a torus are 0, the origin is 0 -/
def loadRegion (g : UGrid α μ) (b : List α) (r : Idx) (off : Crd) : Except Err (UGrid α μ) :=
  (soaLoad 0 torus radius g.elements b r off).bind fun e => .ok { g with elements := e }

/-- `saveRegion` (unstructuredsoagrid.h:255-264, soagrid.h:537-549) -/
def saveRegion (g : UGrid α μ) (r : Idx) (off : Crd) : Except Err (List α) := soaSave 0 torus radius g.elements r off

/-- `setWeights` (unstructuredsoagrid.h:96-101); `none` if the ID is too large (undefined behavior if `assert` is disabled) -/
def setWeights (g : UGrid α μ) (i : Nat) (m : μ) : Option (UGrid α μ) := if i < g.matrices.length then some { g with matrices := g.matrices.set i m } else none

/-- `resize` (unstructuredsoagrid.h:173-183) -/
def resize (empty : Int → μ) (fit : Crd) (junk : α) (g : UGrid α μ) (origin dim : Int) : Except Err (UGrid α μ) :=
  if 0 < origin then .error .logicError
  else (soaGet 0 torus radius false g.elements (fun _ => 0)).bind fun d => make radius C g.matrices.length empty fit junk dim d g.elements.edge

/-- comparison of the cells (gridbase.h:187-205), which includes the padding: both boxes have the origin 0 -/
def sameCells [DecidableEq α] (g h : UGrid α μ) (box : Int) : Except Err Bool :=
  (List.range box.toNat).foldlM (fun b (i : Nat) => if b then (get radius g (fun _ => (i : Int))).bind fun x => (get radius h (fun _ => (i : Int))).bind fun y => .ok (decide (x = y)) else .ok false) true

/-- `operator==` (unstructuredsoagrid.h:122-140); the matrices are compared by `=` -/
def equal [DecidableEq α] [DecidableEq μ] (g h : UGrid α μ) : Except Err Bool :=
  if g.dimension = 0 ∧ h.dimension = 0 then .ok true
  else if g.elements.edge ≠ h.elements.edge then .ok false
  else if g.elements.dim 0 ≠ h.elements.dim 0 then .ok false
  else (sameCells radius g h (g.elements.dim 0)).bind fun b => .ok (b && decide (g.matrices = h.matrices))

/-- cells after `UnstructuredGrid::resize` (unstructuredgrid.h:185-196, grid.h:102-106, `std::vector::resize`), which keeps existing cells; `init` is a default constructed cell -/
def aosResize (init : α) (g : LGD.Store.Grid α) (origin dim : Int) : Except Err (LGD.Store.Grid α) :=
  if 0 < origin then .error .logicError
  else .ok { g with dim := fun _ => dim, cells := g.cells.take dim.toNat ++ List.replicate (dim.toNat - g.cells.length) init }

end LGD.USoa
