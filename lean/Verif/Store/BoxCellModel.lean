import Mathlib.Order.Defs.LinearOrder
import Verif.Store.FixedModel
import Verif.Store.GridModel

/-!
# `BoxCell` and `NeighborhoodIterator`

`none` stands for undefined behaviour (access outside of an array) or non-termination. The container is `FixedArray` (`Verif.Store.FixedModel`). Coordinates of positions are
elements of a linear order with an addition (floating point numbers without NaN; no law of arithmetic is used). The position checker is the default one.
-/

namespace LGD.BoxC
open LGD.Store LGD.FixedA

/-- members of `BoxCell<FixedArray<P, SIZE>>` (boxcell.h:160-162) -/
structure BoxCell (R P : Type) where
  origin : Nat → R
  dimension : Nat → R
  particles : FA P

variable {R P : Type} (n : Nat) (wraps : Nat → Bool)

/-- address of the container at a coordinate (topologies.h:186-216): `none` is the grid's edge cell -/
abbrev Addr := Option Int

/-- the container behind an address -/
def deref (g : Grid (BoxCell R P)) : Addr → Option (BoxCell R P)
  | none => some g.edge
  | some i => if 0 ≤ i then g.cells[i.toNat]? else none

/-- `&hood[d]` in the neighborhood of the cell at `c` (coordmap.h:34-37) -/
def hoodAddr (g : Grid (BoxCell R P)) (c d : Crd) : Addr := topoLocate n wraps (fun k => c k + d k) g.dim

/-- `hood[d].size()` -/
def sizeAt (g : Grid (BoxCell R P)) (a : Addr) : Option Nat := (deref g a).map fun b => b.particles.elements

/-- members of `NeighborhoodIterator` (neighborhooditerator.h:179-184) which change: `boxIterator`, `cell`, and `iterator` as offset from the container's `begin()` -/
structure It where
  box : Crd
  cell : Addr
  pos : Nat

/-- constructor (neighborhooditerator.h:82-100) -/
def mkIt (g : Grid (BoxCell R P)) (c d : Crd) (pos : Nat) : It := ⟨d, hoodAddr n wraps g c d, pos⟩

/-- `CoordBox<DIM>(Coord<DIM>::diagonal(-1), Coord<DIM>::diagonal(3))` (neighborhooditerator.h:95-97, 106) -/
def hoodBox : Box := ⟨fun _ => -1, fun _ => 3⟩

/-- the loop in `begin` (neighborhooditerator.h:108-118), over the coordinates of the box -/
def beginLoop (g : Grid (BoxCell R P)) (c : Crd) : List Crd → Option It
  | [] => (sizeAt g (hoodAddr n wraps g c (fun _ => 1))).map fun s => mkIt n wraps g c (fun _ => 1) s
  | d :: rest => (sizeAt g (hoodAddr n wraps g c d)).bind fun s => if 0 < s then some (mkIt n wraps g c d 0) else beginLoop g c rest

/-- `begin` (neighborhooditerator.h:102-126) -/
def itBegin (g : Grid (BoxCell R P)) (c : Crd) : Option It :=
  (boxCoords n hoodBox (3 ^ (n + 1) + 1)).bind (beginLoop n wraps g c)

/-- `end` (neighborhooditerator.h:128-137) -/
def itEnd (g : Grid (BoxCell R P)) (c : Crd) : Option It :=
  (sizeAt g (hoodAddr n wraps g c (fun _ => 1))).map fun s => mkIt n wraps g c (fun _ => 1) s

/-- the position after the last one of the box (coordbox.h:66-71) -/
def hoodLast : Crd := upd (fun _ => -1) n 2

/-- the loop in `operator++` (neighborhooditerator.h:153-164); `none` if it runs for more than `fuel` iterations -/
def skipLoop (g : Grid (BoxCell R P)) (c : Crd) : Nat → It → Option It
  | 0, _ => none
  | fuel + 1, it => (sizeAt g it.cell).bind fun s =>
    if it.pos = s then
      let b := boxIncr (fun _ => -1) (fun _ => 2) n 0 it.box
      if crdEq n b (hoodLast n) then some { it with box := b }
      else skipLoop g c fuel ⟨b, hoodAddr n wraps g c b, 0⟩
    else some it

/-- `operator++` (neighborhooditerator.h:149-165) -/
def itNext (g : Grid (BoxCell R P)) (c : Crd) (it : It) : Option It := skipLoop n wraps g c (3 ^ (n + 1) + 1) { it with pos := it.pos + 1 }

/-- `operator==` (neighborhooditerator.h:167-170): cell and iterator are compared -/
def itEq (a b : It) : Bool := decide (a.cell = b.cell) && decide (a.pos = b.pos)

/-- `operator*` (neighborhooditerator.h:139-142) -/
def itDeref (g : Grid (BoxCell R P)) (it : It) : Option P := (deref g it.cell).bind fun b => FixedA.get b.particles it.pos

/-- `for (i = begin; i != end; ++i)` (boxcell.h:169, and the loops in user code): the particles visited; `none` if there are `fuel` or more -/
def itLoop (g : Grid (BoxCell R P)) (c : Crd) (last : It) : Nat → It → Option (List P)
  | 0, _ => none
  | fuel + 1, it =>
    if itEq it last then some []
    else (itDeref g it).bind fun p => (itNext n wraps g c it).bind fun it' => (itLoop g c last fuel it').map fun l => p :: l

/-- all particles in the range given by the adapter (neighborhooditerator.h:19-55) -/
def visible (g : Grid (BoxCell R P)) (c : Crd) (fuel : Nat) : Option (List P) :=
  (itBegin n wraps g c).bind fun b => (itEnd n wraps g c).bind fun e => itLoop n wraps g c e fuel b

/-- `particles << p` for all elements of a list, in order; an exception ends the loop -/
def pushAll : List P → FA P → Res P
  | [], a => some (false, a)
  | p :: ps, a => (push a p).bind fun r => if r.1 then some r else pushAll ps r.2

section
variable [LinearOrder R] [Add R] (pos : P → Nat → R)

/-- the default position checker (apitraits.h:1079-1087; floatcoord.h:84-94, 333-347, 607-623) -/
def inBox (origin opposite : Nat → R) (p : P) : Bool := (List.range (n + 1)).all fun k => decide (origin k ≤ pos p k) && decide (pos p k < opposite k)

/-- `copyOver` (boxcell.h:123-138, 164-174): exception thrown, cell afterwards. The loop over the neighbors' particles and the insertions into this cell's container are separated here, since
the neighbors are cells of the old grid. -/
def copyOver (g : Grid (BoxCell R P)) (c : Crd) (fuel nanoStep : Nat) (self : BoxCell R P) : Option (Bool × BoxCell R P) :=
  (deref g (hoodAddr n wraps g c (fun _ => 0))).bind fun old =>
    if nanoStep = 0 then
      (visible n wraps g c fuel).bind fun l =>
        (pushAll (l.filter (inBox n pos old.origin (fun k => old.origin k + old.dimension k))) { self.particles with elements := 0 }).map fun r =>
          (r.1, ⟨old.origin, old.dimension, r.2⟩)
    else some (false, old)
end

/-- the loop in `updateCargo` (boxcell.h:149-151): `m` iterations remain, starting with index `i`. The particle's `update` function gets the particles in its neighborhood and returns the
new state of the particle and the particles it added via the adapter (`operator<<`, neighborhooditerator.h:45-49, boxcell.h:105-110). -/
def cargoLoop (f : P → P × List P) : Nat → Nat → FA P → Res P
  | 0, _, a => some (false, a)
  | m + 1, i, a => (FixedA.get a i).bind fun p => (FixedA.set a i (f p).1).bind fun r => (pushAll (f p).2 r.2).bind fun r => if r.1 then some r else cargoLoop f m (i + 1) r.2

/-- `update` (boxcell.h:112-121, 140-152): exception thrown, cell afterwards -/
def update [LinearOrder R] [Add R] (pos : P → Nat → R) (f : List P → Nat → P → P × List P) (g : Grid (BoxCell R P)) (c : Crd) (fuel nanoStep : Nat) (self : BoxCell R P) :
    Option (Bool × BoxCell R P) :=
  (visible n wraps g c fuel).bind fun l => (copyOver n wraps pos g c fuel nanoStep self).bind fun r =>
    if r.1 then some r else (cargoLoop (f l nanoStep) r.2.particles.elements 0 r.2.particles).map fun s => (s.1, { r.2 with particles := s.2 })

end LGD.BoxC
