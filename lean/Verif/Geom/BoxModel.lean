import Verif.Region.CacheModel
import Verif.Region.SetOpsModel

/-!
# `CoordBox`: iteration, bounds checks, insertion into regions
-/

namespace LGD

/-- `CoordBox::Iterator::operator++` (coordbox.h:158-173): carry propagation over the axes; `r` axes remain, axis `i` is
next, the last axis is incremented unconditionally. -/
def boxIncr (origin stop : Crd) : Nat → Nat → Crd → Crd
  | 0, i, c => upd c i (c i + 1)
  | r + 1, i, c =>
    if c i + 1 = stop i then boxIncr origin stop r (i + 1) (upd c i (origin i)) else upd c i (c i + 1)

/-- `Coord::operator==` on the first `n + 1` axes (coord.h). -/
def crdEq (n : Nat) (a b : Crd) : Bool := (List.range (n + 1)).all (fun k => decide (a k = b k))

/-- `for (i = b.begin(); i != b.end(); ++i)`: the visited cursors, from `c` on. `none`: more than `fuel` iterations. -/
def boxLoop (n : Nat) (origin stop last : Crd) : Nat → Crd → Option (List Crd)
  | 0, _ => none
  | fuel + 1, c =>
    if crdEq n c last then some []
    else (boxLoop n origin stop last fuel (boxIncr origin stop n 0 c)).map (fun l => c :: l)

/-- `CoordBox::begin`/`end` (coordbox.h:56-59, 66-71) and the loop between them. -/
def boxCoords (n : Nat) (b : Box) (fuel : Nat) : Option (List Crd) :=
  boxLoop n b.origin (fun k => b.origin k + b.dims k) (upd b.origin n (b.origin n + b.dims n)) fuel b.origin

/-- `CoordBox::endPos` (coordbox.h:233-250). -/
def boxEndPos (n : Nat) (b : Box) : Crd :=
  if n = 0 then (if 0 < b.dims 0 then upd b.origin 0 (b.origin 0 + 1) else b.origin)
  else upd b.origin n (b.origin n + b.dims n)

/-- `CoordBox::beginStreak`/`endStreak` (coordbox.h:61-64, 73-77, 188-230): the inner iterator's x-range is one cell, the
end of the streak never changes. -/
def boxStreaks (n : Nat) (b : Box) (fuel : Nat) : Option (List Streak) :=
  (boxLoop n b.origin (upd (fun k => b.origin k + b.dims k) 0 (b.origin 0 + 1)) (boxEndPos n b) fuel b.origin).map
    (List.map (fun c => { origin := c, endX := b.origin 0 + b.dims 0 }))

/-- `OutOfBounds` for the cube topology (topologies.h:100-141). -/
def outOfCube (n : Nat) (c dim : Crd) : Bool := (List.range (n + 1)).any (fun k => decide (c k < 0) || decide (c k ≥ dim k))

/-- `CoordBox::inBounds(Coord)` (coordbox.h:84-88). -/
def boxIn (n : Nat) (b : Box) (c : Crd) : Bool := !outOfCube n (fun k => c k - b.origin k) b.dims

/-- `CoordBox::inBounds(Streak)` (coordbox.h:94-101). -/
def boxInStreak (n : Nat) (b : Box) (s : Streak) : Bool :=
  (!outOfCube n (fun k => s.origin k - b.origin k) b.dims) && decide (s.endX ≤ b.origin 0 + b.dims 0)

/-- `CoordBox::intersects` (coordbox.h:112-116). -/
def boxIntersects (n : Nat) (a b : Box) : Bool :=
  let m : Crd := fun k => max (a.origin k) (b.origin k)
  boxIn n a m && boxIn n b m

/-- `Coord::prod` (coord.h:275, 556, 863) on axes `0 .. n`. -/
def crdProd : Nat → Crd → Int
  | 0, d => d 0
  | n + 1, d => crdProd n d * d (n + 1)

/-- `CoordBox::size` (coordbox.h:119-122). -/
def boxSize (n : Nat) (b : Box) : Int := crdProd n b.dims

/-- `Region::operator<<(CoordBox)` (region.h:978-992). -/
def regInsertBox (n : Nat) (idx : Idx) (b : Box) (fuel : Nat) : Option Idx :=
  (boxStreaks n b fuel).bind (fun ss => (insAll n emptyIdx ss).bind (fun buf =>
    (toVector n idx).bind (fun la => (toVector n buf).bind (fun lb => merge2 n emptyIdx la lb))))

/-- `Region::operator>>(CoordBox)` (region.h:1017-1028). -/
def regRemoveBox (n : Nat) (idx : Idx) (b : Box) (fuel : Nat) : Option Idx :=
  (boxStreaks n b fuel).bind (fun ss => (insAll n emptyIdx ss).bind (fun buf => regMinusAssign n idx buf))

end LGD
