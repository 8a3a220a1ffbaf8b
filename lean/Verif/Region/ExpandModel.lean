import Verif.Region.SetOpsModel

/-!
# Region: expansion
-/

namespace LGD

/-- `Coord<DIM> offset; offset[d] = x;` -/
def unitC (d : Nat) (x : Int) : Crd := upd (fun _ => 0) d x

/-- The doubling loop of `expandInOneDimension` (region.h:1713-1727); yields the final accumulator and width. -/
def expandLoop (n d : Nat) (target : Int) : Nat → Int → Idx → Option (Idx × Int)
  | 0, _, _ => none
  | fuel + 1, width, acc =>
    if width < (target + 2) / 3 then
      (allStreaks n acc (unitC d (-width)) 0).bind (fun l1 =>
      (allStreaks n acc (fun _ => 0) 0).bind (fun l2 =>
      (allStreaks n acc (unitC d width) 0).bind (fun l3 =>
      (merge3 n emptyIdx l1 l2 l3).bind (fun acc' => expandLoop n d target fuel (width * 3) acc'))))
    else some (acc, width)

/-- `Region::expandInOneDimension` (region.h:1703-1753). -/
def expandDim (n d : Nat) (radius : Int) (acc : Idx) : Option Idx :=
  (expandLoop n d (2 * radius + 1) (radius.toNat + 1) 1 acc).bind (fun (acc, width) =>
    if width < 2 * radius + 1 then
      let off := radius - width / 2
      if width * 2 < 2 * radius + 1 then
        (allStreaks n acc (unitC d (-off)) 0).bind (fun l1 =>
        (allStreaks n acc (fun _ => 0) 0).bind (fun l2 =>
        (allStreaks n acc (unitC d off) 0).bind (fun l3 => merge3 n emptyIdx l1 l2 l3)))
      else
        (allStreaks n acc (unitC d (-off)) 0).bind (fun l1 =>
        (allStreaks n acc (unitC d off) 0).bind (fun l3 => merge2 n emptyIdx l1 l3))
    else some acc)

/-- `for (int d = 1; d < DIM; ++d) expandInOneDimension(d, …)` (region.h:772-774): the first `m` of these steps. -/
def expandDims (n : Nat) (radii : Crd) : Nat → Idx → Option Idx
  | 0, acc => some acc
  | m + 1, acc => (expandDims n radii m acc).bind (expandDim n (m + 1) (radii (m + 1)))

/-- `Region::expand(Coord)` (region.h:756-777). -/
def expand (n : Nat) (idx : Idx) (radii : Crd) : Option Idx :=
  (allStreaks n idx (unitC 0 (-radii 0)) (radii 0 * 2)).bind (fun l =>
    (insAll n emptyIdx l).bind (fun acc => expandDims n radii n acc))

/-- `Region::expand(unsigned)` (region.h:748-751). -/
def expandW (n : Nat) (idx : Idx) (width : Nat) : Option Idx := expand n idx (fun _ => (width : Int))

/-- Loop of `Region::expandWithStencil` (region.h:796-808). -/
def stencilLoop (n : Nat) (idx : Idx) : List Streak → Idx → Option Idx
  | [], current => some current
  | s :: ss, current =>
    (toVector n current).bind (fun l1 =>
    (allStreaks n idx s.origin (s.endX - s.origin 0 - 1)).bind (fun l2 =>
    (merge2 n emptyIdx l1 l2).bind (fun acc => stencilLoop n idx ss acc)))

/-- `Region::expandWithStencil` (region.h:784-811); the stencil is given by its list of coordinates
(`STENCIL::Coords<0>`, `STENCIL::Coords<1>`, …). -/
def expandWithStencil (n : Nat) (idx : Idx) (stencil : List Crd) : Option Idx :=
  (insAll n emptyIdx (stencil.map (fun c => { origin := c, endX := c 0 + 1 }))).bind (fun st =>
    (toVector n st).bind (fun ss => stencilLoop n idx ss emptyIdx))

end LGD
