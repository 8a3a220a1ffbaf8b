import Verif.Geom.TopoModel

/-!
# `OffsetHelper`
-/

namespace LGD

/-- Loop over the slices of the bounding box (offsethelper.h:72-83): collects the coordinates of empty slices along axis
`k`. -/
def gapScan (n : Nat) (idx : Idx) (bb : Box) (k fuel : Nat) : List Int → Idx → Option Idx
  | [], g => some g
  | i :: is, g =>
    (regInsertBox n emptyIdx { origin := upd bb.origin k i, dims := upd bb.dims k 1 } fuel).bind fun cut =>
    (regAnd n idx cut).bind fun x =>
    if (x 0).length = 0 then (regInsert 0 g { origin := fun _ => i, endX := i + 1 }).bind (gapScan n idx bb k fuel is)
    else gapScan n idx bb k fuel is g

/-- Search for the longest streak (offsethelper.h:85-90); `Streak::length` is `endX - origin.x()`. -/
def widestGap (l : List Streak) : Streak :=
  l.foldl (fun w s => if s.endX - s.origin 0 > w.endX - w.origin 0 then s else w) { origin := fun _ => 0, endX := 0 }

/-- One axis of `OffsetHelper::operator()` (offsethelper.h:56-102): offset and extent. -/
def offsetAxis (n : Nat) (idx : Idx) (area : Crd) (wraps : Nat → Bool) (fuel k : Nat) : Option (Int × Int) :=
  (determineGeometry n idx).bind fun g =>
  let bb := g.2
  if wraps k = false ∨ bb.dims k < (area k).tdiv 2 then some (bb.origin k, bb.dims k)
  else
    (gapScan n idx bb k fuel ((List.range (bb.dims k).toNat).map (fun j : Nat => bb.origin k + (j : Int))) emptyIdx).bind fun gaps =>
    (toVector 0 gaps).bind fun l =>
    let w := widestGap l
    let wrappedWidth := area k - (w.endX - w.origin 0)
    if wrappedWidth < bb.dims k then some (w.endX, wrappedWidth) else some (bb.origin k, bb.dims k)

/-- `OffsetHelper<m - 1, DIM, TOPOLOGY>` (offsethelper.h:44-119): recursion over the axes. -/
def offsetHelper (n : Nat) (idx : Idx) (area : Crd) (wraps : Nat → Bool) (fuel : Nat) : Nat → Option (Crd × Crd)
  | 0 => some (fun _ => 0, fun _ => 0)
  | m + 1 =>
    (offsetHelper n idx area wraps fuel m).bind fun p =>
    (offsetAxis n idx area wraps fuel m).map fun q => (upd p.1 m q.1, upd p.2 m q.2)

/-- `OffsetHelper` for unstructured topologies (offsethelper.h:124-137) -/
def offsetHelperUnstructured (n : Nat) (idx : Idx) : Option (Crd × Crd) :=
  (determineGeometry n idx).map fun g => (g.2.origin, g.2.dims)

end LGD
