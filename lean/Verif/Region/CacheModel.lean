import Verif.Region.SetOpsModel

/-!
# Region: lazily computed size and bounding box
-/

namespace LGD

/-- `CoordBox` (coordbox.h:18-22): origin and dimensions. -/
structure Box where
  origin : Crd
  dims : Crd

/-- Default-constructed `CoordBox`. -/
def emptyBox : Box := { origin := fun _ => 0, dims := fun _ => 0 }

/-- All members of `Region` (region.h:1449-1452). -/
structure GReg where
  idx : Idx
  mySize : Int
  box : Box
  tainted : Bool

/-- `Region::Region()` (region.h:646-649). -/
def gNew : GReg := { idx := emptyIdx, mySize := 0, box := emptyBox, tainted := false }

/-- Loop of `determineGeometry` (region.h:1609-1618). -/
def geomLoop : List Streak → Crd × Crd × Int → Crd × Crd × Int
  | [], acc => acc
  | s :: ss, (mn, mx, sz) =>
    geomLoop ss (fun k => min (mn k) (s.origin k), fun k => max (mx k) (upd s.origin 0 (s.endX - 1) k), sz + (s.endX - s.origin 0))

/-- `Region::determineGeometry` (region.h:1599-1624). -/
def determineGeometry (n : Nat) (idx : Idx) : Option (Int × Box) :=
  if (idx 0).length = 0 then some (0, emptyBox)
  else (siBegin n idx (fun _ => 0) 0).bind (fun first => (toVector n idx).map (fun l =>
    let (mn, mx, sz) := geomLoop l (first.streak.origin, first.streak.origin, 0)
    (sz, { origin := mn, dims := fun k => mx k - mn k + 1 })))

/-- `Region::resetGeometryCache` (region.h:1626-1630), guarded as in `size` (720-726) and `boundingBox` (708-714). -/
def gRefresh (n : Nat) (g : GReg) : Option GReg :=
  if g.tainted then (determineGeometry n g.idx).map (fun p => { g with mySize := p.1, box := p.2, tainted := false })
  else some g

/-- `Region::size` (region.h:720-726). -/
def gSize (n : Nat) (g : GReg) : Option (GReg × Int) := (gRefresh n g).map (fun g => (g, g.mySize))

/-- `Region::boundingBox` (region.h:708-714). -/
def gBox (n : Nat) (g : GReg) : Option (GReg × Box) := (gRefresh n g).map (fun g => (g, g.box))

/-- `Region::clear` (region.h:698-706). -/
def gClear (_ : GReg) : GReg := { idx := emptyIdx, mySize := 0, box := emptyBox, tainted := false }

/-- `Region::operator<<(Streak)` (region.h:945-970). -/
def gInsert (n : Nat) (g : GReg) (s : Streak) : Option GReg :=
  if s.endX ≤ s.origin 0 then some g
  else (regInsert n g.idx s).map (fun i => { g with idx := i, tainted := true })

/-- `Region::operator>>(Streak)` (region.h:999-1009). -/
def gRemove (n : Nat) (g : GReg) (s : Streak) : Option GReg :=
  if s.endX ≤ s.origin 0 ∨ (g.idx 0).length = 0 then some g
  else (regRemove n g.idx s).map (fun i => { g with idx := i, tainted := true })

/-- A region that was default-constructed and then only subjected to `<<`: it is untainted as long as no non-empty streak
has been inserted, i.e. as long as it is empty. -/
def gFresh (idx : Idx) : GReg := { gNew with idx := idx, tainted := decide ((idx 0).length ≠ 0) }

/-- `Region::operator+` (region.h:1180-1217): a copy of one operand, a copy followed by at least one insertion, or a fresh
region. -/
def gPlus (n : Nat) (a b : GReg) : Option GReg :=
  if (b.idx 0).length = 0 then some a
  else if (a.idx 0).length = 0 then some b
  else (isAppendable n a.idx b.idx).bind (fun app1 =>
    if app1 then (regPlus n a.idx b.idx).map (fun i => { a with idx := i, tainted := true })
    else (isAppendable n b.idx a.idx).bind (fun app2 =>
      if app2 then (regPlus n a.idx b.idx).map (fun i => { b with idx := i, tainted := true })
      else (regPlus n a.idx b.idx).map gFresh))

/-- `Region::operator-` (region.h:1041-1099). -/
def gMinus (n : Nat) (a b : GReg) : Option GReg :=
  if (a.idx 0).length = 0 then some gNew
  else if (b.idx 0).length = 0 then some a
  else (regMinus n a.idx b.idx).map gFresh

/-- `Region::operator&` (region.h:1110-1142). -/
def gAnd (n : Nat) (a b : GReg) : Option GReg := (regAnd n a.idx b.idx).map gFresh

end LGD
